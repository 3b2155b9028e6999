import Verif.Spec.Stream
import Mathlib.Data.List.Forall2
import Mathlib.Tactic.Ring

/-!
C21-C23: the stream reader.
-/

namespace Stempy.Props
open Stempy.StreamReader Stempy.Spec

theorem encodeLE_length (k v : Nat) : (encodeLE k v).length = k := by
  induction k generalizing v with
  | zero => rfl
  | succ k ih => simp [encodeLE, ih]

theorem encodeArray_length (k : Nat) (vs : List Nat) : (encodeArray k vs).length = k * vs.length := by
  induction vs with
  | nil => simp [encodeArray]
  | cons v vs ih =>
    simp only [encodeArray, List.flatMap_cons, List.length_append, encodeLE_length, List.length_cons] at *
    rw [ih]; ring

theorem decodeLE_encodeLE (k v : Nat) (h : v < 256 ^ k) : decodeLE (encodeLE k v) = v := by
  induction k generalizing v with
  | zero => simp at h; simp [encodeLE, decodeLE, h]
  | succ k ih =>
    have h2 : v / 256 < 256 ^ k := by
      rw [Nat.div_lt_iff_lt_mul (by norm_num)]
      rw [pow_succ] at h; exact h
    simp only [encodeLE, decodeLE, ih _ h2]
    have : (UInt8.ofNat (v % 256)).toNat = v % 256 := by
      rw [UInt8.toNat_ofNat']
      omega
    rw [this]
    omega

theorem encodeArray_slice (k : Nat) (vs : List Nat) (i : Nat) (h : i < vs.length) :
    ((encodeArray k vs).drop (k * i)).take k = encodeLE k vs[i] := by
  induction vs generalizing i with
  | nil => simp at h
  | cons v vs ih =>
    cases i with
    | zero =>
      simp only [encodeArray, List.flatMap_cons, Nat.mul_zero, List.drop_zero, List.getElem_cons_zero]
      rw [List.take_append_of_le_length (by rw [encodeLE_length]),
        List.take_of_length_le (by rw [encodeLE_length])]
    | succ i =>
      simp only [encodeArray, List.flatMap_cons, List.getElem_cons_succ]
      rw [← ih i (by simpa using h)]
      have : k * (i + 1) = (encodeLE k v).length + k * i := by rw [encodeLE_length]; ring
      rw [this, List.drop_append, List.drop_eq_nil_of_le (by omega), List.nil_append, Nat.add_sub_cancel_left]
      rfl

/-- Decoding an encoded array gives it back. -/
theorem decodeArray_encodeArray (k : Nat) (vs : List Nat) (n : Nat) (hn : n = vs.length)
    (h : ∀ v ∈ vs, v < 256 ^ k) : decodeArray k n (encodeArray k vs) = vs := by
  subst hn
  apply List.ext_getElem
  · simp [decodeArray]
  · intro i h1 h2
    simp only [decodeArray, List.getElem_map, List.getElem_range]
    rw [encodeArray_slice k vs i h2, decodeLE_encodeLE]
    exact h _ (List.getElem_mem h2)

private theorem readBytes_append (a rest : List UInt8) (left : List File) (n : Nat) (hn : n = a.length) :
    readBytes n ⟨some (a ++ rest), left⟩ = (.ok a, ⟨some rest, left⟩) := by
  subst hn
  have h : a.length ≤ (a ++ rest).length := by simp
  unfold readBytes
  rcases left with _ | ⟨_ | f, fs⟩ <;> simp [readBytesFrom]

private theorem readBytes_short (bytes : List UInt8) (n : Nat) (hn : bytes.length < n) :
    readBytes n ⟨some bytes, []⟩ = (.throw eofException, ⟨none, []⟩) := by
  simp [readBytes, readBytesFrom, hn]

private theorem bind_ok {α β : Type} {x : Rd α} {f : α → Rd β} {s t : State} {a : α}
    (h : x s = (.ok a, t)) : StreamReader.bind x f s = f a t := by
  simp [StreamReader.bind, h]

private theorem bind_throw {α β : Type} {x : Rd α} {f : α → Rd β} {s t : State} {m : String}
    (h : x s = (.throw m, t)) : StreamReader.bind x f s = (.throw m, t) := by
  simp [StreamReader.bind, h]

/-- A record is a header of `n` bytes and the pixels; the header is read from its bytes. -/
private structure Split (v : Nat) (bytes : List UInt8) (b : Block) (head : List UInt8) : Prop where
  eq : bytes = head ++ encodeArray 2 b.data
  pos : 0 < head.length
  header : ∀ rest left, readHeader v ⟨some (head ++ rest), left⟩ = (.ok b.header, ⟨some rest, left⟩)
  short : ∀ k, k < head.length →
    readHeader v ⟨some (head.take k), []⟩ = (.throw eofException, ⟨none, []⟩)
  size : dataSize b.header = b.data.length
  pixel : ∀ x ∈ b.data, x < 256 ^ 2

private theorem undoNumbers (numbers : List Nat) (hnum : ∀ x ∈ numbers, x < 2 ^ 32) :
    (numbers.map (fun x => (x + 1) % 2 ^ 32)).map (fun n => (n + (2 ^ 32 - 1)) % 2 ^ 32) = numbers := by
  have key : ∀ x, x < 2 ^ 32 → ((x + 1) % 2 ^ 32 + (2 ^ 32 - 1)) % 2 ^ 32 = x := by
    intro x hx
    omega
  induction numbers with
  | nil => rfl
  | cons x l ih =>
    rw [List.map_cons, List.map_cons, key x (hnum x (by simp)), ih (fun x hx => hnum x (by simp [hx]))]

private theorem split_v1 {rows cols version timestamp : Nat} {reserved numbers unused data : List Nat}
    (hn : 10 + numbers.length + unused.length = 1024) (hr : reserved.length = 5)
    (hw : ∀ x ∈ [rows, cols, version, timestamp] ++ reserved ++ unused, x < 2 ^ 32)
    (hnum : ∀ x ∈ numbers, x < 2 ^ 32)
    (hd : data.length = cols * rows * numbers.length) (hs : data.length < 2 ^ 32)
    (hp : ∀ x ∈ data, x < 2 ^ 16) :
    ∃ head, Split 1
      (encodeArray 4 ([numbers.length, rows, cols, version, timestamp] ++ reserved ++
        numbers.map (fun x => (x + 1) % 2 ^ 32) ++ unused) ++ encodeArray 2 data)
      ⟨{ imagesInBlock := numbers.length, frameDimensions := (cols, rows), version := version,
         timestamp := timestamp, imageNumbers := numbers }, data⟩ head := by
  refine ⟨_, rfl, ?_, ?_, ?_, ?_, ?_⟩
  · rw [encodeArray_length]; simp
  · intro rest left
    obtain ⟨r0, r1, r2, r3, r4, rfl⟩ : ∃ r0 r1 r2 r3 r4, reserved = [r0, r1, r2, r3, r4] := by
      match reserved, hr with
      | [r0, r1, r2, r3, r4], _ => exact ⟨_, _, _, _, _, rfl⟩
    have hlen : ([numbers.length, rows, cols, version, timestamp] ++ [r0, r1, r2, r3, r4] ++
        numbers.map (fun x => (x + 1) % 2 ^ 32) ++ unused).length = 1024 := by
      simp; omega
    simp only [readHeader, readHeaderVersion1]
    rw [bind_ok (readBytes_append _ rest left _ (by rw [encodeArray_length, hlen]))]
    rw [decodeArray_encodeArray 4 _ 1024 hlen.symm]
    · have e := undoNumbers numbers hnum
      have e2 : (numbers.map (fun x => (x + 1) % 2 ^ 32) ++ unused).take numbers.length =
          numbers.map (fun x => (x + 1) % 2 ^ 32) := by
        rw [List.take_append_of_le_length (by simp), List.take_of_length_le (by simp)]
      have hle : 10 + numbers.length ≤ 1024 := by omega
      simp only [headerVersion1, List.cons_append, List.nil_append,
        List.getD_cons_zero, List.getD_cons_succ, List.drop_succ_cons, List.drop_zero, hle, if_true, e2, e]
    · intro x hx
      norm_num
      simp only [List.mem_append, List.mem_cons, List.not_mem_nil, or_false, List.mem_map] at hx hw
      have hN : numbers.length < 4294967296 := by omega
      rcases hx with ((hx | hx) | ⟨y, _, rfl⟩) | hx
      · rcases hx with rfl | rfl | rfl | rfl | rfl
        · exact hN
        · exact hw _ (by simp)
        · exact hw _ (by simp)
        · exact hw _ (by simp)
        · exact hw _ (by simp)
      · exact hw _ (by tauto)
      · omega
      · exact hw _ (by tauto)
  · intro k hk
    simp only [readHeader, readHeaderVersion1]
    rw [encodeArray_length] at hk
    have hlen : ([numbers.length, rows, cols, version, timestamp] ++ reserved ++
        numbers.map (fun x => (x + 1) % 2 ^ 32) ++ unused).length = 1024 := by
      simp; omega
    rw [hlen] at hk
    rw [bind_throw (readBytes_short _ _ ?_)]
    rw [List.length_take]
    omega
  · simp only [dataSize]
    rw [← hd, Nat.mod_eq_of_lt hs]
  · simpa using hp

private theorem split_v2 {first : Nat} {data : List Nat} (hd : data.length = 576 * 576 * 1600)
    (hp : ∀ x ∈ data, x < 2 ^ 16) :
    ∃ head, Split 2 (encodeLE 4 first ++ encodeArray 2 data)
      ⟨{ imagesInBlock := 1600, frameDimensions := (576, 576), version := 2,
         imageNumbers := List.range 1600 }, data⟩ head := by
  refine ⟨_, rfl, ?_, ?_, ?_, ?_, ?_⟩
  · rw [encodeLE_length]; norm_num
  · intro rest left
    simp only [readHeader, readHeaderVersion2]
    rw [bind_ok (readBytes_append _ rest left _ (by rw [encodeLE_length]))]
    rfl
  · intro k hk
    rw [encodeLE_length] at hk
    simp only [readHeader, readHeaderVersion2]
    rw [bind_throw (readBytes_short _ _ ?_)]
    rw [List.length_take]
    omega
  · simp only [dataSize, hd, Nat.reduceMul, Nat.reducePow, Nat.reduceMod]
  · simpa using hp

private theorem split_v3 {scan frame w h x y : Nat} {data : List Nat} (h1 : scan < 2 ^ 32) (h2 : frame < 2 ^ 32)
    (h3 : w < 2 ^ 16) (h4 : h < 2 ^ 16) (h5 : x < 2 ^ 16) (h6 : y < 2 ^ 16)
    (hd : data.length = 576 * 576) (hp : ∀ p ∈ data, p < 2 ^ 16) :
    ∃ head, Split 3 (encodeArray 4 [scan, frame] ++ encodeArray 2 [w, h, x, y] ++ encodeArray 2 data)
      ⟨{ imagesInBlock := 1, frameDimensions := (576, 576), version := 3, scanNumber := scan,
         frameNumber := frame, scanDimensions := (w, h), imageNumbers := [y * w + x] }, data⟩ head := by
  refine ⟨_, rfl, ?_, ?_, ?_, ?_, ?_⟩
  · simp [encodeArray_length]
  · intro rest left
    simp only [readHeader, readHeaderVersion3]
    rw [List.append_assoc,
      bind_ok (readBytes_append _ _ left _ (by rw [encodeArray_length]; rfl)),
      bind_ok (readBytes_append _ _ left _ (by rw [encodeArray_length]; rfl)),
      decodeArray_encodeArray 4 _ 2 rfl (by simp; omega),
      decodeArray_encodeArray 2 _ 4 rfl (by simp; omega)]
    have : (y * w + x) % 2 ^ 32 = y * w + x := by
      apply Nat.mod_eq_of_lt
      have : y * w ≤ (2 ^ 16 - 1) * (2 ^ 16 - 1) := Nat.mul_le_mul (by omega) (by omega)
      omega
    simp only [List.getD_cons_zero, List.getD_cons_succ, this, frameSide]
  · intro k hk
    simp only [readHeader, readHeaderVersion3]
    by_cases hk1 : k < 8
    · rw [bind_throw (readBytes_short _ _ ?_)]
      rw [List.length_take]
      omega
    · have hl : (encodeArray 4 [scan, frame]).length = 8 := by rw [encodeArray_length]; rfl
      have hl2 : (encodeArray 2 [w, h, x, y]).length = 8 := by rw [encodeArray_length]; rfl
      rw [List.length_append, hl, hl2] at hk
      rw [List.take_append, List.take_of_length_le (by omega),
        bind_ok (readBytes_append _ _ [] _ (by rw [hl])),
        bind_throw (readBytes_short _ _ ?_)]
      rw [List.length_take, hl2]
      omega
  · simp only [dataSize, hd, Nat.reduceMul, Nat.reducePow, Nat.reduceMod]
  · simpa using hp

private theorem split_written {v : Nat} {bytes : List UInt8} {b : Block} (h : Written v bytes b) :
    ∃ head, Split v bytes b head := by
  cases h with
  | v1 hn hr hw hnum hd hs hp => exact split_v1 hn hr hw hnum hd hs hp
  | v2 hd hp => exact split_v2 hd hp
  | v3 h1 h2 h3 h4 h5 h6 hd hp => exact split_v3 h1 h2 h3 h4 h5 h6 hd hp

/-- Reading a record that is at the front of the stream. -/
theorem read_record {v : Nat} {bytes : List UInt8} {b : Block} (h : Written v bytes b)
    (rest : List UInt8) (left : List File) :
    read v ⟨some (bytes ++ rest), left⟩ = (.ok (some b), ⟨some rest, left⟩) := by
  obtain ⟨head, hs⟩ := split_written h
  have hb : readBlock v ⟨some (bytes ++ rest), left⟩ = (.ok (some b), ⟨some rest, left⟩) := by
    unfold readBlock
    rw [hs.eq, List.append_assoc, bind_ok (hs.header _ left),
      bind_ok (readBytes_append _ rest left _ (by rw [encodeArray_length, hs.size, Nat.mul_comm])),
      decodeArray_encodeArray 2 _ _ hs.size hs.pixel]
    rfl
  have hne : bytes ++ rest ≠ [] := by
    intro h0
    have := congrArg List.length h0
    rw [hs.eq] at this
    have hp := hs.pos
    simp only [List.length_append, List.length_nil] at this
    omega
  obtain ⟨c, cs, hc⟩ := List.exists_cons_of_ne_nil hne
  rw [hc] at hb ⊢
  unfold StreamReader.read
  rcases left with _ | ⟨_ | f, fs⟩ <;> simpa [readFrom] using hb

/-- Reading a record that was cut. -/
private theorem read_cut {v : Nat} {bytes : List UInt8} {b : Block} (h : Written v bytes b)
    (k : Nat) (h0 : 0 < k) (hk : k < bytes.length) :
    ∃ m, read v ⟨some (bytes.take k), []⟩ = (.throw m, ⟨none, []⟩) := by
  obtain ⟨head, hs⟩ := split_written h
  have hb : ∃ m, readBlock v ⟨some (bytes.take k), []⟩ = (.throw m, ⟨none, []⟩) := by
    unfold readBlock
    by_cases hh : k < head.length
    · rw [hs.eq, List.take_append_of_le_length (by omega), bind_throw (hs.short k hh)]
      exact ⟨_, rfl⟩
    · rw [hs.eq] at hk ⊢
      rw [List.length_append] at hk
      rw [List.take_append, List.take_of_length_le (by omega), bind_ok (hs.header _ []),
        bind_throw (readBytes_short _ _ ?_)]
      · exact ⟨_, rfl⟩
      · rw [List.length_take, hs.size]
        rw [encodeArray_length] at hk ⊢
        omega
  obtain ⟨m, hb⟩ := hb
  have hne : bytes.take k ≠ [] := by
    intro h0
    have := congrArg List.length h0
    rw [List.length_take, List.length_nil] at this
    omega
  obtain ⟨c, cs, hc⟩ := List.exists_cons_of_ne_nil hne
  rw [hc] at hb ⊢
  exact ⟨m, by simpa [StreamReader.read, readFrom] using hb⟩

private theorem reads_append {v : Nat} {s t u : State} {as bs : List Block} (h1 : Reads v s as t)
    (h2 : Reads v t bs u) : Reads v s (as ++ bs) u := by
  induction h1 with
  | nil => exact h2
  | cons h _ ih => exact .cons h (ih h2)

/-- Reading the records of one file. -/
private theorem reads_records {v : Nat} {bytes : List UInt8} {bs : List Block} (h : Records v bytes bs)
    (rest : List UInt8) (left : List File) :
    Reads v ⟨some (bytes ++ rest), left⟩ bs ⟨some rest, left⟩ := by
  obtain ⟨rs, h, rfl⟩ := h
  induction h with
  | nil => exact .nil _
  | cons h1 _ ih =>
    rw [List.flatten_cons, List.append_assoc]
    exact .cons (read_record h1 _ left) ih

/-- At the end of a file the next file is opened. -/
private theorem read_next (v : Nat) (f : List UInt8) (fs : List File) :
    read v ⟨some [], some f :: fs⟩ = read v ⟨some f, fs⟩ := by
  simp [StreamReader.read, readFrom]

private theorem reads_next {v : Nat} {f : List UInt8} {fs : List File} {b : Block} {bs : List Block}
    {t : State} (h : Reads v ⟨some f, fs⟩ (b :: bs) t) : Reads v ⟨some [], some f :: fs⟩ (b :: bs) t := by
  cases h with
  | cons h1 h2 => exact .cons (by rw [read_next]; exact h1) h2

/-- All blocks of the files, starting in an open file: after these blocks the last file with blocks is at its
end, and only files without blocks follow. -/
private theorem reads_files {v : Nat} {bytes : List UInt8} {bs : List Block} (h : Records v bytes bs)
    {files : List (List UInt8)} {bss : List (List Block)} (hf : List.Forall₂ (Records v) files bss)
    (tail : List File) :
    ∃ empty : List File, (∀ f ∈ empty, f = some []) ∧
      Reads v ⟨some bytes, files.map some ++ tail⟩ (bs ++ bss.flatten) ⟨some [], empty ++ tail⟩ := by
  induction hf generalizing bytes bs with
  | nil =>
    refine ⟨[], by simp, ?_⟩
    have := reads_records h [] tail
    simpa using this
  | @cons f bs' fs bss h1 hf2 ih =>
    obtain ⟨empty, he, hr⟩ := ih h1
    have h0 := reads_records h [] (some f :: (fs.map some ++ tail))
    rw [List.append_nil] at h0
    cases hb : bs' ++ bss.flatten with
    | cons b l =>
      refine ⟨empty, he, ?_⟩
      have := reads_append h0 (reads_next (by rw [← hb]; exact hr))
      simpa [hb] using this
    | nil =>
      -- no blocks left: stay in the current file
      refine ⟨some f :: fs.map some, ?_, ?_⟩
      · obtain ⟨hb1, hb2⟩ := List.append_eq_nil_iff.1 hb
        have hnil : ∀ f, Records v f [] → f = [] := by
          rintro f ⟨rs, h, rfl⟩
          cases h; rfl
        intro x hx
        rcases List.mem_cons.1 hx with rfl | hx
        · rw [hnil f (hb1 ▸ h1)]
        · obtain ⟨y, hy, rfl⟩ := List.mem_map.1 hx
          have : ∀ {fs : List (List UInt8)} {bss : List (List Block)}, List.Forall₂ (Records v) fs bss →
              bss.flatten = [] → ∀ y ∈ fs, y = [] := by
            intro fs bss h
            induction h with
            | nil => simp
            | cons a _ ih =>
              intro hn y hy
              rw [List.flatten_cons] at hn
              obtain ⟨n1, n2⟩ := List.append_eq_nil_iff.1 hn
              rcases List.mem_cons.1 hy with rfl | hy
              · exact hnil _ (n1 ▸ a)
              · exact ih n2 y hy
          rw [this hf2 hb2 y hy]
      · rw [List.flatten_cons, hb, List.append_nil]
        simpa using h0

private theorem read_empty (v : Nat) {empty : List File} (he : ∀ f ∈ empty, f = some []) (tail : List File) :
    read v ⟨some [], empty ++ tail⟩ = read v ⟨some [], tail⟩ := by
  induction empty with
  | nil => rfl
  | cons f fs ih =>
    rw [he f (by simp)]
    rw [List.cons_append, read_next]
    exact ih (fun f hf => he f (by simp [hf]))

/-- **C21** Round trip: if the files hold the records of the blocks `bss` (some files may be empty), reading from a
new reader yields exactly these blocks, in order and across files, then the end of the stream, again and
again. -/
theorem C21_round_trip {v : Nat} {f : List UInt8} {files : List (List UInt8)} {bss : List (List Block)}
    (hf : List.Forall₂ (Records v) (f :: files) bss) :
    ∃ s t, create ((f :: files).map some) = .ok s ∧ Reads v s bss.flatten t ∧
      read v t = (.ok none, ⟨none, []⟩) ∧ read v ⟨none, []⟩ = (.ok none, ⟨none, []⟩) := by
  cases hf with
  | @cons _ bs _ bss h1 h2 =>
    obtain ⟨empty, he, hr⟩ := reads_files h1 h2 []
    refine ⟨_, _, rfl, by simpa using hr, ?_, rfl⟩
    have := read_empty v he []
    rw [List.append_nil] at this
    rw [this]
    rfl

/-- **C22** Truncation: the last file is cut after `k` bytes. The reader returns the blocks of the other files and the
blocks of the last file that are completely present (`j` of them: the first `j` records fit into `k` bytes,
the first `j + 1` do not), then an error if a part of a record is left, and the end otherwise; after the error
only the end is reported. -/
theorem C22_truncation {v : Nat} {files : List (List UInt8)} {bss : List (List Block)}
    (hf : List.Forall₂ (Records v) files bss) {rs : List (List UInt8)} {bs : List Block}
    (hl : List.Forall₂ (Written v) rs bs) (k : Nat) :
    ∃ s t j, create ((files ++ [rs.flatten.take k]).map some) = .ok s ∧
      j ≤ bs.length ∧ (rs.take j).flatten.length ≤ min k rs.flatten.length ∧
      (j < bs.length → k < (rs.take (j + 1)).flatten.length) ∧
      Reads v s (bss.flatten ++ bs.take j) t ∧
      (((rs.take j).flatten.length = min k rs.flatten.length ∧ read v t = (.ok none, ⟨none, []⟩)) ∨
       ((rs.take j).flatten.length < min k rs.flatten.length ∧ ∃ m, read v t = (.throw m, ⟨none, []⟩))) ∧
      read v ⟨none, []⟩ = (.ok none, ⟨none, []⟩) := by
  -- the last file alone
  have hlast : ∃ j t, j ≤ bs.length ∧ (rs.take j).flatten.length ≤ min k rs.flatten.length ∧
      (j < bs.length → k < (rs.take (j + 1)).flatten.length) ∧
      Reads v ⟨some (rs.flatten.take k), []⟩ (bs.take j) ⟨some t, []⟩ ∧
      (((rs.take j).flatten.length = min k rs.flatten.length ∧
          read v ⟨some t, []⟩ = (.ok none, ⟨none, []⟩)) ∨
       ((rs.take j).flatten.length < min k rs.flatten.length ∧
          ∃ m, read v ⟨some t, []⟩ = (.throw m, ⟨none, []⟩))) := by
    clear hf
    induction hl generalizing k with
    | nil => exact ⟨0, [], by simp, by simp, by simp, by simpa using Reads.nil _, .inl ⟨by simp, rfl⟩⟩
    | @cons r b rs bs h1 h2 ih =>
      by_cases hk : k < r.length
      · by_cases h0 : k = 0
        · subst h0
          refine ⟨0, [], by simp, by simp, ?_, by simpa using Reads.nil _, .inl ⟨by simp, rfl⟩⟩
          intro _; simpa using hk
        · obtain ⟨m, hm⟩ := read_cut h1 k (by omega) hk
          refine ⟨0, r.take k, by simp, by simp, ?_, ?_, .inr ⟨?_, m, hm⟩⟩
          · intro _; simpa using hk
          · rw [List.flatten_cons, List.take_append_of_le_length (by omega)]
            exact Reads.nil _
          · simp only [List.take_zero, List.flatten_nil, List.length_nil, List.flatten_cons,
              List.length_append]
            omega
      · obtain ⟨j, t, a1, a2, a3, a4, a5⟩ := ih (k - r.length)
        refine ⟨j + 1, t, ?_, ?_, ?_, ?_, ?_⟩
        · simpa using a1
        · simp only [List.take_succ_cons, List.flatten_cons, List.length_append]
          omega
        · intro hj
          have := a3 (by simpa using hj)
          simp only [List.take_succ_cons, List.flatten_cons, List.length_append]
          omega
        · rw [List.flatten_cons, List.take_append, List.take_of_length_le (by omega), List.take_succ_cons]
          exact .cons (read_record h1 _ []) a4
        · simp only [List.take_succ_cons, List.flatten_cons, List.length_append]
          rcases a5 with ⟨c, d⟩ | ⟨c, d⟩
          · exact .inl ⟨by omega, d⟩
          · exact .inr ⟨by omega, d⟩
  obtain ⟨j, t, a1, a2, a3, a4, a5⟩ := hlast
  cases hf with
  | nil => exact ⟨_, _, j, rfl, a1, a2, a3, a4, a5, rfl⟩
  | @cons _ bs0 _ bss h1 h2 =>
    obtain ⟨empty, he, hr⟩ := reads_files h1 h2 [some (rs.flatten.take k)]
    have hskip : read v ⟨some [], empty ++ [some (rs.flatten.take k)]⟩ =
        read v ⟨some (rs.flatten.take k), []⟩ := by
      rw [read_empty v he, read_next]
    cases hbt : bs.take j with
    | nil =>
      rw [hbt] at a4
      have ht : t = rs.flatten.take k := by cases a4; rfl
      subst ht
      refine ⟨_, ⟨some [], empty ++ [some (rs.flatten.take k)]⟩, j, rfl, a1, a2, a3, ?_, ?_, rfl⟩
      · rw [hbt]; simpa using hr
      · rw [hskip]; exact a5
    | cons b l =>
      rw [hbt] at a4
      refine ⟨_, ⟨some t, []⟩, j, rfl, a1, a2, a3, ?_, a5, rfl⟩
      rw [hbt, List.flatten_cons]
      refine reads_append (t := ⟨some [], empty ++ [some (rs.flatten.take k)]⟩) (by simpa using hr) ?_
      cases a4 with
      | cons g1 g2 => exact .cons (by rw [hskip]; exact g1) g2

/-- **C22** A file that does not exist: the first one is an error of the constructor; otherwise all blocks of the files before it are
returned, and then there is an error, again and again. -/
theorem C22_missing_file {v : Nat} {f : List UInt8} {files : List (List UInt8)} {bss : List (List Block)}
    (hf : List.Forall₂ (Records v) (f :: files) bss) (rest : List File) :
    create (none :: rest) = .throw cannotOpen ∧
    ∃ s t, create ((f :: files).map some ++ none :: rest) = .ok s ∧ Reads v s bss.flatten t ∧
      (read v t).1 = .throw cannotOpen ∧ read v (read v t).2 = read v t := by
  refine ⟨rfl, ?_⟩
  cases hf with
  | @cons _ bs _ bss h1 h2 =>
    obtain ⟨empty, he, hr⟩ := reads_files h1 h2 (none :: rest)
    refine ⟨_, _, rfl, by simpa using hr, ?_, ?_⟩
    · rw [read_empty v he]; rfl
    · rw [read_empty v he]; rfl

/-- **C22** Why only the last file may be cut: if the pixels of a record are missing at the end of a file that is not
the last one, the reader fills the block with the first bytes of the next file. -/
theorem C22_middle_file_cut {v : Nat} {bytes : List UInt8} {b : Block} (h : Written v bytes b)
    (next : List UInt8) (hn : bytes.length ≤ next.length) (left : List File) :
    ∃ head c, bytes = head ++ encodeArray 2 b.data ∧
      (∀ k, k < 2 * b.data.length → ∃ t,
        read v ⟨some (bytes.take (head.length + k)), some next :: left⟩ = (.ok (some c), t)) ∧
      c.header = b.header ∧ c.data = decodeArray 2 b.data.length next := by
  obtain ⟨head, hs⟩ := split_written h
  refine ⟨head, ⟨b.header, decodeArray 2 b.data.length (next.take (b.data.length * 2))⟩, hs.eq, ?_, rfl, ?_⟩
  · intro k hk
    have hb : readBlock v ⟨some (bytes.take (head.length + k)), some next :: left⟩ =
        (.ok (some ⟨b.header, decodeArray 2 b.data.length (next.take (b.data.length * 2))⟩),
          ⟨some (next.drop (b.data.length * 2)), left⟩) := by
      unfold readBlock
      have hlen : (encodeArray 2 b.data).length = 2 * b.data.length := encodeArray_length _ _
      have e : bytes.take (head.length + k) = head ++ (encodeArray 2 b.data).take k := by
        rw [hs.eq, List.take_append, List.take_of_length_le (by omega)]
        congr 2; omega
      have hnl : b.data.length * 2 ≤ next.length := by
        have := hs.eq ▸ hn
        rw [List.length_append, hlen] at this
        omega
      have hr : readBytes (b.data.length * 2) ⟨some ((encodeArray 2 b.data).take k), some next :: left⟩ =
          (.ok (next.take (b.data.length * 2)), ⟨some (next.drop (b.data.length * 2)), left⟩) := by
        unfold readBytes
        rw [readBytesFrom, if_neg (by rw [List.length_take, hlen]; omega)]
        rcases left with _ | ⟨_ | f, fs⟩ <;> simp [readBytesFrom, hnl]
      rw [e, bind_ok (hs.header _ _), hs.size, bind_ok hr]
      rfl
    have hne : bytes.take (head.length + k) ≠ [] := by
      intro h0
      have := congrArg List.length h0
      rw [List.length_take, hs.eq, List.length_nil, List.length_append] at this
      have hp := hs.pos
      omega
    obtain ⟨c, cs, hc⟩ := List.exists_cons_of_ne_nil hne
    rw [hc] at hb ⊢
    exact ⟨_, by simpa [StreamReader.read, readFrom] using hb⟩
  · unfold decodeArray
    apply List.map_congr_left
    intro i hi
    have := List.mem_range.1 hi
    rw [List.drop_take, List.take_take]
    congr 2
    omega

/-- An operation of the user of a reader. -/
inductive StreamOp where
  | read
  | reset

/-- Results of a sequence of operations. -/
def runOps (v : Nat) (files : List File) : State → List StreamOp → List (Outcome (Option Block)) × State
  | s, [] => ([], s)
  | s, .read :: ops =>
    let r := read v s
    let q := runOps v files r.2 ops
    (r.1 :: q.1, q.2)
  | _, .reset :: ops => runOps v files (reset files) ops

/-- **C23** After any history of reads and resets (also after errors), a reset makes the reader behave as a
new one: all later operations give the same results. -/
theorem C23_rewind {v : Nat} {files : List File} {s : State} (hs : create files = .ok s)
    (history future : List StreamOp) :
    (runOps v files s (history ++ .reset :: future)).1 =
      (runOps v files s history).1 ++ (runOps v files s future).1 := by
  have hfirst : (runOps v files (reset files) future).1 = (runOps v files s future).1 := by
    match files, hs with
    | some f :: fs, hs =>
      simp only [create, Outcome.ok.injEq] at hs
      subst hs
      cases future with
      | nil => rfl
      | cons op ops =>
        cases op with
        | reset => rfl
        | read =>
          have : read v (reset (some f :: fs)) = read v ⟨some f, fs⟩ := by simp [StreamReader.read, reset, readFrom]
          simp only [runOps, this]
  have : ∀ s, (runOps v files s (history ++ .reset :: future)).1 =
      (runOps v files s history).1 ++ (runOps v files (reset files) future).1 := by
    induction history with
    | nil => intro s; simp [runOps]
    | cons op ops ih =>
      intro s
      cases op with
      | read => simp only [List.cons_append, runOps]; rw [ih]
      | reset => simp only [List.cons_append, runOps]; rw [ih]
  rw [this, hfirst]

/-- A record of version 1 with two frames of one pixel. -/
example (unused : List Nat) (hu : unused.length = 1012) (h0 : ∀ x ∈ unused, x = 0) : Written 1
    (encodeArray 4 ([2, 1, 1, 1, 77] ++ [0, 0, 0, 0, 0] ++ [5, 9].map (fun x => (x + 1) % 2 ^ 32) ++
      unused) ++ encodeArray 2 [300, 4])
    ⟨{ imagesInBlock := 2, frameDimensions := (1, 1), version := 1, timestamp := 77,
       imageNumbers := [5, 9] }, [300, 4]⟩ := by
  refine .v1 (rows := 1) (cols := 1) (version := 1) (timestamp := 77) (reserved := [0, 0, 0, 0, 0])
    (numbers := [5, 9]) (unused := unused) (data := [300, 4]) ?_ rfl ?_ (by simp) rfl (by simp) (by simp)
  · simp [hu]
  · intro x hx
    simp only [List.mem_append, List.mem_cons, List.not_mem_nil, or_false] at hx
    rcases hx with (hx | hx) | hx
    · omega
    · omega
    · rw [h0 x hx]; omega

example (data : List Nat) (hd : data.length = 576 * 576) (hp : ∀ p ∈ data, p < 2 ^ 16) :
    Records 3 (encodeArray 4 [1, 2] ++ encodeArray 2 [10, 20, 3, 4] ++ encodeArray 2 data)
      [⟨{ imagesInBlock := 1, frameDimensions := (576, 576), version := 3, scanNumber := 1,
          frameNumber := 2, scanDimensions := (10, 20), imageNumbers := [4 * 10 + 3] }, data⟩] :=
  ⟨[_], .cons (.v3 (by omega) (by omega) (by omega) (by omega) (by omega) (by omega)
    hd hp) .nil, by rw [List.flatten_cons, List.flatten_nil, List.append_nil]⟩

end Stempy.Props
