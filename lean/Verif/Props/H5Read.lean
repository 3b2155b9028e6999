import Verif.Model.H5Read
import Verif.Lemmas.ListSum
import Mathlib.Data.List.Forall2

/-!
C64: reading and writing parts of data sets.
-/

namespace Stempy.Hdf5

/-- The element number `k` (one index for every dimension) of a hyperslab is in it. -/
def InCounts (k counts : List Nat) : Prop := List.Forall₂ (fun i c => i < c) k counts

/-- Row-major position of an index. -/
def rowMajor : (counts k : List Nat) → Nat
  | _ :: cs, i :: is => i * cs.prod + rowMajor cs is
  | _, _ => 0

/-- Index in the data set of the element `k` of a hyperslab: `start + k * stride` in every dimension. -/
def element : (start strides k : List Nat) → List Nat
  | s :: ss, t :: ts, i :: is => (s + i * t) :: element ss ts is
  | _, _, _ => []

/-- Lists of one length. -/
def SameRank (n : Nat) (ls : List (List Nat)) : Prop := ∀ l ∈ ls, l.length = n

private theorem slab_length {n : Nat} : ∀ {start strides counts : List Nat}, SameRank n [start, strides, counts] →
    (slabIndexes start strides counts).length = counts.prod := by
  induction n with
  | zero =>
    intro start strides counts h
    obtain rfl := List.length_eq_zero_iff.1 (h start (by simp))
    obtain rfl := List.length_eq_zero_iff.1 (h counts (by simp))
    simp [slabIndexes]
  | succ n ih =>
    intro start strides counts h
    obtain ⟨s, ss, rfl⟩ := List.exists_cons_of_length_eq_add_one (h start (by simp))
    obtain ⟨t, ts, rfl⟩ := List.exists_cons_of_length_eq_add_one (h strides (by simp))
    obtain ⟨c, cs, rfl⟩ := List.exists_cons_of_length_eq_add_one (h counts (by simp))
    have h' : SameRank n [ss, ts, cs] := by
      intro l hl
      have h1 := h (s :: ss) (by simp); have h2 := h (t :: ts) (by simp); have h3 := h (c :: cs) (by simp)
      simp at hl h1 h2 h3
      rcases hl with rfl | rfl | rfl <;> assumption
    simp only [slabIndexes, List.length_flatMap, List.length_map, ih h', List.prod_cons]
    simp

private theorem rowMajor_lt {k counts : List Nat} (h : InCounts k counts) : rowMajor counts k < counts.prod := by
  induction h with
  | nil => simp [rowMajor]
  | @cons i c is cs hi _ ih =>
    simp only [rowMajor, List.prod_cons]
    have : (i + 1) * cs.prod ≤ c * cs.prod := Nat.mul_le_mul_right _ hi
    rw [Nat.succ_mul] at this
    omega

private theorem slab_get {n : Nat} : ∀ {start strides counts k : List Nat}, SameRank n [start, strides, counts] →
    InCounts k counts → (slabIndexes start strides counts)[rowMajor counts k]? = some (element start strides k) := by
  induction n with
  | zero =>
    intro start strides counts k h hk
    obtain rfl := List.length_eq_zero_iff.1 (h start (by simp))
    obtain rfl := List.length_eq_zero_iff.1 (h counts (by simp))
    cases hk
    simp [slabIndexes, rowMajor, element]
  | succ n ih =>
    intro start strides counts k h hk
    obtain ⟨s, ss, rfl⟩ := List.exists_cons_of_length_eq_add_one (h start (by simp))
    obtain ⟨t, ts, rfl⟩ := List.exists_cons_of_length_eq_add_one (h strides (by simp))
    obtain ⟨c, cs, rfl⟩ := List.exists_cons_of_length_eq_add_one (h counts (by simp))
    have h' : SameRank n [ss, ts, cs] := by
      intro l hl
      have h1 := h (s :: ss) (by simp); have h2 := h (t :: ts) (by simp); have h3 := h (c :: cs) (by simp)
      simp at hl h1 h2 h3
      rcases hl with rfl | rfl | rfl <;> assumption
    cases hk with
    | @cons i _ is _ hi his =>
      simp only [slabIndexes, rowMajor, element, List.flatMap_def]
      rw [flatten_uniform_getElem? _ cs.prod _ i _ (rowMajor_lt his)]
      · rw [List.getElem?_map, List.getElem?_range hi]
        simp only [Option.map_some, Option.bind_some, List.getElem?_map, ih h' his]
      · intro l hl
        obtain ⟨j, _, rfl⟩ := List.mem_map.1 hl
        rw [List.length_map, slab_length h']

/-- The hyperslab is inside of the data set: its last element is, in every dimension. -/
def Inside : (dims start strides counts : List Nat) → Prop
  | [], [], [], [] => True
  | d :: ds, s :: ss, t :: ts, c :: cs => 0 < t ∧ 0 < c ∧ s + (c - 1) * t < d ∧ Inside ds ss ts cs
  | _, _, _, _ => False

private theorem inside_facts : ∀ {dims start strides counts : List Nat}, Inside dims start strides counts →
    SameRank dims.length [start, strides, counts] ∧ strides.any (· == 0) = false ∧ counts.any (· == 0) = false ∧
      fitsStrided dims start strides counts = true
  | [], [], [], [], _ => by refine ⟨?_, rfl, rfl, rfl⟩; intro l hl; simp at hl; simp [hl]
  | d :: ds, s :: ss, t :: ts, c :: cs, h => by
    obtain ⟨h1, h2, h3, h4⟩ := h
    obtain ⟨a, b, e, f⟩ := inside_facts h4
    refine ⟨?_, ?_, ?_, ?_⟩
    · intro l hl
      simp at hl
      have x1 := a ss (by simp); have x2 := a ts (by simp); have x3 := a cs (by simp)
      rcases hl with rfl | rfl | rfl <;> simp [x1, x2, x3]
    · simp only [List.any_cons, b, Bool.or_false, beq_eq_false_iff_ne]; omega
    · simp only [List.any_cons, e, Bool.or_false, beq_eq_false_iff_ne]; omega
    · simp only [fitsStrided, f, Bool.and_true, decide_eq_true_eq]; exact h3
  | [], _ :: _, _, _, h => h.elim
  | [], [], _ :: _, _, h => h.elim
  | [], [], [], _ :: _, h => h.elim
  | _ :: _, [], _, _, h => h.elim
  | _ :: _, _ :: _, [], _, h => h.elim
  | _ :: _, _ :: _, _ :: _, [], h => h.elim

private theorem readSlab_inside {d : Dataset} {cap : Nat} {start strides counts : List Nat} (h : Inside d.dims start strides counts)
    (hcap : counts.prod ≤ cap) : readSlab d cap start strides counts = .ok ((slabIndexes start strides counts).map d.value) := by
  obtain ⟨a, b, e, f⟩ := inside_facts h
  unfold readSlab h5read
  rw [if_neg (by simp [b]), if_neg (by simp [e]), if_pos f, slab_length a, if_neg (by omega)]

/-- **C64** Reading a hyperslab inside of the data set, of any number of dimensions, fills the buffer in row-major order:
the element `k` is the value at `start + k * stride`. -/
theorem C64_read {d : Dataset} {cap : Nat} {start strides counts : List Nat} (h : Inside d.dims start strides counts)
    (hcap : counts.prod ≤ cap) :
    ∃ buf, readData d cap (some strides) (some start) (some counts) = .ok buf ∧ buf.length = counts.prod ∧
      ∀ k, InCounts k counts → buf[rowMajor counts k]? = some (d.value (element start strides k)) := by
  obtain ⟨a, _⟩ := inside_facts h
  refine ⟨(slabIndexes start strides counts).map d.value, ?_, ?_, ?_⟩
  · simp [readData, readSlab_inside h hcap]
  · rw [List.length_map, slab_length a]
  · intro k hk
    rw [List.getElem?_map, slab_get a hk]
    rfl

private theorem inside_ones : ∀ {dims start counts : List Nat}, fits dims start counts = true → (∀ c ∈ counts, 0 < c) →
    Inside dims start (dims.map fun _ => 1) counts
  | [], [], [], _, _ => trivial
  | d :: ds, s :: ss, c :: cs, h, hc => by
    simp only [fits, Bool.and_eq_true, decide_eq_true_eq] at h
    have := hc c (by simp)
    refine ⟨Nat.one_pos, this, ?_, inside_ones h.2 fun x hx => hc x (by simp [hx])⟩
    show s + (c - 1) * 1 < d
    omega
  | [], _ :: _, _, h, _ => by simp [fits] at h
  | [], [], _ :: _, h, _ => by simp [fits] at h
  | _ :: _, [], _, h, _ => by simp [fits] at h
  | _ :: _, _ :: _, [], h, _ => by simp [fits] at h

private theorem slabOffset_element : ∀ {start counts k : List Nat} (_ : start.length = counts.length), InCounts k counts →
    slabOffset start counts (element start (counts.map fun _ => 1) k) = some (rowMajor counts k)
  | [], [], [], _, _ => rfl
  | s :: ss, c :: cs, i :: is, hl, h => by
    cases h with
    | cons hi his =>
      simp only [List.map_cons, element, slabOffset, rowMajor, Nat.mul_one]
      rw [if_pos (by omega), slabOffset_element (by simpa using hl) his, Nat.add_sub_cancel_left]
      rfl
  | [], [], _ :: _, _, h => by cases h
  | _ :: _, _ :: _, [], _, h => by cases h

private theorem fits_length : ∀ {dims start counts : List Nat}, fits dims start counts = true →
    start.length = dims.length ∧ counts.length = dims.length
  | [], [], [], _ => ⟨rfl, rfl⟩
  | d :: ds, s :: ss, c :: cs, h => by
    simp only [fits, Bool.and_eq_true] at h
    have := fits_length h.2
    simp [this.1, this.2]
  | [], _ :: _, _, h => by simp [fits] at h
  | [], [], _ :: _, h => by simp [fits] at h
  | _ :: _, [], _, h => by simp [fits] at h
  | _ :: _, _ :: _, [], h => by simp [fits] at h

/-- The index of a position, for the proof that positions determine the values. -/
private theorem exists_rowMajor : ∀ {counts : List Nat} {o : Nat}, o < counts.prod → ∃ k, InCounts k counts ∧ rowMajor counts k = o
  | [], o, h => ⟨[], .nil, by simp at h; simp [rowMajor, h]⟩
  | c :: cs, o, h => by
    rw [List.prod_cons] at h
    have hp : 0 < cs.prod := Nat.pos_of_ne_zero (by intro h0; rw [h0] at h; simp at h)
    obtain ⟨k, hk, he⟩ := exists_rowMajor (counts := cs) (Nat.mod_lt o hp)
    refine ⟨(o / cs.prod) :: k, .cons (Nat.div_lt_of_lt_mul (by rwa [Nat.mul_comm])) hk, ?_⟩
    rw [rowMajor, he, Nat.div_add_mod']

/-- **C64** What was written is read again: after `updateData` of a hyperslab, reading the same hyperslab gives the buffer, and the elements
outside of it are unchanged. -/
theorem C64_round_trip {d d' : Dataset} {start counts buf : List Nat} (hc : ∀ c ∈ counts, 0 < c)
    (h : updateData d start counts buf = .ok d') {cap : Nat} (hcap : counts.prod ≤ cap) :
    readData d' cap none (some start) (some counts) = .ok (buf.take counts.prod) ∧ d'.dims = d.dims ∧
    ∀ idx, (¬ ∃ k, InCounts k counts ∧ idx = element start (counts.map fun _ => 1) k) → d'.value idx = d.value idx := by
  unfold updateData at h
  cases hf : fits d.dims start counts with
  | false => rw [hf] at h; cases h
  | true =>
    rw [hf] at h
    simp only [Bool.not_true, Bool.false_eq_true, if_false] at h
    split at h
    · cases h
    · rename_i hbuf
      cases h
      obtain ⟨l1, l2⟩ := fits_length hf
      have hones : (d.dims.map fun _ => 1) = counts.map fun _ => 1 := by
        rw [List.map_const', List.map_const', l2]
      have hin : Inside d.dims start (counts.map fun _ => 1) counts := hones ▸ inside_ones hf hc
      have a := (inside_facts hin).1
      refine ⟨?_, rfl, ?_⟩
      · unfold readData
        simp only [Option.isNone_none, Option.isNone_some, Bool.false_eq_true, and_false, if_false, Option.getD_none,
          Option.getD_some, hones]
        refine Eq.trans (readSlab_inside ?_ hcap) ?_
        · exact hin
        congr 1
        apply List.ext_getElem?
        intro o
        by_cases ho : o < counts.prod
        · obtain ⟨k, hk, rfl⟩ := exists_rowMajor ho
          rw [List.getElem?_map, slab_get a hk, List.getElem?_take_of_lt ho]
          simp only [Option.map_some, slabOffset_element (l1.trans l2.symm) hk]
          rw [List.getElem?_eq_getElem (by omega)]
          simp [List.getElem?_eq_getElem (show rowMajor counts k < buf.length by omega)]
        · rw [List.getElem?_eq_none (by rw [List.length_map, slab_length a]; omega),
            List.getElem?_eq_none (by rw [List.length_take]; omega)]
      · intro idx hn
        have : slabOffset start counts idx = none := by
          cases hs : slabOffset start counts idx with
          | none => rfl
          | some o =>
            exfalso
            apply hn
            clear hn hbuf hin hones a hf hcap hc
            have hl : start.length = counts.length := l1.trans l2.symm
            clear l1 l2
            induction start generalizing counts idx o with
            | nil =>
              cases counts with
              | nil =>
                cases idx with
                | nil => exact ⟨[], .nil, rfl⟩
                | cons => simp [slabOffset] at hs
              | cons => simp at hl
            | cons s ss ih =>
              cases counts with
              | nil => simp at hl
              | cons c cs =>
                cases idx with
                | nil => simp [slabOffset] at hs
                | cons i is =>
                  simp only [slabOffset] at hs
                  split at hs
                  · rename_i hi
                    cases h2 : slabOffset ss cs is with
                    | none => rw [h2] at hs; cases hs
                    | some o' =>
                      obtain ⟨k, hk, rfl⟩ := ih is o' h2 (by simpa using hl)
                      refine ⟨(i - s) :: k, .cons (by omega) hk, ?_⟩
                      simp only [List.map_cons, element, Nat.mul_one]
                      congr 1
                      omega
                  · cases hs
        simp only [this]

/-- **C64** Without start, strides and counts everything is read, in row-major order. -/
theorem C64_whole {d : Dataset} {cap : Nat} (hcap : d.dims.prod ≤ cap) :
    ∃ buf, readData d cap none none none = .ok buf ∧ buf.length = d.dims.prod ∧
      ∀ k, InCounts k d.dims → buf[rowMajor d.dims k]? = some (d.value k) := by
  have a : SameRank d.dims.length [d.dims.map fun _ => 0, d.dims.map fun _ => 1, d.dims] := by
    intro l hl
    simp at hl
    rcases hl with rfl | rfl | rfl <;> simp
  refine ⟨(allIndexes d.dims).map d.value, ?_, ?_, ?_⟩
  · simp only [readData, Option.isNone_none, and_self, if_true, h5read, allIndexes, slab_length a]
    rw [if_neg (by omega)]
  · rw [List.length_map, allIndexes, slab_length a]
  · intro k hk
    rw [List.getElem?_map, allIndexes, slab_get a hk, Option.map_some]
    congr 2
    have : ∀ {ds k : List Nat}, InCounts k ds → element (ds.map fun _ => 0) (ds.map fun _ => 1) k = k := by
      intro ds k h
      induction h with
      | nil => rfl
      | cons _ _ ih => simp only [List.map_cons, element, ih, Nat.zero_add, Nat.mul_one]
    exact this hk

/-- `(dim - start) / stride` in every dimension. -/
def floorCounts : (dims start strides : List Nat) → List Nat
  | d :: ds, s :: ss, t :: ts => ((d - s) / t) :: floorCounts ds ss ts
  | _, _, _ => []

/-- Strides are positive, and the start is inside of the data set (or at its end). -/
def Valid (dims start strides : List Nat) : Prop :=
  List.Forall₂ (fun s d => s ≤ d ∧ d < 2 ^ 64) start dims ∧ strides.length = dims.length ∧ ∀ t ∈ strides, 0 < t

private theorem default_ok : ∀ {dims start strides : List Nat}, Valid dims start strides →
    defaultCounts dims start strides = .ok (floorCounts dims start strides)
  | [], [], [], _ => rfl
  | d :: ds, s :: ss, t :: ts, ⟨h1, h2, h3⟩ => by
    cases h1 with
    | cons ha hb =>
      have := h3 t (by simp)
      have ih := default_ok (dims := ds) (start := ss) (strides := ts) ⟨hb, by simpa using h2, fun x hx => h3 x (by simp [hx])⟩
      simp only [defaultCounts, floorCounts]
      rw [if_neg (by omega), ih]
      simp only [Outcome.ok_bind]
      have e : (2 ^ 64 + d - s) % 2 ^ 64 = d - s := by omega
      rw [e]
  | [], _ :: _, _, ⟨h1, _, _⟩ => by cases h1
  | _ :: _, [], _, ⟨h1, _, _⟩ => by cases h1
  | [], [], _ :: _, ⟨_, h2, _⟩ => by simp at h2
  | _ :: _, _ :: _, [], ⟨_, h2, _⟩ => by simp at h2

private theorem floor_inside : ∀ {dims start strides : List Nat}, Valid dims start strides →
    (∀ c ∈ floorCounts dims start strides, 0 < c) → Inside dims start strides (floorCounts dims start strides)
  | [], [], [], _, _ => trivial
  | d :: ds, s :: ss, t :: ts, ⟨h1, h2, h3⟩, hc => by
    cases h1 with
    | cons ha hb =>
      have ht := h3 t (by simp)
      have hcp := hc ((d - s) / t) (by simp [floorCounts])
      refine ⟨ht, hcp, ?_, floor_inside ⟨hb, by simpa using h2, fun x hx => h3 x (by simp [hx])⟩
        fun x hx => hc x (by simp [floorCounts, hx])⟩
      have h4 : (d - s) / t * t ≤ d - s := Nat.div_mul_le_self _ _
      have h5 : ((d - s) / t - 1) * t + t = (d - s) / t * t := by
        rw [← Nat.succ_mul]
        congr 1
        omega
      omega
  | [], _ :: _, _, ⟨h1, _, _⟩, _ => by cases h1
  | _ :: _, [], _, ⟨h1, _, _⟩, _ => by cases h1
  | [], [], _ :: _, ⟨_, h2, _⟩, _ => by simp at h2
  | _ :: _, _ :: _, [], ⟨_, h2, _⟩, _ => by simp at h2

private theorem prod_zero {l : List Nat} (h : 0 ∈ l) : l.prod = 0 := by
  induction l with
  | nil => cases h
  | cons a l ih =>
    rw [List.prod_cons]
    rcases List.mem_cons.1 h with rfl | h
    · simp
    · simp [ih h]

/-- **C64** Without counts, `(dim - start) / stride` elements are read in every dimension, never any outside of the data
set. Missing: "as much data as possible", see `C64_default_false`. -/
theorem C64_default_partial {d : Dataset} {cap : Nat} {start strides : List Nat} (hv : Valid d.dims start strides)
    (hcap : (floorCounts d.dims start strides).prod ≤ cap) :
    ∃ buf, readData d cap (some strides) (some start) none = .ok buf ∧ buf.length = (floorCounts d.dims start strides).prod ∧
      ∀ k, InCounts k (floorCounts d.dims start strides) →
        buf[rowMajor (floorCounts d.dims start strides) k]? = some (d.value (element start strides k)) := by
  have hr : readData d cap (some strides) (some start) none =
      readSlab d cap start strides (floorCounts d.dims start strides) := by
    simp [readData, default_ok hv]
  rw [hr]
  by_cases hc : ∀ c ∈ floorCounts d.dims start strides, 0 < c
  · have hin := floor_inside hv hc
    obtain ⟨a, _⟩ := inside_facts hin
    refine ⟨_, readSlab_inside hin hcap, by rw [List.length_map, slab_length a], ?_⟩
    intro k hk
    rw [List.getElem?_map, slab_get a hk]
    rfl
  · simp only [not_forall] at hc
    obtain ⟨c, hm, hc⟩ := hc
    have h0 : c = 0 := by omega
    subst h0
    have hs : strides.any (· == 0) = false := by
      rw [List.any_eq_false]
      intro t ht
      have := hv.2.2 t ht
      simp; omega
    refine ⟨[], ?_, ?_, ?_⟩
    · unfold readSlab
      rw [if_neg (by simp [hs]), if_pos (List.any_eq_true.2 ⟨0, hm, rfl⟩)]
    · rw [prod_zero hm, List.length_nil]
    · intro k hk
      exfalso
      have := rowMajor_lt hk
      rw [prod_zero hm] at this
      omega

/-- **C64** is false as to "as much data will be read as possible" (h5readwrite.h:204-206): in every one-dimensional data set, whenever the
stride does not divide the distance from the start to the end, the last element reached with the stride is not read. -/
theorem C64_default_false {d : Dataset} {n s t : Nat} (hd : d.dims = [n]) (hn : n < 2 ^ 64) (ht : 0 < t) (hs : s ≤ n)
    (hnd : (n - s) % t ≠ 0) {cap : Nat} (hcap : n ≤ cap) :
    ∃ buf, readData d cap (some [t]) (some [s]) none = .ok buf ∧ s + buf.length * t < n := by
  have hv : Valid d.dims [s] [t] := by
    rw [hd]
    exact ⟨.cons ⟨hs, hn⟩ .nil, rfl, by simpa using ht⟩
  have hf : floorCounts d.dims [s] [t] = [(n - s) / t] := by rw [hd]; rfl
  have hle : (n - s) / t ≤ n := (Nat.div_le_self _ _).trans (Nat.sub_le _ _)
  obtain ⟨buf, h1, h2, _⟩ := C64_default_partial (cap := cap) hv (by rw [hf]; simpa using hle.trans hcap)
  refine ⟨buf, h1, ?_⟩
  rw [h2, hf]
  simp only [List.prod_cons, List.prod_nil, Nat.mul_one]
  have := Nat.div_add_mod (n - s) t
  rw [Nat.mul_comm] at this
  omega

/-- **C64** A hyperslab that is not inside of the data set is an error, for positive strides and counts; nothing is written into the
buffer. -/
theorem C64_outside {d : Dataset} {cap : Nat} {start strides counts : List Nat}
    (hpos : ∀ t ∈ strides, 0 < t) (hc : ∀ c ∈ counts, 0 < c) (h : ¬ Inside d.dims start strides counts) :
    readData d cap (some strides) (some start) (some counts) = .throw "Failed to read the data" := by
  have h1 : strides.any (· == 0) = false := by
    rw [List.any_eq_false]; intro t ht; have := hpos t ht; simp; omega
  have h2 : counts.any (· == 0) = false := by
    rw [List.any_eq_false]; intro t ht; have := hc t ht; simp; omega
  have h3 : ∀ {dims start strides counts : List Nat}, (∀ t ∈ strides, 0 < t) → (∀ c ∈ counts, 0 < c) →
      fitsStrided dims start strides counts = true → Inside dims start strides counts := by
    intro dims
    induction dims with
    | nil =>
      intro start strides counts _ _ h
      cases start <;> cases strides <;> cases counts <;> trivial
    | cons d ds ih =>
      intro start strides counts h1 h2 h
      cases start <;> cases strides <;> cases counts <;> simp only [fitsStrided, Bool.false_eq_true, Bool.and_eq_true, decide_eq_true_eq] at h
      exact ⟨h1 _ (by simp), h2 _ (by simp), h.1, ih (fun x hx => h1 x (by simp [hx])) (fun x hx => h2 x (by simp [hx])) h.2⟩
  simp only [readData, Option.isNone_some, Bool.false_eq_true, and_self, if_false, Option.getD_some]
  unfold readSlab
  rw [if_neg (by simp [h1]), if_neg (by simp [h2]), if_neg (fun hf => h (h3 hpos hc hf))]

/-- **C64** A stride 0 is no error, since the status of the selection is not looked at: if the counts have the size of the data set, the
whole data set is read whatever the start is. Without counts there is a division by zero. -/
theorem C64_stride_zero (d : Dataset) (cap : Nat) (start strides counts : List Nat) (h0 : 0 ∈ strides)
    (hp : counts.prod = d.dims.prod) :
    readData d cap (some strides) (some start) (some counts) = readData d cap none none none ∧
    ∀ n s, d.dims = [n] → readData d cap (some [0]) (some [s]) none = .ub := by
  constructor
  · simp only [readData, Option.isNone_some, Option.isNone_none, Bool.false_eq_true, and_self, if_false, if_true, Option.getD_some]
    unfold readSlab
    rw [if_pos (List.any_eq_true.2 ⟨0, h0, rfl⟩), if_pos hp]
  · intro n s hd
    simp only [readData, Option.isNone_some, Option.isNone_none, Bool.false_eq_true, false_and, if_false, Option.getD_some, hd,
      defaultCounts, if_true]
    rfl

/-- A hyperslab of a data set of 4 × 10 elements: rows 1 and 3, columns 2, 5 and 8. -/
example : Inside [4, 10] [1, 2] [2, 3] [2, 3] ∧ element [1, 2] [2, 3] [1, 2] = [3, 8] ∧ rowMajor [2, 3] [1, 2] = 5 ∧
    slabIndexes [1, 2] [2, 3] [2, 3] = [[1, 2], [1, 5], [1, 8], [3, 2], [3, 5], [3, 8]] ∧
    Valid [4, 10] [1, 2] [2, 3] ∧ floorCounts [4, 10] [1, 2] [2, 3] = [1, 2] ∧
    fits [4, 10] [1, 2] [2, 3] = true := by
  refine ⟨by simp [Inside], by decide, by decide, by decide, ⟨?_, by decide, by decide⟩, by decide, by decide⟩
  exact .cons (by decide) (.cons (by decide) .nil)

end Stempy.Hdf5
