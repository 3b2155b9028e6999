import Verif.Lemmas.SectorStreams
import Verif.Props.SectorFile

/-!
C83: the multi-pass reader on the bytes of files which may have been cut, with the state bits of the streams.
-/

namespace Stempy.SectorStreams
open Stempy.Spec
open Stempy.SectorReader (Rec)
open Stempy.SectorFile (headerSize dataSize field parse record)
open Stempy.MultiPass (Loc Sectors ScanMap PWorker Block update File PState PStep pinit recordSize dataAt holds)
open Stempy.Props (IsIndex IsRecord BlockOk)

/-! ### Header pass -/

private theorem headerAt_record (b : List UInt8) : headerAt b = strip (record b) := rfl

private theorem nextHeader_ok {b : List UInt8} {p : Nat} (h : p + 16 ≤ b.length) :
    nextHeader ⟨b, p, false, false⟩ = .ok (some (headerAt (b.drop p), p + 16), ⟨b, p + 16 + dataSize, false, false⟩) := by
  simp only [nextHeader, peek_byte (show p < b.length by omega), readHeader_ok h, tellg_good, skip_good]

private theorem headers_from (n : Nat) (b : List UInt8) (p : Nat) (hn : (parse (b.drop p)).1.length < n)
    (hc : (parse (b.drop p)).2 = false) :
    ∃ s, readHeaders n ⟨b, p, false, false⟩ =
        .ok ((parse (b.drop p)).1.mapIdx fun j r => (strip r, p + j * recordSize + 16), s) ∧ s.bytes = b ∧ s.fail = false := by
  induction n generalizing p with
  | zero => omega
  | succ n ih =>
    by_cases h : headerSize ≤ (b.drop p).length
    · have h16 : p + 16 ≤ b.length := by rw [List.length_drop, headerSize] at h; omega
      have hp := parse_long h
      rw [List.drop_drop] at hp
      rw [hp] at hn hc
      have e : p + 16 + dataSize = p + recordSize := by rw [recordSize_eq, headerSize]; omega
      obtain ⟨s, h1, h2, h3⟩ := ih (p + recordSize) (by simpa using hn) hc
      refine ⟨s, ?_, h2, h3⟩
      simp only [readHeaders, nextHeader_ok h16, Outcome.ok_bind, e, h1]
      rw [hp]
      simp only [List.mapIdx_cons, headerAt_record]
      have e2 : (fun (j : Nat) (r : Rec (List Nat)) => (strip r, p + recordSize + j * recordSize + 16)) =
          fun j r => (strip r, p + (j + 1) * recordSize + 16) := by
        funext j r
        rw [Nat.add_mul]
        simp only [Prod.mk.injEq, true_and]
        omega
      rw [e2]
      simp
    · by_cases h0 : b.drop p = []
      · have hl : b.length ≤ p := by simpa using h0
        refine ⟨⟨b, p, true, false⟩, ?_, rfl, rfl⟩
        rw [h0, parse_nil]
        simp [readHeaders, nextHeader, peek_end hl]
      · rw [parse_short h0 (by omega)] at hc
        cases hc

/-- **C83** The header pass over a file without a cut header finds every record with its location, also a last one whose pixels were
cut, and `seekg(0)` afterwards makes the stream as it was opened. -/
theorem C83_headers (b : List UInt8) (n : Nat) (hn : (parse b).1.length < n) (hc : (parse b).2 = false) :
    ∃ s, readHeaders n (opened b) =
        .ok ((parse b).1.mapIdx fun j r => (strip r, j * recordSize + 16), s) ∧ s.seekg 0 = opened b := by
  obtain ⟨s, h1, h2, h3⟩ := headers_from n b 0 (by simpa using hn) (by simpa using hc)
  refine ⟨s, ?_, ?_⟩
  · simpa [opened] using h1
  · obtain ⟨b', p, e, f⟩ := s
    simp only at h2 h3
    subst h2 h3
    exact seekg_good _ _ _ _

/-- **C83** A file which ends inside a header: the values which were not read are used as an index. -/
theorem C83_headers_cut_false (b : List UInt8) (n : Nat) (hn : (parse b).1.length < n) (hc : (parse b).2 = true) :
    readHeaders n (opened b) = .ub := by
  suffices h : ∀ n p, (parse (b.drop p)).1.length < n → (parse (b.drop p)).2 = true →
      readHeaders n ⟨b, p, false, false⟩ = .ub from h n 0 (by simpa using hn) (by simpa using hc)
  clear hn hc
  intro n
  induction n with
  | zero => intro p h; omega
  | succ n ih =>
    intro p hn hc
    by_cases h : headerSize ≤ (b.drop p).length
    · have h16 : p + 16 ≤ b.length := by rw [List.length_drop, headerSize] at h; omega
      have hp := parse_long h
      rw [List.drop_drop] at hp
      rw [hp] at hn hc
      have e : p + 16 + dataSize = p + recordSize := by rw [recordSize_eq, headerSize]; omega
      have h1 := ih (p + recordSize) (by simpa using hn) hc
      simp only [readHeaders, nextHeader_ok h16, Outcome.ok_bind, e, h1, Outcome.ub_bind]
    · by_cases h0 : b.drop p = []
      · rw [h0, parse_nil] at hc
        cases hc
      · have hlt : p < b.length := by simpa using h0
        have hcut : (readHeader ⟨b, p, false, false⟩).1 = none :=
          readHeader_cut (by rw [List.length_drop, headerSize] at h; omega)
        have : nextHeader ⟨b, p, false, false⟩ = .ub := by
          simp only [nextHeader, peek_byte hlt]
          rcases hr : readHeader ⟨b, p, false, false⟩ with ⟨x, s⟩
          rw [hr] at hcut
          simp only at hcut
          subst hcut
          rfl
        simp [readHeaders, this, Outcome.ub_bind]

/-- **C83** The first header gives the dimensions of the scan, and the stream is as it was opened. -/
theorem C83_first_header (b : List UInt8) (h : 16 ≤ b.length) :
    readFirstHeader (opened b) = .ok ((field b 8 2, field b 10 2), field b 0 4, opened b) := by
  have := readHeader_ok (b := b) (p := 0) (by omega)
  simp only [readFirstHeader, opened, this, seekg_good]
  simp [headerAt]

/-- **C83** An empty first file, or one with less than a header: the dimensions of the scan are indeterminate. -/
theorem C83_first_header_false (b : List UInt8) (h : b.length < 16) : readFirstHeader (opened b) = .ub := by
  have hcut : (readHeader ⟨b, 0, false, false⟩).1 = none := readHeader_cut (by omega)
  rw [readFirstHeader, opened]
  rcases hr : readHeader ⟨b, 0, false, false⟩ with ⟨x, s⟩
  rw [hr] at hcut
  simp only at hcut
  subst hcut
  rfl

/-! ### Reading pixels -/

/-- The file does not have all pixels at the offset. -/
def Cut (b : List UInt8) (off : Nat) : Prop := b.length < off + dataSize

instance (b : List UInt8) (off : Nat) : Decidable (Cut b off) := inferInstanceAs (Decidable (_ < _))

/-- What a read gives after reads at the offsets `earlier`. -/
def Expected (b : List UInt8) (earlier : List Nat) (off : Nat) (data : List Nat) : Prop :=
  ((∀ o ∈ earlier, ¬ Cut b o) ∧ data = pixels (stored b off)) ∨ ((∃ o ∈ earlier, Cut b o) ∧ data = [])

/-- The sector `j` of the frame `f` of the position `p`: what was read for it, with the history of the reads. -/
def Good (files : List (Nat × List UInt8)) (log : Nat → List Nat) (a : Sectors) (x : Nat × Got) : Prop :=
  ∃ loc, a x.1 = some loc ∧ (log loc.stream)[x.2.nth]? = some loc.offset ∧
    Expected (content files loc.stream) ((log loc.stream).take x.2.nth) loc.offset x.2.data

/-- The streams: a stream fails as soon as a read has been cut. -/
structure SInv (files : List (Nat × List UInt8)) (st : Streams) : Prop where
  bytes : ∀ i, (st.stream i).bytes = content files i
  eof : ∀ i, (st.stream i).fail = false → (st.stream i).eof = false
  fail : ∀ i, (st.stream i).fail = true ↔ ∃ o ∈ st.log i, Cut (content files i) o

private theorem sinv_init (files : List (Nat × List UInt8)) : SInv files (.init files) where
  bytes := fun i => rfl
  eof := fun i _ => rfl
  fail := fun i => by simp [Streams.init, opened]

private theorem sinv_seek {files : List (Nat × List UInt8)} {st : Streams} (I : SInv files st) (loc : Loc) :
    SInv files (st.seek loc) ∧ (st.seek loc).log = st.log ∧
      (∀ i, i ≠ loc.stream → (st.seek loc).stream i = st.stream i) ∧
      (((st.seek loc).stream loc.stream).fail = false → ((st.seek loc).stream loc.stream).pos = loc.offset) := by
  have hs : (st.stream loc.stream).seekg loc.offset =
      if (st.stream loc.stream).fail = true then { st.stream loc.stream with eof := false, fail := true }
      else ⟨content files loc.stream, loc.offset, false, false⟩ := by
    have hb := I.bytes loc.stream
    split
    · rename_i h; exact seekg_fail h _
    · rename_i h
      rcases hst : st.stream loc.stream with ⟨b, p, e, f⟩
      rw [hst] at h hb
      simp only [Bool.not_eq_true] at h hb
      subst h hb
      rw [seekg_good]
  refine ⟨⟨?_, ?_, ?_⟩, rfl, ?_, ?_⟩
  · intro i
    by_cases hi : i = loc.stream
    · subst hi
      simp only [Streams.seek, update, if_true, hs]
      split
      · exact I.bytes _
      · rfl
    · simpa [Streams.seek, update, hi] using I.bytes i
  · intro i
    by_cases hi : i = loc.stream
    · subst hi
      simp only [Streams.seek, update, if_true, hs]
      split <;> simp
    · simpa [Streams.seek, update, hi] using I.eof i
  · intro i
    by_cases hi : i = loc.stream
    · subst hi
      refine Iff.trans ?_ (I.fail loc.stream)
      simp only [Streams.seek, update, if_true, hs]
      split
      · rename_i h; simp [h]
      · rename_i h; simp [h]
    · simpa [Streams.seek, update, hi] using I.fail i
  · intro i hi
    simp [Streams.seek, update, hi]
  · simp only [Streams.seek, update, if_true, hs]
    split <;> simp

private theorem sinv_read {files : List (Nat × List UInt8)} {st : Streams} (I : SInv files st) (loc : Loc)
    (hpos : (st.stream loc.stream).fail = false → (st.stream loc.stream).pos = loc.offset) :
    SInv files (st.read loc).2 ∧ (st.read loc).1.nth = (st.log loc.stream).length ∧
      Expected (content files loc.stream) (st.log loc.stream) loc.offset (st.read loc).1.data ∧
      (∀ i, i ≠ loc.stream → (st.read loc).2.stream i = st.stream i) ∧
      (∀ i, (st.read loc).2.log i = st.log i ++ if i = loc.stream then [loc.offset] else []) := by
  have hb := I.bytes loc.stream
  have he := I.eof loc.stream
  have hf := I.fail loc.stream
  have hlog : ∀ i, (st.read loc).2.log i = st.log i ++ if i = loc.stream then [loc.offset] else [] := by
    intro i
    by_cases hi : i = loc.stream
    · subst hi; simp [Streams.read, update]
    · simp [Streams.read, update, hi]
  have hother : ∀ i, i ≠ loc.stream → (st.read loc).2.stream i = st.stream i := by
    intro i hi
    simp [Streams.read, update, hi]
  have hself : (st.read loc).2.stream loc.stream = ((st.stream loc.stream).read dataSize).2 := by
    simp [Streams.read, update]
  have hdata : (st.read loc).1.data = pixels ((st.stream loc.stream).read dataSize).1 := rfl
  -- the stream itself
  have key : ((st.read loc).2.stream loc.stream).bytes = content files loc.stream ∧
      (((st.read loc).2.stream loc.stream).fail = false → ((st.read loc).2.stream loc.stream).eof = false) ∧
      (((st.read loc).2.stream loc.stream).fail = true ↔
        (∃ o ∈ st.log loc.stream, Cut (content files loc.stream) o) ∨ Cut (content files loc.stream) loc.offset) ∧
      Expected (content files loc.stream) (st.log loc.stream) loc.offset (st.read loc).1.data := by
    rw [hself, hdata]
    cases h : (st.stream loc.stream).fail with
    | true =>
      rw [read_fail h]
      refine ⟨hb, by simp, ?_, .inr ⟨hf.1 h, by simp [pixels, StreamReader.decodeArray]⟩⟩
      simp only [true_iff]
      exact .inl (hf.1 h)
    | false =>
      have hp := hpos h
      have he' := he h
      have hno : ∀ o ∈ st.log loc.stream, ¬ Cut (content files loc.stream) o := by
        intro o ho hc
        rw [hf.2 ⟨o, ho, hc⟩] at h
        cases h
      rcases hst : st.stream loc.stream with ⟨b, p, e, f⟩
      rw [hst] at h hb hp he'
      simp only at h hb hp he'
      subst h hb hp he'
      rw [read_good]
      refine ⟨rfl, by simp, ?_, .inl ⟨hno, rfl⟩⟩
      simp only [decide_eq_true_eq]
      have hl := stored_length (content files loc.stream) loc.offset
      rw [stored] at hl
      rw [hl]
      simp only [Cut]
      have hpos : 0 < dataSize := by decide
      constructor
      · intro h; exact .inr (by omega)
      · rintro (⟨o, ho, hc⟩ | h)
        · exact absurd hc (hno o ho)
        · omega
  refine ⟨⟨?_, ?_, ?_⟩, rfl, key.2.2.2, hother, hlog⟩
  · intro i
    by_cases hi : i = loc.stream
    · subst hi; exact key.1
    · rw [hother i hi]; exact I.bytes i
  · intro i
    by_cases hi : i = loc.stream
    · subst hi; exact key.2.1
    · rw [hother i hi]; exact I.eof i
  · intro i
    rw [hlog]
    by_cases hi : i = loc.stream
    · subst hi
      rw [key.2.2.1]
      simp [or_and_right, exists_or]
    · rw [hother i hi, I.fail]; simp [hi]

private theorem good_mono {files : List (Nat × List UInt8)} {log log' : Nat → List Nat} {a : Sectors} {x : Nat × Got}
    (h : ∀ i, ∃ l, log' i = log i ++ l) (hg : Good files log a x) : Good files log' a x := by
  obtain ⟨loc, h1, h2, h3⟩ := hg
  obtain ⟨l, hl⟩ := h loc.stream
  have hlt := (List.getElem?_eq_some_iff.1 h2).1
  refine ⟨loc, h1, ?_, ?_⟩
  · rw [hl, List.getElem?_append_left hlt]; exact h2
  · rw [hl, List.take_append_of_le_length (by omega)]; exact h3

/-! ### Processing pass -/

private def WOk (files : List (Nat × List UInt8)) (map : ScanMap) (st : Streams) : PWorker Got → Prop
  | .test | .fetch | .exited | .image _ _ => True
  | .sector p f _ _ _ acc => ∀ a, (map p).get f = some a → ∀ x ∈ acc, Good files st.log a x
  | .seek p f _ j _ acc loc => ∀ a, (map p).get f = some a → a j = some loc ∧ ∀ x ∈ acc, Good files st.log a x
  | .read p f _ j _ acc loc => ((st.stream loc.stream).fail = false → (st.stream loc.stream).pos = loc.offset) ∧
      ∀ a, (map p).get f = some a → a j = some loc ∧ ∀ x ∈ acc, Good files st.log a x

private structure DInv (files : List (Nat × List UInt8)) (map : ScanMap) (s : State) : Prop where
  streams : SInv files s.streams
  workers : ∀ w ∈ s.workers, WOk files map s.streams w
  delivered : ∀ b ∈ s.delivered, ∀ a, (map b.pos).get b.frame = some a → ∀ x ∈ b.items, Good files s.streams.log a x
  log : ∀ i, ∀ o ∈ s.streams.log i, ∃ p f a j, (map p).get f = some a ∧ a j = some ⟨i, o⟩

private theorem wok_mono {files : List (Nat × List UInt8)} {map : ScanMap} {st st' : Streams} {w : PWorker Got}
    (hlog : ∀ i, ∃ l, st'.log i = st.log i ++ l) (hst : ∀ i, holds i w = true → st'.stream i = st.stream i)
    (h : WOk files map st w) : WOk files map st' w := by
  cases w with
  | test | fetch | exited | image => trivial
  | sector p f fs j n acc => exact fun a ha x hx => good_mono hlog (h a ha x hx)
  | seek p f fs j n acc loc => exact fun a ha => ⟨(h a ha).1, fun x hx => good_mono hlog ((h a ha).2 x hx)⟩
  | read p f fs j n acc loc =>
    refine ⟨?_, fun a ha => ⟨(h.2 a ha).1, fun x hx => good_mono hlog ((h.2 a ha).2 x hx)⟩⟩
    rw [hst loc.stream (by simp [holds])]
    exact h.1

private theorem DInv.next {files : List (Nat × List UInt8)} {map : ScanMap} {s s' : State} {pre post : List (PWorker Got)}
    {w w' : PWorker Got} (I : DInv files map s) (hw : s.workers = pre ++ w :: post) (hw' : s'.workers = pre ++ w' :: post)
    (hS : SInv files s'.streams) (hlog : ∀ i, ∃ l, s'.streams.log i = s.streams.log i ++ l)
    (hst : ∀ x ∈ pre ++ post, ∀ i, holds i x = true → s'.streams.stream i = s.streams.stream i)
    (hok : WOk files map s.streams w → WOk files map s'.streams w')
    (hd : ∀ b ∈ s'.delivered, b ∈ s.delivered ∨
      ∀ a, (map b.pos).get b.frame = some a → ∀ x ∈ b.items, Good files s'.streams.log a x)
    (hl : ∀ i, ∀ o ∈ s'.streams.log i, o ∈ s.streams.log i ∨ ∃ p f a j, (map p).get f = some a ∧ a j = some ⟨i, o⟩) :
    DInv files map s' where
  streams := hS
  workers := by
    intro x hx
    rw [hw'] at hx
    simp only [List.mem_append, List.mem_cons] at hx
    rcases hx with hx | rfl | hx
    · exact wok_mono hlog (hst x (by simp [hx])) (I.workers x (by rw [hw]; simp [hx]))
    · exact hok (I.workers w (by rw [hw]; simp))
    · exact wok_mono hlog (hst x (by simp [hx])) (I.workers x (by rw [hw]; simp [hx]))
  delivered := by
    intro b hb a ha x hx
    rcases hd b hb with h | h
    · exact good_mono hlog (I.delivered b h a ha x hx)
    · exact h a ha x hx
  log := by
    intro i o ho
    rcases hl i o ho with h | h
    · exact I.log i o h
    · exact h

private theorem dinv_step {files : List (Nat × List UInt8)} {map : ScanMap} {lo hi : Nat} {s s' : State} {l : Unit} {at_ : Nat → Nat}
    (I : DInv files map s) (P : MultiPass.PInv (files.map unitFile) map lo hi (shadow s at_)) (h : Step map hi s l s') :
    DInv files map s' := by
  have same : ∀ i, ∃ l, s.streams.log i = s.streams.log i ++ l := fun i => ⟨[], by simp⟩
  have alone : ∀ {pre post w i}, s.workers = pre ++ w :: post → holds i w = true → ∀ x ∈ pre ++ post, holds i x = false := by
    intro pre post w i hw hi x hx
    have hw' : (shadow s at_).workers = pre.map forget ++ forget w :: post.map forget := by simp [shadow, hw]
    have := (P.alone hw' (i := i) (by rw [holds_forget]; exact hi)).2 (forget x) (by
      rcases List.mem_append.1 hx with hx | hx
      · exact .inl (List.mem_map_of_mem hx)
      · exact .inr (List.mem_map_of_mem hx))
    rwa [holds_forget] at this
  cases h with
  | @done pre post hw hp => exact I.next hw rfl I.streams same (fun _ _ _ _ => rfl) (fun _ => trivial) (fun _ h => .inl h) fun _ _ h => .inl h
  | @more pre post hw hp => exact I.next hw rfl I.streams same (fun _ _ _ _ => rfl) (fun _ => trivial) (fun _ h => .inl h) fun _ _ h => .inl h
  | @overrun pre post hw hp => exact I.next hw rfl I.streams same (fun _ _ _ _ => rfl) (fun _ => trivial) (fun _ h => .inl h) fun _ _ h => .inl h
  | @fetch pre post hw hp => exact I.next hw rfl I.streams same (fun _ _ _ _ => rfl) (fun _ => trivial) (fun _ h => .inl h) fun _ _ h => .inl h
  | @end_ pre post p hw => exact I.next hw rfl I.streams same (fun _ _ _ _ => rfl) (fun _ => trivial) (fun _ h => .inl h) fun _ _ h => .inl h
  | @frame pre post p f fs hw =>
    exact I.next hw rfl I.streams same (fun _ _ _ _ => rfl) (fun _ => fun a _ x hx => by cases hx) (fun _ h => .inl h) fun _ _ h => .inl h
  | @missing pre post p f fs j n acc a hw hj ha hn =>
    exact I.next hw rfl I.streams same (fun _ _ _ _ => rfl) (fun h => h) (fun _ h => .inl h) fun _ _ h => .inl h
  | @acquire pre post p f fs j n acc a loc hw hj ha hn hl =>
    refine I.next hw rfl I.streams same (fun _ _ _ _ => rfl) (fun h => ?_) (fun _ h => .inl h) fun _ _ h => .inl h
    intro a' ha'
    rw [ha] at ha'
    obtain rfl := Option.some.inj ha'
    exact ⟨hn, h a ha⟩
  | @seek pre post p f fs j n acc loc hw =>
    obtain ⟨h1, h2, h3, h4⟩ := sinv_seek I.streams loc
    refine I.next hw rfl h1 (by rw [h2]; exact same) ?_ ?_ (fun _ h => .inl h) (fun _ _ h => .inl (by rwa [h2] at h))
    · intro x hx i hi
      apply h3
      rintro rfl
      rw [alone hw (by simp [holds]) x hx] at hi
      cases hi
    · intro h
      exact ⟨h4, fun a ha => ⟨(h a ha).1, by rw [h2]; exact (h a ha).2⟩⟩
  | @read pre post p f fs j n acc loc hw =>
    have hr := I.workers (.read p f fs j n acc loc) (by rw [hw]; simp)
    obtain ⟨h1, h2, h3, h4, h5⟩ := sinv_read I.streams loc hr.1
    have hlog : ∀ i, ∃ l, (s.streams.read loc).2.log i = s.streams.log i ++ l := fun i => ⟨_, h5 i⟩
    refine I.next hw rfl h1 hlog ?_ ?_ (fun _ h => .inl h) ?_
    · intro x hx i hi
      apply h4
      rintro rfl
      rw [alone hw (by simp [holds]) x hx] at hi
      cases hi
    · rintro ⟨_, h⟩ a ha x hx
      simp only [List.mem_append, List.mem_singleton] at hx
      rcases hx with hx | rfl
      · exact good_mono hlog ((h a ha).2 x hx)
      · refine ⟨loc, (h a ha).1, ?_, ?_⟩
        · rw [h5, h2]; simp
        · rw [h5, h2]; simpa using h3
    · intro i o ho'
      have ho : o ∈ (s.streams.read loc).2.log i := ho'
      clear ho'
      rw [h5, List.mem_append] at ho
      rcases ho with ho | ho
      · exact .inl ho
      · have hw' : (shadow s at_).workers = pre.map forget ++ .read p f fs j n (forgetItems acc) loc :: post.map forget := by
          simp [shadow, hw, forget]
        obtain ⟨_, _, _, a, ha, _, _, hn⟩ := P.fine (.read p f fs j n (forgetItems acc) loc) (by rw [hw']; simp)
        split at ho
        · rename_i e
          subst e
          refine .inr ⟨p, f, a, j, ha, ?_⟩
          rw [List.mem_singleton.1 ho]
          exact hn
        · cases ho
  | @deliver pre post p f fs n acc hw =>
    have hs := I.workers (.sector p f fs 4 n acc) (by rw [hw]; simp)
    refine I.next hw rfl I.streams same (fun _ _ _ _ => rfl) (fun _ => trivial) ?_ fun _ _ h => .inl h
    intro b hb
    simp only [List.mem_append, List.mem_singleton] at hb
    rcases hb with hb | rfl
    · exact .inl hb
    · exact .inr hs

private theorem dinv_reach {files : List (Nat × List UInt8)} {flo fhi lo hi threads : Nat} {map : ScanMap}
    (hidx : IsIndex (files.map toFile) flo fhi map) {s : State} (h : Reach (Step map hi) (init threads lo files) s) :
    DInv files map s := by
  obtain ⟨ls, h⟩ := h
  have : ∀ {ls s}, Run (Step map hi) (init threads lo files) ls s → DInv files map s := by
    intro ls s h
    induction h with
    | nil =>
      refine ⟨sinv_init files, ?_, ?_, by intro i o ho; cases ho⟩
      · intro w hw
        rw [show w = .test from List.eq_of_mem_replicate hw]
        trivial
      · intro b hb; cases hb
    | snoc h1 h2 ih =>
      obtain ⟨at_, hr⟩ := shadow_reach hidx h1
      exact dinv_step ih (Props.pinv_reach ⟨_, hr⟩) h2
  exact this h

private theorem shadow_items {files : List (Nat × List UInt8)} {flo fhi lo hi threads : Nat} {map : ScanMap}
    (hidx : IsIndex (files.map toFile) flo fhi map) {s : State} (h : Reach (Step map hi) (init threads lo files) s)
    {b : Block Got} (hb : b ∈ s.delivered) :
    (∃ a, (map b.pos).get b.frame = some a) ∧ BlockOk (files.map unitFile) flo fhi (forgetBlock b) := by
  obtain ⟨ls, h⟩ := h
  obtain ⟨at_, hr⟩ := shadow_reach hidx h
  have hm : forgetBlock b ∈ (shadow s at_).delivered := List.mem_map_of_mem hb
  obtain ⟨a, ha, _⟩ := (Props.pinv_reach ⟨_, hr⟩).good _ hm
  exact ⟨⟨a, ha⟩, Props.C29_content _ map flo fhi lo hi threads _ (isIndex_unit hidx) ⟨_, hr⟩ _ hm⟩

private theorem mem_forget {acc : List (Nat × Got)} {sec : Nat} {u : Unit} :
    (sec, u) ∈ forgetItems acc ↔ ∃ g, (sec, g) ∈ acc := by
  simp [forgetItems]

/-- **C83** What the user function gets, for all files and schedules: a frame has exactly the sectors which have a record; what is read for a
sector depends on the earlier reads from the same file (`log` is their order). -/
theorem C83_content (files : List (Nat × List UInt8)) (map : ScanMap) (flo fhi lo hi threads : Nat)
    (hidx : IsIndex (files.map toFile) flo fhi map) {s : State} (h : Reach (Step map hi) (init threads lo files) s)
    {b : Block Got} (hb : b ∈ s.delivered) :
    (∀ sec, (∃ g, (sec, g) ∈ b.items) ↔
      sec < 4 ∧ ∃ i j r, flo ≤ i ∧ i < fhi ∧ IsRecord (files.map toFile) i j r b.pos b.frame sec) ∧
    (b.items.map Prod.fst).Nodup ∧
    (∀ sec g, (sec, g) ∈ b.items → ∃ i j r, flo ≤ i ∧ i < fhi ∧ IsRecord (files.map toFile) i j r b.pos b.frame sec ∧
      (s.streams.log i)[g.nth]? = some (j * recordSize + 16) ∧
      Expected (content files i) ((s.streams.log i).take g.nth) (j * recordSize + 16) g.data) ∧
    (b.complete = true ↔ ∀ sec < 4, ∃ i j r, flo ≤ i ∧ i < fhi ∧ IsRecord (files.map toFile) i j r b.pos b.frame sec) := by
  obtain ⟨⟨a, ha⟩, B⟩ := shadow_items hidx h hb
  have unit : ∀ sec, (∃ i j u, flo ≤ i ∧ i < fhi ∧ IsRecord (files.map unitFile) i j u b.pos b.frame sec) ↔
      ∃ i j r, flo ≤ i ∧ i < fhi ∧ IsRecord (files.map toFile) i j r b.pos b.frame sec := by
    intro sec
    constructor
    · rintro ⟨i, j, u, h1, h2, h3⟩
      obtain ⟨r, hr, _⟩ := isRecord_unit.1 h3
      exact ⟨i, j, r, h1, h2, hr⟩
    · rintro ⟨i, j, r, h1, h2, h3⟩
      exact ⟨i, j, strip r, h1, h2, isRecord_unit.2 ⟨r, h3, rfl⟩⟩
  refine ⟨?_, ?_, ?_, ?_⟩
  · intro sec
    rw [← unit, ← mem_forget (u := ())]
    have := B.items sec ()
    refine Iff.trans this ?_
    constructor
    · rintro ⟨h1, i, j, u, h2, h3, h4, _⟩; exact ⟨h1, i, j, u, h2, h3, h4⟩
    · rintro ⟨h1, i, j, u, h2, h3, h4⟩; exact ⟨h1, i, j, u, h2, h3, h4, rfl⟩
  · have := B.once
    simp only [forgetBlock, forgetItems, List.map_map] at this
    exact this
  · intro sec g hg
    obtain ⟨loc, h1, h2, h3⟩ := (dinv_reach hidx h).delivered b hb a ha _ hg
    obtain ⟨i, j, r, h4, h5, h6, rfl⟩ := (hidx.loc b.pos b.frame sec loc).1 ⟨a, ha, h1⟩
    exact ⟨i, j, r, h4, h5, h6, h2, h3⟩
  · refine Iff.trans B.complete ?_
    constructor
    · intro h sec hs; exact (unit sec).1 (h sec hs)
    · intro h sec hs; exact (unit sec).2 (h sec hs)

/-- **C83** Every frame with a record is delivered once, also if files were cut in the pixels. -/
theorem C83_exactly_once (files : List (Nat × List UInt8)) (map : ScanMap) (flo fhi lo hi threads : Nat)
    (hidx : IsIndex (files.map toFile) flo fhi map) (ht : 0 < threads) {s : State}
    (h : Reach (Step map hi) (init threads lo files) s) (hex : ∀ w ∈ s.workers, w = .exited) :
    (s.delivered.map fun b => (b.pos, b.frame)).Nodup ∧
    ∀ p f, (∃ b ∈ s.delivered, b.pos = p ∧ b.frame = f) ↔
      lo ≤ p ∧ p < hi ∧ ∃ i j r sec, flo ≤ i ∧ i < fhi ∧ IsRecord (files.map toFile) i j r p f sec := by
  obtain ⟨ls, h⟩ := h
  obtain ⟨at_, hr⟩ := shadow_reach hidx h
  have hex' : ∀ w ∈ (shadow s at_).workers, w = .exited := by
    intro w hw
    obtain ⟨x, hx, rfl⟩ := List.mem_map.1 hw
    rw [hex x hx]; rfl
  obtain ⟨h1, h2⟩ := Props.C29_exactly_once _ map flo fhi lo hi threads _ (isIndex_unit hidx) ht ⟨_, hr⟩ hex'
  constructor
  · simpa [shadow, forgetBlock, Function.comp_def] using h1
  · intro p f
    rw [← hidx.keys, (isIndex_unit hidx).keys, ← h2]
    simp [shadow, forgetBlock]

/-- The file is a sequence of whole records. -/
def Whole (b : List UInt8) : Prop := b.length % recordSize = 0

theorem whole_not_cut {b : List UInt8} (hw : Whole b) {j : Nat} (h : j * recordSize + headerSize ≤ b.length) :
    ¬ Cut b (j * recordSize + 16) := by
  have e : b.length = recordSize * (b.length / recordSize) := by
    have := Nat.div_add_mod b.length recordSize
    rw [hw] at this
    omega
  have h1 : j < b.length / recordSize := by
    rw [Nat.lt_iff_add_one_le, Nat.le_div_iff_mul_le (by decide), Nat.add_mul]
    by_contra hc
    have h2 : b.length / recordSize ≤ j := by
      have : b.length < (j + 1) * recordSize := by rw [Nat.add_mul]; omega
      have := (Nat.div_lt_iff_lt_mul (show 0 < recordSize by decide)).2 this
      omega
    have h3 : recordSize * (b.length / recordSize) ≤ recordSize * j := Nat.mul_le_mul_left _ h2
    rw [← e, Nat.mul_comm] at h3
    have : 0 < headerSize := by decide
    omega
  have h2 : recordSize * (j + 1) ≤ recordSize * (b.length / recordSize) := Nat.mul_le_mul_left _ h1
  rw [← e, Nat.mul_add, Nat.mul_comm] at h2
  have := recordSize_eq
  have : headerSize = 16 := rfl
  simp only [Cut]
  omega

/-- The offsets in the index are those of records. -/
theorem loc_record {files : List (Nat × List UInt8)} {flo fhi : Nat} {map : ScanMap}
    (hidx : IsIndex (files.map toFile) flo fhi map) {p f sec i o : Nat} {a : Sectors} (ha : (map p).get f = some a)
    (hs : a sec = some ⟨i, o⟩) : flo ≤ i ∧ i < fhi ∧ ∃ j, o = j * recordSize + 16 ∧ j * recordSize + headerSize ≤ (content files i).length := by
  obtain ⟨i', j, r, h1, h2, h3, h4⟩ := (hidx.loc p f sec ⟨i, o⟩).1 ⟨a, ha, hs⟩
  simp only [Loc.mk.injEq] at h4
  obtain ⟨rfl, rfl⟩ := h4
  obtain ⟨x, hx, hl, _⟩ := isRecord_iff.1 h3
  exact ⟨h1, h2, j, rfl, by rw [content, hx]; exact hl⟩

/-- **C83** A file with whole records only: what is read from it are the pixels of the record, whatever happened to other files. -/
theorem C83_file_partial (files : List (Nat × List UInt8)) (map : ScanMap) (flo fhi lo hi threads : Nat)
    (hidx : IsIndex (files.map toFile) flo fhi map) {s : State} (h : Reach (Step map hi) (init threads lo files) s)
    {b : Block Got} (hb : b ∈ s.delivered) {sec : Nat} {g : Got} (hg : (sec, g) ∈ b.items) :
    ∃ i j r, flo ≤ i ∧ i < fhi ∧ IsRecord (files.map toFile) i j r b.pos b.frame sec ∧
      (Whole (content files i) → g.data = r.data ∧ r.data.length = 576 * 144) := by
  obtain ⟨i, j, r, h1, h2, h3, h4, h5⟩ := (C83_content files map flo fhi lo hi threads hidx h hb).2.2.1 sec g hg
  refine ⟨i, j, r, h1, h2, h3, ?_⟩
  intro hw
  rw [record_stored h3]
  have I := dinv_reach hidx h
  have hno : ∀ o ∈ (s.streams.log i).take g.nth, ¬ Cut (content files i) o := by
    intro o ho
    obtain ⟨p, f, a, sec', ha, hs⟩ := I.log i o (List.mem_of_mem_take ho)
    obtain ⟨_, _, j', rfl, hl⟩ := loc_record hidx ha hs
    exact whole_not_cut hw hl
  refine ⟨?_, ?_⟩
  · rcases h5 with ⟨_, h⟩ | ⟨⟨o, ho, hc⟩, _⟩
    · exact h
    · exact absurd hc (hno o ho)
  · obtain ⟨x, hx, hl, _⟩ := isRecord_iff.1 h3
    have hc := whole_not_cut hw (j := j) (by rw [content, hx]; exact hl)
    have hlen := stored_length (content files i) (j * recordSize + 16)
    simp only [Cut] at hc
    have e : (stored (content files i) (j * recordSize + 16)).length = 2 * (576 * 144) := by
      rw [hlen]
      have : dataSize = 2 * (576 * 144) := rfl
      omega
    simp [pixels, StreamReader.decodeArray, e]

/-- **C83** With whole files the reader on bytes delivers what C29 says for the records of the files. -/
theorem C83_whole (files : List (Nat × List UInt8)) (map : ScanMap) (flo fhi lo hi threads : Nat)
    (hidx : IsIndex (files.map toFile) flo fhi map) (hw : ∀ x ∈ files, Whole x.2) {s : State}
    (h : Reach (Step map hi) (init threads lo files) s) {b : Block Got} (hb : b ∈ s.delivered) :
    BlockOk (files.map toFile) flo fhi (plain b) := by
  obtain ⟨h1, h2, h3, h4⟩ := C83_content files map flo fhi lo hi threads hidx h hb
  have hwc : ∀ {i j r p f sec}, IsRecord (files.map toFile) i j r p f sec → Whole (content files i) := by
    intro i j r p f sec hr
    obtain ⟨x, hx, _⟩ := isRecord_iff.1 hr
    rw [content, hx]
    exact hw x (List.mem_of_getElem? hx)
  obtain ⟨⟨a, ha⟩, _⟩ := shadow_items hidx h hb
  refine ⟨?_, ?_, h4⟩
  · intro sec d
    constructor
    · intro hd
      obtain ⟨⟨sec', g⟩, hg, e⟩ := List.mem_map.1 hd
      simp only [Prod.mk.injEq] at e
      obtain ⟨rfl, rfl⟩ := e
      obtain ⟨i, j, r, k1, k2, k3, k4⟩ := C83_file_partial files map flo fhi lo hi threads hidx h hb hg
      exact ⟨((h1 sec').1 ⟨g, hg⟩).1, i, j, r, k1, k2, k3, (k4 (hwc k3)).1.symm⟩
    · rintro ⟨hs, i, j, r, k1, k2, k3, rfl⟩
      obtain ⟨g, hg⟩ := (h1 sec).2 ⟨hs, i, j, r, k1, k2, k3⟩
      obtain ⟨i', j', r', l1, l2, l3, l4⟩ := C83_file_partial files map flo fhi lo hi threads hidx h hb hg
      have e1 := (hidx.loc b.pos b.frame sec _).2 ⟨i, j, r, k1, k2, k3, rfl⟩
      have e2 := (hidx.loc b.pos b.frame sec _).2 ⟨i', j', r', l1, l2, l3, rfl⟩
      obtain ⟨a1, ha1, hl1⟩ := e1
      obtain ⟨a2, ha2, hl2⟩ := e2
      rw [ha1] at ha2
      obtain rfl := Option.some.inj ha2
      rw [hl1] at hl2
      simp only [Option.some.injEq, Loc.mk.injEq] at hl2
      obtain ⟨rfl, e⟩ := hl2
      have ej : j = j' := by
        have : j * recordSize = j' * recordSize := by omega
        exact Nat.eq_of_mul_eq_mul_right (by decide) this
      subst ej
      have er : r = r' := by
        obtain ⟨x, hx, _, hr, _⟩ := isRecord_iff.1 k3
        obtain ⟨x', hx', _, hr', _⟩ := isRecord_iff.1 l3
        rw [hx] at hx'
        obtain rfl := Option.some.inj hx'
        rw [hr, hr']
      subst er
      refine List.mem_map.2 ⟨(sec, g), hg, ?_⟩
      simp only [Prod.mk.injEq, true_and]
      exact (l4 (hwc l3)).1
  · simp only [plain, List.map_map]
    exact h2

/-- **C83** A frame with four sectors of which one was cut is marked complete in every execution, with fewer bytes than a sector has. -/
theorem C83_complete_false (files : List (Nat × List UInt8)) (map : ScanMap) (flo fhi lo hi threads : Nat)
    (hidx : IsIndex (files.map toFile) flo fhi map) (ht : 0 < threads) {s : State}
    (h : Reach (Step map hi) (init threads lo files) s) (hex : ∀ w ∈ s.workers, w = .exited) {p f sec i j : Nat} {r : Rec (List Nat)}
    (hp : lo ≤ p ∧ p < hi) (hall : ∀ sec < 4, ∃ i j r, flo ≤ i ∧ i < fhi ∧ IsRecord (files.map toFile) i j r p f sec) (hs : sec < 4)
    (hi' : flo ≤ i ∧ i < fhi) (hr : IsRecord (files.map toFile) i j r p f sec) (hc : Cut (content files i) (j * recordSize + 16)) :
    ∃ b ∈ s.delivered, b.pos = p ∧ b.frame = f ∧ b.complete = true ∧
      ∃ g, (sec, g) ∈ b.items ∧ ∃ bytes : List UInt8, bytes.length < dataSize ∧ g.data = pixels bytes := by
  obtain ⟨b, hb, rfl, rfl⟩ := ((C83_exactly_once files map flo fhi lo hi threads hidx ht h hex).2 p f).2
    ⟨hp.1, hp.2, i, j, r, sec, hi'.1, hi'.2, hr⟩
  obtain ⟨h1, h2, h3, h4⟩ := C83_content files map flo fhi lo hi threads hidx h hb
  obtain ⟨g, hg⟩ := (h1 sec).2 ⟨hs, i, j, r, hi'.1, hi'.2, hr⟩
  refine ⟨b, hb, rfl, rfl, h4.2 hall, g, hg, ?_⟩
  obtain ⟨i', j', r', k1, k2, k3, k4, k5⟩ := h3 sec g hg
  obtain ⟨a1, ha1, hl1⟩ := (hidx.loc b.pos b.frame sec _).2 ⟨i, j, r, hi'.1, hi'.2, hr, rfl⟩
  obtain ⟨a2, ha2, hl2⟩ := (hidx.loc b.pos b.frame sec _).2 ⟨i', j', r', k1, k2, k3, rfl⟩
  rw [ha1] at ha2
  obtain rfl := Option.some.inj ha2
  rw [hl1] at hl2
  simp only [Option.some.injEq, Loc.mk.injEq] at hl2
  obtain ⟨rfl, e⟩ := hl2
  rw [← e] at k5
  rcases k5 with ⟨_, hd⟩ | ⟨_, hd⟩
  · refine ⟨_, ?_, hd⟩
    rw [stored_length]
    simp only [Cut] at hc
    have : 0 < dataSize := by decide
    omega
  · exact ⟨[], by decide, by rw [hd]; simp [pixels, StreamReader.decodeArray]⟩

/-! ### One frame after the other -/

private theorem readSectors_spec {files : List (Nat × List UInt8)} (a : Sectors) (js : List Nat) (n : Nat) (acc : List (Nat × Got))
    {st : Streams} (I : SInv files st) (hacc : ∀ x ∈ acc, Good files st.log a x) :
    let r := readSectors a js n acc st
    SInv files r.2 ∧ (∀ x ∈ r.1.1, Good files r.2.log a x) ∧
      (∀ i, r.2.log i = st.log i ++ ((js.filterMap a).filter fun l => l.stream = i).map Loc.offset) ∧
      r.1.2 = n + (js.filter fun j => (a j).isSome).length ∧
      r.1.1.map Prod.fst = acc.map Prod.fst ++ js.filter (fun j => (a j).isSome) ∧
      ∀ x ∈ r.1.1, x ∈ acc ∨ ∃ loc, a x.1 = some loc ∧ (st.log loc.stream).length ≤ x.2.nth := by
  induction js generalizing n acc st with
  | nil => exact ⟨I, hacc, by simp [readSectors], by simp [readSectors], by simp [readSectors], fun x hx => .inl hx⟩
  | cons j js ih =>
    cases hj : a j with
    | none =>
      simp only [readSectors, hj]
      obtain ⟨h1, h2, h3, h4, h5, h6⟩ := ih n acc I hacc
      exact ⟨h1, h2, by simpa [hj] using h3, by simpa [hj] using h4, by simpa [hj] using h5, h6⟩
    | some loc =>
      simp only [readSectors, hj]
      obtain ⟨s1, s2, s3, s4⟩ := sinv_seek I loc
      obtain ⟨r1, r2, r3, r4, r5⟩ := sinv_read s1 loc s4
      rw [s2] at r2 r3
      simp only [s2] at r5
      obtain ⟨h1, h2, h3, h4, h5, h6⟩ := ih (n + 1) (acc ++ [(j, ((st.seek loc).read loc).1)]) r1 (by
        intro x hx
        simp only [List.mem_append, List.mem_singleton] at hx
        rcases hx with hx | rfl
        · exact good_mono (fun i => ⟨_, r5 i⟩) (hacc x hx)
        · refine ⟨loc, hj, ?_, ?_⟩
          · rw [r5, r2]; simp
          · rw [r5, r2]; simpa using r3)
      refine ⟨h1, h2, ?_, ?_, ?_, ?_⟩
      · intro i
        rw [h3, r5]
        simp only [List.filterMap_cons, hj, List.filter_cons]
        by_cases hi : i = loc.stream
        · simp [hi]
        · have : ¬ loc.stream = i := fun e => hi e.symm
          simp [hi, this]
      · rw [h4]; simp [hj]; omega
      · rw [h5]; simp [hj]
      · intro x hx
        rcases h6 x hx with hx | ⟨loc', hl, hle⟩
        · simp only [List.mem_append, List.mem_singleton] at hx
          rcases hx with hx | rfl
          · exact .inl hx
          · exact .inr ⟨loc, hj, by rw [r2]⟩
        · refine .inr ⟨loc', hl, ?_⟩
          rw [r5] at hle
          simp only [List.length_append] at hle
          omega

/-- The offsets which are read from stream `i` for a frame. -/
def offsets (a : Sectors) (i : Nat) : List Nat := (((List.range 4).filterMap a).filter fun l => l.stream = i).map Loc.offset

private theorem processFrame_spec {files : List (Nat × List UInt8)} (a : Sectors) (p f : Nat) {st : Streams} (I : SInv files st) :
    SInv files (processFrame a p f st).2 ∧
      (∀ i, (processFrame a p f st).2.log i = st.log i ++ offsets a i) ∧
      (processFrame a p f st).1.pos = p ∧ (processFrame a p f st).1.frame = f ∧
      ((processFrame a p f st).1.complete = true ↔ ∀ sec < 4, (a sec).isSome) ∧
      (processFrame a p f st).1.items.map Prod.fst = (List.range 4).filter (fun j => (a j).isSome) ∧
      ∀ x ∈ (processFrame a p f st).1.items, Good files (processFrame a p f st).2.log a x ∧
        ∃ loc, a x.1 = some loc ∧ (st.log loc.stream).length ≤ x.2.nth := by
  obtain ⟨h1, h2, h3, h4, h5, h6⟩ := readSectors_spec a (List.range 4) 0 [] I (by simp)
  refine ⟨h1, h3, rfl, rfl, ?_, by simpa [processFrame] using h5, ?_⟩
  · simp only [processFrame, h4, Nat.zero_add, beq_iff_eq]
    have hl : (List.range 4).length = 4 := by simp
    constructor
    · intro h sec hs
      have := List.length_filter_eq_length_iff.1 (h.trans hl.symm) sec (List.mem_range.2 hs)
      simpa using this
    · intro h
      rw [List.filter_eq_self.2 (fun x hx => h x (List.mem_range.1 hx)), hl]
  · intro x hx
    refine ⟨h2 x hx, ?_⟩
    rcases h6 x hx with h | h
    · cases h
    · exact h

/-- Offsets which are read from stream `i` for the frames, in order. -/
def allOffsets (fs : List (Sectors × Nat × Nat)) (i : Nat) : List Nat := fs.flatMap fun x => offsets x.1 i

/-- A block is what is read for a frame after the offsets `before`. -/
structure FrameOk (files : List (Nat × List UInt8)) (before : Nat → List Nat) (x : Sectors × Nat × Nat) (b : Block Got) : Prop where
  pos : b.pos = x.2.1
  frame : b.frame = x.2.2
  complete : b.complete = true ↔ ∀ sec < 4, (x.1 sec).isSome
  sectors : b.items.map Prod.fst = (List.range 4).filter fun j => (x.1 j).isSome
  data : ∀ sec g, (sec, g) ∈ b.items → ∃ loc earlier, x.1 sec = some loc ∧
    before loc.stream <+: earlier ∧ earlier <+: before loc.stream ++ offsets x.1 loc.stream ∧
    Expected (content files loc.stream) earlier loc.offset g.data

private theorem processAll_spec {files : List (Nat × List UInt8)} (fs : List (Sectors × Nat × Nat)) {st : Streams}
    (I : SInv files st) :
    SInv files (processAll fs st).2 ∧ (∀ i, (processAll fs st).2.log i = st.log i ++ allOffsets fs i) ∧
      (processAll fs st).1.length = fs.length ∧
      ∀ k x b, fs[k]? = some x → (processAll fs st).1[k]? = some b →
        FrameOk files (fun i => st.log i ++ allOffsets (fs.take k) i) x b := by
  induction fs generalizing st with
  | nil => exact ⟨I, by simp [processAll, allOffsets], rfl, by simp⟩
  | cons y fs ih =>
    obtain ⟨a, p, f⟩ := y
    obtain ⟨h1, h2, h3, h4, h5, h6, h7⟩ := processFrame_spec a p f I
    obtain ⟨k1, k2, k3, k4⟩ := ih h1
    simp only [processAll]
    refine ⟨k1, ?_, by simp [k3], ?_⟩
    · intro i; rw [k2, h2]; simp [allOffsets]
    · intro k x b hx hb
      cases k with
      | zero =>
        simp only [List.getElem?_cons_zero, Option.some.injEq] at hx hb
        subst hx hb
        refine ⟨h3, h4, h5, h6, ?_⟩
        intro sec g hg
        obtain ⟨⟨loc, g1, g2, g3⟩, loc', g4, g5⟩ := h7 _ hg
        simp only at g1 g4 g2 g3 g5
        rw [g1] at g4
        obtain rfl := Option.some.inj g4
        rw [h2] at g2 g3
        refine ⟨loc, _, g1, ?_, ?_, g3⟩
        · simp only [allOffsets, List.take_zero, List.flatMap_nil, List.append_nil]
          rw [List.take_append]
          rw [List.take_of_length_le (by omega)]
          exact List.prefix_append _ _
        · simp only [allOffsets, List.take_zero, List.flatMap_nil, List.append_nil]
          exact List.take_prefix _ _
      | succ k =>
        simp only [List.getElem?_cons_succ] at hx hb
        have := k4 k x b hx hb
        simpa [h2, allOffsets] using this

/-- **C83** Random access: what every call gives, for all files and sequences of calls. -/
theorem C83_random (files : List (Nat × List UInt8)) (fs : List (Sectors × Nat × Nat)) :
    (processAll fs (.init files)).1.length = fs.length ∧
    ∀ k x b, fs[k]? = some x → (processAll fs (.init files)).1[k]? = some b → FrameOk files (allOffsets (fs.take k)) x b := by
  obtain ⟨_, _, h3, h4⟩ := processAll_spec fs (sinv_init files)
  refine ⟨h3, ?_⟩
  intro k x b hx hb
  have := h4 k x b hx hb
  simpa [Streams.init] using this

private theorem mem_offsets {a : Sectors} {i o : Nat} : o ∈ offsets a i ↔ ∃ j < 4, a j = some ⟨i, o⟩ := by
  simp only [offsets, List.mem_map, List.mem_filter, List.mem_filterMap, List.mem_range, decide_eq_true_eq]
  constructor
  · rintro ⟨⟨i', o'⟩, ⟨⟨j, h1, h2⟩, h3⟩, h4⟩
    simp only at h3 h4
    subst h3 h4
    exact ⟨j, h1, h2⟩
  · rintro ⟨j, h1, h2⟩
    exact ⟨⟨i, o⟩, ⟨⟨j, h1, h2⟩, rfl⟩, rfl⟩

/-- **C83** As long as no call has reached a record that was cut, the pixels are those of the file. -/
theorem C83_random_partial (files : List (Nat × List UInt8)) (fs : List (Sectors × Nat × Nat))
    (hno : ∀ x ∈ fs, ∀ j < 4, ∀ loc, x.1 j = some loc → ¬ Cut (content files loc.stream) loc.offset)
    {k : Nat} {x : Sectors × Nat × Nat} {b : Block Got} (hx : fs[k]? = some x) (hb : (processAll fs (.init files)).1[k]? = some b)
    {sec : Nat} {g : Got} (hg : (sec, g) ∈ b.items) :
    ∃ loc, x.1 sec = some loc ∧ g.data = pixels (stored (content files loc.stream) loc.offset) := by
  obtain ⟨loc, earlier, h1, h2, h3, h4⟩ := ((C83_random files fs).2 k x b hx hb).data sec g hg
  refine ⟨loc, h1, ?_⟩
  rcases h4 with ⟨_, h⟩ | ⟨⟨o, ho, hc⟩, _⟩
  · exact h
  · exfalso
    have ho := h3.subset ho
    rcases List.mem_append.1 ho with ho | ho
    · simp only [allOffsets, List.mem_flatMap] at ho
      obtain ⟨y, hy, ho⟩ := ho
      obtain ⟨j, hj, e⟩ := mem_offsets.1 ho
      exact hno y (List.mem_of_mem_take hy) j hj _ e hc
    · obtain ⟨j, hj, e⟩ := mem_offsets.1 ho
      exact hno x (List.mem_of_getElem? hx) j hj _ e hc

/-- **C83** After a frame of which a sector was cut, every other frame loses its sectors in the same file: zeros, and the frame is marked
complete if it has four sectors. -/
theorem C83_sticky_false (files : List (Nat × List UInt8)) (fs : List (Sectors × Nat × Nat)) {k m : Nat} (hkm : k < m)
    {x y : Sectors × Nat × Nat} (hx : fs[k]? = some x) (hy : fs[m]? = some y) {j sec : Nat} {i o : Nat} {loc : Loc} (hj : j < 4)
    (hs : sec < 4) (hxj : x.1 j = some ⟨i, o⟩) (hc : Cut (content files i) o) (hys : y.1 sec = some loc) (hloc : loc.stream = i) :
    ∃ b, (processAll fs (.init files)).1[m]? = some b ∧ b.pos = y.2.1 ∧ b.frame = y.2.2 ∧
      (∃ g, (sec, g) ∈ b.items) ∧ (∀ g, (sec, g) ∈ b.items → g.data = []) ∧
      (b.complete = true ↔ ∀ sec < 4, (y.1 sec).isSome) := by
  obtain ⟨hl, hf⟩ := C83_random files fs
  have hm : m < (processAll fs (.init files)).1.length := by
    rw [hl]
    exact (List.getElem?_eq_some_iff.1 hy).1
  refine ⟨_, List.getElem?_eq_getElem hm, ?_⟩
  have F := hf m y _ hy (List.getElem?_eq_getElem hm)
  refine ⟨F.pos, F.frame, ?_, ?_, F.complete⟩
  · have : sec ∈ ((processAll fs (.init files)).1[m]).items.map Prod.fst := by
      rw [F.sectors]
      simp [hs, hys]
    obtain ⟨⟨s, g⟩, hg, rfl⟩ := List.mem_map.1 this
    exact ⟨g, hg⟩
  · intro g hg
    obtain ⟨loc', earlier, h1, h2, h3, h4⟩ := F.data sec g hg
    rw [hys] at h1
    obtain rfl := Option.some.inj h1
    have hoc : o ∈ earlier := by
      apply h2.subset
      simp only [allOffsets, List.mem_flatMap]
      refine ⟨x, ?_, ?_⟩
      · rw [List.mem_iff_getElem?]
        exact ⟨k, by rw [List.getElem?_take_of_lt hkm]; exact hx⟩
      · exact mem_offsets.2 ⟨j, hj, by rw [hloc]; exact hxj⟩
    rcases h4 with ⟨h, _⟩ | ⟨_, h⟩
    · exact absurd (by rw [hloc]; exact hc) (h o hoc)
    · exact h

/-! ### Executions in which one thread does everything -/

private theorem unlock {locks : Nat → Bool} (h : ∀ i, locks i = false) (i : Nat) :
    update (update locks i true) i false = locks := by
  funext k
  simp only [update]
  split
  · rename_i e; subst e; exact (h k).symm
  · rfl

private theorem seq_sectors {map : ScanMap} {hi : Nat} {a : Sectors} {p f : Nat} {fs : List Nat} (ha : (map p).get f = some a)
    (k : Nat) {j n : Nat} {acc : List (Nat × Got)} {s : State} {post : List (PWorker Got)} (hk : j + k = 4)
    (hw : s.workers = .sector p f fs j n acc :: post) (hl : ∀ i, s.locks i = false) :
    let r := readSectors a (List.range' j k) n acc s.streams
    Reach (Step map hi) s { s with streams := r.2, workers := .sector p f fs 4 r.1.2 r.1.1 :: post } := by
  induction k generalizing j n acc s with
  | zero =>
    obtain rfl : j = 4 := by omega
    simp only [List.range'_zero, readSectors]
    have : s = { s with streams := s.streams, workers := .sector p f fs 4 n acc :: post } := by rw [← hw]
    rw [← this]
    exact Reach.refl _
  | succ k ih =>
    rw [List.range'_succ]
    cases hj : a j with
    | none =>
      simp only [readSectors, hj]
      have := ih (j := j + 1) (n := n) (acc := acc) (s := { s with workers := .sector p f fs (j + 1) n acc :: post }) (by omega) rfl hl
      exact Reach.head (Step.missing (pre := []) hw (by omega) ha hj) this
    | some loc =>
      simp only [readSectors, hj]
      have := ih (j := j + 1) (n := n + 1) (acc := acc ++ [(j, ((s.streams.seek loc).read loc).1)])
        (s := { s with streams := ((s.streams.seek loc).read loc).2, workers := .sector p f fs (j + 1) (n + 1) (acc ++ [(j, ((s.streams.seek loc).read loc).1)]) :: post })
        (by omega) rfl hl
      refine Reach.head (Step.acquire (pre := []) hw (by omega) ha hj (hl _)) ?_
      refine Reach.head (Step.seek (pre := []) rfl) ?_
      refine Reach.head (Step.read (pre := []) rfl) ?_
      simp only [unlock hl]
      exact this

private theorem processAll_append (l l' : List (Sectors × Nat × Nat)) (st : Streams) :
    processAll (l ++ l') st = ((processAll l st).1 ++ (processAll l' (processAll l st).2).1, (processAll l' (processAll l st).2).2) := by
  induction l generalizing st with
  | nil => rfl
  | cons x l ih =>
    obtain ⟨a, p, f⟩ := x
    simp [processAll, ih]

/-- The frames of a position, in order. -/
def framesOf (map : ScanMap) (p : Nat) (fs : List Nat) : List (Sectors × Nat × Nat) :=
  fs.filterMap fun f => ((map p).get f).map fun a => (a, p, f)

private theorem seq_frames {map : ScanMap} {hi p : Nat} (fs : List Nat) (hfs : ∀ f ∈ fs, ∃ a, (map p).get f = some a) {s : State}
    {post : List (PWorker Got)} (hw : s.workers = .image p fs :: post) (hl : ∀ i, s.locks i = false) :
    let r := processAll (framesOf map p fs) s.streams
    Reach (Step map hi) s { s with streams := r.2, delivered := s.delivered ++ r.1, workers := .test :: post } := by
  induction fs generalizing s with
  | nil =>
    refine Reach.head (Step.end_ (pre := []) hw) ?_
    simp only [framesOf, List.filterMap_nil, processAll, List.append_nil]
    exact Reach.refl _
  | cons f fs ih =>
    obtain ⟨a, ha⟩ := hfs f (by simp)
    have e : framesOf map p (f :: fs) = (a, p, f) :: framesOf map p fs := by simp [framesOf, ha]
    rw [e]
    refine Reach.head (Step.frame (pre := []) hw) ?_
    have h1 := seq_sectors (map := map) (hi := hi) ha 4 (j := 0) (n := 0) (acc := []) (fs := fs)
      (s := { s with workers := .sector p f fs 0 0 [] :: post }) (by omega) rfl hl
    refine Reach.trans h1 ?_
    refine Reach.head (Step.deliver (pre := []) rfl) ?_
    have h2 := ih (fun g hg => hfs g (by simp [hg])) (s := { s with
      streams := (processFrame a p f s.streams).2
      delivered := s.delivered ++ [(processFrame a p f s.streams).1]
      workers := .image p fs :: post }) rfl hl
    simp only [processAll]
    simp only [List.append_assoc, List.singleton_append] at h2
    exact h2

/-- The frames of the positions `lo`, ..., `hi - 1`, in order. -/
def inOrder (map : ScanMap) (lo hi : Nat) : List (Sectors × Nat × Nat) :=
  (List.range' lo (hi - lo)).flatMap fun p => framesOf map p (map p).keys

private theorem seq_positions {map : ScanMap} {hi : Nat} (k : Nat) {s : State} {post : List (PWorker Got)}
    (hk : hi - s.processed = k) (hw : s.workers = .test :: post) (hl : ∀ i, s.locks i = false) :
    let r := processAll (inOrder map s.processed hi) s.streams
    Reach (Step map hi) s { s with
      processed := s.processed + k, streams := r.2, delivered := s.delivered ++ r.1, workers := .test :: post } := by
  induction k generalizing s with
  | zero =>
    simp only [inOrder, hk, List.range'_zero, List.flatMap_nil, processAll, List.append_nil, Nat.add_zero]
    rw [← hw]
    exact Reach.refl _
  | succ k ih =>
    have hlt : s.processed < hi := by omega
    have e : inOrder map s.processed hi = framesOf map s.processed (map s.processed).keys ++ inOrder map (s.processed + 1) hi := by
      rw [inOrder, hk, List.range'_succ, List.flatMap_cons, inOrder, show hi - (s.processed + 1) = k by omega]
    rw [e, processAll_append]
    refine Reach.head (Step.more (pre := []) hw hlt) ?_
    refine Reach.head (Step.fetch (pre := []) rfl hlt) ?_
    have h1 := seq_frames (map := map) (hi := hi) (p := s.processed) (map s.processed).keys
      (fun f hf => Option.isSome_iff_exists.1 (SMap.mem_keys.1 hf))
      (s := { s with processed := s.processed + 1, workers := .image s.processed (map s.processed).keys :: post }) rfl hl
    refine Reach.trans h1 ?_
    have h2 := ih (s := { s with
      processed := s.processed + 1
      streams := (processAll (framesOf map s.processed (map s.processed).keys) s.streams).2
      delivered := s.delivered ++ (processAll (framesOf map s.processed (map s.processed).keys) s.streams).1
      workers := .test :: post }) (by simp only; omega) rfl hl
    simp only at h2
    rw [show s.processed + 1 + k = s.processed + (k + 1) by omega, List.append_assoc] at h2
    exact h2

/-- **C83** With any number of threads there is an execution in which the frames are read in order, one after the other. -/
theorem C83_in_order (files : List (Nat × List UInt8)) (map : ScanMap) (lo hi threads : Nat) :
    ∃ s, Reach (Step map hi) (init (threads + 1) lo files) s ∧
      s.delivered = (processAll (inOrder map lo hi) (.init files)).1 := by
  have := seq_positions (map := map) (hi := hi) (hi - lo) (s := init (threads + 1) lo files) (post := List.replicate threads .test) rfl
    (by simp [init, List.replicate_succ]) (fun _ => rfl)
  exact ⟨_, this, by simp [init]⟩

private theorem mem_inOrder {map : ScanMap} {lo hi p f : Nat} {a : Sectors} (hp : lo ≤ p ∧ p < hi) (ha : (map p).get f = some a) :
    (a, p, f) ∈ inOrder map lo hi := by
  refine List.mem_flatMap.2 ⟨p, by rw [List.mem_range'_1]; omega, ?_⟩
  refine List.mem_filterMap.2 ⟨f, SMap.mem_keys.2 (by simp [ha]), by simp [ha]⟩

private theorem inOrder_split {map : ScanMap} {lo q hi : Nat} (h1 : lo ≤ q) (h2 : q ≤ hi) :
    inOrder map lo hi = inOrder map lo q ++ inOrder map q hi := by
  have : List.range' lo (hi - lo) = List.range' lo (q - lo) ++ List.range' q (hi - q) := by
    have := List.range'_append_1 (s := lo) (m := q - lo) (n := hi - q)
    rw [show lo + (q - lo) = q by omega, show q - lo + (hi - q) = hi - lo by omega] at this
    exact this.symm
  rw [inOrder, this, List.flatMap_append]
  rfl

/-- **C83** A file was cut in the pixels of a record of position `p`, and has a record of a later position `q`. With any number of threads
there is an execution in which all pixels of the record of `q` are lost, while the frame is marked complete if it has four sectors. -/
theorem C83_threads_false (files : List (Nat × List UInt8)) (map : ScanMap) (flo fhi lo hi threads : Nat)
    (hidx : IsIndex (files.map toFile) flo fhi map) {i j j' p q f g sec sec' : Nat} {r r' : Rec (List Nat)}
    (hp : lo ≤ p) (hpq : p < q) (hq : q < hi) (hi' : flo ≤ i ∧ i < fhi) (hs : sec < 4) (hs' : sec' < 4)
    (hr : IsRecord (files.map toFile) i j r p f sec) (hr' : IsRecord (files.map toFile) i j' r' q g sec')
    (hc : Cut (content files i) (j * recordSize + 16)) :
    ∃ s, Reach (Step map hi) (init (threads + 1) lo files) s ∧ ∃ b ∈ s.delivered, b.pos = q ∧ b.frame = g ∧
      (∃ x, (sec', x) ∈ b.items) ∧ (∀ x, (sec', x) ∈ b.items → x.data = []) ∧
      (b.complete = true ↔ ∀ sec < 4, ∃ i j r, flo ≤ i ∧ i < fhi ∧ IsRecord (files.map toFile) i j r q g sec) := by
  obtain ⟨s, h, hd⟩ := C83_in_order files map lo hi threads
  obtain ⟨a, ha, hl⟩ := (hidx.loc p f sec _).2 ⟨i, j, r, hi'.1, hi'.2, hr, rfl⟩
  obtain ⟨a', ha', hl'⟩ := (hidx.loc q g sec' _).2 ⟨i, j', r', hi'.1, hi'.2, hr', rfl⟩
  obtain ⟨k, hk⟩ := List.mem_iff_getElem?.1 (mem_inOrder (lo := lo) (hi := q) ⟨hp, hpq⟩ ha)
  obtain ⟨m, hm⟩ := List.mem_iff_getElem?.1 (mem_inOrder (lo := q) (hi := hi) ⟨Nat.le_refl _, hq⟩ ha')
  have hsplit := inOrder_split (map := map) (show lo ≤ q by omega) (show q ≤ hi by omega)
  have hkl := (List.getElem?_eq_some_iff.1 hk).1
  obtain ⟨b, hb, h1, h2, h3, h4, h5⟩ := C83_sticky_false files (inOrder map lo hi) (k := k) (m := (inOrder map lo q).length + m)
    (by omega) (x := (a, p, f)) (y := (a', q, g)) (by rw [hsplit, List.getElem?_append_left hkl]; exact hk)
    (by rw [hsplit, List.getElem?_append_right (by omega), Nat.add_sub_cancel_left]; exact hm) hs hs' hl hc hl' rfl
  refine ⟨s, h, b, by rw [hd]; exact List.mem_of_getElem? hb, h1, h2, h3, h4, ?_⟩
  rw [h5]
  constructor
  · intro h sec hsec
    obtain ⟨loc, hloc⟩ := Option.isSome_iff_exists.1 (h sec hsec)
    obtain ⟨i, j, r, k1, k2, k3, _⟩ := (hidx.loc q g sec loc).1 ⟨a', ha', hloc⟩
    exact ⟨i, j, r, k1, k2, k3⟩
  · intro h sec hsec
    obtain ⟨i, j, r, k1, k2, k3⟩ := h sec hsec
    obtain ⟨a2, h6, h7⟩ := (hidx.loc q g sec _).2 ⟨i, j, r, k1, k2, k3, rfl⟩
    have h6 : (map q).get g = some a2 := h6
    rw [ha'] at h6
    obtain rfl := Option.some.inj h6
    simp [h7]

/-! ### The end -/

/-- **C83** The pass does not get stuck on files which were cut, ... -/
theorem C83_progress (files : List (Nat × List UInt8)) (map : ScanMap) (flo fhi lo hi threads : Nat)
    (hidx : IsIndex (files.map toFile) flo fhi map) {s : State} (h : Reach (Step map hi) (init threads lo files) s)
    (hne : ∃ w ∈ s.workers, w ≠ .exited) : ∃ t, Step map hi s () t := by
  obtain ⟨ls, h⟩ := h
  obtain ⟨at_, hr⟩ := shadow_reach hidx h
  have I := Props.pinv_reach ⟨_, hr⟩
  have hlocked : ∀ i, s.locks i = true → ∃ t, Step map hi s () t := by
    intro i hl
    have h := I.lock i
    have hl' : (shadow s at_).locks i = true := hl
    rw [hl', if_pos rfl] at h
    obtain ⟨w, hw, hh⟩ := List.countP_pos_iff.1 (by rw [h]; omega : 0 < (shadow s at_).workers.countP (holds i))
    obtain ⟨x, hx, rfl⟩ := List.mem_map.1 hw
    obtain ⟨pre, post, hs⟩ := List.append_of_mem hx
    cases x with
    | seek => exact ⟨_, .seek hs⟩
    | read => exact ⟨_, .read hs⟩
    | _ => simp [holds, forget] at hh
  obtain ⟨w, hw, hwe⟩ := hne
  obtain ⟨pre, post, hs⟩ := List.append_of_mem hw
  cases w with
  | exited => exact absurd rfl hwe
  | test =>
    by_cases h : hi ≤ s.processed
    · exact ⟨_, .done hs h⟩
    · exact ⟨_, .more hs (by omega)⟩
  | fetch =>
    by_cases h : hi ≤ s.processed
    · exact ⟨_, .overrun hs h⟩
    · exact ⟨_, .fetch hs (by omega)⟩
  | image p fs =>
    cases fs with
    | nil => exact ⟨_, .end_ hs⟩
    | cons f fs => exact ⟨_, .frame hs⟩
  | sector p f fs j n acc =>
    obtain ⟨_, h4, a, ha, _⟩ := I.fine _ (List.mem_map_of_mem (f := forget) hw)
    by_cases hj : j = 4
    · subst hj; exact ⟨_, .deliver hs⟩
    · cases haj : a j with
      | none => exact ⟨_, .missing hs (by omega) ha haj⟩
      | some loc =>
        cases hl : s.locks loc.stream with
        | true => exact hlocked _ hl
        | false => exact ⟨_, .acquire hs (by omega) ha haj hl⟩
  | seek => exact ⟨_, .seek hs⟩
  | read => exact ⟨_, .read hs⟩

/-- **C83** ... and ends: a bound for the number of steps. -/
theorem C83_termination (files : List (Nat × List UInt8)) (map : ScanMap) (flo fhi lo hi threads : Nat)
    (hidx : IsIndex (files.map toFile) flo fhi map) {s : State} {ls : List Unit} (h : Run (Step map hi) (init threads lo files) ls s) :
    ls.length ≤ 2 * threads + ((List.range' lo (hi - lo)).map fun p => 14 * (map p).length + 3).sum := by
  obtain ⟨at_, hr⟩ := shadow_reach hidx h
  exact Props.C29_termination _ map lo hi threads _ hr

/-! ### An example: four files of a scan of 2 × 1 positions; the third has been cut in its second record -/

private def rec (x f d : Nat) : Rec (List Nat) := ⟨1, f, 2, 1, x, 0, List.replicate (144 * 576) d⟩

private theorem rec_ok {x f d : Nat} (hx : x < 256) (hf : f < 256) (hd : d < 256) : Props.RecordOk (rec x f d) where
  scanNumber := show 1 < 256 ^ 4 by decide
  frameNumber := Nat.lt_of_lt_of_le hf (by decide)
  width := show 2 < 256 ^ 2 by decide
  height := show 1 < 256 ^ 2 by decide
  x := Nat.lt_of_lt_of_le hx (by decide)
  y := show 0 < 256 ^ 2 by decide
  size := List.length_replicate
  pixel := by
    intro v hv
    rw [List.eq_of_mem_replicate hv]
    exact Nat.lt_of_lt_of_le hd (by decide)

private def whole (s : Nat) : Nat × List UInt8 := (s, Props.encodeRecords [rec 0 5 s, rec 1 6 (s + 10)])

private def cutFile : Nat × List UInt8 :=
  (2, Props.encodeRecords [rec 1 6 12] ++ (Props.encodeRecord (rec 0 5 2)).take 1000)

private def cutFiles : List (Nat × List UInt8) := [whole 0, whole 1, cutFile, whole 3]

private theorem toFile_whole {s : Nat} (hs : s < 100) : toFile (whole s) = ⟨s, [rec 0 5 s, rec 1 6 (s + 10)]⟩ := by
  have : parse (Props.encodeRecords [rec 0 5 s, rec 1 6 (s + 10)]) = ([rec 0 5 s, rec 1 6 (s + 10)], false) := by
    have := Props.C60_round_trip [rec 0 5 s, rec 1 6 (s + 10)] ?_ []
    · simpa [show parse [] = ([], false) by rw [parse]; simp] using this
    intro r hr
    simp only [List.mem_cons, List.not_mem_nil, or_false] at hr
    rcases hr with rfl | rfl
    · exact rec_ok (by decide) (by decide) (by omega)
    · exact rec_ok (by decide) (by decide) (by omega)
  simp only [toFile, whole, this]

private theorem encode_rec (x f d : Nat) : (Props.encodeRecord (rec x f d)).length = 165904 := by
  rw [Props.encodeRecord_length, rec, List.length_replicate]

private theorem cutFile_length : cutFile.2.length = 166904 := by
  simp only [cutFile, Props.encodeRecords, List.flatMap_cons, List.flatMap_nil, List.append_nil, List.length_append,
    List.length_take, encode_rec]
  rfl

private theorem parse_cutFile : ∃ last : Rec (List Nat), parse cutFile.2 = ([rec 1 6 12, last], false) ∧ last.pos = 0 ∧ last.frameNumber = 5 := by
  rcases Props.C60_cut [rec 1 6 12] (rec 0 5 2) (by
      intro r hr
      rw [List.mem_singleton.1 hr]
      exact rec_ok (by decide) (by decide) (by decide)) (rec_ok (by decide) (by decide) (by decide)) 1000
      (by rw [encode_rec]; decide) with h | h | h
  · omega
  · omega
  · obtain ⟨_, last, h1, _, h3, h4, _, h6, h7, _⟩ := h
    refine ⟨last, h1, ?_, h3⟩
    rw [Rec.pos, h4, h6, h7]
    rfl

private theorem toFile_cut : ∃ last : Rec (List Nat), toFile cutFile = ⟨2, [rec 1 6 12, last]⟩ ∧ last.pos = 0 ∧ last.frameNumber = 5 := by
  obtain ⟨last, h, h'⟩ := parse_cutFile
  refine ⟨last, ?_, h'⟩
  simp only [toFile, h]
  rfl

private theorem cutFiles_records : ∃ last : Rec (List Nat),
    cutFiles.map toFile = [⟨0, [rec 0 5 0, rec 1 6 10]⟩, ⟨1, [rec 0 5 1, rec 1 6 11]⟩, ⟨2, [rec 1 6 12, last]⟩,
      ⟨3, [rec 0 5 3, rec 1 6 13]⟩] ∧ last.pos = 0 ∧ last.frameNumber = 5 := by
  obtain ⟨last, h, h'⟩ := toFile_cut
  refine ⟨last, ?_, h'⟩
  simp only [cutFiles, List.map_cons, List.map_nil, h, toFile_whole (show 0 < 100 by decide), toFile_whole (show 1 < 100 by decide),
    toFile_whole (show 3 < 100 by decide)]

/-- The files have an index, with a record of each sector for both positions. -/
private theorem cutFiles_index : ∃ map, IsIndex (cutFiles.map toFile) 0 4 map := by
  obtain ⟨last, h, hp, hf⟩ := cutFiles_records
  rw [h]
  have hp0 : ∀ d, (rec 0 5 d).pos = 0 := fun _ => rfl
  have hp1 : ∀ d, (rec 1 6 d).pos = 1 := fun _ => rfl
  have hf0 : ∀ d, (rec 0 5 d).frameNumber = 5 := fun _ => rfl
  have hf1 : ∀ d, (rec 1 6 d).frameNumber = 6 := fun _ => rfl
  have hd : Props.DistinctRecords (D := List Nat) [⟨0, [rec 0 5 0, rec 1 6 10]⟩, ⟨1, [rec 0 5 1, rec 1 6 11]⟩,
      ⟨2, [rec 1 6 12, last]⟩, ⟨3, [rec 0 5 3, rec 1 6 13]⟩] 0 4 := by
    rintro i j r i' j' r' p f sec - hi - hi' ⟨file, e1, e2, rfl, rfl, rfl⟩ ⟨file', e1', e2', h1, h2, h3⟩
    have hj : j < 2 := by
      have := (List.getElem?_eq_some_iff.1 e2).1
      match i, hi with
      | 0, _ | 1, _ | 2, _ | 3, _ =>
        cases e1
        exact this
    have hj' : j' < 2 := by
      have := (List.getElem?_eq_some_iff.1 e2').1
      match i', hi' with
      | 0, _ | 1, _ | 2, _ | 3, _ =>
        cases e1'
        exact this
    have : i = i' := by
      match i, hi, i', hi' with
      | 0, _, 0, _ | 1, _, 1, _ | 2, _, 2, _ | 3, _, 3, _ => rfl
      | 0, _, 1, _ | 0, _, 2, _ | 0, _, 3, _ | 1, _, 0, _ | 1, _, 2, _ | 1, _, 3, _ | 2, _, 0, _ | 2, _, 1, _ | 2, _, 3, _
      | 3, _, 0, _ | 3, _, 1, _ | 3, _, 2, _ =>
        cases e1; cases e1'
        simp at h3
    refine ⟨this, ?_⟩
    subst this
    rw [e1] at e1'
    cases e1'
    match j, hj, j', hj' with
    | 0, _, 0, _ | 1, _, 1, _ => rfl
    | 0, _, 1, _ | 1, _, 0, _ =>
      match i, hi with
      | 0, _ | 1, _ | 2, _ | 3, _ =>
        cases e1; cases e2; cases e2'
        simp [hp0, hp1, hp] at h1
  obtain ⟨s, hs, he⟩ := Props.C28_exists _ 2 0 4 3 (by exact Nat.le_refl 4) (by
    intro f hf
    simp only [List.mem_cons, List.not_mem_nil, or_false] at hf
    rcases hf with rfl | rfl | rfl | rfl <;> simp) (by
    intro f hf r hr
    simp only [List.mem_cons, List.not_mem_nil, or_false] at hf
    rcases hf with rfl | rfl | rfl | rfl <;> simp only [List.mem_cons, List.not_mem_nil, or_false] at hr <;>
      rcases hr with rfl | rfl <;> simp [hp0, hp1, hp]) hd
  refine ⟨s.map, (Props.C28_index _ 2 0 4 3 (by exact Nat.le_refl 4) (by
    intro f hf
    simp only [List.mem_cons, List.not_mem_nil, or_false] at hf
    rcases hf with rfl | rfl | rfl | rfl <;> simp) (by
    intro f hf r hr
    simp only [List.mem_cons, List.not_mem_nil, or_false] at hf
    rcases hf with rfl | rfl | rfl | rfl <;> simp only [List.mem_cons, List.not_mem_nil, or_false] at hr <;>
      rcases hr with rfl | rfl <;> simp [hp0, hp1, hp]) hd (by decide) hs).2 he⟩

/-- The frame of position 1, whose four records are all whole, is delivered without its third sector, marked complete. -/
example : ∃ map s, IsIndex (cutFiles.map toFile) 0 4 map ∧ Reach (Step map 2) (init 3 0 cutFiles) s ∧ ∃ b ∈ s.delivered,
    b.pos = 1 ∧ b.frame = 6 ∧ b.complete = true ∧ (∃ x, (2, x) ∈ b.items) ∧ ∀ x, (2, x) ∈ b.items → x.data = [] := by
  obtain ⟨map, hidx⟩ := cutFiles_index
  obtain ⟨last, h, hp, hf⟩ := cutFiles_records
  obtain ⟨s, hs, b, hb, h1, h2, h3, h4, h5⟩ := C83_threads_false cutFiles map 0 4 0 2 2 hidx (i := 2) (j := 1) (j' := 0) (p := 0) (q := 1)
    (f := 5) (g := 6) (sec := 2) (sec' := 2) (r := last) (r' := rec 1 6 12) (by decide) (by decide) (by decide) (by decide) (by decide)
    (by decide) (by rw [h]; exact ⟨_, rfl, rfl, hp, hf, rfl⟩) (by rw [h]; exact ⟨_, rfl, rfl, rfl, rfl, rfl⟩)
    (by show cutFile.2.length < _; rw [cutFile_length]; decide)
  refine ⟨map, s, hidx, hs, b, hb, h1, h2, h5.2 ?_, h3, h4⟩
  rw [h]
  intro sec hsec
  match sec, hsec with
  | 0, _ => exact ⟨0, 1, rec 1 6 10, by decide, by decide, _, rfl, rfl, rfl, rfl, rfl⟩
  | 1, _ => exact ⟨1, 1, rec 1 6 11, by decide, by decide, _, rfl, rfl, rfl, rfl, rfl⟩
  | 2, _ => exact ⟨2, 0, rec 1 6 12, by decide, by decide, _, rfl, rfl, rfl, rfl, rfl⟩
  | 3, _ => exact ⟨3, 1, rec 1 6 13, by decide, by decide, _, rfl, rfl, rfl, rfl, rfl⟩

/-- The header pass over the cut file finds both records. -/
example : ∃ s a b, readHeaders 3 (opened cutFile.2) = .ok ([(a, 16), (b, 165920)], s) ∧ a.frameNumber = 6 ∧ b.frameNumber = 5 := by
  obtain ⟨last, h, hp, hf⟩ := parse_cutFile
  obtain ⟨s, h2, _⟩ := C83_headers cutFile.2 3 (by rw [h]; exact Nat.le_refl 3) (by rw [h])
  rw [h] at h2
  simp only [List.mapIdx_cons, List.mapIdx_nil, Nat.zero_mul, Nat.zero_add, Nat.one_mul, recordSize] at h2
  exact ⟨s, _, _, h2, rfl, hf⟩

/-- A whole file. -/
example : Whole (whole 1).2 := by
  simp only [Whole, whole, Props.encodeRecords, List.flatMap_cons, List.flatMap_nil, List.append_nil, List.length_append, encode_rec]
  decide

end Stempy.SectorStreams
