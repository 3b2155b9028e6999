import Verif.Model.PyFrames
import Verif.Props.MultiPass
import Verif.Lemmas.NumpyIndex
import Verif.Lemmas.SparseReduce

/-!
C63: random access to frames from Python.
-/

namespace Stempy.PyFrames
open Stempy.MultiPass Stempy.Numpy Stempy.Props

variable {D : Type}

/-- The position (row, column) or its flat index is position `p` of a scan with `dims` = (width, height). -/
def IsPosition (dims : Nat × Nat) : Position → Nat → Prop
  | .seq l, p => ∃ r c : Nat, l = [(r : Int), (c : Int)] ∧ r < dims.2 ∧ c < dims.1 ∧ p = c + r * dims.1
  | .flat i, p => i = p ∧ p < dims.1 * dims.2

/-- Requested frames: the indexes, counted from zero, of a position with `n` frames, as NumPy selects them. -/
def Requests (n : Nat) : FramesSlice → List Nat → Prop
  | .all, l => l = List.range n
  | .one i, l => ∃ j : Nat, l = [j] ∧ j < n ∧ (i = j ∨ i = (j : Int) - n)
  | .slice a b c, l => sliceIndexes n a b c = .ok l
  | .list is, l => List.Forall₂ (fun (i : Int) (j : Nat) => j < n ∧ (i = j ∨ i = (j : Int) - n)) is l

private theorem intIndex_iff {n : Nat} {i : Int} {j : Nat} : intIndex n i = .ok j ↔ j < n ∧ (i = j ∨ i = (j : Int) - n) := by
  rcases lt_or_ge i 0 with h0 | h0
  · have he : intIndex n i = if 0 ≤ i + n ∧ i + n < n then .ok (i + n).toNat else .throw "IndexError" := by
      unfold intIndex; simp only [if_pos h0]
    rw [he]
    by_cases hc : 0 ≤ i + (n : Int) ∧ i + n < n
    · rw [if_pos hc]
      simp only [Outcome.ok.injEq]
      omega
    · rw [if_neg hc]
      simp only [reduceCtorEq, false_iff]
      omega
  · have he : intIndex n i = if 0 ≤ i ∧ i < n then .ok i.toNat else .throw "IndexError" := by
      unfold intIndex; simp only [if_neg (not_lt.2 h0)]
    rw [he]
    by_cases hc : 0 ≤ i ∧ i < (n : Int)
    · rw [if_pos hc]
      simp only [Outcome.ok.injEq]
      omega
    · rw [if_neg hc]
      simp only [reduceCtorEq, false_iff]
      omega

private theorem intIndex_else {n : Nat} {i : Int} (h : ¬ ∃ j, intIndex n i = .ok j) : intIndex n i = .throw "IndexError" :=
  (intIndex_throw (n := n) (i := i)).resolve_left h

private theorem mapM_intIndex_iff {n : Nat} {is : List Int} {l : List Nat} :
    is.mapM (intIndex n) = .ok l ↔ List.Forall₂ (fun (i : Int) (j : Nat) => j < n ∧ (i = j ∨ i = (j : Int) - n)) is l := by
  induction is generalizing l with
  | nil =>
    constructor
    · intro h; cases h; exact .nil
    · intro h; cases h; rfl
  | cons i is ih =>
    rw [List.mapM_cons]
    constructor
    · intro h
      cases hi : intIndex n i with
      | ok j =>
        rw [hi, Outcome.ok_bind] at h
        cases hm : is.mapM (intIndex n) with
        | ok r =>
          rw [hm, Outcome.ok_bind] at h
          cases h
          exact .cons (intIndex_iff.1 hi) (ih.1 hm)
        | throw m => rw [hm] at h; cases h
        | ub => rw [hm] at h; cases h
      | throw m => rw [hi] at h; cases h
      | ub => rw [hi] at h; cases h
    · intro h
      cases h with
      | cons h1 h2 =>
        rw [intIndex_iff.2 h1, Outcome.ok_bind, ih.2 h2]
        rfl

theorem frameIndexes_iff {n : Nat} {fs : FramesSlice} {l : List Nat} : frameIndexes n fs = .ok l ↔ Requests n fs l := by
  cases fs with
  | all => simp only [frameIndexes, Requests, Outcome.ok.injEq]; exact eq_comm
  | one i =>
    simp only [frameIndexes, Requests]
    constructor
    · intro h
      cases hi : intIndex n i with
      | ok j =>
        rw [hi] at h
        cases h
        exact ⟨j, rfl, intIndex_iff.1 hi⟩
      | throw m => rw [hi] at h; cases h
      | ub => rw [hi] at h; cases h
    · rintro ⟨j, rfl, h⟩
      rw [intIndex_iff.2 h]
      rfl
  | slice a b c => rfl
  | list is => exact mapM_intIndex_iff

private theorem imageNumber_iff {dims : Nat × Nat} {pos : Position} {p : Nat} (h : IsPosition dims pos p) :
    imageNumber (scanShape dims) pos = .ok (p : Int) ∧ p < dims.1 * dims.2 := by
  cases pos with
  | seq l =>
    obtain ⟨r, c, rfl, hr, hc, rfl⟩ := h
    constructor
    · simp only [imageNumber]
      rw [if_pos (by simp only [scanShape]; omega)]
      simp only [scanShape]
      push_cast
      congr 1
      omega
    · have h1 : r * dims.1 + dims.1 ≤ dims.2 * dims.1 := by
        have : (r + 1) * dims.1 ≤ dims.2 * dims.1 := Nat.mul_le_mul_right _ hr
        rw [Nat.succ_mul] at this
        exact this
      rw [Nat.mul_comm dims.1]
      omega
  | flat i =>
    obtain ⟨rfl, hp⟩ := h
    exact ⟨rfl, hp⟩

/-- The blocks for the frames `idx` of position `p`: those of the frame numbers of the position in increasing order. -/
def Delivers (files : List (File D)) (flo fhi p : Nat) (idx : List Nat) (bs : List (Block D)) : Prop :=
  ∃ ks : List Nat, ks.Pairwise (· < ·) ∧
    (∀ f, f ∈ ks ↔ ∃ i j r sec, flo ≤ i ∧ i < fhi ∧ IsRecord files i j r p f sec) ∧
    List.Forall₂ (fun k b => b.pos = p ∧ ks[k]? = some b.frame ∧ BlockOk files flo fhi b) idx bs

/-- **C63** For a position inside of the scan, given as (row, column) or as flat index, and requested frames that exist there,
`read_frames` returns their blocks, in the requested order: one block for an integer, else a list. The indexes are those of
the position with the most frames. -/
theorem C63_read_partial (files : List (File D)) (map : ScanMap) (flo fhi : Nat) (dims : Nat × Nat) (hidx : IsIndex files flo fhi map)
    (hsize : dims.1 * dims.2 ≤ 2 ^ 32) {pos : Position} {p : Nat} (hp : IsPosition dims pos p) {n : Nat}
    (hmax : ∀ q < dims.1 * dims.2, (map q).length ≤ n) (hatt : ∃ q < dims.1 * dims.2, (map q).length = n)
    {fs : FramesSlice} {idx : List Nat} (hreq : Requests n fs idx) (hexist : ∀ k ∈ idx, k < (map p).length) :
    ∃ bs, Delivers files flo fhi p idx bs ∧
      readFrames files map dims pos fs = (match fs with
        | .one _ => (match bs with | b :: _ => .ok (.one b) | [] => .ub)
        | _ => .ok (.many bs)) := by
  obtain ⟨h1, h2⟩ := imageNumber_iff hp
  have hn : numFramesPerScan map (dims.1 * dims.2) 0 = n := by
    obtain ⟨a, b, _⟩ := C30_num_frames map (dims.1 * dims.2)
    obtain ⟨q, hq, hqe⟩ := hatt
    obtain ⟨q', hq', hqe'⟩ := b (by omega)
    have := a q hq
    have := hmax q' hq'
    omega
  obtain ⟨ks, bs, hb, hlen, hsort, hks, hf⟩ := C30_frames files map flo fhi (dims.1 * dims.2) hidx h2 hexist
  refine ⟨bs, ⟨ks, hsort, hks, hf⟩, ?_⟩
  unfold readFrames
  rw [h1, Outcome.ok_bind, hn]
  simp only
  rw [frameIndexes_iff.2 hreq, Outcome.ok_bind]
  have hl : pyLoadFrames files map (dims.1 * dims.2) (p : Int) idx = .ok bs := by
    unfold pyLoadFrames
    rw [if_neg (by omega)]
    simp only [Int.toNat_natCast, hb]
  rw [hl, Outcome.ok_bind]
  cases fs with
  | one i =>
    obtain ⟨j, rfl, _⟩ := hreq
    cases hf
    rfl
  | _ => rfl

/-- **C63** An integer returns exactly one block. -/
theorem C63_read_one_partial (files : List (File D)) (map : ScanMap) (flo fhi : Nat) (dims : Nat × Nat) (hidx : IsIndex files flo fhi map)
    (hsize : dims.1 * dims.2 ≤ 2 ^ 32) {pos : Position} {p : Nat} (hp : IsPosition dims pos p) {n : Nat}
    (hmax : ∀ q < dims.1 * dims.2, (map q).length ≤ n) (hatt : ∃ q < dims.1 * dims.2, (map q).length = n)
    {i : Int} {k : Nat} (hk : i = k ∨ i = (k : Int) - n) (hexist : k < (map p).length) :
    ∃ b, Delivers files flo fhi p [k] [b] ∧ readFrames files map dims pos (.one i) = .ok (.one b) := by
  have hkn : k < n := lt_of_lt_of_le hexist (hmax p (imageNumber_iff hp).2)
  obtain ⟨bs, ⟨ks, h1, h2, h3⟩, h4⟩ := C63_read_partial files map flo fhi dims hidx hsize hp hmax hatt (fs := .one i) (idx := [k])
    ⟨k, rfl, hkn, hk⟩ (by simpa using hexist)
  cases h3 with
  | cons h5 h6 =>
    cases h6
    exact ⟨_, ⟨ks, h1, h2, .cons h5 .nil⟩, h4⟩

/-- **C63** In terms of rows and columns: the frames of the position (row, column) are those of the records with this row and column
in their headers. -/
theorem C63_coordinates {files : List (File D)} {flo fhi : Nat} {dims : Nat × Nat}
    (hscan : ∀ f ∈ files, ∀ r ∈ f.records, InScan dims.1 dims.2 r) (hsize : dims.1 * dims.2 ≤ 2 ^ 32) {row col p : Nat}
    (hp : IsPosition dims (.seq [(row : Int), (col : Int)]) p) (f : Nat) :
    (∃ i j r sec, flo ≤ i ∧ i < fhi ∧ IsRecord files i j r p f sec) ↔
      ∃ (i j : Nat) (r : SectorReader.Rec D) (file : File D), flo ≤ i ∧ i < fhi ∧ files[i]? = some file ∧ file.records[j]? = some r ∧ r.y = row ∧ r.x = col ∧
        r.frameNumber = f := by
  obtain ⟨r0, c0, he, h1, h2, rfl⟩ := hp
  simp only [List.cons.injEq, Int.natCast_inj, and_true] at he
  obtain ⟨rfl, rfl⟩ := he
  rw [Nat.add_comm]
  constructor
  · rintro ⟨i, j, r, sec, a, b, file, h3, h4, h5, h6, h7⟩
    have := (pos_coordinates (hscan file (List.mem_of_getElem? h3) r (List.mem_of_getElem? h4)) hsize h2).1 h5
    exact ⟨i, j, r, file, a, b, h3, h4, this.2, this.1, h6⟩
  · rintro ⟨i, j, r, file, a, b, h3, h4, h9, h10, h6⟩
    have := (pos_coordinates (hscan file (List.mem_of_getElem? h3) r (List.mem_of_getElem? h4)) hsize h2).2 ⟨h10, h9⟩
    exact ⟨i, j, r, file.sector, a, b, file, h3, h4, this, h6, rfl⟩

/-- **C63** is false for a position with fewer frames than another: reading all of its frames raises ValueError, although they
are there. -/
theorem C63_all_false (files : List (File D)) (map : ScanMap) (dims : Nat × Nat) (hsize : dims.1 * dims.2 ≤ 2 ^ 32)
    {pos : Position} {p : Nat} (hp : IsPosition dims pos p) {q : Nat} (hq : q < dims.1 * dims.2)
    (hless : (map p).length < (map q).length) : readFrames files map dims pos .all = .throw "ValueError" := by
  obtain ⟨h1, h2⟩ := imageNumber_iff hp
  have hn : (map q).length ≤ numFramesPerScan map (dims.1 * dims.2) 0 := (C30_num_frames map (dims.1 * dims.2)).1 q hq
  unfold readFrames
  rw [h1, Outcome.ok_bind]
  simp only [frameIndexes, Outcome.ok_bind]
  have hl : loadFrames files map (dims.1 * dims.2) p (List.range (numFramesPerScan map (dims.1 * dims.2) 0)) =
      .throw "invalid_argument" := by
    refine (C30_error files map (dims.1 * dims.2) p _).1.2 (.inr ⟨(map p).length, ?_, le_refl _⟩)
    rw [List.mem_range]
    omega
  unfold pyLoadFrames
  rw [if_neg (by omega)]
  simp only [Int.toNat_natCast, hl]
  rfl

/-- **C63** Errors: a tuple that is no position of the scan is an IndexError, as is an integer that is no frame of the position with
the most frames; nothing is undefined, whatever the arguments are. -/
theorem C63_errors (files : List (File D)) (map : ScanMap) (dims : Nat × Nat) :
    (∀ l fs, (¬ ∃ p, IsPosition dims (.seq l) p) → readFrames files map dims (.seq l) fs = .throw "IndexError") ∧
    (∀ pos p i, IsPosition dims pos p → (∀ q < dims.1 * dims.2, ((map q).length : Int) ≤ i ∨ i < -((map q).length : Int)) →
      readFrames files map dims pos (.one i) = .throw "IndexError") ∧
    ∀ pos fs, readFrames files map dims pos fs ≠ .ub := by
  refine ⟨?_, ?_, ?_⟩
  · intro l fs h
    have hl : imageNumber (scanShape dims) (.seq l) = .throw "IndexError" := by
      rcases l with _ | ⟨r, _ | ⟨c, _ | ⟨x, l⟩⟩⟩
      · rfl
      · rfl
      · simp only [imageNumber]
        rw [if_neg]
        rintro ⟨h1, h2, h3, h4⟩
        simp only [scanShape] at h2 h4
        refine h ⟨c.toNat + r.toNat * dims.1, r.toNat, c.toNat, ?_, by omega, by omega, rfl⟩
        rw [Int.toNat_of_nonneg h1, Int.toNat_of_nonneg h3]
      · rfl
    unfold readFrames
    rw [hl]
    rfl
  · intro pos p i hp h
    obtain ⟨h1, h2⟩ := imageNumber_iff hp
    obtain ⟨q, hq, hqe⟩ := (C30_num_frames map (dims.1 * dims.2)).2.1 (by omega)
    have hi : intIndex (numFramesPerScan map (dims.1 * dims.2) 0) i = .throw "IndexError" := by
      refine intIndex_else ?_
      rintro ⟨j, hj⟩
      have := intIndex_iff.1 hj
      have := h q hq
      omega
    unfold readFrames
    rw [h1, Outcome.ok_bind]
    simp only [frameIndexes, hi]
    rfl
  · intro pos fs
    have hint : ∀ (n : Nat) (i : Int), intIndex n i ≠ .ub := by
      intro n i
      rcases intIndex_throw (n := n) (i := i) with ⟨j, h⟩ | h <;> rw [h] <;> simp
    have hmap : ∀ (n : Nat) (is : List Int), is.mapM (intIndex n) ≠ .ub := by
      intro n is
      induction is with
      | nil => intro h; cases h
      | cons i is ih =>
        rw [List.mapM_cons]
        cases hi : intIndex n i with
        | ok j =>
          rw [Outcome.ok_bind]
          cases hm : is.mapM (intIndex n) with
          | ok r => intro h; cases h
          | throw m => intro h; cases h
          | ub => exact absurd hm ih
        | throw m => intro h; cases h
        | ub => exact absurd hi (hint n i)
    have himg : imageNumber (scanShape dims) pos ≠ .ub := by
      cases pos with
      | flat i => intro h; cases h
      | seq l =>
        rcases l with _ | ⟨r, _ | ⟨c, _ | ⟨x, l⟩⟩⟩
        · intro h; cases h
        · intro h; cases h
        · simp only [imageNumber]
          split <;> intro h <;> cases h
        · intro h; cases h
    have hfr : ∀ n, frameIndexes n fs ≠ .ub := by
      intro n
      cases fs with
      | all => intro h; cases h
      | one i =>
        simp only [frameIndexes]
        cases hi : intIndex n i with
        | ok j => intro h; cases h
        | throw m => intro h; cases h
        | ub => exact absurd hi (hint n i)
      | slice a b c =>
        simp only [frameIndexes, sliceIndexes, sliceRange]
        split <;> intro h <;> cases h
      | list is => exact hmap n is
    unfold readFrames
    cases hi : imageNumber (scanShape dims) pos with
    | throw m => intro h; cases h
    | ub => exact absurd hi himg
    | ok image =>
      rw [Outcome.ok_bind]
      simp only
      cases hf : frameIndexes (numFramesPerScan map (dims.1 * dims.2) 0) fs with
      | throw m => intro h; cases h
      | ub => exact absurd hf (hfr _)
      | ok frames =>
        rw [Outcome.ok_bind]
        unfold pyLoadFrames
        split
        · intro h; cases h
        · have hu := (C30_error files map (dims.1 * dims.2) image.toNat frames).2
          cases hl : loadFrames files map (dims.1 * dims.2) image.toNat frames with
          | throw m => intro h; cases h
          | ub => exact absurd hl hu
          | ok bs =>
            simp only [Outcome.ok_bind, result]
            cases fs with
            | one i => cases bs <;> intro h <;> cases h
            | _ => intro h; cases h

/-- In `twoFiles` position (0, 0) has two frames and position (1, 2) one, of a scan of two rows and three columns. -/
example : IsPosition (3, 2) (.seq [1, 2]) 5 ∧ IsPosition (3, 2) (.flat 5) 5 ∧ Requests 2 (.one (-1)) [1] ∧
    Requests 2 (.slice (some (-1)) none (some (-1))) [1, 0] ∧ Requests 2 (.list [0, -2, 1]) [0, 0, 1] := by
  refine ⟨⟨1, 2, rfl, by decide, by decide, rfl⟩, ⟨rfl, by decide⟩, ⟨1, rfl, by decide, .inr rfl⟩, by unfold Requests; decide, ?_⟩
  exact .cons ⟨by decide, .inl rfl⟩ (.cons ⟨by decide, .inr rfl⟩ (.cons ⟨by decide, .inl rfl⟩ .nil))

end Stempy.PyFrames
