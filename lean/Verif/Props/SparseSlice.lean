import Verif.Lemmas.SparseSlice

/-!
# C44: slicing commutes with densification; C49: full expansion

`dense a` is the meaning of a sparse array (Spec/Dense), `Numpy.index` the indexing of dense arrays.
-/

namespace Stempy.Sparse
open Numpy

theorem C44_to_dense (a : SparseArray) (ha : WF a) : toDense a = .ok (.dense (dense a)) := toDense_eq ha

/-- Any index expression that `_split_slices` accepts: with `sparse_slicing`, the result is a sparse array in the current format
whose dense array consists of the selected elements of the dense array (a dense array directly if no scan axis or no frame axis
is left). The pixels have to be distinct. -/
theorem C44_sparse (a : SparseArray) (ha : WF a) (hfr : a.frameShape ≠ []) (hsp : a.sparseSlicing = true) (key : List Item)
    (scan frame : List Item) (hsplit : splitSlices a key = .ok (scan, frame)) (ss fs : Sel)
    (hs : selection a.scanShape scan = .ok ss) (hf : selection a.frameShape frame = .ok fs) (hn : fs.idx.Nodup) :
    ∃ v flat, getitem a key = .ok v ∧ v.toDense = .ok (.dense ⟨ss.shape ++ fs.shape, flat⟩) ∧
      gather (dense a).flat (ss.product fs (prod a.frameShape)).idx = .ok flat ∧
      (ss.shape ≠ [] → fs.shape ≠ [] → ∃ b, v = .sparse b ∧ WF b ∧ b.scanShape = ss.shape ∧ b.frameShape = fs.shape) := by
  have hsv := (selection_ok hs).1
  have hfv := (selection_ok hf).1
  have hg : getitem a key = sliceSparse a scan frame := by
    rw [getitem, hsplit, Outcome.ok_bind]
    simp only [hsp, if_true]
  rw [hg, sliceSparse_ok ha hfr hs hf hn]
  by_cases h : ss.shape = [] ∨ fs.shape = []
  · rw [if_pos h]
    refine ⟨_, _, rfl, rfl, gather_dense a hsv hfv, ?_⟩
    intro h1 h2
    exact absurd h (by simp [h1, h2])
  · rw [if_neg h]
    obtain ⟨h1, h2⟩ := not_or.1 h
    have hw := selected_wf ha hsv hfv hn h1
    refine ⟨_, _, rfl, ?_, gather_dense a hsv hfv, fun _ _ => ⟨_, rfl, hw, rfl, rfl⟩⟩
    show toDense _ = _
    rw [toDense_eq hw, dense_selected hsv hfv hn]

/-- The same for dense results. -/
theorem C44_dense (a : SparseArray) (ha : WF a) (hsp : a.sparseSlicing = false) (key : List Item)
    (scan frame : List Item) (hsplit : splitSlices a key = .ok (scan, frame)) (ss fs : Sel)
    (hs : selection a.scanShape scan = .ok ss) (hf : selection a.frameShape frame = .ok fs)
    (hfull : ss.shape ++ fs.shape ≠ a.shape ∨ a.allowFullExpand = true) :
    ∃ flat, getitem a key = .ok (.dense ⟨ss.shape ++ fs.shape, flat⟩) ∧
      gather (dense a).flat (ss.product fs (prod a.frameShape)).idx = .ok flat := by
  have hsv := (selection_ok hs).1
  have hfv := (selection_ok hf).1
  refine ⟨_, ?_, gather_dense a hsv hfv⟩
  rw [getitem, hsplit, Outcome.ok_bind]
  simp only [hsp, Bool.false_eq_true, if_false]
  rw [sliceDense, hs, Outcome.ok_bind, hf, Outcome.ok_bind, sliceDenseSel_ok ha hsv hfv]
  · rfl
  · rintro ⟨h1, h2⟩
    rcases hfull with h | h
    · exact h h1
    · rw [h] at h2; simp at h2

theorem basic_isArray {it : Item} (h : it.Basic) : it.isArray = false := by
  cases it <;> first | rfl | exact h.elim

theorem splitSlices_basic (a : SparseArray) (ha : WF a) (key : List Item) (hk : ∀ it ∈ key, it.Basic)
    (hlen : key.length ≤ a.scanShape.length + 2) :
    splitSlices a key = .ok (key.take a.scanShape.length, key.drop a.scanShape.length) := by
  have hmd : ∀ it, it.Basic → ∀ n, tooManyDims it n = false := fun it h n => by simp [tooManyDims, basic_isArray h]
  have hmo : ∀ it, it.Basic → ∀ s, maskOk it s = true := fun it h s => by
    cases it <;> first | rfl | exact h.elim
  have hany : ∀ l : List Item, (∀ it ∈ l, it.Basic) → l.any Item.isArray = false := fun l h => by
    rw [List.any_eq_false]; intro x hx; simp [basic_isArray (h x hx)]
  have hfo : ∀ l : List Item, (∀ it ∈ l, it.Basic) → l.length ≤ 2 → frameSlicesOk l = true := fun l h hl => by
    match l, h, hl with
    | [], _, _ => rfl
    | [x], h, _ => simp [frameSlicesOk, hmd x (h x (by simp))]
    | [x, y], h, _ => simp [frameSlicesOk, hmd x (h x (by simp)), hmd y (h y (by simp))]
    | x :: y :: z :: l, _, hl => simp at hl
  have hhead : ∀ l : List Item, (∀ it ∈ l, it.Basic) → (l.headD .all).Basic := fun l h => by
    cases l with
    | nil => trivial
    | cons x l => exact h x (by simp)
  cases key with
  | nil => simp [splitSlices]
  | cons first rest =>
    have h1 := hk first (by simp)
    have h2 : ∀ it ∈ rest, it.Basic := fun it hit => hk it (by simp [hit])
    rw [splitSlices, if_neg (by simp [hmd first h1])]
    rcases ha.ndim with hn | hn
    · rw [hn] at hlen ⊢
      simp only [Nat.lt_irrefl, decide_false, Bool.false_and, Bool.false_eq_true, if_false, List.take_succ_cons,
        List.take_zero, List.drop_succ_cons, List.drop_zero, gt_iff_lt]
      rw [hfo rest h2 (by simpa using hlen), hany rest h2, hmo first h1, hmo _ (hhead rest h2)]
      simp
    · have h3 : ∀ it ∈ rest.drop 1, it.Basic := fun it hit => h2 it (List.mem_of_mem_drop hit)
      rw [hn] at hlen ⊢
      simp only [gt_iff_lt, show (1 : Nat) < 2 from by omega, decide_true, Bool.true_and, basic_isArray h1, Bool.not_false,
        Bool.true_or, if_true, List.take_succ_cons, List.drop_succ_cons]
      rw [hfo _ h3 (by simp at hlen ⊢; omega), hany _ h3, hmo first h1, hmo _ (hhead _ h3), hmd _ (hhead rest h2)]
      simp

theorem basic_distinct {it : Item} (h : it.Basic) : it.Distinct := by
  cases it <;> trivial

theorem select_alls_ok {shape : List Nat} {items : List Item} (hi : ∀ it ∈ items, it = .all)
    (hl : items.length ≤ shape.length) : ∃ s, select shape items = .ok s := by
  induction items generalizing shape with
  | nil => exact ⟨_, rfl⟩
  | cons it items ih =>
    have := hi it (by simp)
    subst this
    cases shape with
    | nil => simp at hl
    | cons n s =>
      obtain ⟨b, hb⟩ := ih (fun it hit => hi it (by simp [hit])) (shape := s) (by simpa using hl)
      rw [select, selectItem_all, Outcome.ok_bind]
      simp only [List.drop_succ_cons, List.drop_zero]
      rw [hb]
      exact ⟨_, rfl⟩

theorem modified_bind {shape : List Nat} {items : List Item} (hb : ∀ it ∈ items, it.Basic)
    (hl : items.length ≤ shape.length) (h : ∀ s, selection shape items ≠ .ok s) :
    modified shape items = (selection shape items).bind fun s => .ok (some s) := by
  unfold modified
  split
  · rfl
  · rename_i hn
    have hall : ∀ it ∈ items, it = .all := by
      intro it hit
      simp only [List.any_eq_true, not_exists, not_and] at hn
      have := hn it hit
      simpa [isNoneSlice] using this
    obtain ⟨s, hs⟩ := select_alls_ok hall hl
    exact absurd (by rw [selection_basic hb, hs]) (h s)

theorem sliceSparse_bind {a : SparseArray} (ha : WF a) (hfr : a.frameShape ≠ []) {scan frame : List Item}
    (hs : ∀ it ∈ scan, it.Basic) (hf : ∀ it ∈ frame, it.Basic) (hsl : scan.length ≤ a.scanShape.length)
    (hfl : frame.length ≤ a.frameShape.length) :
    (sliceSparse a scan frame).bind Value.toDense =
      (selection a.scanShape scan).bind fun ss => (selection a.frameShape frame).bind fun fs =>
        .ok (.dense (picked a ss fs)) := by
  cases h1 : selection a.scanShape scan with
  | throw m =>
    rw [sliceSparse, modified_bind hs hsl (by simp [h1]), h1]; rfl
  | ub => rw [sliceSparse, modified_bind hs hsl (by simp [h1]), h1]; rfl
  | ok ss =>
    cases h2 : selection a.frameShape frame with
    | ok fs =>
      have hn : fs.idx.Nodup := (selection_ok h2).2 fun it hit => basic_distinct (hf it hit)
      rw [sliceSparse_ok ha hfr h1 h2 hn]
      by_cases h : ss.shape = [] ∨ fs.shape = []
      · rw [if_pos h]; rfl
      · rw [if_neg h]
        have hsv := (selection_ok h1).1
        have hfv := (selection_ok h2).1
        show toDense _ = _
        rw [toDense_eq (selected_wf ha hsv hfv hn (not_or.1 h).1), dense_selected hsv hfv hn]; rfl
    | throw m =>
      have hm : ∃ o, modified a.scanShape scan = .ok o := by
        unfold modified; split
        · rw [h1]; exact ⟨_, rfl⟩
        · exact ⟨_, rfl⟩
      obtain ⟨o, ho⟩ := hm
      rw [sliceSparse, ho, Outcome.ok_bind, modified_bind hf hfl (by simp [h2])]
      rw [sliceDense, h1, Outcome.ok_bind, h2]
      split <;> rfl
    | ub =>
      have hm : ∃ o, modified a.scanShape scan = .ok o := by
        unfold modified; split
        · rw [h1]; exact ⟨_, rfl⟩
        · exact ⟨_, rfl⟩
      obtain ⟨o, ho⟩ := hm
      rw [sliceSparse, ho, Outcome.ok_bind, modified_bind hf hfl (by simp [h2])]
      rw [sliceDense, h1, Outcome.ok_bind, h2]
      split <;> rfl

theorem index_dense_basic {a : SparseArray} {key : List Item} (hk : ∀ it ∈ key, it.Basic) :
    index (dense a) key =
      (selection a.scanShape (key.take a.scanShape.length)).bind fun ss =>
        (selection a.frameShape (key.drop a.scanShape.length)).bind fun fs => .ok (picked a ss fs) := by
  have ht : ∀ it ∈ key.take a.scanShape.length, it.Basic := fun it h => hk it (List.mem_of_mem_take h)
  have hd : ∀ it ∈ key.drop a.scanShape.length, it.Basic := fun it h => hk it (List.mem_of_mem_drop h)
  have happ := select_append a.scanShape a.frameShape (key.take a.scanShape.length) (key.drop a.scanShape.length) ht (by
    by_cases h : a.scanShape.length ≤ key.length
    · left; simp [h]
    · right; simp; omega)
  rw [List.take_append_drop] at happ
  have hsh : (dense a).shape = a.scanShape ++ a.frameShape := rfl
  rw [index, hsh, selection_basic hk, happ, ← selection_basic ht, ← selection_basic hd]
  cases h1 : selection a.scanShape (key.take a.scanShape.length) with
  | throw m => rfl
  | ub => rfl
  | ok ss =>
    cases h2 : selection a.frameShape (key.drop a.scanShape.length) with
    | throw m => rfl
    | ub => rfl
    | ok fs =>
      show (do
        let l ← gather (dense a).flat (ss.product fs (prod a.frameShape)).idx
        Outcome.ok (NArray.mk (ss.product fs (prod a.frameShape)).shape l)) = .ok (picked a ss fs)
      rw [gather_dense a (selection_ok h1).1 (selection_ok h2).1]; rfl

/-- Index expressions made of slices and integers: slicing the sparse array and then expanding it is the same as expanding it and
then slicing, including the exceptions. -/
theorem C44_basic (a : SparseArray) (ha : WF a) (hfr : a.frameShape.length = 2) (hsp : a.sparseSlicing = true)
    (key : List Item) (hk : ∀ it ∈ key, it.Basic) (hlen : key.length ≤ a.shape.length) :
    (getitem a key).bind Value.toDense = (index (dense a) key).bind fun x => .ok (.dense x) := by
  have hne : a.frameShape ≠ [] := by intro h; rw [h] at hfr; simp at hfr
  have hl : a.shape.length = a.scanShape.length + 2 := by simp [SparseArray.shape, hfr]
  rw [hl] at hlen
  have hg : getitem a key = sliceSparse a (key.take a.scanShape.length) (key.drop a.scanShape.length) := by
    rw [getitem, splitSlices_basic a ha key hk hlen, Outcome.ok_bind]
    simp only [hsp, if_true]
  rw [hg, sliceSparse_bind ha hne (fun it h => hk it (List.mem_of_mem_take h)) (fun it h => hk it (List.mem_of_mem_drop h))
    (by simp) (by simp; omega), index_dense_basic hk]
  cases selection a.scanShape (key.take a.scanShape.length) with
  | throw m => rfl
  | ub => rfl
  | ok ss =>
    cases selection a.frameShape (key.drop a.scanShape.length) with
    | throw m => rfl
    | ub => rfl
    | ok fs => rfl

/-- The same with dense results, when full expansion is allowed. -/
theorem C44_basic_dense (a : SparseArray) (ha : WF a) (hfr : a.frameShape.length = 2) (hsp : a.sparseSlicing = false)
    (hfull : a.allowFullExpand = true) (key : List Item) (hk : ∀ it ∈ key, it.Basic) (hlen : key.length ≤ a.shape.length) :
    getitem a key = (index (dense a) key).bind fun x => .ok (.dense x) := by
  have hl : a.shape.length = a.scanShape.length + 2 := by simp [SparseArray.shape, hfr]
  rw [hl] at hlen
  rw [getitem, splitSlices_basic a ha key hk hlen, Outcome.ok_bind, index_dense_basic hk]
  simp only [hsp, Bool.false_eq_true, if_false, sliceDense]
  cases h1 : selection a.scanShape (key.take a.scanShape.length) with
  | throw m => rfl
  | ub => rfl
  | ok ss =>
    cases h2 : selection a.frameShape (key.drop a.scanShape.length) with
    | throw m => rfl
    | ub => rfl
    | ok fs =>
      rw [Outcome.ok_bind, Outcome.ok_bind,
        sliceDenseSel_ok ha (selection_ok h1).1 (selection_ok h2).1 (by simp [hfull])]
      rfl

/-- A 2 × 2 scan with two frames of 2 × 3 pixels per position. -/
def sample : SparseArray :=
  { data := [[[0, 4], [4]], [[], [5]], [[1, 2, 3], []], [[2], [2, 0]]], numFrames := 2, scanShape := [2, 2], frameShape := [2, 3] }

theorem sample_wf : WF sample := ⟨by decide, by decide, by decide, by decide, by decide⟩

example : (getitem sample [.int 1, .slice none none (some (-1)), .slice (some 0) (some 1) none]).bind Value.toDense =
    .ok (.dense ⟨[2, 1, 3], [1, 0, 2, 0, 1, 1]⟩) := by decide

/-- Selecting a pixel twice loses its events at the first place. -/
theorem C44_duplicates_false :
    (getitem sample [.int 0, .int 0, .all, .ints [1, 1]]) = .ok (.dense ⟨[2, 2], [0, 0, 2, 2]⟩) ∧
    (getitem sample [.slice (some 0) (some 1) none, .int 0, .all, .ints [1, 1]]).bind Value.toDense =
      .ok (.dense ⟨[1, 2, 2], [0, 0, 0, 2]⟩) := by
  decide

/-- An ellipsis is taken as a part of the scan slices: `a[..., 0]` selects the last scan axis, not the last frame axis. -/
theorem C44_ellipsis_false :
    (∃ v, (getitem sample [.ellipsis, .int 0]).bind Value.toDense = .ok (.dense v) ∧ v.shape = [2, 2, 3]) ∧
    (∃ v, index (dense sample) [.ellipsis, .int 0] = .ok v ∧ v.shape = [2, 2, 2]) := by
  constructor
  · exact ⟨⟨[2, 2, 3], [1, 0, 0, 0, 2, 0, 0, 1, 1, 1, 0, 0]⟩, by decide, rfl⟩
  · exact ⟨⟨[2, 2, 2], [1, 0, 0, 0, 0, 1, 1, 0]⟩, by decide, rfl⟩

/-! ### C49 -/

/-- Without permission, no index expression (of any kind, in both modes) gives a dense array of the full shape. -/
theorem C49_never_full (a : SparseArray) (hallow : a.allowFullExpand = false) (key : List Item) (x : NArray Nat) (h : getitem a key = .ok (.dense x)) : x.shape ≠ a.shape := by
  have hd : ∀ scan frame, sliceDense a scan frame = .ok x → x.shape ≠ a.shape := by
    intro scan frame h
    unfold sliceDense at h
    cases h1 : selection a.scanShape scan with
    | throw m => rw [h1] at h; simp at h
    | ub => rw [h1] at h; simp at h
    | ok ss =>
      rw [h1, Outcome.ok_bind] at h
      cases h2 : selection a.frameShape frame with
      | throw m => rw [h2] at h; simp at h
      | ub => rw [h2] at h; simp at h
      | ok fs =>
        rw [h2, Outcome.ok_bind, sliceDenseSel] at h
        split at h
        · simp at h
        · rename_i hc
          have : ∀ o : Outcome (List (List Nat)), (do
              let outs ← o
              Outcome.ok (NArray.mk (ss.shape ++ fs.shape) outs.flatten)) = .ok x → x.shape = ss.shape ++ fs.shape := by
            intro o ho
            cases o with
            | ok l => simp only [Outcome.ok_bind, Outcome.ok.injEq] at ho; rw [← ho]
            | throw m => simp at ho
            | ub => simp at ho
          rw [this _ h]
          intro he
          exact hc ⟨he, hallow⟩
  have hb : ∀ scan frame, ((sliceDense a scan frame).bind fun x => Outcome.ok (Value.dense x)) = .ok (.dense x) →
      sliceDense a scan frame = .ok x := by
    intro scan frame h
    cases h1 : sliceDense a scan frame with
    | throw m => rw [h1] at h; simp [Outcome.bind] at h
    | ub => rw [h1] at h; simp [Outcome.bind] at h
    | ok y => rw [h1] at h; simpa [Outcome.bind] using h
  have hsp : ∀ o : Outcome SparseArray, (o.bind fun x => Outcome.ok (Value.sparse x)) ≠ .ok (.dense x) := by
    intro o; cases o <;> simp [Outcome.bind]
  unfold getitem at h
  cases hs : splitSlices a key with
  | throw m => rw [hs] at h; simp at h
  | ub => rw [hs] at h; simp at h
  | ok r =>
    obtain ⟨scan, frame⟩ := r
    rw [hs, Outcome.ok_bind] at h
    simp only at h
    split at h
    · unfold sliceSparse at h
      cases h1 : modified a.scanShape scan with
      | throw m => rw [h1] at h; simp at h
      | ub => rw [h1] at h; simp at h
      | ok o =>
        rw [h1, Outcome.ok_bind] at h
        split at h
        · exact hd _ _ (hb _ _ h)
        · cases h2 : modified a.frameShape frame with
          | throw m => rw [h2] at h; simp at h
          | ub => rw [h2] at h; simp at h
          | ok o2 =>
            rw [h2, Outcome.ok_bind] at h
            split at h
            · exact hd _ _ (hb _ _ h)
            · exact absurd h (hsp _)
    · exact hd _ _ (hb _ _ h)

/-- The refusal is an exception of its own, exactly for the full shape. -/
theorem C49_denied (a : SparseArray) (ha : WF a) (hsp : a.sparseSlicing = false) (hallow : a.allowFullExpand = false)
    (key : List Item) (scan frame : List Item) (hsplit : splitSlices a key = .ok (scan, frame)) (ss fs : Sel)
    (hs : selection a.scanShape scan = .ok ss) (hf : selection a.frameShape frame = .ok fs) :
    getitem a key = .throw "FullExpansionDenied" ↔ ss.shape ++ fs.shape = a.shape := by
  constructor
  · intro h
    by_contra hne
    obtain ⟨flat, h2, -⟩ := C44_dense a ha hsp key scan frame hsplit ss fs hs hf (.inl hne)
    rw [h] at h2; simp at h2
  · intro h
    rw [getitem, hsplit, Outcome.ok_bind]
    simp only [hsp, Bool.false_eq_true, if_false]
    rw [sliceDense, hs, Outcome.ok_bind, hf, Outcome.ok_bind, sliceDenseSel, if_pos ⟨h, hallow⟩]
    rfl

example : getitem { sample with sparseSlicing := false } [.slice none none (some (-1))] = .throw "FullExpansionDenied" := by
  decide

/-- Only the shape counts: a selection with repetitions, larger than the full array, is not refused. -/
theorem C49_larger : ∃ x, getitem { sample with sparseSlicing := false } [.ints [0, 1, 0]] = .ok (.dense x) ∧
    x.shape = [3, 2, 2, 3] ∧ prod sample.shape < prod x.shape := by
  refine ⟨⟨[3, 2, 2, 3], [1, 0, 0, 0, 2, 0, 0, 0, 0, 0, 0, 1, 0, 1, 1, 1, 0, 0, 1, 0, 2, 0, 0, 0, 1, 0, 0, 0, 2, 0, 0, 0, 0, 0,
    0, 1]⟩, by decide, rfl, by decide⟩

end Stempy.Sparse
