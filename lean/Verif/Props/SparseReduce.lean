import Verif.Lemmas.SparseReduce
import Verif.Props.SparseSlice
import Mathlib.Data.Rat.Cast.Order
import Mathlib.Tactic.ByContra

/-!
# C40, C41, C49: sum, max, min and mean of a sparse array are those of the dense array

`Numpy.reduce op x axes` is the reduction of a dense array.
-/

namespace Stempy.Sparse
open Numpy

/-- The axes that are meant. -/
def axisList (a : SparseArray) : Axis → List Int
  | .none => (List.range (a.scanShape.length + a.frameShape.length)).map fun (i : Nat) => (i : Int)
  | .scan => (List.range a.scanShape.length).map fun (i : Nat) => (i : Int)
  | .frame => (List.range a.frameShape.length).map fun (i : Nat) => (a.scanShape.length : Int) + i
  | .axes l => l

/-- Axes with an implementation of their own. -/
def Special (a : SparseArray) (axis : Axis) : Prop := formatAxis a axis = scanAxes a ∨ formatAxis a axis = frameAxes a

theorem formatAxis_perm (a : SparseArray) (axis : Axis) : (formatAxis a axis).Perm (axisList a axis) := by
  unfold formatAxis
  refine (List.perm_insertionSort _ _).trans ?_
  cases axis with
  | none => simp only [axisList, SparseArray.shape, List.length_append]; exact List.Perm.refl _
  | scan => exact List.Perm.refl _
  | frame => exact List.Perm.refl _
  | axes l => exact List.Perm.refl _

theorem sorted_scanAxes (a : SparseArray) : (scanAxes a).insertionSort (· ≤ ·) = scanAxes a := by
  apply List.Pairwise.insertionSort_eq
  rw [scanAxes, List.pairwise_map]
  refine (List.pairwise_lt_range (n := a.scanShape.length)).imp ?_
  intro x y h
  simp; omega

theorem sorted_frameAxes (a : SparseArray) : (frameAxes a).insertionSort (· ≤ ·) = frameAxes a := by
  apply List.Pairwise.insertionSort_eq
  rw [frameAxes, List.pairwise_map]
  refine (List.pairwise_lt_range (n := a.frameShape.length)).imp ?_
  intro x y h
  simp; omega

theorem special_scan (a : SparseArray) : Special a .scan := .inl (sorted_scanAxes a)
theorem special_frame (a : SparseArray) : Special a .frame := .inr (sorted_frameAxes a)

theorem axes_ne {a : SparseArray} (ha : WF a) : frameAxes a ≠ scanAxes a := by
  intro h
  have h0 : (0 : Int) ∈ scanAxes a := by
    rw [scanAxes, List.mem_map]
    exact ⟨0, List.mem_range.2 (by rcases ha.ndim with h | h <;> omega), rfl⟩
  rw [← h, frameAxes, List.mem_map] at h0
  obtain ⟨i, -, hi⟩ := h0
  rcases ha.ndim with h | h <;> omega

theorem getitem_full {a : SparseArray} (ha : WF a) :
    getitem { a with sparseSlicing := false } [.all] =
      if a.allowFullExpand then .ok (.dense (dense a)) else .throw "FullExpansionDenied" := by
  obtain ⟨n, s, hns⟩ : ∃ n s, a.scanShape = n :: s := by
    cases h : a.scanShape with
    | nil => have := ha.ndim; rw [h] at this; simp at this
    | cons n s => exact ⟨n, s, rfl⟩
  let a' : SparseArray := { a with sparseSlicing := false }
  have ha' : WF a' := ⟨ha.ndim, ha.length, ha.frames, ha.lt, ha.nodup⟩
  have hsel : selection a'.scanShape [.all] = .ok ⟨a.scanShape, List.range (prod a.scanShape)⟩ := by
    show selection a.scanShape [.all] = _
    rw [hns, selection_all]
  show getitem a' [.all] = _
  rw [getitem, splitSlices_all, Outcome.ok_bind]
  simp only [show a'.sparseSlicing = false from rfl, Bool.false_eq_true, if_false]
  rw [sliceDense, hsel, Outcome.ok_bind, selection_nil, Outcome.ok_bind]
  by_cases h : a.allowFullExpand = true
  · rw [if_pos h, sliceDenseSel_ok ha' (valid_all _) (valid_all _) (by simp [a', h])]
    rfl
  · rw [if_neg h, sliceDenseSel, if_pos]
    · rfl
    · exact ⟨rfl, by simpa using h⟩

/-- Operations on other axes are done on the dense array if that is allowed, and refused otherwise. -/
theorem C49_operations {β : Type} (a : SparseArray) (ha : WF a) (op : List Nat → Outcome β) (axes : List Int) :
    (a.allowFullExpand = true → fullExpansion a op axes = reduce op (dense a) axes) ∧
    (a.allowFullExpand = false → fullExpansion a op axes = .throw "FullExpansionDenied") := by
  unfold fullExpansion
  rw [getitem_full ha]
  constructor
  · intro h; rw [if_pos h]; rfl
  · intro h; rw [if_neg (by simp [h])]; rfl

/-! ### Sum -/

theorem sumScan_fold (n : Nat) (data : List (List (List Nat))) (f : Nat → Nat)
    (h : ∀ row ∈ data, ∀ fr ∈ row, ∀ e ∈ fr, e < n) :
    data.foldlM (fun r frames => frames.foldlM increment r) ((List.range n).map f) =
      .ok ((List.range n).map fun q => f q + (data.map fun row => row.countP fun fr => decide (q ∈ fr)).sum) := by
  induction data generalizing f with
  | nil => simp
  | cons row data ih =>
    rw [List.foldlM_cons, increments_ok n row f (h row (by simp)), Outcome.ok_bind,
      ih _ fun r hr => h r (by simp [hr])]
    congr 1
    refine List.map_congr_left fun q _ => ?_
    simp only [List.map_cons, List.sum_cons]; omega

/-- A value for each scan position. -/
theorem map_data (a : SparseArray) (ha : WF a) {β : Type} (f : List (List Nat) → β) :
    a.data.map f = (List.range (prod a.scanShape)).map fun p => f (a.data.getD p []) := by
  rw [← ha.length]
  conv_lhs => rw [← map_getD_range a.data []]
  rw [List.map_map]; rfl

theorem sumScan_eq (a : SparseArray) (ha : WF a) :
    sumScan a = .ok ⟨a.frameShape, (List.range (prod a.frameShape)).map fun q =>
      ((List.range (prod a.scanShape)).map fun p => eventCount a p q).sum⟩ := by
  rw [sumScan, replicate_eq_map, sumScan_fold _ _ _ ha.lt, Outcome.ok_bind]
  congr 2
  refine List.map_congr_left fun q _ => ?_
  rw [Nat.zero_add]
  congr 1
  rw [map_data a ha]
  refine List.map_congr_left fun p hp => ?_
  exact countP_mem _ _ (ha.nodup _ (getD_mem _ _ _ (by rw [ha.length]; exact List.mem_range.1 hp)))

theorem sum_indicator (l : List Nat) (e : Nat) : (l.map fun q => if q = e then 1 else 0).sum = l.count e := by
  induction l with
  | nil => rfl
  | cons q l ih =>
    rw [List.map_cons, List.sum_cons, ih, List.count_cons]
    by_cases h : q = e <;> simp [h]; omega

theorem sum_count (l : List Nat) (n : Nat) (h : ∀ e ∈ l, e < n) : ((List.range n).map fun q => l.count q).sum = l.length := by
  induction l with
  | nil => simp
  | cons e l ih =>
    have h1 : ((List.range n).map fun q => (e :: l).count q) =
        (List.range n).map fun q => l.count q + if q = e then 1 else 0 := by
      refine List.map_congr_left fun q _ => ?_
      rw [List.count_cons]
      by_cases hq : q = e
      · subst hq; simp
      · simp [Ne.symm hq, hq]
    rw [h1, sum_map_add', ih fun x hx => h x (by simp [hx]), List.length_cons]
    congr 1
    rw [sum_indicator, List.count_eq_one_of_mem List.nodup_range (List.mem_range.2 (h e (by simp)))]

theorem foldl_length (frames : List (List Nat)) (s : Nat) :
    frames.foldl (fun s frame => s + frame.length) s = s + frames.flatten.length := by
  induction frames generalizing s with
  | nil => simp
  | cons f frames ih => rw [List.foldl_cons, ih]; simp; omega

theorem perPosition_eq (a : SparseArray) (ha : WF a) (init : Nat) (f : List (List Nat) → Outcome Nat) :
    perPosition a init f = (do
      let l ← (List.range (prod a.scanShape)).mapM fun p => f (a.data.getD p [])
      .ok ⟨a.scanShape, l⟩) := by
  have h1 : a.data.mapM f = (List.range (prod a.scanShape)).mapM fun p => f (a.data.getD p []) := by
    rw [← ha.length]
    conv_lhs => rw [← map_getD_range a.data []]
    rw [mapM_map_congr]; intro p _; rfl
  unfold perPosition
  rw [← h1]
  have h2 : ∀ (d : List (List (List Nat))) l, d.mapM f = .ok l → l.length = d.length := by
    intro d
    induction d with
    | nil => intro l h; simp at h; subst h; rfl
    | cons x d ih =>
      intro l h
      rw [List.mapM_cons] at h
      cases hx : f x with
      | throw m => rw [hx] at h; simp at h
      | ub => rw [hx] at h; simp at h
      | ok y =>
        rw [hx, Outcome.ok_bind] at h
        cases hd : d.mapM f with
        | throw m => rw [hd] at h; simp at h
        | ub => rw [hd] at h; simp at h
        | ok t => rw [hd] at h; simp at h; subst h; simp [ih t hd]
  cases hm : a.data.mapM f with
  | throw m => rfl
  | ub => rfl
  | ok l =>
    have := h2 _ l hm
    rw [Outcome.ok_bind, Outcome.ok_bind, if_neg (by rw [this, ha.length]; omega), this, ha.length, Nat.sub_self]
    simp

theorem sumFrame_eq (a : SparseArray) (ha : WF a) :
    sumFrame a = .ok ⟨a.scanShape, (List.range (prod a.scanShape)).map fun p =>
      ((List.range (prod a.frameShape)).map fun q => eventCount a p q).sum⟩ := by
  rw [sumFrame, perPosition_eq a ha]
  rw [mapM_ok _ _ (fun p => ((List.range (prod a.frameShape)).map fun q => eventCount a p q).sum)]
  · rfl
  · intro p hp
    have hm := getD_mem a.data p [] (by rw [ha.length]; exact List.mem_range.1 hp)
    rw [foldl_length, Nat.zero_add]
    congr 1
    refine (sum_count _ _ ?_).symm
    intro e he
    obtain ⟨fr, hfr, he⟩ := List.mem_flatten.1 he
    exact ha.lt _ hm fr hfr e he

/-- C40: the sum over the scan axes, over the frame axes (however the axes are given), and with permission over any axes, is
the sum of the dense array. -/
theorem C40_sum (a : SparseArray) (ha : WF a) (axis : Axis) (h : Special a axis ∨ a.allowFullExpand = true) :
    sum a axis = reduce (fun l => .ok l.sum) (dense a) (axisList a axis) := by
  rw [← reduce_perm _ _ (formatAxis_perm a axis)]
  unfold sum
  simp only
  split
  · rename_i h1
    rw [h1, reduce_scan, sumScan_eq a ha, mapM_ok _ _ _ fun _ _ => rfl]; rfl
  · split
    · rename_i h2
      rw [h2, reduce_frame, sumFrame_eq a ha, mapM_ok _ _ _ fun _ _ => rfl]; rfl
    · rename_i h1 h2
      rcases h with (h | h) | h
      · exact absurd h h1
      · exact absurd h h2
      · exact (C49_operations a ha _ _).1 h

/-- A value with the data of `sample` (Props/SparseSlice): all axes at once. -/
example : sum { sample with allowFullExpand := true } .none = .ok ⟨[], [10]⟩ ∧
    sum sample .frame = .ok ⟨[2, 2], [3, 1, 3, 3]⟩ ∧ sum sample (.axes [1, 0]) = .ok ⟨[2, 3], [2, 1, 3, 1, 2, 1]⟩ := by
  decide

/-- The same event twice in one frame (not in the current format): the sum over the frame axes counts it twice, the sum over the
scan axes and the dense array once. -/
theorem C40_duplicate_event :
    let a : SparseArray := { data := [[[0, 0]]], numFrames := 1, scanShape := [1, 1], frameShape := [1, 1] }
    sum a .frame = .ok ⟨[1, 1], [2]⟩ ∧ sum a .scan = .ok ⟨[1, 1], [1]⟩ ∧ toDense a = .ok (.dense ⟨[1, 1, 1, 1], [1]⟩) := by
  decide

/-! ### Maximum -/

theorem concatenate_ok {l : List (List Nat)} (h : 0 < l.length) : concatenate l = .ok l.flatten := by
  unfold concatenate
  rw [if_neg (by cases l <;> simp_all)]

theorem maxScan_fold (n : Nat) (data : List (List (List Nat))) (f : Nat → Nat)
    (h : ∀ row ∈ data, ∀ fr ∈ row, ∀ e ∈ fr, e < n) (hne : ∀ row ∈ data, 0 < row.length) :
    data.foldlM (fun r frames => do
      let c ← concatenate frames
      let old ← gather r (unique c)
      scatter r (unique c) (List.zipWith Max.max old (counts c))) ((List.range n).map f) =
      .ok ((List.range n).map fun q => (data.map fun row => row.flatten.count q).foldl Max.max (f q)) := by
  induction data generalizing f with
  | nil => simp
  | cons row data ih =>
    have hlt : ∀ e ∈ unique row.flatten, e < n := by
      intro e he
      obtain ⟨fr, hfr, he⟩ := List.mem_flatten.1 ((mem_unique _ _).1 he)
      exact h row (by simp) fr hfr e he
    rw [List.foldlM_cons, concatenate_ok (hne row (by simp)), Outcome.ok_bind,
      gather_ok _ _ 0 (by simpa using hlt), Outcome.ok_bind]
    have hz : List.zipWith Max.max ((unique row.flatten).map fun i => ((List.range n).map f).getD i 0) (counts row.flatten) =
        (unique row.flatten).map fun i => Max.max (f i) (row.flatten.count i) := by
      rw [counts, List.zipWith_map, List.zipWith_self]
      refine List.map_congr_left fun e he => ?_
      simp [hlt e he]
    rw [hz, scatter_map _ _ _ (by simpa using hlt) 0, Outcome.ok_bind]
    have hs : ((List.range ((List.range n).map f).length).map fun q => if q ∈ unique row.flatten then
        Max.max (f q) (row.flatten.count q) else ((List.range n).map f).getD q 0) =
        (List.range n).map fun q => Max.max (f q) (row.flatten.count q) := by
      rw [List.length_map, List.length_range]
      refine List.map_congr_left fun q hq => ?_
      split
      · rfl
      · rename_i hm
        rw [mem_unique] at hm
        rw [List.count_eq_zero_of_not_mem hm]
        simp [List.mem_range.1 hq]
    rw [hs, ih _ (fun r hr => h r (by simp [hr])) fun r hr => hne r (by simp [hr])]
    rfl

theorem maxOf_cons (x : Nat) (l : List Nat) : maxOf (x :: l) = .ok ((x :: l).foldl Max.max 0) := by
  simp [maxOf]

theorem maxOf_ne {l : List Nat} (h : l ≠ []) : maxOf l = .ok (l.foldl Max.max 0) := by
  cases l with
  | nil => exact absurd rfl h
  | cons x l => exact maxOf_cons x l

theorem row_pos {a : SparseArray} (ha : WF a) (hk : 0 < a.numFrames) : ∀ row ∈ a.data, 0 < row.length := by
  intro row hr
  rw [ha.frames row hr]; exact hk

/-- C41: the maximum over the scan axes. The sparse array has a frame and a scan position. -/
theorem C41_max_scan (a : SparseArray) (ha : WF a) (hk : 0 < a.numFrames) (hs : 0 < prod a.scanShape) (axis : Axis)
    (hax : formatAxis a axis = scanAxes a) : max a axis = reduce maxOf (dense a) (axisList a axis) := by
  rw [← reduce_perm _ _ (formatAxis_perm a axis), hax, reduce_scan]
  have h1 : max a axis = maxScan a := by unfold max; simp only; rw [if_pos hax]
  rw [h1, maxScan, replicate_eq_map, maxScan_fold _ _ _ ha.lt (row_pos ha hk), Outcome.ok_bind,
    mapM_ok _ _ (fun q => (a.data.map fun row => row.flatten.count q).foldl Max.max 0)]
  · rfl
  · intro q _
    rw [map_data a ha, maxOf_ne]
    · rfl
    · simp; omega

theorem maxOf_eq {l : List Nat} {m : Nat} (h1 : m ∈ l) (h2 : ∀ x ∈ l, x ≤ m) : maxOf l = .ok m := maxOf_spec.2 ⟨h1, h2⟩

theorem maxFrame_row {l : List Nat} {n : Nat} (hlt : ∀ e ∈ l, e < n) (hne : l ≠ []) :
    maxOf (counts l) = maxOf ((List.range n).map fun q => l.count q) := by
  have hcn : counts l ≠ [] := by
    obtain ⟨x, hx⟩ := List.exists_mem_of_ne_nil l hne
    rw [counts]; simp
    intro h
    have := (mem_unique l x).2 hx
    rw [h] at this; simp at this
  obtain ⟨m, hm⟩ : ∃ m, maxOf (counts l) = .ok m := ⟨_, maxOf_ne hcn⟩
  rw [hm]
  obtain ⟨h1, h2⟩ := maxOf_spec.1 hm
  symm
  apply maxOf_eq
  · obtain ⟨x, hx, rfl⟩ := List.mem_map.1 h1
    exact List.mem_map.2 ⟨x, List.mem_range.2 (hlt x ((mem_unique l x).1 hx)), rfl⟩
  · intro x hx
    obtain ⟨q, hq, rfl⟩ := List.mem_map.1 hx
    by_cases hm : q ∈ l
    · exact h2 _ (List.mem_map.2 ⟨q, (mem_unique l q).2 hm, rfl⟩)
    · rw [List.count_eq_zero_of_not_mem hm]; omega

theorem events_lt {a : SparseArray} (ha : WF a) {p : Nat} (hp : p < prod a.scanShape) :
    ∀ e ∈ (a.data.getD p []).flatten, e < prod a.frameShape := by
  intro e he
  obtain ⟨fr, hfr, he⟩ := List.mem_flatten.1 he
  exact ha.lt _ (getD_mem a.data p [] (by rw [ha.length]; exact hp)) fr hfr e he

theorem mapM_congr' {α β : Type} (l : List α) (f g : α → Outcome β) (h : ∀ a ∈ l, f a = g a) : l.mapM f = l.mapM g := by
  have := mapM_map_congr l id f g h
  rwa [List.map_id] at this

theorem getD_pos {a : SparseArray} (ha : WF a) (hk : 0 < a.numFrames) {p : Nat} (hp : p < prod a.scanShape) :
    0 < (a.data.getD p []).length :=
  row_pos ha hk _ (getD_mem a.data p [] (by rw [ha.length]; exact hp))

/-- The maximum over the frame axes, if there is an event at every scan position. -/
theorem C41_max_frame_partial (a : SparseArray) (ha : WF a) (hk : 0 < a.numFrames)
    (hev : ∀ p, p < prod a.scanShape → (a.data.getD p []).flatten ≠ []) (axis : Axis)
    (hax : formatAxis a axis = frameAxes a) : max a axis = reduce maxOf (dense a) (axisList a axis) := by
  rw [← reduce_perm _ _ (formatAxis_perm a axis), hax, reduce_frame]
  have h1 : max a axis = maxFrame a := by unfold max; simp only; rw [hax, if_neg (axes_ne ha), if_pos rfl]
  rw [h1, maxFrame, perPosition_eq a ha]
  congr 1
  refine mapM_congr' _ _ _ fun p hp => ?_
  have hp := List.mem_range.1 hp
  rw [concatenate_ok (getD_pos ha hk hp), Outcome.ok_bind]
  exact maxFrame_row (events_lt ha hp) (hev p hp)

theorem mapM_throw {α β : Type} (l : List α) (f : α → Outcome β) (m : String)
    (h : ∀ x ∈ l, f x = .throw m ∨ ∃ y, f x = .ok y) (he : ∃ x ∈ l, f x = .throw m) : l.mapM f = .throw m := by
  induction l with
  | nil => simp at he
  | cons x l ih =>
    rw [List.mapM_cons]
    rcases h x (by simp) with hx | ⟨y, hx⟩
    · rw [hx]; rfl
    · rw [hx, Outcome.ok_bind, ih fun z hz => h z (by simp [hz])]
      · rfl
      · obtain ⟨z, hz, hz2⟩ := he
        rcases List.mem_cons.1 hz with rfl | hz
        · rw [hx] at hz2; simp at hz2
        · exact ⟨z, hz, hz2⟩

/-- A scan position without events makes the maximum over the frame axes fail; the maximum there would be 0. -/
theorem C41_max_frame_false (a : SparseArray) (ha : WF a) (hk : 0 < a.numFrames)
    (hev : ∃ p, p < prod a.scanShape ∧ (a.data.getD p []).flatten = []) (axis : Axis)
    (hax : formatAxis a axis = frameAxes a) : max a axis = .throw "ValueError" := by
  have h1 : max a axis = maxFrame a := by unfold max; simp only; rw [hax, if_neg (axes_ne ha), if_pos rfl]
  rw [h1, maxFrame, perPosition_eq a ha, mapM_throw _ _ "ValueError"]
  · rfl
  · intro p hp
    rw [concatenate_ok (getD_pos ha hk (List.mem_range.1 hp)), Outcome.ok_bind]
    cases h : counts (a.data.getD p []).flatten with
    | nil => exact .inl rfl
    | cons x l => exact .inr ⟨_, rfl⟩
  · obtain ⟨p, hp, he⟩ := hev
    refine ⟨p, List.mem_range.2 hp, ?_⟩
    rw [concatenate_ok (getD_pos ha hk hp), Outcome.ok_bind, he]; rfl

example : max { sample with data := [[[0, 4], [4]], [[], []], [[1, 2, 3], []], [[2], [2, 0]]] } .frame = .throw "ValueError" ∧
    max sample .frame = .ok ⟨[2, 2], [2, 1, 1, 2]⟩ ∧ max sample .scan = .ok ⟨[2, 3], [1, 1, 2, 1, 2, 1]⟩ := by decide

/-! ### Minimum -/

theorem minScan_fold (n : Nat) (data : List (List (List Nat))) (f : Nat → Nat)
    (h : ∀ row ∈ data, ∀ fr ∈ row, ∀ e ∈ fr, e < n) (hne : ∀ row ∈ data, 0 < row.length) :
    data.foldlM (fun r frames => do
      let c ← concatenate frames
      let expanded ← scatter (List.replicate n 0) (unique c) (counts c)
      .ok (List.zipWith Min.min r expanded)) ((List.range n).map f) =
      .ok ((List.range n).map fun q => (data.map fun row => row.flatten.count q).foldl Min.min (f q)) := by
  induction data generalizing f with
  | nil => simp
  | cons row data ih =>
    have hlt : ∀ e ∈ unique row.flatten, e < n := by
      intro e he
      obtain ⟨fr, hfr, he⟩ := List.mem_flatten.1 ((mem_unique _ _).1 he)
      exact h row (by simp) fr hfr e he
    rw [List.foldlM_cons, concatenate_ok (hne row (by simp)), Outcome.ok_bind, counts,
      scatter_map _ _ _ (by simpa using hlt) 0, Outcome.ok_bind]
    have hs : ((List.range (List.replicate n 0).length).map fun q => if q ∈ unique row.flatten then
        row.flatten.count q else (List.replicate n 0).getD q 0) =
        (List.range n).map fun q => row.flatten.count q := by
      rw [List.length_replicate]
      refine List.map_congr_left fun q hq => ?_
      split
      · rfl
      · rename_i hm
        rw [mem_unique] at hm
        rw [List.count_eq_zero_of_not_mem hm]
        simp [List.mem_range.1 hq]
    rw [hs, List.zipWith_map, List.zipWith_self, Outcome.ok_bind,
      ih _ (fun r hr => h r (by simp [hr])) fun r hr => hne r (by simp [hr])]
    rfl

theorem foldl_min_eq {l : List Nat} {m : Nat} (hne : l ≠ []) (h : ∀ x ∈ l, x ≤ m) : minOf l = .ok (l.foldl Min.min m) := by
  cases l with
  | nil => exact absurd rfl hne
  | cons x l =>
    rw [minOf, List.foldl_cons, Nat.min_eq_right (h x (by simp))]

theorem count_le_frames (frames : List (List Nat)) (q : Nat) (h : ∀ fr ∈ frames, fr.Nodup) :
    frames.flatten.count q ≤ frames.length := by
  rw [← countP_mem _ _ h]
  exact List.countP_le_length

/-- C41: the minimum over the scan axes. The number of frames fits the type of the result. -/
theorem C41_min_scan (a : SparseArray) (ha : WF a) (hk : 0 < a.numFrames) (hk2 : a.numFrames < 2 ^ 32)
    (hs : 0 < prod a.scanShape) (axis : Axis)
    (hax : formatAxis a axis = scanAxes a) : min a axis = reduce minOf (dense a) (axisList a axis) := by
  rw [← reduce_perm _ _ (formatAxis_perm a axis), hax, reduce_scan]
  have h1 : min a axis = minScan a := by unfold min; simp only; rw [if_pos hax]
  rw [h1, minScan, replicate_eq_map _ dtypeMax, minScan_fold _ _ _ ha.lt (row_pos ha hk), Outcome.ok_bind,
    mapM_ok _ _ (fun q => (a.data.map fun row => row.flatten.count q).foldl Min.min dtypeMax)]
  · rfl
  · intro q _
    rw [map_data a ha, foldl_min_eq (m := dtypeMax)]
    · rfl
    · simp; omega
    · intro x hx
      obtain ⟨p, hp, rfl⟩ := List.mem_map.1 hx
      have hm := getD_mem a.data p [] (by rw [ha.length]; exact List.mem_range.1 hp)
      have := count_le_frames _ q (ha.nodup _ hm)
      rw [ha.frames _ hm] at this
      exact le_trans this (by unfold dtypeMax; omega)

theorem minFrame_row {l : List Nat} {n : Nat} (hlt : ∀ e ∈ l, e < n) :
    (if (counts l).length < n then .ok 0 else minOf (counts l)) = minOf ((List.range n).map fun q => l.count q) := by
  have hsub : ∀ x ∈ unique l, x ∈ List.range n := fun x hx => List.mem_range.2 (hlt x ((mem_unique l x).1 hx))
  have hsp := List.Nodup.subperm (nodup_unique l) hsub
  have hlen : (counts l).length = (unique l).length := by simp [counts]
  split
  · rename_i h
    rw [hlen] at h
    symm
    refine minOf_spec.2 ⟨?_, by simp⟩
    by_contra hno
    have hall : ∀ q ∈ List.range n, q ∈ unique l := by
      intro q hq
      rw [mem_unique]
      by_contra hm
      exact hno (List.mem_map.2 ⟨q, hq, List.count_eq_zero_of_not_mem hm⟩)
    have := (List.Nodup.subperm List.nodup_range hall).length_le
    simp at this; omega
  · rename_i h
    rw [hlen] at h
    have hp : (unique l).Perm (List.range n) := hsp.perm_of_length_le (by simpa using h)
    have hp2 : (counts l).Perm ((List.range n).map fun q => l.count q) := hp.map _
    cases hc : minOf (counts l) with
    | throw m =>
      cases h3 : counts l with
      | nil =>
        rw [h3] at hp2 hc
        rw [hp2.nil_eq] at hc
        exact hc.symm
      | cons x t => rw [h3] at hc; simp [minOf] at hc
    | ub => cases h3 : counts l <;> rw [h3] at hc <;> simp [minOf] at hc
    | ok m =>
      obtain ⟨h4, h5⟩ := minOf_spec.1 hc
      symm
      refine minOf_spec.2 ⟨hp2.mem_iff.1 h4, fun x hx => h5 x (hp2.mem_iff.2 hx)⟩

/-- C41: the minimum over the frame axes. -/
theorem C41_min_frame (a : SparseArray) (ha : WF a) (hk : 0 < a.numFrames) (axis : Axis)
    (hax : formatAxis a axis = frameAxes a) : min a axis = reduce minOf (dense a) (axisList a axis) := by
  rw [← reduce_perm _ _ (formatAxis_perm a axis), hax, reduce_frame]
  have h1 : min a axis = minFrame a := by unfold min; simp only; rw [hax, if_neg (axes_ne ha), if_pos rfl]
  rw [h1, minFrame, perPosition_eq a ha]
  congr 1
  refine mapM_congr' _ _ _ fun p hp => ?_
  have hp := List.mem_range.1 hp
  rw [concatenate_ok (getD_pos ha hk hp), Outcome.ok_bind]
  exact minFrame_row (events_lt ha hp)

/-- Other axes. -/
theorem C41_other (a : SparseArray) (ha : WF a) (hallow : a.allowFullExpand = true) (axis : Axis) (hax : ¬ Special a axis) :
    max a axis = reduce maxOf (dense a) (axisList a axis) ∧ min a axis = reduce minOf (dense a) (axisList a axis) := by
  obtain ⟨h1, h2⟩ := not_or.1 hax
  rw [← reduce_perm _ _ (formatAxis_perm a axis), ← reduce_perm _ _ (formatAxis_perm a axis)]
  unfold max min
  simp only
  rw [if_neg h1, if_neg h2, if_neg h1, if_neg h2]
  exact ⟨(C49_operations a ha _ _).1 hallow, (C49_operations a ha _ _).1 hallow⟩

example : min { sample with data := [[[0, 1, 2, 3, 4, 5], [4]], [[4], [5]], [[1, 2, 3, 4], [4]], [[2], [2, 4]]] } .scan =
      .ok ⟨[2, 3], [0, 0, 0, 0, 1, 0]⟩ ∧
    min { sample with data := [[[0, 1, 2, 3, 4, 5], [4]], [[4], [5]], [[1, 2, 3, 4], [4]], [[2], [2, 4]]] } .frame =
      .ok ⟨[2, 2], [1, 0, 0, 0]⟩ := by decide

/-! ### Mean -/

theorem prod_perm {l l' : List Nat} (h : l.Perm l') : prod l = prod l' := by
  induction h with
  | nil => rfl
  | cons x _ ih => simp [prod, ih]
  | swap x y l => simp only [prod]; ring
  | trans _ _ h1 h2 => exact h1.trans h2

/-- The number of elements that are combined. -/
theorem groups_length (s : List Nat) (f : List Bool) :
    ∀ g ∈ groups s f, g.length = prod ((List.range s.length).filterMap fun i => if f.getD i false then some (s.getD i 0) else none) := by
  induction s generalizing f with
  | nil => intro g hg; simp [groups] at hg; subst hg; rfl
  | cons n s ih =>
    intro g hg
    have hr : ((List.range (n :: s).length).filterMap fun i => if f.getD i false then some ((n :: s).getD i 0) else none) =
        (if f.headD false then [n] else []) ++
          ((List.range s.length).filterMap fun i => if f.tail.getD i false then some (s.getD i 0) else none) := by
      rw [List.length_cons, List.range_succ_eq_map, List.filterMap_cons, List.filterMap_map]
      have h1 : (fun i => if f.tail.getD i false = true then some (s.getD i 0) else none) =
          ((fun i => if f.getD i false = true then some ((n :: s).getD i 0) else none) ∘ Nat.succ) := by
        funext i
        simp only [Function.comp]
        cases f <;> simp
      rw [h1]
      cases f with
      | nil => simp
      | cons b f => cases b <;> simp
    rw [hr]
    simp only [groups] at hg
    by_cases hb : f.headD false = true
    · rw [if_pos hb] at hg ⊢
      obtain ⟨g', hg', rfl⟩ := List.mem_map.1 hg
      have := ih f.tail g' hg'
      simp only [List.singleton_append, prod]
      rw [← this, List.length_flatMap]
      simp
    · rw [if_neg hb] at hg ⊢
      simp only [List.mem_flatMap, List.mem_map] at hg
      obtain ⟨i, -, g', hg', rfl⟩ := hg
      rw [List.length_map]
      exact ih f.tail g' hg'

/-- The mean of a group. -/
def meanOf (l : List Nat) : Outcome Rat := .ok ((l.sum : Rat) / (l.length : Nat))

/-- C41: the mean. Without any element (0/0) both sides are 0 here, where NumPy gives NaN for both. -/
theorem C41_mean (a : SparseArray) (ha : WF a) (axis : Axis) (h : Special a axis ∨ a.allowFullExpand = true) :
    mean a axis = reduce meanOf (dense a) (axisList a axis) := by
  have hp := formatAxis_perm a axis
  have hsorted : formatAxis a (.axes (formatAxis a axis)) = formatAxis a axis := by
    show (formatAxis a axis).insertionSort _ = _
    apply List.Pairwise.insertionSort_eq
    unfold formatAxis
    exact List.pairwise_insertionSort _ _
  have hsum : sum a (.axes (formatAxis a axis)) = reduce (fun l => .ok l.sum) (dense a) (formatAxis a axis) := by
    refine C40_sum a ha _ ?_
    rcases h with h | h
    · left
      unfold Special at h ⊢
      rw [hsorted]; exact h
    · exact .inr h
  rw [← reduce_perm _ _ hp]
  unfold mean
  simp only
  rw [hsum]
  generalize formatAxis a axis = axes
  have hsh : (dense a).shape = a.shape := rfl
  rcases mapM_intIndex_cases a.shape.length axes with ⟨r, h1, h2, h3⟩ | ⟨h1, -⟩
  · have hl : (axes.mapM fun x => do
        let i ← intIndex a.shape.length x
        .ok (a.shape.getD i 0)) = .ok (r.map fun i => a.shape.getD i 0) := by
      rw [h3, List.map_map]
      refine mapM_ok _ _ _ fun x hx => ?_
      obtain ⟨j, hj⟩ := h2 x hx
      simp only [hj, Function.comp, Outcome.ok_bind]
    unfold reduce
    show ((axes.mapM (intIndex (dense a).shape.length) >>= _) >>= _) = (axes.mapM (intIndex (dense a).shape.length) >>= _)
    rw [hsh, h1, Outcome.ok_bind, Outcome.ok_bind, hl]
    by_cases hn : r.Nodup
    · rw [if_pos hn, if_pos hn]
      simp only
      rw [mapM_ok _ _ (fun (g : List Nat) => (g.map fun i => (dense a).flat.getD i default).sum) fun _ _ => rfl,
        mapM_ok _ (fun (g : List Nat) => meanOf (g.map fun i => (dense a).flat.getD i default))
          (fun (g : List Nat) => (((g.map fun i => (dense a).flat.getD i default).sum : Nat) : Rat) / (g.length : Nat))
          fun g _ => by simp only [meanOf, List.length_map]]
      simp only [Outcome.ok_bind, List.map_map]
      congr 2
      refine List.map_congr_left fun g hg => ?_
      simp only [Function.comp]
      rw [groups_length _ _ g hg]
      congr 2
      refine prod_perm ?_
      have hlt : ∀ j ∈ r, j < a.shape.length := by
        intro j hj
        rw [h3] at hj
        obtain ⟨x, hx, rfl⟩ := List.mem_map.1 hj
        obtain ⟨j, hj⟩ := h2 x hx
        simp only [hj]
        exact intIndex_ok hj
      have hp : r.Perm ((List.range a.shape.length).filter fun i => r.contains i) := by
        rw [List.perm_ext_iff_of_nodup hn (List.nodup_range.filter _)]
        intro i
        simp only [List.mem_filter, List.mem_range, List.contains_iff_mem]
        exact ⟨fun h => ⟨hlt i h, h⟩, fun h => h.2⟩
      refine (hp.map _).trans ?_
      refine List.Perm.of_eq ?_
      rw [← List.filterMap_eq_map, ← List.filterMap_eq_filter, List.filterMap_filterMap]
      refine List.filterMap_congr fun i hi => ?_
      have hi' := List.mem_range.1 hi
      rw [List.getD_eq_getElem?_getD (l := List.map _ _), List.getElem?_map, List.getElem?_range hi']
      by_cases hc : i ∈ r
      · simp [hc, Option.guard]
      · simp [hc, Option.guard]
    · rw [if_neg hn, if_neg hn]; rfl
  · unfold reduce
    show ((axes.mapM (intIndex (dense a).shape.length) >>= _) >>= _) = (axes.mapM (intIndex (dense a).shape.length) >>= _)
    rw [hsh, h1]; rfl

example : WF sample ∧ Special sample .frame ∧ sum sample .frame = .ok ⟨[2, 2], [3, 1, 3, 3]⟩ ∧
    mean sample .frame = .ok ⟨[2, 2], [3 / 6, 1 / 6, 3 / 6, 3 / 6]⟩ :=
  ⟨sample_wf, special_frame _ , by decide, by decide +kernel⟩

end Stempy.Sparse
