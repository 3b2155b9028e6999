import Verif.Model.SparseKeywords
import Verif.Props.SparseDtype
import Mathlib.Data.Int.ModEq
import Mathlib.Order.Lattice

/-!
# C118: `sum`, `max`, `min` and `mean` of a sparse array with keyword arguments

`SparseKeywords.numpy op kw x axes` is the method of a dense array with the arguments `kw`.
-/

namespace Stempy.SparseKeywords
open Numpy Sparse

/-- `keepdims` keeps the number of axes. -/
theorem keptShape_length (s : List Nat) (axes : List Int) : (keptShape s axes).length = s.length := by
  simp [keptShape]

/-- What `keepdims` means: the shape has one element on the axes of the operation, and the other axes have their length. -/
theorem keptShape_getD (s : List Nat) (axes : List Int) {i : Nat} (hi : i < s.length) :
    (keptShape s axes).getD i 0 = if (i : Int) ∈ axes ∨ (i : Int) - s.length ∈ axes then 1 else s.getD i 0 := by
  simp [keptShape, List.getD_eq_getElem?_getD, hi]

theorem keptShape_perm (s : List Nat) {l l' : List Int} (h : l.Perm l') : keptShape s l = keptShape s l' := by
  unfold keptShape
  simp only [h.mem_iff]

theorem numpy_perm (op : Op) (kw : Keywords) (x : NArray Nat) {l l' : List Int} (h : l.Perm l') : numpy op kw x l = numpy op kw x l' := by
  unfold numpy
  rw [reduce_perm _ _ h, keptShape_perm _ h]

/-- C118: over axes without an implementation of their own, with the permission to expand, all arguments are those of NumPy; without
the permission the call is refused whatever the arguments. -/
theorem C118_other (op : Op) (kw : Keywords) (a : SparseArray) (ha : WF a) (axis : Axis) (h : ¬ Special a axis) :
    (a.allowFullExpand = true → call op kw a axis = numpy op kw (dense a) (axisList a axis)) ∧
    (a.allowFullExpand = false → call op kw a axis = .throw "FullExpansionDenied") := by
  obtain ⟨h1, h2⟩ := not_or.1 h
  rw [← numpy_perm _ _ _ (formatAxis_perm a axis)]
  unfold call
  simp only
  rw [if_neg h1, if_neg h2, getitem_full ha]
  constructor
  · intro hx; rw [if_pos hx]; rfl
  · intro hx; rw [if_neg (by simp [hx])]; rfl

/-- The groups of elements of a special axis, and the sum in the type of the array. -/
theorem special_sum (kw : Keywords) (a : SparseArray) (ha : WF a) (axis : Axis) (h : Special a axis) :
    ∃ g : NArray (List Nat), (∀ {β : Type} (op : List Nat → Outcome β), reduce op (dense a) (axisList a axis) = (do
        let l ← g.flat.mapM op
        .ok ⟨g.shape, l⟩)) ∧
      (g.shape = a.frameShape ∧ formatAxis a axis = scanAxes a ∨ g.shape = a.scanShape ∧ formatAxis a axis = frameAxes a) ∧
      call .sum kw a axis = .ok ⟨g.shape, g.flat.map fun l => l.sum % 2 ^ kw.dtype.getD 32⟩ := by
  by_cases h1 : formatAxis a axis = scanAxes a
  · refine ⟨⟨a.frameShape, (List.range (prod a.frameShape)).map fun q => (List.range (prod a.scanShape)).map fun p => eventCount a p q⟩,
      ?_, .inl ⟨rfl, h1⟩, ?_⟩
    · intro β op
      rw [← reduce_perm _ _ (formatAxis_perm a axis), h1, reduce_scan, List.mapM_map]
      rfl
    · unfold call
      simp only
      rw [if_pos h1]
      show sumScanT _ a = _
      rw [C77_sum_scan _ a ha, List.map_map]
      rfl
  · have h2 : formatAxis a axis = frameAxes a := h.resolve_left h1
    refine ⟨⟨a.scanShape, (List.range (prod a.scanShape)).map fun p => (List.range (prod a.frameShape)).map fun q => eventCount a p q⟩,
      ?_, .inr ⟨rfl, h2⟩, ?_⟩
    · intro β op
      rw [← reduce_perm _ _ (formatAxis_perm a axis), h2, reduce_frame, List.mapM_map]
      rfl
    · unfold call
      simp only
      rw [if_neg h1, if_pos h2]
      show sumFrameT _ a = _
      rw [C77_sum_frame _ a ha, List.map_map]
      rfl

theorem mapM_self {α : Type} (l : List α) : l.mapM (Outcome.ok (α := α)) = .ok l := by
  induction l with
  | nil => rfl
  | cons x l ih => rw [List.mapM_cons, ih]; rfl

theorem mapM_group {α β : Type} (f : α → Outcome β) (g : α → β) (h : ∀ x, f x = .ok (g x)) (l : List α) : l.mapM f = .ok (l.map g) := by
  induction l with
  | nil => rfl
  | cons x l ih => rw [List.mapM_cons, ih, h]; rfl

theorem reduce_ok (a : SparseArray) (ha : WF a) (axis : Axis) (h : Special a axis) {g : NArray (List Nat)}
    (hg : reduce .ok (dense a) (axisList a axis) = .ok g) :
    (∀ {β : Type} (op : List Nat → Outcome β), reduce op (dense a) (axisList a axis) = (do
        let l ← g.flat.mapM op
        .ok ⟨g.shape, l⟩)) ∧
      (g.shape = a.frameShape ∧ formatAxis a axis = scanAxes a ∨ g.shape = a.scanShape ∧ formatAxis a axis = frameAxes a) ∧
      ∀ kw, call .sum kw a axis = .ok ⟨g.shape, g.flat.map fun l => l.sum % 2 ^ kw.dtype.getD 32⟩ := by
  have key : ∀ kw, _ := fun kw => special_sum kw a ha axis h
  obtain ⟨g', h1, h2, -⟩ := key {}
  have e : g = g' := by
    rw [h1, mapM_self] at hg
    cases hg
    rfl
  subst e
  refine ⟨h1, h2, fun kw => ?_⟩
  obtain ⟨g'', h1', -, h3⟩ := key kw
  have e : g = g'' := by
    rw [h1', mapM_self] at hg
    cases hg
    rfl
  subst e
  exact h3

/-- C118: over the scan or the frame axes `sum` with arguments returns what NumPy does exactly if `keepdims` is not set (or there is no
axis to keep) and the sum of every group, in the default type `np.uint32` or the given one, is that from `initial` on, in NumPy's
default `np.uint64` or the given type. -/
theorem C118_sum_iff (kw : Keywords) (a : SparseArray) (ha : WF a) (axis : Axis) (h : Special a axis) (hax : axisList a axis ≠ [])
    {g : NArray (List Nat)} (hg : reduce .ok (dense a) (axisList a axis) = .ok g) :
    call .sum kw a axis = numpy .sum kw (dense a) (axisList a axis) ↔
      kw.keepdims = false ∧ ∀ l ∈ g.flat, l.sum % 2 ^ kw.dtype.getD 32 = (kw.initial.getD 0 + l.sum) % 2 ^ kw.dtype.getD 64 := by
  obtain ⟨hred, hsh, hsum⟩ := reduce_ok a ha axis h hg
  have hn : numpy .sum kw (dense a) (axisList a axis) = .ok (if kw.keepdims then
      ⟨keptShape (dense a).shape (axisList a axis), g.flat.map fun l => (kw.initial.getD 0 + l.sum) % 2 ^ kw.dtype.getD 64⟩
      else ⟨g.shape, g.flat.map fun l => (kw.initial.getD 0 + l.sum) % 2 ^ kw.dtype.getD 64⟩) := by
    unfold numpy
    rw [if_neg (by simp), hred, mapM_group (Op.sum.group kw) (fun l : List Nat => (kw.initial.getD 0 + l.sum) % 2 ^ kw.dtype.getD 64) fun _ => rfl]
    rfl
  rw [hsum kw, hn]
  cases hk : kw.keepdims with
  | true =>
    simp only [if_true, Bool.true_eq_false, false_and, iff_false]
    intro e
    have e1 := congrArg (fun o => match o with | Outcome.ok (x : NArray Nat) => x.shape.length | _ => 0) e
    simp only [keptShape_length] at e1
    have e2 : (dense a).shape.length = a.scanShape.length + a.frameShape.length := by
      simp [dense]
    have hne : formatAxis a axis ≠ [] := fun e0 => hax (List.Perm.eq_nil (e0 ▸ (formatAxis_perm a axis).symm))
    have hd := ha.ndim
    rcases hsh with ⟨s1, s2⟩ | ⟨s1, s2⟩
    · rw [s1, e2] at e1
      omega
    · rw [s1, e2] at e1
      have : a.frameShape.length ≠ 0 := by
        intro h0
        rw [s2, frameAxes, h0] at hne
        simp at hne
      omega
  | false =>
    simp [NArray.mk.injEq]

/-- The default: the sum of a group reaches 2 ^ 32, and NumPy's does not reach 2 ^ 64. -/
theorem C118_default_iff (a : SparseArray) (ha : WF a) (axis : Axis) (h : Special a axis) (hax : axisList a axis ≠ [])
    {g : NArray (List Nat)} (hg : reduce .ok (dense a) (axisList a axis) = .ok g) (hs : ∀ l ∈ g.flat, l.sum < 2 ^ 64) :
    call .sum {} a axis = numpy .sum {} (dense a) (axisList a axis) ↔ ∀ l ∈ g.flat, l.sum < 2 ^ 32 := by
  rw [C118_sum_iff {} a ha axis h hax hg]
  simp only [true_and, Option.getD_none, Nat.zero_add]
  refine forall₂_congr fun l hl => ?_
  rw [Nat.mod_eq_of_lt (hs l hl)]
  constructor
  · intro e; rw [← e]; exact Nat.mod_lt _ (by norm_num)
  · exact Nat.mod_eq_of_lt

/-- With a type and without `keepdims`: exactly if `initial` is a multiple of 2 ^ bits, so is 0 in the type (or nothing is summed). -/
theorem C118_initial_iff (kw : Keywords) {b : Nat} (hb : kw.dtype = some b) (hk : kw.keepdims = false) (a : SparseArray) (ha : WF a)
    (axis : Axis) (h : Special a axis) (hax : axisList a axis ≠ []) {g : NArray (List Nat)}
    (hg : reduce .ok (dense a) (axisList a axis) = .ok g) :
    call .sum kw a axis = numpy .sum kw (dense a) (axisList a axis) ↔ g.flat = [] ∨ 2 ^ b ∣ kw.initial.getD 0 := by
  rw [C118_sum_iff kw a ha axis h hax hg]
  simp only [hb, hk, true_and, Option.getD_some]
  have e : ∀ s : Nat, s % 2 ^ b = (kw.initial.getD 0 + s) % 2 ^ b ↔ 2 ^ b ∣ kw.initial.getD 0 := by
    intro s
    rw [← Nat.modEq_zero_iff_dvd]
    constructor
    · intro e
      exact (Nat.ModEq.add_right_cancel' s (a := 0) (b := kw.initial.getD 0) (by rw [Nat.zero_add]; exact e)).symm
    · intro e
      have := (Nat.ModEq.add_right s e).symm
      rwa [Nat.zero_add] at this
  simp only [e]
  cases g.flat with
  | nil => simp
  | cons x l => simp; exact fun h _ _ => h

/-- Over the scan or the frame axes `keepdims` and `initial` are not used by any of the operations. -/
theorem C118_ignored (op : Op) (kw : Keywords) (a : SparseArray) (axis : Axis) (h : Special a axis) :
    call op kw a axis = call op { dtype := kw.dtype } a axis := by
  unfold call
  simp only
  split
  · rfl
  · split
    · rfl
    · rename_i h1 h2
      exact absurd h (not_or.2 ⟨h1, h2⟩)

/-- With a type, `max` and `min` over other axes raise `TypeError`, where over the scan or frame axes the type is used: for all arrays. -/
theorem C118_dtype_false (op : Op) (hop : op ≠ .sum) (kw : Keywords) (hd : kw.dtype.isSome = true) (a : SparseArray) (ha : WF a)
    (hx : a.allowFullExpand = true) (axis : Axis) (h : ¬ Special a axis) : call op kw a axis = .throw "TypeError" := by
  rw [(C118_other op kw a ha axis h).1 hx]
  unfold numpy
  rw [if_pos ⟨hop, hd⟩]

/-- `max` and `min` over the scan axes and `min` over the frame axes with a type (by default `np.uint32`) which the number of
frames fits: the result of NumPy without a type. -/
theorem C118_dtype_partial (d : Option Nat) (a : SparseArray) (ha : WF a) (hk : 0 < a.numFrames) (hb : a.numFrames < 2 ^ d.getD 32)
    (hs : 0 < prod a.scanShape) (axis : Axis) :
    (formatAxis a axis = scanAxes a → ∀ op, op ≠ .sum →
      call op { dtype := d } a axis = numpy op {} (dense a) (axisList a axis)) ∧
    (formatAxis a axis = frameAxes a →
      call .min { dtype := d } a axis = numpy .min {} (dense a) (axisList a axis)) := by
  have e : ∀ (op : Op) (f : List Nat → Outcome Nat), op.group {} = f → ∀ axes, numpy op {} (dense a) axes = reduce f (dense a) axes := by
    intro op f hf axes
    unfold numpy
    rw [if_neg (by simp), hf]
    cases reduce f (dense a) axes <;> rfl
  constructor
  · intro h1 op hop
    unfold call
    simp only
    rw [if_pos h1]
    cases op with
    | sum => exact absurd rfl hop
    | max =>
      rw [e .max maxOf rfl, ← C41_max_scan a ha hk hs axis h1]
      show maxScanT (.uint (d.getD 32)) a = _
      rw [(C77_max_partial _ a ha hk hb).1]
      unfold Sparse.max
      simp only
      rw [if_pos h1]
    | min =>
      rw [e .min minOf rfl, ← reduce_perm _ _ (formatAxis_perm a axis), h1]
      exact (C77_min_partial _ a ha hk hb hs).1
  · intro h2
    unfold call
    simp only
    rw [if_neg (by rw [h2]; exact axes_ne ha), if_pos h2, e .min minOf rfl, ← reduce_perm _ _ (formatAxis_perm a axis), h2]
    exact (C77_min_partial _ a ha hk hb hs).2

theorem reducedShape_lt (s : List Nat) (f : List Bool) (i : Nat) (hi : i < s.length) (h : f.getD i false = true) :
    (reducedShape s f).length < s.length := by
  have hle : ∀ (s : List Nat) (f : List Bool), (reducedShape s f).length ≤ s.length := by
    intro s
    induction s with
    | nil => intro f; simp [reducedShape]
    | cons n s ih =>
      intro f
      rw [reducedShape]
      have := ih f.tail
      split <;> simp <;> omega
  induction s generalizing f i with
  | nil => simp at hi
  | cons n s ih =>
    rw [reducedShape]
    have hl := hle s f.tail
    cases i with
    | zero =>
      rw [if_pos (by cases f <;> simp_all)]
      simp; omega
    | succ i =>
      have := ih f.tail i (by simpa using hi) (by cases f <;> simp_all)
      split <;> simp <;> omega

/-- A reduction over some axis has fewer axes. -/
theorem reduced_lt {α β : Type} [Inhabited α] {op : List α → Outcome β} {x : NArray α} {axes : List Int} {r : NArray β} (h : axes ≠ [])
    (hr : reduce op x axes = .ok r) : r.shape.length < x.shape.length := by
  unfold reduce at hr
  cases hm : axes.mapM fun y => intIndex x.shape.length y with
  | throw e => rw [hm] at hr; cases hr
  | ub => rw [hm] at hr; cases hr
  | ok l =>
    rw [hm, Outcome.ok_bind] at hr
    split at hr
    · simp only at hr
      cases hg : (groups x.shape ((List.range x.shape.length).map fun i => l.contains i)).mapM
          fun g => op (g.map fun i => x.flat.getD i default) with
      | throw e => rw [hg] at hr; cases hr
      | ub => rw [hg] at hr; cases hr
      | ok v =>
        rw [hg] at hr
        cases hr
        cases axes with
        | nil => exact absurd rfl h
        | cons y axes =>
          rw [List.mapM_cons] at hm
          cases hy : intIndex x.shape.length y with
          | throw e => rw [hy] at hm; cases hm
          | ub => rw [hy] at hm; cases hm
          | ok i =>
            rw [hy, Outcome.ok_bind] at hm
            cases hrest : axes.mapM fun y => intIndex x.shape.length y with
            | throw e => rw [hrest] at hm; cases hm
            | ub => rw [hrest] at hm; cases hm
            | ok l' =>
              rw [hrest] at hm
              cases hm
              have hi : i < x.shape.length := intIndex_ok hy
              refine reducedShape_lt _ _ i hi ?_
              simp [List.getD_eq_getElem?_getD, hi]
    · cases hr

private theorem foldl_max (l : List Nat) (v w : Nat) : l.foldl Max.max (Max.max v w) = Max.max v (l.foldl Max.max w) := by
  induction l generalizing w with
  | nil => rfl
  | cons x l ih => rw [List.foldl_cons, List.foldl_cons, max_assoc, ih]

private theorem foldl_min (l : List Nat) (v w : Nat) : l.foldl Min.min (Min.min v w) = Min.min v (l.foldl Min.min w) := by
  induction l generalizing w with
  | nil => rfl
  | cons x l ih => rw [List.foldl_cons, List.foldl_cons, min_assoc, ih]

private theorem le_foldl_max (l : List Nat) (v w : Nat) : v ≤ l.foldl Max.max w ↔ v ≤ w ∨ ∃ x ∈ l, v ≤ x := by
  induction l generalizing w with
  | nil => simp
  | cons x l ih => rw [List.foldl_cons, ih]; simp [or_assoc]

private theorem foldl_min_le (l : List Nat) (v w : Nat) : l.foldl Min.min w ≤ v ↔ w ≤ v ∨ ∃ x ∈ l, x ≤ v := by
  induction l generalizing w with
  | nil => simp
  | cons x l ih => rw [List.foldl_cons, ih]; simp [or_assoc]

/-- `initial` makes no difference to the extremum of a group exactly if some number of the group is as extreme. -/
theorem group_iff {op : Op} (hop : op ≠ .sum) (kw : Keywords) {l : List Nat} (hl : l ≠ []) :
    ∃ x y, op.group {} l = .ok x ∧ op.group kw l = .ok y ∧
      (x = y ↔ ∀ v, kw.initial = some v → ∃ z ∈ l, if op = .max then v ≤ z else z ≤ v) := by
  cases l with
  | nil => exact absurd rfl hl
  | cons z l =>
    cases hi : kw.initial with
    | none =>
      cases op with
      | sum => exact absurd rfl hop
      | max => exact ⟨_, _, rfl, by simp only [Op.group, hi]; rfl, by simp⟩
      | min => exact ⟨_, _, rfl, by simp only [Op.group, hi]; rfl, by simp⟩
    | some v =>
      cases op with
      | sum => exact absurd rfl hop
      | max =>
        refine ⟨l.foldl Max.max z, Max.max v (l.foldl Max.max z), rfl, ?_, ?_⟩
        · simp only [Op.group, hi]
          show Outcome.ok ((z :: l).foldl Max.max v) = _
          rw [List.foldl_cons, foldl_max]
        · simp [le_foldl_max]
      | min =>
        refine ⟨l.foldl Min.min z, Min.min v (l.foldl Min.min z), rfl, ?_, ?_⟩
        · simp only [Op.group, hi]
          show Outcome.ok ((z :: l).foldl Min.min v) = _
          rw [List.foldl_cons, foldl_min]
        · simp [foldl_min_le]

private theorem groups_ok {op : Op} (hop : op ≠ .sum) (k : Keywords) (L : List (List Nat)) (hL : ∀ l ∈ L, l ≠ []) :
    ∃ r, L.mapM (op.group k) = .ok r := by
  induction L with
  | nil => exact ⟨[], rfl⟩
  | cons l L ih =>
    obtain ⟨r, hr⟩ := ih fun x hx => hL x (by simp [hx])
    obtain ⟨-, y, -, hy, -⟩ := group_iff hop k (hL l (by simp))
    exact ⟨y :: r, by rw [List.mapM_cons, hr, hy]; rfl⟩

/-- C118: where `max` resp. `min` over the scan or frame axes is that of NumPy without further arguments (`C118_dtype_partial`), it is
with arguments exactly if there is no `dtype`, which NumPy refuses, no `keepdims`, and `initial` makes no difference. -/
theorem C118_extremum_iff {op : Op} (hop : op ≠ .sum) (kw : Keywords) (a : SparseArray) (ha : WF a) (axis : Axis) (h : Special a axis)
    (hax : axisList a axis ≠ []) {g : NArray (List Nat)} (hg : reduce .ok (dense a) (axisList a axis) = .ok g)
    (hne : ∀ l ∈ g.flat, l ≠ []) (hplain : call op { dtype := kw.dtype } a axis = numpy op {} (dense a) (axisList a axis)) :
    call op kw a axis = numpy op kw (dense a) (axisList a axis) ↔
      kw.dtype = none ∧ kw.keepdims = false ∧
        ∀ l ∈ g.flat, ∀ v, kw.initial = some v → ∃ z ∈ l, if op = .max then v ≤ z else z ≤ v := by
  obtain ⟨hred, hsh, -⟩ := reduce_ok a ha axis h hg
  have hvals : ∀ k : Keywords, ∃ r : List Nat, g.flat.mapM (op.group k) = .ok r := fun k => groups_ok hop k _ hne
  have hiff : g.flat.mapM (op.group {}) = g.flat.mapM (op.group kw) ↔
      ∀ l ∈ g.flat, ∀ v, kw.initial = some v → ∃ z ∈ l, if op = .max then v ≤ z else z ≤ v := by
    clear hvals hred hsh hg
    revert hne
    generalize g.flat = L
    intro hL
    induction L with
    | nil => simp
    | cons l L ih =>
      obtain ⟨x, y, hx, hy, e⟩ := group_iff hop kw (hL l (by simp))
      have ih := ih fun x hx => hL x (by simp [hx])
      rw [List.forall_mem_cons, ← ih, ← e, List.mapM_cons, List.mapM_cons, hx, hy]
      obtain ⟨r, hr⟩ := groups_ok hop {} L fun x hx => hL x (by simp [hx])
      obtain ⟨r', hr'⟩ := groups_ok hop kw L fun x hx => hL x (by simp [hx])
      rw [hr, hr']
      show Outcome.ok (x :: r) = Outcome.ok (y :: r') ↔ _
      simp
  rw [C118_ignored op kw a axis h, hplain]
  obtain ⟨r, hr⟩ := hvals {}
  obtain ⟨r', hr'⟩ := hvals kw
  have h1 : numpy op {} (dense a) (axisList a axis) = .ok ⟨g.shape, r⟩ := by
    unfold numpy
    rw [if_neg (by simp), hred, hr]
    rfl
  rw [h1]
  rw [hr, hr'] at hiff
  cases hd : kw.dtype with
  | some b =>
    have : numpy op kw (dense a) (axisList a axis) = .throw "TypeError" := by
      unfold numpy
      rw [if_pos ⟨hop, by simp [hd]⟩]
    rw [this]
    simp
  | none =>
    have h2 : numpy op kw (dense a) (axisList a axis) =
        .ok (if kw.keepdims then ⟨keptShape (dense a).shape (axisList a axis), r'⟩ else ⟨g.shape, r'⟩) := by
      unfold numpy
      rw [if_neg (by simp [hd]), hred, hr']
      show Outcome.ok _ = _
      cases kw.keepdims <;> rfl
    rw [h2]
    cases hk : kw.keepdims with
    | false =>
      rw [← hiff]
      simp
    | true =>
      simp only [if_true, Bool.true_eq_false, false_and, and_false, iff_false]
      intro e
      have e1 := congrArg (fun o => match o with | Outcome.ok (x : NArray Nat) => x.shape.length | _ => 0) e
      simp only [keptShape_length] at e1
      have := reduced_lt hax hg
      omega

/-- `mean` never uses `keepdims`: over any axes, whenever it works, its result is not that of NumPy if `keepdims` is set, and is otherwise. -/
theorem C118_mean_iff (kw : Keywords) (a : SparseArray) (ha : WF a) (axis : Axis) (h : Special a axis ∨ a.allowFullExpand = true)
    (hax : axisList a axis ≠ []) {r : NArray Rat} (hr : callMean kw a axis = .ok r) :
    callMean kw a axis = numpyMean kw (dense a) (axisList a axis) ↔ kw.keepdims = false := by
  have hm : callMean kw a axis = reduce meanOf (dense a) (axisList a axis) := C41_mean a ha axis h
  have hn : numpyMean kw (dense a) (axisList a axis) =
      .ok (if kw.keepdims then ⟨keptShape (dense a).shape (axisList a axis), r.flat⟩ else r) := by
    rw [hm] at hr
    unfold numpyMean
    show (reduce meanOf (dense a) (axisList a axis) >>= _) = _
    rw [hr]
    rfl
  rw [hn, hr]
  cases hk : kw.keepdims with
  | false => simp
  | true =>
    simp only [if_true, Bool.true_eq_false, iff_false]
    intro e
    have e1 := congrArg (fun o => match o with | Outcome.ok (x : NArray Rat) => x.shape.length | _ => 0) e
    simp only [keptShape_length] at e1
    rw [hm] at hr
    have := reduced_lt hax hr
    omega

/-- Examples: one event missing from the sum in 8 bits, a kept axis, an initial value. -/
example : WF sample ∧ ¬ Special { sample with allowFullExpand := true } (.axes [3]) ∧
    call .sum { keepdims := true, initial := some 5 } sample .scan = .ok ⟨[2, 3], [2, 1, 3, 1, 2, 1]⟩ ∧
    numpy .sum { keepdims := true, initial := some 5 } (dense sample) [0, 1] = .ok ⟨[1, 1, 2, 3], [7, 6, 8, 6, 7, 6]⟩ ∧
    call .sum { keepdims := true, dtype := some 1 } { sample with allowFullExpand := true } (.axes [3]) =
      .ok ⟨[2, 2, 2, 1], [1, 0, 0, 1, 0, 1, 1, 0]⟩ ∧
    call .max { dtype := some 8 } sample .scan = .ok ⟨[2, 3], [1, 1, 2, 1, 2, 1]⟩ ∧
    call .max { dtype := some 8 } { sample with allowFullExpand := true } (.axes [0]) = .throw "TypeError" ∧
    call .max { initial := some 1 } sample .scan = numpy .max { initial := some 1 } (dense sample) [0, 1] ∧
    call .max { initial := some 2 } sample .scan ≠ numpy .max { initial := some 2 } (dense sample) [0, 1] := by
  refine ⟨sample_wf, by unfold Special; decide +kernel, ?_, ?_, ?_, ?_, ?_, ?_, ?_⟩ <;> decide +kernel

end Stempy.SparseKeywords
