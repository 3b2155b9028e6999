import Verif.Lemmas.SparseArray

/-! # Index expressions of the dense array and of its two parts -/

namespace Stempy.Numpy

theorem Sel.ext_iff' {a b : Sel} : a = b ↔ a.shape = b.shape ∧ a.idx = b.idx := by
  constructor
  · rintro rfl; simp
  · rintro ⟨h1, h2⟩; cases a; cases b; simp_all

theorem product_assoc (a b c : Sel) (m n : Nat) :
    a.product (b.product c n) (m * n) = (a.product b m).product c n := by
  rw [Sel.ext_iff']
  constructor
  · simp [Sel.product]
  · simp only [Sel.product, List.map_flatMap, List.flatMap_assoc, List.map_map, List.flatMap_map]
    refine List.flatMap_congr fun i _ => List.flatMap_congr fun j _ => List.map_congr_left fun k _ => ?_
    simp only [Function.comp]
    ring

theorem product_full (s t : List Nat) : (⟨s, List.range (prod s)⟩ : Sel).product ⟨t, List.range (prod t)⟩ (prod t) =
    ⟨s ++ t, List.range (prod (s ++ t))⟩ := by
  simp only [Sel.product, flatMap_range, prod_append]

/-- Slices and integers. -/
def Item.Basic : Item → Prop
  | .slice _ _ _ => True
  | .int _ => True
  | _ => False

instance (it : Item) : Decidable it.Basic := by
  cases it <;> (simp only [Item.Basic]; infer_instance)

/-- Selection on a single axis. -/
theorem selectItem_basic {it : Item} (h : it.Basic) (n : Nat) :
    ∃ x : Outcome Sel, ∀ s, selectItem (n :: s) it = x.bind fun a => .ok (a, 1) := by
  cases it with
  | slice a b c =>
    refine ⟨(sliceIndexes n a b c).bind fun l => .ok ⟨[l.length], l⟩, fun s => ?_⟩
    simp only [selectItem]
    cases sliceIndexes n a b c <;> rfl
  | int i =>
    refine ⟨(intIndex n i).bind fun j => .ok ⟨[], [j]⟩, fun s => ?_⟩
    simp only [selectItem]
    cases intIndex n i <;> rfl
  | _ => exact h.elim

/-- The selections on the first and the last axes are independent. -/
theorem select_append (s t : List Nat) (i j : List Item) (hi : ∀ it ∈ i, it.Basic)
    (hij : i.length = s.length ∨ i.length ≤ s.length ∧ j = []) :
    select (s ++ t) (i ++ j) = (select s i).bind fun a => (select t j).bind fun b => .ok (a.product b (prod t)) := by
  induction i generalizing s with
  | nil =>
    rcases hij with h | ⟨-, rfl⟩
    · have : s = [] := List.length_eq_zero_iff.1 h.symm
      subst this
      simp only [List.nil_append, select, prod]
      cases h2 : select t j with
      | ok b =>
        show _ = Outcome.ok _
        congr 1
        rw [Sel.ext_iff']
        simp [Sel.product]
      | throw m => rfl
      | ub => rfl
    · simp only [select, List.append_nil, Outcome.bind]
      rw [product_full]
  | cons it i ih =>
    cases s with
    | nil => simp at hij
    | cons n s =>
      obtain ⟨x, hx⟩ := selectItem_basic (hi it (by simp)) n
      simp only [List.cons_append, select]
      rw [hx, hx]
      cases x with
      | throw m => rfl
      | ub => rfl
      | ok a =>
        have := ih s (fun it hit => hi it (by simp [hit])) (by simpa using hij)
        show (select (s ++ t) (i ++ j)).bind (fun b => .ok (a.product b (prod (s ++ t)))) =
          ((select s i).bind fun b => .ok (a.product b (prod s))).bind fun a =>
            (select t j).bind fun b => .ok (a.product b (prod t))
        rw [this]
        cases select s i with
        | throw m => rfl
        | ub => rfl
        | ok b =>
          cases select t j with
          | throw m => rfl
          | ub => rfl
          | ok c =>
            show Outcome.ok _ = Outcome.ok _
            rw [prod_append, product_assoc]

theorem basic_not_ellipsis {items : List Item} (h : ∀ it ∈ items, it.Basic) : Item.ellipsis ∉ items :=
  fun hm => h _ hm

/-- Without arrays and ellipsis. -/
theorem selection_basic {shape : List Nat} {items : List Item} (h : ∀ it ∈ items, it.Basic) :
    selection shape items = select shape items := by
  have hs : selection shape items = select shape (expandEllipsis shape.length items) := by
    unfold selection
    split
    · rename_i x y n m
      have : x.isArray = false := by
        have := h x (by simp)
        cases x <;> first | rfl | exact this.elim
      rw [this]; rfl
    · rfl
  rw [hs, expandEllipsis_none _ _ (basic_not_ellipsis h)]

theorem all_basic : Item.all.Basic := trivial

/-- Only `:`: everything is selected. -/
theorem select_alls {shape : List Nat} {items : List Item} {a : Sel} (hi : ∀ it ∈ items, it = .all)
    (h : select shape items = .ok a) : a = ⟨shape, List.range (prod shape)⟩ := by
  induction items generalizing shape a with
  | nil => simp only [select, Outcome.ok.injEq] at h; exact h.symm
  | cons it items ih =>
    have := hi it (by simp)
    subst this
    cases shape with
    | nil => simp [select, selectItem, Item.all] at h
    | cons n s =>
      rw [select, selectItem_all, Outcome.ok_bind] at h
      simp only [List.drop_succ_cons, List.drop_zero] at h
      cases hb : select s items with
      | throw m => rw [hb] at h; simp at h
      | ub => rw [hb] at h; simp at h
      | ok b =>
        rw [hb, Outcome.ok_bind] at h
        simp only [Outcome.ok.injEq] at h
        rw [ih (fun it hit => hi it (by simp [hit])) hb] at h
        rw [← h]
        simp only [Sel.product, flatMap_range]
        rfl

end Stempy.Numpy

namespace Stempy.Sparse
open Numpy

theorem selection_alls {shape : List Nat} {items : List Item} {a : Sel} (hi : items.any (fun x => !isNoneSlice x) = false)
    (h : selection shape items = .ok a) : a = ⟨shape, List.range (prod shape)⟩ := by
  have hall : ∀ it ∈ items, it = .all := by
    intro it hit
    have := List.any_eq_false.1 hi it hit
    simpa [isNoneSlice] using this
  rw [selection_basic fun it hit => by rw [hall it hit]; exact all_basic] at h
  exact select_alls hall h

/-- The array selected from the dense array by two selections. -/
def picked (a : SparseArray) (ss fs : Sel) : NArray Nat :=
  ⟨ss.shape ++ fs.shape, ss.idx.flatMap fun p => fs.idx.map fun q => eventCount a p q⟩

/-- Dense arrays, also of a sparse result. -/
def Value.toDense : Value → Outcome Value
  | .dense x => .ok (.dense x)
  | .sparse b => Sparse.toDense b

theorem sliceSparse_ok {a : SparseArray} (ha : WF a) (hfr : a.frameShape ≠ []) {scan frame : List Item} {ss fs : Sel}
    (hs : selection a.scanShape scan = .ok ss) (hf : selection a.frameShape frame = .ok fs) (hn : fs.idx.Nodup) :
    sliceSparse a scan frame =
      if ss.shape = [] ∨ fs.shape = [] then .ok (.dense (picked a ss fs)) else .ok (.sparse (selected a ss fs)) := by
  have hsv := (selection_ok hs).1
  have hfv := (selection_ok hf).1
  have hsc : a.scanShape ≠ [] := by
    intro h
    have := ha.ndim; rw [h] at this; simp at this
  have hdense : ss.shape = [] ∨ fs.shape = [] → sliceDense a scan frame = .ok (picked a ss fs) := by
    intro h
    rw [sliceDense, hs, Outcome.ok_bind, hf, Outcome.ok_bind, sliceDenseSel_ok ha hsv hfv]
    · rfl
    · rintro ⟨he, -⟩
      have := congrArg List.length he
      simp only [SparseArray.shape, List.length_append] at this
      have h1 := hsv.ndim
      have h2 := hfv.ndim
      have h3 := List.length_pos_of_ne_nil hsc
      have h4 := List.length_pos_of_ne_nil hfr
      rcases h with h | h
      · rw [h] at this; simp at this; omega
      · rw [h] at this; simp at this; omega
  unfold sliceSparse
  have gen : ∀ {shape : List Nat} {items : List Item} {s : Sel}, selection shape items = .ok s →
      ∃ o : Option Sel, modified shape items = .ok o ∧ (∀ x ∈ o, x = s) ∧
        (o = none → s = ⟨shape, List.range (prod shape)⟩) := by
    intro shape items s hs
    by_cases h : items.any (fun x => !isNoneSlice x) = true
    · refine ⟨some s, ?_, by simp, by simp⟩
      rw [modified, if_pos h, hs]; rfl
    · refine ⟨none, by rw [modified, if_neg h], by simp, fun _ => selection_alls (by simpa using h) hs⟩
  have e1 := gen hs
  have e2 := gen hf
  obtain ⟨o1, e1, g1, k1⟩ := e1
  obtain ⟨o2, e2, g2, k2⟩ := e2
  have a1 : (o1.any fun s => s.shape.isEmpty) = decide (ss.shape = []) := by
    cases o1 with
    | none =>
      rw [k1 rfl]; simp [hsc]
    | some s => rw [g1 s rfl]; rw [Bool.eq_iff_iff]; simp
  have a2 : (o2.any fun s => s.shape.isEmpty) = decide (fs.shape = []) := by
    cases o2 with
    | none =>
      rw [k2 rfl]; simp [hfr]
    | some s => rw [g2 s rfl]; rw [Bool.eq_iff_iff]; simp
  have d1 : o1.getD ⟨a.scanShape, List.range (prod a.scanShape)⟩ = ss := by
    cases o1 with
    | none => exact (k1 rfl).symm
    | some s => exact g1 s rfl
  have d2 : o2.getD ⟨a.frameShape, List.range (prod a.frameShape)⟩ = fs := by
    cases o2 with
    | none => exact (k2 rfl).symm
    | some s => exact g2 s rfl
  have hsel : sliceSparseSel a o1 o2 = .ok (selected a ss fs) := by
    rw [sliceSparseSel_ok ha (fun s h => by rw [g1 s h]; exact hsv) (fun s h => by rw [g2 s h]; exact ⟨hfv, hn⟩), d1, d2]
  rw [e1, Outcome.ok_bind, a1]
  by_cases h1 : ss.shape = []
  · simp only [h1, decide_true, if_true, true_or]
    rw [hdense (.inl h1)]; rfl
  · simp only [h1, decide_false, Bool.false_eq_true, if_false, false_or]
    rw [e2, Outcome.ok_bind, a2]
    by_cases h2 : fs.shape = []
    · simp only [h2, decide_true, if_true]
      rw [hdense (.inr h2)]; rfl
    · simp only [h2, decide_false, Bool.false_eq_true, if_false]
      rw [hsel]; rfl

end Stempy.Sparse
