import Verif.Lemmas.SparseArray
import Mathlib.Data.List.Basic
import Mathlib.Algebra.BigOperators.Group.List.Basic

/-! # Facts about reductions -/

namespace Stempy.Numpy

theorem groups_true (s t : List Nat) (f : List Bool) :
    groups (s ++ t) (List.replicate s.length true ++ f) =
      (groups t f).map fun g => (List.range (prod s)).flatMap fun i => g.map (i * prod t + ·) := by
  induction s with
  | nil => simp [prod]
  | cons n s ih =>
    simp only [List.cons_append, List.length_cons, List.replicate_succ, groups, List.headD_cons, List.tail_cons, if_true]
    rw [ih, List.map_map]
    refine List.map_congr_left fun g _ => ?_
    simp only [Function.comp, prod]
    rw [← flatMap_range, List.flatMap_assoc]
    refine List.flatMap_congr fun i _ => ?_
    rw [List.map_flatMap, List.flatMap_map]
    refine List.flatMap_congr fun j _ => ?_
    rw [List.map_map]
    refine List.map_congr_left fun x _ => ?_
    simp only [Function.comp, prod_append]
    ring

theorem groups_false (s t : List Nat) (f : List Bool) :
    groups (s ++ t) (List.replicate s.length false ++ f) =
      (List.range (prod s)).flatMap fun i => (groups t f).map fun g => g.map (i * prod t + ·) := by
  induction s with
  | nil => simp [prod]
  | cons n s ih =>
    simp only [List.cons_append, List.length_cons, List.replicate_succ, groups, List.headD_cons, List.tail_cons,
      Bool.false_eq_true, if_false]
    rw [ih]
    simp only [prod]
    rw [← flatMap_range, List.flatMap_assoc]
    refine List.flatMap_congr fun i _ => ?_
    rw [List.map_flatMap, List.flatMap_map]
    refine List.flatMap_congr fun j _ => ?_
    rw [List.map_map]
    refine List.map_congr_left fun x _ => ?_
    simp only [Function.comp, List.map_map]
    refine List.map_congr_left fun x _ => ?_
    simp only [Function.comp, prod_append]
    ring

theorem groups_all_true (s : List Nat) : groups s (List.replicate s.length true) = [List.range (prod s)] := by
  have := groups_true s [] []
  rw [List.append_nil, List.append_nil] at this
  rw [this]
  simp [groups, prod, List.flatMap_singleton']

theorem groups_all_false (s : List Nat) :
    groups s (List.replicate s.length false) = (List.range (prod s)).map fun i => [i] := by
  have := groups_false s [] []
  rw [List.append_nil, List.append_nil] at this
  rw [this]
  simp [groups, prod, List.map_eq_flatMap]

theorem groups_first (s t : List Nat) :
    groups (s ++ t) (List.replicate s.length true ++ List.replicate t.length false) =
      (List.range (prod t)).map fun q => (List.range (prod s)).map fun p => p * prod t + q := by
  rw [groups_true, groups_all_false, List.map_map]
  refine List.map_congr_left fun q _ => ?_
  simp [List.map_eq_flatMap]

theorem groups_last (s t : List Nat) :
    groups (s ++ t) (List.replicate s.length false ++ List.replicate t.length true) =
      (List.range (prod s)).map fun p => (List.range (prod t)).map fun q => p * prod t + q := by
  rw [groups_false, groups_all_true]
  simp [List.map_eq_flatMap]

theorem reducedShape_append (s t : List Nat) (f : List Bool) (b : Bool) :
    reducedShape (s ++ t) (List.replicate s.length b ++ f) = (if b then [] else s) ++ reducedShape t f := by
  induction s with
  | nil => simp
  | cons n s ih =>
    simp only [List.cons_append, List.length_cons, List.replicate_succ, reducedShape, List.headD_cons, List.tail_cons]
    cases b <;> simp [ih]

theorem reducedShape_replicate (s : List Nat) (b : Bool) :
    reducedShape s (List.replicate s.length b) = if b then [] else s := by
  have := reducedShape_append s [] [] b
  rw [List.append_nil, List.append_nil] at this
  rw [this]; simp [reducedShape]

theorem intIndex_nat {n i : Nat} (h : i < n) : intIndex n (i : Int) = .ok i := by
  unfold intIndex
  have : ¬ (i : Int) < 0 := by omega
  simp only [this, if_false]
  rw [if_pos (by omega)]; simp

theorem intIndex_throw {n : Nat} {i : Int} : (∃ j, intIndex n i = .ok j) ∨ intIndex n i = .throw "IndexError" := by
  unfold intIndex
  simp only
  generalize (if i < 0 then i + (n : Int) else i) = j
  split
  · exact .inl ⟨_, rfl⟩
  · exact .inr rfl

theorem mapM_intIndex_cases (n : Nat) (l : List Int) :
    (∃ r, l.mapM (intIndex n) = .ok r ∧ (∀ x ∈ l, ∃ j, intIndex n x = .ok j) ∧
      r = l.map fun x => match intIndex n x with | .ok j => j | _ => 0) ∨
    (l.mapM (intIndex n) = .throw "IndexError" ∧ ∃ x ∈ l, intIndex n x = .throw "IndexError") := by
  induction l with
  | nil => exact .inl ⟨[], rfl, by simp, rfl⟩
  | cons x l ih =>
    rw [List.mapM_cons]
    rcases intIndex_throw (n := n) (i := x) with ⟨j, hj⟩ | hx
    · rcases ih with ⟨r, h1, h2, h3⟩ | ⟨h1, y, hy, hy2⟩
      · refine .inl ⟨j :: r, ?_, ?_, ?_⟩
        · rw [hj, h1]; rfl
        · intro y hy
          rcases List.mem_cons.1 hy with rfl | hy
          · exact ⟨j, hj⟩
          · exact h2 y hy
        · rw [List.map_cons, hj, ← h3]
      · refine .inr ⟨?_, y, by simp [hy], hy2⟩
        rw [hj, h1]; rfl
    · refine .inr ⟨?_, x, by simp, hx⟩
      rw [hx]; rfl

/-- The order of the axes does not matter. -/
theorem reduce_perm {α β : Type} [Inhabited α] (op : List α → Outcome β) (a : NArray α) {l l' : List Int} (h : l.Perm l') :
    reduce op a l = reduce op a l' := by
  unfold reduce
  show ((l.mapM (intIndex a.shape.length)) >>= _) = ((l'.mapM (intIndex a.shape.length)) >>= _)
  rcases mapM_intIndex_cases a.shape.length l with ⟨r, h1, h2, h3⟩ | ⟨h1, x, hx, hx2⟩
  · rcases mapM_intIndex_cases a.shape.length l' with ⟨r', h1', h2', h3'⟩ | ⟨h1', x, hx, hx2⟩
    · rw [h1, h1', Outcome.ok_bind, Outcome.ok_bind]
      have hp : r.Perm r' := by rw [h3, h3']; exact h.map _
      have hc : ∀ i, r.contains i = r'.contains i := fun i => by
        rw [Bool.eq_iff_iff]; simp [hp.mem_iff]
      by_cases hn : r.Nodup
      · rw [if_pos hn, if_pos (hp.nodup_iff.1 hn)]
        simp only [hc]
      · rw [if_neg hn, if_neg (fun h => hn (hp.nodup_iff.2 h))]
    · obtain ⟨j, hj⟩ := h2 x (h.mem_iff.2 hx)
      rw [hj] at hx2; simp at hx2
  · rcases mapM_intIndex_cases a.shape.length l' with ⟨r', h1', h2', h3'⟩ | ⟨h1', -⟩
    · obtain ⟨j, hj⟩ := h2' x (h.mem_iff.1 hx)
      rw [hj] at hx2; simp at hx2
    · rw [h1, h1']

theorem mapM_intIndex_nat {n : Nat} {l : List Nat} (h : ∀ i ∈ l, i < n) :
    (l.map fun (i : Nat) => (i : Int)).mapM (intIndex n) = .ok l := by
  rw [mapM_map_ok l (fun (i : Nat) => (i : Int)) (intIndex n) (fun i => i) fun i hi => intIndex_nat (h i hi), List.map_id']

theorem mapM_map_congr {α β γ : Type} (l : List α) (e : α → β) (f : β → Outcome γ) (g : α → Outcome γ)
    (h : ∀ a ∈ l, f (e a) = g a) : (l.map e).mapM f = l.mapM g := by
  induction l with
  | nil => rfl
  | cons a l ih =>
    rw [List.map_cons, List.mapM_cons, List.mapM_cons, h a (by simp), ih fun b hb => h b (by simp [hb])]

end Stempy.Numpy

namespace Stempy.Sparse
open Numpy

theorem flat_getD (a : SparseArray) {p q : Nat} (hp : p < prod a.scanShape) (hq : q < prod a.frameShape) (d : Nat) :
    (dense a).flat.getD (p * prod a.frameShape + q) d = eventCount a p q := by
  rw [List.getD_eq_getElem?_getD, dense_getElem? a hp hq]; rfl

/-- Reduction over the scan axes, for each pixel. -/
theorem reduce_scan {β : Type} (a : SparseArray) (op : List Nat → Outcome β) :
    reduce op (dense a) (scanAxes a) = (do
      let l ← (List.range (prod a.frameShape)).mapM fun q => op ((List.range (prod a.scanShape)).map fun p => eventCount a p q)
      .ok ⟨a.frameShape, l⟩) := by
  have hsh : (dense a).shape = a.scanShape ++ a.frameShape := rfl
  have hax : (scanAxes a).mapM (intIndex (dense a).shape.length) = .ok (List.range a.scanShape.length) :=
    mapM_intIndex_nat fun i hi => by rw [hsh]; simp at hi ⊢; omega
  have hfl : ((List.range (dense a).shape.length).map fun i => (List.range a.scanShape.length).contains i) =
      List.replicate a.scanShape.length true ++ List.replicate a.frameShape.length false := by
    rw [hsh, List.length_append, List.range_add, List.map_append, List.map_map]
    congr 1
    · apply List.ext_getElem <;> simp
    · apply List.ext_getElem <;> simp
  unfold reduce
  show ((scanAxes a).mapM (intIndex (dense a).shape.length) >>= _) = _
  rw [hax, Outcome.ok_bind, if_pos List.nodup_range, hfl, hsh]
  simp only
  rw [groups_first, reducedShape_append, reducedShape_replicate]
  simp only [if_true, Bool.false_eq_true, if_false, List.nil_append]
  rw [mapM_map_congr]
  intro q hq
  rw [List.map_map]
  congr 1
  refine List.map_congr_left fun p hp => ?_
  exact flat_getD a (List.mem_range.1 hp) (List.mem_range.1 hq) _

/-- Reduction over the frame axes, for each scan position. -/
theorem reduce_frame {β : Type} (a : SparseArray) (op : List Nat → Outcome β) :
    reduce op (dense a) (frameAxes a) = (do
      let l ← (List.range (prod a.scanShape)).mapM fun p => op ((List.range (prod a.frameShape)).map fun q => eventCount a p q)
      .ok ⟨a.scanShape, l⟩) := by
  have hsh : (dense a).shape = a.scanShape ++ a.frameShape := rfl
  have hfa : frameAxes a = ((List.range a.frameShape.length).map (a.scanShape.length + ·)).map fun (i : Nat) => (i : Int) := by
    rw [frameAxes, List.map_map]
    refine List.map_congr_left fun i _ => ?_
    simp
  have hax : (frameAxes a).mapM (intIndex (dense a).shape.length) =
      .ok ((List.range a.frameShape.length).map (a.scanShape.length + ·)) := by
    rw [hfa]
    exact mapM_intIndex_nat fun i hi => by rw [hsh]; simp at hi ⊢; omega
  have hfl : ((List.range (dense a).shape.length).map fun i =>
      ((List.range a.frameShape.length).map (a.scanShape.length + ·)).contains i) =
      List.replicate a.scanShape.length false ++ List.replicate a.frameShape.length true := by
    rw [hsh, List.length_append, List.range_add, List.map_append, List.map_map]
    congr 1
    · apply List.ext_getElem <;> simp
      intro i h1 j h2; omega
    · apply List.ext_getElem <;> simp
  have hnd : ((List.range a.frameShape.length).map (a.scanShape.length + ·)).Nodup :=
    List.nodup_range.map fun x y h => by simpa using h
  unfold reduce
  show ((frameAxes a).mapM (intIndex (dense a).shape.length) >>= _) = _
  rw [hax, Outcome.ok_bind, if_pos hnd, hfl, hsh]
  simp only
  rw [groups_last, reducedShape_append, reducedShape_replicate]
  simp only [if_true, Bool.false_eq_true, if_false, List.append_nil]
  rw [mapM_map_congr]
  intro q hq
  rw [List.map_map]
  congr 1
  refine List.map_congr_left fun p hp => ?_
  exact flat_getD a (List.mem_range.1 hq) (List.mem_range.1 hp) _

end Stempy.Sparse
