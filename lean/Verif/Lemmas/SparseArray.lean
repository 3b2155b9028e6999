import Verif.Spec.Dense
import Verif.Lemmas.NumpyIndex

/-! # Facts about sparse arrays -/

namespace Stempy.Numpy

theorem flatMap_range (n m : Nat) : ((List.range n).flatMap fun i => (List.range m).map fun j => i * m + j) =
    List.range (n * m) := by
  induction n with
  | zero => simp
  | succ n ih =>
    rw [List.range_succ, List.flatMap_append, ih, Nat.succ_mul, List.range_add]
    simp

theorem sliceIndexes_all (n : Nat) : sliceIndexes n none none none = .ok (List.range n) := by
  have h : sliceRange n none none none = .ok (0, 1, n) := by
    unfold sliceRange
    simp only [Option.getD_none, Option.map_none]
    rw [if_neg (by omega)]
    have h0 : decide ((1 : Int) < 0) = false := by decide
    simp only [h0, Bool.false_eq_true, if_false]
    congr
    split <;> simp_all
  rw [sliceIndexes, h, Outcome.ok_bind]
  simp

theorem selectItem_all (n : Nat) (s : List Nat) : selectItem (n :: s) .all = .ok (⟨[n], List.range n⟩, 1) := by
  simp [selectItem, Item.all, sliceIndexes_all]

/-- `:` takes everything. -/
theorem select_all (n : Nat) (s : List Nat) : select (n :: s) [.all] = .ok ⟨n :: s, List.range (prod (n :: s))⟩ := by
  rw [select, selectItem_all, Outcome.ok_bind]
  simp only [select, Outcome.ok_bind, Sel.product, List.drop_succ_cons, List.drop_zero]
  rw [flatMap_range]; rfl

theorem expandEllipsis_none (n : Nat) (items : List Item) (h : Item.ellipsis ∉ items) : expandEllipsis n items = items := by
  unfold expandEllipsis
  rw [List.idxOf?_eq_none_iff.2 h]

theorem selection_all (n : Nat) (s : List Nat) : selection (n :: s) [.all] = .ok ⟨n :: s, List.range (prod (n :: s))⟩ := by
  have : selection (n :: s) [.all] = select (n :: s) (expandEllipsis (n :: s).length [.all]) := rfl
  rw [this, expandEllipsis_none _ _ (by simp [Item.all]), select_all]

theorem selection_nil (s : List Nat) : selection s [] = .ok ⟨s, List.range (prod s)⟩ := by
  have : selection s [] = select s (expandEllipsis s.length []) := rfl
  rw [this, expandEllipsis_none _ _ (by simp), select]

end Stempy.Numpy

namespace Stempy.Sparse
open Numpy

theorem getD_mem {α : Type} (l : List α) (i : Nat) (d : α) (h : i < l.length) : l.getD i d ∈ l := by
  simp [h]

theorem sparseFrames_unravel {a : SparseArray} (ha : WF a) {p : Nat} (hp : p < prod a.scanShape) :
    sparseFrames a (unravel a.scanShape p) = .ok (a.data.getD p []) := by
  have hl : p < a.data.length := by rw [ha.length]; exact hp
  have hg : gather a.data [p] = .ok [a.data.getD p []] := by
    rw [gather_ok a.data [p] [] (by simpa using hl)]; rfl
  unfold sparseFrames
  rcases ha.ndim with h | h
  · obtain ⟨n, hn⟩ := List.length_eq_one_iff.1 h
    rw [hn]
    simp only [unravel, prod, Nat.div_one, List.length_singleton, ne_eq, not_true, if_false]
    rw [hg]; rfl
  · obtain ⟨n, m, hn⟩ := List.length_eq_two.1 h
    rw [hn] at hp ⊢
    simp only [unravel, prod, Nat.mul_one, Nat.div_one, List.length_cons, List.length_nil, ne_eq, not_true,
      if_false, List.getD_cons_succ, List.getD_cons_zero]
    rw [Nat.div_add_mod' p m, hg]; rfl

theorem expand_ok {a : SparseArray} (ha : WF a) {p : Nat} (hp : p < prod a.scanShape) :
    expand a (unravel a.scanShape p) = .ok ((List.range (prod a.frameShape)).map (eventCount a p)) := by
  have hm : a.data.getD p [] ∈ a.data := getD_mem _ _ _ (by rw [ha.length]; exact hp)
  rw [expand, sparseFrames_unravel ha hp, Outcome.ok_bind, replicate_eq_map, increments_ok _ _ _ (ha.lt _ hm)]
  congr 1
  refine List.map_congr_left fun q _ => ?_
  rw [Nat.zero_add, countP_mem _ _ (ha.nodup _ hm)]; rfl

theorem sliceDenseSel_ok {a : SparseArray} (ha : WF a) {ss fs : Sel} (hs : ss.Valid a.scanShape) (hf : fs.Valid a.frameShape)
    (hfull : ¬ (ss.shape ++ fs.shape = a.shape ∧ a.allowFullExpand = false)) :
    sliceDenseSel a ss fs =
      .ok ⟨ss.shape ++ fs.shape, ss.idx.flatMap fun p => fs.idx.map fun q => eventCount a p q⟩ := by
  unfold sliceDenseSel
  rw [if_neg hfull, mapM_ok ss.idx _ (fun p => fs.idx.map fun q => eventCount a p q)]
  · rw [Outcome.ok_bind, List.flatMap_def]
  · intro p hp
    rw [expand_ok ha (hs.lt p hp), Outcome.ok_bind, gather_ok _ _ 0 (by simpa using hf.lt)]
    congr 1
    refine List.map_congr_left fun q hq => ?_
    have := hf.lt q hq
    simp [this]

theorem dense_length (a : SparseArray) : (dense a).flat.length = prod a.scanShape * prod a.frameShape := by
  simp [dense]

theorem dense_getElem? (a : SparseArray) {p q : Nat} (hp : p < prod a.scanShape) (hq : q < prod a.frameShape) :
    (dense a).flat[p * prod a.frameShape + q]? = some (eventCount a p q) := by
  unfold dense
  simp only [List.flatMap_def]
  rw [flatten_uniform_getElem? _ (prod a.frameShape) (by simp) _ _ hq]
  simp [hp, hq]

/-- Selecting from the dense array. -/
theorem gather_dense (a : SparseArray) {ss fs : Sel} (hs : ss.Valid a.scanShape) (hf : fs.Valid a.frameShape) :
    gather (dense a).flat (ss.product fs (prod a.frameShape)).idx =
      .ok (ss.idx.flatMap fun p => fs.idx.map fun q => eventCount a p q) := by
  have hv := valid_product hs hf
  rw [gather_ok _ _ 0 (by rw [dense_length, ← prod_append]; exact hv.lt)]
  simp only [Sel.product, List.map_flatMap, List.map_map]
  congr 1
  refine List.flatMap_congr fun p hp => List.map_congr_left fun q hq => ?_
  simp only [Function.comp]
  rw [List.getD_eq_getElem?_getD, dense_getElem? a (hs.lt p hp) (hf.lt q hq)]; rfl

theorem splitSlices_all (a : SparseArray) : splitSlices a [.all] = .ok ([.all], []) := by
  unfold splitSlices
  simp [tooManyDims, Item.isArray, Item.all, frameSlicesOk, maskOk, Item.ndim]

theorem toDense_eq {a : SparseArray} (ha : WF a) : toDense a = .ok (.dense (dense a)) := by
  have hne : ∃ n s, a.scanShape = n :: s := by
    cases h : a.scanShape with
    | nil => have := ha.ndim; rw [h] at this; simp at this
    | cons n s => exact ⟨n, s, rfl⟩
  obtain ⟨n, s, hns⟩ := hne
  let a' : SparseArray := { a with allowFullExpand := true, sparseSlicing := false }
  have ha' : WF a' := ⟨ha.ndim, ha.length, ha.frames, ha.lt, ha.nodup⟩
  have hsel : selection a'.scanShape [.all] = .ok ⟨a.scanShape, List.range (prod a.scanShape)⟩ := by
    show selection a.scanShape [.all] = _
    rw [hns, selection_all]
  show getitem a' [.all] = _
  rw [getitem, splitSlices_all, Outcome.ok_bind]
  simp only [show a'.sparseSlicing = false from rfl, Bool.false_eq_true, if_false]
  rw [sliceDense, hsel, Outcome.ok_bind, selection_nil, Outcome.ok_bind,
    sliceDenseSel_ok ha' (valid_all _) (valid_all _) (by simp [a'])]
  rfl

/-! ### Sparse slices -/

/-- New index of an event. -/
def locate (idx : List Nat) (e : Nat) : Option Nat := if e ∈ idx then some (idx.idxOf e) else none

theorem range_eq_idxOf {idx : List Nat} (h : idx.Nodup) : List.range idx.length = idx.map fun q => idx.idxOf q := by
  apply List.ext_getElem
  · simp
  · intro i h1 h2
    simp only [List.getElem_range, List.getElem_map]
    rw [h.idxOf_getElem]

theorem frameMap_ok {size : Nat} {idx : List Nat} (hn : idx.Nodup) (hlt : ∀ i ∈ idx, i < size) :
    frameMap size idx = .ok ((List.range size).map (locate idx)) := by
  rw [frameMap, range_eq_idxOf hn, List.map_map, scatter_map _ _ _ (by simpa using hlt) none]
  rw [List.length_replicate]
  congr 1
  refine List.map_congr_left fun q hq => ?_
  simp only [locate, Function.comp]
  split
  · rfl
  · simp [List.mem_range.1 hq]

theorem mapFrame_ok {size : Nat} {idx fr : List Nat} (h : ∀ e ∈ fr, e < size) :
    mapFrame ((List.range size).map (locate idx)) fr = .ok (fr.filterMap (locate idx)) := by
  rw [mapFrame, gather_ok _ _ none (by simpa using h), Outcome.ok_bind, List.filterMap_map]
  congr 1
  refine List.filterMap_congr fun e he => ?_
  simp [h e he]

theorem locate_eq_some {idx : List Nat} (hn : idx.Nodup) {j e : Nat} :
    locate idx e = some j ↔ idx[j]? = some e := by
  unfold locate
  split
  · rename_i hm
    simp only [Option.some.injEq]
    constructor
    · rintro rfl
      rw [List.getElem?_eq_some_iff]
      exact ⟨List.idxOf_lt_length_of_mem hm, List.getElem_idxOf _⟩
    · intro h
      obtain ⟨h1, rfl⟩ := List.getElem?_eq_some_iff.1 h
      exact hn.idxOf_getElem _ _
  · rename_i hm
    simp only [reduceCtorEq, false_iff]
    intro h
    exact hm (List.mem_of_getElem? h)

theorem count_filterMap_locate {idx : List Nat} (hn : idx.Nodup) {j q : Nat} (hj : idx[j]? = some q) (l : List Nat) :
    (l.filterMap (locate idx)).count j = l.count q := by
  induction l with
  | nil => rfl
  | cons e l ih =>
    rw [List.filterMap_cons]
    by_cases he : e = q
    · subst he
      rw [(locate_eq_some hn).2 hj]
      simp [ih]
    · rw [List.count_cons_of_ne he]
      cases hl : locate idx e with
      | none => exact ih
      | some k =>
        have hk : k ≠ j := by
          rintro rfl
          have := (locate_eq_some hn).1 hl
          rw [hj] at this
          exact he (Option.some.inj this).symm
        simp only
        rw [List.count_cons_of_ne hk, ih]

/-- The array of the selected scan positions and pixels. -/
def selected (a : SparseArray) (ss fs : Sel) : SparseArray :=
  { a with
    data := ss.idx.map fun p => (a.data.getD p []).map fun fr => fr.filterMap (locate fs.idx)
    scanShape := ss.shape
    frameShape := fs.shape }

theorem filterMap_locate_all {size : Nat} {fr : List Nat} (h : ∀ e ∈ fr, e < size) :
    fr.filterMap (locate (List.range size)) = fr := by
  rw [List.filterMap_congr (g := some), List.filterMap_some]
  intro e he
  rw [locate_eq_some List.nodup_range]
  simp [h e he]

theorem map_getD_range {α : Type} (l : List α) (d : α) : ((List.range l.length).map fun p => l.getD p d) = l := by
  apply List.ext_getElem
  · simp
  · intro i h1 h2
    simp [h2]

theorem sliceSparseSel_ok {a : SparseArray} (ha : WF a) {ss fs : Option Sel} (hs : ∀ s ∈ ss, s.Valid a.scanShape)
    (hf : ∀ s ∈ fs, s.Valid a.frameShape ∧ s.idx.Nodup) :
    sliceSparseSel a ss fs = .ok (selected a (ss.getD ⟨a.scanShape, List.range (prod a.scanShape)⟩)
      (fs.getD ⟨a.frameShape, List.range (prod a.frameShape)⟩)) := by
  set S : Sel := ss.getD ⟨a.scanShape, List.range (prod a.scanShape)⟩ with hS
  have hSv : S.Valid a.scanShape := by
    cases ss with
    | none => exact valid_all _
    | some s => exact hs s rfl
  have h1 : selectRows a ss = .ok (S.idx.map fun p => a.data.getD p []) := by
    cases ss with
    | none =>
      simp only [hS, Option.getD_none, selectRows]
      rw [← ha.length, map_getD_range]
    | some s => exact gather_ok _ _ _ (by rw [ha.length]; exact (hs s rfl).lt)
  have h2 : (ss.map Sel.shape).getD a.scanShape = S.shape := by
    cases ss <;> rfl
  have hrows : ∀ p ∈ S.idx, a.data.getD p [] ∈ a.data := fun p hp =>
    getD_mem _ _ _ (by rw [ha.length]; exact hSv.lt p hp)
  unfold sliceSparseSel
  rw [h1, Outcome.ok_bind, h2]
  cases fs with
  | some f =>
    obtain ⟨hfv, hfn⟩ := hf f rfl
    simp only [Option.getD_some]
    rw [frameMap_ok hfn hfv.lt, Outcome.ok_bind]
    rw [mapM_ok _ _ (fun frames => frames.map fun fr => fr.filterMap (locate f.idx))]
    · rw [Outcome.ok_bind, SparseArray.init, if_pos]
      · simp only [selected, List.map_map, Function.comp_def]
      · simp only [List.length_map]
        rw [hSv.length]
    · intro row hrow
      obtain ⟨p, hp, rfl⟩ := List.mem_map.1 hrow
      exact mapM_ok _ _ _ fun fr hfr => mapFrame_ok (ha.lt _ (hrows p hp) fr hfr)
  | none =>
    simp only [Option.getD_none]
    rw [SparseArray.init, if_pos]
    · have : (S.idx.map fun p => a.data.getD p []) =
          S.idx.map fun p => (a.data.getD p []).map fun fr => fr.filterMap (locate (List.range (prod a.frameShape))) := by
        refine List.map_congr_left fun p hp => ?_
        have hr := hrows p hp
        generalize a.data.getD p [] = row at *
        conv_lhs => rw [← List.map_id row]
        exact List.map_congr_left fun fr hfr => (filterMap_locate_all (ha.lt row hr fr hfr)).symm
      rw [this]
      rfl
    · simp only [List.length_map]
      rw [hSv.length]

theorem selected_wf {a : SparseArray} (ha : WF a) {ss fs : Sel} (hs : ss.Valid a.scanShape)
    (hf : fs.Valid a.frameShape) (hn : fs.idx.Nodup) (hne : ss.shape ≠ []) : WF (selected a ss fs) := by
  have hrows : ∀ p ∈ ss.idx, a.data.getD p [] ∈ a.data := fun p hp =>
    getD_mem _ _ _ (by rw [ha.length]; exact hs.lt p hp)
  refine ⟨?_, ?_, ?_, ?_, ?_⟩
  · have h1 := hs.ndim
    have h2 := ha.ndim
    have h3 := List.length_pos_of_ne_nil hne
    simp only [selected]
    omega
  · simp only [selected, List.length_map]; exact hs.length
  · intro row hrow
    obtain ⟨p, hp, rfl⟩ := List.mem_map.1 hrow
    rw [List.length_map]; exact ha.frames _ (hrows p hp)
  · intro row hrow fr hfr e he
    obtain ⟨p, hp, rfl⟩ := List.mem_map.1 hrow
    obtain ⟨fr, hfr, rfl⟩ := List.mem_map.1 hfr
    obtain ⟨x, hx, hxe⟩ := List.mem_filterMap.1 he
    have := (locate_eq_some hn).1 hxe
    have := (List.getElem?_eq_some_iff.1 this).1
    rw [hf.length] at this
    exact this
  · intro row hrow fr hfr
    obtain ⟨p, hp, rfl⟩ := List.mem_map.1 hrow
    obtain ⟨fr0, hfr0, rfl⟩ := List.mem_map.1 hfr
    refine List.Nodup.filterMap ?_ (ha.nodup _ (hrows p hp) _ hfr0)
    intro x y z hx hy
    have h1 := (locate_eq_some hn).1 hx
    have h2 := (locate_eq_some hn).1 hy
    rw [h1] at h2; exact Option.some.inj h2

theorem eventCount_selected {a : SparseArray} {ss fs : Sel} (hn : fs.idx.Nodup) {k j : Nat} (hk : k < ss.idx.length)
    (hj : j < fs.idx.length) : eventCount (selected a ss fs) k j = eventCount a ss.idx[k] fs.idx[j] := by
  unfold eventCount selected
  simp only
  have : (List.map (fun p => (a.data.getD p []).map fun fr => fr.filterMap (locate fs.idx)) ss.idx).getD k [] =
      (a.data.getD ss.idx[k] []).map fun fr => fr.filterMap (locate fs.idx) := by
    simp [hk]
  rw [this, ← List.filterMap_flatten]
  exact count_filterMap_locate hn (List.getElem?_eq_getElem hj) _

theorem map_range_getElem {α β : Type} (l : List α) (f : Nat → β) (g : α → β)
    (h : ∀ (i : Nat) (hi : i < l.length), f i = g l[i]) : (List.range l.length).map f = l.map g := by
  apply List.ext_getElem
  · simp
  · intro i h1 h2
    simp only [List.length_map] at h2
    simp [h i h2]

theorem dense_selected {a : SparseArray} {ss fs : Sel} (hs : ss.Valid a.scanShape) (hf : fs.Valid a.frameShape)
    (hn : fs.idx.Nodup) :
    dense (selected a ss fs) = ⟨ss.shape ++ fs.shape, ss.idx.flatMap fun p => fs.idx.map fun q => eventCount a p q⟩ := by
  have h1 : prod (selected a ss fs).scanShape = ss.idx.length := hs.length.symm
  have h2 : prod (selected a ss fs).frameShape = fs.idx.length := hf.length.symm
  unfold dense
  rw [h1, h2, List.flatMap_def, List.flatMap_def]
  congr 2
  refine map_range_getElem _ _ _ fun k hk => ?_
  exact map_range_getElem _ _ _ fun j hj => eventCount_selected hn hk hj

end Stempy.Sparse
