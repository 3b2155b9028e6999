import Verif.Lemmas.SparseObjects
import Verif.Props.Slices

/-!
# C79: derived arrays do not share storage

Violated: the frames of an array binned along the scan are the arrays of events of the original array, so that writing into one
changes the other; and the copies made when slicing with an index that is given twice share their events. The metadata is kept when
binning in place, but the array otherwise returned has none.
-/

namespace Stempy.Objects
open Numpy Sparse

/-! ### What is claimed -/

/-- Actions on `a` (`true`) and `b`, one after the other. -/
def run (h : Heap) (a b : Obj) (l : List (Bool × Action)) : Heap :=
  l.foldl (fun h x => act h (if x.1 then a else b) x.2) h

/-- Whatever is done with the two arrays, with actions of some kinds, an action on one is never seen in the other. -/
def IndependentFor (P : Action → Prop) (h : Heap) (a b : Obj) : Prop :=
  ∀ (l : List (Bool × Action)) (x : Action), (∀ y ∈ l, P y.2) → P x →
    view (act (run h a b l) a x) b = view (run h a b l) b ∧
      (act (run h a b l) a x).dict b.metadata = (run h a b l).dict b.metadata ∧
      view (act (run h a b l) b x) a = view (run h a b l) a ∧
      (act (run h a b l) b x).dict a.metadata = (run h a b l).dict a.metadata

def Independent (h : Heap) (a b : Obj) : Prop := IndependentFor (fun _ => True) h a b

/-- The value of an index expression. -/
def Result.value (h : Heap) : Result → Value
  | .dense x => .dense x
  | .sparse a => .sparse (view h a)

/-! ### Separation is kept by actions -/

private theorem mem_set_flatten {l : List (List Ref)} {i : Nat} {row : List Ref} {r : Ref} (h : r ∈ (l.set i row).flatten) :
    r ∈ l.flatten ∨ r ∈ row := by
  obtain ⟨x, hx, hr⟩ := List.mem_flatten.1 h
  rcases List.mem_or_eq_of_mem_set hx with hx | rfl
  · exact .inl (List.mem_flatten.2 ⟨x, hx, hr⟩)
  · exact .inr hr

private theorem refAt_mem {h : Heap} {a : Obj} {i j : Nat} {r : Ref} (hr : refAt h a i j = some r) : r ∈ refs h a := by
  unfold refAt at hr
  cases hrow : (h.table a.data)[i]? with
  | none => simp [hrow] at hr
  | some row =>
    simp [hrow] at hr
    exact List.mem_flatten.2 ⟨row, List.mem_of_getElem? hrow, List.mem_of_getElem? hr⟩

private theorem getD_set_ne {α : Type} (l : List α) {i j : Nat} (x d : α) (h : i ≠ j) : (l.set i x).getD j d = l.getD j d := by
  simp [List.getD_eq_getElem?_getD, List.getElem?_set_ne h]

private theorem getD_set_self {α : Type} (l : List α) {i : Nat} (x d : α) (h : i < l.length) : (l.set i x).getD i d = x := by
  simp [List.getD_eq_getElem?_getD, h]

/-- The table of `a` after replacing a frame. -/
private theorem table_frame {h : Heap} {a : Obj} (ha : Live h a) (i j : Nat) (x : List Nat) :
    (act h a (.frame i j x)).table a.data =
      (h.table a.data).set i (((h.table a.data).getD i []).set j h.arrays.length) := by
  simp only [act, newArray, Heap.table]
  exact getD_set_self _ _ _ ha.data

private theorem getD_subset_flatten {l : List (List Ref)} {i : Nat} {r : Ref} (h : r ∈ l.getD i []) : r ∈ l.flatten := by
  rw [List.getD_eq_getElem?_getD] at h
  cases hi : l[i]? with
  | none => simp [hi] at h
  | some row =>
    rw [hi] at h
    exact List.mem_flatten.2 ⟨row, List.mem_of_getElem? hi, h⟩

private theorem refs_frame {h : Heap} {a : Obj} (ha : Live h a) (i j : Nat) (x : List Nat) :
    ∀ r ∈ refs (act h a (.frame i j x)) a, r ∈ refs h a ∨ r = h.arrays.length := by
  intro r hr
  unfold refs at hr
  rw [table_frame ha] at hr
  rcases mem_set_flatten hr with hr | hr
  · exact .inl hr
  · rcases List.mem_or_eq_of_mem_set hr with hr | rfl
    · exact .inl (getD_subset_flatten hr)
    · exact .inr rfl

private theorem refs_other {h : Heap} {a b : Obj} (hab : a.data ≠ b.data) (x : Action) : refs (act h a x) b = refs h b := by
  unfold refs
  congr 1
  cases x with
  | events i j y => simp only [act]; cases refAt h a i j <;> rfl
  | frame i j y =>
    simp only [act, newArray, Heap.table]
    exact getD_set_ne _ _ _ hab
  | metadata d => rfl

private theorem refs_own {h : Heap} {a : Obj} (ha : Live h a) (x : Action) :
    ∀ r ∈ refs (act h a x) a, r ∈ refs h a ∨ h.arrays.length = r ∧ r < (act h a x).arrays.length := by
  intro r hr
  cases x with
  | events i j y =>
    left
    simp only [act] at hr
    cases hh : refAt h a i j <;> rw [hh] at hr <;> exact hr
  | frame i j y =>
    rcases refs_frame ha i j y r hr with h1 | h1
    · exact .inl h1
    · right
      refine ⟨h1.symm, ?_⟩
      subst h1
      simp [act, newArray]
  | metadata d => exact .inl hr

private theorem arrays_length (h : Heap) (a : Obj) (x : Action) : h.arrays.length ≤ (act h a x).arrays.length := by
  cases x with
  | events i j y => simp only [act]; cases refAt h a i j <;> simp
  | frame i j y => simp [act, newArray]
  | metadata d => simp [act]

private theorem tables_length (h : Heap) (a : Obj) (x : Action) : (act h a x).tables.length = h.tables.length := by
  cases x with
  | events i j y => simp only [act]; cases refAt h a i j <;> rfl
  | frame i j y => simp [act, newArray]
  | metadata d => rfl

private theorem dicts_length (h : Heap) (a : Obj) (x : Action) : (act h a x).dicts.length = h.dicts.length := by
  cases x with
  | events i j y => simp only [act]; cases refAt h a i j <;> rfl
  | frame i j y => rfl
  | metadata d => simp [act]

private theorem live_own {h : Heap} {a : Obj} (ha : Live h a) (x : Action) : Live (act h a x) a where
  data := by rw [tables_length]; exact ha.data
  dict := by rw [dicts_length]; exact ha.dict
  frames r hr := by
    rcases refs_own ha x r hr with hr | ⟨_, hr⟩
    · exact Nat.lt_of_lt_of_le (ha.frames r hr) (arrays_length h a x)
    · exact hr

private theorem live_other {h : Heap} {a b : Obj} (hb : Live h b) (hab : a.data ≠ b.data) (x : Action) : Live (act h a x) b where
  data := by rw [tables_length]; exact hb.data
  dict := by rw [dicts_length]; exact hb.dict
  frames r hr := by
    rw [refs_other hab] at hr
    exact Nat.lt_of_lt_of_le (hb.frames r hr) (arrays_length h a x)

private theorem apart_act {h : Heap} {a b : Obj} (ha : Live h a) (hb : Live h b) (hab : Apart h a b) (x : Action) :
    Apart (act h a x) a b where
  data := hab.data
  dict := hab.dict
  frames r hr := by
    rw [refs_other hab.data]
    rcases refs_own ha x r hr with hr | ⟨rfl, _⟩
    · exact hab.frames r hr
    · exact fun hr => Nat.lt_irrefl _ (hb.frames _ hr)

private theorem view_act {h : Heap} {a b : Obj} (hb : Live h b) (hab : Apart h a b) (x : Action) :
    view (act h a x) b = view h b ∧ (act h a x).dict b.metadata = h.dict b.metadata := by
  have key : ∀ (h' : Heap), h'.table b.data = h.table b.data → (∀ r ∈ refs h b, h'.array r = h.array r) →
      view h' b = view h b := by
    intro h' ht hr
    unfold view
    rw [ht, view_data_congr hr]
  cases x with
  | events i j y =>
    simp only [act]
    cases hh : refAt h a i j with
    | none => exact ⟨rfl, rfl⟩
    | some r =>
      refine ⟨key _ rfl fun q hq => ?_, rfl⟩
      refine getD_set_ne _ _ _ fun e => ?_
      subst e
      exact hab.frames _ (refAt_mem hh) hq
  | frame i j y =>
    refine ⟨key _ ?_ fun q hq => ?_, rfl⟩
    · simp only [act, newArray, Heap.table]
      exact getD_set_ne _ _ _ hab.data
    · exact getD_prefix (List.prefix_append _ _) (hb.frames q hq) _
  | metadata d => exact ⟨rfl, getD_set_ne _ _ _ hab.dict⟩

private theorem apart_run {h : Heap} {a b : Obj} (ha : Live h a) (hb : Live h b) (hab : Apart h a b) (l : List (Bool × Action)) :
    Live (run h a b l) a ∧ Live (run h a b l) b ∧ Apart (run h a b l) a b := by
  induction l generalizing h with
  | nil => exact ⟨ha, hb, hab⟩
  | cons x l ih =>
    obtain ⟨s, x⟩ := x
    show Live (run (act h (if s then a else b) x) a b l) a ∧ _
    cases s with
    | true => exact ih (live_own ha x) (live_other hb hab.data x) (apart_act ha hb hab x)
    | false => exact ih (live_other ha hab.data.symm x) (live_own hb x) (apart_act hb ha hab.symm x).symm

theorem Apart.independent {h : Heap} {a b : Obj} (ha : Live h a) (hb : Live h b) (hab : Apart h a b) : Independent h a b := by
  intro l x _ _
  obtain ⟨h1, h2, h3⟩ := apart_run ha hb hab l
  exact ⟨(view_act h2 h3 x).1, (view_act h2 h3 x).2, (view_act h1 h3.symm x).1, (view_act h1 h3.symm x).2⟩

/-! ### Slices -/

/-- A new dictionary has the given contents, at an address without a dictionary before, and no other dictionary changes. -/
theorem newDict_spec (h : Heap) (d : List (String × Int)) :
    (newDict h d).2.dict (newDict h d).1 = d ∧ h.dicts.length ≤ (newDict h d).1 ∧
    ∀ r, r < h.dicts.length → (newDict h d).2.dict r = h.dict r := by
  refine ⟨by simp [newDict, Heap.dict, List.getD_eq_getElem?_getD], Nat.le_refl _, fun r hr => ?_⟩
  simp [newDict, Heap.dict, List.getD_eq_getElem?_getD, List.getElem?_append_left hr]

/-- The constructor with new arrays of events. -/
private theorem construct_spec {h₀ h h' : Heap} {rows : List (List Ref)} {a a' b : Obj} (ha : Live h₀ a) (hx : Ext h₀ h)
    (ht : h.tables = h₀.tables) (hd : h.dicts = h₀.dicts)
    (hrows : ∀ r ∈ rows.flatten, h₀.arrays.length ≤ r ∧ r < h.arrays.length) (hc : construct h rows a' = .ok (b, h')) :
    Ext h₀ h' ∧ Live h' b ∧ Apart h' a b ∧ h'.dict b.metadata = [] := by
  unfold construct at hc
  simp only [newTable, newDict] at hc
  split at hc
  · cases hc
    have hx' : Ext h₀ { h with tables := h.tables ++ [rows], dicts := h.dicts ++ [[]] } :=
      hx.trans ⟨List.prefix_refl _, List.prefix_append _ _, List.prefix_append _ _⟩
    have hrefs : ∀ (b : Obj), b.data = h.tables.length →
        refs { h with tables := h.tables ++ [rows], dicts := h.dicts ++ [[]] } b = rows.flatten := by
      intro b hb
      simp [refs, hb, Heap.table, List.getD_eq_getElem?_getD]
    refine ⟨hx', ⟨by simp, by simp, ?_⟩, ⟨?_, ?_, ?_⟩, by simp [Heap.dict, List.getD_eq_getElem?_getD]⟩
    · intro r hr
      rw [hrefs _ rfl] at hr
      exact (hrows r hr).2
    · show a.data ≠ h.tables.length
      rw [ht]; exact Nat.ne_of_lt ha.data
    · show a.metadata ≠ h.dicts.length
      rw [hd]; exact Nat.ne_of_lt ha.dict
    · intro r hr hr'
      rw [hrefs _ rfl] at hr'
      rw [hx'.refs ha] at hr
      exact Nat.lt_irrefl _ (Nat.lt_of_lt_of_le (ha.frames r hr) (hrows r hr').1)
  · cases hc

private theorem construct_view {h : Heap} {rows : List (List Ref)} {a' : Obj} :
    ((construct h rows a').bind fun x => .ok (view x.2 x.1)) =
      SparseArray.init { view h a' with data := rows.map fun row => row.map h.array } := by
  unfold construct SparseArray.init
  simp only [newTable, newDict, List.length_map]
  by_cases hl : rows.length = prod a'.scanShape
  · rw [if_pos hl, if_pos (show rows.length = prod (view h a').scanShape from hl)]
    simp only [Outcome.bind, view, Heap.table]
    simp [List.getD_eq_getElem?_getD]
    intro _ _ _ _; rfl
  · rw [if_neg hl, if_neg (show ¬ rows.length = prod (view h a').scanShape from hl)]
    rfl

private theorem selectRefs_mem {h : Heap} {a : Obj} (ss : Option Sel) {rs : List (List Ref)} (hs : selectRefs h a ss = .ok rs) :
    ∀ r ∈ rs.flatten, r ∈ refs h a := by
  intro r hr
  obtain ⟨row, hrow, hr⟩ := List.mem_flatten.1 hr
  refine List.mem_flatten.2 ⟨row, ?_, hr⟩
  cases ss with
  | none => cases hs; exact hrow
  | some s => exact gather_mem hs row hrow

private theorem newRows_mem {h : Heap} {l : List (List (List Nat))} :
    ∀ r ∈ (newRows h l).1.flatten, h.arrays.length ≤ r ∧ r < (newRows h l).2.arrays.length := by
  intro r hr
  obtain ⟨h1, _, h3⟩ := newRows_spec h l
  rw [h3] at hr
  rw [h1]
  simpa using List.mem_range'_1.1 hr

private theorem memo_nil (h : Heap) : Memo h.arrays.length [] h :=
  ⟨Nat.le_refl _, by simp, by simp, by simp⟩

private theorem sliceSparseSel_independent {h h' : Heap} {a b : Obj} (ha : Live h a) {ss fs : Option Sel}
    (hs : sliceSparseSel h a ss fs = .ok (b, h')) : Ext h h' ∧ Live h' b ∧ Apart h' a b ∧ h'.dict b.metadata = [] := by
  unfold sliceSparseSel at hs
  cases hr : selectRefs h a ss with
  | throw e => rw [hr] at hs; cases hs
  | ub => rw [hr] at hs; cases hs
  | ok rs =>
    rw [hr] at hs
    simp only [Outcome.ok_bind] at hs
    cases fs with
    | none =>
      have hm := copyRows_spec (memo_nil h) (fun r hrr => ha.frames r (selectRefs_mem ss hr r hrr))
      exact construct_spec ha hm.1 hm.2.2.1 hm.2.2.2.1 hm.2.2.2.2.1 hs
    | some f =>
      simp only at hs
      cases hmap : frameMap (prod a.frameShape) f.idx with
      | throw e => rw [hmap] at hs; cases hs
      | ub => rw [hmap] at hs; cases hs
      | ok m =>
        rw [hmap] at hs
        simp only [Outcome.ok_bind] at hs
        cases hd : (rs.mapM fun row => row.mapM fun r => mapFrame m (h.array r)) with
        | throw e => rw [hd] at hs; cases hs
        | ub => rw [hd] at hs; cases hs
        | ok d =>
          rw [hd] at hs
          simp only [Outcome.ok_bind] at hs
          exact construct_spec ha (newRows_ext h d) (by rw [(newRows_spec h d).1]) (by rw [(newRows_spec h d).1]) newRows_mem hs

private theorem sliceSparseSel_view {h : Heap} {a : Obj} (ha : Live h a) (ss fs : Option Sel) :
    ((sliceSparseSel h a ss fs).bind fun x => .ok (view x.2 x.1)) = Sparse.sliceSparseSel (view h a) ss fs := by
  have hsel : selectRows (view h a) ss = (selectRefs h a ss).bind fun l => .ok (l.map fun row => row.map h.array) := by
    cases ss with
    | none => rfl
    | some s => exact gather_map _ _ _
  unfold sliceSparseSel Sparse.sliceSparseSel
  rw [hsel]
  cases hr : selectRefs h a ss with
  | throw e => rfl
  | ub => rfl
  | ok rs =>
    simp only [Outcome.ok_bind, Outcome.bind]
    cases fs with
    | none =>
      have hm := copyRows_spec (memo_nil h) (fun r hrr => ha.frames r (selectRefs_mem ss hr r hrr))
      have hv := construct_view (h := (copyRows [] h rs).2.2) (rows := (copyRows [] h rs).1)
        (a' := { a with scanShape := (ss.map Sel.shape).getD a.scanShape })
      rw [hm.2.2.2.2.2] at hv
      exact hv
    | some f =>
      show (Outcome.bind (Outcome.bind (frameMap (prod a.frameShape) f.idx) _) _) = Outcome.bind (frameMap (prod a.frameShape) f.idx) _
      cases hmap : frameMap (prod a.frameShape) f.idx with
      | throw e => rfl
      | ub => rfl
      | ok m =>
        have hd : ((rs.map fun row => row.map h.array).mapM fun frames => frames.mapM fun frame => mapFrame m frame) =
            rs.mapM fun row => row.mapM fun r => mapFrame m (h.array r) := by
          rw [mapM_map]
          congr 1
          funext row
          rw [mapM_map]
        simp only [Outcome.bind]
        show _ = Outcome.bind (List.mapM (fun frames => List.mapM (fun frame => mapFrame m frame) frames) _) _
        rw [hd]
        show Outcome.bind (Outcome.bind (rs.mapM fun row => row.mapM fun r => mapFrame m (h.array r)) _) _ = _
        cases (rs.mapM fun row => row.mapM fun r => mapFrame m (h.array r)) with
        | throw e => rfl
        | ub => rfl
        | ok d =>
          have hv := construct_view (h := (newRows h d).2) (rows := (newRows h d).1)
            (a' := { a with scanShape := (ss.map Sel.shape).getD a.scanShape, frameShape := f.shape })
          rw [(newRows_spec h d).2.1] at hv
          exact hv

/-- The values are those of `Model/SparseArray`, for which C44 and C49 are proved. -/
theorem C79_values {h : Heap} {a : Obj} (ha : Live h a) (key : List Item) :
    ((getitem h a key).bind fun x => .ok (x.1.value x.2)) = Sparse.getitem (view h a) key := by
  have hdense : ∀ scan frame, (((sliceDense (view h a) scan frame).bind fun x => Outcome.ok (Result.dense x, h)).bind
      fun x => Outcome.ok (x.1.value x.2)) = (sliceDense (view h a) scan frame).bind fun x => .ok (.dense x) := by
    intro scan frame
    cases sliceDense (view h a) scan frame <;> rfl
  unfold getitem Sparse.getitem
  cases hs : splitSlices (view h a) key with
  | throw e => rfl
  | ub => rfl
  | ok p =>
    obtain ⟨scan, frame⟩ := p
    simp only [Outcome.ok_bind]
    show (Outcome.bind (if a.sparseSlicing = true then _ else _) _) = if a.sparseSlicing = true then _ else _
    cases hsp : a.sparseSlicing with
    | false => simpa using hdense scan frame
    | true =>
      simp only [if_true]
      unfold sliceSparse Sparse.sliceSparse
      show (Outcome.bind (Outcome.bind (modified a.scanShape scan) _) _) = Outcome.bind (modified a.scanShape scan) _
      cases modified a.scanShape scan with
      | throw e => rfl
      | ub => rfl
      | ok ss =>
        simp only [Outcome.bind]
        cases h1 : ss.any fun s => s.shape.isEmpty with
        | true => exact hdense scan frame
        | false =>
          simp only [Bool.false_eq_true, if_false]
          show (Outcome.bind (Outcome.bind (modified a.frameShape frame) _) _) = Outcome.bind (modified a.frameShape frame) _
          cases modified a.frameShape frame with
          | throw e => rfl
          | ub => rfl
          | ok fs =>
            simp only [Outcome.bind]
            cases h2 : fs.any fun s => s.shape.isEmpty with
            | true => exact hdense scan frame
            | false =>
              simp only [Bool.false_eq_true, if_false]
              rw [← sliceSparseSel_view ha ss fs]
              cases sliceSparseSel h a ss fs <;> rfl

/-- A slice never changes the array, and a sparse one shares nothing with it. -/
theorem C79_slice {h h' : Heap} {a : Obj} (ha : Live h a) {key : List Item} {r : Result} (hg : getitem h a key = .ok (r, h')) :
    view h' a = view h a ∧ h'.dict a.metadata = h.dict a.metadata ∧ ∀ b, r = .sparse b → Independent h' a b := by
  suffices hmain : Ext h h' ∧ ∀ b, r = .sparse b → Live h' b ∧ Apart h' a b from
    ⟨hmain.1.view ha, hmain.1.dict ha.dict, fun b hb =>
      Apart.independent (hmain.1.live ha) (hmain.2 b hb).1 (hmain.2 b hb).2⟩
  have hdense : ∀ scan frame, ((sliceDense (view h a) scan frame).bind fun x => Outcome.ok (Result.dense x, h)) = .ok (r, h') →
      Ext h h' ∧ ∀ b, r = .sparse b → Live h' b ∧ Apart h' a b := by
    intro scan frame hd
    cases hx : sliceDense (view h a) scan frame with
    | throw e => rw [hx] at hd; cases hd
    | ub => rw [hx] at hd; cases hd
    | ok x => rw [hx] at hd; cases hd; exact ⟨Ext.refl h, fun b hb => by cases hb⟩
  unfold getitem at hg
  cases hs : splitSlices (view h a) key with
  | throw e => rw [hs] at hg; cases hg
  | ub => rw [hs] at hg; cases hg
  | ok p =>
    obtain ⟨scan, frame⟩ := p
    rw [hs] at hg
    simp only [Outcome.ok_bind] at hg
    split at hg
    · unfold sliceSparse at hg
      cases h1 : modified a.scanShape scan with
      | throw e => rw [h1] at hg; cases hg
      | ub => rw [h1] at hg; cases hg
      | ok ss =>
        rw [h1] at hg
        simp only [Outcome.ok_bind] at hg
        split at hg
        · exact hdense _ _ hg
        · cases h2 : modified a.frameShape frame with
          | throw e => rw [h2] at hg; cases hg
          | ub => rw [h2] at hg; cases hg
          | ok fs =>
            rw [h2] at hg
            simp only [Outcome.ok_bind] at hg
            split at hg
            · exact hdense _ _ hg
            · cases h3 : sliceSparseSel h a ss fs with
              | throw e => rw [h3] at hg; cases hg
              | ub => rw [h3] at hg; cases hg
              | ok x =>
                rw [h3] at hg
                cases hg
                obtain ⟨e1, e2, e3, _⟩ := sliceSparseSel_independent ha h3
                exact ⟨e1, fun b hb => by cases hb; exact ⟨e2, e3⟩⟩
    · exact hdense _ _ hg

/-- A sparse slice has no metadata. -/
theorem C79_slice_metadata {h h' : Heap} {a b : Obj} (ha : Live h a) {ss fs : Option Sel}
    (hs : sliceSparseSel h a ss fs = .ok (b, h')) : h'.dict b.metadata = [] :=
  (sliceSparseSel_independent ha hs).2.2.2

/-! ### Binning -/

private theorem bind_ok {α β : Type} {x : Outcome α} {f : α → Outcome β} {y : β} (h : (x >>= f) = .ok y) :
    ∃ z, x = .ok z ∧ f z = .ok y := by
  cases x with
  | ok z => exact ⟨z, rfl, h⟩
  | throw e => cases h
  | ub => cases h

private theorem binFrames_shape {s x : SparseArray} {b : Nat} (h : Sparse.binFrames s b = .ok x) :
    x = { s with data := x.data, numFrames := x.numFrames, frameShape := x.frameShape } ∧ x.data.length = prod s.scanShape := by
  unfold Sparse.binFrames at h
  split at h
  · cases h
  · split at h
    · split at h
      · simp only at h
        split at h
        all_goals
          obtain ⟨k, _, h⟩ := bind_ok h
          obtain ⟨r, _, h⟩ := bind_ok h
          unfold SparseArray.init at h
          split at h
          · rename_i hl
            cases h
            exact ⟨rfl, hl⟩
          · cases h
      · cases h
    · cases h

/-- The values of `bin_frames` are those of `Model/SparseArray`, for which C43 is proved, in place and not in place. -/
theorem C79_bin_frames_values (h : Heap) (a : Obj) (b : Nat) (inPlace : Bool) :
    ((binFrames h a b inPlace).bind fun x => .ok (view x.2 x.1)) = Sparse.binFrames (view h a) b := by
  unfold binFrames
  cases hx : Sparse.binFrames (view h a) b with
  | throw e => rfl
  | ub => rfl
  | ok x =>
    obtain ⟨h1, h2⟩ := binFrames_shape hx
    obtain ⟨_, hrows, _⟩ := newRows_spec h x.data
    simp only [Outcome.ok_bind]
    cases inPlace with
    | true =>
      simp only [if_true, Outcome.bind, newTable]
      rw [h1]
      simp only [view, Heap.table, List.getD_eq_getElem?_getD]
      simp
      exact hrows
    | false =>
      simp only [Bool.false_eq_true, if_false]
      have hv := construct_view (h := (newRows h x.data).2) (rows := (newRows h x.data).1)
        (a' := { a with numFrames := x.numFrames, frameShape := x.frameShape })
      rw [hrows] at hv
      refine hv.trans ?_
      rw [h1]
      unfold SparseArray.init
      rw [if_pos]
      · rfl
      · exact h2

/-- An array with binned frames that is not made in place shares nothing with the array, and the array is unchanged. -/
theorem C79_bin_frames {h h' : Heap} {a c : Obj} (ha : Live h a) {b : Nat} (hb : binFrames h a b false = .ok (c, h')) :
    view h' a = view h a ∧ h'.dict a.metadata = h.dict a.metadata ∧ Independent h' a c := by
  unfold binFrames at hb
  obtain ⟨x, _, hb⟩ := bind_ok hb
  simp only [Bool.false_eq_true, if_false] at hb
  obtain ⟨e1, e2, e3, _⟩ := construct_spec ha (newRows_ext h x.data) (by rw [(newRows_spec h x.data).1])
    (by rw [(newRows_spec h x.data).1]) newRows_mem hb
  exact ⟨e1.view ha, e1.dict ha.dict, Apart.independent (e1.live ha) e2 e3⟩

private theorem mapM_length {α β : Type} {g : α → Outcome β} {l : List α} {x : List β} (h : l.mapM g = .ok x) :
    x.length = l.length := by
  induction l generalizing x with
  | nil => cases h; rfl
  | cons i l ih =>
    simp only [List.mapM_cons] at h
    obtain ⟨y, _, h⟩ := bind_ok h
    obtain ⟨z, hz, h⟩ := bind_ok h
    cases h
    simp [ih hz]

private theorem binnedRefs_length {h : Heap} {a : Obj} {b : Nat} {x : List (List Ref) × List Nat}
    (hx : binnedRefs h a b = .ok x) : x.1.length = prod x.2 := by
  unfold binnedRefs at hx
  split at hx
  · cases hx
  · split at hx
    · split at hx
      · obtain ⟨rows, hr, hx⟩ := bind_ok hx
        cases hx
        have h1 := mapM_length hr
        have h2 := mapM_forall (P := fun y => y.length = _) (fun i y hy => mapM_length hy) hr
        simp only [List.length_range] at h1 h2
        rw [List.length_flatten]
        rw [List.map_congr_left h2]
        simp [h1, prod]
      · cases hx
    · cases hx

private theorem binnedRefs_mem {h : Heap} {a : Obj} {b : Nat} {x : List (List Ref) × List Nat}
    (hx : binnedRefs h a b = .ok x) : ∀ r ∈ x.1.flatten, r ∈ refs h a := by
  unfold binnedRefs at hx
  split at hx
  · cases hx
  · split at hx
    · split at hx
      · obtain ⟨rows, hr, hx⟩ := bind_ok hx
        cases hx
        have h2 := mapM_forall (P := fun y => ∀ row ∈ y, ∀ r ∈ row, r ∈ refs h a) (fun i y hy => by
          refine mapM_forall (P := fun row => ∀ r ∈ row, r ∈ refs h a) (fun j row hrow => ?_) hy
          obtain ⟨g, hg, hrow⟩ := bind_ok hrow
          cases hrow
          intro r hr
          obtain ⟨q, hq, hr⟩ := List.mem_flatten.1 hr
          exact List.mem_flatten.2 ⟨q, gather_mem hg q hq, hr⟩) hr
        intro r hr
        obtain ⟨row, hrow, hr⟩ := List.mem_flatten.1 hr
        obtain ⟨y, hy, hrow⟩ := List.mem_flatten.1 hrow
        exact h2 y hy row hrow r hr
      · cases hx
    · cases hx

/-- The values of `bin_scans` are those of `Model/SparseArray`, for which C42 is proved, in place and not in place. -/
theorem C79_bin_scans_values (h : Heap) (a : Obj) (b : Nat) (inPlace : Bool) :
    ((binScans h a b inPlace).bind fun x => .ok (view x.2 x.1)) = Sparse.binScans (view h a) b := by
  have hpure : Sparse.binScans (view h a) b = (binnedRefs h a b).bind fun x => SparseArray.init { view h a with
      data := x.1.map fun row => row.map h.array, numFrames := b ^ 2 * a.numFrames, scanShape := x.2 } := by
    unfold Sparse.binScans binnedRefs
    by_cases hb : b = 0
    · rw [if_pos hb, if_pos hb]; rfl
    rw [if_neg hb, if_neg hb]
    by_cases hall : a.scanShape.all (fun x => x % b = 0) = true
    swap
    · rw [if_neg hall, if_neg (show ¬ (view h a).scanShape.all (fun x => x % b = 0) = true from hall)]; rfl
    rw [if_pos hall, if_pos (show (view h a).scanShape.all (fun x => x % b = 0) = true from hall)]
    clear hall
    obtain ⟨data, numFrames, scanShape, frameShape, slicing, full, dict⟩ := a
    rcases scanShape with _ | ⟨n, _ | ⟨w, _ | ⟨_, _⟩⟩⟩
    · rfl
    · rfl
    · have hrow : ∀ i ∈ List.range (n / b), ((List.range (w / b)).mapM fun j => do
          let rows ← gather ((h.table data).map fun row => row.map h.array)
            ((List.range b).flatMap fun u => (List.range b).map fun v => (i * b + u) * w + (j * b + v))
          Outcome.ok rows.flatten) = ((List.range (w / b)).mapM fun j => do
          let rows ← gather (h.table data)
            ((List.range b).flatMap fun u => (List.range b).map fun v => (i * b + u) * w + (j * b + v))
          Outcome.ok rows.flatten).bind fun y => .ok (y.map fun (row : List Ref) => row.map h.array) := by
        intro i _
        refine mapM_bind fun j _ => ?_
        rw [gather_map]
        cases gather (h.table data) _ with
        | ok g => simp [Outcome.bind, List.map_flatten]
        | throw e => rfl
        | ub => rfl
      simp only [view]
      rw [mapM_bind hrow]
      cases (List.range (n / b)).mapM fun i => (List.range (w / b)).mapM fun j => do
          let rows ← gather (h.table data)
            ((List.range b).flatMap fun u => (List.range b).map fun v => (i * b + u) * w + (j * b + v))
          Outcome.ok rows.flatten with
      | ok g => simp [Outcome.bind, List.map_flatten]
      | throw e => rfl
      | ub => rfl
    · rfl
  rw [hpure]
  unfold binScans
  cases hx : binnedRefs h a b with
  | throw e => rfl
  | ub => rfl
  | ok x =>
    have hlen := binnedRefs_length hx
    simp only [Outcome.ok_bind, Outcome.bind]
    cases inPlace with
    | true =>
      simp only [if_true, newTable]
      unfold SparseArray.init
      rw [if_pos (by simpa using hlen)]
      simp only [view, Heap.table, List.getD_eq_getElem?_getD]
      simp
      intro _ _ _ _; rfl
    | false =>
      simp only [Bool.false_eq_true, if_false]
      exact construct_view (a' := { a with numFrames := b ^ 2 * a.numFrames, scanShape := x.2 })

/-- In place or not, the same array of events and shapes results, or the same exception. -/
theorem C79_in_place (h : Heap) (a : Obj) (b : Nat) :
    ((binScans h a b true).bind fun x => .ok (view x.2 x.1)) = ((binScans h a b false).bind fun x => .ok (view x.2 x.1)) ∧
      ((binFrames h a b true).bind fun x => .ok (view x.2 x.1)) = ((binFrames h a b false).bind fun x => .ok (view x.2 x.1)) := by
  simp only [C79_bin_scans_values, C79_bin_frames_values, and_self]

/-- In place the metadata is kept, otherwise there is none. -/
theorem C79_metadata_false {h h₁ h₂ : Heap} {a c₁ c₂ : Obj} (ha : Live h a) (hm : h.dict a.metadata ≠ []) {b : Nat} :
    (binScans h a b true = .ok (c₁, h₁) → binScans h a b false = .ok (c₂, h₂) → h₁.dict c₁.metadata ≠ h₂.dict c₂.metadata) ∧
      (binFrames h a b true = .ok (c₁, h₁) → binFrames h a b false = .ok (c₂, h₂) →
        h₁.dict c₁.metadata ≠ h₂.dict c₂.metadata) := by
  have hc : ∀ {h h₂ : Heap} {rows : List (List Ref)} {a' : Obj}, construct h rows a' = .ok (c₂, h₂) →
      h₂.dict c₂.metadata = [] := by
    intro h h₂ rows a' h2
    unfold construct at h2
    simp only [newTable, newDict] at h2
    split at h2
    · cases h2; simp [Heap.dict, List.getD_eq_getElem?_getD]
    · cases h2
  constructor
  · intro h1 h2
    unfold binScans at h1 h2
    obtain ⟨x, _, h1⟩ := bind_ok h1
    obtain ⟨y, _, h2⟩ := bind_ok h2
    simp only [if_true, newTable] at h1
    simp only [Bool.false_eq_true, if_false] at h2
    rw [hc h2]
    cases h1
    exact hm
  · intro h1 h2
    unfold binFrames at h1 h2
    obtain ⟨x, _, h1⟩ := bind_ok h1
    obtain ⟨y, _, h2⟩ := bind_ok h2
    simp only [if_true, newTable] at h1
    simp only [Bool.false_eq_true, if_false] at h2
    rw [hc h2]
    cases h1
    show (newRows h x.data).2.dict a.metadata ≠ []
    rw [show (newRows h x.data).2.dict a.metadata = h.dict a.metadata from (newRows_ext h x.data).dict ha.dict]
    exact hm

/-- What `bin_scans` makes, when not in place. -/
private theorem binScans_spec {h h' : Heap} {a c : Obj} (ha : Live h a) {b : Nat} (hb : binScans h a b false = .ok (c, h')) :
    Ext h h' ∧ Live h' c ∧ a.data ≠ c.data ∧ a.metadata ≠ c.metadata ∧ ∀ r ∈ refs h' c, r ∈ refs h' a := by
  unfold binScans at hb
  obtain ⟨⟨rows, shape⟩, hx, hb⟩ := bind_ok hb
  simp only [Bool.false_eq_true, if_false] at hb
  unfold construct at hb
  simp only [newTable, newDict] at hb
  split at hb
  · cases hb
    have hx' : Ext h { h with tables := h.tables ++ [rows], dicts := h.dicts ++ [[]] } :=
      ⟨List.prefix_refl _, List.prefix_append _ _, List.prefix_append _ _⟩
    have hrefs : ∀ (b : Obj), b.data = h.tables.length →
        refs { h with tables := h.tables ++ [rows], dicts := h.dicts ++ [[]] } b = rows.flatten := by
      intro b hb
      simp [refs, hb, Heap.table, List.getD_eq_getElem?_getD]
    refine ⟨hx', ⟨by simp, by simp, ?_⟩, Nat.ne_of_lt ha.data, Nat.ne_of_lt ha.dict, ?_⟩
    · intro r hr
      rw [hrefs _ rfl] at hr
      exact ha.frames r (binnedRefs_mem hx r hr)
    · intro r hr
      rw [hrefs _ rfl] at hr
      rw [hx'.refs ha]
      exact binnedRefs_mem hx r hr
  · cases hb

/-- **Violation**: whenever the binned array has a frame at all, writing events into it is seen in the array, and the other way
round. -/
theorem C79_bin_scans_false {h h' : Heap} {a c : Obj} (ha : Live h a) {b : Nat} (hb : binScans h a b false = .ok (c, h'))
    (hne : refs h' c ≠ []) : ¬ Independent h' a c := by
  obtain ⟨e1, e2, _, _, e3⟩ := binScans_spec ha hb
  obtain ⟨r, hr⟩ := List.exists_mem_of_ne_nil _ hne
  obtain ⟨row, hrow, hr'⟩ := List.mem_flatten.1 hr
  obtain ⟨i, hi⟩ := List.mem_iff_getElem?.1 hrow
  obtain ⟨j, hj⟩ := List.mem_iff_getElem?.1 hr'
  have hat : refAt h' c i j = some r := by simp [refAt, hi, hj]
  have hlt := e2.frames r hr
  intro hind
  have hv := (hind [] (.events i j (0 :: h'.array r)) (by simp) trivial).2.2.1
  simp only [run, List.foldl_nil, act, hat] at hv
  obtain ⟨row', hrow', hr''⟩ := List.mem_flatten.1 (e3 r hr)
  have hd := congrArg SparseArray.data hv
  simp only [view] at hd
  have hmap := (List.map_inj_left.1 hd) row' hrow'
  have hval := (List.map_inj_left.1 hmap) r hr''
  have hset : ({ h' with arrays := h'.arrays.set r (0 :: h'.array r) } : Heap).array r = 0 :: h'.array r :=
    getD_set_self _ _ _ hlt
  rw [hset] at hval
  simp at hval

private theorem apart_run_for {h : Heap} {a b : Obj} (ha : Live h a) (hb : Live h b) (hd : a.data ≠ b.data)
    (l : List (Bool × Action)) : Live (run h a b l) a ∧ Live (run h a b l) b := by
  induction l generalizing h with
  | nil => exact ⟨ha, hb⟩
  | cons x l ih =>
    obtain ⟨s, x⟩ := x
    show Live (run (act h (if s then a else b) x) a b l) a ∧ _
    cases s with
    | true => exact ih (live_own ha x) (live_other hb hd x)
    | false => exact ih (live_other ha hd.symm x) (live_own hb x)

private theorem view_act_for {h : Heap} {a b : Obj} (hb : Live h b) (hd : a.data ≠ b.data) (hm : a.metadata ≠ b.metadata)
    (x : Action) (hx : ∀ i j y, x ≠ .events i j y) :
    view (act h a x) b = view h b ∧ (act h a x).dict b.metadata = h.dict b.metadata := by
  cases x with
  | events i j y => exact absurd rfl (hx i j y)
  | frame i j y =>
    refine ⟨?_, rfl⟩
    unfold view
    rw [view_data_congr (h := h), show (act h a (.frame i j y)).table b.data = h.table b.data from getD_set_ne _ _ _ hd]
    intro r hr
    rw [show (act h a (.frame i j y)).table b.data = h.table b.data from getD_set_ne _ _ _ hd] at hr
    exact getD_prefix (List.prefix_append _ _) (hb.frames r hr) _
  | metadata d => exact ⟨rfl, getD_set_ne _ _ _ hm⟩

/-- `bin_scans`, when not in place, does not change the array, and what is not written into the arrays of events (frames that are
replaced, the metadata) is not shared. Missing: the events themselves, see `C79_bin_scans_false`. -/
theorem C79_bin_scans_partial {h h' : Heap} {a c : Obj} (ha : Live h a) {b : Nat} (hb : binScans h a b false = .ok (c, h')) :
    view h' a = view h a ∧ h'.dict a.metadata = h.dict a.metadata ∧
      IndependentFor (fun x => ∀ i j y, x ≠ .events i j y) h' a c := by
  obtain ⟨e1, e2, hd, hm, _⟩ := binScans_spec ha hb
  refine ⟨e1.view ha, e1.dict ha.dict, fun l x _ hx => ?_⟩
  obtain ⟨h1, h2⟩ := apart_run_for (e1.live ha) e2 hd l
  exact ⟨(view_act_for h2 hd hm x hx).1, (view_act_for h2 hd hm x hx).2,
    (view_act_for h1 hd.symm hm.symm x hx).1, (view_act_for h1 hd.symm hm.symm x hx).2⟩

/-! ### The frames of one array -/

/-- The events of the frame `data[i, j]`. -/
def eventsAt (h : Heap) (a : Obj) (i j : Nat) : Option (List Nat) := (view h a).data[i]?.bind fun row => row[j]?

/-- Writing the events of a frame changes no other frame. -/
def OwnFrames (h : Heap) (a : Obj) : Prop :=
  ∀ i j i' j' x, (i, j) ≠ (i', j') → eventsAt (act h a (.events i j x)) a i' j' = eventsAt h a i' j'

private theorem eventsAt_eq (h : Heap) (a : Obj) (i j : Nat) : eventsAt h a i j = (refAt h a i j).map h.array := by
  unfold eventsAt refAt view
  simp only [List.getElem?_map]
  cases (h.table a.data)[i]? <;> simp

private theorem refAt_unique {h : Heap} {a : Obj} (hn : (refs h a).Nodup) {i j i' j' : Nat} {r : Ref}
    (h1 : refAt h a i j = some r) (h2 : refAt h a i' j' = some r) : i = i' ∧ j = j' := by
  unfold refAt at h1 h2
  cases hr : (h.table a.data)[i]? with
  | none => simp [hr] at h1
  | some row =>
    cases hr' : (h.table a.data)[i']? with
    | none => simp [hr'] at h2
    | some row' =>
      simp only [hr, hr', Option.bind_some] at h1 h2
      unfold refs at hn
      rw [List.nodup_flatten] at hn
      have hii : i = i' := by
        obtain ⟨hi, rfl⟩ := List.getElem?_eq_some_iff.1 hr
        obtain ⟨hi', rfl⟩ := List.getElem?_eq_some_iff.1 hr'
        have hp := List.pairwise_iff_getElem.1 hn.2
        rcases Nat.lt_trichotomy i i' with hlt | heq | hgt
        · exact absurd (List.mem_of_getElem? h2) (fun hm => hp i i' hi hi' hlt (List.mem_of_getElem? h1) hm)
        · exact heq
        · exact absurd (List.mem_of_getElem? h1) (fun hm => hp i' i hi' hi hgt (List.mem_of_getElem? h2) hm)
      subst hii
      rw [hr] at hr'
      cases hr'
      refine ⟨rfl, ?_⟩
      obtain ⟨hj, e1⟩ := List.getElem?_eq_some_iff.1 h1
      obtain ⟨hj', e2⟩ := List.getElem?_eq_some_iff.1 h2
      exact (List.Nodup.getElem_inj_iff (hn.1 row (List.mem_of_getElem? hr))).1 (e1.trans e2.symm)

private theorem ownFrames {h : Heap} {a : Obj} (hn : (refs h a).Nodup) : OwnFrames h a := by
  intro i j i' j' x hne
  simp only [act]
  cases hr : refAt h a i j with
  | none => rfl
  | some r =>
    rw [eventsAt_eq, eventsAt_eq]
    show Option.map _ (refAt h a i' j') = _
    cases hr' : refAt h a i' j' with
    | none => rfl
    | some r' =>
      simp only [Option.map_some, Option.some.injEq]
      refine getD_set_ne _ _ _ fun e => hne ?_
      subst e
      obtain ⟨rfl, rfl⟩ := refAt_unique hn hr hr'
      rfl

/-- Nothing is found in the memo when all the references are different. -/
private theorem copyRow_nodup {memo : List (Ref × Ref)} {h : Heap} {row : List Ref} (hn : row.Nodup)
    (hm : ∀ r ∈ row, memo.lookup r = none) :
    (copyRow memo h row).1 = List.range' h.arrays.length row.length ∧
      (copyRow memo h row).2.2.arrays.length = h.arrays.length + row.length ∧
      ∀ r, r ∉ row → (copyRow memo h row).2.1.lookup r = memo.lookup r := by
  induction row generalizing memo h with
  | nil => simp [copyRow]
  | cons x row ih =>
    rw [List.nodup_cons] at hn
    have hc : copyRef memo h x = (h.arrays.length, (x, h.arrays.length) :: memo, (newArray h (h.array x)).2) := by
      unfold copyRef
      rw [hm x (by simp)]
      rfl
    have hl : ∀ r, r ≠ x → List.lookup r ((x, h.arrays.length) :: memo) = memo.lookup r := by
      intro r hr
      rw [List.lookup_cons, show (r == x) = false from beq_false_of_ne hr]
    obtain ⟨h1, h2, h3⟩ := ih (memo := (x, h.arrays.length) :: memo) (h := (newArray h (h.array x)).2) hn.2 (fun r hr => by
      rw [hl r (fun e => hn.1 (e ▸ hr))]; exact hm r (by simp [hr]))
    simp only [copyRow, hc]
    refine ⟨?_, ?_, ?_⟩
    · rw [h1]; simp [newArray, List.range'_succ]
    · rw [h2]; simp [newArray]; omega
    · intro r hr
      simp only [List.mem_cons, not_or] at hr
      rw [h3 r hr.2, hl r hr.1]

private theorem copyRows_nodup {memo : List (Ref × Ref)} {h : Heap} {rows : List (List Ref)} (hn : rows.flatten.Nodup)
    (hm : ∀ r ∈ rows.flatten, memo.lookup r = none) :
    (copyRows memo h rows).1.flatten = List.range' h.arrays.length rows.flatten.length := by
  induction rows generalizing memo h with
  | nil => simp [copyRows]
  | cons x rows ih =>
    rw [List.flatten_cons, List.nodup_append] at hn
    obtain ⟨h1, h2, h3⟩ := copyRow_nodup (memo := memo) (h := h) hn.1
      (fun r hr => hm r (by rw [List.flatten_cons]; exact List.mem_append_left _ hr))
    have hr := ih (memo := (copyRow memo h x).2.1) (h := (copyRow memo h x).2.2) hn.2.1 (fun r hr => by
      rw [h3 r (fun e => hn.2.2 r e r hr rfl)]
      exact hm r (by rw [List.flatten_cons]; exact List.mem_append_right _ hr))
    simp only [copyRows, List.flatten_cons]
    rw [hr, h1, h2, List.length_append, List.range'_append_1]

private theorem selectRefs_nodup {h : Heap} {a : Obj} {ss : Option Sel} {rs : List (List Ref)} (hn : (refs h a).Nodup)
    (hs : ∀ s ∈ ss, s.idx.Nodup) (hr : selectRefs h a ss = .ok rs) : rs.flatten.Nodup := by
  cases ss with
  | none => cases hr; exact hn
  | some s =>
    simp only [selectRefs] at hr
    have hin : ∀ i ∈ s.idx, i < (h.table a.data).length := by
      intro i hi
      apply Classical.byContradiction
      intro hlt
      rw [gather_throw _ _ ⟨i, hi, Nat.le_of_not_lt hlt⟩] at hr
      cases hr
    rw [gather_ok _ _ [] hin] at hr
    cases hr
    unfold refs at hn
    rw [List.nodup_flatten] at hn ⊢
    constructor
    · intro l hl
      obtain ⟨i, hi, rfl⟩ := List.mem_map.1 hl
      exact hn.1 _ (getD_mem _ _ _ (hin i hi))
    · rw [List.pairwise_map]
      refine List.Pairwise.imp_of_mem ?_ (hs s rfl)
      intro i j hi hj hne
      have hp := List.pairwise_iff_getElem.1 hn.2
      have hi' := hin i hi
      have hj' := hin j hj
      simp only [List.getD_eq_getElem?_getD, List.getElem?_eq_getElem hi', List.getElem?_eq_getElem hj', Option.getD_some]
      rcases Nat.lt_or_gt_of_ne hne with hlt | hgt
      · exact hp i j hi' hj' hlt
      · exact fun r h1 h2 => hp j i hj' hi' hgt h2 h1

private theorem construct_refs {h h' : Heap} {rows : List (List Ref)} {a' b : Obj} (hc : construct h rows a' = .ok (b, h')) :
    refs h' b = rows.flatten := by
  unfold construct at hc
  simp only [newTable, newDict] at hc
  split at hc
  · cases hc
    simp [refs, Heap.table, List.getD_eq_getElem?_getD]
  · cases hc

/-- A slice that selects no scan position twice has frames of its own, and so has one that selects pixels. -/
theorem sliceSparseSel_own {h h' : Heap} {a b : Obj} {ss fs : Option Sel} (hd : fs.isSome ∨ (refs h a).Nodup ∧ ∀ s ∈ ss, s.idx.Nodup)
    (hs : sliceSparseSel h a ss fs = .ok (b, h')) : OwnFrames h' b := by
  apply ownFrames
  unfold sliceSparseSel at hs
  obtain ⟨rs, hr, hs⟩ := bind_ok hs
  cases fs with
  | none =>
    simp only [Option.isSome_none, Bool.false_eq_true, false_or] at hd
    simp only at hs
    rw [construct_refs hs, copyRows_nodup (selectRefs_nodup hd.1 hd.2 hr) (by simp)]
    exact List.nodup_range'
  | some f =>
    simp only at hs
    obtain ⟨m, _, hs⟩ := bind_ok hs
    obtain ⟨d, _, hs⟩ := bind_ok hs
    rw [construct_refs hs, (newRows_spec h d).2.2]
    exact List.nodup_range'

private theorem splitSlices_mem {s : SparseArray} {key scan frame : List Item} (h : splitSlices s key = .ok (scan, frame)) :
    ∀ it ∈ scan, it ∈ key := by
  unfold splitSlices at h
  split at h
  · cases h; simp
  · rename_i first rest
    simp only at h
    repeat' split at h
    all_goals first
      | cases h; done
      | cases h
        intro it hit
        first
          | exact hit
          | (rcases List.mem_cons.1 hit with rfl | hit
             · simp
             · exact List.mem_cons_of_mem _ (List.mem_of_mem_take hit))
          | (rw [List.mem_singleton] at hit; subst hit; simp)

/-- A slice without arrays of indexes has frames of its own, if the array has. -/
theorem C79_own_frames {h h' : Heap} {a b : Obj} {key : List Item} (hn : (refs h a).Nodup) (hk : ∀ it ∈ key, ∀ l, it ≠ .ints l)
    (hg : getitem h a key = .ok (.sparse b, h')) : OwnFrames h' b := by
  have hdense : ∀ scan frame, ((sliceDense (view h a) scan frame).bind fun x => Outcome.ok (Result.dense x, h)) ≠
      .ok (.sparse b, h') := by
    intro scan frame hd
    cases hx : sliceDense (view h a) scan frame with
    | throw e => rw [hx] at hd; cases hd
    | ub => rw [hx] at hd; cases hd
    | ok x => rw [hx] at hd; cases hd
  unfold getitem at hg
  obtain ⟨⟨scan, frame⟩, hs, hg⟩ := bind_ok hg
  simp only at hg
  split at hg
  · unfold sliceSparse at hg
    obtain ⟨ss, h1, hg⟩ := bind_ok hg
    split at hg
    · exact absurd hg (hdense _ _)
    · obtain ⟨fs, h2, hg⟩ := bind_ok hg
      split at hg
      · exact absurd hg (hdense _ _)
      · cases h3 : sliceSparseSel h a ss fs with
        | throw e => rw [h3] at hg; cases hg
        | ub => rw [h3] at hg; cases hg
        | ok x =>
          rw [h3] at hg
          cases hg
          refine sliceSparseSel_own (.inr ⟨hn, fun s hss => ?_⟩) h3
          cases hss
          unfold modified at h1
          split at h1
          · cases h4 : selection a.scanShape scan with
            | throw e => rw [h4] at h1; cases h1
            | ub => rw [h4] at h1; cases h1
            | ok s' =>
              rw [h4] at h1
              cases h1
              exact (C45_selection _ _ _ h4).2.2.2 fun it hit => hk it (splitSlices_mem hs it hit)
          · cases h1
  · exact absurd hg (hdense _ _)

/-! ### Examples -/

private def exampleHeap : Heap := ⟨[[0, 3], [1], [2], [0, 1]], [[[0], [1], [2], [3]]], [[("exposure", 5)]]⟩
private def exampleArray : Obj := { data := 0, numFrames := 1, scanShape := [2, 2], frameShape := [2, 2], metadata := 0 }

private theorem example_live : Live exampleHeap exampleArray := ⟨by decide, by decide, by decide⟩

/-- The data of a result. -/
private def dataOf (x : Outcome (Result × Heap)) : Option (List (List (List Nat))) :=
  match x with
  | .ok (.sparse b, h) => some (view h b).data
  | _ => none

/-- The data of a result after an action on it. -/
private def dataAfter (x : Outcome (Result × Heap)) (y : Action) : Option (List (List (List Nat))) :=
  match x with
  | .ok (.sparse b, h) => some (view (act h b y) b).data
  | _ => none

/-- **Violation**: with an index that is given twice, writing the events of a frame changes another frame. (The dense array
has a copy of the frame for each index.) -/
theorem C79_repeated_false : ∃ (h h' : Heap) (a b : Obj) (key : List Item), Live h a ∧ (refs h a).Nodup ∧
    getitem h a key = .ok (.sparse b, h') ∧ ¬ OwnFrames h' b := by
  refine ⟨exampleHeap, _, exampleArray, _, [.ints [0, 0]], example_live, by decide, rfl, fun hown => ?_⟩
  have := hown 0 0 2 0 [7] (by decide)
  revert this
  decide

example : dataOf (getitem exampleHeap exampleArray [.ints [0, 0]]) = some [[[0, 3]], [[1]], [[0, 3]], [[1]]] := by decide
example : dataAfter (getitem exampleHeap exampleArray [.ints [0, 0]]) (.events 0 0 [7]) = some [[[7]], [[1]], [[7]], [[1]]] := by
  decide
example : dataAfter (getitem exampleHeap exampleArray [.int 0, .all, .all, .int 0]) (.events 0 0 [7]) = some [[[7]], [[]]] := by decide

example : ∃ c h', binScans exampleHeap exampleArray 2 false = .ok (c, h') ∧ refs h' c ≠ [] ∧
    (view h' c).data = [[[0, 3], [1], [2], [0, 1]]] ∧
    (view (act h' c (.events 0 1 [2, 3])) exampleArray).data = [[[0, 3]], [[2, 3]], [[2]], [[0, 1]]] :=
  ⟨_, _, rfl, by decide, by decide, by decide⟩

example : ∃ c h', binFrames exampleHeap exampleArray 2 false = .ok (c, h') ∧
    (view h' c).data = [[[0], [0]], [[0], []], [[0], []], [[0], [0]]] ∧ h'.dict c.metadata = [] :=
  ⟨_, _, rfl, by decide, by decide⟩

example : ∃ c h', binFrames exampleHeap exampleArray 2 true = .ok (c, h') ∧ h'.dict c.metadata = [("exposure", 5)] :=
  ⟨_, _, rfl, by decide⟩

end Stempy.Objects
