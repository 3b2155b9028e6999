import Verif.Model.SparseObjects
import Verif.Lemmas.SparseArray

/-! Heaps of arrays: extension, separation. -/

namespace Stempy.Objects
open Numpy Sparse

/-- All references to arrays of events. -/
def refs (h : Heap) (a : Obj) : List Ref := (h.table a.data).flatten

/-- All the objects of `a` exist. -/
structure Live (h : Heap) (a : Obj) : Prop where
  data : a.data < h.tables.length
  dict : a.metadata < h.dicts.length
  frames : ∀ r ∈ refs h a, r < h.arrays.length

/-- No objects in common. -/
structure Apart (h : Heap) (a b : Obj) : Prop where
  data : a.data ≠ b.data
  dict : a.metadata ≠ b.metadata
  frames : ∀ r ∈ refs h a, r ∉ refs h b

theorem Apart.symm {h : Heap} {a b : Obj} (x : Apart h a b) : Apart h b a :=
  ⟨x.data.symm, x.dict.symm, fun r hb ha => x.frames r ha hb⟩

/-- `h'` has the objects of `h`, unchanged, and maybe more. -/
structure Ext (h h' : Heap) : Prop where
  arrays : h.arrays <+: h'.arrays
  tables : h.tables <+: h'.tables
  dicts : h.dicts <+: h'.dicts

theorem Ext.refl (h : Heap) : Ext h h := ⟨List.prefix_refl _, List.prefix_refl _, List.prefix_refl _⟩

theorem Ext.trans {h h' h'' : Heap} (x : Ext h h') (y : Ext h' h'') : Ext h h'' :=
  ⟨x.arrays.trans y.arrays, x.tables.trans y.tables, x.dicts.trans y.dicts⟩

theorem getD_prefix {α : Type} {l l' : List α} (h : l <+: l') {i : Nat} (hi : i < l.length) (d : α) : l'.getD i d = l.getD i d := by
  obtain ⟨t, rfl⟩ := h
  simp [List.getD_eq_getElem?_getD, List.getElem?_append_left hi]

theorem Ext.array {h h' : Heap} (x : Ext h h') {r : Ref} (hr : r < h.arrays.length) : h'.array r = h.array r :=
  getD_prefix x.arrays hr _

theorem Ext.table {h h' : Heap} (x : Ext h h') {r : Ref} (hr : r < h.tables.length) : h'.table r = h.table r :=
  getD_prefix x.tables hr _

theorem Ext.dict {h h' : Heap} (x : Ext h h') {r : Ref} (hr : r < h.dicts.length) : h'.dict r = h.dict r :=
  getD_prefix x.dicts hr _

theorem Ext.refs {h h' : Heap} (x : Ext h h') {a : Obj} (ha : Live h a) : refs h' a = refs h a := by
  unfold Objects.refs; rw [x.table ha.data]

theorem Ext.live {h h' : Heap} (x : Ext h h') {a : Obj} (ha : Live h a) : Live h' a where
  data := Nat.lt_of_lt_of_le ha.data x.tables.length_le
  dict := Nat.lt_of_lt_of_le ha.dict x.dicts.length_le
  frames r hr := Nat.lt_of_lt_of_le (ha.frames r (by rwa [x.refs ha] at hr)) x.arrays.length_le

/-- The rows of arrays. -/
theorem view_data_congr {h h' : Heap} {rows : List (List Ref)} (hr : ∀ r ∈ rows.flatten, h'.array r = h.array r) :
    rows.map (fun row => row.map h'.array) = rows.map (fun row => row.map h.array) := by
  refine List.map_congr_left fun row hrow => List.map_congr_left fun r hrr => hr r ?_
  exact List.mem_flatten.2 ⟨row, hrow, hrr⟩

theorem Ext.view {h h' : Heap} (x : Ext h h') {a : Obj} (ha : Live h a) : view h' a = view h a := by
  unfold Objects.view
  rw [x.table ha.data, view_data_congr (h := h)]
  exact fun r hr => x.array (ha.frames r hr)

/-! ### New objects -/

theorem newRow_eq (h : Heap) (l : List (List Nat)) :
    newRow h l = (List.range' h.arrays.length l.length, { h with arrays := h.arrays ++ l }) := by
  induction l generalizing h with
  | nil => simp [newRow]
  | cons x l ih => simp [newRow, newArray, ih, List.range'_succ]

/-- The new references are at the end of the heap and refer to the given arrays. -/
theorem newRows_spec (h : Heap) (l : List (List (List Nat))) :
    (newRows h l).2 = { h with arrays := h.arrays ++ l.flatten } ∧
      (newRows h l).1.map (fun row => row.map (newRows h l).2.array) = l ∧
      (newRows h l).1.flatten = List.range' h.arrays.length l.flatten.length := by
  induction l generalizing h with
  | nil => simp [newRows]
  | cons x l ih =>
    simp only [newRows, newRow_eq]
    obtain ⟨h1, h2, h3⟩ := ih { h with arrays := h.arrays ++ x }
    refine ⟨by rw [h1]; simp, ?_, ?_⟩
    · simp only [List.map_cons, h2]
      congr 1
      rw [h1]
      apply List.ext_getElem
      · simp
      · intro i hi hi'
        simp [Heap.array, List.getD_eq_getElem?_getD, List.getElem?_append]
        have : i < x.length := by simpa using hi
        simp [this]
    · simp only [List.flatten_cons, h3]
      simp only [List.length_append]
      rw [List.range'_append_1]

theorem newRows_ext (h : Heap) (l : List (List (List Nat))) : Ext h (newRows h l).2 := by
  rw [(newRows_spec h l).1]
  exact ⟨List.prefix_append _ _, List.prefix_refl _, List.prefix_refl _⟩

/-! ### Deep copies -/

/-- The memo of a deep copy started with `n` arrays. -/
structure Memo (n : Nat) (memo : List (Ref × Ref)) (h : Heap) : Prop where
  base : n ≤ h.arrays.length
  old : ∀ x ∈ memo, x.1 < n
  fresh : ∀ x ∈ memo, n ≤ x.2 ∧ x.2 < h.arrays.length
  same : ∀ x ∈ memo, h.array x.2 = h.array x.1

theorem mem_of_lookup {memo : List (Ref × Ref)} {r r' : Ref} (h : memo.lookup r = some r') : (r, r') ∈ memo := by
  induction memo with
  | nil => simp at h
  | cons x l ih =>
    obtain ⟨k, v⟩ := x
    rw [List.lookup_cons] at h
    split at h
    · rename_i e
      have := eq_of_beq e
      simp_all
    · exact List.mem_cons_of_mem _ (ih h)

theorem copyRef_spec {n : Nat} {memo : List (Ref × Ref)} {h : Heap} (hm : Memo n memo h) {r : Ref} (hr : r < n) :
    Ext h (copyRef memo h r).2.2 ∧ Memo n (copyRef memo h r).2.1 (copyRef memo h r).2.2 ∧
      (copyRef memo h r).2.2.tables = h.tables ∧ (copyRef memo h r).2.2.dicts = h.dicts ∧
      n ≤ (copyRef memo h r).1 ∧ (copyRef memo h r).1 < (copyRef memo h r).2.2.arrays.length ∧
      (copyRef memo h r).2.2.array (copyRef memo h r).1 = h.array r := by
  unfold copyRef
  cases hl : memo.lookup r with
  | some r' =>
    have hmem := mem_of_lookup hl
    exact ⟨Ext.refl h, hm, rfl, rfl, (hm.fresh _ hmem).1, (hm.fresh _ hmem).2, hm.same _ hmem⟩
  | none =>
    simp only [newArray]
    have hx : Ext h { h with arrays := h.arrays ++ [h.array r] } :=
      ⟨List.prefix_append _ _, List.prefix_refl _, List.prefix_refl _⟩
    have hnew : ({ h with arrays := h.arrays ++ [h.array r] } : Heap).array h.arrays.length = h.array r := by
      simp [Heap.array, List.getD_eq_getElem?_getD]
    have hb := hm.base
    refine ⟨hx, ⟨?_, ?_, ?_, ?_⟩, trivial, trivial, hb, ?_, hnew⟩
    · simp; omega
    · intro x hmem
      rcases List.mem_cons.1 hmem with rfl | hmem
      · exact hr
      · exact hm.old x hmem
    · intro x hmem
      rcases List.mem_cons.1 hmem with rfl | hmem
      · exact ⟨hb, by simp⟩
      · exact ⟨(hm.fresh x hmem).1, Nat.lt_of_lt_of_le (hm.fresh x hmem).2 (by simp)⟩
    · intro x hmem
      rcases List.mem_cons.1 hmem with rfl | hmem
      · show _ = _
        rw [hnew, hx.array (Nat.lt_of_lt_of_le hr hb)]
      · rw [hx.array (hm.fresh x hmem).2, hx.array (Nat.lt_of_lt_of_le (hm.old x hmem) hb)]
        exact hm.same x hmem
    · simp

theorem copyRow_spec {n : Nat} {memo : List (Ref × Ref)} {h : Heap} (hm : Memo n memo h) {row : List Ref} (hr : ∀ r ∈ row, r < n) :
    Ext h (copyRow memo h row).2.2 ∧ Memo n (copyRow memo h row).2.1 (copyRow memo h row).2.2 ∧
      (copyRow memo h row).2.2.tables = h.tables ∧ (copyRow memo h row).2.2.dicts = h.dicts ∧
      (∀ r ∈ (copyRow memo h row).1, n ≤ r ∧ r < (copyRow memo h row).2.2.arrays.length) ∧
      (copyRow memo h row).1.map (copyRow memo h row).2.2.array = row.map h.array := by
  induction row generalizing memo h with
  | nil => exact ⟨Ext.refl h, hm, rfl, rfl, by simp [copyRow], by simp [copyRow]⟩
  | cons r row ih =>
    obtain ⟨a1, a2, a3, a4, a5, a6, a7⟩ := copyRef_spec hm (hr r (by simp))
    obtain ⟨b1, b2, b3, b4, b5, b6⟩ := ih a2 (fun r h => hr r (by simp [h]))
    simp only [copyRow]
    refine ⟨a1.trans b1, b2, b3.trans a3, b4.trans a4, ?_, ?_⟩
    · intro x hx
      rcases List.mem_cons.1 hx with rfl | hx
      · exact ⟨a5, Nat.lt_of_lt_of_le a6 b1.arrays.length_le⟩
      · exact b5 x hx
    · simp only [List.map_cons, b6, b1.array a6, a7]
      congr 1
      refine List.map_congr_left fun x hx => a1.array ?_
      exact Nat.lt_of_lt_of_le (hr x (by simp [hx])) hm.base

theorem copyRows_spec {n : Nat} {memo : List (Ref × Ref)} {h : Heap} (hm : Memo n memo h) {rows : List (List Ref)}
    (hr : ∀ r ∈ rows.flatten, r < n) :
    Ext h (copyRows memo h rows).2.2 ∧ Memo n (copyRows memo h rows).2.1 (copyRows memo h rows).2.2 ∧
      (copyRows memo h rows).2.2.tables = h.tables ∧ (copyRows memo h rows).2.2.dicts = h.dicts ∧
      (∀ r ∈ (copyRows memo h rows).1.flatten, n ≤ r ∧ r < (copyRows memo h rows).2.2.arrays.length) ∧
      (copyRows memo h rows).1.map (fun row => row.map (copyRows memo h rows).2.2.array) = rows.map fun row => row.map h.array := by
  induction rows generalizing memo h with
  | nil => exact ⟨Ext.refl h, hm, rfl, rfl, by simp [copyRows], by simp [copyRows]⟩
  | cons row rows ih =>
    have hbase := hm.base
    obtain ⟨a1, a2, a3, a4, a5, a6⟩ := copyRow_spec (row := row) hm (fun r h => hr r (by rw [List.flatten_cons]; exact List.mem_append_left _ h))
    obtain ⟨b1, b2, b3, b4, b5, b6⟩ := ih a2 (fun r h => hr r (by
      rw [List.flatten_cons]; exact List.mem_append_right _ h))
    simp only [copyRows]
    refine ⟨a1.trans b1, b2, b3.trans a3, b4.trans a4, ?_, ?_⟩
    · intro x hx
      rw [List.flatten_cons, List.mem_append] at hx
      rcases hx with hx | hx
      · exact ⟨(a5 x hx).1, Nat.lt_of_lt_of_le (a5 x hx).2 b1.arrays.length_le⟩
      · exact b5 x hx
    · simp only [List.map_cons, b6]
      congr 1
      · rw [← a6]
        exact List.map_congr_left fun x hx => b1.array (a5 x hx).2
      · refine view_data_congr fun r hrr => a1.array ?_
        exact Nat.lt_of_lt_of_le (hr r (by rw [List.flatten_cons]; exact List.mem_append_right _ hrr)) hbase

/-! ### `gather` and functions -/

theorem mapM_bind {α β γ : Type} {g : α → Outcome β} {g' : α → Outcome γ} {f : β → γ} {l : List α}
    (h : ∀ i ∈ l, g' i = (g i).bind fun y => .ok (f y)) : l.mapM g' = (l.mapM g).bind fun x => .ok (x.map f) := by
  induction l with
  | nil => rfl
  | cons i l ih =>
    simp only [List.mapM_cons]
    rw [h i (by simp), ih fun i hi => h i (by simp [hi])]
    cases g i with
    | ok y => cases List.mapM g l <;> rfl
    | throw e => rfl
    | ub => rfl

theorem mapM_forall {α β : Type} {g : α → Outcome β} {P : β → Prop} {l : List α} {x : List β} (hg : ∀ i y, g i = .ok y → P y)
    (h : l.mapM g = .ok x) : ∀ y ∈ x, P y := by
  induction l generalizing x with
  | nil => cases h; simp
  | cons i l ih =>
    simp only [List.mapM_cons] at h
    cases hi : g i with
    | ok y =>
      rw [hi] at h
      simp only [Outcome.ok_bind] at h
      cases hm : List.mapM g l with
      | ok z =>
        rw [hm] at h; simp only [Outcome.ok_bind, Outcome.pure_eq] at h
        cases h
        intro w hw
        rcases List.mem_cons.1 hw with rfl | hw
        · exact hg i _ hi
        · exact ih hm w hw
      | throw e => rw [hm] at h; cases h
      | ub => rw [hm] at h; cases h
    | throw e => rw [hi] at h; cases h
    | ub => rw [hi] at h; cases h

theorem gather_map {α β : Type} (f : α → β) (l : List α) (idx : List Nat) :
    gather (l.map f) idx = (gather l idx).bind fun x => .ok (x.map f) := by
  unfold gather
  refine mapM_bind fun i _ => ?_
  simp only [List.getElem?_map]
  cases l[i]? <;> rfl

theorem gather_mem {α : Type} {l : List α} {idx : List Nat} {x : List α} (h : gather l idx = .ok x) : ∀ y ∈ x, y ∈ l := by
  refine mapM_forall (P := fun y => y ∈ l) (fun i y hy => ?_) h
  cases hi : l[i]? with
  | none => simp [hi] at hy
  | some a =>
    simp [hi] at hy
    exact hy ▸ List.mem_of_getElem? hi

theorem mapM_map {α β γ : Type} (f : α → β) (g : β → Outcome γ) (l : List α) :
    (l.map f).mapM g = l.mapM fun x => g (f x) := by
  induction l with
  | nil => rfl
  | cons x l ih => simp only [List.map_cons, List.mapM_cons, ih]

end Stempy.Objects
