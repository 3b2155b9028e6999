import Verif.Model.NumpyAdvanced
import Verif.Props.SparseSlice

/-!
# C44: index expressions with an array, and with too many elements
-/

namespace Stempy.Numpy

/-- Axes of the array that the element uses, for elements other than an ellipsis. -/
theorem selectItem_append {s t : List Nat} {it : Item} (he : it ≠ .ellipsis) (ha : axes it ≤ s.length) :
    selectItem (s ++ t) it = selectItem s it ∧ ∀ a k, selectItem s it = .ok (a, k) → k = axes it := by
  cases it with
  | ellipsis => exact absurd rfl he
  | slice x y z =>
    cases s with
    | nil => simp [axes] at ha
    | cons n s =>
      refine ⟨rfl, fun a k h => ?_⟩
      simp only [selectItem] at h
      cases hl : sliceIndexes n x y z <;> rw [hl] at h <;> simp at h
      exact h.2.symm
  | int i =>
    cases s with
    | nil => simp [axes] at ha
    | cons n s =>
      refine ⟨rfl, fun a k h => ?_⟩
      simp only [selectItem] at h
      cases hl : intIndex n i <;> rw [hl] at h <;> simp at h
      exact h.2.symm
  | ints l =>
    cases s with
    | nil => simp [axes] at ha
    | cons n s =>
      refine ⟨rfl, fun a k h => ?_⟩
      simp only [selectItem] at h
      cases hl : l.mapM (intIndex n) <;> rw [hl] at h <;> simp at h
      exact h.2.symm
  | mask m bits =>
    simp only [axes] at ha
    have : (s ++ t).take m.length = s.take m.length := by rw [List.take_append_of_le_length ha]
    refine ⟨by simp only [selectItem, this], fun a k h => ?_⟩
    simp only [selectItem] at h
    split at h
    · simp at h; exact h.2.symm
    · simp at h

theorem select_append' (s t : List Nat) (i j : List Item) (hi : ∀ it ∈ i, it ≠ .ellipsis)
    (hij : (i.map axes).sum = s.length ∨ (i.map axes).sum ≤ s.length ∧ j = []) :
    select (s ++ t) (i ++ j) = (select s i).bind fun a => (select t j).bind fun b => .ok (a.product b (prod t)) := by
  induction i generalizing s with
  | nil =>
    rcases hij with h | ⟨-, rfl⟩
    · have : s = [] := List.length_eq_zero_iff.1 (by simpa using h.symm)
      subst this
      exact select_append [] t [] j (by simp) (by simp)
    · exact select_append s t [] [] (by simp) (by simp)
  | cons it i ih =>
    have hle : axes it ≤ s.length := by
      simp only [List.map_cons, List.sum_cons] at hij
      rcases hij with h | h <;> omega
    obtain ⟨h1, h2⟩ := selectItem_append (t := t) (hi it (by simp)) hle
    simp only [List.cons_append, select]
    rw [h1]
    cases hx : selectItem s it with
    | throw m => rfl
    | ub => rfl
    | ok r =>
      obtain ⟨a, k⟩ := r
      have hk := h2 a k hx
      subst hk
      have := ih (s.drop (axes it)) (fun it hit => hi it (by simp [hit])) (by
        simp only [List.map_cons, List.sum_cons] at hij
        rw [List.length_drop]
        rcases hij with h | h
        · left; omega
        · right; exact ⟨by omega, h.2⟩)
      show (select ((s ++ t).drop (axes it)) (i ++ j)).bind (fun b => .ok (a.product b (prod ((s ++ t).drop (axes it))))) =
        ((select (s.drop (axes it)) i).bind fun b => .ok (a.product b (prod (s.drop (axes it))))).bind fun a =>
          (select t j).bind fun b => .ok (a.product b (prod t))
      rw [List.drop_append_of_le_length hle, this]
      cases select (s.drop (axes it)) i with
      | throw m => rfl
      | ub => rfl
      | ok b =>
        cases select t j with
        | throw m => rfl
        | ub => rfl
        | ok c =>
          show Outcome.ok _ = Outcome.ok _
          rw [prod_append, product_assoc]

/-- An element of an expression that NumPy accepts as such: masks have axes. -/
def Item.Proper (it : Item) : Prop := it ≠ .ellipsis ∧ ∀ bits, it ≠ .mask [] bits

theorem selection_select {shape : List Nat} {items : List Item} (h : ∀ it ∈ items, it ≠ .ellipsis)
    (hc : items.countP Item.isArray ≤ 1) : selection shape items = select shape items := by
  have he : expandEllipsis shape.length items = items := expandEllipsis_none _ _ fun hm => h _ hm rfl
  unfold selection
  split
  · rename_i x y n m
    have : (x.isArray && y.isArray) = false := by
      cases hx : x.isArray <;> cases hy : y.isArray <;> simp [hx, hy] at hc ⊢
    rw [this]
    simp only [Bool.false_and, Bool.false_eq_true, if_false]
    exact congrArg _ he
  · exact congrArg _ he

end Stempy.Numpy

namespace Stempy.Sparse
open Numpy

theorem isArray_axes {it : Item} (h : it.Proper) :
    axes it = (if it.isArray then it.ndim else 1) ∧ 0 < axes it := by
  cases it with
  | ellipsis => exact absurd rfl h.1
  | mask s bits =>
    refine ⟨rfl, ?_⟩
    cases s with
    | nil => exact absurd rfl (h.2 bits)
    | cons => simp [axes]
  | _ => exact ⟨rfl, by simp [axes]⟩

/-- What is known after the split. -/
theorem split_facts {a : SparseArray} (ha : WF a) {key scan frame : List Item} (hk : ∀ it ∈ key, it.Proper)
    (h : splitSlices a key = .ok (scan, frame)) :
    key = scan ++ frame ∧ scan.length ≤ a.scanShape.length ∧ frame.length ≤ 2 ∧
      ((scan.map axes).sum = a.scanShape.length ∨ (scan.map axes).sum ≤ a.scanShape.length ∧ frame = []) := by
  cases key with
  | nil => simp only [splitSlices, Outcome.ok.injEq, Prod.mk.injEq] at h; obtain ⟨rfl, rfl⟩ := h; simp
  | cons first rest =>
    have hf := isArray_axes (hk first (by simp))
    have hfo' : ∀ l : List Item, frameSlicesOk l = true → l.length ≤ 2
      | [], _ => by simp
      | [_], _ => by simp
      | [_, _], _ => by simp
      | _ :: _ :: _ :: _, hfo => by simp [frameSlicesOk] at hfo
    rw [splitSlices] at h
    by_cases htm : tooManyDims first a.scanShape.length = true
    · rw [if_pos htm] at h; simp at h
    rw [if_neg htm] at h
    simp only [tooManyDims, Bool.and_eq_true, decide_eq_true_eq, not_and, Nat.not_lt] at htm
    by_cases htwo : (decide (a.scanShape.length > 1) && (!first.isArray || decide (first.ndim = 1))) = true
    · simp only [htwo, if_true, Bool.true_and] at h
      have hn2 : a.scanShape.length = 2 := by
        simp only [Bool.and_eq_true, decide_eq_true_eq] at htwo
        rcases ha.ndim with h | h <;> omega
      have hax : axes first = 1 := by
        rw [hf.1]
        simp only [Bool.and_eq_true, Bool.or_eq_true, Bool.not_eq_true', decide_eq_true_eq] at htwo
        split
        · rename_i hb
          rcases htwo.2 with h | h
          · rw [hb] at h; simp at h
          · exact h
        · rfl
      by_cases htm2 : tooManyDims (rest.headD .all) 1 = true
      · rw [if_pos htm2] at h; simp at h
      rw [if_neg htm2] at h
      by_cases hfo : (!frameSlicesOk (rest.drop 1)) = true
      · rw [if_pos hfo] at h; simp at h
      rw [if_neg hfo] at h
      have hfl := hfo' _ (by simpa using hfo)
      split at h
      · simp at h
      split at h
      · simp at h
      simp only [Outcome.ok.injEq, Prod.mk.injEq] at h
      obtain ⟨rfl, rfl⟩ := h
      cases rest with
      | nil => simp [hax, hn2]
      | cons second rest =>
        have hs := isArray_axes (hk second (by simp))
        have hax2 : axes second = 1 := by
          have h3 := hs.2
          have htm2 : second.isArray = true → second.ndim ≤ 1 := by simpa [tooManyDims] using htm2
          rw [hs.1] at h3 ⊢
          split
          · rename_i hb; rw [if_pos hb] at h3; have := htm2 hb; omega
          · rfl
        refine ⟨by simp, by simp [hn2], hfl, .inl ?_⟩
        simp [hax, hax2, hn2]
    · simp only [htwo, Bool.false_eq_true, if_false, Bool.false_and] at h
      by_cases hfo : (!frameSlicesOk rest) = true
      · rw [if_pos hfo] at h; simp at h
      rw [if_neg hfo] at h
      have hfl := hfo' _ (by simpa using hfo)
      split at h
      · simp at h
      split at h
      · simp at h
      simp only [Outcome.ok.injEq, Prod.mk.injEq] at h
      obtain ⟨rfl, rfl⟩ := h
      refine ⟨by simp, ?_, hfl, .inl ?_⟩
      · rcases ha.ndim with h | h <;> simp [h]
      · simp only [List.map_cons, List.map_nil, List.sum_cons, List.sum_nil, Nat.add_zero]
        rcases ha.ndim with hn | hn
        · rw [hn] at htm ⊢
          have h3 := hf.2
          rw [hf.1] at h3 ⊢
          split
          · rename_i hb; rw [if_pos hb] at h3; have := htm hb; omega
          · rfl
        · rw [hn] at htm htwo ⊢
          simp only [gt_iff_lt, show (1 : Nat) < 2 by omega, decide_true, Bool.true_and, Bool.or_eq_true,
            Bool.not_eq_true', decide_eq_true_eq, not_or, Bool.not_eq_false] at htwo
          have h3 := hf.2
          rw [hf.1, if_pos htwo.1] at h3 ⊢
          have := htm htwo.1
          omega

theorem modified_bind' {shape : List Nat} {items : List Item}
    (hl : items.length ≤ shape.length) (h : ∀ s, selection shape items ≠ .ok s) :
    modified shape items = (selection shape items).bind fun s => .ok (some s) := by
  unfold modified
  split
  · rfl
  · rename_i hn
    have hall : ∀ it ∈ items, it = .all := by
      intro it hit
      simp only [List.any_eq_true, not_exists, not_and] at hn
      have := hn it hit
      simpa [isNoneSlice] using this
    obtain ⟨s, hs⟩ := select_alls_ok hall hl
    exact absurd (by rw [selection_basic fun it hit => by rw [hall it hit]; exact all_basic, hs]) (h s)

/-- As `sliceSparse_bind`, for all kinds of elements. -/
theorem sliceSparse_bind' {a : SparseArray} (ha : WF a) (hfr : a.frameShape ≠ []) {scan frame : List Item}
    (hsl : scan.length ≤ a.scanShape.length) (hfl : frame.length ≤ a.frameShape.length)
    (hn : ∀ fs, selection a.frameShape frame = .ok fs → fs.idx.Nodup) :
    (sliceSparse a scan frame).bind Value.toDense =
      (selection a.scanShape scan).bind fun ss => (selection a.frameShape frame).bind fun fs =>
        .ok (.dense (picked a ss fs)) := by
  cases h1 : selection a.scanShape scan with
  | throw m => rw [sliceSparse, modified_bind' hsl (by simp [h1]), h1]; rfl
  | ub => rw [sliceSparse, modified_bind' hsl (by simp [h1]), h1]; rfl
  | ok ss =>
    have hm : ∃ o, modified a.scanShape scan = .ok o := by
      unfold modified; split
      · rw [h1]; exact ⟨_, rfl⟩
      · exact ⟨_, rfl⟩
    obtain ⟨o, ho⟩ := hm
    cases h2 : selection a.frameShape frame with
    | ok fs =>
      have hn := hn fs h2
      rw [sliceSparse_ok ha hfr h1 h2 hn]
      by_cases h : ss.shape = [] ∨ fs.shape = []
      · rw [if_pos h]; rfl
      · rw [if_neg h]
        have hsv := (selection_ok h1).1
        have hfv := (selection_ok h2).1
        show toDense _ = _
        rw [toDense_eq (selected_wf ha hsv hfv hn (not_or.1 h).1), dense_selected hsv hfv hn]; rfl
    | throw m =>
      rw [sliceSparse, ho, Outcome.ok_bind, modified_bind' hfl (by simp [h2])]
      rw [sliceDense, h1, Outcome.ok_bind, h2]
      split <;> rfl
    | ub =>
      rw [sliceSparse, ho, Outcome.ok_bind, modified_bind' hfl (by simp [h2])]
      rw [sliceDense, h1, Outcome.ok_bind, h2]
      split <;> rfl

/-- **C44** Index expressions with at most one index array or mask: slicing the sparse array and expanding it is the same as expanding it and
slicing, including the exceptions, if the pixels are distinct and integers and array are not separated by a slice.
Missing: see `C44_duplicates_false`, `C44_separated_false`. -/
theorem C44_array_partial (a : SparseArray) (ha : WF a) (hfr : a.frameShape.length = 2) (hsp : a.sparseSlicing = true)
    (key scan frame : List Item) (hk : ∀ it ∈ key, it.Proper) (hone : key.countP Item.isArray ≤ 1)
    (hsep : separated key = false) (hsplit : splitSlices a key = .ok (scan, frame))
    (hn : ∀ fs, selection a.frameShape frame = .ok fs → fs.idx.Nodup) :
    (getitem a key).bind Value.toDense = (indexArray (dense a) key).bind fun x => .ok (.dense x) := by
  obtain ⟨rfl, hsl, hfl, hax⟩ := split_facts ha hk hsplit
  have hne : a.frameShape ≠ [] := by intro h; rw [h] at hfr; simp at hfr
  have hg : getitem a (scan ++ frame) = sliceSparse a scan frame := by
    rw [getitem, hsplit, Outcome.ok_bind]
    simp only [hsp, if_true]
  rw [hg, sliceSparse_bind' ha hne hsl (by omega) hn]
  rw [List.countP_append] at hone
  rw [selection_select (fun it h => (hk it (by simp [h])).1) (by omega),
    selection_select (fun it h => (hk it (by simp [h])).1) (by omega)]
  unfold indexArray
  simp only [hsep, Bool.false_eq_true, if_false]
  show _ = ((select (a.scanShape ++ a.frameShape) (scan ++ frame)).bind fun s =>
    (gather (dense a).flat s.idx).bind fun l => Outcome.ok (NArray.mk s.shape l)).bind fun x => Outcome.ok (Value.dense x)
  rw [select_append' a.scanShape a.frameShape scan frame (fun it h => (hk it (by simp [h])).1) hax]
  cases h1 : select a.scanShape scan with
  | throw m => rfl
  | ub => rfl
  | ok ss =>
    cases h2 : select a.frameShape frame with
    | throw m => rfl
    | ub => rfl
    | ok fs =>
      show Outcome.ok (Value.dense (picked a ss fs)) =
        ((gather (dense a).flat (ss.product fs (prod a.frameShape)).idx).bind fun l =>
          Outcome.ok (NArray.mk (ss.product fs (prod a.frameShape)).shape l)).bind fun x => Outcome.ok (Value.dense x)
      rw [gather_dense a (select_ok h1).1 (select_ok h2).1]
      rfl

/-- **C44** is false for an integer and an array that are separated by a slice: NumPy puts the axis of the array first, the sparse array leaves it
at its place. -/
theorem C44_separated_false :
    (∃ v, (getitem sample [.int 1, .all, .all, .ints [2, 0]]).bind Value.toDense = .ok (.dense v) ∧ v.shape = [2, 2, 2] ∧
      ∃ w, indexArray (dense sample) [.int 1, .all, .all, .ints [2, 0]] = .ok w ∧ w.shape = [2, 2, 2] ∧ v.flat ≠ w.flat) ∧
    (∃ v, (getitem sample [.int 1, .all, .all, .ints [2]]).bind Value.toDense = .ok (.dense v) ∧ v.shape = [2, 2, 1] ∧
      ∃ w, indexArray (dense sample) [.int 1, .all, .all, .ints [2]] = .ok w ∧ w.shape = [1, 2, 2]) := by
  constructor
  · exact ⟨⟨[2, 2, 2], [1, 0, 0, 1, 2, 1, 0, 0]⟩, by decide, rfl, ⟨[2, 2, 2], [1, 0, 2, 0, 0, 1, 1, 0]⟩, by decide, rfl, by decide⟩
  · exact ⟨⟨[2, 2, 1], [1, 0, 2, 0]⟩, by decide, rfl, ⟨[1, 2, 2], [1, 0, 2, 0]⟩, by decide, rfl⟩

private theorem select_too_many : ∀ {shape : List Nat} {items : List Item}, (∀ it ∈ items, it.Basic) → shape.length < items.length →
    ∃ m, select shape items = .throw m
  | [], it :: items, hb, _ => by
    have := hb it (by simp)
    cases it with
    | slice x y z => exact ⟨_, rfl⟩
    | int i => exact ⟨_, rfl⟩
    | _ => exact this.elim
  | n :: s, it :: items, hb, hl => by
    obtain ⟨m, hm⟩ := select_too_many (shape := s) (items := items) (fun x hx => hb x (by simp [hx])) (by simpa using hl)
    have hbi := hb it (by simp)
    cases it with
    | slice x y z =>
      have hu : sliceIndexes n x y z ≠ .ub := by
        by_cases hz : z.getD 1 = 0 <;> simp [sliceIndexes, sliceRange, hz]
      simp only [select, selectItem]
      cases h : sliceIndexes n x y z with
      | ub => exact absurd h hu
      | throw m' => exact ⟨m', rfl⟩
      | ok l => simp only [Outcome.ok_bind, List.drop_succ_cons, List.drop_zero, hm]; exact ⟨m, rfl⟩
    | int i =>
      have hu : intIndex n i ≠ .ub := by
        unfold intIndex
        generalize (if i < 0 then i + n else i) = j
        dsimp only
        split <;> simp
      simp only [select, selectItem]
      cases h : intIndex n i with
      | ub => exact absurd h hu
      | throw m' => exact ⟨m', rfl⟩
      | ok l => simp only [Outcome.ok_bind, List.drop_succ_cons, List.drop_zero, hm]; exact ⟨m, rfl⟩
    | _ => exact hbi.elim

/-- **C44** More slices and integers than axes are an error for both. -/
theorem C44_too_many (a : SparseArray) (ha : WF a) (hfr : a.frameShape.length = 2) (key : List Item) (hk : ∀ it ∈ key, it.Basic)
    (hlen : a.shape.length < key.length) :
    getitem a key = .throw "IndexError" ∧ ∃ m, index (dense a) key = .throw m := by
  have hl : a.shape.length = a.scanShape.length + 2 := by simp [SparseArray.shape, hfr]
  constructor
  · have hs : splitSlices a key = .throw "IndexError" := by
      cases key with
      | nil => simp at hlen
      | cons first rest =>
        have hb : ∀ it ∈ first :: rest, it.isArray = false := fun it h => basic_isArray (hk it h)
        have h1 := hb first (by simp)
        have h2 : tooManyDims (rest.headD .all) 1 = false := by
          cases rest with
          | nil => rfl
          | cons x _ => simp [tooManyDims, hb x (by simp)]
        have hno : ∀ l : List Item, 2 < l.length → frameSlicesOk l = false
          | _ :: _ :: _ :: _, _ => rfl
          | [], h => by simp at h
          | [_], h => by simp at h
          | [_, _], h => by simp at h
        simp only [splitSlices]
        rw [if_neg (by simp [tooManyDims, h1]), h2]
        simp only [Bool.and_false, Bool.false_eq_true, if_false]
        rw [if_pos]
        simp only [h1, Bool.not_false, Bool.true_or, Bool.and_true, Bool.not_eq_true']
        apply hno
        rcases ha.ndim with hn | hn
        · rw [hl, hn] at hlen
          rw [if_neg (by simp [hn])]
          simp at hlen ⊢; omega
        · rw [hl, hn] at hlen
          rw [if_pos (by simp [hn])]
          simp at hlen ⊢; omega
    rw [getitem, hs]; rfl
  · obtain ⟨m, hm⟩ := select_too_many (shape := (dense a).shape) hk hlen
    refine ⟨m, ?_⟩
    rw [index, selection_basic hk, hm]; rfl

private theorem mapM_mem {α β : Type} {f : α → Outcome β} {l : List α} {r : List β} (h : l.mapM f = .ok r) {y : β} (hy : y ∈ r) :
    ∃ x ∈ l, f x = .ok y := by
  induction l generalizing r with
  | nil => simp only [List.mapM_nil, Outcome.pure_eq, Outcome.ok.injEq] at h; subst h; simp at hy
  | cons x l ih =>
    rw [List.mapM_cons] at h
    cases hx : f x with
    | throw m => rw [hx] at h; simp at h
    | ub => rw [hx] at h; simp at h
    | ok z =>
      rw [hx, Outcome.ok_bind] at h
      cases hl : l.mapM f with
      | throw m => rw [hl] at h; simp at h
      | ub => rw [hl] at h; simp at h
      | ok r' =>
        rw [hl, Outcome.ok_bind, Outcome.pure_eq] at h
        cases h
        rcases List.mem_cons.1 hy with rfl | hy
        · exact ⟨x, by simp, hx⟩
        · obtain ⟨w, hw, hfw⟩ := ih hl hy
          exact ⟨w, by simp [hw], hfw⟩

private theorem scatter_other {l r : List (Option Nat)} {ps : List (Nat × Option Nat)} {e : Nat} (hne : ∀ x ∈ ps, x.1 ≠ e)
    (h : ps.foldlM (fun l x => if x.1 < l.length then Outcome.ok (l.set x.1 x.2) else .throw "IndexError") l = .ok r) :
    r[e]? = l[e]? := by
  induction ps generalizing l with
  | nil => simp only [List.foldlM_nil, Outcome.pure_eq, Outcome.ok.injEq] at h; rw [h]
  | cons y ps ih =>
    rw [List.foldlM_cons] at h
    split at h
    · rw [Outcome.ok_bind] at h
      rw [ih (fun x hx => hne x (by simp [hx])) h, List.getElem?_set_ne (hne y (by simp))]
    · simp at h

private theorem scatter_last {l r : List (Option Nat)} {pre post : List (Nat × Option Nat)} {e : Nat} {v : Option Nat}
    (hne : ∀ x ∈ post, x.1 ≠ e)
    (h : (pre ++ (e, v) :: post).foldlM
      (fun l x => if x.1 < l.length then Outcome.ok (l.set x.1 x.2) else .throw "IndexError") l = .ok r) :
    r[e]? = some v := by
  induction pre generalizing l with
  | nil =>
    rw [List.nil_append, List.foldlM_cons] at h
    split at h
    · rename_i hlt
      rw [Outcome.ok_bind] at h
      rw [scatter_other hne h, List.getElem?_set_self hlt]
    · simp at h
  | cons y pre ih =>
    rw [List.cons_append, List.foldlM_cons] at h
    split at h
    · rw [Outcome.ok_bind] at h
      exact ih h
    · simp at h

private theorem exists_last {ps : List (Nat × Option Nat)} {e : Nat} (h : ∃ x ∈ ps, x.1 = e) :
    ∃ pre v post, ps = pre ++ (e, v) :: post ∧ ∀ x ∈ post, x.1 ≠ e := by
  induction ps with
  | nil => simp at h
  | cons y ps ih =>
    by_cases hin : ∃ x ∈ ps, x.1 = e
    · obtain ⟨pre, v, post, rfl, h2⟩ := ih hin
      exact ⟨y :: pre, v, post, rfl, h2⟩
    · obtain ⟨x, hx, hxe⟩ := h
      rcases List.mem_cons.1 hx with rfl | hx
      · exact ⟨[], x.2, ps, by rw [← hxe]; rfl, fun z hz hze => hin ⟨z, hz, hze⟩⟩
      · exact absurd ⟨x, hx, hxe⟩ hin

/-- A place that is not the last one of its pixel is the image of no pixel. -/
private theorem frameMap_lost {size : Nat} {idx : List Nat} {m : List (Option Nat)} (h : frameMap size idx = .ok m) {j j' q : Nat}
    (hj : idx[j]? = some q) (hj' : idx[j']? = some q) (hlt : j < j') (e : Nat) : m[e]? ≠ some (some j) := by
  intro hm
  unfold frameMap scatter at h
  by_cases hex : ∃ x ∈ idx.zip ((List.range idx.length).map some), x.1 = e
  · obtain ⟨pre, v, post, hps, hpost⟩ := exists_last hex
    rw [hps] at h
    have := scatter_last hpost h
    rw [hm] at this
    cases this
    have hget : (idx.zip ((List.range idx.length).map some))[pre.length]? = some (e, some j) := by
      rw [hps]; simp
    rw [List.getElem?_zip_eq_some] at hget
    have hpj : pre.length = j := by
      have h1 := hget.2
      rw [List.getElem?_map] at h1
      have hlen : pre.length < idx.length := (List.getElem?_eq_some_iff.1 hget.1).1
      rw [List.getElem?_range hlen] at h1
      simpa using h1
    have hqe : q = e := by
      have h1 := hget.1
      rw [hpj, hj] at h1
      exact Option.some.inj h1
    have hlen' : j' < idx.length := (List.getElem?_eq_some_iff.1 hj').1
    have hmem : (q, some j') ∈ post := by
      have h1 : (idx.zip ((List.range idx.length).map some))[j']? = some (q, some j') := by
        rw [List.getElem?_zip_eq_some]
        exact ⟨hj', by rw [List.getElem?_map, List.getElem?_range hlen']; rfl⟩
      rw [hps, List.getElem?_append_right (by omega)] at h1
      obtain ⟨d, hd⟩ : ∃ d, j' - pre.length = d + 1 := ⟨j' - pre.length - 1, by omega⟩
      rw [hd, List.getElem?_cons_succ] at h1
      exact List.mem_of_getElem? h1
    exact hpost _ hmem hqe
  · have := scatter_other (fun x hx hxe => hex ⟨x, hx, hxe⟩) h
    rw [hm] at this
    rw [List.getElem?_replicate] at this
    split at this <;> simp at this

/-- **C44** is false for every index array that selects a pixel twice, with a sparse result: no frame of the result has an event at the
earlier one of the two places, whatever the data is. -/
theorem C44_duplicates_lost (a b : SparseArray) (hsp : a.sparseSlicing = true) (key scan frame : List Item)
    (hsplit : splitSlices a key = .ok (scan, frame)) (fs : Sel) (hf : selection a.frameShape frame = .ok fs) {j j' q : Nat}
    (hj : fs.idx[j]? = some q) (hj' : fs.idx[j']? = some q) (hlt : j < j')
    (h : getitem a key = .ok (.sparse b)) : ∀ row ∈ b.data, ∀ fr ∈ row, j ∉ fr := by
  have hany : (frame.any fun x => !isNoneSlice x) = true := by
    by_contra hn
    have hnd := selection_alls (by simpa using hn) hf
    rw [hnd] at hj hj'
    have h1 := List.getElem?_eq_some_iff.1 hj
    have h2 := List.getElem?_eq_some_iff.1 hj'
    obtain ⟨_, h1⟩ := h1
    obtain ⟨_, h2⟩ := h2
    simp at h1 h2
    omega
  have hmod : modified a.frameShape frame = .ok (some fs) := by
    unfold modified; rw [if_pos hany, hf]; rfl
  rw [getitem, hsplit, Outcome.ok_bind] at h
  simp only [hsp, if_true] at h
  unfold sliceSparse at h
  have hdn : ∀ o : Outcome (NArray Nat), (o.bind fun x => Outcome.ok (Value.dense x)) ≠ .ok (.sparse b) := by
    intro o; cases o <;> simp [Outcome.bind]
  cases hm : modified a.scanShape scan with
  | throw m => rw [hm] at h; simp at h
  | ub => rw [hm] at h; simp at h
  | ok ss =>
    rw [hm, Outcome.ok_bind] at h
    split at h
    · exact absurd h (hdn _)
    · rw [hmod, Outcome.ok_bind] at h
      split at h
      · exact absurd h (hdn _)
      · have hb : sliceSparseSel a ss (some fs) = .ok b := by
          cases hs : sliceSparseSel a ss (some fs) with
          | throw m => rw [hs] at h; simp [Outcome.bind] at h
          | ub => rw [hs] at h; simp [Outcome.bind] at h
          | ok c => rw [hs] at h; simpa [Outcome.bind] using h
        unfold sliceSparseSel at hb
        cases hr : selectRows a ss with
        | throw m => rw [hr] at hb; simp at hb
        | ub => rw [hr] at hb; simp at hb
        | ok rows =>
          rw [hr, Outcome.ok_bind] at hb
          simp only at hb
          cases hmp : frameMap (prod a.frameShape) fs.idx with
          | throw m => rw [hmp] at hb; simp at hb
          | ub => rw [hmp] at hb; simp at hb
          | ok m =>
            rw [hmp, Outcome.ok_bind] at hb
            cases hd : rows.mapM fun frames => frames.mapM fun frame => mapFrame m frame with
            | throw m => rw [hd] at hb; simp at hb
            | ub => rw [hd] at hb; simp at hb
            | ok data =>
              rw [hd, Outcome.ok_bind] at hb
              have hbd : b.data = data := by
                unfold SparseArray.init at hb
                split at hb
                · cases hb; rfl
                · simp at hb
              rw [hbd]
              intro row hrow fr hfr' hjm
              obtain ⟨fs0, _, h1⟩ := mapM_mem hd hrow
              obtain ⟨fr0, _, h2⟩ := mapM_mem h1 hfr'
              unfold mapFrame at h2
              cases hg : gather m fr0 with
              | throw m => rw [hg] at h2; simp at h2
              | ub => rw [hg] at h2; simp at h2
              | ok l =>
                rw [hg, Outcome.ok_bind] at h2
                cases h2
                obtain ⟨o, ho, hoj⟩ := List.mem_filterMap.1 hjm
                simp only [id] at hoj
                subst hoj
                obtain ⟨e, _, h3⟩ := mapM_mem hg ho
                cases hme : m[e]? with
                | none => rw [hme] at h3; simp at h3
                | some v =>
                  rw [hme] at h3
                  simp only [Outcome.ok.injEq] at h3
                  subst h3
                  exact frameMap_lost hmp hj hj' hlt e hme

/-- A mask of the scan, and a mask of the frames after two slices. -/
example :
    splitSlices sample [.mask [2, 2] [true, false, true, true], .int 1] = .ok ([.mask [2, 2] [true, false, true, true]], [.int 1]) ∧
    separated [.mask [2, 2] [true, false, true, true], .int 1] = false ∧
    (getitem sample [.mask [2, 2] [true, false, true, true], .int 1]).bind Value.toDense =
      .ok (.dense ⟨[3, 3], [0, 2, 0, 1, 0, 0, 0, 0, 0]⟩) ∧
    (getitem sample [.all, .slice none (some 1) none, .mask [2, 3] [true, false, true, false, false, true]]).bind Value.toDense =
      .ok (.dense ⟨[2, 1, 3], [1, 0, 0, 0, 1, 0]⟩) := by
  decide

example : splitSlices sample [.int 0, .all, .all, .all, .int 3] = .throw "IndexError" := by decide

end Stempy.Sparse
