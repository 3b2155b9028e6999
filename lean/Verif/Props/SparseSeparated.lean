import Verif.Props.SparsePairs
import Verif.Props.SparseFile

/-!
# C44: integers that are separated from the arrays

If an integer of an index expression is separated from the arrays by a slice, NumPy puts the axis of the arrays first, and the sparse array
leaves it at its place. Both results have the same elements: one is `np.moveaxis` of the other. So they have different shapes whenever the axis
of the arrays and the first axis have different lengths.
-/

namespace Stempy.Numpy

/-- Integers and arrays, for NumPy. -/
def Item.Counts (x : Item) : Prop :=
  (∃ i, x = .int i) ∨ (∃ l, x = .ints l) ∨ ∃ s b, x = .mask s b

private theorem counts_iff (x : Item) : x.advanced = true ↔ x.Counts := by
  cases x <;> simp [Item.advanced, Item.Counts]

private theorem dropWhile_mid {α : Type} (p : α → Bool) (l : List α) (y : α) (r : List α) (hy : p y = false) :
    ∃ l', (l ++ y :: r).dropWhile p = l' ++ y :: r := by
  induction l with
  | nil => exact ⟨[], by simp [hy]⟩
  | cons x l ih =>
    rw [List.cons_append, List.dropWhile_cons]
    split
    · exact ih
    · exact ⟨x :: l, rfl⟩

private theorem dropWhile_head {α : Type} {p : α → Bool} {l : List α} {x : α} {r : List α} (h : l.dropWhile p = x :: r) :
    p x = false := by
  induction l with
  | nil => simp at h
  | cons y l ih =>
    rw [List.dropWhile_cons] at h
    split at h
    · exact ih h
    · rename_i hy
      simp only [List.cons.injEq] at h
      rw [← h.1]; simpa using hy

/-- `separated`: there is an array, and between two of the integers and arrays there is an element that is neither. -/
theorem separated_iff (items : List Item) :
    separated items = true ↔ (∃ x ∈ items, x.isArray = true) ∧
      ∃ l₁ x l₂ y l₃ z l₄, items = l₁ ++ x :: (l₂ ++ y :: (l₃ ++ z :: l₄)) ∧ x.Counts ∧ ¬ y.Counts ∧ z.Counts := by
  unfold separated
  rw [Bool.and_eq_true, List.any_eq_true, List.any_eq_true]
  refine and_congr_right fun _ => ⟨?_, ?_⟩
  · rintro ⟨z, hz, hp⟩
    cases hE : (items.dropWhile fun x => !x.advanced).dropWhile Item.advanced with
    | nil => rw [hE] at hz; simp at hz
    | cons y E =>
      have hy := dropWhile_head hE
      rw [hE, List.mem_cons] at hz
      have hz : z ∈ E := hz.resolve_left fun h => by rw [h, hy] at hp; simp at hp
      obtain ⟨l₃, l₄, rfl⟩ := List.append_of_mem hz
      cases hB : items.dropWhile fun x => !x.advanced with
      | nil => rw [hB] at hE; simp at hE
      | cons x B =>
        have hx := dropWhile_head hB
        simp only [Bool.not_eq_false'] at hx
        rw [hB, List.dropWhile_cons, if_pos hx] at hE
        refine ⟨items.takeWhile fun x => !x.advanced, x, B.takeWhile Item.advanced, y, l₃, z, l₄, ?_, (counts_iff _).1 hx,
          fun h => ?_, (counts_iff _).1 hp⟩
        · rw [← hE, List.takeWhile_append_dropWhile, ← hB, List.takeWhile_append_dropWhile]
        · rw [(counts_iff _).2 h] at hy; simp at hy
  · rintro ⟨l₁, x, l₂, y, l₃, z, l₄, rfl, hx, hy, hz⟩
    refine ⟨z, ?_, (counts_iff _).2 hz⟩
    obtain ⟨l', h⟩ := dropWhile_mid (fun x => !x.advanced) l₁ x (l₂ ++ y :: (l₃ ++ z :: l₄)) (by simp [(counts_iff _).2 hx])
    rw [h, show l' ++ x :: (l₂ ++ y :: (l₃ ++ z :: l₄)) = (l' ++ x :: l₂) ++ y :: (l₃ ++ z :: l₄) by simp]
    obtain ⟨l'', h⟩ := dropWhile_mid Item.advanced (l' ++ x :: l₂) y (l₃ ++ z :: l₄) (by
      rw [← Bool.not_eq_true, counts_iff]; exact hy)
    rw [h]; simp

/-- `axesBefore`: the number of slices before the first array. -/
theorem axesBefore_eq (l₁ : List Item) (x : Item) (l₂ : List Item) (hx : x.isArray = true)
    (h₁ : ∀ y ∈ l₁, (∃ a b c, y = .slice a b c) ∨ ∃ i, y = .int i) :
    axesBefore (l₁ ++ x :: l₂) = l₁.countP fun y => match y with | .slice _ _ _ => true | _ => false := by
  induction l₁ with
  | nil => simp [axesBefore, hx]
  | cons y l ih =>
    have ih := ih fun y hy => h₁ y (by simp [hy])
    unfold axesBefore at ih ⊢
    rcases h₁ y (by simp) with ⟨a, b, c, rfl⟩ | ⟨i, rfl⟩
    · simpa [Item.isArray, Item.advanced] using ih
    · simpa [Item.isArray, Item.advanced] using ih

/-- `w = np.moveaxis(v, k, 0)` -/
def MovedFirst (k : Nat) (v w : NArray Nat) : Prop :=
  ∃ n, v.shape[k]? = some n ∧ w.shape = n :: v.shape.eraseIdx k ∧ w.flat.length = v.flat.length ∧
    ∀ o i j, o < prod (v.shape.take k) → i < n → j < prod (v.shape.drop (k + 1)) →
      w.flat[(i * prod (v.shape.take k) + o) * prod (v.shape.drop (k + 1)) + j]? =
        v.flat[(o * n + i) * prod (v.shape.drop (k + 1)) + j]?

private theorem moved_first {k n : Nat} {s : Sel} {src : List Nat} (hl : s.idx.length = prod s.shape) (hn : s.shape[k]? = some n)
    (hlt : ∀ i ∈ s.idx, i < src.length) :
    ∃ w, gather src (moveToFront k s).idx = .ok w ∧
      MovedFirst k ⟨s.shape, s.idx.map fun i => src.getD i 0⟩ ⟨(moveToFront k s).shape, w⟩ := by
  obtain ⟨hk, hk'⟩ := List.getElem?_eq_some_iff.1 hn
  have hprod : prod s.shape = prod (s.shape.take k) * (n * prod (s.shape.drop (k + 1))) := by
    conv_lhs => rw [← List.take_append_drop k s.shape, List.drop_eq_getElem_cons hk, prod_append, hk']
    rfl
  have hD : s.shape.getD k 0 = n := by rw [List.getD_eq_getElem?_getD, hn]; rfl
  have hidx : ∀ o i j, o < prod (s.shape.take k) → i < n → j < prod (s.shape.drop (k + 1)) →
      (o * n + i) * prod (s.shape.drop (k + 1)) + j < s.idx.length := by
    intro o i j ho hi hj
    rw [hl, hprod, ← Nat.mul_assoc]
    generalize prod (s.shape.drop (k + 1)) = inner at *
    generalize prod (s.shape.take k) = outer at *
    have h1 : o * n + i + 1 ≤ outer * n := by
      have := Nat.mul_le_mul_right n ho
      rw [Nat.succ_mul] at this; omega
    have := Nat.mul_le_mul_right inner h1
    rw [Nat.succ_mul] at this; omega
  have hmem : ∀ x ∈ (moveToFront k s).idx, x < src.length := by
    intro x hx
    simp only [moveToFront, List.mem_flatMap, List.mem_map, List.mem_range, hD] at hx
    obtain ⟨i, hi, o, ho, j, hj, rfl⟩ := hx
    have := hidx o i j ho hi hj
    rw [List.getD_eq_getElem?_getD, List.getElem?_eq_getElem this]
    exact hlt _ (List.getElem_mem _)
  refine ⟨_, gather_ok _ _ 0 hmem, n, hn, ?_, ?_, ?_⟩
  · show s.shape.getD k 0 :: (s.shape.take k ++ s.shape.drop (k + 1)) = _
    rw [hD, List.eraseIdx_eq_take_drop_succ]
  · simp only [List.length_map, moveToFront, hD]
    rw [Stempy.SparseFile.length_flatMap_uniform _ (prod (s.shape.take k) * prod (s.shape.drop (k + 1))), hl, hprod]
    · ring
    · intro i hi
      rw [Stempy.SparseFile.length_flatMap_uniform _ (prod (s.shape.drop (k + 1)))]
      intro o ho; simp
  · intro o i j ho hi hj
    simp only at ho hj ⊢
    rw [List.getElem?_map, List.getElem?_map]
    congr 1
    simp only [moveToFront, hD]
    have e : (i * prod (s.shape.take k) + o) * prod (s.shape.drop (k + 1)) + j =
        i * (prod (s.shape.take k) * prod (s.shape.drop (k + 1))) + (o * prod (s.shape.drop (k + 1)) + j) := by ring
    rw [e, Stempy.SparseFile.getElem?_flatMap_uniform _ (prod (s.shape.take k) * prod (s.shape.drop (k + 1))) _ _ _ _ hi,
      Stempy.SparseFile.getElem?_flatMap_uniform _ (prod (s.shape.drop (k + 1))) _ _ _ _ ho hj]
    · rw [List.getElem?_map, List.getElem?_range hj]
      have := hidx o i j ho hi hj
      simp [this]
    · intro o ho; simp
    · have := Nat.mul_le_mul_right (prod (s.shape.drop (k + 1))) ho
      rw [Nat.succ_mul] at this; omega
    · intro i hi
      rw [Stempy.SparseFile.length_flatMap_uniform _ (prod (s.shape.drop (k + 1)))]
      intro o ho; simp

private theorem axesBefore_cons (x : Item) (items : List Item) :
    axesBefore (x :: items) = if x.isArray then 0 else (if x.advanced then 0 else 1) + axesBefore items := by
  unfold axesBefore
  cases x <;> simp [Item.isArray, Item.advanced, Nat.add_comm]

/-- The result has an axis for the arrays, after one for every slice before them. -/
private theorem axesBefore_lt {shape : List Nat} {items : List Item} (hi : ∀ it ∈ items, it.Proper)
    (ha : items.any Item.isArray = true) {s : Sel} (h : selectPairs shape items = .ok s) : axesBefore items < s.shape.length := by
  induction items generalizing shape s with
  | nil => simp at ha
  | cons x items ih =>
    rw [axesBefore_cons]
    by_cases hx : x.isArray = true
    · rw [if_pos hx]
      exact List.length_pos_iff.2 (((selectPairs_facts hi).2 s h).2 ha)
    · rw [if_neg hx]
      rw [List.any_cons, Bool.or_eq_true] at ha
      have ha := ha.resolve_left hx
      rw [selectPairs_cons _ _ _ (fun y rest n m s _ _ => by
        cases hp : pair x y with
        | false => rfl
        | true => simp [pair, hx] at hp)] at h
      cases h1 : selectItem shape x with
      | ub => rw [h1] at h; simp [Outcome.bind] at h
      | throw m => rw [h1] at h; simp [Outcome.bind] at h
      | ok r =>
        obtain ⟨a, k⟩ := r
        rw [h1] at h
        simp only [Outcome.bind] at h
        cases h2 : selectPairs (shape.drop k) items with
        | ub => rw [h2] at h; simp at h
        | throw m => rw [h2] at h; simp at h
        | ok b =>
          rw [h2] at h
          simp only [Outcome.ok.injEq] at h
          subst h
          have := ih (fun it h => hi it (by simp [h])) ha h2
          simp only [Sel.product, List.length_append]
          have hs : (if x.advanced = true then 0 else 1) ≤ a.shape.length := by
            cases x with
            | slice p q r =>
              cases shape with
              | nil => simp [selectItem] at h1
              | cons n sh =>
                simp only [selectItem] at h1
                cases h3 : sliceIndexes n p q r with
                | ub => rw [h3] at h1; simp at h1
                | throw m => rw [h3] at h1; simp at h1
                | ok l =>
                  rw [h3, Outcome.ok_bind, Outcome.ok.injEq, Prod.mk.injEq] at h1
                  rw [← h1.1]; simp [Item.advanced]
            | ellipsis => exact absurd rfl (hi _ (by simp)).1
            | int i => simp [Item.advanced]
            | ints l => simp [Item.isArray] at hx
            | mask s b => simp [Item.isArray] at hx
          omega

end Stempy.Numpy

namespace Stempy.Sparse
open Numpy

private theorem indexPairs_separated {a : SparseArray} (ha : WF a) (hfr : a.frameShape.length ≤ 2) {scan frame : List Item}
    (hk : ∀ it ∈ scan ++ frame, it.Proper) (hfl : frame.length ≤ a.frameShape.length)
    (hsep : separated (scan ++ frame) = true) (hsplit : splitSlices a (scan ++ frame) = .ok (scan, frame)) {ss fs : Sel}
    (h1 : selection a.scanShape scan = .ok ss) (h2 : selection a.frameShape frame = .ok fs) :
    ∃ w, indexPairs (dense a) (scan ++ frame) = .ok w ∧ MovedFirst (axesBefore (scan ++ frame)) (picked a ss fs) w := by
  have hsel := selectPairs_split ha hfr hk hfl hsplit
  rw [h1, h2] at hsel
  simp only [Outcome.bind] at hsel
  have hany : (scan ++ frame).any Item.isArray = true := by
    unfold separated at hsep
    rw [Bool.and_eq_true] at hsep
    exact hsep.1
  have hlt := axesBefore_lt hk hany hsel
  have hv := valid_product (selection_ok h1).1 (selection_ok h2).1
  obtain ⟨w, hw, hm⟩ := moved_first (k := axesBefore (scan ++ frame)) (src := (dense a).flat) hv.length (List.getElem?_eq_getElem hlt)
    (by rw [dense_length, ← prod_append]; exact hv.lt)
  refine ⟨⟨(moveToFront (axesBefore (scan ++ frame)) (ss.product fs (prod a.frameShape))).shape, w⟩, ?_, ?_⟩
  · unfold indexPairs
    rw [hsel, Outcome.ok_bind]
    simp only [hsep, if_true]
    rw [hw, Outcome.ok_bind]
  · have hg := gather_dense a (selection_ok h1).1 (selection_ok h2).1
    rw [gather_ok _ _ 0 (by rw [dense_length, ← prod_append]; exact hv.lt), Outcome.ok.injEq] at hg
    rw [hg] at hm
    exact hm

/-- **C44** With sparse results: if the arrays and integers are not next to each other, NumPy's result is that of the sparse array with the axis
of the arrays moved to the front; the exceptions are the same. -/
theorem C44_separated (a : SparseArray) (ha : WF a) (hfr : a.frameShape.length = 2) (hsp : a.sparseSlicing = true)
    (key scan frame : List Item) (hk : ∀ it ∈ key, it.Proper) (hsep : separated key = true)
    (hsplit : splitSlices a key = .ok (scan, frame)) (hn : ∀ fs, selection a.frameShape frame = .ok fs → fs.idx.Nodup) :
    (∃ m, (getitem a key).bind Value.toDense = .throw m ∧ indexPairs (dense a) key = .throw m) ∨
    ∃ v w, (getitem a key).bind Value.toDense = .ok (.dense v) ∧ indexPairs (dense a) key = .ok w ∧
      MovedFirst (axesBefore key) v w := by
  obtain ⟨rfl, hsl, hfl, -⟩ := split_facts ha hk hsplit
  have hne : a.frameShape ≠ [] := by intro h; rw [h] at hfr; simp at hfr
  have hg : getitem a (scan ++ frame) = sliceSparse a scan frame := by
    rw [getitem, hsplit, Outcome.ok_bind]
    simp only [hsp, if_true]
  have hsel := selectPairs_split ha (by omega) hk (by omega) hsplit
  have hub := (selectPairs_facts (shape := (dense a).shape) hk).1
  rw [hg, sliceSparse_bind' ha hne hsl (by omega) hn]
  cases h1 : selection a.scanShape scan with
  | ub => rw [hsel, h1] at hub; exact absurd rfl hub
  | throw m =>
    refine .inl ⟨m, rfl, ?_⟩
    unfold indexPairs
    rw [hsel, h1]; rfl
  | ok ss =>
    cases h2 : selection a.frameShape frame with
    | ub => rw [hsel, h1, h2] at hub; exact absurd rfl hub
    | throw m =>
      refine .inl ⟨m, rfl, ?_⟩
      unfold indexPairs
      rw [hsel, h1, h2]; rfl
    | ok fs =>
      obtain ⟨w, hw, hm⟩ := indexPairs_separated ha (by omega) hk (by omega) hsep hsplit h1 h2
      exact .inr ⟨_, w, rfl, hw, hm⟩

/-- **C44** is false for all these expressions for which the axis of the arrays and the first axis of the result have different lengths. -/
theorem C44_separated_any_false (a : SparseArray) (ha : WF a) (hfr : a.frameShape.length = 2) (hsp : a.sparseSlicing = true)
    (key scan frame : List Item) (hk : ∀ it ∈ key, it.Proper) (hsep : separated key = true)
    (hsplit : splitSlices a key = .ok (scan, frame)) (hn : ∀ fs, selection a.frameShape frame = .ok fs → fs.idx.Nodup)
    {v : NArray Nat} (hv : (getitem a key).bind Value.toDense = .ok (.dense v)) (hd : v.shape[axesBefore key]? ≠ v.shape[0]?) :
    (getitem a key).bind Value.toDense ≠ (indexPairs (dense a) key).bind fun x => .ok (.dense x) := by
  intro h
  rcases C44_separated a ha hfr hsp key scan frame hk hsep hsplit hn with ⟨m, h1, -⟩ | ⟨v', w, h1, h2, n, hn, hw, -, -⟩
  · rw [hv] at h1; simp at h1
  · rw [hv, Outcome.ok.injEq, Value.dense.injEq] at h1
    subst h1
    rw [hv, h2] at h
    simp only [Outcome.bind, Outcome.ok.injEq, Value.dense.injEq] at h
    subst h
    rw [hn, hw] at hd
    exact hd rfl

example : separated [.int 1, .all, .all, .ints [2]] = true ∧ separated [.all, .int 1, .ints [2, 0]] = false ∧
    separated [.all, .int 1, .all, .int 2] = false ∧ axesBefore [.int 1, .all, .all, .ints [2]] = 2 := by decide

/-- The hypotheses hold for `array[1, :, :, [2]]`. -/
example : (getitem sample [.int 1, .all, .all, .ints [2]]).bind Value.toDense ≠
    (indexPairs (dense sample) [.int 1, .all, .all, .ints [2]]).bind fun x => .ok (.dense x) := by
  refine C44_separated_any_false sample sample_wf rfl rfl _ [.int 1, .all] [.all, .ints [2]] ?_ (by decide) (by decide) ?_
    (v := ⟨[2, 2, 1], [1, 0, 2, 0]⟩) (by decide) (by decide)
  · intro it h
    simp only [List.mem_cons, List.not_mem_nil, or_false] at h
    rcases h with rfl | rfl | rfl | rfl <;> exact ⟨by decide, by simp [Item.all]⟩
  · intro fs h
    have e : selection sample.frameShape [.all, .ints [2]] = .ok ⟨[2, 1], [2, 5]⟩ := by decide
    rw [e, Outcome.ok.injEq] at h
    subst h; decide

end Stempy.Sparse
