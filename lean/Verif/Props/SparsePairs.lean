import Mathlib.Tactic.Conv
import Verif.Props.SparseIndex

/-!
# C44: index expressions with two arrays

All index expressions that `_split_slices` accepts have at most one array, or two arrays for the two axes of the scan or for the two axes
of the frames. `indexPairs` (`Model/NumpyAdvanced`) is what NumPy does with them.
-/

namespace Stempy.Numpy

/-- Two one-dimensional arrays. -/
def pair (x y : Item) : Bool := x.isArray && y.isArray && x.ndim == 1 && y.ndim == 1

theorem selectPairs_cons (shape : List Nat) (x : Item) (items : List Item)
    (h : ∀ y rest n m s, items = y :: rest → shape = n :: m :: s → pair x y = false) :
    selectPairs shape (x :: items) = (selectItem shape x).bind fun r =>
      (selectPairs (shape.drop r.2) items).bind fun b => .ok (r.1.product b (prod (shape.drop r.2))) := by
  conv_lhs => unfold selectPairs
  split
  · rename_i y rest n m s
    have := h y rest n m s rfl rfl
    unfold pair at this
    rw [this]; rfl
  · rfl

theorem selectPairs_two (n m : Nat) (s : List Nat) (x y : Item) (rest : List Item) (h : pair x y = true) :
    selectPairs (n :: m :: s) (x :: y :: rest) = (selectItem [n] x).bind fun a => (selectItem [m] y).bind fun b =>
      (broadcast a.1.idx b.1.idx).bind fun l => (select s rest).bind fun r =>
        .ok (Sel.product ⟨[l.length], l.map fun p => p.1 * m + p.2⟩ r (prod s)) := by
  rw [selectPairs]
  unfold pair at h
  rw [if_pos h]; rfl

/-- Without two arrays it is `select`. -/
theorem selectPairs_select (shape : List Nat) (items : List Item) (h : items.countP Item.isArray ≤ 1) :
    selectPairs shape items = select shape items := by
  induction items generalizing shape with
  | nil => rfl
  | cons x items ih =>
    rw [selectPairs_cons, select]
    · congr 1
      funext r
      rw [ih _ (by rw [List.countP_cons] at h; omega)]; rfl
    · intro y rest n m s hy _
      subst hy
      unfold pair
      cases hx : x.isArray <;> cases hy : y.isArray <;> simp [hx, hy] at h ⊢

private theorem count_zero {l : List Item} (h : l.any Item.isArray = false) : l.countP Item.isArray = 0 := by
  rw [List.countP_eq_zero]
  simpa using h

/-- Arrays in the first part only. -/
theorem selectPairs_append_left (s t : List Nat) (i j : List Item) (hi : ∀ it ∈ i, it.Proper)
    (hij : (i.map axes).sum = s.length ∨ (i.map axes).sum ≤ s.length ∧ j = []) (hj : j.any Item.isArray = false) :
    selectPairs (s ++ t) (i ++ j) = (selectPairs s i).bind fun a => (select t j).bind fun b => .ok (a.product b (prod t)) := by
  induction i generalizing s with
  | nil =>
    rw [selectPairs_select _ _ (by rw [List.nil_append, count_zero hj]; omega),
      select_append' s t [] j (by simp) hij]; rfl
  | cons x i ih =>
    have hxp := Sparse.isArray_axes (hi x (by simp))
    have hle : axes x ≤ s.length := by
      simp only [List.map_cons, List.sum_cons] at hij
      rcases hij with h | h <;> omega
    by_cases hp : ∃ y i', i = y :: i' ∧ pair x y = true
    · obtain ⟨y, i', rfl, hp⟩ := hp
      have hyp := Sparse.isArray_axes (hi y (by simp))
      have hnd : axes x = 1 ∧ axes y = 1 := by
        unfold pair at hp
        simp only [Bool.and_eq_true, beq_iff_eq] at hp
        rw [hxp.1, hyp.1, if_pos hp.1.1.1, if_pos hp.1.1.2]
        exact ⟨hp.1.2, hp.2⟩
      match s, hij with
      | [], hij => simp only [List.map_cons, List.sum_cons, List.length_nil] at hij; omega
      | [n], hij => simp only [List.map_cons, List.sum_cons, List.length_cons, List.length_nil] at hij; omega
      | n :: m :: s, hij =>
        have := select_append' s t i' j (fun it h => (hi it (by simp [h])).1) (by
          simp only [List.map_cons, List.sum_cons, List.length_cons] at hij
          rcases hij with h | h
          · left; omega
          · right; exact ⟨by omega, h.2⟩)
        simp only [List.cons_append]
        rw [selectPairs_two _ _ _ _ _ _ hp, selectPairs_two _ _ _ _ _ _ hp, this]
        cases selectItem [n] x with
        | throw m => rfl
        | ub => rfl
        | ok a =>
          cases selectItem [m] y with
          | throw m => rfl
          | ub => rfl
          | ok b =>
            show (broadcast a.1.idx b.1.idx).bind _ = ((broadcast a.1.idx b.1.idx).bind _).bind _
            cases broadcast a.1.idx b.1.idx with
            | throw m => rfl
            | ub => rfl
            | ok l =>
              show ((select s i').bind _).bind _ = ((select s i').bind _).bind _
              cases select s i' with
              | throw m => rfl
              | ub => rfl
              | ok c =>
                show ((select t j).bind _).bind _ = (select t j).bind _
                cases select t j with
                | throw m => rfl
                | ub => rfl
                | ok d =>
                  show Outcome.ok _ = Outcome.ok _
                  rw [prod_append, product_assoc]
    · have hno : ∀ y rest, i ++ j = y :: rest → pair x y = false := by
        intro y rest h
        cases i with
        | cons z i' =>
          simp only [List.cons_append, List.cons.injEq] at h
          cases hpz : pair x y with
          | false => rfl
          | true => exact absurd ⟨y, i', by rw [h.1], hpz⟩ hp
        | nil =>
          rw [List.nil_append] at h
          rw [h, List.any_cons, Bool.or_eq_false_iff] at hj
          simp [pair, hj.1]
      rw [List.cons_append, selectPairs_cons _ _ _ (fun y rest n m s' h _ => hno y rest h),
        selectPairs_cons _ _ _ (fun y rest n m s' h _ => hno y (rest ++ j) (by rw [h]; rfl))]
      obtain ⟨h1, h2⟩ := selectItem_append (t := t) (hi x (by simp)).1 hle
      rw [h1]
      cases hx : selectItem s x with
      | throw m => rfl
      | ub => rfl
      | ok r =>
        obtain ⟨a, k⟩ := r
        have hk := h2 a k hx
        subst hk
        have := ih (s.drop (axes x)) (fun it hit => hi it (by simp [hit])) (by
          simp only [List.map_cons, List.sum_cons] at hij
          rw [List.length_drop]
          rcases hij with h | h
          · left; omega
          · right; exact ⟨by omega, h.2⟩)
        show (selectPairs ((s ++ t).drop (axes x)) (i ++ j)).bind (fun b => .ok (a.product b (prod ((s ++ t).drop (axes x))))) =
          ((selectPairs (s.drop (axes x)) i).bind fun b => .ok (a.product b (prod (s.drop (axes x))))).bind fun a =>
            (select t j).bind fun b => .ok (a.product b (prod t))
        rw [List.drop_append_of_le_length hle, this]
        cases selectPairs (s.drop (axes x)) i with
        | throw m => rfl
        | ub => rfl
        | ok b =>
          cases select t j with
          | throw m => rfl
          | ub => rfl
          | ok c =>
            show Outcome.ok _ = Outcome.ok _
            rw [prod_append, product_assoc]

/-- Arrays in the second part only. -/
theorem selectPairs_append_right (s t : List Nat) (i j : List Item) (hi : ∀ it ∈ i, it.Proper)
    (hij : (i.map axes).sum = s.length ∨ (i.map axes).sum ≤ s.length ∧ j = []) (hn : i.any Item.isArray = false) :
    selectPairs (s ++ t) (i ++ j) = (select s i).bind fun a => (selectPairs t j).bind fun b => .ok (a.product b (prod t)) := by
  induction i generalizing s with
  | nil =>
    rcases hij with h | ⟨-, rfl⟩
    · have : s = [] := List.length_eq_zero_iff.1 (by simpa using h.symm)
      subst this
      show selectPairs t j = (selectPairs t j).bind fun b => .ok (Sel.product ⟨[], List.range 1⟩ b (prod t))
      cases selectPairs t j with
      | throw m => rfl
      | ub => rfl
      | ok b =>
        show Outcome.ok b = Outcome.ok (Sel.product ⟨[], List.range 1⟩ b (prod t))
        congr 1
        rw [Sel.ext_iff']
        simp [Sel.product, List.range_one]
    · rw [selectPairs_select _ _ (by simp), selectPairs_select _ _ (by simp), select_append' s t [] [] (by simp) (by simp)]
  | cons x i ih =>
    rw [List.any_cons, Bool.or_eq_false_iff] at hn
    have hle : axes x ≤ s.length := by
      simp only [List.map_cons, List.sum_cons] at hij
      rcases hij with h | h <;> omega
    rw [List.cons_append, selectPairs_cons _ _ _ (fun y rest n m s' _ _ => by simp [pair, hn.1]), select]
    obtain ⟨h1, h2⟩ := selectItem_append (t := t) (hi x (by simp)).1 hle
    rw [h1]
    cases hx : selectItem s x with
    | throw m => rfl
    | ub => rfl
    | ok r =>
      obtain ⟨a, k⟩ := r
      have hk := h2 a k hx
      subst hk
      have := ih (s.drop (axes x)) (fun it hit => hi it (by simp [hit])) (by
        simp only [List.map_cons, List.sum_cons] at hij
        rw [List.length_drop]
        rcases hij with h | h
        · left; omega
        · right; exact ⟨by omega, h.2⟩) hn.2
      show (selectPairs ((s ++ t).drop (axes x)) (i ++ j)).bind (fun b => .ok (a.product b (prod ((s ++ t).drop (axes x))))) =
        ((select (s.drop (axes x)) i).bind fun b => .ok (a.product b (prod (s.drop (axes x))))).bind fun a =>
          (selectPairs t j).bind fun b => .ok (a.product b (prod t))
      rw [List.drop_append_of_le_length hle, this]
      cases select (s.drop (axes x)) i with
      | throw m => rfl
      | ub => rfl
      | ok b =>
        cases selectPairs t j with
        | throw m => rfl
        | ub => rfl
        | ok c =>
          show Outcome.ok _ = Outcome.ok _
          rw [prod_append, product_assoc]

/-- Indexing of the arrays of scan positions and pixels. -/
theorem selection_pairs {shape : List Nat} {items : List Item} (h : ∀ it ∈ items, it.Proper) (hs : shape.length ≤ 2)
    (hl : items.length ≤ shape.length) : selection shape items = selectPairs shape items := by
  by_cases hc : items.countP Item.isArray ≤ 1
  · rw [selection_select (fun it hit => (h it hit).1) hc, selectPairs_select _ _ hc]
  · match items, shape, hs, hl, hc with
    | [], _, _, _, hc => simp at hc
    | [x], _, _, _, hc => exact absurd List.countP_le_length hc
    | _ :: _ :: _ :: _, s, hs, hl, _ => simp at hl; omega
    | [_, _], [], _, hl, _ => simp at hl
    | [_, _], [_], _, hl, _ => simp at hl
    | [_, _], _ :: _ :: _ :: _, hs, _, _ => simp at hs
    | [x, y], [n, m], _, _, hc =>
      by_cases hp : pair x y = true
      · rw [selectPairs_two _ _ _ _ _ _ hp, selection]
        unfold pair at hp
        rw [if_pos hp]
        cases selectItem [n] x with
        | throw m => rfl
        | ub => rfl
        | ok a =>
          cases selectItem [m] y with
          | throw m => rfl
          | ub => rfl
          | ok b =>
            show (broadcast a.1.idx b.1.idx).bind _ = (broadcast a.1.idx b.1.idx).bind _
            congr 1
            funext l
            show Outcome.ok _ = Outcome.ok _
            congr 1
            rw [Sel.ext_iff']
            simp [Sel.product, prod, List.range_one, List.map_eq_flatMap]
      · have he : expandEllipsis 2 [x, y] = [x, y] := expandEllipsis_none _ _ fun hm => (h _ hm).1 rfl
        rw [selection]
        have hp' : ¬ ((x.isArray && y.isArray && x.ndim == 1 && y.ndim == 1) = true) := hp
        rw [if_neg hp']
        show select [n, m] (expandEllipsis 2 [x, y]) = _
        rw [he, selectPairs_cons _ _ _ (fun y' rest n' m' s' h _ => by
          simp only [List.cons.injEq] at h
          rw [← h.1]; simpa using hp), select]
        congr 1

theorem selectItem_facts {shape : List Nat} {it : Item} (he : it ≠ .ellipsis) :
    selectItem shape it ≠ .ub ∧ ∀ a k, selectItem shape it = .ok (a, k) → k = axes it ∧ axes it ≤ shape.length ∧
      (it.isArray = true → a.shape ≠ []) := by
  by_cases hle : axes it ≤ shape.length
  · obtain ⟨h1, h2⟩ := selectItem_append (t := []) he hle
    refine ⟨?_, fun a k h => ⟨h2 a k h, hle, ?_⟩⟩
    · intro h
      cases it with
      | ellipsis => exact he rfl
      | slice x y z =>
        cases shape with
        | nil => simp [selectItem] at h
        | cons n s =>
          simp only [selectItem] at h
          have : sliceIndexes n x y z ≠ .ub := by
            by_cases hz : z.getD 1 = 0 <;> simp [sliceIndexes, sliceRange, hz]
          cases hl : sliceIndexes n x y z <;> rw [hl] at h <;> simp at h
          exact this hl
      | int i =>
        cases shape with
        | nil => simp [selectItem] at h
        | cons n s =>
          simp only [selectItem] at h
          have : intIndex n i ≠ .ub := intIndex_ne_ub n i
          cases hl : intIndex n i <;> rw [hl] at h <;> simp at h
          exact this hl
      | ints l =>
        cases shape with
        | nil => simp [selectItem] at h
        | cons n s =>
          simp only [selectItem] at h
          have : l.mapM (intIndex n) ≠ .ub := mapM_ne_ub (fun i => intIndex_ne_ub n i) l
          cases hl : l.mapM (intIndex n) <;> rw [hl] at h <;> simp at h
          exact this hl
      | mask m bits =>
        simp only [selectItem] at h
        split at h <;> simp at h
    · intro ha
      cases it with
      | ints l =>
        cases shape with
        | nil => simp [selectItem] at h
        | cons n s =>
          simp only [selectItem] at h
          cases hl : l.mapM (intIndex n) <;> rw [hl] at h <;> simp at h
          rw [← h.1]; simp
      | mask m bits =>
        simp only [selectItem] at h
        split at h
        · simp at h; rw [← h.1]; simp
        · simp at h
      | _ => simp [Item.isArray] at ha
  · have ht : selectItem shape it = .throw "IndexError" := by
      cases it with
      | ellipsis => exact absurd rfl he
      | mask m bits =>
        simp only [axes] at hle
        simp only [selectItem]
        rw [if_neg]
        rintro ⟨-, h, -⟩
        have := congrArg List.length h
        rw [List.length_take] at this
        omega
      | _ =>
        simp only [axes] at hle
        have : shape = [] := List.length_eq_zero_iff.1 (by omega)
        subst this
        rfl
    rw [ht]; simp
where
  intIndex_ne_ub (n : Nat) (i : Int) : intIndex n i ≠ .ub := by
    unfold intIndex
    generalize (if i < 0 then i + n else i) = j
    dsimp only
    split <;> simp
  mapM_ne_ub {f : Int → Outcome Nat} (hf : ∀ i, f i ≠ .ub) : ∀ l : List Int, l.mapM f ≠ .ub
    | [] => by simp
    | x :: l => by
      rw [List.mapM_cons]
      have h2 := mapM_ne_ub hf l
      cases h : f x with
      | ub => exact absurd h (hf x)
      | throw m => simp
      | ok v =>
        rw [Outcome.ok_bind]
        cases h' : l.mapM f with
        | ub => exact absurd h' h2
        | throw m => simp
        | ok v => simp

private theorem select_facts {shape : List Nat} {items : List Item} (hi : ∀ it ∈ items, it ≠ .ellipsis) :
    select shape items ≠ .ub ∧ ∀ a, select shape items = .ok a → (items.map axes).sum ≤ shape.length ∧
      (items.any Item.isArray = true → a.shape ≠ []) := by
  induction items generalizing shape with
  | nil => simp [select]
  | cons x items ih =>
    obtain ⟨h1, h2⟩ := selectItem_facts (shape := shape) (hi x (by simp))
    rw [select]
    cases hx : selectItem shape x with
    | ub => exact absurd hx h1
    | throw m => simp
    | ok r =>
      obtain ⟨a, k⟩ := r
      obtain ⟨rfl, hle, hs⟩ := h2 a k hx
      obtain ⟨h3, h4⟩ := ih (shape := shape.drop (axes x)) (fun it h => hi it (by simp [h]))
      rw [Outcome.ok_bind]
      cases hr : select (shape.drop (axes x)) items with
      | ub => exact absurd hr h3
      | throw m => simp [hr]
      | ok b =>
        have := h4 b hr
        refine ⟨by simp [hr], fun c hc => ?_⟩
        simp only [hr, Outcome.ok_bind, Outcome.ok.injEq] at hc
        subst hc
        rw [List.length_drop] at this
        refine ⟨by simp only [List.map_cons, List.sum_cons]; omega, fun ha => ?_⟩
        rw [List.any_cons, Bool.or_eq_true] at ha
        simp only [Sel.product]
        rcases ha with ha | ha
        · have := hs ha
          simp [this]
        · have := this.2 ha
          simp [this]

private theorem broadcast_ne_ub (a b : List Nat) : broadcast a b ≠ .ub := by
  unfold broadcast
  split
  · simp
  · split
    · simp
    · split <;> simp

theorem selectPairs_facts {shape : List Nat} {items : List Item} (hi : ∀ it ∈ items, it.Proper) :
    selectPairs shape items ≠ .ub ∧ ∀ a, selectPairs shape items = .ok a → (items.map axes).sum ≤ shape.length ∧
      (items.any Item.isArray = true → a.shape ≠ []) := by
  induction items generalizing shape with
  | nil => simp [selectPairs]
  | cons x items ih =>
    by_cases hp : ∃ y rest n m s, items = y :: rest ∧ shape = n :: m :: s ∧ pair x y = true
    · obtain ⟨y, rest, n, m, s, rfl, rfl, hp⟩ := hp
      have hxp := Sparse.isArray_axes (hi x (by simp))
      have hyp := Sparse.isArray_axes (hi y (by simp))
      have hnd : axes x = 1 ∧ axes y = 1 := by
        have hp := hp
        unfold pair at hp
        simp only [Bool.and_eq_true, beq_iff_eq] at hp
        rw [hxp.1, hyp.1, if_pos hp.1.1.1, if_pos hp.1.1.2]
        exact ⟨hp.1.2, hp.2⟩
      rw [selectPairs_two _ _ _ _ _ _ hp]
      have hx := (selectItem_facts (shape := [n]) (hi x (by simp)).1).1
      have hy := (selectItem_facts (shape := [m]) (hi y (by simp)).1).1
      have hr := select_facts (shape := s) (items := rest) (fun it h => (hi it (by simp [h])).1)
      cases h1 : selectItem [n] x with
      | ub => exact absurd h1 hx
      | throw m => simp [Outcome.bind]
      | ok a =>
        cases h2 : selectItem [m] y with
        | ub => exact absurd h2 hy
        | throw m => simp [Outcome.bind]
        | ok b =>
          cases h3 : broadcast a.1.idx b.1.idx with
          | ub => exact absurd h3 (broadcast_ne_ub _ _)
          | throw m => simp [Outcome.bind, h3]
          | ok l =>
            cases h4 : select s rest with
            | ub => exact absurd h4 hr.1
            | throw m => simp [Outcome.bind, h3]
            | ok c =>
              have := hr.2 c h4
              simp only [Outcome.bind, h3, ne_eq, reduceCtorEq, not_false_eq_true, Outcome.ok.injEq, forall_eq', true_and]
              refine ⟨by simp only [List.map_cons, List.sum_cons, List.length_cons]; omega, fun _ => by simp [Sel.product]⟩
    · rw [selectPairs_cons _ _ _ (fun y rest n m s h1 h2 => by
        cases h : pair x y with
        | false => rfl
        | true => exact absurd ⟨y, rest, n, m, s, h1, h2, h⟩ hp)]
      obtain ⟨h1, h2⟩ := selectItem_facts (shape := shape) (hi x (by simp)).1
      cases hx : selectItem shape x with
      | ub => exact absurd hx h1
      | throw m => simp [Outcome.bind]
      | ok r =>
        obtain ⟨a, k⟩ := r
        obtain ⟨rfl, hle, hs⟩ := h2 a k hx
        obtain ⟨h3, h4⟩ := ih (shape := shape.drop (axes x)) (fun it h => hi it (by simp [h]))
        cases hr : selectPairs (shape.drop (axes x)) items with
        | ub => exact absurd hr h3
        | throw m => simp [Outcome.bind, hr]
        | ok b =>
          have := h4 b hr
          refine ⟨by simp [Outcome.bind, hr], fun c hc => ?_⟩
          simp only [Outcome.bind, hr, Outcome.ok.injEq] at hc
          subst hc
          rw [List.length_drop] at this
          refine ⟨by simp only [List.map_cons, List.sum_cons]; omega, fun ha => ?_⟩
          rw [List.any_cons, Bool.or_eq_true] at ha
          simp only [Sel.product]
          rcases ha with ha | ha
          · have := hs ha
            simp [this]
          · have := this.2 ha
            simp [this]

/-- `np.moveaxis(x, 0, 0)` -/
theorem moveToFront_zero {s : Sel} (hs : s.shape ≠ []) (hl : s.idx.length = prod s.shape) : moveToFront 0 s = s := by
  obtain ⟨shape, idx⟩ := s
  cases shape with
  | nil => exact absurd rfl hs
  | cons n s =>
    rw [Sel.ext_iff']
    refine ⟨by simp [moveToFront], ?_⟩
    simp only [moveToFront, List.take_zero, prod, List.range_one, List.flatMap_singleton, Nat.zero_mul, Nat.zero_add,
      List.getD_cons_zero, List.drop_succ_cons, List.drop_zero]
    simp only [prod] at hl
    generalize prod s = k at hl
    clear hs
    induction n generalizing idx with
    | zero =>
      rw [Nat.zero_mul] at hl
      rw [List.length_eq_zero_iff.1 hl]; rfl
    | succ n ih =>
      rw [List.range_succ_eq_map, List.flatMap_cons, List.flatMap_map]
      have h2 := ih (idx.drop k) (by rw [List.length_drop, hl, Nat.succ_mul]; omega)
      have h1 : (List.range k).map (fun j => idx.getD (0 * k + j) 0) = idx.take k := by
        apply List.ext_getElem
        · rw [List.length_map, List.length_range, List.length_take, hl, Nat.succ_mul]; omega
        · intro i h1 h2
          rw [List.length_take] at h2
          simp [List.getD_eq_getElem?_getD, show i < idx.length by omega]
      rw [h1]
      conv_rhs => rw [← List.take_append_drop k idx, ← h2]
      congr 1
      refine List.flatMap_congr fun i _ => List.map_congr_left fun j _ => ?_
      rw [List.getD_eq_getElem?_getD, List.getD_eq_getElem?_getD, List.getElem?_drop]
      congr 2
      rw [Nat.succ_mul]; omega

end Stempy.Numpy

namespace Stempy.Sparse
open Numpy

theorem splitSlices_cases (a : SparseArray) (key : List Item) :
    (∃ r, splitSlices a key = .ok r) ∨ splitSlices a key = .throw "IndexError" := by
  unfold splitSlices
  split
  · exact .inl ⟨_, rfl⟩
  · split
    · exact .inr rfl
    · dsimp only
      repeat' split
      all_goals first | exact .inr rfl | exact .inl ⟨_, rfl⟩

/-- Not both parts have arrays. -/
theorem split_arrays {a : SparseArray} {key scan frame : List Item} (h : splitSlices a key = .ok (scan, frame)) :
    scan.any Item.isArray = false ∨ frame.any Item.isArray = false := by
  cases key with
  | nil => simp only [splitSlices, Outcome.ok.injEq, Prod.mk.injEq] at h; exact .inl (by rw [← h.1]; rfl)
  | cons first rest =>
    simp only [splitSlices] at h
    generalize (decide (a.scanShape.length > 1) && (!first.isArray || decide (first.ndim = 1))) = two at h
    generalize (if two = true then first :: rest.take 1 else [first]) = sc at h
    generalize (if two = true then rest.drop 1 else rest) = fr at h
    by_cases h1 : tooManyDims first a.scanShape.length = true
    · rw [if_pos h1] at h; simp at h
    rw [if_neg h1] at h
    by_cases h2 : (two && tooManyDims (rest.headD .all) 1) = true
    · rw [if_pos h2] at h; simp at h
    rw [if_neg h2] at h
    by_cases h3 : (!frameSlicesOk fr) = true
    · rw [if_pos h3] at h; simp at h
    rw [if_neg h3] at h
    by_cases h4 : (sc.any Item.isArray && fr.any Item.isArray) = true
    · rw [if_pos h4] at h; simp at h
    rw [if_neg h4] at h
    split at h
    · simp at h
    · simp only [Outcome.ok.injEq, Prod.mk.injEq] at h
      obtain ⟨rfl, rfl⟩ := h
      simpa only [Bool.and_eq_true, not_and_or, Bool.not_eq_true] using h4

/-- The selection of the dense array, with the two parts of the index expression. -/
theorem selectPairs_split {a : SparseArray} (ha : WF a) (hfr : a.frameShape.length ≤ 2) {scan frame : List Item}
    (hk : ∀ it ∈ scan ++ frame, it.Proper) (hfl : frame.length ≤ a.frameShape.length)
    (hsplit : splitSlices a (scan ++ frame) = .ok (scan, frame)) :
    selectPairs (dense a).shape (scan ++ frame) =
      (selection a.scanShape scan).bind fun ss => (selection a.frameShape frame).bind fun fs =>
        .ok (ss.product fs (prod a.frameShape)) := by
  obtain ⟨-, hsl, -, hax⟩ := split_facts ha hk hsplit
  have hks : ∀ it ∈ scan, it.Proper := fun it h => hk it (by simp [h])
  have hkf : ∀ it ∈ frame, it.Proper := fun it h => hk it (by simp [h])
  have hs2 : a.scanShape.length ≤ 2 := by rcases ha.ndim with h | h <;> omega
  show selectPairs (a.scanShape ++ a.frameShape) (scan ++ frame) = _
  rw [selection_pairs hks hs2 hsl, selection_pairs hkf hfr hfl]
  rcases split_arrays hsplit with h | h
  · rw [selectPairs_append_right _ _ _ _ hks hax h, selectPairs_select _ scan]
    rw [List.countP_eq_zero.2 (by simpa using h)]; omega
  · rw [selectPairs_append_left _ _ _ _ hks hax h, selectPairs_select _ frame]
    rw [List.countP_eq_zero.2 (by simpa using h)]; omega

/-- NumPy's indexing of the dense array, with the two parts of the index expression. -/
theorem indexPairs_split {a : SparseArray} (ha : WF a) (hfr : a.frameShape.length ≤ 2) {scan frame : List Item}
    (hk : ∀ it ∈ scan ++ frame, it.Proper) (hfl : frame.length ≤ a.frameShape.length)
    (hsep : separated (scan ++ frame) = false ∨ axesBefore (scan ++ frame) = 0)
    (hsplit : splitSlices a (scan ++ frame) = .ok (scan, frame)) :
    indexPairs (dense a) (scan ++ frame) =
      (selection a.scanShape scan).bind fun ss => (selection a.frameShape frame).bind fun fs => .ok (picked a ss fs) := by
  have hsel := selectPairs_split ha hfr hk hfl hsplit
  have hfacts := selectPairs_facts (shape := (dense a).shape) hk
  unfold indexPairs
  rw [hsel]
  rw [hsel] at hfacts
  cases h1 : selection a.scanShape scan with
  | throw m => rfl
  | ub => rfl
  | ok ss =>
    cases h2 : selection a.frameShape frame with
    | throw m => rfl
    | ub => rfl
    | ok fs =>
      have hv := valid_product (selection_ok h1).1 (selection_ok h2).1
      have hmove : (if separated (scan ++ frame) = true then
          moveToFront (axesBefore (scan ++ frame)) (ss.product fs (prod a.frameShape)) else ss.product fs (prod a.frameShape)) =
          ss.product fs (prod a.frameShape) := by
        split
        · rename_i hse
          have h0 : axesBefore (scan ++ frame) = 0 := by
            rcases hsep with h | h
            · rw [h] at hse; simp at hse
            · exact h
          rw [h0]
          refine moveToFront_zero ?_ hv.length
          refine (hfacts.2 _ ?_).2 ?_
          · rw [h1, h2]; rfl
          · unfold separated at hse
            rw [Bool.and_eq_true] at hse
            exact hse.1
        · rfl
      show (gather (dense a).flat (if separated (scan ++ frame) = true then
          moveToFront (axesBefore (scan ++ frame)) (ss.product fs (prod a.frameShape)) else ss.product fs (prod a.frameShape)).idx).bind
        (fun l => Outcome.ok (NArray.mk (if separated (scan ++ frame) = true then
          moveToFront (axesBefore (scan ++ frame)) (ss.product fs (prod a.frameShape))
          else ss.product fs (prod a.frameShape)).shape l)) = _
      rw [hmove, gather_dense a (selection_ok h1).1 (selection_ok h2).1]
      rfl

/-- **C44** All index expressions without an ellipsis that the sparse array accepts, with a sparse result, and with up to two arrays: slicing
the sparse array and expanding it is the same as expanding it and slicing, including the exceptions, if the pixels are
distinct and NumPy leaves the axis of the arrays at its place (no integer is separated from the arrays by a slice, or there is no slice before
the arrays). Missing: see `C44_duplicates_lost`, `C44_separated_false`. -/
theorem C44_pairs_partial (a : SparseArray) (ha : WF a) (hfr : a.frameShape.length = 2) (hsp : a.sparseSlicing = true)
    (key scan frame : List Item) (hk : ∀ it ∈ key, it.Proper)
    (hsep : separated key = false ∨ axesBefore key = 0) (hsplit : splitSlices a key = .ok (scan, frame))
    (hn : ∀ fs, selection a.frameShape frame = .ok fs → fs.idx.Nodup) :
    (getitem a key).bind Value.toDense = (indexPairs (dense a) key).bind fun x => .ok (.dense x) := by
  obtain ⟨rfl, hsl, hfl, -⟩ := split_facts ha hk hsplit
  have hne : a.frameShape ≠ [] := by intro h; rw [h] at hfr; simp at hfr
  have hg : getitem a (scan ++ frame) = sliceSparse a scan frame := by
    rw [getitem, hsplit, Outcome.ok_bind]
    simp only [hsp, if_true]
  rw [hg, sliceSparse_bind' ha hne hsl (by omega) hn, indexPairs_split ha (by omega) hk (by omega) hsep hsplit]
  cases selection a.scanShape scan with
  | throw m => rfl
  | ub => rfl
  | ok ss => cases selection a.frameShape frame <;> rfl

/-- **C44**, **C49** The same with dense results, also for pixels that are selected twice: the dense array is indexed, and the result is refused if
it has the shape of the whole array and this is not allowed. -/
theorem C44_pairs_dense_partial (a : SparseArray) (ha : WF a) (hfr : a.frameShape.length = 2) (hsp : a.sparseSlicing = false)
    (key scan frame : List Item) (hk : ∀ it ∈ key, it.Proper)
    (hsep : separated key = false ∨ axesBefore key = 0) (hsplit : splitSlices a key = .ok (scan, frame)) :
    getitem a key = (indexPairs (dense a) key).bind fun x =>
      if x.shape = a.shape ∧ a.allowFullExpand = false then .throw "FullExpansionDenied" else .ok (.dense x) := by
  obtain ⟨rfl, -, hfl, -⟩ := split_facts ha hk hsplit
  rw [indexPairs_split ha (by omega) hk (by omega) hsep hsplit, getitem, hsplit, Outcome.ok_bind]
  simp only [hsp, Bool.false_eq_true, if_false]
  rw [sliceDense]
  cases h1 : selection a.scanShape scan with
  | throw m => rfl
  | ub => rfl
  | ok ss =>
    cases h2 : selection a.frameShape frame with
    | throw m => rfl
    | ub => rfl
    | ok fs =>
      show (sliceDenseSel a ss fs).bind _ = if ss.shape ++ fs.shape = a.shape ∧ a.allowFullExpand = false then
        Outcome.throw "FullExpansionDenied" else Outcome.ok (Value.dense (picked a ss fs))
      by_cases hfull : ss.shape ++ fs.shape = a.shape ∧ a.allowFullExpand = false
      · rw [if_pos hfull, sliceDenseSel, if_pos hfull]; rfl
      · rw [if_neg hfull, sliceDenseSel_ok ha (selection_ok h1).1 (selection_ok h2).1]
        · rfl
        · exact hfull

/-- The elements of an index expression with the first axis they are for. -/
def starts : Nat → List Item → List (Item × Nat)
  | _, [] => []
  | n, x :: items => (x, n) :: starts (n + axes x) items

/-- An array is for an axis with the property. -/
def ArrayOn (key : List Item) (p : Nat → Prop) : Prop :=
  ∃ x n, (x, n) ∈ starts 0 key ∧ x.isArray = true ∧ ∃ ax, n ≤ ax ∧ ax < n + axes x ∧ p ax

/-- There are arrays (or one mask) for axes of the scan and for axes of the frames. -/
def Mixed (a : SparseArray) (key : List Item) : Prop :=
  ArrayOn key (· < a.scanShape.length) ∧ ArrayOn key (a.scanShape.length ≤ ·)

private theorem starts_append (n : Nat) (i j : List Item) : starts n (i ++ j) = starts n i ++ starts (n + (i.map axes).sum) j := by
  induction i generalizing n with
  | nil => rfl
  | cons x i ih => simp [starts, ih, Nat.add_assoc]

private theorem starts_bounds {n k : Nat} {x : Item} {l : List Item} (h : (x, k) ∈ starts n l) :
    x ∈ l ∧ n ≤ k ∧ k + axes x ≤ n + (l.map axes).sum := by
  induction l generalizing n with
  | nil => simp [starts] at h
  | cons y l ih =>
    simp only [starts, List.mem_cons, Prod.mk.injEq] at h
    rcases h with ⟨rfl, rfl⟩ | h
    · simp
    · obtain ⟨h1, h2, h3⟩ := ih h
      refine ⟨by simp [h1], by omega, ?_⟩
      simp only [List.map_cons, List.sum_cons]; omega

private theorem any_starts {n : Nat} {l : List Item} (h : l.any Item.isArray = true) :
    ∃ x k, (x, k) ∈ starts n l ∧ x.isArray = true := by
  induction l generalizing n with
  | nil => simp at h
  | cons y l ih =>
    rw [List.any_cons, Bool.or_eq_true] at h
    rcases h with h | h
    · exact ⟨y, n, by simp [starts], h⟩
    · obtain ⟨x, k, hx, hk⟩ := ih (n := n + axes y) h
      exact ⟨x, k, by simp [starts, hx], hk⟩

/-- **C44** Arrays for axes of the scan and of the frames are always an error. -/
theorem C44_mixed (a : SparseArray) (ha : WF a) (key : List Item) (hk : ∀ it ∈ key, it.Proper) (hm : Mixed a key) :
    getitem a key = .throw "IndexError" := by
  rcases splitSlices_cases a key with ⟨⟨scan, frame⟩, h⟩ | h
  · exfalso
    obtain ⟨rfl, -, -, hax⟩ := split_facts ha hk h
    obtain ⟨⟨x, n, hx, hxa, ax, h1, h2, h3⟩, ⟨y, m, hy, hya, ay, h4, h5, h6⟩⟩ := hm
    rw [starts_append, List.mem_append] at hx hy
    have hxs : scan.any Item.isArray = true := by
      rcases hx with hx | hx
      · exact List.any_eq_true.2 ⟨x, (starts_bounds hx).1, hxa⟩
      · obtain ⟨hm, hb, -⟩ := starts_bounds hx
        rcases hax with h | ⟨-, h⟩
        · omega
        · rw [h] at hm; simp at hm
    have hyf : frame.any Item.isArray = true := by
      rcases hy with hy | hy
      · obtain ⟨-, -, hb⟩ := starts_bounds hy
        rcases hax with h | ⟨h, -⟩ <;> omega
      · exact List.any_eq_true.2 ⟨y, (starts_bounds hy).1, hya⟩
    rcases split_arrays h with h | h
    · rw [hxs] at h; simp at h
    · rw [hyf] at h; simp at h
  · rw [getitem, h]; rfl

/-- **C44** Every other expression that the sparse array does not accept is an error for NumPy, too. -/
theorem C44_refused (a : SparseArray) (ha : WF a) (hfr : a.frameShape.length = 2) (key : List Item) (hk : ∀ it ∈ key, it.Proper)
    (hm : ¬ Mixed a key) (h : ∀ r, splitSlices a key ≠ .ok r) :
    getitem a key = .throw "IndexError" ∧ ∃ m, indexPairs (dense a) key = .throw m := by
  have hthrow : splitSlices a key = .throw "IndexError" := (splitSlices_cases a key).resolve_left fun ⟨r, hr⟩ => h r hr
  refine ⟨by rw [getitem, hthrow]; rfl, ?_⟩
  have hfacts := selectPairs_facts (shape := (dense a).shape) hk
  have key_throw : (∀ s, selectPairs (dense a).shape key ≠ .ok s) → ∃ m, indexPairs (dense a) key = .throw m := by
    intro hs
    unfold indexPairs
    cases hr : selectPairs (dense a).shape key with
    | ub => exact absurd hr hfacts.1
    | throw m => exact ⟨m, rfl⟩
    | ok s => exact absurd hr (hs s)
  apply key_throw
  have hlen : (dense a).shape.length = a.scanShape.length + 2 := by
    show (a.scanShape ++ a.frameShape).length = _
    rw [List.length_append, hfr]
  have many : a.scanShape.length + 2 < (key.map axes).sum → ∀ s, selectPairs (dense a).shape key ≠ .ok s := by
    intro hgt s hs
    have := (hfacts.2 s hs).1
    omega
  cases key with
  | nil => exact absurd rfl (h _)
  | cons first rest =>
    have hf := isArray_axes (hk first (by simp))
    have hpos := ha.ndim
    have hfirst : tooManyDims first a.scanShape.length = false := by
      by_contra hne
      simp only [tooManyDims, Bool.not_eq_false, Bool.and_eq_true, decide_eq_true_eq] at hne
      rw [if_pos hne.1] at hf
      refine hm ⟨⟨first, 0, by simp [starts], hne.1, 0, by omega, by omega, by rcases hpos with h | h <;> omega⟩,
        ⟨first, 0, by simp [starts], hne.1, a.scanShape.length, by omega, by omega, le_rfl⟩⟩
    simp only [splitSlices, hfirst, Bool.false_eq_true, if_false] at h
    -- the frame part and the sum of the axes
    have core : ∀ scan frame : List Item, first :: rest = scan ++ frame → (scan = [first] ∨ ∃ y, scan = [first, y]) →
        ((scan.map axes).sum = a.scanShape.length ∨ frame = []) →
        (∀ r, (if (!frameSlicesOk frame) = true then (Outcome.throw "IndexError" : Outcome (List Item × List Item))
          else if (scan.any Item.isArray && frame.any Item.isArray) = true then .throw "IndexError"
          else if (!maskOk first a.scanShape || !maskOk (frame.headD .all) a.frameShape) = true then .throw "IndexError"
          else .ok (scan, frame)) ≠ .ok r) →
        ∀ s, selectPairs (dense a).shape (first :: rest) ≠ .ok s := by
      intro scan frame hkey hscan hsum hno
      have hkf : ∀ it ∈ frame, it.Proper := fun it h => hk it (by rw [hkey]; simp [h])
      have hks : ∀ it ∈ scan, it.Proper := fun it h => hk it (by rw [hkey]; simp [h])
      by_cases hfo : frameSlicesOk frame = true
      · rw [if_neg (by simp [hfo])] at hno
        by_cases hboth : (scan.any Item.isArray && frame.any Item.isArray) = true
        · exfalso
          rw [Bool.and_eq_true] at hboth
          have hsum : (scan.map axes).sum = a.scanShape.length := by
            rcases hsum with h | h
            · exact h
            · rw [h] at hboth; simp at hboth
          obtain ⟨x, n, hx, hxa⟩ := any_starts (n := 0) hboth.1
          obtain ⟨y, m, hy, hya⟩ := any_starts (n := 0 + (scan.map axes).sum) hboth.2
          obtain ⟨hxm, -, hxb⟩ := starts_bounds hx
          obtain ⟨hym, hyb, -⟩ := starts_bounds hy
          have h1 := (isArray_axes (hks x hxm)).2
          have h2 := (isArray_axes (hkf y hym)).2
          refine hm ⟨⟨x, n, ?_, hxa, n, le_rfl, by omega, by omega⟩, ⟨y, m, ?_, hya, m, le_rfl, by omega, by omega⟩⟩
          · rw [hkey, starts_append]; exact List.mem_append_left _ hx
          · rw [hkey, starts_append]; exact List.mem_append_right _ hy
        · rw [if_neg hboth] at hno
          by_cases hmask : (!maskOk first a.scanShape || !maskOk (frame.headD .all) a.frameShape) = true
          · rw [Bool.or_eq_true] at hmask
            rcases hmask with hmk | hmk
            · -- the first element
              cases first with
              | mask sh bits =>
                simp only [maskOk, Bool.not_eq_true', Bool.or_eq_false_iff, decide_eq_false_iff_not, not_not] at hmk
                have hn2 : a.scanShape.length = 2 := by
                  simp [tooManyDims, Item.isArray, Item.ndim] at hfirst
                  rcases hpos with h | h <;> omega
                intro s hs
                rw [selectPairs_cons _ _ _ (fun y rest n m s h1 h2 => by simp [pair, Item.ndim, hmk.1])] at hs
                have hx : selectItem (dense a).shape (.mask sh bits) = .throw "IndexError" := by
                  simp only [selectItem]
                  rw [if_neg]
                  rintro ⟨-, hsh, -⟩
                  apply hmk.2
                  rw [hsh, hmk.1]
                  show (a.scanShape ++ a.frameShape).take 2 = _
                  rw [List.take_append_of_le_length (by omega), List.take_of_length_le (by omega)]
                rw [hx] at hs
                simp [Outcome.bind] at hs
              | _ => simp [maskOk] at hmk
            · -- the first element of the frame part
              cases frame with
              | nil => simp [maskOk, Item.all] at hmk
              | cons z frame =>
                cases z with
                | mask sh bits =>
                  simp only [List.headD_cons, maskOk, Bool.not_eq_true', Bool.or_eq_false_iff, decide_eq_false_iff_not,
                    not_not] at hmk
                  have hsum : (scan.map axes).sum = a.scanShape.length := by
                    rcases hsum with h | h
                    · exact h
                    · simp at h
                  have hsn : scan.any Item.isArray = false := by
                    simpa [Item.isArray] using hboth
                  intro s hs
                  rw [hkey] at hs
                  have : selectPairs (a.scanShape ++ a.frameShape) (scan ++ .mask sh bits :: frame) = _ :=
                    selectPairs_append_right a.scanShape a.frameShape scan (.mask sh bits :: frame) hks (.inl hsum) hsn
                  have hs : selectPairs (a.scanShape ++ a.frameShape) (scan ++ .mask sh bits :: frame) = .ok s := hs
                  rw [this] at hs
                  rw [selectPairs_cons _ _ _ (fun y rest n m s h1 h2 => by simp [pair, Item.ndim, hmk.1])] at hs
                  have hx : selectItem a.frameShape (.mask sh bits) = .throw "IndexError" := by
                    simp only [selectItem]
                    rw [if_neg]
                    rintro ⟨-, hsh, -⟩
                    apply hmk.2
                    rw [hsh, hmk.1, List.take_of_length_le (by omega)]
                  rw [hx] at hs
                  cases hss : select a.scanShape scan <;> rw [hss] at hs <;> simp [Outcome.bind] at hs
                | _ => simp [maskOk] at hmk
          · exact absurd (if_neg hmask) (hno _)
      · -- too many axes
        apply many
        have hne : frame ≠ [] := by rintro rfl; simp [frameSlicesOk] at hfo
        have hsum : (scan.map axes).sum = a.scanShape.length := by
          rcases hsum with h | h
          · exact h
          · exact absurd h hne
        rw [hkey, List.map_append, List.sum_append, hsum]
        have hdims : ∀ x, x.Proper → ∀ k, 0 < k → tooManyDims x k = true → k < axes x := by
          intro x hx k hk ht
          simp only [tooManyDims, Bool.and_eq_true, decide_eq_true_eq] at ht
          rw [(isArray_axes hx).1, if_pos ht.1]; exact ht.2
        match frame, hfo, hkf with
        | [x], hfo, hkf =>
          have := hdims x (hkf x (by simp)) 2 (by omega) (by simpa [frameSlicesOk] using hfo)
          simp; omega
        | [x, y], hfo, hkf =>
          have hx := (isArray_axes (hkf x (by simp))).2
          have hy := (isArray_axes (hkf y (by simp))).2
          simp only [frameSlicesOk, Bool.and_eq_true, Bool.not_eq_true', not_and_or, Bool.not_eq_false] at hfo
          simp only [List.map_cons, List.map_nil, List.sum_cons, List.sum_nil]
          rcases hfo with h | h
          · have := hdims x (hkf x (by simp)) 2 (by omega) h; omega
          · have := hdims y (hkf y (by simp)) 1 (by omega) h; omega
        | x :: y :: z :: l, _, hkf =>
          have hx := (isArray_axes (hkf x (by simp))).2
          have hy := (isArray_axes (hkf y (by simp))).2
          have hz := (isArray_axes (hkf z (by simp))).2
          simp only [List.map_cons, List.sum_cons]; omega
    by_cases htwo : (decide (a.scanShape.length > 1) && (!first.isArray || decide (first.ndim = 1))) = true
    · simp only [htwo, if_true, Bool.true_and] at h
      have hn2 : a.scanShape.length = 2 := by
        simp only [Bool.and_eq_true, decide_eq_true_eq] at htwo
        rcases ha.ndim with h | h <;> omega
      have hax : axes first = 1 := by
        rw [hf.1]
        simp only [Bool.and_eq_true, Bool.or_eq_true, Bool.not_eq_true', decide_eq_true_eq] at htwo
        split
        · rename_i hb
          rcases htwo.2 with h | h
          · rw [hb] at h; simp at h
          · exact h
        · rfl
      cases rest with
      | nil =>
        refine core [first] [] (by simp) (.inl rfl) (.inr rfl) ?_
        intro r hr
        exact h r (by simpa [tooManyDims, Item.all, Item.isArray] using hr)
      | cons second rest =>
        have hs := isArray_axes (hk second (by simp))
        have htm2 : tooManyDims second 1 = false := by
          by_contra hne
          simp only [tooManyDims, Bool.not_eq_false, Bool.and_eq_true, decide_eq_true_eq] at hne
          rw [if_pos hne.1] at hs
          exact hm ⟨⟨second, 1, by simp [starts, hax], hne.1, 1, le_rfl, by omega, by omega⟩,
            ⟨second, 1, by simp [starts, hax], hne.1, 2, by omega, by omega, by omega⟩⟩
        have hax2 : axes second = 1 := by
          have h3 := hs.2
          have htm2 : second.isArray = true → second.ndim ≤ 1 := by simpa [tooManyDims] using htm2
          rw [hs.1] at h3 ⊢
          split
          · rename_i hb; rw [if_pos hb] at h3; have := htm2 hb; omega
          · rfl
        refine core [first, second] rest (by simp) (.inr ⟨_, rfl⟩) (.inl (by simp [hax, hax2, hn2])) ?_
        intro r hr
        refine h r ?_
        simp only [List.headD_cons, htm2, Bool.false_eq_true, if_false]
        exact hr
    · simp only [htwo, Bool.false_eq_true, if_false, Bool.false_and] at h
      refine core [first] rest (by simp) (.inl rfl) (.inl ?_) h
      simp only [List.map_cons, List.map_nil, List.sum_cons, List.sum_nil, Nat.add_zero]
      simp only [tooManyDims, Bool.and_eq_false_iff, decide_eq_false_iff_not, Nat.not_lt] at hfirst
      have h3 := hf.2
      rcases hpos with hn | hn
      · rw [hn] at hfirst ⊢
        rw [hf.1] at h3 ⊢
        split
        · rename_i hb
          rw [if_pos hb] at h3
          rcases hfirst with h | h
          · rw [hb] at h; simp at h
          · omega
        · rfl
      · rw [hn] at hfirst htwo ⊢
        simp only [gt_iff_lt, show (1 : Nat) < 2 by omega, decide_true, Bool.true_and, Bool.or_eq_true,
          Bool.not_eq_true', decide_eq_true_eq, not_or, Bool.not_eq_false] at htwo
        rw [hf.1, if_pos htwo.1] at h3 ⊢
        rcases hfirst with h | h
        · rw [htwo.1] at h; simp at h
        · omega

/-- Two arrays for the scan, with an integer and a slice after them; two arrays for the frames; three arrays; a mask of both parts. -/
example :
    separated [.ints [1, 0, 1], .ints [0, 0, 1], .all, .int 2] = true ∧ axesBefore [.ints [1, 0, 1], .ints [0, 0, 1], .all, .int 2] = 0 ∧
    splitSlices sample [.ints [1, 0, 1], .ints [0, 0, 1], .all, .int 1] = .ok ([.ints [1, 0, 1], .ints [0, 0, 1]], [.all, .int 1]) ∧
    indexPairs (dense sample) [.ints [1, 0, 1], .ints [0, 0, 1], .all, .int 1] = .ok ⟨[3, 2], [1, 0, 0, 2, 0, 0]⟩ ∧
    (getitem sample [.ints [1, 0, 1], .ints [0, 0, 1], .all, .int 1]).bind Value.toDense = .ok (.dense ⟨[3, 2], [1, 0, 0, 2, 0, 0]⟩) ∧
    indexPairs (dense sample) [.all, .slice none none (some (-1)), .ints [1, 0], .ints [-2, -1]] =
      .ok ⟨[2, 2, 2], [0, 0, 2, 0, 0, 2, 0, 1]⟩ ∧
    (getitem sample [.all, .slice none none (some (-1)), .ints [1, 0], .ints [-2, -1]]).bind Value.toDense =
      .ok (.dense ⟨[2, 2, 2], [0, 0, 2, 0, 0, 2, 0, 1]⟩) ∧
    getitem sample [.ints [0], .all, .ints [1]] = .throw "IndexError" ∧
    Mixed sample [.all, .mask [2, 2] [true, true, false, false]] := by
  refine ⟨by decide, by decide, by decide, by decide, by decide, by decide, by decide, by decide, ?_⟩
  exact ⟨⟨.mask [2, 2] [true, true, false, false], 1, by simp [starts, axes, Item.all], rfl, 1, by decide, by decide, by decide⟩,
    ⟨.mask [2, 2] [true, true, false, false], 1, by simp [starts, axes, Item.all], rfl, 2, by decide, by decide, by decide⟩⟩

end Stempy.Sparse
