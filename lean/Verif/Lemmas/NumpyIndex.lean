import Verif.Lemmas.Numpy
import Verif.Lemmas.ListSum

/-! # Facts about index expressions -/

namespace Stempy.Numpy

theorem adjust_range (n : Nat) (neg : Bool) (x : Int) :
    (neg = false → 0 ≤ adjust n neg x ∧ adjust n neg x ≤ n) ∧
    (neg = true → -1 ≤ adjust n neg x ∧ adjust n neg x ≤ n - 1) := by
  unfold adjust
  cases neg <;> simp <;> split_ifs <;> omega

/-- The bounds of a slice. -/
theorem sliceRange_ok {n : Nat} {start stop step : Option Int} {a st : Int} {len : Nat}
    (h : sliceRange n start stop step = .ok (a, st, len)) :
    st = step.getD 1 ∧ st ≠ 0 ∧
    (0 < st → ∃ b : Int, 0 ≤ a ∧ a ≤ n ∧ 0 ≤ b ∧ b ≤ n ∧
      a = (start.map (adjust n false)).getD 0 ∧ b = (stop.map (adjust n false)).getD n ∧
      ∀ k : Nat, k < len ↔ a + k * st < b) ∧
    (st < 0 → ∃ b : Int, -1 ≤ a ∧ a ≤ n - 1 ∧ -1 ≤ b ∧ b ≤ n - 1 ∧
      a = (start.map (adjust n true)).getD (n - 1) ∧ b = (stop.map (adjust n true)).getD (-1) ∧
      ∀ k : Nat, k < len ↔ b < a + k * st) := by
  unfold sliceRange at h
  by_cases h0 : step.getD 1 = 0
  · rw [if_pos h0] at h; simp at h
  · rw [if_neg h0] at h
    simp only [Outcome.ok.injEq, Prod.mk.injEq] at h
    obtain ⟨ha, hst, hlen⟩ := h
    subst hst
    refine ⟨rfl, h0, ?_, ?_⟩
    · intro hpos
      have hneg : decide (step.getD 1 < 0) = false := by simpa using hpos.le
      rw [hneg] at ha hlen
      simp only [Bool.false_eq_true, if_false] at ha hlen
      refine ⟨(stop.map (adjust n false)).getD n, ?_⟩
      have ra : 0 ≤ a ∧ a ≤ n := by
        rw [← ha]
        cases start with
        | none => simp
        | some x => exact (adjust_range n false x).1 rfl
      have rb : 0 ≤ (stop.map (adjust n false)).getD n ∧ (stop.map (adjust n false)).getD n ≤ n := by
        cases stop with
        | none => simp
        | some x => exact (adjust_range n false x).1 rfl
      refine ⟨ra.1, ra.2, rb.1, rb.2, ha.symm, rfl, ?_⟩
      intro k
      rw [ha] at hlen
      generalize (stop.map (adjust n false)).getD (n : Int) = b at *
      generalize step.getD 1 = st at *
      have hk : (0 : Int) ≤ k * st := by positivity
      by_cases hab : a < b
      · rw [if_pos hab] at hlen
        have hd : 0 ≤ (b - a - 1) / st := Int.ediv_nonneg (by omega) hpos.le
        have := Int.le_ediv_iff_mul_le (a := (k : Int)) (b := b - a - 1) hpos
        omega
      · rw [if_neg hab] at hlen
        simp at hlen
        omega
    · intro hlt
      have hneg : decide (step.getD 1 < 0) = true := by simpa using hlt
      rw [hneg] at ha hlen
      simp only [if_true] at ha hlen
      refine ⟨(stop.map (adjust n true)).getD (-1), ?_⟩
      have ra : -1 ≤ a ∧ a ≤ n - 1 := by
        rw [← ha]
        cases start with
        | none => simp
        | some x => exact (adjust_range n true x).2 rfl
      have rb : -1 ≤ (stop.map (adjust n true)).getD (-1) ∧ (stop.map (adjust n true)).getD (-1) ≤ n - 1 := by
        cases stop with
        | none => simp
        | some x => exact (adjust_range n true x).2 rfl
      refine ⟨ra.1, ra.2, rb.1, rb.2, ha.symm, rfl, ?_⟩
      intro k
      rw [ha] at hlen
      generalize (stop.map (adjust n true)).getD (-1 : Int) = b at *
      generalize step.getD 1 = st at *
      have hk : (k : Int) * st ≤ 0 := Int.mul_nonpos_of_nonneg_of_nonpos (by omega) hlt.le
      by_cases hab : b < a
      · rw [if_pos hab] at hlen
        have hd : 0 ≤ (a - b - 1) / (-st) := Int.ediv_nonneg (by omega) (by omega)
        have := Int.le_ediv_iff_mul_le (a := (k : Int)) (b := a - b - 1) (show 0 < -st by omega)
        rw [Int.mul_neg] at this
        omega
      · rw [if_neg hab] at hlen
        simp at hlen
        omega

theorem sliceIndexes_ok {n : Nat} {start stop step : Option Int} {l : List Nat}
    (h : sliceIndexes n start stop step = .ok l) :
    (∀ i ∈ l, i < n) ∧ l.Nodup := by
  unfold sliceIndexes at h
  cases hr : sliceRange n start stop step with
  | ub => rw [hr] at h; simp at h
  | throw m => rw [hr] at h; simp at h
  | ok r =>
    obtain ⟨a, st, len⟩ := r
    rw [hr, Outcome.ok_bind] at h
    simp only [Outcome.ok.injEq] at h
    obtain ⟨_, h0, hpos, hneg⟩ := sliceRange_ok hr
    have key : ∀ k : Nat, k < len → 0 ≤ a + k * st ∧ a + k * st < n := by
      intro k hk
      rcases lt_or_gt_of_ne h0 with hs | hs
      · obtain ⟨b, h1, h2, h3, h4, _, _, h5⟩ := hneg hs
        have := (h5 k).1 hk
        have hk : (k : Int) * st ≤ 0 := Int.mul_nonpos_of_nonneg_of_nonpos (by omega) hs.le
        omega
      · obtain ⟨b, h1, h2, h3, h4, _, _, h5⟩ := hpos hs
        have := (h5 k).1 hk
        have hk : (0 : Int) ≤ k * st := by positivity
        omega
    subst h
    constructor
    · intro i hi
      obtain ⟨k, hk, rfl⟩ := List.mem_map.1 hi
      have := key k (List.mem_range.1 hk)
      omega
    · refine List.Nodup.map_on ?_ List.nodup_range
      intro x hx y hy hxy
      have h1 := key x (List.mem_range.1 hx)
      have h2 := key y (List.mem_range.1 hy)
      have h3 : (x : Int) * st = y * st := by omega
      have := Int.eq_of_mul_eq_mul_right h0 h3
      omega

theorem intIndex_ok {n : Nat} {i : Int} {j : Nat} (h : intIndex n i = .ok j) : j < n := by
  unfold intIndex at h
  simp only at h
  split at h
  · split at h
    · simp at h; omega
    · simp at h
  · split at h
    · simp at h; omega
    · simp at h

theorem mapM_intIndex {n : Nat} {l : List Int} {r : List Nat} (h : l.mapM (intIndex n) = .ok r) : ∀ i ∈ r, i < n := by
  induction l generalizing r with
  | nil => simp at h; subst h; simp
  | cons x l ih =>
    rw [List.mapM_cons] at h
    cases hx : intIndex n x with
    | ub => rw [hx] at h; simp at h
    | throw m => rw [hx] at h; simp at h
    | ok j =>
      rw [hx, Outcome.ok_bind] at h
      cases hl : l.mapM (intIndex n) with
      | ub => rw [hl] at h; simp at h
      | throw m => rw [hl] at h; simp at h
      | ok t =>
        rw [hl] at h
        simp at h
        subst h
        intro i hi
        rcases List.mem_cons.1 hi with rfl | hi
        · exact intIndex_ok hx
        · exact ih hl i hi

/-- A selection on an array of the shape. -/
structure Sel.Valid (s : Sel) (shape : List Nat) : Prop where
  length : s.idx.length = prod s.shape
  lt : ∀ i ∈ s.idx, i < prod shape
  ndim : s.shape.length ≤ shape.length

theorem valid_all (shape : List Nat) : (⟨shape, List.range (prod shape)⟩ : Sel).Valid shape :=
  ⟨by simp, by simp, le_rfl⟩

theorem length_flatMap_map (a b : List Nat) (f : Nat → Nat → Nat) :
    (a.flatMap fun i => b.map fun j => f i j).length = a.length * b.length := by
  induction a with
  | nil => simp
  | cons x a ih =>
    rw [List.flatMap_cons, List.length_append, ih, List.length_map, List.length_cons]; ring

theorem valid_product {a b : Sel} {s t : List Nat} (ha : a.Valid s) (hb : b.Valid t) :
    (a.product b (prod t)).Valid (s ++ t) := by
  refine ⟨?_, ?_, ?_⟩
  · simp only [Sel.product]
    rw [length_flatMap_map, prod_append, ha.length, hb.length]
  · intro i hi
    simp only [Sel.product, List.mem_flatMap, List.mem_map] at hi
    obtain ⟨x, hx, y, hy, rfl⟩ := hi
    rw [prod_append, Nat.mul_comm (prod s)]
    exact flat_lt (hb.lt y hy) (ha.lt x hx)
  · have := ha.ndim; have := hb.ndim
    simp only [Sel.product, List.length_append]; omega

theorem nodup_product {a b : Sel} {t : List Nat} (ha : a.idx.Nodup) (hb : b.idx.Nodup) (hv : b.Valid t) :
    (a.product b (prod t)).idx.Nodup := by
  simp only [Sel.product]
  rw [List.nodup_flatMap]
  refine ⟨fun i _ => hb.map fun x y h => by simpa using h, ?_⟩
  refine ha.imp ?_
  intro x y hxy z hz1 hz2
  obtain ⟨j, hj, rfl⟩ := List.mem_map.1 hz1
  obtain ⟨k, hk, h⟩ := List.mem_map.1 hz2
  apply hxy
  rw [← flat_div x (hv.lt j hj), ← h, flat_div y (hv.lt k hk)]

/-- An element that selects no index twice. -/
def Item.Distinct : Item → Prop
  | .ints _ => False
  | _ => True

theorem selectItem_ok {shape : List Nat} {it : Item} {a : Sel} {k : Nat} (h : selectItem shape it = .ok (a, k)) :
    a.Valid (shape.take k) ∧ k ≤ shape.length ∧ (it.Distinct → a.idx.Nodup) ∧ (shape ≠ [] → 0 < k) := by
  cases it with
  | slice x y z =>
    cases shape with
    | nil => simp [selectItem] at h
    | cons n s =>
      simp only [selectItem] at h
      cases hl : sliceIndexes n x y z with
      | ub => rw [hl] at h; simp at h
      | throw m => rw [hl] at h; simp at h
      | ok l =>
        rw [hl, Outcome.ok_bind] at h
        simp only [Outcome.ok.injEq, Prod.mk.injEq] at h
        obtain ⟨rfl, rfl⟩ := h
        have := sliceIndexes_ok hl
        exact ⟨⟨by simp [prod], by simpa [prod] using this.1, by simp⟩, by simp, fun _ => this.2, by simp⟩
  | int i =>
    cases shape with
    | nil => simp [selectItem] at h
    | cons n s =>
      simp only [selectItem] at h
      cases hl : intIndex n i with
      | ub => rw [hl] at h; simp at h
      | throw m => rw [hl] at h; simp at h
      | ok l =>
        rw [hl, Outcome.ok_bind] at h
        simp only [Outcome.ok.injEq, Prod.mk.injEq] at h
        obtain ⟨rfl, rfl⟩ := h
        have := intIndex_ok hl
        exact ⟨⟨by simp [prod], by simpa [prod] using this, by simp⟩, by simp, fun _ => by simp, by simp⟩
  | ellipsis =>
    simp only [selectItem, Outcome.ok.injEq, Prod.mk.injEq] at h
    obtain ⟨rfl, rfl⟩ := h
    rw [List.take_length]
    exact ⟨valid_all _, le_rfl, fun _ => List.nodup_range, List.length_pos_of_ne_nil⟩
  | ints l =>
    cases shape with
    | nil => simp [selectItem] at h
    | cons n s =>
      simp only [selectItem] at h
      cases hl : l.mapM (intIndex n) with
      | ub => rw [hl] at h; simp at h
      | throw m => rw [hl] at h; simp at h
      | ok r =>
        rw [hl, Outcome.ok_bind] at h
        simp only [Outcome.ok.injEq, Prod.mk.injEq] at h
        obtain ⟨rfl, rfl⟩ := h
        have := mapM_intIndex hl
        exact ⟨⟨by simp [prod], by simpa [prod] using this, by simp⟩, by simp, fun h => h.elim, by simp⟩
  | mask s bits =>
    simp only [selectItem] at h
    split at h
    · rename_i hc
      simp only [Outcome.ok.injEq, Prod.mk.injEq] at h
      obtain ⟨rfl, rfl⟩ := h
      have hlen : s.length ≤ shape.length := by
        have := congrArg List.length hc.2.1
        rw [List.length_take] at this; omega
      refine ⟨⟨by simp [prod], ?_, ?_⟩, hlen, fun _ => List.nodup_range.filter _,
        fun _ => List.length_pos_of_ne_nil hc.1⟩
      · intro i hi
        rw [← hc.2.1]
        exact List.mem_range.1 (List.mem_filter.1 hi).1
      · rw [List.length_take]
        have : 0 < s.length := List.length_pos_of_ne_nil hc.1
        simp; omega
    · simp at h

theorem select_ok {shape : List Nat} {items : List Item} {a : Sel} (h : select shape items = .ok a) :
    a.Valid shape ∧ ((∀ it ∈ items, it.Distinct) → a.idx.Nodup) := by
  induction items generalizing shape a with
  | nil =>
    simp only [select, Outcome.ok.injEq] at h
    subst h
    exact ⟨valid_all _, fun _ => List.nodup_range⟩
  | cons it items ih =>
    rw [select] at h
    cases hi : selectItem shape it with
    | ub => rw [hi] at h; simp at h
    | throw m => rw [hi] at h; simp at h
    | ok r =>
      obtain ⟨x, k⟩ := r
      rw [hi, Outcome.ok_bind] at h
      simp only at h
      cases hb : select (shape.drop k) items with
      | ub => rw [hb] at h; simp at h
      | throw m => rw [hb] at h; simp at h
      | ok b =>
        rw [hb, Outcome.ok_bind] at h
        simp only [Outcome.ok.injEq] at h
        subst h
        obtain ⟨h1, h2, h3, -⟩ := selectItem_ok hi
        obtain ⟨h4, h5⟩ := ih hb
        have := valid_product h1 h4
        rw [List.take_append_drop] at this
        exact ⟨this, fun hd => nodup_product (h3 (hd it (by simp))) (h5 fun i hi => hd i (by simp [hi])) h4⟩

theorem broadcast_ok {a b : List Nat} {l : List (Nat × Nat)} (h : broadcast a b = .ok l) :
    ∀ p ∈ l, p.1 ∈ a ∧ p.2 ∈ b := by
  unfold broadcast at h
  split at h
  · simp only [Outcome.ok.injEq] at h
    subst h
    intro p hp
    exact List.of_mem_zip hp
  · split at h
    · rename_i h1
      obtain ⟨x, rfl⟩ := List.length_eq_one_iff.1 h1
      simp only [Outcome.ok.injEq] at h
      subst h
      intro p hp
      obtain ⟨y, hy, rfl⟩ := List.mem_map.1 hp
      simp [hy]
    · split at h
      · rename_i h1
        obtain ⟨x, rfl⟩ := List.length_eq_one_iff.1 h1
        simp only [Outcome.ok.injEq] at h
        subst h
        intro p hp
        obtain ⟨y, hy, rfl⟩ := List.mem_map.1 hp
        simp [hy]
      · simp at h

theorem distinct_expand {ndim : Nat} {items : List Item} (h : ∀ it ∈ items, it.Distinct) :
    ∀ it ∈ expandEllipsis ndim items, it.Distinct := by
  intro it hit
  unfold expandEllipsis at hit
  split at hit
  · exact h it hit
  · simp only [List.mem_append, List.mem_replicate] at hit
    rcases hit with (hit | ⟨_, rfl⟩) | hit
    · exact h it (List.mem_of_mem_take hit)
    · trivial
    · exact h it (List.mem_of_mem_drop hit)

theorem selectItem_one {n : Nat} {it : Item} {a : Sel} {k : Nat} (h : selectItem [n] it = .ok (a, k)) :
    ∀ i ∈ a.idx, i < n := by
  obtain ⟨h1, h2, -, h3⟩ := selectItem_ok h
  intro i hi
  have := h1.lt i hi
  have h3 := h3 (by simp)
  have h2 : k = 1 := by simp at h2; omega
  subst h2
  simpa [prod] using this

theorem broadcast_nodup {a b : List Nat} {l : List (Nat × Nat)} (h : broadcast a b = .ok l) (ha : a.Nodup) (hb : b.Nodup) :
    l.Nodup := by
  unfold broadcast at h
  split at h
  · rename_i hab
    simp only [Outcome.ok.injEq] at h
    subst h
    refine List.Nodup.of_map Prod.fst ?_
    rw [List.map_fst_zip (by omega)]
    exact ha
  · split at h
    · simp only [Outcome.ok.injEq] at h
      subst h
      exact hb.map fun x y h => (Prod.mk.inj h).2
    · split at h
      · simp only [Outcome.ok.injEq] at h
        subst h
        exact ha.map fun x y h => (Prod.mk.inj h).1
      · simp at h

/-- Every index expression selects existing elements; expressions without index arrays select no element twice. -/
theorem selection_ok {shape : List Nat} {items : List Item} {a : Sel} (h : selection shape items = .ok a) :
    a.Valid shape ∧ ((∀ it ∈ items, it.Distinct) → a.idx.Nodup) := by
  unfold selection at h
  have gen : ∀ {shape : List Nat} {items : List Item} {a : Sel},
      select shape (expandEllipsis shape.length items) = .ok a →
      a.Valid shape ∧ ((∀ it ∈ items, it.Distinct) → a.idx.Nodup) := by
    intro shape items a h
    have := select_ok h
    exact ⟨this.1, fun hd => this.2 (distinct_expand hd)⟩
  split at h
  · rename_i x y n m
    split at h
    · rename_i hc
      cases hx : selectItem [n] x with
      | ub => rw [hx] at h; simp at h
      | throw m => rw [hx] at h; simp at h
      | ok r =>
        obtain ⟨p, k1⟩ := r
        rw [hx, Outcome.ok_bind] at h
        simp only at h
        cases hy : selectItem [m] y with
        | ub => rw [hy] at h; simp at h
        | throw m => rw [hy] at h; simp at h
        | ok r =>
          obtain ⟨q, k2⟩ := r
          rw [hy, Outcome.ok_bind] at h
          simp only at h
          cases hl : broadcast p.idx q.idx with
          | ub => rw [hl] at h; simp at h
          | throw m => rw [hl] at h; simp at h
          | ok l =>
            rw [hl, Outcome.ok_bind] at h
            simp only [Outcome.ok.injEq] at h
            subst h
            have hb := broadcast_ok hl
            refine ⟨⟨by simp [prod], ?_, by simp⟩, ?_⟩
            · intro i hi
              obtain ⟨z, hz, rfl⟩ := List.mem_map.1 hi
              have := flat_lt (selectItem_one hy _ (hb z hz).2) (selectItem_one hx _ (hb z hz).1)
              simp only [prod, Nat.mul_one]
              rw [Nat.mul_comm n]; exact this
            · intro hd
              have hp := (selectItem_ok hx).2.2.1 (hd x (by simp))
              have hq := (selectItem_ok hy).2.2.1 (hd y (by simp))
              refine List.Nodup.map_on ?_ (broadcast_nodup hl hp hq)
              intro u hu v hv huv
              have h1 := selectItem_one hy _ (hb u hu).2
              have h2 := selectItem_one hy _ (hb v hv).2
              have e1 := congrArg (· / m) huv
              have e2 := congrArg (· % m) huv
              simp only [flat_div _ h1, flat_div _ h2, flat_mod _ h1, flat_mod _ h2] at e1 e2
              exact Prod.ext e1 e2
    · exact gen h
  · exact gen h

end Stempy.Numpy
