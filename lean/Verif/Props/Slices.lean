import Verif.Lemmas.NumpyIndex

/-!
# C45: index expressions follow Python semantics

`Numpy.selection` is the model of NumPy's indexing that the sparse array relies on.
-/

namespace Stempy.Numpy

/-- A negative bound counts from the end. -/
def wrap (n : Nat) (x : Int) : Int := if x < 0 then x + n else x

/-- A bound of a slice with a positive step (`d` if it is not given) is moved into the axis. -/
def clampUp (n : Nat) (d : Int) (x : Option Int) : Int :=
  (x.map fun x => Max.max 0 (Min.min (n : Int) (wrap n x))).getD d

/-- A bound of a slice with a negative step. -/
def clampDown (n : Nat) (d : Int) (x : Option Int) : Int :=
  (x.map fun x => Max.max (-1) (Min.min ((n : Int) - 1) (wrap n x))).getD d

theorem adjust_up (n : Nat) (x : Int) : adjust n false x = Max.max 0 (Min.min (n : Int) (wrap n x)) := by
  unfold adjust wrap
  simp only [Bool.false_eq_true, if_false]
  split_ifs <;> omega

theorem adjust_down (n : Nat) (x : Int) : adjust n true x = Max.max (-1) (Min.min ((n : Int) - 1) (wrap n x)) := by
  unfold adjust wrap
  simp only [if_true]
  split_ifs <;> omega

/-- A slice with a positive step selects, in increasing order, the indexes from the start up to (not including) the stop
which have a distance to the start that is a multiple of the step. -/
theorem C45_slice_up (n : Nat) (start stop : Option Int) (step : Option Int) (hs : 0 < step.getD 1) :
    ∃ l, sliceIndexes n start stop step = .ok l ∧ l.Pairwise (· < ·) ∧ (∀ i ∈ l, i < n) ∧
      ∀ i : Nat, i ∈ l ↔ clampUp n 0 start ≤ i ∧ (i : Int) < clampUp n n stop ∧
        step.getD 1 ∣ (i : Int) - clampUp n 0 start := by
  have hr : ∃ r, sliceRange n start stop step = .ok r := by
    unfold sliceRange
    rw [if_neg (by omega)]
    exact ⟨_, rfl⟩
  obtain ⟨⟨a, st, len⟩, hr⟩ := hr
  obtain ⟨h1, -, h2, -⟩ := sliceRange_ok hr
  obtain ⟨b, ha, -, hb, hbn, ea, eb, hk⟩ := h2 (by omega)
  have ea : a = clampUp n 0 start := by
    rw [ea, clampUp]
    cases start <;> simp [adjust_up]
  have eb : b = clampUp n n stop := by
    rw [eb, clampUp]
    cases stop <;> simp [adjust_up]
  rw [← ea, ← eb, ← h1]
  rw [← h1] at hs
  refine ⟨(List.range len).map fun (k : Nat) => (a + k * st).toNat, ?_, ?_, ?_, ?_⟩
  · rw [sliceIndexes, hr]; rfl
  · rw [List.pairwise_map]
    refine (List.pairwise_lt_range (n := len)).imp ?_
    intro x y hxy
    have h3 : (0 : Int) ≤ x * st := by positivity
    have h4 : (x : Int) * st < y * st := (Int.mul_lt_mul_right hs).2 (by omega)
    omega
  · intro i hi
    obtain ⟨k, hkl, rfl⟩ := List.mem_map.1 hi
    have := (hk k).1 (List.mem_range.1 hkl)
    have h3 : (0 : Int) ≤ k * st := by positivity
    omega
  · intro i
    simp only [List.mem_map, List.mem_range]
    constructor
    · rintro ⟨k, hkl, rfl⟩
      have := (hk k).1 hkl
      have h3 : (0 : Int) ≤ k * st := by positivity
      refine ⟨by omega, by omega, ?_⟩
      have : ((a + k * st).toNat : Int) - a = k * st := by omega
      rw [this]; exact Dvd.intro_left _ rfl
    · rintro ⟨h3, h4, c, hc⟩
      have hc0 : 0 ≤ c := by
        by_contra hneg
        have : st * c < 0 := Int.mul_neg_of_pos_of_neg hs (by omega)
        omega
      have e : ((c.toNat : Nat) : Int) * st = i - a := by
        rw [Int.toNat_of_nonneg hc0, hc, Int.mul_comm]
      exact ⟨c.toNat, (hk _).2 (by omega), by omega⟩

example : sliceIndexes 10 (some 1) (some (-2)) (some 3) = .ok [1, 4, 7] := by decide

/-- A slice with a negative step selects, in decreasing order, the indexes from the start down to (not including) the stop. -/
theorem C45_slice_down (n : Nat) (start stop : Option Int) (step : Option Int) (hs : step.getD 1 < 0) :
    ∃ l, sliceIndexes n start stop step = .ok l ∧ l.Pairwise (· > ·) ∧ (∀ i ∈ l, i < n) ∧
      ∀ i : Nat, i ∈ l ↔ (i : Int) ≤ clampDown n (n - 1) start ∧ clampDown n (-1) stop < (i : Int) ∧
        step.getD 1 ∣ clampDown n (n - 1) start - (i : Int) := by
  have hr : ∃ r, sliceRange n start stop step = .ok r := by
    unfold sliceRange
    rw [if_neg (by omega)]
    exact ⟨_, rfl⟩
  obtain ⟨⟨a, st, len⟩, hr⟩ := hr
  obtain ⟨h1, -, -, h2⟩ := sliceRange_ok hr
  obtain ⟨b, ha, han, hb, hbn, ea, eb, hk⟩ := h2 (by omega)
  have ea : a = clampDown n (n - 1) start := by
    rw [ea, clampDown]
    cases start <;> simp [adjust_down]
  have eb : b = clampDown n (-1) stop := by
    rw [eb, clampDown]
    cases stop <;> simp [adjust_down]
  rw [← ea, ← eb, ← h1]
  rw [← h1] at hs
  have hkn : ∀ k : Nat, (k : Int) * st ≤ 0 := fun k => Int.mul_nonpos_of_nonneg_of_nonpos (by omega) hs.le
  refine ⟨(List.range len).map fun (k : Nat) => (a + k * st).toNat, ?_, ?_, ?_, ?_⟩
  · rw [sliceIndexes, hr]; rfl
  · rw [List.pairwise_map]
    refine (List.pairwise_lt_range (n := len)).imp_of_mem ?_
    intro x y hx hy hxy
    have h5 := (hk y).1 (List.mem_range.1 hy)
    have h4 : (y : Int) * st < x * st := Int.mul_lt_mul_of_neg_right (by omega) hs
    omega
  · intro i hi
    obtain ⟨k, hkl, rfl⟩ := List.mem_map.1 hi
    have := (hk k).1 (List.mem_range.1 hkl)
    have := hkn k
    omega
  · intro i
    simp only [List.mem_map, List.mem_range]
    constructor
    · rintro ⟨k, hkl, rfl⟩
      have := (hk k).1 hkl
      have := hkn k
      refine ⟨by omega, by omega, ?_⟩
      have : a - ((a + k * st).toNat : Int) = -k * st := by rw [Int.neg_mul]; omega
      rw [this]; exact Dvd.intro_left _ rfl
    · rintro ⟨h3, h4, c, hc⟩
      have hc0 : c ≤ 0 := by
        by_contra hneg
        have : st * c < 0 := Int.mul_neg_of_neg_of_pos hs (by omega)
        omega
      have e : (((-c).toNat : Nat) : Int) * st = i - a := by
        rw [Int.toNat_of_nonneg (by omega), Int.neg_mul, Int.mul_comm c, ← hc]; omega
      exact ⟨(-c).toNat, (hk _).2 (by omega), by omega⟩

example : sliceIndexes 10 (some (-2)) (some 1) (some (-3)) = .ok [8, 5, 2] ∧
    sliceIndexes 3 none none (some (-1)) = .ok [2, 1, 0] := by decide

/-- The step zero is refused. -/
theorem C45_slice_zero (n : Nat) (start stop : Option Int) : sliceIndexes n start stop (some 0) = .throw "ValueError" := by
  simp [sliceIndexes, sliceRange]

/-- Integer indexes are accepted exactly in the axis, counted from the start or from the end. -/
theorem C45_int (n : Nat) (i : Int) :
    (0 ≤ i ∧ i < n → intIndex n i = .ok i.toNat) ∧
    (-n ≤ i ∧ i < 0 → intIndex n i = .ok (n + i).toNat) ∧
    (i < -n ∨ n ≤ i → intIndex n i = .throw "IndexError") := by
  unfold intIndex
  refine ⟨fun h => ?_, fun h => ?_, fun h => ?_⟩
  · have h1 : ¬ i < 0 := by omega
    simp only [h1, if_false]
    rw [if_pos (by omega)]
  · have h1 : i < 0 := by omega
    simp only [h1, if_true]
    rw [if_pos (by omega), Int.add_comm]
  · by_cases h1 : i < 0
    · simp only [h1, if_true]; rw [if_neg (by omega)]
    · simp only [h1, if_false]; rw [if_neg (by omega)]

/-- Every accepted index expression (slices, integers, index arrays, masks, an ellipsis) selects elements of the array, as many
as the result has, in at most as many axes; without index arrays it selects no element twice. -/
theorem C45_selection (shape : List Nat) (items : List Item) (a : Sel) (h : selection shape items = .ok a) :
    a.idx.length = prod a.shape ∧ (∀ i ∈ a.idx, i < prod shape) ∧ a.shape.length ≤ shape.length ∧
    ((∀ it ∈ items, ∀ l, it ≠ .ints l) → a.idx.Nodup) := by
  obtain ⟨h1, h2⟩ := selection_ok h
  refine ⟨h1.length, h1.lt, h1.ndim, fun hd => h2 fun it hit => ?_⟩
  cases it with
  | ints l => exact absurd rfl (hd _ hit l)
  | _ => trivial

/-- An accepted index expression can be applied to every array of the shape. -/
theorem C45_index {α : Type} (x : NArray α) (hx : x.flat.length = prod x.shape) (items : List Item) (a : Sel)
    (h : selection x.shape items = .ok a) :
    ∃ y, index x items = .ok y ∧ y.shape = a.shape ∧ y.flat.length = prod y.shape ∧
      ∀ (k : Nat) (hk : k < a.idx.length), y.flat[k]? = x.flat[a.idx[k]]? := by
  obtain ⟨h1, -⟩ := selection_ok h
  by_cases hp : x.flat = []
  · have hz : a.idx = [] := by
      rw [hp] at hx
      refine List.eq_nil_iff_forall_not_mem.2 fun i hi => ?_
      have := h1.lt i hi
      rw [← hx] at this
      simp at this
    refine ⟨⟨a.shape, []⟩, ?_, rfl, ?_, ?_⟩
    · rw [index, h, Outcome.ok_bind, hz]; rfl
    · rw [← h1.length, hz]; rfl
    · rw [hz]; simp
  · obtain ⟨d, -⟩ := List.exists_mem_of_ne_nil _ hp
    refine ⟨⟨a.shape, a.idx.map fun i => x.flat.getD i d⟩, ?_, rfl, ?_, ?_⟩
    · rw [index, h, Outcome.ok_bind, gather_ok x.flat a.idx d (by rw [hx]; exact h1.lt)]; rfl
    · rw [List.length_map]; exact h1.length
    · intro k hk
      have := h1.lt a.idx[k] (List.getElem_mem hk)
      rw [List.getElem?_map, List.getElem?_eq_getElem hk, Option.map_some, List.getElem?_eq_getElem (by omega)]
      simp [show a.idx[k] < x.flat.length by omega]

example : index ⟨[2, 3], [0, 1, 2, 3, 4, 5]⟩ [.int (-1), .slice none none (some 2)] = .ok ⟨[2], [3, 5]⟩ ∧
    index ⟨[2, 3], [0, 1, 2, 3, 4, 5]⟩ [.ellipsis, .int 1] = .ok ⟨[2], [1, 4]⟩ ∧
    index ⟨[2, 3], [0, 1, 2, 3, 4, 5]⟩ [.mask [2, 3] [true, false, true, false, false, true]] = .ok ⟨[3], [0, 2, 5]⟩ ∧
    index ⟨[2, 3], [0, 1, 2, 3, 4, 5]⟩ [.ints [1, 0], .ints [2, 2]] = .ok ⟨[2], [5, 2]⟩ := by decide

end Stempy.Numpy
