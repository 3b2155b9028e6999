import Verif.Lemmas.PyImage
import Verif.Lemmas.NumpyIndex
import Mathlib.Data.List.Perm.Basic
import Mathlib.Data.List.Sort

/-! C53: the filter for bad sectors. -/

namespace Stempy.PyImage
open Numpy Sparse

/-- `m` is the median of the values. -/
def IsMedian (l : List Rat) (m : Rat) : Prop :=
  ∃ s : List Rat, s.Perm l ∧ s.Pairwise (· ≤ ·) ∧
    ((l.length % 2 = 1 ∧ s[l.length / 2]? = some m) ∨
     (l.length % 2 = 0 ∧ ∃ x y, s[l.length / 2 - 1]? = some x ∧ s[l.length / 2]? = some y ∧ m = (x + y) / 2))

/-- The median of the values; `NaN` without a value. -/
def IsNanMedian (l : List Rat) : Option Rat → Prop
  | none => l = []
  | some m => l ≠ [] ∧ IsMedian l m

/-- The 3 x 3 neighbourhood of a position, inside of the image. -/
def neighbours (h w i : Nat) : List Nat :=
  (List.range (h * w)).filter fun j =>
    decide (j / w ≤ i / w + 1 ∧ i / w ≤ j / w + 1 ∧ j % w ≤ i % w + 1 ∧ i % w ≤ j % w + 1)

theorem nanmedian_spec {l : List (Option Rat)} {v : List Rat} (h : v.Perm (l.filterMap id)) : IsNanMedian v (nanmedian l) := by
  unfold nanmedian middle
  have hs := List.perm_insertionSort (· ≤ ·) (l.filterMap id)
  generalize hS : (l.filterMap id).insertionSort (· ≤ ·) = s at hs
  have hsort : s.Pairwise (· ≤ ·) := by rw [← hS]; exact List.pairwise_insertionSort _ _
  have hlen : s.length = v.length := hs.length_eq.trans h.length_eq.symm
  have hperm : s.Perm v := hs.trans h.symm
  by_cases h0 : s = []
  · rw [if_pos (by simp [h0])]
    have : v.length = 0 := by rw [← hlen, h0]; rfl
    exact List.length_eq_zero_iff.1 this
  · have hv : v ≠ [] := by
      intro hv
      rw [hv] at hperm
      exact h0 hperm.eq_nil
    have hp : 0 < s.length := List.length_pos_iff.2 h0
    rw [if_neg (by simpa using h0)]
    by_cases hodd : s.length % 2 = 1
    · rw [if_pos hodd, List.getElem?_eq_getElem (by omega)]
      refine ⟨hv, s, hperm, hsort, .inl ⟨by omega, ?_⟩⟩
      rw [← hlen, List.getElem?_eq_getElem (by omega)]
    · rw [if_neg hodd]
      refine ⟨hv, s, hperm, hsort, .inr ⟨by omega, s[s.length / 2 - 1]'(by omega), s[s.length / 2]'(by omega), ?_, ?_, ?_⟩⟩
      · rw [← hlen, List.getElem?_eq_getElem (by omega)]
      · rw [← hlen, List.getElem?_eq_getElem (by omega)]
      · rw [List.getD_eq_getElem?_getD, List.getD_eq_getElem?_getD, List.getElem?_eq_getElem (by omega),
          List.getElem?_eq_getElem (by omega)]
        rfl

/-- The indexes of `ii - 1:ii + 2`. -/
def around (n ii : Nat) : List Nat :=
  if ii = 0 then (List.range (min 2 n - (n - 1))).map (n - 1 + ·) else (List.range (min (ii + 2) n - (ii - 1))).map (ii - 1 + ·)

theorem slice_around {n ii : Nat} (h : ii < n) :
    sliceIndexes n (some ((ii : Int) - 1)) (some ((ii : Int) + 2)) none = .ok (around n ii) := by
  unfold sliceIndexes sliceRange around
  simp only [Option.getD_none, Option.map_some, Option.getD_some, show ¬ ((1 : Int) = 0) by decide, if_false,
    show ¬ ((1 : Int) < 0) by decide, decide_false, adjust]
  rcases Nat.eq_zero_or_pos ii with rfl | hpos
  · simp only [if_true]
    have e1 : (if (((0 : Nat) : Int) - 1 < 0) then ((0 : Nat) : Int) - 1 + (n : Int) else ((0 : Nat) : Int) - 1) = (n : Int) - 1 := by
      rw [if_pos (by omega)]; omega
    have e2 : (if (((0 : Nat) : Int) + 2 < 0) then ((0 : Nat) : Int) + 2 + (n : Int) else ((0 : Nat) : Int) + 2) = 2 := by
      rw [if_neg (by omega)]; omega
    rw [e1, e2]
    simp only [Outcome.ok_bind, Bool.false_eq_true, if_false]
    rw [if_neg (by omega : ¬ ((n : Int) - 1 < 0)), if_neg (by omega : ¬ ((n : Int) - 1 ≥ n)),
      if_neg (by omega : ¬ ((2 : Int) < 0))]
    have e3 : (if (2 : Int) ≥ n then (n : Int) else 2) = (min 2 n : Nat) := by split <;> omega
    rw [e3]
    have e4 : (if ((n : Int) - 1 < ((min 2 n : Nat) : Int)) then (((min 2 n : Nat) : Int) - ((n : Int) - 1) - 1) / 1 + 1 else 0).toNat
        = min 2 n - (n - 1) := by split <;> omega
    rw [e4]
    congr 1
    apply List.map_congr_left
    intro k _
    omega
  · rw [if_neg (by omega : ¬ ii = 0)]
    have e1 : (if ((ii : Int) - 1 < 0) then (ii : Int) - 1 + (n : Int) else (ii : Int) - 1) = (ii : Int) - 1 := by
      rw [if_neg (by omega)]
    have e2 : (if ((ii : Int) + 2 < 0) then (ii : Int) + 2 + (n : Int) else (ii : Int) + 2) = (ii : Int) + 2 := by
      rw [if_neg (by omega)]
    rw [e1, e2]
    simp only [Outcome.ok_bind, Bool.false_eq_true, if_false]
    rw [if_neg (by omega : ¬ ((ii : Int) - 1 < 0)), if_neg (by omega : ¬ ((ii : Int) - 1 ≥ n)),
      if_neg (by omega : ¬ ((ii : Int) + 2 < 0))]
    have e3 : (if (ii : Int) + 2 ≥ n then (n : Int) else (ii : Int) + 2) = (min (ii + 2) n : Nat) := by split <;> omega
    rw [e3]
    have e4 : (if ((ii : Int) - 1 < ((min (ii + 2) n : Nat) : Int)) then
        (((min (ii + 2) n : Nat) : Int) - ((ii : Int) - 1) - 1) / 1 + 1 else 0).toNat
        = min (ii + 2) n - (ii - 1) := by split <;> omega
    rw [e4]
    congr 1
    apply List.map_congr_left
    intro k _
    omega

/-- The flat positions of a window. -/
def windowIdx (h w ii jj : Nat) : List Nat := (around h ii).flatMap fun r => (around w jj).map fun c => r * w + c

theorem window_eq {h w ii jj : Nat} (hi : ii < h) (hj : jj < w) (img : List (Option Rat)) :
    window h w img ii jj = .ok ((windowIdx h w ii jj).map fun i => img.getD i none) := by
  unfold window windowIdx
  rw [slice_around hi, slice_around hj]
  simp only [Outcome.ok_bind, List.map_flatMap, List.map_map]
  rfl

theorem mem_around {n ii j : Nat} (h0 : 0 < ii) : j ∈ around n ii ↔ j < n ∧ j ≤ ii + 1 ∧ ii ≤ j + 1 := by
  unfold around
  rw [if_neg (by omega)]
  simp only [List.mem_map, List.mem_range]
  constructor
  · rintro ⟨k, hk, rfl⟩; omega
  · rintro ⟨h1, h2, h3⟩
    exact ⟨j - (ii - 1), by omega, by omega⟩

theorem nodup_around (n ii : Nat) : (around n ii).Nodup := by
  unfold around
  split <;> exact List.Nodup.map (fun a b h => by simpa using h) List.nodup_range

theorem around_lt {n ii j : Nat} (hi : ii < n) (h : j ∈ around n ii) : j < n := by
  rcases Nat.eq_zero_or_pos ii with rfl | h0
  · unfold around at h
    rw [if_pos rfl] at h
    obtain ⟨k, hk, rfl⟩ := List.mem_map.1 h
    have := List.mem_range.1 hk
    omega
  · exact ((mem_around h0).1 h).1

/-- Inside (not in the first row or column), the window is the neighbourhood. -/
theorem windowIdx_perm {h w i : Nat} (hi : i < h * w) (hr : 0 < i / w) (hc : 0 < i % w) :
    (windowIdx h w (i / w) (i % w)).Perm (neighbours h w i) := by
  have hw : 0 < w := by
    rcases Nat.eq_zero_or_pos w with h0 | h0
    · simp [h0] at hi
    · exact h0
  rw [List.perm_ext_iff_of_nodup]
  · intro j
    unfold windowIdx neighbours
    simp only [List.mem_flatMap, List.mem_map, List.mem_filter, List.mem_range, decide_eq_true_eq]
    constructor
    · rintro ⟨r, h1, c, h2, rfl⟩
      have h3 := (mem_around hr).1 h1
      have h4 := (mem_around hc).1 h2
      rw [flat_div r h4.1, flat_mod r h4.1]
      refine ⟨?_, by omega, by omega, by omega, by omega⟩
      have := flat_lt h4.1 h3.1
      rwa [Nat.mul_comm w h] at this
    · rintro ⟨h1, h2, h3, h4, h5⟩
      have hd : j / w < h := Nat.div_lt_of_lt_mul (by rwa [Nat.mul_comm w h])
      exact ⟨j / w, (mem_around hr).2 ⟨hd, h2, h3⟩, j % w, (mem_around hc).2 ⟨Nat.mod_lt _ hw, h4, h5⟩, Nat.div_add_mod' j w⟩
  · unfold windowIdx
    rw [List.nodup_flatMap]
    constructor
    · intro r _
      exact List.Nodup.map (fun a b h => by simpa using h) (nodup_around _ _)
    · apply List.Pairwise.imp_of_mem _ (nodup_around h (i / w))
      intro r r' _ _ hne x h1 h2
      obtain ⟨c, hc1, rfl⟩ := List.mem_map.1 h1
      obtain ⟨c', hc2, heq⟩ := List.mem_map.1 h2
      have l1 := ((mem_around hc).1 hc1).1
      have l2 := ((mem_around hc).1 hc2).1
      have := congrArg (· / w) heq
      simp only [flat_div _ l1, flat_div _ l2] at this
      exact hne this.symm
  · exact List.nodup_range.filter _

/-- One position of one component. -/
def fill (h w : Nat) (img : List (Option Rat)) (i : Nat) : List (Option Rat) :=
  img.set i (nanmedian ((windowIdx h w (i / w) (i % w)).map fun j => img.getD j none))

/-- The bad positions, and a component without their values. -/
def badAt (com : Com) (cut : Rat × Rat) (i : Nat) : Bool := outside cut (com.2.getD i none)
def badList (n : Nat) (com : Com) (cut : Rat × Rat) : List Nat := (List.range n).filter (badAt com cut)
def blanked (com : Com) (cut : Rat × Rat) (l : List (Option Rat)) : List (Option Rat) :=
  List.zipWith (fun (b : Bool) v => if b then none else v) (com.2.map (outside cut)) l

theorem filter_eq {h w : Nat} (com : Com) (cut : Rat × Rat) :
    filterBadSectors h w com cut = .ok ((badList (h * w) com cut).foldl (fill h w) (blanked com cut com.1),
      (badList (h * w) com cut).foldl (fill h w) (blanked com cut com.2)) := by
  have hbad : ((List.range (h * w)).filter fun i => (com.2.map (outside cut)).getD i false) = badList (h * w) com cut := by
    unfold badList
    apply List.filter_congr
    intro i _
    unfold badAt
    rw [List.getD_eq_getElem?_getD, List.getD_eq_getElem?_getD, List.getElem?_map]
    cases com.2[i]? <;> rfl
  unfold filterBadSectors
  simp only
  rw [hbad]
  have : ∀ (l : List Nat) (c : Com), (∀ i ∈ l, i < h * w) → l.foldlM (fun com i => do
      let l0 ← window h w com.1 (i / w) (i % w)
      let com := (com.1.set i (nanmedian l0), com.2)
      let l1 ← window h w com.2 (i / w) (i % w)
      Outcome.ok (com.1, com.2.set i (nanmedian l1))) c = .ok (l.foldl (fill h w) c.1, l.foldl (fill h w) c.2) := by
    intro l
    induction l with
    | nil => intro c _; rfl
    | cons i l ih =>
      intro c hl
      have hi := hl i (by simp)
      obtain ⟨h1, h2⟩ := divmod_lt (w := w) (h := h) (i := i) (by rwa [Nat.mul_comm w h])
      rw [List.foldlM_cons, window_eq h2 h1]
      simp only [Outcome.ok_bind]
      rw [window_eq h2 h1]
      simp only [Outcome.ok_bind]
      rw [ih _ fun j hj => hl j (by simp [hj])]
      rfl
  exact this _ _ fun i hi => List.mem_range.1 (List.mem_filter.1 hi).1

theorem fill_length (h w : Nat) (img : List (Option Rat)) (i : Nat) : (fill h w img i).length = img.length := by simp [fill]

theorem fill_other (h w : Nat) (img : List (Option Rat)) {i j : Nat} (hne : j ≠ i) :
    (fill h w img i).getD j none = img.getD j none := by
  unfold fill
  rw [List.getD_eq_getElem?_getD, List.getElem?_set, if_neg (fun h => hne h.symm), ← List.getD_eq_getElem?_getD]

theorem foldl_fill_length (h w : Nat) (l : List Nat) (img : List (Option Rat)) : (l.foldl (fill h w) img).length = img.length := by
  induction l generalizing img with
  | nil => rfl
  | cons i l ih => rw [List.foldl_cons, ih, fill_length]

theorem foldl_fill_other (h w : Nat) (l : List Nat) (img : List (Option Rat)) {j : Nat} (hj : j ∉ l) :
    (l.foldl (fill h w) img).getD j none = img.getD j none := by
  induction l generalizing img with
  | nil => rfl
  | cons i l ih =>
    rw [List.foldl_cons, ih _ (by simp_all), fill_other _ _ _ (by simp_all)]

/-- The value stored at a bad position: from the earlier repaired ones, and from the others. -/
theorem foldl_fill_at (h w : Nat) {l : List Nat} (hl : l.Pairwise (· < ·)) (img : List (Option Rat)) {i : Nat} (hi : i ∈ l)
    (hlen : i < img.length) :
    (l.foldl (fill h w) img).getD i none = nanmedian ((windowIdx h w (i / w) (i % w)).map fun j =>
      if j ∈ l ∧ i ≤ j then img.getD j none else (l.foldl (fill h w) img).getD j none) := by
  induction l generalizing img with
  | nil => cases hi
  | cons k l ih =>
    obtain ⟨h1, h2⟩ := List.pairwise_cons.1 hl
    rcases List.mem_cons.1 hi with rfl | hmem
    · have hnot : i ∉ l := fun hm => by have := h1 i hm; omega
      rw [List.foldl_cons, foldl_fill_other _ _ _ _ hnot]
      unfold fill
      rw [List.getD_eq_getElem?_getD, List.getElem?_set, if_pos rfl, if_pos hlen, Option.getD_some]
      congr 1
      apply List.map_congr_left
      intro j _
      by_cases hj : j ∈ i :: l
      · have : i ≤ j := by
          rcases List.mem_cons.1 hj with rfl | hm
          · exact le_refl _
          · exact (h1 j hm).le
        rw [if_pos ⟨hj, this⟩]
      · rw [if_neg fun h => hj h.1]
        have hji : j ≠ i := fun h => hj (by simp [h])
        have hjl : j ∉ l := fun h => hj (by simp [h])
        have := foldl_fill_other h w l (fill h w img i) hjl
        unfold fill at this
        rw [this]
        exact (fill_other h w img hji).symm
    · rw [List.foldl_cons, ih h2 (fill h w img k) hmem (by rw [fill_length]; exact hlen)]
      have hki : k < i := h1 i hmem
      congr 1
      apply List.map_congr_left
      intro j _
      by_cases hj : j ∈ l ∧ i ≤ j
      · rw [if_pos hj, if_pos ⟨by simp [hj.1], hj.2⟩, fill_other _ _ _ (by omega)]
      · rw [if_neg hj, if_neg]
        rintro ⟨h3, h4⟩
        rcases List.mem_cons.1 h3 with rfl | hm
        · omega
        · exact hj ⟨hm, h4⟩

theorem blanked_get {n : Nat} {com : Com} {cut : Rat × Rat} {l : List (Option Rat)} (h2 : com.2.length = n) (hl : l.length = n) {i : Nat}
    (hi : i < n) : (blanked com cut l).getD i none = if badAt com cut i then none else l.getD i none := by
  unfold blanked badAt
  rw [List.getD_eq_getElem?_getD, List.getElem?_zipWith, List.getElem?_map, List.getElem?_eq_getElem (by omega),
    List.getElem?_eq_getElem (by omega), List.getD_eq_getElem?_getD, List.getElem?_eq_getElem (by omega),
    List.getD_eq_getElem?_getD, List.getElem?_eq_getElem (by omega)]
  rfl

theorem badList_sorted (n : Nat) (com : Com) (cut : Rat × Rat) : (badList n com cut).Pairwise (· < ·) :=
  List.pairwise_lt_range.filter _

theorem mem_badList {n : Nat} {com : Com} {cut : Rat × Rat} {i : Nat} : i ∈ badList n com cut ↔ i < n ∧ badAt com cut i = true := by
  simp [badList]

/-- What one component has after the filter. -/
structure Repaired (h w : Nat) (bad : Nat → Bool) (old new : List (Option Rat)) : Prop where
  length : new.length = h * w
  /-- values of the good positions stay -/
  good : ∀ i < h * w, bad i = false → new.getD i none = old.getD i none
  /-- a bad position gets the median of its neighbourhood: of good positions, and of bad ones repaired before -/
  bad : ∀ i < h * w, bad i = true → 0 < i / w → 0 < i % w →
    IsNanMedian ((neighbours h w i).filterMap fun j =>
      if bad j then (if j < i then new.getD j none else none) else old.getD j none) (new.getD i none)

theorem repaired_of {h w : Nat} {com : Com} {cut : Rat × Rat} {l : List (Option Rat)} (h2 : com.2.length = h * w)
    (hl : l.length = h * w) :
    Repaired h w (badAt com cut) l ((badList (h * w) com cut).foldl (fill h w) (blanked com cut l)) := by
  have hbl : (blanked com cut l).length = h * w := by simp [blanked, h2, hl]
  have hgood : ∀ i < h * w, badAt com cut i = false →
      ((badList (h * w) com cut).foldl (fill h w) (blanked com cut l)).getD i none = l.getD i none := by
    intro i hi hb
    rw [foldl_fill_other _ _ _ _ (by rw [mem_badList]; simp [hb]), blanked_get h2 hl hi, hb]
    rfl
  refine ⟨?_, hgood, ?_⟩
  · rw [foldl_fill_length, hbl]
  · intro i hi hb hr hc
    have hval := foldl_fill_at h w (badList_sorted (h * w) com cut) (blanked com cut l) (mem_badList.2 ⟨hi, hb⟩) (by omega)
    rw [hval]
    apply nanmedian_spec
    rw [List.filterMap_map]
    have hp := (windowIdx_perm hi hr hc).symm.filterMap (id ∘ fun j =>
      if j ∈ badList (h * w) com cut ∧ i ≤ j then (blanked com cut l).getD j none
      else ((badList (h * w) com cut).foldl (fill h w) (blanked com cut l)).getD j none)
    refine List.Perm.trans (List.Perm.of_eq ?_) hp
    apply List.filterMap_congr
    intro j hj
    have hjn : j < h * w := List.mem_range.1 (List.mem_filter.1 hj).1
    simp only [Function.comp, id]
    cases hbj : badAt com cut j with
    | false =>
      rw [if_neg (by simp), if_neg (by rw [mem_badList]; simp [hbj]), hgood j hjn hbj]
    | true =>
      rw [if_pos rfl]
      by_cases hlt : j < i
      · rw [if_pos hlt, if_neg (by omega)]
      · rw [if_neg hlt, if_pos ⟨mem_badList.2 ⟨hjn, hbj⟩, by omega⟩, blanked_get h2 hl hjn, hbj]
        rfl

/-- **C53**, without the first row and column: positions inside of the cut-offs (and those without a value) keep their values,
the others get the median of the values in their neighbourhood inside of the image; positions repaired before count with the
new value.
Missing: the first row and column, see `C53_border_false`. -/
theorem C53_filter_partial (h w : Nat) (com : Com) (cut : Rat × Rat) (h1 : com.1.length = h * w) (h2 : com.2.length = h * w)
    (bad : Nat → Bool) (hbad : ∀ i, bad i = true ↔ ∃ v, com.2[i]? = some (some v) ∧ (cut.2 < v ∨ v < cut.1)) :
    ∃ out, filterBadSectors h w com cut = .ok out ∧ Repaired h w bad com.1 out.1 ∧ Repaired h w bad com.2 out.2 := by
  have hb : badAt com cut = bad := by
    funext i
    rw [Bool.eq_iff_iff, hbad i]
    unfold badAt outside
    rw [List.getD_eq_getElem?_getD]
    cases hc : com.2[i]? with
    | none => simp
    | some o => cases o <;> simp
  refine ⟨_, filter_eq com cut, ?_, ?_⟩
  · rw [← hb]; exact repaired_of h2 h1
  · rw [← hb]; exact repaired_of h2 h2

/-- **C53**: an isolated bad position gets the median of the original values of its neighbours. -/
theorem C53_isolated {h w : Nat} {bad : Nat → Bool} {old new : List (Option Rat)} (r : Repaired h w bad old new) {i : Nat}
    (hi : i < h * w) (hb : bad i = true) (hr : 0 < i / w) (hc : 0 < i % w) (hiso : ∀ j ∈ neighbours h w i, j ≠ i → bad j = false) :
    IsNanMedian (((neighbours h w i).filter (· ≠ i)).filterMap fun j => old.getD j none) (new.getD i none) := by
  have h1 := r.bad i hi hb hr hc
  have : ((neighbours h w i).filterMap fun j => if bad j then (if j < i then new.getD j none else none) else old.getD j none) =
      ((neighbours h w i).filter (· ≠ i)).filterMap fun j => old.getD j none := by
    rw [List.filterMap_filter]
    apply List.filterMap_congr
    intro j hj
    by_cases hji : j = i
    · subst hji; simp [hb]
    · simp [hiso j hj hji, hji]
  rwa [this] at h1

theorem around_zero {n : Nat} (hn : 3 ≤ n) : around n 0 = [] := by
  unfold around
  rw [if_pos rfl, show min 2 n - (n - 1) = 0 by omega]
  rfl

/-- **C53 is violated at the borders**: in an image with at least three rows, every bad position of the first row gets `NaN`,
whatever the values of its neighbours; the same for the first column. -/
theorem C53_border_false (h w : Nat) (com : Com) (cut : Rat × Rat) (h1 : com.1.length = h * w) (h2 : com.2.length = h * w)
    {i : Nat} (hi : i < h * w) (hb : ∃ v, com.2[i]? = some (some v) ∧ (cut.2 < v ∨ v < cut.1))
    (hborder : (i / w = 0 ∧ 3 ≤ h) ∨ (i % w = 0 ∧ 3 ≤ w)) :
    ∃ out, filterBadSectors h w com cut = .ok out ∧ out.1[i]? = some none ∧ out.2[i]? = some none := by
  have hbad : badAt com cut i = true := by
    obtain ⟨v, hv, hc⟩ := hb
    unfold badAt outside
    rw [List.getD_eq_getElem?_getD, hv]
    simpa using hc
  have hwin : windowIdx h w (i / w) (i % w) = [] := by
    unfold windowIdx
    rcases hborder with ⟨h0, h3⟩ | ⟨h0, h3⟩
    · rw [h0, around_zero h3]; rfl
    · rw [h0, around_zero h3]; simp
  refine ⟨_, filter_eq com cut, ?_, ?_⟩
  · have hl : (blanked com cut com.1).length = h * w := by simp [blanked, h1, h2]
    have hv := foldl_fill_at h w (badList_sorted (h * w) com cut) (blanked com cut com.1) (mem_badList.2 ⟨hi, hbad⟩) (by omega)
    rw [hwin] at hv
    have hlen := foldl_fill_length h w (badList (h * w) com cut) (blanked com cut com.1)
    rw [List.getD_eq_getElem?_getD, List.getElem?_eq_getElem (by omega)] at hv
    simp only
    rw [List.getElem?_eq_getElem (by omega)]
    exact congrArg some hv
  · have hl : (blanked com cut com.2).length = h * w := by simp [blanked, h2]
    have hv := foldl_fill_at h w (badList_sorted (h * w) com cut) (blanked com cut com.2) (mem_badList.2 ⟨hi, hbad⟩) (by omega)
    rw [hwin] at hv
    have hlen := foldl_fill_length h w (badList (h * w) com cut) (blanked com cut com.2)
    rw [List.getD_eq_getElem?_getD, List.getElem?_eq_getElem (by omega)] at hv
    simp only
    rw [List.getElem?_eq_getElem (by omega)]
    exact congrArg some hv

/-- An image with one bad position in the middle and one at the border. -/
def badSample : Com := ([some 1, some 2, some 3, some 4, some 50, some 6, none, some 8, some 9],
  [some 1, some 70, some 3, some 4, some 50, some 6, none, some 8, some 9])

example : filterBadSectors 3 3 badSample (0, 10) = .ok
    ([some 1, none, some 3, some 4, some 5, some 6, none, some 8, some 9],
     [some 1, none, some 3, some 4, some 5, some 6, none, some 8, some 9]) := by decide +kernel

end Stempy.PyImage
