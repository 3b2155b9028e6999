import Verif.Model.Histogram
import Verif.Lemmas.Loop
import Verif.Lemmas.ListSum
import Mathlib.Tactic.FieldSimp
import Mathlib.Tactic.Positivity

/-!
C06: the STEM histogram.
-/

namespace Stempy.Props
open Stempy.Histogram

/-- Specification: value `v` belongs to bin `j` of the `n` bins with the given edges: half-open, the
last bin closed. -/
def inBin {α : Type} [LinearOrder α] (n : Nat) (edge : Nat → α) (j : Nat) (v : α) : Prop :=
  edge j ≤ v ∧ (v < edge (j + 1) ∨ (j + 1 = n ∧ v = edge n))

instance {α : Type} [LinearOrder α] (n : Nat) (edge : Nat → α) (j : Nat) (v : α) :
    Decidable (inBin n edge j v) := by unfold inBin; infer_instance

theorem bump_get {freq : List Nat} {j : Nat} (hj : j < freq.length) :
    ∃ f', bump freq j = .ok f' ∧ f'.length = freq.length ∧
      ∀ k : Nat, f'[k]? = (freq[k]?).map fun c => c + if k = j then 1 else 0 := by
  refine ⟨freq.set j (freq[j] + 1), ?_, by simp, ?_⟩
  · unfold bump; rw [readAt_lt hj, Outcome.ok_bind, writeAt_lt hj]
  · intro k
    by_cases hk : k = j
    · subst hk; rw [List.getElem?_set_self hj]; simp [hj]
    · rw [List.getElem?_set_ne (fun h => hk h.symm)]; simp [hk]

theorem histValue_get {α : Type} [LinearOrder α] (n : Nat) (hn : 0 < n) (edge : Nat → α)
    (mono : ∀ i j, i ≤ j → j ≤ n → edge i ≤ edge j) (freq : List Nat) (hf : freq.length = n)
    (v : α) :
    ∃ f', histValue n ((List.range (n + 1)).map edge) freq v = .ok f' ∧ f'.length = n ∧
      ∀ k, k < n → f'[k]? = (freq[k]?).map fun c => c + if inBin n edge k v then 1 else 0 := by
  have hread : ∀ j, j ≤ n → readAt ((List.range (n + 1)).map edge) j = .ok (edge j) := by
    intro j hj
    rw [readAt_eq_ok, List.getElem?_map, List.getElem?_range (by omega)]; rfl
  obtain ⟨f1, h1, h2, h3⟩ := foldlM_range_inv n
    (fun freq j => do
      let b ← readAt ((List.range (n + 1)).map edge) j
      if b ≤ v then do
        let b' ← readAt ((List.range (n + 1)).map edge) (j + 1)
        if v < b' then bump freq j else pure freq
      else pure freq)
    (fun m f => f.length = n ∧ ∀ k, k < n → f[k]? = (freq[k]?).map fun c =>
      c + if k < m ∧ edge k ≤ v ∧ v < edge (k + 1) then 1 else 0) freq
    ⟨hf, by intro k hk; simp⟩
    (by
      rintro j hj f ⟨hl, hI⟩
      simp only [hread j (by omega), hread (j + 1) (by omega), Outcome.ok_bind]
      by_cases hb : edge j ≤ v ∧ v < edge (j + 1)
      · obtain ⟨f', e1, e2, e3⟩ := bump_get (freq := f) (j := j) (by omega)
        rw [if_pos hb.1, if_pos hb.2]
        refine ⟨f', e1, by omega, ?_⟩
        intro k hk
        rw [e3 k, hI k hk, Option.map_map]
        congr 1
        funext c
        simp only [Function.comp]
        by_cases hkj : k = j
        · subst hkj; simp [hb]
        · have : k < j ↔ k < j + 1 := by omega
          simp [hkj, this]
      · refine ⟨f, ?_, hl, ?_⟩
        · by_cases h1 : edge j ≤ v
          · rw [if_pos h1, if_neg (fun h => hb ⟨h1, h⟩)]; rfl
          · rw [if_neg h1]; rfl
        · intro k hk
          rw [hI k hk]
          congr 1
          funext c
          by_cases hkj : k = j
          · subst hkj
            rw [if_neg (by omega), if_neg (fun h => hb h.2)]
          · have : k < j ↔ k < j + 1 := by omega
            simp only [this])
  unfold histValue
  rw [h1, Outcome.ok_bind, hread n (by omega), Outcome.ok_bind]
  by_cases hv : v = edge n
  · obtain ⟨f', e1, e2, e3⟩ := bump_get (freq := f1) (j := n - 1) (by omega)
    rw [if_pos hv, if_neg (by omega)]
    refine ⟨f', e1, by omega, ?_⟩
    intro k hk
    rw [e3 k, h3 k hk, Option.map_map]
    congr 1
    funext c
    simp only [Function.comp]
    have hnot : ¬ (k < n ∧ edge k ≤ v ∧ v < edge (k + 1)) := by
      rintro ⟨_, _, h⟩
      have := mono (k + 1) n (by omega) (Nat.le_refl _)
      rw [hv] at h
      exact absurd h (not_lt.2 this)
    have hkle : edge k ≤ v := by rw [hv]; exact mono k n (by omega) (Nat.le_refl _)
    have hnlt : ¬ v < edge (k + 1) := fun h => hnot ⟨hk, hkle, h⟩
    rw [if_neg hnot]
    by_cases hkn : k = n - 1
    · rw [if_pos hkn, if_pos ⟨hkle, Or.inr ⟨by omega, hv⟩⟩]
    · rw [if_neg hkn, if_neg]
      rintro ⟨_, h | h⟩
      · exact hnlt h
      · omega
  · rw [if_neg hv]
    refine ⟨f1, rfl, h2, ?_⟩
    intro k hk
    rw [h3 k hk]
    congr 1
    funext c
    unfold inBin
    simp [hk, hv]

/-- **C06** (bins). For non-decreasing edges, the histogram succeeds and entry `j` is the number of
values in bin `j`. -/
theorem C06_bins {α : Type} [LinearOrder α] (values : List α) (n : Nat) (hn : 0 < n)
    (edge : Nat → α) (mono : ∀ i j, i ≤ j → j ≤ n → edge i ≤ edge j) :
    createSTEMHistogram values n ((List.range (n + 1)).map edge) =
      .ok ((List.range n).map fun j => values.countP fun v => inBin n edge j v) := by
  unfold createSTEMHistogram
  obtain ⟨f, h1, h2, h3⟩ := foldlM_list_inv values (histValue n ((List.range (n + 1)).map edge))
    (fun pre f => f.length = n ∧ ∀ k, k < n → f[k]? = some (pre.countP fun v => inBin n edge k v))
    (List.replicate n 0) ⟨by simp, by intro k hk; simp [hk]⟩
    (by
      rintro pre v post f _ ⟨hl, hI⟩
      obtain ⟨f', e1, e2, e3⟩ := histValue_get n hn edge mono f hl v
      refine ⟨f', e1, e2, ?_⟩
      intro k hk
      rw [e3 k hk, hI k hk, Option.map_some, List.countP_append, List.countP_cons, List.countP_nil]
      simp)
  rw [h1]
  congr 1
  apply List.ext_getElem?
  intro k
  by_cases hk : k < n
  · rw [h3 k hk, List.getElem?_map, List.getElem?_range hk]; rfl
  · rw [List.getElem?_eq_none (by omega), List.getElem?_eq_none (by simp; omega)]

/-- Every value in the closed range is in exactly one bin, others in none. -/
theorem sum_inBin {α : Type} [LinearOrder α] (n : Nat) (hn : 0 < n) (edge : Nat → α)
    (mono : ∀ i j, i ≤ j → j ≤ n → edge i ≤ edge j) (v : α) :
    ((List.range n).map fun j => if inBin n edge j v then 1 else 0).sum =
      if edge 0 ≤ v ∧ v ≤ edge n then 1 else 0 := by
  -- number of bins among the first `m` that contain `v`
  have key : ∀ m, m < n → ((List.range m).map fun j => if inBin n edge j v then 1 else 0).sum =
      if edge 0 ≤ v ∧ v < edge m then 1 else 0 := by
    intro m hm
    induction m with
    | zero =>
      have : ¬ (edge 0 ≤ v ∧ v < edge 0) := fun h => absurd h.2 (not_lt.2 h.1)
      simp [this]
    | succ m ih =>
      rw [List.range_succ, List.map_append, List.sum_append, ih (by omega)]
      simp only [List.map_cons, List.map_nil, List.sum_cons, List.sum_nil, Nat.add_zero]
      have e : inBin n edge m v ↔ edge m ≤ v ∧ v < edge (m + 1) := by
        unfold inBin
        constructor
        · rintro ⟨h1, h2 | h2⟩
          · exact ⟨h1, h2⟩
          · omega
        · rintro ⟨h1, h2⟩; exact ⟨h1, Or.inl h2⟩
      have m1 := mono 0 m (by omega) (by omega)
      have m2 := mono m (m + 1) (by omega) (by omega)
      by_cases c1 : v < edge m
      · have n1 : ¬ inBin n edge m v := fun h => absurd c1 (not_lt.2 (e.1 h).1)
        have n2 : v < edge (m + 1) := lt_of_lt_of_le c1 m2
        simp [c1, n1, n2]
      · have c1' : edge m ≤ v := not_lt.1 c1
        have c0 : edge 0 ≤ v := le_trans m1 c1'
        have : inBin n edge m v ↔ v < edge (m + 1) := by rw [e]; simp [c1']
        simp [c1, c0, this]
  obtain ⟨m, rfl⟩ : ∃ m, n = m + 1 := ⟨n - 1, by omega⟩
  rw [List.range_succ, List.map_append, List.sum_append, key m (by omega)]
  simp only [List.map_cons, List.map_nil, List.sum_cons, List.sum_nil, Nat.add_zero]
  have m1 := mono 0 m (by omega) (by omega)
  have m2 := mono m (m + 1) (by omega) (by omega)
  have e : inBin (m + 1) edge m v ↔ edge m ≤ v ∧ v ≤ edge (m + 1) := by
    unfold inBin
    constructor
    · rintro ⟨h1, h2 | h2⟩
      · exact ⟨h1, le_of_lt h2⟩
      · exact ⟨h1, le_of_eq h2.2⟩
    · rintro ⟨h1, h2⟩
      refine ⟨h1, ?_⟩
      rcases lt_or_eq_of_le h2 with h | h
      · exact Or.inl h
      · exact Or.inr ⟨rfl, h⟩
  by_cases c1 : v < edge m
  · have n1 : ¬ inBin (m + 1) edge m v := fun h => absurd c1 (not_lt.2 (e.1 h).1)
    have n2 : v ≤ edge (m + 1) := le_of_lt (lt_of_lt_of_le c1 m2)
    simp [c1, n1, n2]
  · have c1' : edge m ≤ v := not_lt.1 c1
    have c0 : edge 0 ≤ v := le_trans m1 c1'
    have : inBin (m + 1) edge m v ↔ v ≤ edge (m + 1) := by rw [e]; simp [c1']
    simp [c1, c0, this]

theorem sum_countP {α : Type} (values : List α) (n : Nat) (p : Nat → α → Bool) :
    ((List.range n).map fun j => values.countP (p j)).sum =
      (values.map fun v => ((List.range n).map fun j => if p j v then 1 else 0).sum).sum := by
  induction values with
  | nil => simp
  | cons v values ih =>
    simp only [List.countP_cons, List.map_cons, List.sum_cons]
    rw [sum_map_add', ih]; omega

/-- **C06** (total). The histogram counts exactly the values between the first and the last edge,
each once. -/
theorem C06_total {α : Type} [LinearOrder α] (values : List α) (n : Nat) (hn : 0 < n)
    (edge : Nat → α) (mono : ∀ i j, i ≤ j → j ≤ n → edge i ≤ edge j) :
    ∃ f, createSTEMHistogram values n ((List.range (n + 1)).map edge) = .ok f ∧
      f.sum = values.countP fun v => edge 0 ≤ v ∧ v ≤ edge n := by
  refine ⟨_, C06_bins values n hn edge mono, ?_⟩
  rw [sum_countP]
  have : ∀ v ∈ values, ((List.range n).map fun j => if decide (inBin n edge j v) then 1 else 0).sum =
      if edge 0 ≤ v ∧ v ≤ edge n then 1 else 0 := by
    intro v _
    have := sum_inBin n hn edge mono v
    simpa using this
  rw [List.map_congr_left this]
  clear this
  induction values with
  | nil => rfl
  | cons v values ih =>
    rw [List.map_cons, List.sum_cons, ih, List.countP_cons]
    simp only [decide_eq_true_eq]
    omega

theorem foldl_min_le (vs : List Rat) (a : Rat) :
    vs.foldl min a ≤ a ∧ ∀ v ∈ vs, vs.foldl min a ≤ v := by
  induction vs generalizing a with
  | nil => simp
  | cons x vs ih =>
    obtain ⟨h1, h2⟩ := ih (min a x)
    refine ⟨le_trans h1 (min_le_left _ _), ?_⟩
    intro v hv
    rcases List.mem_cons.1 hv with h | h
    · subst h; exact le_trans h1 (min_le_right _ _)
    · exact h2 v h

theorem le_foldl_max (vs : List Rat) (a : Rat) :
    a ≤ vs.foldl max a ∧ ∀ v ∈ vs, v ≤ vs.foldl max a := by
  induction vs generalizing a with
  | nil => simp
  | cons x vs ih =>
    obtain ⟨h1, h2⟩ := ih (max a x)
    refine ⟨le_trans (le_max_left _ _) h1, ?_⟩
    intro v hv
    rcases List.mem_cons.1 hv with h | h
    · subst h; exact le_trans (le_max_right _ _) h1
    · exact h2 v h

/-- **C06** with the edges stempy computes itself: no pixel of the image is lost. -/
theorem C06_container_total (values : List Rat) (hv : values ≠ []) (n : Nat) (hn : 0 < n) :
    ∃ bins f, getContainer values n = .ok bins ∧ createSTEMHistogram values n bins = .ok f ∧
      f.sum = values.length := by
  cases values with
  | nil => exact absurd rfl hv
  | cons v vs =>
    obtain ⟨lo1, lo2⟩ := foldl_min_le vs v
    obtain ⟨hi1, hi2⟩ := le_foldl_max vs v
    have hn' : (0 : Rat) < n := by exact_mod_cast hn
    have hlen : 0 ≤ (vs.foldl max v - vs.foldl min v) / (n : Rat) := by
      apply div_nonneg _ (le_of_lt hn'); linarith
    let edge : Nat → Rat := fun i =>
      vs.foldl min v + i * ((vs.foldl max v - vs.foldl min v) / (n : Rat))
    have mono : ∀ i j, i ≤ j → j ≤ n → edge i ≤ edge j := by
      intro i j hij _
      have : (i : Rat) ≤ j := by exact_mod_cast hij
      simp only [edge]
      nlinarith
    obtain ⟨f, h1, h2⟩ := C06_total (v :: vs) n hn edge mono
    refine ⟨(List.range (n + 1)).map edge, f, ?_, h1, ?_⟩
    · unfold getContainer minmax
      simp only [Outcome.ok_bind]
      rw [if_neg (by omega)]
      rfl
    · rw [h2, List.countP_eq_length]
      intro u hu
      have e0 : edge 0 = vs.foldl min v := by simp [edge]
      have en : edge n = vs.foldl max v := by
        simp only [edge]; field_simp; ring
      rw [e0, en]
      simp only [decide_eq_true_eq]
      rcases List.mem_cons.1 hu with h | h
      · subst h; exact ⟨lo1, hi1⟩
      · exact ⟨lo2 u h, hi2 u h⟩

/-- Non-vacuity and a concrete instance: 4 edges, values at the edges, below and above. -/
example : createSTEMHistogram ([-1, 0, 2, 2, 3, 6, 6, 9] : List Int) 3 [0, 2, 4, 6] =
    .ok [1, 3, 2] := by decide
example : ∀ i j, i ≤ j → j ≤ 3 → (fun k : Nat => 2 * (k : Int)) i ≤ (fun k : Nat => 2 * (k : Int)) j := by
  intro i j h _; simp only; omega

end Stempy.Props
