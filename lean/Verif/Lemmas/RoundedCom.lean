import Verif.Model.RoundedCom
import Verif.Lemmas.IeeeRound
import Verif.Lemmas.Com
import Mathlib.Tactic.Linarith
import Mathlib.Tactic.Positivity
import Mathlib.Tactic.NormNum
import Mathlib.Tactic.Ring
import Mathlib.Tactic.FieldSimp

/-! Square roots and distances in floating point; both versions of `com_sparse` position by position. -/

namespace Stempy.RoundedCom
open Numpy Sparse
open Stempy.FloatPixels (Fl)
open Stempy.SafeCast (Format float32 float64)
open Stempy.IeeeRound
open Stempy.PyImage (Num Ev at_ located located_at located_lt bincountLength_eq count_at gather_range_map at_self_ne zip_filter)

/-! ### Square roots -/

theorem rootApprox_nonneg (q : Rat) : 0 ≤ rootApprox q := by
  unfold rootApprox
  have : (0 : Rat) ≤ (Nat.sqrt ⌊q * 4 ^ 1100⌋₊ : Nat) := Nat.cast_nonneg _
  simp only
  apply div_nonneg _ (by positivity)
  split <;> linarith

theorem scaled_le {P a b : Rat} (hP : 0 < P) (h0 : 0 ≤ a) (hab : a ≤ b) :
    ((Nat.sqrt ⌊a * P⌋₊ : Nat) : Rat) + (if ((Nat.sqrt ⌊a * P⌋₊ : Nat) : Rat) ^ 2 = a * P then 0 else 1 / 2) ≤
      ((Nat.sqrt ⌊b * P⌋₊ : Nat) : Rat) + (if ((Nat.sqrt ⌊b * P⌋₊ : Nat) : Rat) ^ 2 = b * P then 0 else 1 / 2) := by
  have h1 : a * P ≤ b * P := mul_le_mul_of_nonneg_right hab hP.le
  have h2 : Nat.sqrt ⌊a * P⌋₊ ≤ Nat.sqrt ⌊b * P⌋₊ := Nat.sqrt_le_sqrt (Nat.floor_mono h1)
  rcases Nat.eq_or_lt_of_le h2 with h3 | h3
  · rw [← h3]
    by_cases hb : ((Nat.sqrt ⌊a * P⌋₊ : Nat) : Rat) ^ 2 = b * P
    · have h4 : ((Nat.sqrt ⌊a * P⌋₊ : Nat) : Rat) ^ 2 ≤ a * P := by
        have h5 := Nat.sqrt_le' ⌊a * P⌋₊
        have h6 : ((⌊a * P⌋₊ : Nat) : Rat) ≤ a * P := Nat.floor_le (mul_nonneg h0 hP.le)
        have h7 : ((Nat.sqrt ⌊a * P⌋₊ : Nat) : Rat) ^ 2 ≤ ((⌊a * P⌋₊ : Nat) : Rat) := by exact_mod_cast h5
        exact le_trans h7 h6
      have h8 : ((Nat.sqrt ⌊a * P⌋₊ : Nat) : Rat) ^ 2 = a * P := le_antisymm h4 (by rw [hb]; exact h1)
      rw [if_pos h8, if_pos hb]
    · rw [if_neg hb]
      split <;> linarith
  · have h4 : ((Nat.sqrt ⌊a * P⌋₊ : Nat) : Rat) + 1 ≤ ((Nat.sqrt ⌊b * P⌋₊ : Nat) : Rat) := by exact_mod_cast h3
    split <;> split <;> linarith

theorem rootApprox_mono {a b : Rat} (h0 : 0 ≤ a) (hab : a ≤ b) : rootApprox a ≤ rootApprox b := by
  unfold rootApprox
  exact div_le_div_of_nonneg_right (scaled_le (by positivity) h0 hab) (by positivity)

theorem scaled_fix {P : Rat} {M : Nat} {a : Rat} (h : a * P = (M : Rat) ^ 2) :
    ((Nat.sqrt ⌊a * P⌋₊ : Nat) : Rat) + (if ((Nat.sqrt ⌊a * P⌋₊ : Nat) : Rat) ^ 2 = a * P then 0 else 1 / 2) = M := by
  have h1 : ⌊a * P⌋₊ = M ^ 2 := by
    rw [h]
    exact_mod_cast Nat.floor_natCast (M ^ 2)
  rw [h1, Nat.sqrt_eq' M, h, if_pos rfl, add_zero]

theorem four_pow (c : Rat) (n : Nat) : c * c * 4 ^ n = (c * 2 ^ n) ^ 2 := by
  rw [mul_pow, ← pow_mul, mul_comm n 2, pow_mul, show (2 : Rat) ^ 2 = 4 by norm_num, pow_two]

/-- Roots which are multiples of 2^-1100 are exact. -/
theorem rootApprox_fix {c : Rat} {M : Nat} (h : c * 2 ^ 1100 = M) : rootApprox (c * c) = c := by
  unfold rootApprox
  have h1 : c * c * 4 ^ 1100 = (M : Rat) ^ 2 := by
    rw [← h]
    exact four_pow c 1100
  have h2 := scaled_fix (P := 4 ^ 1100) h1
  simp only
  rw [h2, ← h]
  exact mul_div_cancel_right₀ c (by positivity)

theorem rootApprox_dyadic (m j : Nat) (hj : j ≤ 1100) : rootApprox ((m / 2 ^ j : Rat) * (m / 2 ^ j)) = m / 2 ^ j := by
  apply rootApprox_fix (M := m * 2 ^ (1100 - j))
  obtain ⟨i, hi⟩ : ∃ i, i = 1100 - j := ⟨_, rfl⟩
  have e : (2 : Rat) ^ 1100 = 2 ^ j * 2 ^ i := by rw [← pow_add, hi]; congr 1; omega
  rw [e, ← hi]
  push_cast
  field_simp

/-! ### Formats with at least the numbers of single precision -/

/-- A format with at least the range and the digits of single precision. -/
structure Fine (f : Format) : Prop where
  wide : Wide f
  digits : 24 ≤ f.p
  small : f.emin ≤ -149
  large : 104 ≤ f.emax

theorem fine32 : Fine float32 := ⟨wide32, by decide, by decide, by decide⟩

theorem fine64 : Fine float64 := ⟨wide64, by decide, by decide, by decide⟩

variable {f : Format} {rd : Rat → Fl}

theorem Fine.dyadic (hf : Fine f) {m : Int} (hm : |m| < 2 ^ 24) {j : Nat} (hj : j ≤ 149) : f.Has (m / 2 ^ j) := by
  refine ⟨m, -(j : Int), lt_of_lt_of_le hm ?_, ?_, ?_, ?_⟩
  · exact pow_le_pow_right₀ (by norm_num) hf.digits
  · have := hf.small
    omega
  · have := hf.large
    omega
  · rw [zpow_neg, zpow_natCast, div_eq_mul_inv]

theorem Fine.pow (hf : Fine f) {k : Nat} (h : k ≤ 104) : f.Has ((2 : Rat) ^ k) :=
  has_two_pow hf.wide (by have := hf.small; omega) (by have := hf.large; omega)

theorem Fine.nat (hf : Fine f) {n : Nat} (h : n < 2 ^ 24) : f.Has n := by
  have := hf.dyadic (m := n) (j := 0) (by rw [abs_of_nonneg (Int.natCast_nonneg n)]; exact_mod_cast h) (by omega)
  simpa using this

theorem Fine.zero (hf : Fine f) : f.Has 0 := by simpa using hf.nat (n := 0) (by norm_num)

theorem ge_fin (a b : Rat) : (Fl.fin a).ge (.fin b) = decide (b ≤ a) := by
  show (!decide (b > a)) = _
  rw [← decide_not]
  simp

/-- The rounded root of `t` compared with an integer. -/
theorem ge_sqrt (hf : Fine f) (h : Rounds f rd) {k m r : Nat} (hmk : m + k ≤ 11) (hr : r < 2 ^ m) {t : Rat} (h0 : 0 ≤ t) :
    (t ≤ (r : Rat) * r → (Fl.fin r).ge (sqrt rd (.fin t)) = true) ∧
      ((r : Rat) * r + 1 / 4 ^ k ≤ t → t ≤ 2 ^ 100 → (Fl.fin r).ge (sqrt rd (.fin t)) = false) := by
  have hs : sqrt rd (.fin t) = rd (rootApprox t) := by
    show (if t < 0 then Fl.nan else _) = _
    rw [if_neg (not_lt.2 h0)]
  rw [hs]
  have hr24 : r < 2 ^ 24 := lt_of_lt_of_le hr (Nat.pow_le_pow_right (by norm_num) (by omega))
  have hrQ : (r : Rat) ≤ 2 ^ m := by exact_mod_cast hr.le
  constructor
  · intro h1
    have h2 : rootApprox t ≤ r := by
      have := rootApprox_dyadic r 0 (by omega)
      rw [pow_zero, div_one] at this
      rw [← this]
      exact rootApprox_mono h0 h1
    obtain ⟨v, e, _, _, h3⟩ := h.between hf.zero (hf.nat hr24) (rootApprox_nonneg t) h2
    rw [e, ge_fin]
    exact decide_eq_true h3
  · intro h1 h2
    obtain ⟨j, hj⟩ : ∃ j, j = m + 2 * k + 2 := ⟨_, rfl⟩
    have hu : (0 : Rat) < 1 / 2 ^ j := by positivity
    have hnum : r * 2 ^ j + 1 < 2 ^ 24 := by
      have a1 : r + 1 ≤ 2 ^ m := hr
      have a2 : (r + 1) * 2 ^ j ≤ 2 ^ m * 2 ^ j := Nat.mul_le_mul_right _ a1
      have a3 : 2 ^ m * 2 ^ j ≤ 2 ^ 24 := by
        rw [← pow_add]
        exact Nat.pow_le_pow_right (by norm_num) (by omega)
      have a4 : 4 ≤ 2 ^ j := by
        calc 4 = 2 ^ 2 := by norm_num
          _ ≤ 2 ^ j := Nat.pow_le_pow_right (by norm_num) (by omega)
      rw [Nat.add_mul] at a2
      omega
    have hc : (r : Rat) + 1 / 2 ^ j = ((r * 2 ^ j + 1 : Nat) : Rat) / 2 ^ j := by
      push_cast
      field_simp
    have hhas : f.Has ((r : Rat) + 1 / 2 ^ j) := by
      rw [hc]
      have := hf.dyadic (m := (r * 2 ^ j + 1 : Nat)) (j := j)
        (by rw [abs_of_nonneg (Int.natCast_nonneg _)]; exact_mod_cast hnum) (by omega)
      simpa using this
    have hsq : ((r : Rat) + 1 / 2 ^ j) * (r + 1 / 2 ^ j) ≤ t := by
      refine le_trans ?_ h1
      have b1 : (r : Rat) * (1 / 2 ^ j) ≤ 1 / 4 ^ k / 4 := by
        calc (r : Rat) * (1 / 2 ^ j) ≤ 2 ^ m * (1 / 2 ^ j) := mul_le_mul_of_nonneg_right hrQ hu.le
          _ = 1 / 4 ^ k / 4 := by
            rw [hj, pow_add, pow_add, pow_mul, show (2 : Rat) ^ 2 = 4 by norm_num]
            field_simp
      have b2 : (1 : Rat) / 2 ^ j * (1 / 2 ^ j) ≤ 1 / 4 ^ k / 4 := by
        have c1 : (1 : Rat) / 2 ^ j ≤ 1 := by
          rw [div_le_one (by positivity)]
          exact one_le_pow₀ (by norm_num)
        have c2 : (1 : Rat) / 2 ^ j ≤ 1 / 4 ^ k / 4 := by
          rw [hj, div_div]
          apply one_div_le_one_div_of_le (by positivity)
          calc (4 : Rat) ^ k * 4 = 1 * (4 ^ k * 4) := (one_mul _).symm
            _ ≤ 2 ^ m * (4 ^ k * 4) := by
              apply mul_le_mul_of_nonneg_right _ (by positivity)
              exact one_le_pow₀ (by norm_num)
            _ = 2 ^ (m + 2 * k + 2) := by
              rw [pow_add, pow_add, pow_mul, show (2 : Rat) ^ 2 = 4 by norm_num]
              ring
        calc (1 : Rat) / 2 ^ j * (1 / 2 ^ j) ≤ 1 * (1 / 2 ^ j) := mul_le_mul_of_nonneg_right c1 hu.le
          _ ≤ _ := by rw [one_mul]; exact c2
      have b3 : (0 : Rat) < 1 / 4 ^ k := by positivity
      nlinarith
    have h3 : (r : Rat) + 1 / 2 ^ j ≤ rootApprox t := by
      have := rootApprox_dyadic (r * 2 ^ j + 1) j (by omega)
      rw [← hc] at this
      rw [← this]
      exact rootApprox_mono (by positivity) hsq
    have h4 : rootApprox t ≤ 2 ^ 50 := by
      have := rootApprox_dyadic (2 ^ 50) 0 (by omega)
      rw [pow_zero, div_one] at this
      push_cast at this
      calc rootApprox t ≤ rootApprox (1125899906842624 * 1125899906842624) := rootApprox_mono h0 (le_trans h2 (by norm_num))
        _ = 1125899906842624 := this
        _ = 2 ^ 50 := by norm_num
    obtain ⟨v, e, _, h5, _⟩ := h.between hhas (hf.pow (k := 50) (by omega)) h3 h4
    rw [e, ge_fin]
    apply decide_eq_false
    rw [not_le]
    linarith

/-- The rounded distance of points with few binary digits compared with an integer. -/
theorem ge_norm (hf : Fine f) (h : Rounds f rd) {k m r : Nat} (hmk : m + k ≤ 11) (hr : r < 2 ^ m) {a b : Int} (ha : |a| < 2 ^ 24)
    (hb : |b| < 2 ^ 24) : (Fl.fin r).ge (norm rd (.fin (a / 2 ^ k)) (.fin (b / 2 ^ k))) =
      decide ((a / 2 ^ k : Rat) ^ 2 + (b / 2 ^ k) ^ 2 ≤ (r : Rat) * r) := by
  have hp : (2 : Rat) ^ k * 2 ^ k = 4 ^ k := by rw [← mul_pow]; norm_num
  have hk0 : (0 : Rat) < 4 ^ k := by positivity
  have hk1 : (1 : Rat) ≤ 4 ^ k := one_le_pow₀ (by norm_num)
  have sq : ∀ c : Int, |c| < 2 ^ 24 → ∃ C : Rat, rd ((c / 2 ^ k : Rat) * (c / 2 ^ k)) = .fin C ∧ 0 ≤ C ∧ C ≤ 2 ^ 48 ∧
      (|c| < 2 ^ 12 → C = (c / 2 ^ k : Rat) ^ 2) ∧ (2 ^ 12 ≤ |c| → 2 ^ 24 / 4 ^ k ≤ C) := by
    intro c hc
    have hcQ : |(c : Rat)| < 2 ^ 24 := by exact_mod_cast hc
    have e1 : (c / 2 ^ k : Rat) * (c / 2 ^ k) = |(c : Rat)| * |(c : Rat)| / 4 ^ k := by
      rw [abs_mul_abs_self, div_mul_div_comm, hp]
    have h0 : (0 : Rat) ≤ (c / 2 ^ k : Rat) * (c / 2 ^ k) := mul_self_nonneg _
    have h1 : (c / 2 ^ k : Rat) * (c / 2 ^ k) ≤ 2 ^ 48 := by
      rw [e1]
      calc |(c : Rat)| * |(c : Rat)| / 4 ^ k ≤ |(c : Rat)| * |(c : Rat)| := div_le_self (mul_nonneg (abs_nonneg _) (abs_nonneg _)) hk1
        _ ≤ 2 ^ 24 * 2 ^ 24 := mul_le_mul hcQ.le hcQ.le (abs_nonneg _) (by norm_num)
        _ = 2 ^ 48 := by norm_num
    by_cases h12 : |c| < 2 ^ 12
    · have hcc : |c * c| < 2 ^ 24 := by
        rw [abs_mul]
        have := abs_nonneg c
        nlinarith
      have hh : f.Has ((c / 2 ^ k : Rat) * (c / 2 ^ k)) := by
        have := hf.dyadic hcc (j := 2 * k) (by omega)
        rw [pow_mul, show (2 : Rat) ^ 2 = 4 by norm_num] at this
        rw [div_mul_div_comm, hp]
        push_cast at this
        exact this
      refine ⟨_, h.fix _ hh, h0, h1, fun _ => by rw [pow_two], fun h' => absurd h12 (not_lt.2 h')⟩
    · rw [not_lt] at h12
      have h12Q : (2 : Rat) ^ 12 ≤ |(c : Rat)| := by exact_mod_cast h12
      have h2 : (2 : Rat) ^ 24 / 4 ^ k ≤ (c / 2 ^ k : Rat) * (c / 2 ^ k) := by
        rw [e1]
        apply div_le_div_of_nonneg_right _ hk0.le
        calc (2 : Rat) ^ 24 = 2 ^ 12 * 2 ^ 12 := by norm_num
          _ ≤ _ := mul_le_mul h12Q h12Q (by norm_num) (abs_nonneg _)
      have h3 : f.Has ((2 : Rat) ^ 24 / 4 ^ k) := by
        have : (2 : Rat) ^ 24 / 4 ^ k = 2 ^ (24 - 2 * k) := by
          rw [div_eq_iff (ne_of_gt hk0), show (4 : Rat) = 2 ^ 2 by norm_num, ← pow_mul, ← pow_add]
          congr 1
          omega
        rw [this]
        exact hf.pow (by omega)
      obtain ⟨C, e, _, c1, c2⟩ := h.between h3 (hf.pow (k := 48) (by omega)) h2 h1
      exact ⟨C, e, le_trans (by positivity) c1, c2, fun h' => absurd h' (not_lt.2 h12), fun _ => c1⟩
  obtain ⟨A, eA, A0, A1, A2, A3⟩ := sq a ha
  obtain ⟨B, eB, B0, B1, B2, B3⟩ := sq b hb
  have hnorm : norm rd (.fin (a / 2 ^ k)) (.fin (b / 2 ^ k)) = sqrt rd (rd (A + B)) := by
    show sqrt rd (rnd rd ((rd ((a / 2 ^ k : Rat) * (a / 2 ^ k))).add (rd ((b / 2 ^ k : Rat) * (b / 2 ^ k))))) = _
    rw [eA, eB]
    rfl
  rw [hnorm]
  have hrr : r * r < 2 ^ 22 := by
    have a1 : r * r < 2 ^ m * 2 ^ m := Nat.mul_lt_mul'' hr hr
    have a2 : 2 ^ m * 2 ^ m ≤ 2 ^ 22 := by
      rw [← pow_add]
      exact Nat.pow_le_pow_right (by norm_num) (by omega)
    omega
  have hr2 : f.Has ((r : Rat) * r) := by
    have := hf.nat (n := r * r) (by omega)
    push_cast at this
    exact this
  have hr3 : f.Has ((r : Rat) * r + 1 / 4 ^ k) := by
    have a1 : (r * r) * 4 ^ k + 1 < 2 ^ 24 := by
      have b1 : (r + 1) * (r + 1) ≤ 2 ^ m * 2 ^ m := Nat.mul_le_mul hr hr
      have b2 : (r + 1) * (r + 1) * 4 ^ k ≤ 2 ^ m * 2 ^ m * 4 ^ k := Nat.mul_le_mul_right _ b1
      have b3 : 2 ^ m * 2 ^ m * 4 ^ k ≤ 2 ^ 22 := by
        rw [show 4 = 2 ^ 2 by norm_num, ← pow_mul, ← pow_add, ← pow_add]
        exact Nat.pow_le_pow_right (by norm_num) (by omega)
      have b4 : r * r * 4 ^ k ≤ (r + 1) * (r + 1) * 4 ^ k := Nat.mul_le_mul_right _ (Nat.mul_le_mul (by omega) (by omega))
      omega
    have := hf.dyadic (m := ((r * r) * 4 ^ k + 1 : Nat)) (j := 2 * k)
      (by rw [abs_of_nonneg (Int.natCast_nonneg _)]; exact_mod_cast a1) (by omega)
    rw [pow_mul, show (2 : Rat) ^ 2 = 4 by norm_num] at this
    push_cast at this
    rw [show (r : Rat) * r + 1 / 4 ^ k = (r * r * 4 ^ k + 1) / 4 ^ k by field_simp]
    exact this
  have hsum : A + B ≤ 2 ^ 49 := by
    calc A + B ≤ 2 ^ 48 + 2 ^ 48 := add_le_add A1 B1
      _ = 2 ^ 49 := by norm_num
  -- the comparison, if the sum is on the right side
  have low : A + B ≤ (r : Rat) * r → (Fl.fin r).ge (sqrt rd (rd (A + B))) = true := by
    intro h1
    obtain ⟨t, e, _, t0, t1⟩ := h.between hf.zero hr2 (add_nonneg A0 B0) h1
    rw [e]
    exact (ge_sqrt hf h hmk hr t0).1 t1
  have high : (r : Rat) * r + 1 / 4 ^ k ≤ A + B → (Fl.fin r).ge (sqrt rd (rd (A + B))) = false := by
    intro h1
    obtain ⟨t, e, _, t0, t1⟩ := h.between hr3 (hf.pow (k := 49) (by omega)) h1 hsum
    rw [e]
    exact (ge_sqrt hf h hmk hr (le_trans (by positivity) t0)).2 t0 (le_trans t1 (by norm_num))
  have big : ∀ c : Int, 2 ^ 12 ≤ |c| → (r : Rat) * r + 1 / 4 ^ k ≤ 2 ^ 24 / 4 ^ k ∧ (r : Rat) * r < (c / 2 ^ k : Rat) ^ 2 := by
    intro c hc
    have a1 : (r * r) * 4 ^ k < 2 ^ 22 := by
      have b1 : r * r < 2 ^ m * 2 ^ m := Nat.mul_lt_mul'' hr hr
      have b2 : r * r * 4 ^ k < 2 ^ m * 2 ^ m * 4 ^ k := Nat.mul_lt_mul_of_pos_right b1 (by positivity)
      have b3 : 2 ^ m * 2 ^ m * 4 ^ k ≤ 2 ^ 22 := by
        rw [show 4 = 2 ^ 2 by norm_num, ← pow_mul, ← pow_add, ← pow_add]
        exact Nat.pow_le_pow_right (by norm_num) (by omega)
      omega
    have a2 : (r : Rat) * r * 4 ^ k < 2 ^ 22 := by exact_mod_cast a1
    have hcQ : (2 : Rat) ^ 12 ≤ |(c : Rat)| := by exact_mod_cast hc
    constructor
    · rw [le_div_iff₀ hk0, add_mul, one_div, inv_mul_cancel₀ (ne_of_gt hk0)]
      linarith [show (2 : Rat) ^ 22 + 1 ≤ 2 ^ 24 by norm_num]
    · rw [pow_two, div_mul_div_comm, hp, lt_div_iff₀ hk0]
      have : (2 : Rat) ^ 12 * 2 ^ 12 ≤ (c : Rat) * c := by
        rw [← abs_mul_abs_self (c : Rat)]
        exact mul_le_mul hcQ hcQ (by norm_num) (abs_nonneg _)
      linarith [show (2 : Rat) ^ 22 ≤ 2 ^ 12 * 2 ^ 12 by norm_num]
  by_cases ha12 : |a| < 2 ^ 12
  · by_cases hb12 : |b| < 2 ^ 12
    · have eS : A + B = (a / 2 ^ k : Rat) ^ 2 + (b / 2 ^ k) ^ 2 := by rw [A2 ha12, B2 hb12]
      rw [← eS]
      by_cases hle : A + B ≤ (r : Rat) * r
      · rw [low hle, decide_eq_true hle]
      · rw [decide_eq_false hle]
        apply high
        rw [not_le, eS] at hle
        rw [eS]
        have e2 : (a / 2 ^ k : Rat) ^ 2 + (b / 2 ^ k) ^ 2 = ((a * a + b * b : Int) : Rat) / 4 ^ k := by
          rw [pow_two, pow_two, div_mul_div_comm, div_mul_div_comm, hp]
          push_cast
          ring
        rw [e2] at hle ⊢
        rw [lt_div_iff₀ hk0] at hle
        rw [le_div_iff₀ hk0, add_mul, one_div, inv_mul_cancel₀ (ne_of_gt hk0)]
        have h3 : ((r * r * 4 ^ k : Nat) : Int) < a * a + b * b := by
          have : (((r * r * 4 ^ k : Nat) : Int) : Rat) < ((a * a + b * b : Int) : Rat) := by
            push_cast
            push_cast at hle
            exact hle
          exact_mod_cast this
        have h4 : ((r * r * 4 ^ k : Nat) : Int) + 1 ≤ a * a + b * b := h3
        have h5 : ((((r * r * 4 ^ k : Nat) : Int) + 1 : Int) : Rat) ≤ ((a * a + b * b : Int) : Rat) := by exact_mod_cast h4
        push_cast at h5 ⊢
        exact h5
    · rw [not_lt] at hb12
      obtain ⟨c1, c2⟩ := big b hb12
      rw [high (by linarith [B3 hb12]), eq_comm]
      apply decide_eq_false
      rw [not_le]
      nlinarith [sq_nonneg (a / 2 ^ k : Rat)]
  · rw [not_lt] at ha12
    obtain ⟨c1, c2⟩ := big a ha12
    rw [high (by linarith [A3 ha12]), eq_comm]
    apply decide_eq_false
    rw [not_le]
    nlinarith [sq_nonneg (b / 2 ^ k : Rat)]

/-! ### Version 0, position by position -/

variable {rd32 rd64 : Rat → Fl}

/-- The events at a position that version 0 keeps. -/
def keptV0 (rd64 : Rat → Fl) (X Y : Nat → Nat) (crop : Option Rat) (init : Option (Num × Num)) (ev : List Nat) : List Nat :=
  match crop with
  | none => ev
  | some r => ev.filter fun e => (rd64 r).ge (radiusV0 rd64 init (ev.map X) (ev.map Y) (X e) (Y e))

theorem positionV0_eq (f0 f1 : Nat) (crop : Option Rat) (init : Option (Num × Num)) (ev : List Nat) :
    positionV0 rd32 rd64 f0 f1 crop init ev =
      if keptV0 rd64 (· / f0) (· % f1) crop init ev = [] then (.nan, .nan)
      else (rnd rd32 (mean rd64 ((keptV0 rd64 (· / f0) (· % f1) crop init ev).map (· % f1))),
        rnd rd32 (mean rd64 ((keptV0 rd64 (· / f0) (· % f1) crop init ev).map (· / f0)))) := by
  unfold positionV0
  by_cases hev : ev = []
  · subst hev
    cases crop <;> simp [keptV0]
  · rw [if_pos (List.length_pos_iff.2 hev)]
    cases crop with
    | none => simp [keptV0, hev]
    | some r =>
      simp only
      rw [List.zip_map', List.filter_map]
      simp only [List.length_map, List.map_map]
      have e : ev.filter ((fun p : Nat × Nat => (rd64 r).ge (radiusV0 rd64 init (ev.map (· / f0)) (ev.map (· % f1)) p.1 p.2)) ∘
          fun e => (e / f0, e % f1)) = keptV0 rd64 (· / f0) (· % f1) (some r) init ev := rfl
      rw [e]
      by_cases hk : keptV0 rd64 (· / f0) (· % f1) (some r) init ev = []
      · simp [hk]
      · rw [if_pos (List.length_pos_iff.2 hk), if_neg hk]
        rfl

/-- What `g` gives for the events of each position. -/
def byPosition (a : SparseArray) (n : Nat) (g : List Nat → Fl × Fl) : List Fl × List Fl :=
  ((List.range n).map fun p => (g (PyImage.eventsAt a p)).1, (List.range n).map fun p => (g (PyImage.eventsAt a p)).2)

theorem comSparseV0_eq {a : SparseArray} (hlen : a.data.length = prod a.scanShape) {s0 s1 f0 f1 : Nat}
    (hs : a.scanShape = [s0, s1]) (hf : a.frameShape = [f0, f1]) (hfr : ∀ row ∈ a.data, row ≠ []) (crop : Option Rat)
    (init : Option (Num × Num)) :
    comSparseV0 rd32 rd64 a crop init = .ok (byPosition a (s0 * s1) (positionV0 rd32 rd64 f0 f1 crop init)) := by
  have hn : a.data.length = s0 * s1 := by rw [hlen, hs]; simp [prod]
  unfold comSparseV0
  rw [hf]
  simp only
  have key : (a.data.mapM fun frames => do
        let ev ← concatenate frames
        Outcome.ok (positionV0 rd32 rd64 f0 f1 crop init ev)) =
      .ok (a.data.map fun frames => positionV0 rd32 rd64 f0 f1 crop init frames.flatten) := by
    apply mapM_ok
    intro row hrow
    have h1 : concatenate row = .ok row.flatten := by
      unfold concatenate; rw [if_neg (by simpa using hfr row hrow)]
    rw [h1, Outcome.ok_bind]
  rw [key]
  have hmap : (a.data.map fun frames => positionV0 rd32 rd64 f0 f1 crop init frames.flatten) =
      (List.range (s0 * s1)).map fun p => positionV0 rd32 rd64 f0 f1 crop init (PyImage.eventsAt a p) := by
    conv_lhs => rw [← map_getD_range a.data [], hn, List.map_map]
    rfl
  rw [hmap, Outcome.ok_bind, List.map_map, List.map_map]
  rfl

/-! ### Version 1, position by position -/

/-- The quotient that is stored in single precision. -/
def quotient (rd32 rd64 : Rat → Fl) (l : List Nat) : Fl :=
  rnd rd32 (rnd rd64 ((total rd64 (l.map fun x : Nat => rd32 x)).div (.fin (l.length : Nat))))

/-- The distance of an event to the center. -/
def radiusV1 (rd32 rd64 : Rat → Fl) (init : Option (Num × Num)) (xs ys : List Nat) (x y : Nat) : Fl :=
  match init with
  | some c => norm rd32 (rnd rd32 ((rd32 x).sub (rd32 c.1.val))) (rnd rd32 ((rd32 y).sub (rd32 c.2.val)))
  | none => norm rd32 (rnd rd32 ((rd32 x).sub (quotient rd32 rd64 xs))) (rnd rd32 ((rd32 y).sub (quotient rd32 rd64 ys)))

/-- The events at a position that version 1 keeps. -/
def keptV1 (rd32 rd64 : Rat → Fl) (X Y : Nat → Nat) (crop : Option Rat) (init : Option (Num × Num)) (ev : List Nat) : List Nat :=
  match crop with
  | none => ev
  | some r => ev.filter fun e => (rd32 r).ge (radiusV1 rd32 rd64 init (ev.map X) (ev.map Y) (X e) (Y e))

def positionV1 (rd32 rd64 : Rat → Fl) (X Y : Nat → Nat) (crop : Option Rat) (init : Option (Num × Num)) (ev : List Nat) : Fl × Fl :=
  if keptV1 rd32 rd64 X Y crop init ev = [] then (.nan, .nan)
  else (quotient rd32 rd64 ((keptV1 rd32 rd64 X Y crop init ev).map Y), quotient rd32 rd64 ((keptV1 rd32 rd64 X Y crop init ev).map X))

theorem quotients_eq {n : Nat} (d : Fl) (T : List Ev) (g : Nat × Nat → Nat) (h : ∀ e ∈ T, e.1 < n) :
    quotients rd32 rd64 n d (bincountW rd64 (T.map Prod.fst) (T.map fun e => rd32 (g e.2 : Nat)) n)
        (PyImage.bincount (T.map Prod.fst) n) =
      .ok ((List.range n).map fun j => if at_ j T = [] then d else quotient rd32 rd64 ((at_ j T).map fun e => g e.2)) := by
  have hl : PyImage.bincountLength (T.map Prod.fst) n = n := bincountLength_eq (by simpa using fun a b c h' => h _ h')
  have hsum : ∀ j, (((T.map Prod.fst).zip (T.map fun e => rd32 (g e.2 : Nat))).filter fun p => p.1 = j).map Prod.snd =
      (at_ j T).map fun e => rd32 (g e.2 : Nat) := by
    intro j
    rw [List.zip_map', List.filter_map, List.map_map]
    rfl
  unfold quotients bincountW PyImage.bincount
  rw [hl, if_pos (by simp), List.zip_map', List.map_map]
  congr 1
  apply List.map_congr_left
  intro j _
  simp only [Function.comp, hsum, count_at]
  by_cases h0 : at_ j T = []
  · simp [h0]
  · rw [if_neg h0, if_pos (List.length_pos_iff.2 h0)]
    unfold quotient
    rw [List.map_map, List.length_map]
    rfl

theorem cropEvents_eq {n : Nat} (r : Rat) (init : Option (Num × Num)) (T : List Ev) (h : ∀ e ∈ T, e.1 < n) :
    cropEvents rd32 rd64 n (some r) init T = .ok (T.filter fun e => (rd32 r).ge
      (radiusV1 rd32 rd64 init ((at_ e.1 T).map (·.2.1)) ((at_ e.1 T).map (·.2.2)) e.2.1 e.2.2)) := by
  unfold cropEvents
  cases init with
  | some c => rfl
  | none =>
    simp only
    have hp : ∀ p ∈ T.map Prod.fst, p < n := by simpa using fun a b c h' => h _ h'
    rw [quotients_eq (.fin 0) T Prod.fst h, quotients_eq (.fin 0) T Prod.snd h]
    simp only [Outcome.ok_bind, gather_range_map _ hp]
    congr 1
    rw [List.map_map, List.map_map, List.zip_map', zip_filter]
    apply List.filter_congr
    intro e he
    have hne := at_self_ne he
    simp only [Function.comp, if_neg hne, radiusV1]

theorem cropped_at (X Y : Nat → Nat) (data : List (List (List Nat))) (r : Rat) (init : Option (Num × Num)) (j : Nat) :
    at_ j ((located X Y data 0).filter fun e => (rd32 r).ge
      (radiusV1 rd32 rd64 init ((at_ e.1 (located X Y data 0)).map (·.2.1)) ((at_ e.1 (located X Y data 0)).map (·.2.2)) e.2.1 e.2.2)) =
      (keptV1 rd32 rd64 X Y (some r) init (data.getD j []).flatten).map fun e => (j, X e, Y e) := by
  unfold at_
  rw [List.filter_comm]
  rw [show (located X Y data 0).filter (fun e => decide (e.1 = j)) = at_ j (located X Y data 0) from rfl,
    located_at X Y data 0 j (Nat.zero_le _), List.filter_map]
  congr 1
  simp only [keptV1, Nat.sub_zero]
  apply List.filter_congr
  intro e _
  have := located_at X Y data 0 j (Nat.zero_le _)
  rw [Nat.sub_zero] at this
  unfold at_ at this
  simp only [Function.comp]
  rw [this, List.map_map, List.map_map]
  rfl

theorem values_eq {T : List Ev} {n : Nat} (h : ∀ e ∈ T, e.1 < n) (X Y : Nat → Nat) (crop : Option Rat) (init : Option (Num × Num))
    (L : Nat → List Nat) (hT : ∀ j, at_ j T = (keptV1 rd32 rd64 X Y crop init (L j)).map fun e => (j, X e, Y e)) :
    comValues rd32 rd64 n T = .ok ((List.range n).map fun p => (positionV1 rd32 rd64 X Y crop init (L p)).1,
      (List.range n).map fun p => (positionV1 rd32 rd64 X Y crop init (L p)).2) := by
  have hfst : ∀ p, (positionV1 rd32 rd64 X Y crop init (L p)).1 =
      if at_ p T = [] then .nan else quotient rd32 rd64 ((at_ p T).map (·.2.2)) := by
    intro p
    rw [hT p]
    unfold positionV1
    by_cases hk : keptV1 rd32 rd64 X Y crop init (L p) = []
    · simp [hk]
    · rw [if_neg hk, if_neg (by simpa using hk), List.map_map]
      rfl
  have hsnd : ∀ p, (positionV1 rd32 rd64 X Y crop init (L p)).2 =
      if at_ p T = [] then .nan else quotient rd32 rd64 ((at_ p T).map (·.2.1)) := by
    intro p
    rw [hT p]
    unfold positionV1
    by_cases hk : keptV1 rd32 rd64 X Y crop init (L p) = []
    · simp [hk]
    · rw [if_neg hk, if_neg (by simpa using hk), List.map_map]
      rfl
  simp only [hfst, hsnd]
  unfold comValues
  by_cases h0 : T = []
  · subst h0
    simp [at_, List.map_const']
  · rw [if_pos (List.length_pos_iff.2 h0)]
    simp only
    rw [quotients_eq .nan T Prod.snd h, quotients_eq .nan T Prod.fst h]
    simp only [Outcome.ok_bind]

theorem comSparseV1_eq {a : SparseArray} (hlen : a.data.length = prod a.scanShape) {s0 s1 f0 f1 : Nat}
    (hs : a.scanShape = [s0, s1]) (hf : a.frameShape = [f0, f1])
    (hlt : ∀ row ∈ a.data, ∀ fr ∈ row, ∀ e ∈ fr, e < f0 * f1) (crop : Option Rat) (init : Option (Num × Num)) :
    comSparseV1 rd32 rd64 a crop init =
      .ok (byPosition a (s0 * s1) (positionV1 rd32 rd64 (· / f0) (· % f1) crop init)) := by
  have hn : a.data.length = s0 * s1 := by rw [hlen, hs]; simp [prod]
  unfold comSparseV1 comV1Kernel
  rw [hs, hf]
  simp only
  generalize hE : (a.data.zipIdx.flatMap fun r => r.1.flatten.map fun e => (r.2, e)) = E
  have hloc : ∀ X Y : Nat → Nat, E.map (fun p => (p.1, X p.2, Y p.2)) = located X Y a.data 0 := by
    intro X Y
    rw [← hE, List.map_flatMap]
    simp only [List.map_map, located]
    rfl
  by_cases h0 : E = []
  · rw [if_pos (by simp [h0])]
    have hnil : ∀ p, PyImage.eventsAt a p = [] := by
      intro p
      have h1 := hloc id id
      rw [h0, List.map_nil] at h1
      have h2 := located_at id id a.data 0 p (Nat.zero_le _)
      rw [← h1] at h2
      simp only [at_, List.filter_nil] at h2
      exact List.map_eq_nil_iff.1 h2.symm
    have hv : positionV1 rd32 rd64 (· / f0) (· % f1) crop init [] = (.nan, .nan) := by
      unfold positionV1
      cases crop <;> simp [keptV1]
    unfold byPosition
    simp only [hnil, hv, List.map_const', List.length_range]
  · rw [if_neg (by simpa using h0)]
    have hpos : f0 * f1 ≠ 0 := by
      obtain ⟨x, l, hx⟩ := List.exists_cons_of_ne_nil h0
      have : x ∈ E := by rw [hx]; simp
      rw [← hE] at this
      obtain ⟨r, hr, hx2⟩ := List.mem_flatMap.1 this
      obtain ⟨e, he, _⟩ := List.mem_map.1 hx2
      obtain ⟨fr, hfr, he2⟩ := List.mem_flatten.1 he
      have := hlt r.1 (List.fst_mem_of_mem_zipIdx hr) fr hfr e he2
      omega
    have hf0 : f0 ≠ 0 := fun h => hpos (by simp [h])
    have hf1 : f1 ≠ 0 := fun h => hpos (by simp [h])
    simp only [PyImage.decodeX_eq hf0, PyImage.decodeY_eq hf1]
    rw [hloc (· / f0) (· % f1)]
    have hlt' : ∀ e ∈ located (· / f0) (· % f1) a.data 0, e.1 < s0 * s1 := by
      rw [← hn]; exact located_lt _ _ _
    cases crop with
    | none =>
      simp only [cropEvents, Outcome.ok_bind]
      refine values_eq hlt' _ _ none init (PyImage.eventsAt a) ?_
      intro j
      rw [located_at _ _ a.data 0 j (Nat.zero_le _)]
      rfl
    | some r =>
      rw [cropEvents_eq r init _ hlt', Outcome.ok_bind]
      refine values_eq (fun e he => hlt' e (List.mem_of_mem_filter he)) _ _ (some r) init (PyImage.eventsAt a) ?_
      intro j
      rw [cropped_at (· / f0) (· % f1) a.data r init j]
      rfl

/-! ### The quotients -/

/-- Sums of coordinates are exact. -/
theorem total_eq (h32 : Rounds float32 rd32) (h64 : Rounds float64 rd64) {l : List Nat} (hl : ∀ x ∈ l, x < 2 ^ 24) {s : Nat}
    (hs : s + l.sum < 2 ^ 53) :
    (l.map fun x : Nat => rd32 x).foldl (fun a v => rnd rd64 (a.add v)) (.fin s) = .fin ((s + l.sum : Nat) : Rat) := by
  induction l generalizing s with
  | nil => rfl
  | cons x l ih =>
    rw [List.sum_cons] at hs
    have hx : rd32 x = .fin x := h32.fix _ (fine32.nat (hl x (by simp)))
    rw [List.map_cons, List.foldl_cons, hx]
    have h2 : rnd rd64 ((Fl.fin (s : Rat)).add (.fin (x : Rat))) = .fin ((s + x : Nat) : Rat) := by
      show rd64 ((s : Rat) + x) = _
      rw [← Nat.cast_add]
      exact h64.fix _ (has_nat (by decide) (by decide) (by show s + x < 2 ^ 53; omega))
    rw [h2, ih (fun y hy => hl y (by simp [hy])) (by omega), List.sum_cons]
    congr 2
    omega

/-- Both versions store the same quotient. -/
theorem quotient_eq (h32 : Rounds float32 rd32) (h64 : Rounds float64 rd64) {l : List Nat} (hl : ∀ x ∈ l, x < 2 ^ 24)
    (hs : l.sum < 2 ^ 53) : quotient rd32 rd64 l = rnd rd32 (mean rd64 l) ∧
      mean rd64 l = rnd rd64 ((Fl.fin (l.sum : Nat)).div (.fin (l.length : Nat))) := by
  have h1 : total rd64 (l.map fun x : Nat => rd32 x) = .fin (l.sum : Nat) := by
    have := total_eq (s := 0) h32 h64 hl (by omega)
    rw [Nat.zero_add, Nat.cast_zero] at this
    exact this
  have h2 : mean rd64 l = rnd rd64 ((Fl.fin (l.sum : Nat)).div (.fin (l.length : Nat))) := by
    unfold mean
    rw [Nat.mod_eq_of_lt (by omega), h64.fix _ (has_nat (by decide) (by decide) (n := l.sum) hs)]
  refine ⟨?_, h2⟩
  unfold quotient
  rw [h1, h2]

theorem sum_lt {l : List Nat} {w : Nat} (hl : ∀ x ∈ l, x < w) (hn : l.length * w ≤ 2 ^ 53) : l.sum < 2 ^ 53 := by
  have h1 : ∀ l : List Nat, (∀ x ∈ l, x < w) → l.sum + l.length ≤ l.length * w := by
    intro l
    induction l with
    | nil => simp
    | cons x l ih =>
      intro h
      have a := ih fun y hy => h y (by simp [hy])
      have b := h x (by simp)
      rw [List.sum_cons, List.length_cons, Nat.add_mul]
      omega
  have h2 := h1 l hl
  rcases Nat.eq_zero_or_pos l.length with h | h
  · rw [List.length_eq_zero_iff.1 h]
    norm_num
  · omega

end Stempy.RoundedCom
