import Verif.Model.Float32
import Mathlib.Tactic.Linarith
import Mathlib.Tactic.Ring
import Mathlib.Tactic.FieldSimp
import Mathlib.Tactic.NormNum
import Mathlib.Tactic.Positivity

/-! Facts about rounding to single precision. -/

namespace Stempy.Float32
open Stempy.FloatPixels (Fl)
open Stempy.SafeCast (float32)

theorem roundEven_int (n : Int) : roundEven n = n := by
  unfold roundEven
  rw [Int.floor_intCast, sub_self, if_pos (by norm_num)]

theorem roundEven_cases (x : Rat) : roundEven x = ⌊x⌋ ∨ roundEven x = ⌊x⌋ + 1 := by
  unfold roundEven
  split
  · exact Or.inl rfl
  · split
    · exact Or.inr rfl
    · split
      · exact Or.inl rfl
      · exact Or.inr rfl

theorem roundEven_half (x : Rat) : |(roundEven x : Rat) - x| ≤ 1 / 2 := by
  have f1 : ((⌊x⌋ : Int) : Rat) ≤ x := Int.floor_le x
  have f2 : x < ((⌊x⌋ : Int) : Rat) + 1 := Int.lt_floor_add_one x
  rw [abs_le]
  unfold roundEven
  split
  · constructor <;> linarith
  · split
    · push_cast; constructor <;> linarith
    · split
      · constructor <;> linarith
      · push_cast; constructor <;> linarith

/-- No integer is closer. -/
theorem roundEven_nearest (x : Rat) (n : Int) : |(roundEven x : Rat) - x| ≤ |(n : Rat) - x| := by
  have h := roundEven_half x
  by_contra hc
  push Not at hc
  have h1 : |(n : Rat) - x| < 1 / 2 := lt_of_lt_of_le hc h
  have h2 : |((roundEven x - n : Int) : Rat)| < 1 := by
    push_cast
    calc |(roundEven x : Rat) - n| = |((roundEven x : Rat) - x) + (x - n)| := by ring_nf
      _ ≤ |(roundEven x : Rat) - x| + |x - n| := abs_add_le _ _
      _ < 1 := by rw [abs_sub_comm x]; linarith
  have h3 : |roundEven x - n| < 1 := by exact_mod_cast h2
  have h4 : roundEven x = n := by
    have := Int.abs_lt_one_iff.1 h3
    omega
  rw [h4] at hc
  exact lt_irrefl _ hc

theorem roundEven_le {x : Rat} {n : Int} (h : x ≤ n) : roundEven x ≤ n := by
  rcases lt_or_eq_of_le h with h | h
  · have : ⌊x⌋ < n := Int.floor_lt.2 h
    rcases roundEven_cases x with e | e <;> omega
  · rw [h, roundEven_int]

theorem le_roundEven {x : Rat} {n : Int} (h : (n : Rat) ≤ x) : n ≤ roundEven x := by
  have : n ≤ ⌊x⌋ := Int.le_floor.2 h
  rcases roundEven_cases x with e | e <;> omega

/-! ### The exponent -/

theorem two_zpow_pos (e : Int) : (0 : Rat) < 2 ^ e := zpow_pos (by norm_num) e

theorem zpow_le {a b : Int} (h : a ≤ b) : (2 : Rat) ^ a ≤ 2 ^ b := zpow_le_zpow_right₀ (by norm_num) h

theorem zpow_lt {a b : Int} (h : a < b) : (2 : Rat) ^ a < 2 ^ b := zpow_lt_zpow_right₀ (by norm_num) h

theorem of_zpow_lt {a b : Int} (h : (2 : Rat) ^ a < 2 ^ b) : a < b := by
  by_contra hc
  exact absurd h (not_lt.2 (zpow_le (by omega)))

theorem log_le {q : Rat} (h : q ≠ 0) : (2 : Rat) ^ Int.log 2 |q| ≤ |q| := by
  have := Int.zpow_log_le_self (R := Rat) (b := 2) (by norm_num) (abs_pos.2 h)
  simpa using this

theorem lt_log (q : Rat) : |q| < (2 : Rat) ^ (Int.log 2 |q| + 1) := by
  have := Int.lt_zpow_succ_log_self (R := Rat) (b := 2) (by norm_num) |q|
  simpa using this

theorem expo_zero : expo 0 = -149 := if_pos rfl

theorem expo_of_ne {q : Rat} (h : q ≠ 0) : expo q = max (Int.log 2 |q| - 23) (-149) := if_neg h

theorem le_expo (q : Rat) : -149 ≤ expo q := by
  by_cases h : q = 0
  · rw [h, expo_zero]
  · rw [expo_of_ne h]
    exact le_max_right _ _

/-- Below 2^24 in units of the last digit. -/
theorem lt_expo (q : Rat) : |q| < 2 ^ 24 * (2 : Rat) ^ expo q := by
  by_cases h : q = 0
  · rw [h, abs_zero]
    have := two_zpow_pos (expo 0)
    positivity
  have h1 := lt_log q
  have h2 : Int.log 2 |q| - 23 ≤ expo q := by
    rw [expo_of_ne h]
    exact le_max_left _ _
  have h3 : (2 : Rat) ^ (Int.log 2 |q| + 1) ≤ 2 ^ (24 + expo q) := zpow_le (by omega)
  rw [zpow_add₀ (by norm_num) 24] at h3
  have : (2 : Rat) ^ (24 : Int) = 2 ^ 24 := by norm_cast
  rw [this] at h3
  exact lt_of_lt_of_le h1 h3

/-- At least 2^23 in units of the last digit, unless the exponent is the least one. -/
theorem expo_le {q : Rat} (h : -149 < expo q) : 2 ^ 23 * (2 : Rat) ^ expo q ≤ |q| := by
  have hq : q ≠ 0 := by
    rintro rfl
    rw [expo_zero] at h
    exact lt_irrefl _ h
  have he : expo q = Int.log 2 |q| - 23 := by
    rw [expo_of_ne hq] at h ⊢
    rcases max_cases (Int.log 2 |q| - 23) (-149) with ⟨a, _⟩ | ⟨a, _⟩
    · exact a
    · rw [a] at h
      exact absurd h (lt_irrefl _)
  have h1 := log_le hq
  rw [show Int.log 2 |q| = 23 + expo q by omega, zpow_add₀ (by norm_num)] at h1
  have : (2 : Rat) ^ (23 : Int) = 2 ^ 23 := by norm_cast
  rwa [this] at h1

/-- A number of the format is a multiple of the last digit around `q`, or it is below all numbers of this exponent. -/
theorem has_expo {s : Rat} (h : float32.Has s) (q : Rat) :
    (∃ n : Int, s = n * (2 : Rat) ^ expo q) ∨ (-149 < expo q ∧ |s| < 2 ^ 23 * (2 : Rat) ^ expo q) := by
  obtain ⟨m, k, h1, h2, _, rfl⟩ := h
  replace h1 : |m| < 2 ^ 24 := h1
  replace h2 : -149 ≤ k := h2
  by_cases hk : expo q ≤ k
  · left
    refine ⟨m * 2 ^ (k - expo q).toNat, ?_⟩
    push_cast
    rw [mul_assoc, ← zpow_natCast, ← zpow_add₀ (by norm_num)]
    congr 2
    omega
  · right
    refine ⟨by omega, ?_⟩
    rw [abs_mul, abs_of_pos (two_zpow_pos k)]
    have a1 : (2 : Rat) ^ (k + 1) ≤ 2 ^ expo q := zpow_le (by omega)
    rw [zpow_add_one₀ (by norm_num)] at a1
    have a2 : |(m : Rat)| < 2 ^ 24 := by exact_mod_cast h1
    have a3 := two_zpow_pos k
    nlinarith

/-- The scaled value. -/
theorem scale (q : Rat) : q = (q / 2 ^ expo q) * 2 ^ expo q := by
  rw [div_mul_cancel₀]
  exact ne_of_gt (two_zpow_pos _)

theorem expo_le_of_lt {q : Rat} (h : |q| < 2 ^ 128) : expo q ≤ 104 := by
  by_contra hc
  have h1 := expo_le (q := q) (by omega)
  have h2 : (2 : Rat) ^ (105 : Int) ≤ 2 ^ expo q := zpow_le (by omega)
  have h3 : (2 : Rat) ^ (105 : Int) = 2 ^ 105 := by norm_cast
  rw [h3] at h2
  have : (2 : Rat) ^ 128 = 2 ^ 23 * 2 ^ 105 := by norm_num
  rw [this] at h
  nlinarith

theorem f32_fin {q : Rat} (h : |q| < 2 ^ 128 - 2 ^ 103) : f32 q = .fin (roundEven (q / 2 ^ expo q) * 2 ^ expo q) := by
  unfold f32
  rw [if_neg (not_le.2 h)]

theorem f32_fin_inv {q r : Rat} (h : f32 q = .fin r) :
    |q| < 2 ^ 128 - 2 ^ 103 ∧ r = roundEven (q / 2 ^ expo q) * 2 ^ expo q := by
  unfold f32 at h
  split at h
  · split at h <;> cases h
  · rename_i hc
    cases h
    exact ⟨not_le.1 hc, rfl⟩

theorem has_lt {s : Rat} (h : float32.Has s) : |s| ≤ (2 ^ 24 - 1) * 2 ^ 104 := by
  obtain ⟨m, k, h1, _, h3, rfl⟩ := h
  replace h1 : |m| < 2 ^ 24 := h1
  replace h3 : k ≤ 104 := h3
  rw [abs_mul, abs_of_pos (two_zpow_pos k)]
  have a1 : (2 : Rat) ^ k ≤ 2 ^ (104 : Int) := zpow_le h3
  have a2 : (2 : Rat) ^ (104 : Int) = 2 ^ 104 := by norm_cast
  rw [a2] at a1
  have a3 : |m| ≤ 2 ^ 24 - 1 := by omega
  have a4 : |(m : Rat)| ≤ 2 ^ 24 - 1 := by exact_mod_cast a3
  exact mul_le_mul a4 a1 (le_of_lt (two_zpow_pos k)) (by norm_num)

theorem f32_fix {q : Rat} (h : float32.Has q) : f32 q = .fin q := by
  have h0 : |q| < 2 ^ 128 - 2 ^ 103 := lt_of_le_of_lt (has_lt h) (by norm_num)
  rw [f32_fin h0]
  rcases has_expo h q with ⟨n, hn⟩ | ⟨h1, h2⟩
  · have : q / 2 ^ expo q = n := by
      rw [div_eq_iff (ne_of_gt (two_zpow_pos _))]
      exact hn
    rw [this, roundEven_int, ← hn]
  · exact absurd (expo_le h1) (not_le.2 h2)

theorem f32_has {q r : Rat} (h : f32 q = .fin r) : float32.Has r := by
  obtain ⟨h0, rfl⟩ := f32_fin_inv h
  have hp := two_zpow_pos (expo q)
  have hx : |q / 2 ^ expo q| < 2 ^ 24 := by
    rw [abs_div, abs_of_pos hp, div_lt_iff₀ hp]
    exact lt_expo q
  have he : expo q ≤ 104 := expo_le_of_lt (lt_trans h0 (by norm_num))
  have hlow := le_expo q
  rw [abs_lt] at hx
  have m1 : roundEven (q / 2 ^ expo q) ≤ 2 ^ 24 := roundEven_le (by push_cast; linarith)
  have m2 : -2 ^ 24 ≤ roundEven (q / 2 ^ expo q) := le_roundEven (by push_cast; linarith)
  generalize hm : roundEven (q / 2 ^ expo q) = m at m1 m2
  by_cases hb : |m| < 2 ^ 24
  · exact ⟨m, expo q, hb, hlow, he, rfl⟩
  · have he' : expo q ≠ 104 := by
      intro e
      have e2 : (2 : Rat) ^ (104 : Int) = 2 ^ 104 := by norm_cast
      have hh := roundEven_half (q / 2 ^ expo q)
      rw [hm] at hh
      have hm' : |(m : Rat)| = 2 ^ 24 := by
        have : |m| = 2 ^ 24 := le_antisymm (abs_le.2 ⟨m2, m1⟩) (not_lt.1 hb)
        exact_mod_cast this
      have hq : |q / 2 ^ expo q| < 2 ^ 24 - 1 / 2 := by
        rw [abs_div, abs_of_pos hp, div_lt_iff₀ hp, e, e2]
        refine lt_of_lt_of_le h0 (by norm_num)
      have := abs_sub_abs_le_abs_sub (m : Rat) (q / 2 ^ expo q)
      rw [hm'] at this
      linarith
    refine ⟨m / 2, expo q + 1, ?_, by show (-149 : Int) ≤ _; omega, by show _ ≤ (104 : Int); omega, ?_⟩
    · show |m / 2| < 2 ^ 24
      rw [abs_lt]; constructor <;> omega
    · have hev : m = 2 * (m / 2) := by
        rcases abs_cases m with ⟨a, _⟩ | ⟨a, _⟩ <;> omega
      rw [zpow_add_one₀ (by norm_num)]
      conv_lhs => rw [hev]
      push_cast
      ring

/-- Numbers of the format are not passed. -/
theorem f32_le {q r s : Rat} (h : f32 q = .fin r) (hs : float32.Has s) (hq : q ≤ s) : r ≤ s := by
  obtain ⟨h0, rfl⟩ := f32_fin_inv h
  have hp := two_zpow_pos (expo q)
  rcases has_expo hs q with ⟨n, rfl⟩ | ⟨h1, h2⟩
  · have : roundEven (q / 2 ^ expo q) ≤ n := roundEven_le (by rw [div_le_iff₀ hp]; exact hq)
    have : (roundEven (q / 2 ^ expo q) : Rat) ≤ n := by exact_mod_cast this
    exact mul_le_mul_of_nonneg_right this (le_of_lt hp)
  · have h3 := expo_le h1
    rw [abs_lt] at h2
    have hneg : q < 0 := by
      by_contra hc
      rw [abs_of_nonneg (not_lt.1 hc)] at h3
      linarith
    rw [abs_of_neg hneg] at h3
    have : roundEven (q / 2 ^ expo q) ≤ -2 ^ 23 := roundEven_le (by
      push_cast
      rw [div_le_iff₀ hp]; linarith)
    have : (roundEven (q / 2 ^ expo q) : Rat) ≤ -2 ^ 23 := by exact_mod_cast this
    nlinarith

theorem le_f32 {q r s : Rat} (h : f32 q = .fin r) (hs : float32.Has s) (hq : s ≤ q) : s ≤ r := by
  obtain ⟨h0, rfl⟩ := f32_fin_inv h
  have hp := two_zpow_pos (expo q)
  rcases has_expo hs q with ⟨n, rfl⟩ | ⟨h1, h2⟩
  · have : n ≤ roundEven (q / 2 ^ expo q) := le_roundEven (by rw [le_div_iff₀ hp]; exact hq)
    have : (n : Rat) ≤ roundEven (q / 2 ^ expo q) := by exact_mod_cast this
    exact mul_le_mul_of_nonneg_right this (le_of_lt hp)
  · have h3 := expo_le h1
    rw [abs_lt] at h2
    have hpos : 0 ≤ q := by
      by_contra hc
      rw [abs_of_neg (not_le.1 hc)] at h3
      linarith
    rw [abs_of_nonneg hpos] at h3
    have : 2 ^ 23 ≤ roundEven (q / 2 ^ expo q) := le_roundEven (by
      push_cast
      rw [le_div_iff₀ hp]; linarith)
    have : 2 ^ 23 ≤ (roundEven (q / 2 ^ expo q) : Rat) := by exact_mod_cast this
    nlinarith

/-- No number of the format is closer. -/
theorem f32_nearest {q r s : Rat} (h : f32 q = .fin r) (hs : float32.Has s) : |r - q| ≤ |s - q| := by
  obtain ⟨h0, rfl⟩ := f32_fin_inv h
  have hp := two_zpow_pos (expo q)
  have key : ∀ n : Int, |(roundEven (q / 2 ^ expo q) : Rat) * 2 ^ expo q - q| ≤ |(n : Rat) * 2 ^ expo q - q| := by
    intro n
    have e : ∀ z : Int, |(z : Rat) * 2 ^ expo q - q| = |(z : Rat) - q / 2 ^ expo q| * 2 ^ expo q := by
      intro z
      conv_rhs => rw [← abs_of_pos hp]
      rw [← abs_mul, sub_mul, abs_of_pos hp, ← scale]
    rw [e, e]
    exact mul_le_mul_of_nonneg_right (roundEven_nearest _ n) (le_of_lt hp)
  rcases has_expo hs q with ⟨n, rfl⟩ | ⟨h1, h2⟩
  · exact key n
  · have h3 := expo_le h1
    rcases le_or_gt 0 q with hc | hc
    · have := key (2 ^ 23)
      rw [abs_of_nonneg hc] at h3
      push_cast at this
      rw [abs_of_nonpos (a := 8388608 * 2 ^ expo q - q) (by linarith)] at this
      rw [abs_lt] at h2
      have h4 := neg_abs_le (s - q)
      linarith
    · have := key (-2 ^ 23)
      rw [abs_of_neg hc] at h3
      push_cast at this
      rw [abs_of_nonneg (a := -8388608 * 2 ^ expo q - q) (by linarith)] at this
      rw [abs_lt] at h2
      have h4 := le_abs_self (s - q)
      linarith

theorem f32_rounds : Rounds f32 where
  fix _ h := f32_fix h
  has _ _ h := f32_has h
  mono a b r s hab ha hb := by
    by_contra hc
    push Not at hc
    have r1 := f32_has ha
    have s1 := f32_has hb
    have c1 : s < a := by
      by_contra hc'
      exact absurd (f32_le ha s1 (not_lt.1 hc')) (not_le.2 hc)
    have c2 : b < r := by
      by_contra hc'
      exact absurd (le_f32 hb r1 (not_lt.1 hc')) (not_le.2 hc)
    have n1 := f32_nearest ha s1
    have n2 := f32_nearest hb r1
    rw [abs_of_nonneg (by linarith), abs_of_nonpos (by linarith)] at n1
    rw [abs_of_nonpos (by linarith), abs_of_nonneg (by linarith)] at n2
    have : a = b := by linarith
    subst this
    rw [ha] at hb
    cases hb
    exact lt_irrefl _ hc
  pinf a b hab ha := by
    unfold f32 at ha ⊢
    split at ha
    · rename_i h1
      split at ha
      · rename_i h2
        rw [abs_of_pos h2] at h1
        rw [if_pos (by rw [abs_of_pos (by linarith)]; linarith), if_pos (by linarith)]
      · cases ha
    · cases ha
  ninf a b hab hb := by
    unfold f32 at hb ⊢
    split at hb
    · rename_i h1
      split at hb
      · cases hb
      · rename_i h2
        rw [abs_of_nonpos (not_lt.1 h2)] at h1
        have : a ≤ 0 := by linarith [not_lt.1 h2]
        rw [if_pos (by rw [abs_of_nonpos this]; linarith), if_neg (not_lt.2 this)]
    · cases hb
  number q := by
    unfold f32
    split
    · split <;> exact nofun
    · exact nofun

/-- Evaluation: the exponent and a significand which is closest to the scaled number. -/
theorem f32_at {q : Rat} {e m : Int} (he : -149 ≤ e) (he' : e < 104) (h1 : 2 ^ 23 * (2 : Rat) ^ e ≤ |q|)
    (h2 : |q| < 2 ^ 24 * (2 : Rat) ^ e) (hm : |(m : Rat) - q / 2 ^ e| < 1 / 2) : f32 q = .fin (m * 2 ^ e) := by
  have hex : expo q = e := by
    have a1 := lt_expo q
    have b1 : (2 : Rat) ^ e < 2 ^ (expo q + 1) := by
      rw [zpow_add_one₀ (by norm_num)]
      linarith
    have c1 := of_zpow_lt b1
    by_cases h : -149 < expo q
    · have a2 := expo_le h
      have b2 : (2 : Rat) ^ expo q < 2 ^ (e + 1) := by
        rw [zpow_add_one₀ (by norm_num)]
        linarith
      have c2 := of_zpow_lt b2
      omega
    · have := le_expo q
      omega
  have hq : |q| < 2 ^ 128 - 2 ^ 103 := by
    have : (2 : Rat) ^ e ≤ 2 ^ (103 : Int) := zpow_le (by omega)
    have e3 : (2 : Rat) ^ (103 : Int) = 2 ^ 103 := by norm_cast
    rw [e3] at this
    calc |q| < 2 ^ 24 * (2 : Rat) ^ e := h2
      _ ≤ 2 ^ 24 * 2 ^ 103 := mul_le_mul_of_nonneg_left this (by norm_num)
      _ < 2 ^ 128 - 2 ^ 103 := by norm_num
  rw [f32_fin hq, hex]
  congr 2
  have h := roundEven_nearest (q / 2 ^ e) m
  have h3 : |((roundEven (q / 2 ^ e) - m : Int) : Rat)| < 1 := by
    push_cast
    calc |(roundEven (q / 2 ^ e) : Rat) - m| = |((roundEven (q / 2 ^ e) : Rat) - q / 2 ^ e) + (q / 2 ^ e - m)| := by ring_nf
      _ ≤ |(roundEven (q / 2 ^ e) : Rat) - q / 2 ^ e| + |q / 2 ^ e - m| := abs_add_le _ _
      _ < 1 := by rw [abs_sub_comm (q / 2 ^ e)]; linarith
  have h4 : |roundEven (q / 2 ^ e) - m| < 1 := by exact_mod_cast h3
  have := Int.abs_lt_one_iff.1 h4
  have : roundEven (q / 2 ^ e) = m := by omega
  rw [this]

end Stempy.Float32
