import Verif.Model.IeeeRound
import Verif.Lemmas.Float32

/-! Facts about rounding to a floating point format. -/

namespace Stempy.IeeeRound
open Stempy.FloatPixels (Fl)
open Stempy.SafeCast (Format float32 float64)
open Stempy.Float32 (roundEven roundEven_int roundEven_half roundEven_nearest roundEven_le le_roundEven two_zpow_pos zpow_le
  zpow_lt of_zpow_lt log_le lt_log)

variable {f : Format}

/-- A significand of at least one digit, and at least two exponents. -/
structure Wide (f : Format) : Prop where
  digits : 0 < f.p
  range : f.emin < f.emax

theorem Wide.pow (w : Wide f) : (2 : Rat) ^ f.p = 2 * 2 ^ (f.p - 1) := by
  have := w.digits
  obtain ⟨t, ht⟩ : ∃ t, f.p = t + 1 := ⟨f.p - 1, by omega⟩
  rw [ht, Nat.add_sub_cancel, pow_succ]
  ring

theorem wide32 : Wide float32 := ⟨by decide, by decide⟩

theorem wide64 : Wide float64 := ⟨by decide, by decide⟩

theorem expo_zero : expo f 0 = f.emin := if_pos rfl

theorem expo_of_ne {q : Rat} (h : q ≠ 0) : expo f q = max (Int.log 2 |q| - (f.p - 1 : Nat)) f.emin := if_neg h

theorem le_expo (q : Rat) : f.emin ≤ expo f q := by
  by_cases h : q = 0
  · rw [h, expo_zero]
  · rw [expo_of_ne h]
    exact le_max_right _ _

/-- Below 2^p in units of the last digit. -/
theorem lt_expo (w : Wide f) (q : Rat) : |q| < 2 ^ f.p * (2 : Rat) ^ expo f q := by
  by_cases h : q = 0
  · rw [h, abs_zero]
    have := two_zpow_pos (expo f 0)
    positivity
  have h1 := lt_log q
  have h2 : Int.log 2 |q| - (f.p - 1 : Nat) ≤ expo f q := by
    rw [expo_of_ne h]
    exact le_max_left _ _
  have hd := w.digits
  have h3 : (2 : Rat) ^ (Int.log 2 |q| + 1) ≤ 2 ^ ((f.p : Int) + expo f q) := zpow_le (by omega)
  rw [zpow_add₀ (by norm_num) (f.p : Int), zpow_natCast] at h3
  exact lt_of_lt_of_le h1 h3

/-- At least 2^(p-1) in units of the last digit, unless the exponent is the least one. -/
theorem expo_le {q : Rat} (h : f.emin < expo f q) : 2 ^ (f.p - 1) * (2 : Rat) ^ expo f q ≤ |q| := by
  have hq : q ≠ 0 := by
    rintro rfl
    rw [expo_zero] at h
    exact lt_irrefl _ h
  have he : expo f q = Int.log 2 |q| - (f.p - 1 : Nat) := by
    rw [expo_of_ne hq] at h ⊢
    rcases max_cases (Int.log 2 |q| - (f.p - 1 : Nat)) f.emin with ⟨a, _⟩ | ⟨a, _⟩
    · exact a
    · rw [a] at h
      exact absurd h (lt_irrefl _)
  have h1 := log_le hq
  rw [show Int.log 2 |q| = ((f.p - 1 : Nat) : Int) + expo f q by omega, zpow_add₀ (by norm_num), zpow_natCast] at h1
  exact h1

/-- A number of the format is a multiple of the last digit around `q`, or it is below all numbers of this exponent. -/
theorem has_expo (w : Wide f) {s : Rat} (h : f.Has s) (q : Rat) :
    (∃ n : Int, s = n * (2 : Rat) ^ expo f q) ∨ (f.emin < expo f q ∧ |s| < 2 ^ (f.p - 1) * (2 : Rat) ^ expo f q) := by
  obtain ⟨m, k, h1, h2, _, rfl⟩ := h
  by_cases hk : expo f q ≤ k
  · left
    refine ⟨m * 2 ^ (k - expo f q).toNat, ?_⟩
    push_cast
    rw [mul_assoc, ← zpow_natCast, ← zpow_add₀ (by norm_num)]
    congr 2
    omega
  · right
    refine ⟨by omega, ?_⟩
    rw [abs_mul, abs_of_pos (two_zpow_pos k)]
    have a1 : (2 : Rat) ^ (k + 1) ≤ 2 ^ expo f q := zpow_le (by omega)
    rw [zpow_add_one₀ (by norm_num)] at a1
    have a2 : |(m : Rat)| < 2 ^ f.p := by exact_mod_cast h1
    rw [w.pow] at a2
    have a3 := two_zpow_pos k
    have a4 : (0 : Rat) < 2 ^ (f.p - 1) := by positivity
    nlinarith

/-- The scaled value. -/
theorem scale (q : Rat) : q = (q / 2 ^ expo f q) * 2 ^ expo f q := by
  rw [div_mul_cancel₀]
  exact ne_of_gt (two_zpow_pos _)

theorem expo_le_of_lt (w : Wide f) {q : Rat} (h : |q| < 2 ^ f.p * (2 : Rat) ^ f.emax) : expo f q ≤ f.emax := by
  by_contra hc
  have hr := w.range
  have h1 := expo_le (f := f) (q := q) (by omega)
  have h2 : (2 : Rat) ^ (f.emax + 1) ≤ 2 ^ expo f q := zpow_le (by omega)
  rw [zpow_add_one₀ (by norm_num)] at h2
  rw [w.pow] at h
  have a4 : (0 : Rat) < 2 ^ (f.p - 1) := by positivity
  nlinarith

theorem nearest_fin {q : Rat} (h : |q| < (2 ^ f.p - 1 / 2) * (2 : Rat) ^ f.emax) :
    nearest f q = .fin (roundEven (q / 2 ^ expo f q) * 2 ^ expo f q) := by
  unfold nearest
  rw [if_neg (not_le.2 h)]

theorem nearest_fin_inv {q r : Rat} (h : nearest f q = .fin r) :
    |q| < (2 ^ f.p - 1 / 2) * (2 : Rat) ^ f.emax ∧ r = roundEven (q / 2 ^ expo f q) * 2 ^ expo f q := by
  unfold nearest at h
  split at h
  · split at h <;> cases h
  · rename_i hc
    cases h
    exact ⟨not_le.1 hc, rfl⟩

theorem has_lt {s : Rat} (h : f.Has s) : |s| ≤ (2 ^ f.p - 1) * (2 : Rat) ^ f.emax := by
  obtain ⟨m, k, h1, _, h3, rfl⟩ := h
  rw [abs_mul, abs_of_pos (two_zpow_pos k)]
  have a1 : (2 : Rat) ^ k ≤ 2 ^ f.emax := zpow_le h3
  have a3 : |m| ≤ 2 ^ f.p - 1 := by omega
  have a4 : |(m : Rat)| ≤ 2 ^ f.p - 1 := by exact_mod_cast a3
  have a5 : (1 : Rat) ≤ 2 ^ f.p := one_le_pow₀ (by norm_num)
  exact mul_le_mul a4 a1 (le_of_lt (two_zpow_pos k)) (by linarith)

theorem nearest_fix (w : Wide f) {q : Rat} (h : f.Has q) : nearest f q = .fin q := by
  have h0 : |q| < (2 ^ f.p - 1 / 2) * (2 : Rat) ^ f.emax := by
    refine lt_of_le_of_lt (has_lt h) ?_
    have := two_zpow_pos f.emax
    nlinarith
  rw [nearest_fin h0]
  rcases has_expo w h q with ⟨n, hn⟩ | ⟨h1, h2⟩
  · have : q / 2 ^ expo f q = n := by
      rw [div_eq_iff (ne_of_gt (two_zpow_pos _))]
      exact hn
    rw [this, roundEven_int, ← hn]
  · exact absurd (expo_le h1) (not_le.2 h2)

theorem nearest_has (w : Wide f) {q r : Rat} (h : nearest f q = .fin r) : f.Has r := by
  obtain ⟨h0, rfl⟩ := nearest_fin_inv h
  have hp := two_zpow_pos (expo f q)
  have hmax := two_zpow_pos f.emax
  have hx : |q / 2 ^ expo f q| < 2 ^ f.p := by
    rw [abs_div, abs_of_pos hp, div_lt_iff₀ hp]
    exact lt_expo w q
  have he : expo f q ≤ f.emax := expo_le_of_lt w (lt_trans h0 (by nlinarith))
  have hlow := le_expo (f := f) q
  have hd := w.digits
  rw [abs_lt] at hx
  have m1 : roundEven (q / 2 ^ expo f q) ≤ 2 ^ f.p := roundEven_le (by push_cast; linarith)
  have m2 : -2 ^ f.p ≤ roundEven (q / 2 ^ expo f q) := le_roundEven (by push_cast; linarith)
  generalize hm : roundEven (q / 2 ^ expo f q) = m at m1 m2
  by_cases hb : |m| < 2 ^ f.p
  · exact ⟨m, expo f q, hb, hlow, he, rfl⟩
  · have hm0 : |m| = 2 ^ f.p := le_antisymm (abs_le.2 ⟨m2, m1⟩) (not_lt.1 hb)
    have he' : expo f q ≠ f.emax := by
      intro e
      have hh := roundEven_half (q / 2 ^ expo f q)
      rw [hm] at hh
      have hm' : |(m : Rat)| = 2 ^ f.p := by exact_mod_cast hm0
      have hq : |q / 2 ^ expo f q| < 2 ^ f.p - 1 / 2 := by
        rw [abs_div, abs_of_pos hp, div_lt_iff₀ hp, e]
        exact h0
      have := abs_sub_abs_le_abs_sub (m : Rat) (q / 2 ^ expo f q)
      rw [hm'] at this
      linarith
    obtain ⟨t, ht⟩ : ∃ t, f.p = t + 1 := ⟨f.p - 1, by omega⟩
    have hpow : (2 : Int) ^ f.p = 2 * 2 ^ t := by rw [ht, pow_succ]; ring
    have hpos : (0 : Int) < 2 ^ t := by positivity
    rw [hpow] at hm0
    obtain ⟨k, hk, hk2⟩ : ∃ k : Int, m = 2 * k ∧ |k| = 2 ^ t := by
      rcases abs_cases m with ⟨a, _⟩ | ⟨a, _⟩
      · exact ⟨2 ^ t, by omega, abs_of_pos hpos⟩
      · exact ⟨-2 ^ t, by omega, by rw [abs_neg]; exact abs_of_pos hpos⟩
    refine ⟨k, expo f q + 1, ?_, by omega, by omega, ?_⟩
    · rw [hk2, hpow]; omega
    · rw [zpow_add_one₀ (by norm_num), hk]
      push_cast
      ring

/-- Numbers of the format are not passed. -/
theorem nearest_le (w : Wide f) {q r s : Rat} (h : nearest f q = .fin r) (hs : f.Has s) (hq : q ≤ s) : r ≤ s := by
  obtain ⟨h0, rfl⟩ := nearest_fin_inv h
  have hp := two_zpow_pos (expo f q)
  rcases has_expo w hs q with ⟨n, rfl⟩ | ⟨h1, h2⟩
  · have : roundEven (q / 2 ^ expo f q) ≤ n := roundEven_le (by rw [div_le_iff₀ hp]; exact hq)
    have : (roundEven (q / 2 ^ expo f q) : Rat) ≤ n := by exact_mod_cast this
    exact mul_le_mul_of_nonneg_right this (le_of_lt hp)
  · have h3 := expo_le h1
    rw [abs_lt] at h2
    have hneg : q < 0 := by
      by_contra hc
      rw [abs_of_nonneg (not_lt.1 hc)] at h3
      linarith
    rw [abs_of_neg hneg] at h3
    have : roundEven (q / 2 ^ expo f q) ≤ -2 ^ (f.p - 1) := roundEven_le (by
      push_cast
      rw [div_le_iff₀ hp]; linarith)
    have : (roundEven (q / 2 ^ expo f q) : Rat) ≤ -2 ^ (f.p - 1) := by exact_mod_cast this
    nlinarith

theorem le_nearest (w : Wide f) {q r s : Rat} (h : nearest f q = .fin r) (hs : f.Has s) (hq : s ≤ q) : s ≤ r := by
  obtain ⟨h0, rfl⟩ := nearest_fin_inv h
  have hp := two_zpow_pos (expo f q)
  rcases has_expo w hs q with ⟨n, rfl⟩ | ⟨h1, h2⟩
  · have : n ≤ roundEven (q / 2 ^ expo f q) := le_roundEven (by rw [le_div_iff₀ hp]; exact hq)
    have : (n : Rat) ≤ roundEven (q / 2 ^ expo f q) := by exact_mod_cast this
    exact mul_le_mul_of_nonneg_right this (le_of_lt hp)
  · have h3 := expo_le h1
    rw [abs_lt] at h2
    have hpos : 0 ≤ q := by
      by_contra hc
      rw [abs_of_neg (not_le.1 hc)] at h3
      linarith
    rw [abs_of_nonneg hpos] at h3
    have : 2 ^ (f.p - 1) ≤ roundEven (q / 2 ^ expo f q) := le_roundEven (by
      push_cast
      rw [le_div_iff₀ hp]; linarith)
    have : 2 ^ (f.p - 1) ≤ (roundEven (q / 2 ^ expo f q) : Rat) := by exact_mod_cast this
    nlinarith

/-- No number of the format is closer. -/
theorem nearest_nearest (w : Wide f) {q r s : Rat} (h : nearest f q = .fin r) (hs : f.Has s) : |r - q| ≤ |s - q| := by
  obtain ⟨h0, rfl⟩ := nearest_fin_inv h
  have hp := two_zpow_pos (expo f q)
  have key : ∀ n : Int, |(roundEven (q / 2 ^ expo f q) : Rat) * 2 ^ expo f q - q| ≤ |(n : Rat) * 2 ^ expo f q - q| := by
    intro n
    have e : ∀ z : Int, |(z : Rat) * 2 ^ expo f q - q| = |(z : Rat) - q / 2 ^ expo f q| * 2 ^ expo f q := by
      intro z
      conv_rhs => rw [← abs_of_pos hp]
      rw [← abs_mul, sub_mul, abs_of_pos hp, ← scale]
    rw [e, e]
    exact mul_le_mul_of_nonneg_right (roundEven_nearest _ n) (le_of_lt hp)
  rcases has_expo w hs q with ⟨n, rfl⟩ | ⟨h1, h2⟩
  · exact key n
  · have h3 := expo_le h1
    rcases le_or_gt 0 q with hc | hc
    · have := key (2 ^ (f.p - 1))
      rw [abs_of_nonneg hc] at h3
      push_cast at this
      rw [abs_of_nonpos (a := 2 ^ (f.p - 1) * 2 ^ expo f q - q) (by linarith)] at this
      rw [abs_lt] at h2
      have h4 := neg_abs_le (s - q)
      linarith
    · have := key (-2 ^ (f.p - 1))
      rw [abs_of_neg hc] at h3
      push_cast at this
      rw [abs_of_nonneg (a := -2 ^ (f.p - 1) * 2 ^ expo f q - q) (by linarith)] at this
      rw [abs_lt] at h2
      have h4 := le_abs_self (s - q)
      linarith

theorem nearest_rounds (w : Wide f) : Rounds f (nearest f) where
  fix _ h := nearest_fix w h
  has _ _ h := nearest_has w h
  mono a b r s hab ha hb := by
    by_contra hc
    push Not at hc
    have r1 := nearest_has w ha
    have s1 := nearest_has w hb
    have c1 : s < a := by
      by_contra hc'
      exact absurd (nearest_le w ha s1 (not_lt.1 hc')) (not_le.2 hc)
    have c2 : b < r := by
      by_contra hc'
      exact absurd (le_nearest w hb r1 (not_lt.1 hc')) (not_le.2 hc)
    have n1 := nearest_nearest w ha s1
    have n2 := nearest_nearest w hb r1
    rw [abs_of_nonneg (by linarith), abs_of_nonpos (by linarith)] at n1
    rw [abs_of_nonpos (by linarith), abs_of_nonneg (by linarith)] at n2
    have : a = b := by linarith
    subst this
    rw [ha] at hb
    cases hb
    exact lt_irrefl _ hc
  pinf a b hab ha := by
    unfold nearest at ha ⊢
    split at ha
    · rename_i h1
      split at ha
      · rename_i h2
        rw [abs_of_pos h2] at h1
        rw [if_pos (by rw [abs_of_pos (by linarith)]; linarith), if_pos (by linarith)]
      · cases ha
    · cases ha
  ninf a b hab hb := by
    unfold nearest at hb ⊢
    split at hb
    · rename_i h1
      split at hb
      · cases hb
      · rename_i h2
        rw [abs_of_nonpos (not_lt.1 h2)] at h1
        have : a ≤ 0 := by linarith [not_lt.1 h2]
        rw [if_pos (by rw [abs_of_nonpos this]; linarith), if_neg (not_lt.2 this)]
    · cases hb
  number q := by
    unfold nearest
    split
    · split <;> exact nofun
    · exact nofun

/-- Evaluation: the exponent. -/
theorem nearest_even (w : Wide f) {q : Rat} {e : Int} (he : f.emin ≤ e) (he' : e < f.emax) (h1 : 2 ^ (f.p - 1) * (2 : Rat) ^ e ≤ |q|)
    (h2 : |q| < 2 ^ f.p * (2 : Rat) ^ e) : nearest f q = .fin (roundEven (q / 2 ^ e) * 2 ^ e) := by
  have hT : (0 : Rat) < 2 ^ (f.p - 1) := by positivity
  have hex : expo f q = e := by
    have a1 := lt_expo w q
    rw [w.pow] at a1 h2
    have b1 : (2 : Rat) ^ e < 2 ^ (expo f q + 1) := by
      rw [zpow_add_one₀ (by norm_num)]
      have := lt_of_le_of_lt h1 a1
      by_contra hc
      nlinarith
    have c1 := of_zpow_lt b1
    by_cases h : f.emin < expo f q
    · have a2 := expo_le h
      have b2 : (2 : Rat) ^ expo f q < 2 ^ (e + 1) := by
        rw [zpow_add_one₀ (by norm_num)]
        have := lt_of_le_of_lt a2 h2
        by_contra hc
        nlinarith
      have c2 := of_zpow_lt b2
      omega
    · have := le_expo (f := f) q
      omega
  have hq : |q| < (2 ^ f.p - 1 / 2) * (2 : Rat) ^ f.emax := by
    have : (2 : Rat) ^ (e + 1) ≤ 2 ^ f.emax := zpow_le (by omega)
    rw [zpow_add_one₀ (by norm_num)] at this
    have a5 : (1 : Rat) ≤ 2 ^ f.p := one_le_pow₀ (by norm_num)
    have a6 := two_zpow_pos e
    nlinarith
  rw [nearest_fin hq, hex]

/-- Evaluation: the exponent and a significand which is closest to the scaled number. -/
theorem nearest_at (w : Wide f) {q : Rat} {e m : Int} (he : f.emin ≤ e) (he' : e < f.emax) (h1 : 2 ^ (f.p - 1) * (2 : Rat) ^ e ≤ |q|)
    (h2 : |q| < 2 ^ f.p * (2 : Rat) ^ e) (hm : |(m : Rat) - q / 2 ^ e| < 1 / 2) : nearest f q = .fin (m * 2 ^ e) := by
  rw [nearest_even w he he' h1 h2]
  congr 2
  have h := roundEven_nearest (q / 2 ^ e) m
  have h3 : |((roundEven (q / 2 ^ e) - m : Int) : Rat)| < 1 := by
    push_cast
    calc |(roundEven (q / 2 ^ e) : Rat) - m| = |((roundEven (q / 2 ^ e) : Rat) - q / 2 ^ e) + (q / 2 ^ e - m)| := by ring_nf
      _ ≤ |(roundEven (q / 2 ^ e) : Rat) - q / 2 ^ e| + |q / 2 ^ e - m| := abs_add_le _ _
      _ < 1 := by rw [abs_sub_comm (q / 2 ^ e)]; linarith
  have h4 : |roundEven (q / 2 ^ e) - m| < 1 := by exact_mod_cast h3
  have := Int.abs_lt_one_iff.1 h4
  have : roundEven (q / 2 ^ e) = m := by omega
  rw [this]

/-- Single precision is an instance. -/
theorem nearest_float32 : nearest float32 = Float32.f32 := by
  funext q
  have e : expo float32 q = Float32.expo q := rfl
  have c : (2 ^ float32.p - 1 / 2) * (2 : Rat) ^ float32.emax = 2 ^ 128 - 2 ^ 103 := by
    show (2 ^ 24 - 1 / 2) * (2 : Rat) ^ (104 : Int) = _
    have : (2 : Rat) ^ (104 : Int) = 2 ^ 104 := by norm_cast
    rw [this]
    norm_num
  unfold nearest Float32.f32
  rw [c, e]

/-! ### Any rounding mode -/

variable {rd : Rat → Fl}

/-- A number between two numbers of the format becomes a number between them. -/
theorem Rounds.between (h : Rounds f rd) {a b q : Rat} (ha : f.Has a) (hb : f.Has b) (h1 : a ≤ q) (h2 : q ≤ b) :
    ∃ r, rd q = .fin r ∧ f.Has r ∧ a ≤ r ∧ r ≤ b := by
  cases hr : rd q with
  | fin r => exact ⟨r, rfl, h.has _ _ hr, h.mono _ _ _ _ h1 (h.fix _ ha) hr, h.mono _ _ _ _ h2 hr (h.fix _ hb)⟩
  | pinf => have := h.pinf _ _ h2 hr; rw [h.fix _ hb] at this; cases this
  | ninf => have := h.ninf _ _ h1 hr; rw [h.fix _ ha] at this; cases this
  | nan => exact absurd hr (h.number q)

/-- Integers below 2^p are numbers of the format, if it has the exponent zero. -/
theorem has_nat (h1 : f.emin ≤ 0) (h2 : 0 ≤ f.emax) {n : Nat} (hn : n < 2 ^ f.p) : f.Has n :=
  ⟨n, 0, by rw [abs_of_nonneg (Int.natCast_nonneg n)]; exact_mod_cast hn, h1, h2, by simp⟩

/-- As are powers of two. -/
theorem has_two_pow (w : Wide f) {k : Nat} (h1 : f.emin ≤ k) (h2 : (k : Int) ≤ f.emax) : f.Has ((2 : Rat) ^ k) :=
  ⟨1, k, by rw [abs_one]; exact one_lt_pow₀ (by norm_num) (Nat.ne_of_gt w.digits), h1, h2, by simp⟩

end Stempy.IeeeRound
