import Mathlib.Analysis.Real.Pi.Bounds
import Verif.Props.Angle

/-!
# C102: how far the result of normalizeAngle in double precision is from the exact one

Every subtraction of 2 π is rounded. With the double next to π the subtractions are exact up to 64 + 2 π, and each of them is wrong in the
following interval. In general the error is at most the number of subtractions times the rounding error of the angle.
-/

namespace Stempy.Props.Angle
open Stempy.Angle
open Stempy.FloatPixels (Fl)
open Stempy.IeeeRound
open Stempy.SafeCast (float64)
open Stempy.Float32 (roundEven roundEven_half)
open Stempy.LeastSquares (While)
open Stempy.Props.LeastSquares (while_det)

/-- Multiples of 2^e below 2^(53 + e) are numbers of the format. -/
theorem has_multiple {x : Rat} {n e : Int} (hx : x = n * (2 : Rat) ^ e) (h1 : |x| < 2 ^ (53 + e)) (h2 : -1074 ≤ e) (h3 : e ≤ 971) :
    float64.Has x := by
  refine ⟨n, e, ?_, h2, h3, hx⟩
  have p1 : (0 : Rat) < 2 ^ e := zpow_pos (by norm_num) _
  rw [hx, abs_mul, abs_of_pos p1, zpow_add₀ (by norm_num)] at h1
  have h4 := lt_of_mul_lt_mul_right h1 (le_of_lt p1)
  have h5 : |(n : Rat)| < 2 ^ 53 := by
    have e1 : ((2 : Rat) ^ (53 : Int)) = 2 ^ 53 := by norm_num
    rwa [e1] at h4
  show |n| < 2 ^ 53
  exact_mod_cast h5

/-- The rounding error of a multiple of 2^-51. -/
theorem round_error {x r : Rat} {n : Int} (hx : x = n * (2 : Rat) ^ (-51 : Int)) (h : nearest float64 x = .fin r) : |r - x| ≤ |x| / 2 ^ 53 := by
  rcases lt_or_ge |x| (2 ^ (53 + (-51 : Int))) with hc | hc
  · have := nearest_fix wide64 (has_multiple hx hc (by norm_num) (by norm_num))
    rw [this, Fl.fin.injEq] at h
    rw [h, sub_self, abs_zero]
    positivity
  · obtain ⟨-, hr⟩ := nearest_fin_inv h
    have p1 : (0 : Rat) < 2 ^ expo float64 x := zpow_pos (by norm_num) _
    have h1 := roundEven_half (x / 2 ^ expo float64 x)
    have h2 : r - x = (roundEven (x / 2 ^ expo float64 x) - x / 2 ^ expo float64 x) * 2 ^ expo float64 x := by
      rw [sub_mul, div_mul_cancel₀ _ (ne_of_gt p1), hr]
    have h3 : float64.emin < expo float64 x := by
      by_contra hcc
      have h4 := lt_expo wide64 x
      have h5 : (2 : Rat) ^ expo float64 x ≤ 2 ^ (-1074 : Int) := zpow_le_zpow_right₀ (by norm_num) (not_lt.1 hcc)
      have h6 : (2 : Rat) ^ (-1074 : Int) ≤ 2 ^ (-53 : Int) := zpow_le_zpow_right₀ (by norm_num) (by norm_num)
      have h7 : (2 : Rat) ^ float64.p = 2 ^ 53 := rfl
      rw [h7] at h4
      have h8 := le_trans h5 h6
      generalize (2 : Rat) ^ expo float64 x = t at h4 h8
      norm_num at hc h8
      linarith
    have h4 := expo_le h3
    have h7 : (2 : Rat) ^ (float64.p - 1) = 2 ^ 52 := rfl
    rw [h7] at h4
    rw [h2, abs_mul, abs_of_pos p1, le_div_iff₀ (by positivity)]
    nlinarith

theorem multiple_sub {p q : Rat} (hp : 3 ≤ p) (hhp : float64.Has p) (hq : float64.Has q) (h : 3 ≤ |q|) :
    ∃ n : Int, q - 2 * p = n * (2 : Rat) ^ (-51 : Int) := by
  obtain ⟨n, hn⟩ := multiple hhp (e := -51) (by rw [abs_of_nonneg (by linarith)]; norm_num; linarith)
  obtain ⟨m, hm⟩ := multiple hq (e := -51) (by norm_num; linarith)
  exact ⟨m - 2 * n, by rw [hn, hm]; push_cast; ring⟩

private theorem sub_step {p : Rat} (hp : 3 ≤ p) (hp' : p ≤ 7 / 2) (hhp : float64.Has p) (q : Rat) :
    rnd (nearest float64) ((Fl.fin q).sub (turn (nearest float64) (.fin p))) = nearest float64 (q - 2 * p) := by
  rw [turn_double hhp (by rw [abs_of_nonneg (by linarith)]; exact hp')]
  simp only [Fl.sub, Fl.neg, Fl.add, rnd]
  rw [← sub_eq_add_neg]

private theorem add_step {p : Rat} (hp : 3 ≤ p) (hp' : p ≤ 7 / 2) (hhp : float64.Has p) (q : Rat) :
    rnd (nearest float64) ((Fl.fin q).add (turn (nearest float64) (.fin p))) = (nearest float64 (-q - 2 * p)).neg := by
  rw [turn_double hhp (by rw [abs_of_nonneg (by linarith)]; exact hp'), ← nearest_neg]
  simp only [Fl.add, rnd]
  congr 1; ring

/-- The second loop. -/
abbrev Down (p : Rat) : Fl → Fl → Prop :=
  While (fun a : Fl => a.gt (.fin p) = true) (fun a b => b = rnd (nearest float64) (a.sub (turn (nearest float64) (.fin p))))

/-- The first loop. -/
abbrev Up (p : Rat) : Fl → Fl → Prop :=
  While (fun a : Fl => (Fl.fin p).neg.ge a = true) (fun a b => b = rnd (nearest float64) (a.add (turn (nearest float64) (.fin p))))

/-- A property of the numbers and the results of the second loop that holds at the end and is passed on by a subtraction. -/
private theorem down_induct {p : Rat} (hp : 3 ≤ p) (hp' : p ≤ 7 / 2) (hhp : float64.Has p) {P : Rat → Rat → Prop}
    (hstop : ∀ q, -p < q → q ≤ p → P q q)
    (hstep : ∀ q r s, float64.Has q → p < q → q ≤ 2 ^ 56 → nearest float64 (q - 2 * p) = .fin r → float64.Has r → -p < r → r < q → P r s → P q s)
    {a b : Fl} (h : Down p a b) : ∀ q, a = .fin q → float64.Has q → -p < q → q ≤ 2 ^ 56 → ∃ s, b = .fin s ∧ P q s := by
  induction h with
  | stop hc =>
    rintro q rfl hq h1 h2
    rw [high_iff] at hc
    exact ⟨q, rfl, hstop q h1 (not_lt.1 hc)⟩
  | step hc hb hw ih =>
    rintro q rfl hq h1 h2
    rw [high_iff] at hc
    obtain ⟨r, e, hh, b1, b2⟩ := down hp hp' hhp hq hc h2
    rw [sub_step hp hp' hhp, e] at hb
    obtain ⟨s, hs, hP⟩ := ih r hb hh b1 (by linarith)
    exact ⟨s, hs, hstep q r s hq hc h2 e hh b1 b2 hP⟩

/-- The first loop from `-q` gives the negation of the second from `q`, but for `q = π`. -/
private theorem up_induct {p : Rat} (hp : 3 ≤ p) (hp' : p ≤ 7 / 2) (hhp : float64.Has p) {P : Rat → Rat → Prop}
    (hstop : ∀ q, -p ≤ q → q < p → P q q)
    (hstep : ∀ q r s, float64.Has q → p ≤ q → q ≤ 2 ^ 56 → nearest float64 (q - 2 * p) = .fin r → float64.Has r → -p ≤ r → r < q → P r s → P q s)
    {a b : Fl} (h : Up p a b) : ∀ q, a = .fin (-q) → float64.Has q → -p ≤ q → q ≤ 2 ^ 56 → ∃ s, b = .fin (-s) ∧ s < p ∧ -p ≤ s ∧ float64.Has s ∧ P q s := by
  induction h with
  | stop hc =>
    rintro q rfl hq h1 h2
    rw [low_iff] at hc
    have : q < p := by linarith [not_le.1 hc]
    exact ⟨q, rfl, this, h1, hq, hstop q h1 this⟩
  | step hc hb hw ih =>
    rintro q rfl hq h1 h2
    rw [low_iff] at hc
    obtain ⟨r, e, hh, b1, b2⟩ := up hp hp' hhp (has_neg hq) hc (by linarith)
    have e' : nearest float64 (q - 2 * p) = .fin (-r) := by
      rw [show q - 2 * p = -(-q + 2 * p) by ring, nearest_neg, e]; rfl
    rw [add_step hp hp' hhp, neg_neg, e'] at hb
    obtain ⟨s, hs, k1, k2, k3, hP⟩ := ih (-r) (by rw [hb, neg_neg]; simp [Fl.neg]) (has_neg hh) (by linarith) (by linarith)
    exact ⟨s, hs, k1, k2, k3, hstep q (-r) s hq (by linarith) h2 e' (has_neg hh) (by linarith) (by linarith) hP⟩

/-- What the two loops have in common. -/
private theorem normalize_induct {p : Rat} (hp : 3 ≤ p) (hp' : p ≤ 7 / 2) (hhp : float64.Has p) {P : Rat → Rat → Prop}
    (hstop : ∀ q, -p ≤ q → q ≤ p → P q q)
    (hstep : ∀ q r s, float64.Has q → p ≤ q → q ≤ 2 ^ 56 → nearest float64 (q - 2 * p) = .fin r → float64.Has r → -p ≤ r → r < q → P r s → P q s)
    {q : Rat} {b : Fl} (hq : float64.Has q) (h : NormalizeAngle (nearest float64) (.fin p) (.fin q) b) :
    ∃ s, b = .fin s ∧ ((0 ≤ q ∧ P q s) ∨ (q ≤ 0 ∧ P (-q) (-s))) := by
  have hle := ((C102_returns_iff hp hp' hhp hq).1).1 ⟨b, h⟩
  rw [abs_le] at hle
  obtain ⟨a, ha, hb⟩ := h
  rcases le_or_gt q (-p) with hc | hc
  · obtain ⟨s, rfl, k1, k2, k3, hP⟩ := up_induct hp hp' hhp (P := P) (fun q h1 h2 => hstop q h1 (le_of_lt h2)) hstep ha (-q) (by rw [neg_neg])
      (has_neg hq) (by linarith) (by linarith)
    have e := while_det (fun a => rnd (nearest float64) (a.sub (turn (nearest float64) (.fin p)))) (fun _ _ => Iff.rfl) hb
      (.stop (by rw [high_iff]; linarith))
    exact ⟨-s, e, .inr ⟨by linarith, by rw [neg_neg]; exact hP⟩⟩
  · have e := while_det (fun a => rnd (nearest float64) (a.add (turn (nearest float64) (.fin p)))) (fun _ _ => Iff.rfl) ha
      (.stop (by rw [low_iff]; linarith))
    subst e
    rcases le_or_gt q 0 with h0 | h0
    · have e := while_det (fun a => rnd (nearest float64) (a.sub (turn (nearest float64) (.fin p)))) (fun _ _ => Iff.rfl) hb
        (.stop (by rw [high_iff]; linarith))
      exact ⟨q, e, .inr ⟨h0, hstop _ (by linarith) (by linarith)⟩⟩
    · obtain ⟨s, rfl, hP⟩ := down_induct hp hp' hhp (P := P) (fun q h1 h2 => hstop q (le_of_lt h1) h2)
        (fun q r s k1 k2 k3 k4 k5 k6 k7 k8 => hstep q r s k1 (le_of_lt k2) k3 k4 k5 (le_of_lt k6) k7 k8) hb q rfl hq (by linarith) hle.2
      exact ⟨s, rfl, .inl ⟨le_of_lt h0, hP⟩⟩

/-- In double precision the result differs from the angle plus a multiple of 2 π by at most the number of the multiple times the rounding error of the
angle. Up to 2^53 this number is that of the exact calculation or near to it: at most a fifth of the angle, plus one. -/
theorem C102_error {p q : Rat} (hp : 3 ≤ p) (hp' : p ≤ 7 / 2) (hhp : float64.Has p) (hq : float64.Has q) {r : Rat}
    (h : NormalizeAngle (nearest float64) (.fin p) (.fin q) (.fin r)) :
    ∃ z : Int, |r - (q + z * (2 * p))| ≤ |(z : Rat)| * (|q| / 2 ^ 53) ∧ (|q| ≤ 2 ^ 53 → 5 * |(z : Rat)| ≤ |q| + 5) := by
  obtain ⟨s, hs, hP⟩ := normalize_induct hp hp' hhp
    (P := fun q s => ∀ M, |q| ≤ M → ∃ k : Nat, |s - (q - k * (2 * p))| ≤ k * (M / 2 ^ 53) ∧ (M ≤ 2 ^ 53 → 5 * (k : Rat) ≤ q + 5))
    (fun q h1 h2 M hM => ⟨0, by simp, fun _ => by push_cast; linarith⟩)
    (fun q r s hq h1 h2 e hh b1 b2 hP M hM => by
      rw [abs_of_nonneg (by linarith)] at hM
      have hr : |r| ≤ M := by rw [abs_le]; constructor <;> linarith
      obtain ⟨k, hk1, hk2⟩ := hP M hr
      obtain ⟨n, hn⟩ := multiple_sub hp hhp hq (by rw [abs_of_nonneg (by linarith)]; linarith)
      have herr := round_error hn e
      have hx : |q - 2 * p| ≤ M := by rw [abs_le]; constructor <;> linarith
      have herr' : |r - (q - 2 * p)| ≤ M / 2 ^ 53 := le_trans herr (by gcongr)
      refine ⟨k + 1, ?_, fun hM' => ?_⟩
      · rw [abs_le] at hk1 herr' ⊢
        push_cast
        constructor <;> linarith [hk1.1, hk1.2, herr'.1, herr'.2]
      · have h3 := hk2 hM'
        have h4 : M / 2 ^ 53 ≤ 1 := by rw [div_le_one (by norm_num)]; exact hM'
        rw [abs_le] at herr'
        push_cast
        linarith [herr'.2])
    hq h
  rw [Fl.fin.injEq] at hs
  subst hs
  rcases hP with ⟨h0, hP⟩ | ⟨h0, hP⟩
  · obtain ⟨k, hk1, hk2⟩ := hP |q| le_rfl
    refine ⟨-k, ?_, fun h => ?_⟩
    · push_cast
      rw [abs_neg, Nat.abs_cast, show q + -(k : Rat) * (2 * p) = q - k * (2 * p) by ring]
      exact hk1
    · have := hk2 h
      rw [abs_of_nonneg h0]
      push_cast
      rw [abs_neg, Nat.abs_cast]
      exact this
  · obtain ⟨k, hk1, hk2⟩ := hP |q| (by rw [abs_neg])
    refine ⟨k, ?_, fun h => ?_⟩
    · push_cast
      rw [Nat.abs_cast, ← abs_neg, show -(r - (q + (k : Rat) * (2 * p))) = -r - (-q - k * (2 * p)) by ring]
      exact hk1
    · have := hk2 h
      rw [abs_of_nonpos h0]
      push_cast
      rw [Nat.abs_cast]
      exact this

/-- The distance of the double next to π. -/
theorem pi_error : |(piDouble : ℝ) - Real.pi| ≤ 1 / 2 ^ 52 := by
  have h1 := Real.pi_gt_d20
  have h2 := Real.pi_lt_d20
  rw [abs_le]
  unfold piDouble
  push_cast
  constructor <;> norm_num at h1 h2 ⊢ <;> linarith

/-- So with the double next to π the result is, up to the stated error, the angle plus a multiple of the real number 2 π. -/
theorem C102_pi {q r : Rat} (hq : float64.Has q) (h : NormalizeAngle (nearest float64) (.fin piDouble) (.fin q) (.fin r)) :
    ∃ z : Int, |(r : ℝ) - (q + z * (2 * Real.pi))| ≤ |(z : ℝ)| * (|(q : ℝ)| / 2 ^ 53 + 1 / 2 ^ 51) ∧
      (|(q : ℝ)| ≤ 2 ^ 53 → 5 * |(z : ℝ)| ≤ |(q : ℝ)| + 5) := by
  obtain ⟨z, h1, h2⟩ := C102_error (by norm_num [piDouble]) (by norm_num [piDouble]) has_pi hq h
  refine ⟨z, ?_, fun hM => ?_⟩
  · have h3 : |(r : ℝ) - (q + z * (2 * piDouble))| ≤ |(z : ℝ)| * (|(q : ℝ)| / 2 ^ 53) := by exact_mod_cast h1
    have h4 : |(z : ℝ) * (2 * piDouble) - z * (2 * Real.pi)| ≤ |(z : ℝ)| * (1 / 2 ^ 51) := by
      rw [← mul_sub, abs_mul, ← mul_sub, abs_mul]
      have := pi_error
      refine mul_le_mul_of_nonneg_left ?_ (abs_nonneg _)
      rw [abs_of_pos (by norm_num : (0 : ℝ) < 2)]
      calc 2 * |(piDouble : ℝ) - Real.pi| ≤ 2 * (1 / 2 ^ 52) := by linarith
        _ = 1 / 2 ^ 51 := by norm_num
    have e : (r : ℝ) - (q + z * (2 * Real.pi)) = (r - (q + z * (2 * piDouble))) + (z * (2 * piDouble) - z * (2 * Real.pi)) := by ring
    rw [e, mul_add]
    exact le_trans (abs_add_le _ _) (add_le_add h3 h4)
  · have h3 : |q| ≤ 2 ^ 53 := by exact_mod_cast hM
    exact_mod_cast h2 h3

/-- One exact subtraction. -/
theorem exact_step {p q : Rat} (hp : 3 ≤ p) (hp' : p ≤ 7 / 2) (hm : ∃ m : Int, 2 * p = m * (2 : Rat) ^ (-47 : Int)) (hq : float64.Has q) (h1 : p ≤ q)
    (h2 : q ≤ 64 + 2 * p) : float64.Has (q - 2 * p) := by
  obtain ⟨m, hm⟩ := hm
  rcases lt_or_ge q 64 with hc | hc
  · have hq0 : 0 < q := by linarith
    have l1 := Int.zpow_log_le_self (b := 2) (by norm_num) hq0
    have l2 := Int.lt_zpow_succ_log_self (b := 2) (by norm_num) q
    have l3 : Int.log 2 q < 6 := by
      by_contra hcc
      have := zpow_le_zpow_right₀ (a := (2 : Rat)) (by norm_num) (not_lt.1 hcc)
      norm_num at this l1
      linarith
    have l4 : 0 ≤ Int.log 2 q := by
      by_contra hcc
      have h0 : (2 : Rat) ^ (Int.log 2 q + 1) ≤ 2 ^ (0 : Int) := zpow_le_zpow_right₀ (by norm_num) (by omega)
      rw [zpow_zero] at h0
      push_cast at l2
      linarith
    generalize Int.log 2 q = l at l1 l2 l3 l4
    push_cast at l1 l2
    obtain ⟨n, hn⟩ := multiple hq (e := l - 52) (by rw [abs_of_pos hq0]; simpa using l1)
    have e1 : (2 : Rat) ^ (-47 : Int) = 2 ^ (5 - l).toNat * 2 ^ (l - 52) := by
      rw [← zpow_natCast, ← zpow_add₀ (by norm_num), show ((5 - l).toNat : Int) + (l - 52) = -47 by omega]
    refine has_multiple (n := n - m * 2 ^ (5 - l).toNat) (e := l - 52) ?_ ?_ (by omega) (by omega)
    · rw [hm, hn, e1]; push_cast; ring
    · rw [show 53 + (l - 52) = l + 1 by ring]
      refine lt_of_le_of_lt ?_ l2
      rw [abs_le]; constructor <;> linarith
  · obtain ⟨n, hn⟩ := multiple hq (e := -46) (by rw [abs_of_nonneg (by linarith)]; norm_num; linarith)
    rcases lt_or_eq_of_le (show q - 2 * p ≤ 64 by linarith) with h | h
    · refine has_multiple (n := 2 * n - m) (e := -47) ?_ ?_ (by norm_num) (by norm_num)
      · rw [hm, hn, show (-46 : Int) = -47 + 1 by norm_num, zpow_add_one₀ (by norm_num)]; push_cast; ring
      · rw [abs_of_nonneg (by linarith)]; norm_num; linarith
    · rw [h]; exact ⟨64, 0, by norm_num [Stempy.SafeCast.float64], by decide, by decide, by norm_num⟩

/-- Up to 64 + 2 π nothing is rounded if 2 π is a multiple of 2^-47, as for the double next to π: the result is the only one in the interval that differs
from the angle by a multiple of (the rounded) 2 π. -/
theorem C102_small {p q : Rat} (hp : 3 ≤ p) (hp' : p ≤ 7 / 2) (hhp : float64.Has p) (hm : ∃ m : Int, 2 * p = m * (2 : Rat) ^ (-47 : Int))
    (hq : float64.Has q) (hle : |q| ≤ 64 + 2 * p) {r : Rat} (h : NormalizeAngle (nearest float64) (.fin p) (.fin q) (.fin r)) :
    ∃ z : Int, r = q + z * (2 * p) := by
  obtain ⟨s, hs, hP⟩ := normalize_induct hp hp' hhp (P := fun q s => q ≤ 64 + 2 * p → ∃ k : Nat, s = q - k * (2 * p))
    (fun q h1 h2 _ => ⟨0, by simp⟩)
    (fun q r s hq h1 h2 e hh b1 b2 hP hle => by
      have := nearest_fix wide64 (exact_step hp hp' hm hq h1 hle)
      rw [this, Fl.fin.injEq] at e
      obtain ⟨k, hk⟩ := hP (by linarith)
      exact ⟨k + 1, by rw [hk, ← e]; push_cast; ring⟩)
    hq h
  rw [Fl.fin.injEq] at hs
  subst hs
  rw [abs_le] at hle
  rcases hP with ⟨-, hP⟩ | ⟨-, hP⟩
  · obtain ⟨k, hk⟩ := hP hle.2
    exact ⟨-k, by rw [hk]; push_cast; ring⟩
  · obtain ⟨k, hk⟩ := hP (by linarith)
    exact ⟨k, by push_cast; linarith⟩

/-- Directly above that, from 64 + 2 π to 64 + 4 π, the result is always wrong, by 2^-47, if 2 π is an odd multiple of 2^-47, as for the double next
to π. -/
theorem C102_rounded_false {p q : Rat} (hp : 3 ≤ p) (hp' : p ≤ 7 / 2) (hhp : float64.Has p) {m : Int} (hm : 2 * p = m * (2 : Rat) ^ (-47 : Int))
    (hodd : m % 2 = 1) (hq : float64.Has q) (h1 : 64 + 2 * p < q) (h2 : q < 64 + 4 * p) {r : Rat}
    (h : NormalizeAngle (nearest float64) (.fin p) (.fin q) (.fin r)) :
    (∃ z : Int, |r - (q + z * (2 * p))| = (2 : Rat) ^ (-47 : Int)) ∧ ¬ ∃ z : Int, r = q + z * (2 * p) := by
  have hfirst : ∃ x, nearest float64 (q - 2 * p) = .fin x ∧ |x - (q - 2 * p)| = (2 : Rat) ^ (-47 : Int) ∧ x ≤ 64 + 2 * p ∧ float64.Has x ∧ p < x := by
    obtain ⟨x, e, hh, -, -⟩ := down hp hp' hhp hq (by linarith) (by norm_num; linarith)
    have hx64 : 64 ≤ x := le_nearest wide64 e (by exact ⟨64, 0, by norm_num [Stempy.SafeCast.float64], by decide, by decide, by norm_num⟩) (by linarith)
    obtain ⟨a, ha⟩ := multiple hq (e := -46) (by rw [abs_of_nonneg (by linarith)]; norm_num; linarith)
    obtain ⟨b, hb⟩ := multiple hh (e := -46) (by rw [abs_of_nonneg (by linarith)]; norm_num; linarith)
    have e46 : (2 : Rat) ^ (-46 : Int) = 2 * 2 ^ (-47 : Int) := by norm_num
    have hu : (0 : Rat) < 2 ^ (-47 : Int) := by positivity
    have h64 : (64 : Rat) = 2 ^ 53 * 2 ^ (-47 : Int) := by norm_num
    rw [e46] at ha hb
    have i1 : 2 ^ 53 + m < 2 * a := by
      rw [ha, hm, h64] at h1
      have : ((2 ^ 53 + m : Int) : Rat) * 2 ^ (-47 : Int) < ((2 * a : Int) : Rat) * 2 ^ (-47 : Int) := by push_cast; linarith
      exact_mod_cast lt_of_mul_lt_mul_right this (le_of_lt hu)
    have i2 : 2 * a < 2 ^ 53 + 2 * m := by
      have h2 : q < 64 + 2 * (2 * p) := by linarith
      rw [ha, hm, h64] at h2
      have : ((2 * a : Int) : Rat) * 2 ^ (-47 : Int) < ((2 ^ 53 + 2 * m : Int) : Rat) * 2 ^ (-47 : Int) := by push_cast; linarith
      exact_mod_cast lt_of_mul_lt_mul_right this (le_of_lt hu)
    have i3 : m < 2 ^ 50 := by
      have h3 : 2 * p < 8 := by linarith
      rw [hm, show (8 : Rat) = 2 ^ 50 * 2 ^ (-47 : Int) by norm_num] at h3
      have := lt_of_mul_lt_mul_right h3 (le_of_lt hu)
      exact_mod_cast this
    have hsx : float64.Has (((2 * a - m + 1 : Int) : Rat) * 2 ^ (-47 : Int)) := by
      refine ⟨(2 * a - m + 1) / 2, -46, ?_, by decide, by decide, ?_⟩
      · show |(2 * a - m + 1) / 2| < 2 ^ 53
        rw [abs_lt]; constructor <;> omega
      · rw [e46]
        have : 2 * a - m + 1 = 2 * ((2 * a - m + 1) / 2) := by omega
        conv_lhs => rw [this]
        push_cast; ring
    have hd := nearest_nearest wide64 e hsx
    have d1 : ((2 * a - m + 1 : Int) : Rat) * 2 ^ (-47 : Int) - (q - 2 * p) = 1 * 2 ^ (-47 : Int) := by rw [ha, hm]; push_cast; ring
    have d2 : x - (q - 2 * p) = ((2 * b - (2 * a - m) : Int) : Rat) * 2 ^ (-47 : Int) := by rw [hb, ha, hm]; push_cast; ring
    rw [d1, d2, abs_mul, abs_mul, abs_of_pos hu, abs_one] at hd
    have d3 := le_of_mul_le_mul_right hd hu
    have d4 : |2 * b - (2 * a - m)| ≤ 1 := by exact_mod_cast d3
    have d5 : |2 * b - (2 * a - m)| = 1 := by
      rcases abs_le.1 d4 with ⟨g1, g2⟩
      rw [abs_eq (by norm_num)]
      omega
    refine ⟨x, e, ?_, ?_, hh, by linarith⟩
    · rw [d2, abs_mul, abs_of_pos hu, ← Int.cast_abs, d5, Int.cast_one, one_mul]
    · have i4 : 2 * b ≤ 2 ^ 53 + m := by
        rcases abs_le.1 d4 with ⟨g1, g2⟩
        omega
      have i5 : ((2 * b : Int) : Rat) * 2 ^ (-47 : Int) ≤ ((2 ^ 53 + m : Int) : Rat) * 2 ^ (-47 : Int) :=
        mul_le_mul_of_nonneg_right (by exact_mod_cast i4) (le_of_lt hu)
      rw [hb, hm, h64]
      push_cast at i5
      linarith
  obtain ⟨x, e, herr, hx, hhx, hpx⟩ := hfirst
  have hz : ∃ z : Int, |r - (q + z * (2 * p))| = (2 : Rat) ^ (-47 : Int) := by
    obtain ⟨a, ha, hb⟩ := h
    have e1 := while_det (fun a => rnd (nearest float64) (a.add (turn (nearest float64) (.fin p)))) (fun _ _ => Iff.rfl) ha
      (.stop (by rw [low_iff]; linarith))
    subst e1
    have hrest : NormalizeAngle (nearest float64) (.fin p) (.fin x) (.fin r) := by
      refine ⟨_, .stop (by rw [low_iff]; linarith), ?_⟩
      cases hb with
      | stop hc => rw [high_iff] at hc; linarith
      | step _ hbody hw =>
        rw [sub_step hp hp' hhp, e] at hbody
        rw [← hbody]; exact hw
    obtain ⟨z, hz⟩ := C102_small hp hp' hhp ⟨m, hm⟩ hhx (by rw [abs_of_pos (by linarith)]; exact hx) hrest
    refine ⟨z - 1, ?_⟩
    rw [← herr, hz]
    congr 1
    push_cast; ring
  refine ⟨hz, ?_⟩
  rintro ⟨y, hy⟩
  obtain ⟨z, hz⟩ := hz
  rw [hy, show q + (y : Rat) * (2 * p) - (q + z * (2 * p)) = ((y - z : Int) : Rat) * (2 * p) by push_cast; ring, abs_mul, ← Int.cast_abs,
    abs_of_pos (by linarith : 0 < 2 * p)] at hz
  have hlt : (2 : Rat) ^ (-47 : Int) < 1 := by norm_num
  have hu : (0 : Rat) < 2 ^ (-47 : Int) := by positivity
  rcases lt_or_ge 0 |y - z| with h3 | h3
  · have h4 : (1 : Rat) ≤ (|y - z| : Int) := by exact_mod_cast h3
    nlinarith
  · have h4 : |y - z| = 0 := le_antisymm h3 (abs_nonneg _)
    rw [h4] at hz
    norm_num at hz

/-- The double next to π meets the hypotheses of both. -/
theorem two_pi : 2 * piDouble = (884279719003555 : Int) * (2 : Rat) ^ (-47 : Int) ∧ (884279719003555 : Int) % 2 = 1 :=
  ⟨by norm_num [piDouble], by decide⟩

/-- 71 is normalized, and the result is wrong. -/
example : ∃ r, NormalizeAngle (nearest float64) (.fin piDouble) (.fin 71) (.fin r) ∧ ¬ ∃ z : Int, r = 71 + z * (2 * piDouble) := by
  have h71 : float64.Has 71 := ⟨71, 0, by norm_num [Stempy.SafeCast.float64], by decide, by decide, by norm_num⟩
  obtain ⟨h1, h2⟩ := C102_returns_iff (by norm_num [piDouble]) (by norm_num [piDouble]) has_pi h71
  obtain ⟨r, hr⟩ := h1.2 (by norm_num)
  obtain ⟨s, rfl, -, -⟩ := h2 r hr
  exact ⟨s, hr, (C102_rounded_false (by norm_num [piDouble]) (by norm_num [piDouble]) has_pi two_pi.1 two_pi.2 h71 (by norm_num [piDouble])
    (by norm_num [piDouble]) hr).2⟩

/-- 10 is normalized to 10 - 2 π. -/
example : ∃ r, NormalizeAngle (nearest float64) (.fin piDouble) (.fin 10) (.fin r) ∧ ∃ z : Int, r = 10 + z * (2 * piDouble) := by
  have h10 : float64.Has 10 := ⟨10, 0, by norm_num [Stempy.SafeCast.float64], by decide, by decide, by norm_num⟩
  obtain ⟨h1, h2⟩ := C102_returns_iff (by norm_num [piDouble]) (by norm_num [piDouble]) has_pi h10
  obtain ⟨r, hr⟩ := h1.2 (by norm_num)
  obtain ⟨s, rfl, -, -⟩ := h2 r hr
  exact ⟨s, hr, C102_small (by norm_num [piDouble]) (by norm_num [piDouble]) has_pi ⟨_, two_pi.1⟩ h10 (by norm_num [piDouble]) hr⟩

end Stempy.Props.Angle
