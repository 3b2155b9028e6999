import Verif.Model.Angle
import Verif.Lemmas.IeeeRound
import Verif.Props.LeastSquares

/-! # C102: normalizeAngle of least-squares-cpp -/

namespace Stempy.Props.Angle
open Stempy.Angle
open Stempy.FloatPixels (Fl)
open Stempy.IeeeRound
open Stempy.SafeCast (float64)
open Stempy.Float32 (roundEven roundEven_int)
open Stempy.LeastSquares (While)
open Stempy.Props.LeastSquares (while_iff while_det while_exists)

theorem turn_exact (p : Rat) : turn Fl.fin (.fin p) = .fin (2 * p) := rfl

theorem up_iff (p : Rat) (a b : Fl) : While (fun a : Fl => (Fl.fin p).neg.ge a = true) (fun a b => b = rnd Fl.fin (a.add (turn Fl.fin (.fin p)))) a b ↔
    ∃ k, b = (fun a => rnd Fl.fin (a.add (turn Fl.fin (.fin p))))^[k] a ∧
      (∀ j < k, (Fl.fin p).neg.ge ((fun a => rnd Fl.fin (a.add (turn Fl.fin (.fin p))))^[j] a) = true) ∧
      ¬ (Fl.fin p).neg.ge ((fun a => rnd Fl.fin (a.add (turn Fl.fin (.fin p))))^[k] a) = true :=
  while_iff _ (fun _ _ => Iff.rfl) _ _

theorem up_iterate (p q : Rat) (k : Nat) : (fun a => rnd Fl.fin (a.add (turn Fl.fin (.fin p))))^[k] (.fin q) = .fin (q + k * (2 * p)) := by
  induction k with
  | zero => simp
  | succ k ih =>
    rw [Function.iterate_succ_apply', ih, turn_exact]
    simp only [Fl.add, rnd]
    push_cast
    congr 1
    ring

theorem down_iterate (p q : Rat) (k : Nat) : (fun a => rnd Fl.fin (a.sub (turn Fl.fin (.fin p))))^[k] (.fin q) = .fin (q - k * (2 * p)) := by
  induction k with
  | zero => simp
  | succ k ih =>
    rw [Function.iterate_succ_apply', ih, turn_exact]
    simp only [Fl.sub, Fl.neg, Fl.add, rnd]
    push_cast
    congr 1
    ring

theorem low_iff (p q : Rat) : (Fl.fin p).neg.ge (.fin q) = true ↔ q ≤ -p := by simp [Fl.neg, Fl.ge, Fl.gt]

theorem high_iff (p q : Rat) : (Fl.fin q).gt (.fin p) = true ↔ p < q := by simp [Fl.gt]

/-- With exact arithmetic the result is the angle in (-π, π] which differs from the given one by a multiple of 2 π, for each positive number `p` in the place of π. -/
theorem C102_exact (p q : Rat) (hp : 0 < p) :
    (∃ r, NormalizeAngle Fl.fin (.fin p) (.fin q) r) ∧
      ∀ r, NormalizeAngle Fl.fin (.fin p) (.fin q) r → ∃ s, r = .fin s ∧ -p < s ∧ s ≤ p ∧ ∃ z : Int, s = q + z * (2 * p) := by
  have hp2 : 0 < 2 * p := by linarith
  have hup : ∀ q : Rat, ∃ b, While (fun a : Fl => (Fl.fin p).neg.ge a = true) (fun a b => b = rnd Fl.fin (a.add (turn Fl.fin (.fin p)))) (.fin q) b := by
    intro q
    refine while_exists (fun a => rnd Fl.fin (a.add (turn Fl.fin (.fin p)))) (fun _ _ => Iff.rfl) _ ?_
    obtain ⟨k, hk⟩ := exists_nat_gt ((-p - q) / (2 * p))
    refine ⟨k, ?_⟩
    rw [up_iterate, low_iff]
    rw [div_lt_iff₀ hp2] at hk
    linarith
  have hdown : ∀ q : Rat, ∃ b, While (fun a : Fl => a.gt (.fin p) = true) (fun a b => b = rnd Fl.fin (a.sub (turn Fl.fin (.fin p)))) (.fin q) b := by
    intro q
    refine while_exists (fun a => rnd Fl.fin (a.sub (turn Fl.fin (.fin p)))) (fun _ _ => Iff.rfl) _ ?_
    obtain ⟨k, hk⟩ := exists_nat_gt ((q - p) / (2 * p))
    refine ⟨k, ?_⟩
    rw [down_iterate, high_iff]
    rw [div_lt_iff₀ hp2] at hk
    linarith
  constructor
  · obtain ⟨b, hb⟩ := hup q
    obtain ⟨k, rfl, -, -⟩ := (up_iff _ _ _).1 hb
    rw [up_iterate] at hb
    obtain ⟨r, hr⟩ := hdown (q + k * (2 * p))
    exact ⟨r, _, hb, hr⟩
  · rintro r ⟨b, hb, hr⟩
    obtain ⟨k, rfl, h1, h2⟩ := (up_iff _ _ _).1 hb
    obtain ⟨j, rfl, h3, h4⟩ := (while_iff (fun a => rnd Fl.fin (a.sub (turn Fl.fin (.fin p)))) (fun _ _ => Iff.rfl) _ _).1 hr
    rw [up_iterate] at h2 h3 h4 ⊢
    rw [low_iff] at h2
    rw [down_iterate, high_iff] at h4
    refine ⟨_, down_iterate _ _ _, ?_, not_lt.1 h4, (k : Int) - j, ?_⟩
    · rcases j with _ | j
      · simpa using not_le.1 h2
      · have h5 := h3 j (by omega)
        rw [down_iterate, high_iff] at h5
        push_cast
        linarith
    · push_cast
      ring

/-- The angle is the only one of its kind. -/
theorem C102_unique (p q s t : Rat) (hp : 0 < p) (h1 : -p < s) (h2 : s ≤ p) (h3 : -p < t) (h4 : t ≤ p) (hs : ∃ z : Int, s = q + z * (2 * p))
    (ht : ∃ z : Int, t = q + z * (2 * p)) : s = t := by
  obtain ⟨y, rfl⟩ := hs
  obtain ⟨z, rfl⟩ := ht
  have h5 : ((y - z : Int) : Rat) * (2 * p) < 1 * (2 * p) := by push_cast; linarith
  have h6 : (-1 : Rat) * (2 * p) < ((y - z : Int) : Rat) * (2 * p) := by push_cast; linarith
  have h7 := lt_of_mul_lt_mul_right h5 (by linarith)
  have h8 := lt_of_mul_lt_mul_right h6 (by linarith)
  have h9 : y - z < 1 := by exact_mod_cast h7
  have h10 : -1 < y - z := by exact_mod_cast h8
  have : y = z := by omega
  rw [this]

/-- An infinite angle is never normalized, with any rounding. -/
theorem C102_infinite_false (rd : Rat → Fl) (p t : Rat) (ht : rd (2 * p) = .fin t) (r : Fl) :
    ¬ NormalizeAngle rd (.fin p) .pinf r ∧ ¬ NormalizeAngle rd (.fin p) .ninf r := by
  have hturn : turn rd (.fin p) = .fin t := ht
  constructor
  · rintro ⟨b, hb, hr⟩
    obtain ⟨k, rfl, -, -⟩ := (while_iff (fun a => rnd rd (a.add (turn rd (.fin p)))) (fun _ _ => Iff.rfl) _ _).1 hb
    have h1 : ∀ k, (fun a => rnd rd (a.add (turn rd (.fin p))))^[k] Fl.pinf = .pinf := by
      intro k
      induction k with
      | zero => rfl
      | succ k ih => rw [Function.iterate_succ_apply', ih, hturn]; rfl
    rw [h1] at hr
    obtain ⟨j, rfl, -, h4⟩ := (while_iff (fun a => rnd rd (a.sub (turn rd (.fin p)))) (fun _ _ => Iff.rfl) _ _).1 hr
    have h2 : ∀ k, (fun a => rnd rd (a.sub (turn rd (.fin p))))^[k] Fl.pinf = .pinf := by
      intro k
      induction k with
      | zero => rfl
      | succ k ih => rw [Function.iterate_succ_apply', ih, hturn]; rfl
    rw [h2] at h4
    exact h4 rfl
  · rintro ⟨b, hb, -⟩
    obtain ⟨k, rfl, -, h4⟩ := (while_iff (fun a => rnd rd (a.add (turn rd (.fin p)))) (fun _ _ => Iff.rfl) _ _).1 hb
    have h1 : ∀ k, (fun a => rnd rd (a.add (turn rd (.fin p))))^[k] Fl.ninf = .ninf := by
      intro k
      induction k with
      | zero => rfl
      | succ k ih => rw [Function.iterate_succ_apply', ih, hturn]; rfl
    rw [h1] at h4
    exact h4 rfl

/-- A value which is not a number is returned at once. -/
theorem C102_nan (rd : Rat → Fl) (pi r : Fl) : NormalizeAngle rd pi .nan r ↔ r = .nan := by
  have h1 : ¬ (pi.neg.ge .nan = true) := by cases pi <;> simp [Fl.neg, Fl.ge]
  have h2 : ¬ (Fl.nan.gt pi = true) := by cases pi <;> simp [Fl.gt]
  constructor
  · rintro ⟨a, ha, hr⟩
    have e1 := while_det (fun a => rnd rd (a.add (turn rd pi))) (fun _ _ => Iff.rfl) ha (.stop h1)
    subst e1
    exact while_det (fun a => rnd rd (a.sub (turn rd pi))) (fun _ _ => Iff.rfl) hr (.stop h2)
  · rintro rfl
    exact ⟨_, .stop h1, .stop h2⟩

/-! ### Double precision -/

/-- Numbers of the format from 2^(52+e) are multiples of 2^e. -/
theorem multiple {s : Rat} (h : float64.Has s) {e : Int} (h1 : (2 : Rat) ^ (52 + e) ≤ |s|) : ∃ n : Int, s = n * (2 : Rat) ^ e := by
  obtain ⟨m, k, hm, -, -, rfl⟩ := h
  have hk : e ≤ k := by
    by_contra hc
    have a1 : (2 : Rat) ^ (k + 1) ≤ 2 ^ e := zpow_le_zpow_right₀ (by norm_num) (by omega)
    rw [abs_mul, abs_of_pos (zpow_pos (by norm_num : (0 : Rat) < 2) k), zpow_add₀ (by norm_num)] at h1
    rw [zpow_add_one₀ (by norm_num)] at a1
    have a2 : |(m : Rat)| < 2 ^ 53 := by exact_mod_cast hm
    have a3 : (0 : Rat) < 2 ^ k := zpow_pos (by norm_num) k
    have a4 : ((2 : Rat) ^ (52 : Int)) = 2 ^ 52 := by norm_num
    rw [a4] at h1
    nlinarith
  refine ⟨m * 2 ^ (k - e).toNat, ?_⟩
  push_cast
  rw [mul_assoc, ← zpow_natCast, ← zpow_add₀ (by norm_num)]
  congr 2
  omega

/-- A number of the format from 3 to 2^56 less 4 or 8 is a number of the format. -/
theorem less {q : Rat} (hq : float64.Has q) (h3 : 3 ≤ q) (h : q ≤ 2 ^ 56) : ∃ s, float64.Has s ∧ q - 8 ≤ s ∧ s ≤ q - 4 := by
  rcases le_or_gt (2 ^ 55) q with hc | hc
  · obtain ⟨n, rfl⟩ := multiple hq (e := 3) (by rw [abs_of_nonneg (by linarith)]; norm_num; linarith)
    refine ⟨(n : Rat) * 2 ^ (3 : Int) - 8, ⟨n - 1, 3, ?_, by decide, by decide, ?_⟩, by linarith, by linarith⟩
    · have h1 : (n : Rat) ≤ 2 ^ 53 := by norm_num at h ⊢; linarith
      have h2 : n ≤ 2 ^ 53 := by exact_mod_cast h1
      have h4 : (0 : Rat) < n := by norm_num at hc; linarith
      have h5 : 0 < n := by exact_mod_cast h4
      show |n - 1| < 2 ^ 53
      rw [abs_of_nonneg (by omega)]
      omega
    · push_cast
      ring
  · have hq0 : 0 < q := by linarith
    have l1 := Int.zpow_log_le_self (b := 2) (by norm_num) hq0
    have l2 := Int.lt_zpow_succ_log_self (b := 2) (by norm_num) q
    have l3 : Int.log 2 q < 55 := by
      by_contra hcc
      have := zpow_le_zpow_right₀ (a := (2 : Rat)) (by norm_num) (not_lt.1 hcc)
      norm_num at this l1 hc
      linarith
    have l4 : 0 ≤ Int.log 2 q := by
      by_contra hcc
      have h0 : (2 : Rat) ^ (Int.log 2 q + 1) ≤ 2 ^ (0 : Int) := zpow_le_zpow_right₀ (by norm_num) (by omega)
      rw [zpow_zero] at h0
      push_cast at l2
      linarith
    generalize Int.log 2 q = l at l1 l2 l3 l4
    push_cast at l1 l2
    obtain ⟨n, rfl⟩ := multiple hq (e := l - 52) (by rw [abs_of_pos hq0]; simpa using l1)
    have e1 : (4 : Rat) = 2 ^ (54 - l).toNat * 2 ^ (l - 52) := by
      rw [← zpow_natCast, ← zpow_add₀ (by norm_num), show ((54 - l).toNat : Int) + (l - 52) = 2 by omega]
      norm_num
    have e2 : (2 : Rat) ^ (l + 1) = 2 ^ 53 * 2 ^ (l - 52) := by
      rw [← zpow_natCast, ← zpow_add₀ (by norm_num)]
      congr 1
      push_cast
      ring
    refine ⟨(n : Rat) * 2 ^ (l - 52) - 4, ⟨n - 2 ^ (54 - l).toNat, l - 52, ?_, by show (-1074 : Int) ≤ _; omega, by show _ ≤ (971 : Int); omega, ?_⟩, by linarith, by linarith⟩
    · have p1 : (0 : Rat) < 2 ^ (l - 52) := zpow_pos (by norm_num) _
      rw [e2] at l2
      have p2 : (n : Rat) < 2 ^ 53 := lt_of_mul_lt_mul_right l2 (le_of_lt p1)
      have p3 : ((2 : Rat) ^ (54 - l).toNat) < 2 * n := by
        refine lt_of_mul_lt_mul_right (a := (2 : Rat) ^ (l - 52)) ?_ (le_of_lt p1)
        rw [← e1]
        linarith
      have p4 : n < 2 ^ 53 := by exact_mod_cast p2
      have p5 : (2 : Int) ^ (54 - l).toNat < 2 * n := by exact_mod_cast p3
      have p6 : (0 : Int) < 2 ^ (54 - l).toNat := by positivity
      show |n - 2 ^ (54 - l).toNat| < 2 ^ 53
      rw [abs_lt]
      constructor <;> omega
    · push_cast
      rw [sub_mul, ← e1]

theorem roundEven_neg (x : Rat) : roundEven (-x) = -roundEven x := by
  have hf : ⌊-x⌋ = -⌈x⌉ := Int.floor_neg
  by_cases hx : (⌊x⌋ : Rat) = x
  · rw [← hx, ← Int.cast_neg, roundEven_int, roundEven_int]
  · have hc : ⌈x⌉ = ⌊x⌋ + 1 := by
      rw [Int.ceil_eq_iff]
      push_cast
      constructor
      · have := lt_of_le_of_ne (Int.floor_le x) hx
        linarith
      · exact le_of_lt (Int.lt_floor_add_one x)
    unfold roundEven
    rw [hf, hc]
    push_cast
    generalize hn : ⌊x⌋ = n
    rcases lt_trichotomy (x - n) (1 / 2) with h | h | h
    · rw [if_neg (by linarith), if_pos (by linarith), if_pos h]
      ring
    · rw [h, show -x - (-((n : Rat) + 1)) = 1 / 2 by linarith]
      simp only [lt_irrefl, if_false]
      split <;> split <;> omega
    · rw [if_pos (by linarith), if_neg (by linarith), if_pos h]

theorem nearest_neg (f : Stempy.SafeCast.Format) (q : Rat) : nearest f (-q) = (nearest f q).neg := by
  have he : expo f (-q) = expo f q := by unfold expo; rw [abs_neg]; simp only [neg_eq_zero]
  unfold nearest
  rw [abs_neg, he, neg_div, roundEven_neg]
  split
  · rename_i h
    by_cases hq : 0 < q
    · rw [if_neg (by linarith), if_pos hq]; rfl
    · have : q ≠ 0 := by
        rintro rfl
        rw [abs_zero] at h
        have h1 : (0 : Rat) < 2 ^ f.emax := zpow_pos (by norm_num) _
        have h2 : (1 : Rat) ≤ 2 ^ f.p := one_le_pow₀ (by norm_num)
        nlinarith
      have := lt_of_le_of_ne (not_lt.1 hq) this
      rw [if_pos (by linarith), if_neg hq]; rfl
  · simp only [Fl.neg]
    push_cast
    congr 1
    ring

theorem has_neg {f : Stempy.SafeCast.Format} {q : Rat} (h : f.Has q) : f.Has (-q) := by
  obtain ⟨m, e, h1, h2, h3, rfl⟩ := h
  exact ⟨-m, e, by rw [abs_neg]; exact h1, h2, h3, by push_cast; ring⟩

/-- One subtraction of 2 π. -/
theorem down {p q : Rat} (hp : 3 ≤ p) (hp' : p ≤ 7 / 2) (hhp : float64.Has p) (hq : float64.Has q) (h1 : p < q) (h2 : q ≤ 2 ^ 56) :
    ∃ r, nearest float64 (q - 2 * p) = .fin r ∧ float64.Has r ∧ -p < r ∧ r < q := by
  have hr := nearest_rounds wide64
  have hn : float64.Has (-p + 1 / 2 ^ 51) := by
    obtain ⟨n, hn⟩ := multiple hhp (e := -51) (by rw [abs_of_nonneg (by linarith)]; norm_num; linarith)
    refine ⟨-n + 1, -51, ?_, by decide, by decide, ?_⟩
    · have a1 : (n : Rat) ≤ 2 ^ 53 - 2 := by rw [hn] at hp'; norm_num at hp' ⊢; linarith
      have a2 : (0 : Rat) < n := by
        rw [hn] at hp
        by_contra hcc
        have := not_lt.1 hcc
        norm_num at hp
        linarith
      have a3 : n ≤ 2 ^ 53 - 2 := by exact_mod_cast a1
      have a4 : 0 < n := by exact_mod_cast a2
      show |-n + 1| < 2 ^ 53
      rw [abs_lt]
      constructor <;> omega
    · rw [hn]
      push_cast
      norm_num
      ring
  have hgap : p + 1 / 2 ^ 51 ≤ q := by
    obtain ⟨n, hn⟩ := multiple hhp (e := -51) (by rw [abs_of_nonneg (by linarith)]; norm_num; linarith)
    obtain ⟨m, hm⟩ := multiple hq (e := -51) (by rw [abs_of_nonneg (by linarith)]; norm_num; linarith)
    rw [hn, hm] at h1 ⊢
    have a1 := lt_of_mul_lt_mul_right h1 (by positivity)
    have a2 : n + 1 ≤ m := by have : n < m := by exact_mod_cast a1
                              omega
    have a3 : (n : Rat) + 1 ≤ m := by exact_mod_cast a2
    norm_num
    linarith
  obtain ⟨r, e, hh, b1, b2⟩ := hr.between hn hq (q := q - 2 * p) (by linarith) (by linarith)
  refine ⟨r, e, hh, by norm_num at b1 ⊢; linarith, lt_of_le_of_ne b2 ?_⟩
  rintro rfl
  obtain ⟨s, hs, c1, c2⟩ := less hq (by linarith) h2
  have := nearest_nearest wide64 e hs
  rw [abs_of_pos (by linarith : 0 < r - (r - 2 * p))] at this
  rcases le_abs'.1 this with h | h <;> linarith

theorem turn_double {p : Rat} (hhp : float64.Has p) (hp' : |p| ≤ 7 / 2) : turn (nearest float64) (.fin p) = .fin (2 * p) := by
  show nearest float64 (2 * p) = _
  apply nearest_fix wide64
  obtain ⟨m, e, h1, h2, h3, rfl⟩ := hhp
  by_cases he : e = 971
  · subst he
    by_cases hm : m = 0
    · subst hm; exact ⟨0, 0, by norm_num [Stempy.SafeCast.float64], by decide, by decide, by simp⟩
    · exfalso
      have a1 : (1 : Rat) ≤ |(m : Rat)| := by
        rw [← Int.cast_abs]
        exact_mod_cast Int.one_le_abs hm
      rw [abs_mul, abs_of_pos (zpow_pos (by norm_num : (0 : Rat) < 2) _)] at hp'
      have a2 : (2 : Rat) ^ (2 : Int) ≤ 2 ^ (971 : Int) := zpow_le_zpow_right₀ (by norm_num) (by norm_num)
      generalize (2 : Rat) ^ (971 : Int) = t at a2 hp'
      norm_num at a2
      nlinarith
  · refine ⟨m, e + 1, h1, by omega, ?_, ?_⟩
    · have : e ≤ 971 := h3
      show e + 1 ≤ 971
      omega
    · rw [zpow_add_one₀ (by norm_num)]
      ring

/-- The second loop ends. -/
theorem down_ends {p : Rat} (hp : 3 ≤ p) (hp' : p ≤ 7 / 2) (hhp : float64.Has p) (q : Rat) (hq : float64.Has q) (h1 : -p < q) (h2 : q ≤ 2 ^ 56) :
    ∃ r, While (fun a : Fl => a.gt (.fin p) = true) (fun a b => b = rnd (nearest float64) (a.sub (turn (nearest float64) (.fin p)))) (.fin q) (.fin r) ∧
      -p < r ∧ r ≤ p := by
  obtain ⟨n, hn⟩ : ∃ n : Nat, q * 2 ^ 51 ≤ n := exists_nat_ge _
  induction n using Nat.strong_induction_on generalizing q with
  | _ n ih =>
    rcases lt_or_ge p q with hc | hc
    · obtain ⟨r, e, hh, b1, b2⟩ := down hp hp' hhp hq hc h2
      have hstep : Fl.fin r = rnd (nearest float64) ((Fl.fin q).sub (turn (nearest float64) (.fin p))) := by
        rw [turn_double hhp (by rw [abs_of_nonneg (by linarith)]; exact hp')]
        simp only [Fl.sub, Fl.neg, Fl.add, rnd]
        rw [← sub_eq_add_neg, e]
      have hend : ∃ s, While (fun a : Fl => a.gt (.fin p) = true) (fun a b => b = rnd (nearest float64) (a.sub (turn (nearest float64) (.fin p)))) (.fin r) (.fin s) ∧
          -p < s ∧ s ≤ p := by
        rcases lt_or_ge p r with hd | hd
        · obtain ⟨k, hk⟩ := multiple hh (e := -51) (by rw [abs_of_nonneg (by linarith)]; norm_num; linarith)
          obtain ⟨m, hm⟩ := multiple hq (e := -51) (by rw [abs_of_nonneg (by linarith)]; norm_num; linarith)
          have a0 : (0 : Rat) < k := by
            by_contra hcc
            have : (k : Rat) * 2 ^ (-51 : Int) ≤ 0 := mul_nonpos_of_nonpos_of_nonneg (not_lt.1 hcc) (by positivity)
            linarith
          have a0' : 0 < k := by exact_mod_cast a0
          have a1 : (k : Rat) < m := by
            rw [hk, hm] at b2
            exact lt_of_mul_lt_mul_right b2 (by positivity)
          have a1' : k < m := by exact_mod_cast a1
          have a2 : (m : Rat) ≤ n := by
            rw [hm] at hn
            norm_num at hn
            linarith
          have a2' : m ≤ n := by exact_mod_cast a2
          refine ih k.toNat (by omega) r hh b1 (by linarith) ?_
          have : ((k.toNat : Int) : Rat) = k := by rw [Int.toNat_of_nonneg (by omega)]
          rw [← Int.cast_natCast, this, hk]
          norm_num
          linarith
        · exact ⟨r, .stop (by rw [high_iff]; exact not_lt.2 hd), b1, hd⟩
      obtain ⟨s, hs, c1, c2⟩ := hend
      exact ⟨s, .step ((high_iff _ _).2 hc) hstep hs, c1, c2⟩
    · exact ⟨q, .stop (by rw [high_iff]; exact not_lt.2 hc), h1, hc⟩

/-- One addition of 2 π. -/
theorem up {p q : Rat} (hp : 3 ≤ p) (hp' : p ≤ 7 / 2) (hhp : float64.Has p) (hq : float64.Has q) (h1 : q ≤ -p) (h2 : -2 ^ 56 ≤ q) :
    ∃ r, nearest float64 (q + 2 * p) = .fin r ∧ float64.Has r ∧ q < r ∧ r ≤ p := by
  rcases lt_or_eq_of_le h1 with h | rfl
  · obtain ⟨r, e, hh, b1, b2⟩ := down hp hp' hhp (has_neg hq) (by linarith) (by linarith)
    refine ⟨-r, ?_, has_neg hh, by linarith, by linarith⟩
    rw [show q + 2 * p = -(-q - 2 * p) by ring, nearest_neg, e]
    rfl
  · exact ⟨p, by rw [show -p + 2 * p = p by ring]; exact nearest_fix wide64 hhp, hhp, by linarith, le_refl _⟩

/-- The first loop ends. -/
theorem up_ends {p : Rat} (hp : 3 ≤ p) (hp' : p ≤ 7 / 2) (hhp : float64.Has p) (q : Rat) (hq : float64.Has q) (h1 : -2 ^ 56 ≤ q) (h2 : q ≤ 2 ^ 56) :
    ∃ r, While (fun a : Fl => (Fl.fin p).neg.ge a = true) (fun a b => b = rnd (nearest float64) (a.add (turn (nearest float64) (.fin p)))) (.fin q) (.fin r) ∧
      float64.Has r ∧ -p < r ∧ r ≤ 2 ^ 56 := by
  obtain ⟨n, hn⟩ : ∃ n : Nat, -q * 2 ^ 51 ≤ n := exists_nat_ge _
  induction n using Nat.strong_induction_on generalizing q with
  | _ n ih =>
    rcases le_or_gt q (-p) with hc | hc
    · obtain ⟨r, e, hh, b1, b2⟩ := up hp hp' hhp hq hc h1
      have hstep : Fl.fin r = rnd (nearest float64) ((Fl.fin q).add (turn (nearest float64) (.fin p))) := by
        rw [turn_double hhp (by rw [abs_of_nonneg (by linarith)]; exact hp')]
        simp only [Fl.add, rnd]
        rw [e]
      have hend : ∃ s, While (fun a : Fl => (Fl.fin p).neg.ge a = true) (fun a b => b = rnd (nearest float64) (a.add (turn (nearest float64) (.fin p)))) (.fin r) (.fin s) ∧
          float64.Has s ∧ -p < s ∧ s ≤ 2 ^ 56 := by
        rcases le_or_gt r (-p) with hd | hd
        · obtain ⟨k, hk⟩ := multiple hh (e := -51) (by rw [abs_of_nonpos (by linarith)]; norm_num; linarith)
          obtain ⟨m, hm⟩ := multiple hq (e := -51) (by rw [abs_of_nonpos (by linarith)]; norm_num; linarith)
          have a0 : (k : Rat) < 0 := by
            by_contra hcc
            have : 0 ≤ (k : Rat) * 2 ^ (-51 : Int) := mul_nonneg (not_lt.1 hcc) (by positivity)
            linarith
          have a0' : k < 0 := by exact_mod_cast a0
          have a1 : (m : Rat) < k := by
            rw [hk, hm] at b1
            exact lt_of_mul_lt_mul_right b1 (by positivity)
          have a1' : m < k := by exact_mod_cast a1
          have a2 : -(m : Rat) ≤ n := by
            rw [hm] at hn
            norm_num at hn
            linarith
          have a2' : -m ≤ n := by exact_mod_cast a2
          refine ih (-k).toNat (by omega) r hh (by linarith) (by linarith) ?_
          have : (((-k).toNat : Int) : Rat) = -k := by rw [Int.toNat_of_nonneg (by omega)]; push_cast; rfl
          rw [← Int.cast_natCast, this, hk]
          norm_num
          linarith
        · exact ⟨r, .stop (by rw [low_iff]; exact not_le.2 hd), hh, hd, by norm_num; linarith⟩
      obtain ⟨s, hs, c1, c2⟩ := hend
      exact ⟨s, .step ((low_iff _ _).2 hc) hstep hs, c1, c2⟩
    · exact ⟨q, .stop (by rw [low_iff]; exact not_le.2 hc), hq, hc, h2⟩

/-- From here the subtraction of 2 π changes nothing. -/
theorem stuck {p q : Rat} (hp : 3 ≤ p) (hp' : p ≤ 7 / 2) (hq : float64.Has q) (h : 2 ^ 56 < q) : nearest float64 (q - 2 * p) = .fin q := by
  obtain ⟨m, hm⟩ := multiple hq (e := 4) (by rw [abs_of_nonneg (by linarith)]; norm_num; linarith)
  have hbig : 2 ^ 56 + 16 ≤ q := by
    rw [hm] at h ⊢
    have h1 : (2 ^ 52 : Rat) < m := by norm_num at h ⊢; linarith
    have h2 : (2 : Int) ^ 52 < m := by exact_mod_cast h1
    have h3 : (2 : Int) ^ 52 + 1 ≤ m := h2
    have h4 : (2 : Rat) ^ 52 + 1 ≤ m := by exact_mod_cast h3
    norm_num at h4 ⊢
    linarith
  obtain ⟨r, e, hh, b1, b2⟩ := (nearest_rounds wide64).between (has_two_pow wide64 (k := 56) (by decide) (by decide)) hq (q := q - 2 * p) (by linarith) (by linarith)
  have h1 := nearest_nearest wide64 e hq
  obtain ⟨k, hk⟩ := multiple hh (e := 4) (by rw [abs_of_nonneg (by linarith)]; norm_num at b1 ⊢; linarith)
  rw [abs_of_pos (by linarith : 0 < q - (q - 2 * p)), abs_le] at h1
  rw [e, hk, hm]
  have h2 : (k : Rat) ≤ m := by
    rw [hk, hm] at b2
    exact le_of_mul_le_mul_right b2 (by norm_num)
  have h3 : (m : Rat) < k + 1 := by
    have := h1.1
    rw [hk, hm] at this
    norm_num at this
    linarith
  have h4 : k ≤ m := by exact_mod_cast h2
  have h5 : m < k + 1 := by exact_mod_cast h3
  rw [show k = m by omega]

/-- In double precision with rounding to nearest, and with each number of the format from 3 to 3.5 for π: an angle is normalized if and only if it is at
most 2^56, and the result is in (-π, π]. A greater one is not changed by the subtraction of 2 π, so the call does not return. -/
theorem C102_returns_iff {p q : Rat} (hp : 3 ≤ p) (hp' : p ≤ 7 / 2) (hhp : float64.Has p) (hq : float64.Has q) :
    ((∃ r, NormalizeAngle (nearest float64) (.fin p) (.fin q) r) ↔ |q| ≤ 2 ^ 56) ∧
      ∀ r, NormalizeAngle (nearest float64) (.fin p) (.fin q) r → ∃ s, r = .fin s ∧ -p < s ∧ s ≤ p := by
  have hturn := turn_double hhp (by rw [abs_of_nonneg (by linarith)]; exact hp')
  have hno : ∀ r, NormalizeAngle (nearest float64) (.fin p) (.fin q) r → |q| ≤ 2 ^ 56 := by
    rintro r ⟨a, ha, hr⟩
    by_contra hc
    rcases lt_abs.1 (not_le.1 hc) with h | h
    · have e1 := while_det (fun a => rnd (nearest float64) (a.add (turn (nearest float64) (.fin p)))) (fun _ _ => Iff.rfl) ha
        (.stop (by rw [low_iff]; linarith))
      subst e1
      obtain ⟨j, -, -, h4⟩ := (while_iff (fun a => rnd (nearest float64) (a.sub (turn (nearest float64) (.fin p)))) (fun _ _ => Iff.rfl) _ _).1 hr
      have h2 : ∀ k, (fun a => rnd (nearest float64) (a.sub (turn (nearest float64) (.fin p))))^[k] (Fl.fin q) = .fin q := by
        intro k
        induction k with
        | zero => rfl
        | succ k ih =>
          rw [Function.iterate_succ_apply', ih, hturn]
          simp only [Fl.sub, Fl.neg, Fl.add, rnd]
          rw [← sub_eq_add_neg, stuck hp hp' hq h]
      rw [h2, high_iff] at h4
      norm_num at h
      linarith
    · obtain ⟨j, -, -, h4⟩ := (while_iff (fun a => rnd (nearest float64) (a.add (turn (nearest float64) (.fin p)))) (fun _ _ => Iff.rfl) _ _).1 ha
      have h2 : ∀ k, (fun a => rnd (nearest float64) (a.add (turn (nearest float64) (.fin p))))^[k] (Fl.fin q) = .fin q := by
        intro k
        induction k with
        | zero => rfl
        | succ k ih =>
          rw [Function.iterate_succ_apply', ih, hturn]
          simp only [Fl.add, rnd]
          rw [show q + 2 * p = -(-q - 2 * p) by ring, nearest_neg, stuck hp hp' (has_neg hq) h]
          simp [Fl.neg]
      rw [h2, low_iff] at h4
      norm_num at h
      linarith
  have hyes : |q| ≤ 2 ^ 56 → ∃ s, NormalizeAngle (nearest float64) (.fin p) (.fin q) (.fin s) ∧ -p < s ∧ s ≤ p := by
    intro h
    rw [abs_le] at h
    obtain ⟨a, ha, h1, h2, h3⟩ := up_ends hp hp' hhp q hq h.1 h.2
    obtain ⟨r, hr, h4, h5⟩ := down_ends hp hp' hhp a h1 h2 h3
    exact ⟨r, ⟨_, ha, hr⟩, h4, h5⟩
  refine ⟨⟨fun ⟨r, hr⟩ => hno r hr, fun h => ?_⟩, fun r hr => ?_⟩
  · obtain ⟨s, hs, -, -⟩ := hyes h
    exact ⟨_, hs⟩
  · obtain ⟨s, ⟨a, ha, hs⟩, h1, h2⟩ := hyes (hno r hr)
    obtain ⟨b, hb, hr⟩ := hr
    have e1 := while_det (fun a => rnd (nearest float64) (a.add (turn (nearest float64) (.fin p)))) (fun _ _ => Iff.rfl) ha hb
    subst e1
    have e2 := while_det (fun a => rnd (nearest float64) (a.sub (turn (nearest float64) (.fin p)))) (fun _ _ => Iff.rfl) hr hs
    exact ⟨s, e2, h1, h2⟩

/-- The number of the format next to π. -/
def piDouble : Rat := 884279719003555 / 2 ^ 48

theorem has_pi : float64.Has piDouble := ⟨884279719003555, -48, by norm_num [Stempy.SafeCast.float64], by decide, by decide, by norm_num [piDouble]⟩

/-- The claim that each finite angle is normalized is false: 2^57 is not. -/
theorem C102_large_false : ¬ ∀ q, float64.Has q → ∃ r, NormalizeAngle (nearest float64) (.fin piDouble) (.fin q) r := by
  intro h
  have hh : float64.Has ((2 : Rat) ^ 57) := has_two_pow wide64 (k := 57) (by decide) (by decide)
  have := ((C102_returns_iff (by norm_num [piDouble]) (by norm_num [piDouble]) has_pi hh).1).1 (h _ hh)
  norm_num at this

/-- With exact arithmetic `equals` is the distance; in each rounding it holds for equal numbers and tolerances from zero. -/
theorem C102_equals (a b eps : Rat) : equals Fl.fin (.fin a) (.fin b) (.fin eps) = true ↔ |a - b| ≤ eps := by
  simp [equals, Fl.sub, Fl.neg, Fl.add, rnd, Fl.ge, Fl.gt, sub_eq_add_neg]

theorem C102_equals_self (rd : Rat → Fl) (h0 : rd 0 = .fin 0) (a eps : Rat) : equals rd (.fin a) (.fin a) (.fin eps) = true ↔ 0 ≤ eps := by
  simp [equals, Fl.sub, Fl.neg, Fl.add, rnd, Fl.ge, Fl.gt, h0]

/-- In each rounding the rounded difference is compared with the tolerance; if it is infinite, the numbers are not equal within any number. -/
theorem C102_equals_rounded (rd : Rat → Fl) (a b eps : Rat) : equals rd (.fin a) (.fin b) (.fin eps) = true ↔ ∃ q, rd (a - b) = .fin q ∧ |q| ≤ eps := by
  simp only [equals, Fl.sub, Fl.neg, Fl.add, rnd, ← sub_eq_add_neg]
  cases h : rd (a - b) <;> simp [Fl.ge, Fl.gt]

theorem C102_equals_finite (rd : Rat → Fl) (b eps : Rat) : equals rd .pinf (.fin b) (.fin eps) = false ∧ equals rd .ninf (.fin b) (.fin eps) = false ∧
    equals rd (.fin b) .pinf (.fin eps) = false ∧ equals rd (.fin b) .ninf (.fin eps) = false := by
  simp [equals, Fl.sub, Fl.neg, Fl.add, rnd, Fl.ge, Fl.gt]

/-- Equal infinite values are never equal for it. -/
theorem C102_equals_inf_false (rd : Rat → Fl) (eps : Fl) : equals rd .pinf .pinf eps = false ∧ equals rd .ninf .ninf eps = false := by
  constructor <;> cases eps <;> rfl

theorem C102_iszero (a eps : Rat) : iszero Fl.fin (.fin a) (.fin eps) = true ↔ |a| ≤ eps := by
  rw [iszero, C102_equals, sub_zero]

/-- π itself is kept, -π becomes π. -/
example : NormalizeAngle (nearest float64) (.fin piDouble) (.fin piDouble) (.fin piDouble) :=
  ⟨_, .stop (by rw [low_iff]; norm_num [piDouble]), .stop (by rw [high_iff]; norm_num)⟩

example : NormalizeAngle (nearest float64) (.fin piDouble) (.fin (-piDouble)) (.fin piDouble) := by
  refine ⟨_, .step ((low_iff _ _).2 (le_refl _)) rfl (.stop ?_), ?_⟩
  all_goals
    rw [turn_double has_pi (by norm_num [piDouble])]
    simp only [Fl.add, rnd]
    rw [show -piDouble + 2 * piDouble = piDouble by ring, nearest_fix wide64 has_pi]
  · rw [low_iff]; norm_num [piDouble]
  · exact .stop (by rw [high_iff]; norm_num)

example : ∃ r, NormalizeAngle Fl.fin (.fin 3) (.fin 10) r := (C102_exact 3 10 (by norm_num)).1

end Stempy.Props.Angle
