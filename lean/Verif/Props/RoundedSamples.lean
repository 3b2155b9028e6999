import Verif.Props.RoundedImages
import Verif.Model.RoundedThresholds

/-!
C97: the statistics of the samples and their histogram in double precision, in any rounding mode.
-/

namespace Stempy.Props
open Stempy.FloatPixels (Fl)
open Stempy.SafeCast (float64)
open Stempy.Spec Stempy.Image Stempy.IeeeRound Stempy.RoundedThresholds
open Stempy.RoundedImages (rd_nat has_nat53)

variable {rp rd : Rat → Fl}

/-! ### The mean -/

/-- **C97**. The mean of the samples is the exact mean, rounded once; it is between the smallest and the largest sample. -/
theorem C97_mean (hd : Rounds float64 rd) {l : List Nat} (hl : ∀ v ∈ l, v < 2 ^ 16) (hne : l ≠ []) (hn : l.length < 2 ^ 31) :
    ∃ q : Rat, RoundedThresholds.calculateMean rd l = .fin q ∧ rd ((l.sum : Rat) / l.length) = .fin q ∧
      |q - (l.sum : Rat) / l.length| ≤ 1 / 2 ^ 37 ∧ ∀ a b : Nat, (∀ v ∈ l, a ≤ v ∧ v ≤ b) → (a : Rat) ≤ q ∧ q ≤ b := by
  obtain ⟨q, e, h1, h2⟩ := mean_bounds hd hl hne
  refine ⟨q, ?_, e, h1, h2⟩
  unfold RoundedThresholds.calculateMean
  have h3 := sum_le_mul (b := 2 ^ 16) fun v hv => (hl v hv).le
  have h4 := sum_exact hd l 0 (by omega)
  rw [Nat.cast_zero, Nat.zero_add] at h4
  rw [h4, rd_nat hd (by omega), div_exact (List.length_pos_iff.2 hne)]
  exact e

/-! ### The variance -/

theorem has_pow2 (e : Int) (h1 : -1074 ≤ e) (h2 : e ≤ 971) : float64.Has ((2 : Rat) ^ e) := ⟨1, e, by decide, h1, h2, by simp⟩

theorem has_neg {q : Rat} (h : float64.Has q) : float64.Has (-q) := by
  obtain ⟨m, e, a, b, c, d⟩ := h
  exact ⟨-m, e, by rwa [abs_neg], b, c, by rw [d]; push_cast; ring⟩

theorem fl_sub (a b : Rat) : (Fl.fin a).sub (.fin b) = .fin (a - b) := by
  show Fl.fin (a + -b) = _
  rw [← sub_eq_add_neg]

/-- The square of the deviation of a sample. -/
theorem term_bounds (hp : Rounds float64 rp) (hd : Rounds float64 rd) {v : Nat} (hv : v < 2 ^ 16) {q : Rat} (h0 : 0 ≤ q) (h1 : q ≤ 2 ^ 16) :
    ∃ t : Rat, squareOf rp (rnd rd ((Fl.fin (v : Rat)).sub (.fin q))) = .fin t ∧ 0 ≤ t ∧ t ≤ 2 ^ 32 ∧ ((v : Rat) = q → t = 0) ∧
      (1 / 2 ^ 32 ≤ |(v : Rat) - q| → 1 / 2 ^ 64 ≤ t) := by
  have b16 : float64.Has ((2 : Rat) ^ 16) := has_two_pow wide64 (by decide) (by decide)
  have b32 : float64.Has ((2 : Rat) ^ 32) := has_two_pow wide64 (by decide) (by decide)
  have s32 : float64.Has ((1 : Rat) / 2 ^ 32) := by
    have := has_pow2 (-32) (by decide) (by decide)
    have e : (2 : Rat) ^ (-32 : Int) = 1 / 2 ^ 32 := by norm_num
    rwa [e] at this
  have s64 : float64.Has ((1 : Rat) / 2 ^ 64) := by
    have := has_pow2 (-64) (by decide) (by decide)
    have e : (2 : Rat) ^ (-64 : Int) = 1 / 2 ^ 64 := by norm_num
    rwa [e] at this
  have zero : float64.Has 0 := by simpa using has_nat53 (n := 0) (by norm_num)
  have v0 : (0 : Rat) ≤ v := Nat.cast_nonneg v
  have v1 : (v : Rat) ≤ 2 ^ 16 := by exact_mod_cast hv.le
  rw [fl_sub]
  obtain ⟨d, e1, _, l1, r1⟩ := hd.between (q := (v : Rat) - q) (has_neg b16) b16 (by linarith) (by linarith)
  have e1' : rnd rd (.fin ((v : Rat) - q)) = .fin d := e1
  rw [e1']
  have dd : d * d ≤ 2 ^ 32 := by
    have : (2 : Rat) ^ 32 = 2 ^ 16 * 2 ^ 16 := by norm_num
    rw [this]
    nlinarith
  obtain ⟨t, e2, _, l2, r2⟩ := hp.between (q := d * d) zero b32 (mul_self_nonneg d) dd
  refine ⟨t, e2, l2, r2, ?_, ?_⟩
  · intro hvq
    rw [hvq, sub_self, hd.fix _ zero] at e1
    injection e1 with e1
    rw [← e1, mul_zero, hp.fix _ zero] at e2
    injection e2 with e2
    exact e2.symm
  · intro hfar
    have dl : 1 / 2 ^ 32 ≤ |d| := by
      rcases le_or_gt 0 ((v : Rat) - q) with c | c
      · rw [abs_of_nonneg c] at hfar
        obtain ⟨d', e', _, l', _⟩ := hd.between (q := (v : Rat) - q) s32 b16 hfar (by linarith)
        rw [e1] at e'
        injection e' with e'
        rw [← e'] at l'
        exact le_trans l' (le_abs_self d)
      · rw [abs_of_neg c] at hfar
        obtain ⟨d', e', _, _, r'⟩ := hd.between (q := (v : Rat) - q) (has_neg b16) (has_neg s32) (by linarith) (by linarith)
        rw [e1] at e'
        injection e' with e'
        rw [← e'] at r'
        exact le_trans (by linarith) (neg_le_abs d)
    have dd' : (1 : Rat) / 2 ^ 64 ≤ d * d := by
      have a1 : (0 : Rat) ≤ 1 / 2 ^ 32 := by positivity
      have a2 := mul_le_mul dl dl a1 (abs_nonneg d)
      rw [abs_mul_abs_self] at a2
      calc (1 : Rat) / 2 ^ 64 = 1 / 2 ^ 32 * (1 / 2 ^ 32) := by norm_num
        _ ≤ _ := a2
    obtain ⟨t', e', _, l', _⟩ := hp.between (q := d * d) s64 b32 dd' dd
    rw [e2] at e'
    injection e' with e'
    rwa [← e'] at l'

theorem has_terms {k : Nat} (hk : k ≤ 2 ^ 31) : float64.Has ((k : Rat) * 2 ^ 32) := by
  refine ⟨k, 32, ?_, by decide, by decide, by norm_num⟩
  rw [abs_of_nonneg (Int.natCast_nonneg k)]
  show (k : Int) < 2 ^ 53
  omega

/-- The sum of the squares. -/
theorem squares_bounds (hp : Rounds float64 rp) (hd : Rounds float64 rd) {q : Rat} (h0 : 0 ≤ q) (h1 : q ≤ 2 ^ 16) (l : List Nat)
    (hl : ∀ v ∈ l, v < 2 ^ 16) : ∀ (k : Nat) (s : Rat), float64.Has s → 0 ≤ s → s ≤ k * 2 ^ 32 → k + l.length ≤ 2 ^ 31 →
    ∃ S : Rat, l.foldl (fun a (v : Nat) => rnd rd (a.add (squareOf rp (rnd rd ((Fl.fin v).sub (.fin q)))))) (.fin s) = .fin S ∧
      s ≤ S ∧ S ≤ (k + l.length : Nat) * 2 ^ 32 ∧ ((∀ v ∈ l, (v : Rat) = q) → S = s) ∧
      ((∃ v ∈ l, 1 / 2 ^ 32 ≤ |(v : Rat) - q|) → 1 / 2 ^ 64 ≤ S) := by
  induction l with
  | nil =>
    intro k s _ _ h3 _
    exact ⟨s, rfl, le_rfl, h3, fun _ => rfl, fun ⟨v, hv, _⟩ => absurd hv (by simp)⟩
  | cons v l ih =>
    intro k s hs hs0 hsk hk
    rw [List.length_cons] at hk
    obtain ⟨t, e, t0, t1, tz, tf⟩ := term_bounds hp hd (hl v (by simp)) h0 h1
    have kk : s + t ≤ ((k + 1 : Nat) : Rat) * 2 ^ 32 := by
      rw [Nat.cast_add, Nat.cast_one, add_mul, one_mul]
      linarith
    obtain ⟨u, e2, hu, l2, r2⟩ := hd.between (q := s + t) hs (has_terms (k := k + 1) (by omega)) (by linarith) kk
    obtain ⟨S, e3, l3, r3, z3, f3⟩ := ih (fun w hw => hl w (by simp [hw])) (k + 1) u hu (by linarith) r2 (by omega)
    refine ⟨S, ?_, by linarith, ?_, ?_, ?_⟩
    · rw [List.foldl_cons, e]
      show List.foldl _ (rd (s + t)) l = _
      rw [e2]
      exact e3
    · rw [List.length_cons]
      have : k + 1 + l.length = k + (l.length + 1) := by omega
      rwa [this] at r3
    · intro hall
      have ht := tz (hall v (by simp))
      rw [ht, add_zero, hd.fix _ hs] at e2
      injection e2 with e2
      rw [z3 fun w hw => hall w (by simp [hw]), e2]
    · rintro ⟨w, hw, hfar⟩
      rcases List.mem_cons.1 hw with rfl | hw
      · have t2 := tf hfar
        have : 1 / 2 ^ 64 ≤ u := by
          have s64 : float64.Has ((1 : Rat) / 2 ^ 64) := by
            have := has_pow2 (-64) (by decide) (by decide)
            have e : (2 : Rat) ^ (-64 : Int) = 1 / 2 ^ 64 := by norm_num
            rwa [e] at this
          obtain ⟨u', e', _, l', _⟩ := hd.between (q := s + t) s64 (has_terms (k := k + 1) (by omega)) (by linarith) kk
          rw [e2] at e'
          injection e' with e'
          rwa [← e'] at l'
        linarith
      · exact f3 ⟨w, hw, hfar⟩

/-- A sample is the mean or away from it. -/
theorem mean_gap {l : List Nat} (hne : l ≠ []) (hn : l.length < 2 ^ 31) {q : Rat} (hq : |q - (l.sum : Rat) / l.length| ≤ 1 / 2 ^ 37) {v : Nat}
    (hv : (v : Rat) ≠ (l.sum : Rat) / l.length) : 1 / 2 ^ 32 ≤ |(v : Rat) - q| := by
  have hpos : 0 < l.length := List.length_pos_iff.2 hne
  have hnq : (0 : Rat) < l.length := by exact_mod_cast hpos
  have gap : 1 / 2 ^ 31 ≤ |(v : Rat) - (l.sum : Rat) / l.length| := by
    have e : (v : Rat) - (l.sum : Rat) / l.length = ((v * l.length - l.sum : Int) : Rat) / l.length := by
      push_cast
      field_simp
    have hz : (v * l.length - l.sum : Int) ≠ 0 := by
      intro hz
      rw [hz, Int.cast_zero, zero_div, sub_eq_zero] at e
      exact hv e
    have h1 : (1 : Rat) ≤ |((v * l.length - l.sum : Int) : Rat)| := by
      rw [← Int.cast_abs]
      exact_mod_cast Int.one_le_abs hz
    rw [e, abs_div, abs_of_pos hnq]
    have h2 : (l.length : Rat) ≤ 2 ^ 31 := by exact_mod_cast hn.le
    calc (1 : Rat) / 2 ^ 31 ≤ 1 / l.length := one_div_le_one_div_of_le hnq h2
      _ ≤ _ := div_le_div_of_nonneg_right h1 hnq.le
  have tri : |(v : Rat) - (l.sum : Rat) / l.length| ≤ |(v : Rat) - q| + |q - (l.sum : Rat) / l.length| := by
    have := abs_add_le ((v : Rat) - q) (q - (l.sum : Rat) / l.length)
    rwa [sub_add_sub_cancel] at this
  have num : (1 : Rat) / 2 ^ 32 ≤ 1 / 2 ^ 31 - 1 / 2 ^ 37 := by norm_num
  linarith

/-- **C97**. The variance of at least two samples is a number, not negative, and zero only if all samples are equal. -/
theorem C97_variance (hp : Rounds float64 rp) (hd : Rounds float64 rd) {l : List Nat} (hl : ∀ v ∈ l, v < 2 ^ 16) (h2 : 2 ≤ l.length)
    (hn : l.length < 2 ^ 31) :
    ∃ q : Rat, RoundedThresholds.calculateVariance rp rd l (RoundedThresholds.calculateMean rd l) = .fin q ∧ 0 ≤ q ∧ (q = 0 ↔ ∀ u ∈ l, ∀ v ∈ l, u = v) := by
  have hne : l ≠ [] := by intro h; rw [h] at h2; simp at h2
  obtain ⟨m, em, _, herr, hbd⟩ := C97_mean hd hl hne hn
  obtain ⟨m0, m1⟩ := hbd 0 (2 ^ 16) fun v hv => ⟨Nat.zero_le v, (hl v hv).le⟩
  rw [Nat.cast_zero] at m0
  rw [Nat.cast_pow, Nat.cast_ofNat] at m1
  have zero : float64.Has 0 := by simpa using has_nat53 (n := 0) (by norm_num)
  obtain ⟨S, eS, S0, S1, Sz, Sf⟩ := squares_bounds hp hd m0 m1 l hl 0 0 zero le_rfl (by simp) (by omega)
  have hn1 : rnd rd ((rd (l.length : Nat)).sub (.fin 1)) = .fin ((l.length - 1 : Nat) : Rat) := by
    rw [rd_nat hd (by omega), fl_sub]
    show rd _ = _
    have : (l.length : Rat) - 1 = ((l.length - 1 : Nat) : Rat) := by
      rw [Nat.cast_sub (by omega), Nat.cast_one]
    rw [this]
    exact rd_nat hd (by omega)
  have hpos : (0 : Rat) < ((l.length - 1 : Nat) : Rat) := by
    have : 0 < l.length - 1 := by omega
    exact_mod_cast this
  have hone : (1 : Rat) ≤ ((l.length - 1 : Nat) : Rat) := by
    have : 1 ≤ l.length - 1 := by omega
    exact_mod_cast this
  have hdiv : (Fl.fin S).div (.fin ((l.length - 1 : Nat) : Rat)) = .fin (S / ((l.length - 1 : Nat) : Rat)) := by
    show (if ((l.length - 1 : Nat) : Rat) = 0 then Fl.signInf S else .fin (S / ((l.length - 1 : Nat) : Rat))) = _
    exact if_neg hpos.ne'
  have Sq0 : 0 ≤ S / ((l.length - 1 : Nat) : Rat) := div_nonneg S0 hpos.le
  have Sq1 : S / ((l.length - 1 : Nat) : Rat) ≤ ((0 + l.length : Nat) : Rat) * 2 ^ 32 := le_trans (div_le_self S0 hone) S1
  obtain ⟨q, eq, _, q0, _⟩ := hd.between zero (has_terms (k := 0 + l.length) (by omega)) Sq0 Sq1
  refine ⟨q, ?_, q0, ?_⟩
  · unfold RoundedThresholds.calculateVariance
    simp only
    rw [em, hn1, eS, hdiv]
    exact eq
  · have hmean : (∀ u ∈ l, ∀ v ∈ l, u = v) → ∀ v ∈ l, (v : Rat) = m := by
      intro hall v hv
      obtain ⟨a, b⟩ := hbd v v fun u hu => by
        have := hall u hu v hv
        omega
      linarith
    constructor
    · intro hq
      by_contra hne'
      have hex : ∃ v ∈ l, (v : Rat) ≠ (l.sum : Rat) / l.length := by
        by_contra hc
        push Not at hc
        apply hne'
        intro u hu v hv
        have := (hc u hu).trans (hc v hv).symm
        exact_mod_cast this
      obtain ⟨v, hv, hvm⟩ := hex
      have hS := Sf ⟨v, hv, mean_gap hne hn herr hvm⟩
      have s95 : float64.Has ((1 : Rat) / 2 ^ 95) := by
        have := has_pow2 (-95) (by decide) (by decide)
        have e : (2 : Rat) ^ (-95 : Int) = 1 / 2 ^ 95 := by norm_num
        rwa [e] at this
      have low : (1 : Rat) / 2 ^ 95 ≤ S / ((l.length - 1 : Nat) : Rat) := by
        rw [le_div_iff₀ hpos]
        have h3 : ((l.length - 1 : Nat) : Rat) ≤ 2 ^ 31 := by
          have : l.length - 1 ≤ 2 ^ 31 := by omega
          exact_mod_cast this
        calc (1 : Rat) / 2 ^ 95 * ((l.length - 1 : Nat) : Rat) ≤ 1 / 2 ^ 95 * 2 ^ 31 := mul_le_mul_of_nonneg_left h3 (by positivity)
          _ = 1 / 2 ^ 64 := by norm_num
          _ ≤ S := hS
      obtain ⟨q', e', _, l', _⟩ := hd.between s95 (has_terms (k := 0 + l.length) (by omega)) low Sq1
      rw [eq] at e'
      injection e' with e'
      rw [← e', hq] at l'
      have : (0 : Rat) < 1 / 2 ^ 95 := by positivity
      linarith
    · intro hall
      rw [Sz (hmean hall), zero_div, hd.fix _ zero] at eq
      injection eq with eq
      exact eq.symm

/-- **C97**. One sample has no variance: the result is NaN. -/
theorem C97_variance_single (hp : Rounds float64 rp) (hd : Rounds float64 rd) {v : Nat} (hv : v < 2 ^ 16) :
    RoundedThresholds.calculateVariance rp rd [v] (RoundedThresholds.calculateMean rd [v]) = .nan := by
  have hl : ∀ u ∈ [v], u < 2 ^ 16 := by simpa using hv
  obtain ⟨m, em, _, _, hbd⟩ := C97_mean hd hl (by simp) (by simp)
  have hm : (v : Rat) = m := by
    obtain ⟨a, b⟩ := hbd v v (by simp)
    linarith
  have zero : float64.Has 0 := by simpa using has_nat53 (n := 0) (by norm_num)
  have v1 : (v : Rat) ≤ 2 ^ 16 := by exact_mod_cast hv.le
  obtain ⟨S, eS, _, _, Sz, _⟩ := squares_bounds hp hd (q := m) (by rw [← hm]; positivity) (by rw [← hm]; exact v1) [v] hl 0 0 zero le_rfl (by simp)
    (by simp)
  have hS := Sz (by simpa using hm)
  have h1 : rnd rd ((rd (([v].length : Nat) : Rat)).sub (.fin 1)) = .fin 0 := by
    rw [rd_nat hd (by simp), fl_sub]
    show rd _ = _
    rw [show (([v].length : Nat) : Rat) - 1 = 0 by simp, hd.fix _ zero]
  unfold RoundedThresholds.calculateVariance
  simp only
  rw [em, h1, eS, hS]
  have : (Fl.fin 0).div (.fin 0) = .nan := by simp [Fl.div, Fl.signInf]
  rw [this]
  rfl

end Stempy.Props
