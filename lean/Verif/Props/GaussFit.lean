import Verif.Model.GaussFit
import Mathlib.Analysis.SpecialFunctions.ExpDeriv
import Mathlib.Analysis.SpecialFunctions.Log.Basic
import Mathlib.Analysis.Calculus.Deriv.Pow
import Mathlib.Analysis.Calculus.Deriv.Inv
import Mathlib.Tactic.FieldSimp
import Mathlib.Tactic.Linarith
import Mathlib.Tactic.LinearCombination
import Mathlib.Tactic.Ring

/-!
C74: the Gaussian fit of the background.
-/

namespace Stempy.GaussFit

/-- The Gaussian curve with height `a`, mean `m` and deviation `s`. -/
noncomputable def gauss (a m s b : ℝ) : ℝ := a * Real.exp (-(b - m) ^ 2 / (2 * s ^ 2))

/-- **C74** (residuals): entry `i` is the Gaussian curve at bin `i` minus the count of bin `i`. -/
theorem C74_residuals (bins hist : List ℝ) (x : State) {i : Nat} {b h : ℝ} (hb : bins[i]? = some b)
    (hh : hist[i]? = some h) :
    (residuals bins hist x)[i]? = some (gauss x.x0 x.x1 x.x2 b - h) := by
  unfold residuals gauss
  simp [hb, hh, List.getElem?_zipWith]

/-- **C74** (Jacobian): row `i` of `df` holds the partial derivatives of residual `i` with respect to the
three parameters, for every state with a nonzero deviation. -/
theorem C74_jacobian (bins hist : List ℝ) (x : State) (hs : x.x2 ≠ 0) {i : Nat} {b h : ℝ}
    (hb : bins[i]? = some b) (hh : hist[i]? = some h) :
    ∃ d0 d1 d2, (jacobian bins x)[i]? = some (d0, d1, d2) ∧
      HasDerivAt (fun t => (residuals bins hist { x with x0 := t }).getD i 0) d0 x.x0 ∧
      HasDerivAt (fun t => (residuals bins hist { x with x1 := t }).getD i 0) d1 x.x1 ∧
      HasDerivAt (fun t => (residuals bins hist { x with x2 := t }).getD i 0) d2 x.x2 := by
  have hv : ∀ y : State, (residuals bins hist y).getD i 0 = gauss y.x0 y.x1 y.x2 b - h := by
    intro y
    rw [List.getD_eq_getElem?_getD, C74_residuals bins hist y hb hh, Option.getD_some]
  simp only [hv]
  refine ⟨_, _, _, by simp only [jacobian, List.getElem?_map, hb, Option.map_some]; rfl, ?_, ?_, ?_⟩
  · have := ((hasDerivAt_id x.x0).mul_const (Real.exp (-(b - x.x1) ^ 2 / (2 * x.x2 ^ 2)))).sub_const h
    simp only [id, one_mul] at this
    exact this
  · have h1 : HasDerivAt (fun t : ℝ => -(b - t) ^ 2 / (2 * x.x2 ^ 2))
        ((b - x.x1) / x.x2 ^ 2) x.x1 := by
      have h0 := (((hasDerivAt_id x.x1).const_sub b).pow 2).neg.div_const (2 * x.x2 ^ 2)
      have e : -(((2 : ℕ) : ℝ) * (b - id x.x1) ^ (2 - 1) * -1) / (2 * x.x2 ^ 2) =
          (b - x.x1) / x.x2 ^ 2 := by
        simp only [id]; field_simp; norm_num; ring
      rw [e] at h0
      exact h0
    have h2 := (h1.exp.const_mul x.x0).sub_const h
    have e : x.x0 * (b - x.x1) * Real.exp (-(b - x.x1) ^ 2 / (2 * x.x2 ^ 2)) / x.x2 ^ 2 =
        x.x0 * (Real.exp (-(b - x.x1) ^ 2 / (2 * x.x2 ^ 2)) * ((b - x.x1) / x.x2 ^ 2)) := by ring
    rw [e]
    exact h2
  · have h1 : HasDerivAt (fun t : ℝ => -(b - x.x1) ^ 2 / (2 * t ^ 2))
        ((b - x.x1) ^ 2 / x.x2 ^ 3) x.x2 := by
      have hd : HasDerivAt (fun t : ℝ => 2 * t ^ 2) (4 * x.x2) x.x2 := by
        have := ((hasDerivAt_id x.x2).pow 2).const_mul 2
        have e : (2 : ℝ) * (((2 : ℕ) : ℝ) * id x.x2 ^ (2 - 1) * 1) = 4 * x.x2 := by
          simp only [id]; norm_num; ring
        rw [e] at this
        exact this
      have h0 := (hasDerivAt_const x.x2 (-(b - x.x1) ^ 2)).div hd
        (by positivity)
      have e : (0 * (2 * x.x2 ^ 2) - -(b - x.x1) ^ 2 * (4 * x.x2)) / (2 * x.x2 ^ 2) ^ 2 =
          (b - x.x1) ^ 2 / x.x2 ^ 3 := by
        field_simp; ring
      rw [e] at h0
      exact h0
    have h2 := (h1.exp.const_mul x.x0).sub_const h
    have e : (b - x.x1) * (x.x0 * (b - x.x1) * Real.exp (-(b - x.x1) ^ 2 / (2 * x.x2 ^ 2)) /
        x.x2 ^ 2) / x.x2 =
        x.x0 * (Real.exp (-(b - x.x1) ^ 2 / (2 * x.x2 ^ 2)) * ((b - x.x1) ^ 2 / x.x2 ^ 3)) := by
      field_simp
    rw [e]
    exact h2

/-- **C74** (sign of the deviation): the residuals do not depend on the sign of the deviation, so the sign
the solver ends with carries no information. -/
theorem C74_sign (bins hist : List ℝ) (x : State) :
    residuals bins hist { x with x2 := -x.x2 } = residuals bins hist x := by
  unfold residuals
  simp

private theorem gauss_eq {a m s a' m' s' : ℝ} (ha : 0 < a) (hs : s ≠ 0) (hs' : s' ≠ 0)
    {b1 b2 b3 : ℝ} (h12 : b1 ≠ b2) (h13 : b1 ≠ b3) (h23 : b2 ≠ b3)
    (e1 : gauss a' m' s' b1 = gauss a m s b1) (e2 : gauss a' m' s' b2 = gauss a m s b2)
    (e3 : gauss a' m' s' b3 = gauss a m s b3) : a' = a ∧ m' = m ∧ |s'| = |s| := by
  have ha' : 0 < a' := by
    have h1 : 0 < gauss a m s b1 := mul_pos ha (Real.exp_pos _)
    rw [← e1] at h1
    exact (mul_pos_iff_of_pos_right (Real.exp_pos _)).1 h1
  have hl : ∀ b, gauss a' m' s' b = gauss a m s b →
      Real.log a' + -(b - m') ^ 2 / (2 * s' ^ 2) = Real.log a + -(b - m) ^ 2 / (2 * s ^ 2) := by
    intro b hb
    have := congrArg Real.log hb
    unfold gauss at this
    rw [Real.log_mul ha'.ne' (Real.exp_ne_zero _), Real.log_mul ha.ne' (Real.exp_ne_zero _),
      Real.log_exp, Real.log_exp] at this
    exact this
  have l1 := hl b1 e1
  have l2 := hl b2 e2
  have l3 := hl b3 e3
  obtain ⟨p, hp⟩ : ∃ p, p = 1 / (2 * s ^ 2) := ⟨_, rfl⟩
  obtain ⟨p', hp'⟩ : ∃ p', p' = 1 / (2 * s' ^ 2) := ⟨_, rfl⟩
  have q : ∀ b, -(b - m) ^ 2 / (2 * s ^ 2) = -(b - m) ^ 2 * p := by intro b; rw [hp]; ring
  have q' : ∀ b, -(b - m') ^ 2 / (2 * s' ^ 2) = -(b - m') ^ 2 * p' := by intro b; rw [hp']; ring
  rw [q, q'] at l1 l2 l3
  have k12 : (b1 - b2) * ((p - p') * (b1 + b2) - 2 * (p * m - p' * m')) = 0 := by
    linear_combination l1 - l2
  have k13 : (b1 - b3) * ((p - p') * (b1 + b3) - 2 * (p * m - p' * m')) = 0 := by
    linear_combination l1 - l3
  have k12 := (mul_eq_zero.1 k12).resolve_left (sub_ne_zero.2 h12)
  have k13 := (mul_eq_zero.1 k13).resolve_left (sub_ne_zero.2 h13)
  have kp : (b2 - b3) * (p - p') = 0 := by linear_combination k12 - k13
  have hpp : p = p' := sub_eq_zero.1 ((mul_eq_zero.1 kp).resolve_left (sub_ne_zero.2 h23))
  have hp0 : p ≠ 0 := by rw [hp]; positivity
  have hm : m' = m := by
    rw [← hpp] at k12
    have : p * (m' - m) = 0 := by linear_combination k12 / 2
    exact sub_eq_zero.1 ((mul_eq_zero.1 this).resolve_left hp0)
  refine ⟨?_, hm, ?_⟩
  · rw [hm, ← hpp] at l1
    exact Real.log_injOn_pos (Set.mem_Ioi.2 ha') (Set.mem_Ioi.2 ha) (by linarith)
  · have : s' ^ 2 = s ^ 2 := by
      rw [hp, hp'] at hpp
      field_simp at hpp
      linarith
    exact (sq_eq_sq_iff_abs_eq_abs _ _).1 this

/-- **C74** (exact data): when the histogram is exactly a Gaussian curve of positive height over bins of
which three are distinct, every state with zero residuals has that height and mean, and the reported
deviation and background threshold are those of the curve; and there is such a state. -/
theorem C74_unique {bins : List ℝ} {a m s : ℝ} (ha : 0 < a) (hs : 0 < s)
    {b1 b2 b3 : ℝ} (m1 : b1 ∈ bins) (m2 : b2 ∈ bins) (m3 : b3 ∈ bins)
    (h12 : b1 ≠ b2) (h13 : b1 ≠ b3) (h23 : b2 ≠ b3) (nSigma : ℝ) :
    (∀ r ∈ residuals bins (bins.map (gauss a m s)) ⟨a, m, s⟩, r = 0) ∧
    ∀ x : State, x.x2 ≠ 0 → (∀ r ∈ residuals bins (bins.map (gauss a m s)) x, r = 0) →
      x.x0 = a ∧ fitResult x nSigma = (m, s, m + s * nSigma) := by
  have at_bin : ∀ (x : State) (b : ℝ), b ∈ bins →
      gauss x.x0 x.x1 x.x2 b - gauss a m s b ∈ residuals bins (bins.map (gauss a m s)) x := by
    intro x b hb
    obtain ⟨i, hi⟩ := List.mem_iff_getElem?.1 hb
    exact List.mem_iff_getElem?.2 ⟨i, C74_residuals _ _ x hi (by simp [hi])⟩
  constructor
  · intro r hr
    obtain ⟨i, hi⟩ := List.mem_iff_getElem?.1 hr
    cases hb : bins[i]? with
    | none =>
      unfold residuals at hi
      simp [List.getElem?_zipWith, hb] at hi
    | some b =>
      rw [C74_residuals _ _ _ hb (show (bins.map (gauss a m s))[i]? = some (gauss a m s b) by
        simp [hb])] at hi
      simpa using (Option.some.inj hi).symm
  · intro x hx hz
    have eqb : ∀ b ∈ bins, gauss x.x0 x.x1 x.x2 b = gauss a m s b := fun b hb =>
      sub_eq_zero.1 (hz _ (at_bin x b hb))
    obtain ⟨r1, r2, r3⟩ := gauss_eq ha hs.ne' hx h12 h13 h23 (eqb _ m1) (eqb _ m2) (eqb _ m3)
    rw [abs_of_pos hs] at r3
    refine ⟨r1, ?_⟩
    simp only [fitResult, r2, r3]

/-- bins 0, 1, 2 and the curve of height 3, mean 1, deviation 2 -/
example : ∃ x : State, x.x2 < 0 ∧
    ∀ r ∈ residuals [0, 1, 2] ([0, 1, 2].map (gauss 3 1 2)) x, r = 0 := by
  refine ⟨⟨3, 1, -2⟩, by norm_num, ?_⟩
  have h := (C74_unique (bins := [0, 1, 2]) (a := 3) (m := 1) (s := 2) (by norm_num) (by norm_num)
    (b1 := 0) (b2 := 1) (b3 := 2) (by simp) (by simp) (by simp) (by norm_num) (by norm_num)
    (by norm_num) 4).1
  rw [← C74_sign] at h
  exact h

/-- **C74** (two bins are not enough): with only two distinct bins there are other states with zero
residuals, and the reported background threshold is not determined. -/
theorem C74_two_bins :
    ∃ x y : State, x.x2 ≠ 0 ∧ y.x2 ≠ 0 ∧
      (∀ r ∈ residuals [-1, 1] [1, 1] x, r = 0) ∧ (∀ r ∈ residuals [-1, 1] [1, 1] y, r = 0) ∧
      fitResult x 4 ≠ fitResult y 4 := by
  refine ⟨⟨Real.exp (1 / 2), 0, 1⟩, ⟨Real.exp (1 / 8), 0, 2⟩, by norm_num, by norm_num, ?_, ?_, ?_⟩
  · intro r hr
    simp only [residuals, List.zipWith_cons_cons, List.zipWith_nil_right, List.mem_cons,
      List.not_mem_nil, or_false] at hr
    rcases hr with rfl | rfl <;> rw [← Real.exp_add] <;> norm_num
  · intro r hr
    simp only [residuals, List.zipWith_cons_cons, List.zipWith_nil_right, List.mem_cons,
      List.not_mem_nil, or_false] at hr
    rcases hr with rfl | rfl <;> rw [← Real.exp_add] <;> norm_num
  · intro h
    have := congrArg (fun t => t.2.1) h
    simp only [fitResult] at this
    norm_num at this

end Stempy.GaussFit
