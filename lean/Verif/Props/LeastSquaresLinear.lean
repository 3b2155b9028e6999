import Verif.Props.LeastSquaresOptimize

/-! # C101, continued: linear errors, and errors with a derivative -/

set_option linter.unusedSectionVars false

namespace Stempy.Props.LeastSquares
open Stempy.LeastSquares

section linear
variable {K : Type} [Field K] [LinearOrder K] [IsStrictOrderedRing K] {n m : Nat}

/-- The errors are `A x + c`. -/
def Affine (e : ErrorFunction K n m) (A : Matrix (Fin m) (Fin n) K) (c : Fin m → K) : Prop := ∀ x, e.value x = A.mulVec x + c

/-- The finite differences of such errors are exact, for each `fdEps_` but zero. -/
theorem C101_differences (e : ErrorFunction K n m) (A : Matrix (Fin m) (Fin n) K) (c : Fin m → K) (h : Affine e A c) (h0 : e.fdEps ≠ 0) (x : Fin n → K) :
    e.finiteDifferences x (e.value x) = A := by
  funext r i
  have hu : Function.update x i (x i + e.fdEps) = x + Pi.single i e.fdEps := by
    funext j
    by_cases hj : j = i
    · subst hj; simp
    · simp [hj]
  simp only [ErrorFunction.finiteDifferences]
  rw [hu, h, h, Matrix.mulVec_add]
  simp only [Pi.add_apply, Matrix.mulVec_single]
  rw [div_eq_iff h0]
  simp

/-- The normal equations have a solution. -/
theorem normal_solvable (A : Matrix (Fin m) (Fin n) K) (b : Fin m → K) : ∃ s, (A.transpose * A).mulVec s = A.transpose.mulVec b := by
  have hle : LinearMap.range (A.transpose * A).mulVecLin ≤ LinearMap.range A.transpose.mulVecLin := by
    rintro _ ⟨v, rfl⟩
    exact ⟨A.mulVec v, by simp⟩
  have heq : LinearMap.range (A.transpose * A).mulVecLin = LinearMap.range A.transpose.mulVecLin := by
    apply Submodule.eq_of_le_of_finrank_eq hle
    change (A.transpose * A).rank = A.transpose.rank
    rw [Matrix.rank_transpose_mul_self, Matrix.rank_transpose]
  have : A.transpose.mulVec b ∈ LinearMap.range (A.transpose * A).mulVecLin := by
    rw [heq]
    exact ⟨b, rfl⟩
  obtain ⟨s, hs⟩ := this
  exact ⟨s, hs⟩

/-- A state whose gradient is zero has the smallest error, if the errors are linear. -/
theorem minimum_of_gradient (e : ErrorFunction K n m) (A : Matrix (Fin m) (Fin n) K) (c : Fin m → K) (h : Affine e A c) (x : Fin n → K)
    (hg : A.transpose.mulVec (e.value x) = 0) (y : Fin n → K) : cost e x ≤ cost e y := by
  have hy : e.value y = e.value x + A.mulVec (y - x) := by
    rw [h, h, Matrix.mulVec_sub]
    abel
  have hd : e.value x ⬝ᵥ A.mulVec (y - x) = 0 := by
    rw [Matrix.dotProduct_mulVec, ← Matrix.mulVec_transpose, hg, zero_dotProduct]
  have hc : ∀ z, cost e z = (e.value z ⬝ᵥ e.value z) / 2 := by
    intro z
    simp [cost, dotProduct, pow_two]
  rw [hc, hc, hy, add_dotProduct, dotProduct_add, dotProduct_add, hd, dotProduct_comm (A.mulVec (y - x)) (e.value x), hd]
  have : 0 ≤ A.mulVec (y - x) ⬝ᵥ A.mulVec (y - x) := by
    simp only [dotProduct]
    exact Finset.sum_nonneg fun i _ => mul_self_nonneg _
  linarith

/-- Gauss-Newton with damping 1 and without line search finds the smallest error of linear errors in one step, with the exact Jacobian or finite differences: it
returns for every initial state, converged, after at most one iteration. -/
theorem C101_linear (o : Optimizer K n m) (halg : o.alg = .gaussNewton 1) (hls : o.lineSearch = .off) (hs : Solves o.solver) (heps : 0 ≤ o.eps)
    (A : Matrix (Fin m) (Fin n) K) (c : Fin m → K) (h : Affine o.errorFunc A c)
    (hj : ∀ x, o.errorFunc.jacobian x = some A ∨ (o.errorFunc.jacobian x = none ∧ o.errorFunc.fdEps ≠ 0)) (l : K) (x : Fin n → K) :
    (∃ r l', o.Optimize l x r l') ∧ ∀ r l', o.Optimize l x r l' → r.converged ∧ r.iterations ≤ 1 ∧
      (o.eps = 0 ∨ r.iterations = 1 → ∀ y, cost o.errorFunc r.state ≤ cost o.errorFunc y) := by
  have hJ : ∀ x, (o.errorFunc.evaluate x).2 = A := by
    intro x
    simp only [ErrorFunction.evaluate]
    rcases hj x with h1 | ⟨h1, h2⟩
    · rw [h1]; rfl
    · rw [h1]
      exact C101_differences o.errorFunc A c h h2 x
  have hv : ∀ x, (o.errorFunc.evaluate x).1 = o.errorFunc.value x := fun x => rfl
  have hsteps : ∀ l x s l', Steps o l x s l' ↔ s = -o.solver (A.transpose * A) (A.transpose.mulVec (o.errorFunc.value x)) ∧ l' = l := by
    intro l x s l'
    unfold Steps
    rw [halg, hls]
    simp only [Algorithm.NewtonStep, LineSearch.Performs, hJ, hv, neg_smul, one_smul]
    constructor
    · rintro ⟨step, len, ⟨rfl, rfl⟩, rfl, rfl⟩
      exact ⟨one_smul _ _, rfl⟩
    · rintro ⟨rfl, rfl⟩
      exact ⟨_, 1, ⟨rfl, rfl⟩, rfl, (one_smul _ _).symm⟩
  have hsol : ∀ x, (A.transpose * A).mulVec (o.solver (A.transpose * A) (A.transpose.mulVec (o.errorFunc.value x))) = A.transpose.mulVec (o.errorFunc.value x) :=
    fun x => hs.solves _ _ (normal_solvable A _)
  have hgrad : ∀ x, A.transpose.mulVec (o.errorFunc.value (x + -o.solver (A.transpose * A) (A.transpose.mulVec (o.errorFunc.value x)))) = 0 := by
    intro x
    have h1 : o.errorFunc.value (x + -o.solver (A.transpose * A) (A.transpose.mulVec (o.errorFunc.value x))) =
        o.errorFunc.value x - A.mulVec (o.solver (A.transpose * A) (A.transpose.mulVec (o.errorFunc.value x))) := by
      rw [h (x + _), Matrix.mulVec_add, Matrix.mulVec_neg]
      conv_rhs => lhs; rw [h x]
      abel
    rw [h1, Matrix.mulVec_sub, Matrix.mulVec_mulVec, hsol, sub_self]
  have hzero : Small (0 : Fin n → K) o.eps := ⟨heps, by simp; positivity⟩
  set s0 := -o.solver (A.transpose * A) (A.transpose.mulVec (o.errorFunc.value x)) with hs0
  have hnext : -o.solver (A.transpose * A) (A.transpose.mulVec (o.errorFunc.value (x + s0))) = 0 := by
    rw [hs0, hgrad, hs.zero, neg_zero]
  constructor
  · by_cases hsm : Small s0 o.eps
    · obtain ⟨r, hr, -⟩ := optimize_of_run o l x 0 (fun _ => x) (fun _ => s0) (fun _ => l) ⟨rfl, rfl, fun j hj => (hsteps _ _ _ _).2 ⟨rfl, rfl⟩,
        fun _ h => absurd h (Nat.not_lt_zero _)⟩ (fun _ h => absurd h (Nat.not_lt_zero _)) (Or.inl hsm)
      exact ⟨r, _, hr⟩
    · obtain ⟨r, hr, -⟩ := optimize_of_run o l x 1 (fun j => if j = 0 then x else x + s0) (fun j => if j = 0 then s0 else 0) (fun _ => l)
        ⟨rfl, rfl, fun j hj => by
          have hj' : j = 0 ∨ j = 1 := by omega
          rcases hj' with rfl | rfl
          · exact (hsteps _ _ _ _).2 ⟨rfl, rfl⟩
          · exact (hsteps _ _ _ _).2 ⟨hnext.symm, rfl⟩, fun j hj => by
          obtain rfl : j = 0 := by omega
          rfl⟩ (fun j hj => by
          obtain rfl : j = 0 := by omega
          refine ⟨hsm, ?_⟩
          omega) (Or.inl hzero)
      exact ⟨r, _, hr⟩
  · intro r l' hr
    obtain ⟨xs, ss, ls, hrun, e1, -, -, e3, e4, e5, e6⟩ := C101_result o l x r l' hr
    have hss : ∀ j ≤ r.iterations, ss j = -o.solver (A.transpose * A) (A.transpose.mulVec (o.errorFunc.value (xs j))) :=
      fun j hj => ((hsteps _ _ _ _).1 (hrun.steps j hj)).1
    have hx1 : 1 ≤ r.iterations → xs 1 = x + s0 := by
      intro h1
      rw [hrun.moves 0 (by omega), hss 0 (by omega), hrun.first]
    have hs1 : 1 ≤ r.iterations → ss 1 = 0 := by
      intro h1
      rw [hss 1 h1, hx1 h1, hnext]
    have hit : r.iterations ≤ 1 := by
      by_contra hgt
      push Not at hgt
      apply e4 1 hgt
      rw [hs1 (by omega)]
      exact hzero
    refine ⟨?_, hit, ?_⟩
    · rcases Nat.eq_zero_or_pos r.iterations with h0 | h0
      · by_cases hm : o.maxIt = 0
        · exact e5 hm
        · exact (e6 hm).2 (by omega)
      · rw [e3, show r.iterations = 1 by omega, hs1 h0]
        exact hzero
    · intro hor y
      apply minimum_of_gradient _ A c h
      rcases Nat.eq_zero_or_pos r.iterations with h0 | h0
      · have he : o.eps = 0 := hor.resolve_right (by omega)
        have hconv : Small (ss r.iterations) o.eps := by
          rw [← e3]
          by_cases hm : o.maxIt = 0
          · exact e5 hm
          · exact (e6 hm).2 (by omega)
        rw [h0, he] at hconv
        have hz : ss 0 = 0 := by
          funext i
          have h1 := hconv.2
          rw [zero_pow (by norm_num)] at h1
          have h2 := (Finset.sum_eq_zero_iff_of_nonneg (fun i _ => sq_nonneg (ss 0 i))).1 (le_antisymm h1 (Finset.sum_nonneg fun i _ => sq_nonneg _)) i (Finset.mem_univ i)
          exact pow_eq_zero_iff (by norm_num) |>.1 h2
        have h3 := hss 0 (by omega)
        rw [hz, hrun.first] at h3
        rw [e1, h0, hrun.first]
        have h4 := hsol x
        rw [← neg_eq_iff_eq_neg.2 h3] at h4
        simpa using h4.symm
      · rw [e1, show r.iterations = 1 by omega, hx1 h0]
        exact hgrad x

/-- With another damping factor each iteration multiplies the gradient of linear errors with one minus the factor. -/
theorem C101_damped (o : Optimizer K n m) (damping : K) (halg : o.alg = .gaussNewton damping) (hls : o.lineSearch = .off) (hs : Solves o.solver)
    (A : Matrix (Fin m) (Fin n) K) (c : Fin m → K) (h : Affine o.errorFunc A c)
    (hj : ∀ x, o.errorFunc.jacobian x = some A ∨ (o.errorFunc.jacobian x = none ∧ o.errorFunc.fdEps ≠ 0)) (l : K) (x : Fin n → K)
    (r : Result K n) (l' : K) (hr : o.Optimize l x r l') :
    A.transpose.mulVec (o.errorFunc.value r.state) = (1 - damping) ^ r.iterations • A.transpose.mulVec (o.errorFunc.value x) := by
  have hJ : ∀ x, (o.errorFunc.evaluate x).2 = A := by
    intro x
    simp only [ErrorFunction.evaluate]
    rcases hj x with h1 | ⟨h1, h2⟩
    · rw [h1]; rfl
    · rw [h1]
      exact C101_differences o.errorFunc A c h h2 x
  have hv : ∀ x, (o.errorFunc.evaluate x).1 = o.errorFunc.value x := fun x => rfl
  obtain ⟨xs, ss, ls, hrun, e1, -⟩ := C101_result o l x r l' hr
  rw [e1]
  suffices H : ∀ j ≤ r.iterations, A.transpose.mulVec (o.errorFunc.value (xs j)) = (1 - damping) ^ j • A.transpose.mulVec (o.errorFunc.value x) from
    H _ le_rfl
  intro j
  induction j with
  | zero => intro _; rw [hrun.first, pow_zero, one_smul]
  | succ j ih =>
    intro hj'
    have hst : ss j = (-damping) • o.solver (A.transpose * A) (A.transpose.mulVec (o.errorFunc.value (xs j))) := by
      obtain ⟨step, len, h1, h2, h3⟩ := hrun.steps j (by omega)
      rw [halg] at h1
      rw [hls] at h2
      obtain rfl : len = 1 := h2
      rw [h3, one_smul, h1.1, hJ, hv]
    have hsol := hs.solves _ _ (normal_solvable A (o.errorFunc.value (xs j)))
    have hval : o.errorFunc.value (xs (j + 1)) = o.errorFunc.value (xs j) + A.mulVec (ss j) := by
      rw [hrun.moves j (by omega), h (_ + _), h (xs j), Matrix.mulVec_add]
      abel
    rw [hval, Matrix.mulVec_add, Matrix.mulVec_mulVec, hst, Matrix.mulVec_smul, hsol, ih (by omega), pow_succ, smul_smul]
    rw [← add_smul]
    congr 1
    ring

/-- Gradient descent with the damping of a new object does not return if the errors are `c x` with `c² > 2`, from any state whose first step is longer than `eps`. -/
theorem C101_descent_false (o : Optimizer K 1 1) (halg : o.alg = .gradientDescent 1) (hls : o.lineSearch = .off) (hit : o.maxIt = 0) (c : K) (hc : 2 < c ^ 2)
    (he : o.errorFunc = ⟨fun x i => c * x i, fun _ => some fun _ _ => c, 1⟩) (l : K) (x : Fin 1 → K) (hx : o.eps ^ 2 < (c ^ 2 * x 0) ^ 2) (r : Result K 1) (l' : K) :
    ¬ o.Optimize l x r l' := by
  intro h
  obtain ⟨xs, ss, ls, hrun, e1, -, -, e3, e4, e5, e6⟩ := C101_result o l x r l' h
  have hss : ∀ j ≤ r.iterations, ss j 0 = -(c ^ 2 * xs j 0) := by
    intro j hj
    obtain ⟨step, len, h1, h2, h3⟩ := hrun.steps j hj
    rw [halg, he] at h1
    rw [hls] at h2
    obtain rfl : len = 1 := h2
    have h1 := congrFun h1.1 0
    rw [h3, one_smul, h1]
    have hT : ∀ v : Fin 1 → K, Matrix.mulVec (Matrix.transpose (fun _ _ => c : Matrix (Fin 1) (Fin 1) K)) v 0 = c * v 0 := by
      intro v
      simp [Matrix.mulVec, dotProduct, Matrix.transpose_apply (fun _ _ => c : Matrix (Fin 1) (Fin 1) K) 0 0]
    change -1 * Matrix.mulVec (Matrix.transpose (fun _ _ => c : Matrix (Fin 1) (Fin 1) K)) (fun i => c * xs j i) 0 = _
    rw [hT]
    ring
  have hbig : ∀ j ≤ r.iterations, o.eps ^ 2 < (c ^ 2 * xs j 0) ^ 2 := by
    intro j
    induction j with
    | zero => intro _; rw [hrun.first]; exact hx
    | succ j ih =>
      intro hj
      refine lt_of_lt_of_le (ih (by omega)) ?_
      rw [hrun.moves j (by omega), Pi.add_apply, hss j (by omega)]
      have : (c ^ 2 * (xs j 0 + -(c ^ 2 * xs j 0))) ^ 2 = (c ^ 2 * xs j 0) ^ 2 * (1 - c ^ 2) ^ 2 := by ring
      rw [this]
      apply le_mul_of_one_le_right (sq_nonneg _)
      nlinarith
  have hsm := e3.1 (e5 hit)
  have h1 := hsm.2
  simp only [Finset.univ_unique, Finset.sum_singleton] at h1
  have h2 := hbig r.iterations le_rfl
  have h3 := hss r.iterations le_rfl
  rw [show (default : Fin 1) = 0 from rfl, h3] at h1
  nlinarith

end linear

/-! ## Errors with a derivative, real numbers -/

section real
variable {n m : Nat}

/-- The Jacobian which `evaluate` gives at `x` is the derivative of the errors there. -/
def Exact (e : ErrorFunction ℝ n m) (x : Fin n → ℝ) : Prop := HasFDerivAt e.value (LinearMap.toContinuousLinearMap (e.evaluate x).2.mulVecLin) x

/-- The error has the gradient `Jᵀ r`. -/
theorem cost_little (e : ErrorFunction ℝ n m) (x : Fin n → ℝ) (h : Exact e x) (ε : ℝ) (hε : 0 < ε) :
    ∃ δ > 0, ∀ s : Fin n → ℝ, ‖s‖ < δ → |cost e (x + s) - cost e x - ∑ i, e.gradient x i * s i| ≤ ε * ‖s‖ := by
  have hi : ∀ i, HasFDerivAt (fun y => e.value y i) ((ContinuousLinearMap.proj i).comp (LinearMap.toContinuousLinearMap (e.evaluate x).2.mulVecLin)) x :=
    fun i => (hasFDerivAt_pi'.1 h) i
  have hsum : HasFDerivAt (fun y => ∑ i, e.value y i * e.value y i)
      (∑ i, (e.value x i • ((ContinuousLinearMap.proj i).comp (LinearMap.toContinuousLinearMap (e.evaluate x).2.mulVecLin)) +
        e.value x i • ((ContinuousLinearMap.proj i).comp (LinearMap.toContinuousLinearMap (e.evaluate x).2.mulVecLin)) : (Fin n → ℝ) →L[ℝ] ℝ)) x :=
    HasFDerivAt.fun_sum fun i _ => (hi i).mul (hi i)
  have hF := hsum.const_mul (1 / 2 : ℝ)
  have hcost : (fun y => 1 / 2 * ∑ i, e.value y i * e.value y i) = cost e := by
    funext y
    simp only [cost, pow_two]
    ring
  rw [hcost] at hF
  have hlo := (hasFDerivAt_iff_isLittleO_nhds_zero.1 hF).def hε
  obtain ⟨δ, hδ, hball⟩ := Metric.eventually_nhds_iff.1 hlo
  refine ⟨δ, hδ, fun s hs => ?_⟩
  have := hball (y := s) (by simpa using hs)
  rw [Real.norm_eq_abs] at this
  convert this using 3
  simp only [smul_apply, sum_apply, add_apply, ContinuousLinearMap.comp_apply,
    ContinuousLinearMap.proj_apply, LinearMap.coe_toContinuousLinearMap', Matrix.mulVecLin_apply, smul_eq_mul]
  have hg : ∑ i, e.gradient x i * s i = e.value x ⬝ᵥ (e.evaluate x).2.mulVec s := by
    rw [Matrix.dotProduct_mulVec, ← Matrix.mulVec_transpose]
    rfl
  rw [hg, dotProduct, Finset.mul_sum]
  refine Finset.sum_congr rfl fun i _ => ?_
  ring

theorem norm_sq_le (v : Fin n → ℝ) : ‖v‖ ^ 2 ≤ v ⬝ᵥ v := by
  have h0 : 0 ≤ v ⬝ᵥ v := by
    simp only [dotProduct]
    exact Finset.sum_nonneg fun i _ => mul_self_nonneg _
  rw [← Real.sqrt_le_sqrt_iff h0, Real.sqrt_sq (norm_nonneg _)]
  rw [pi_norm_le_iff_of_nonneg (Real.sqrt_nonneg _)]
  intro i
  rw [Real.norm_eq_abs, ← Real.sqrt_sq_eq_abs]
  apply Real.sqrt_le_sqrt
  rw [pow_two]
  exact Finset.single_le_sum (f := fun j => v j * v j) (fun j _ => mul_self_nonneg _) (Finset.mem_univ i)

/-- With the derivative of the errors, and without limit, the search of `λ` ends: the errors need only be differentiable at the state. -/
theorem C101_returns (e : ErrorFunction ℝ n m) (solve : Solver ℝ n) (hs : Solves solve) (damping l : ℝ) (hd : 0 < damping) (hl : 0 < l) (x : Fin n → ℝ) (h : Exact e x) :
    ∃ out l', (Algorithm.levenbergMarquardt damping 0).NewtonStep e solve l x (e.evaluate x).1 (e.evaluate x).2 out l' := by
  suffices hk : ∃ k : Nat, ¬ Rejected e solve damping x (l * 2 ^ k) by
    classical
    exact ⟨_, _, (lm_iff _ _ _ _ _ _ _ _).2 (Or.inl ⟨Nat.find hk, Or.inl rfl, fun j hj => not_not.1 (Nat.find_min hk hj), Nat.find_spec hk, rfl, rfl⟩)⟩
  set J := (e.evaluate x).2 with hJ
  set g := e.gradient x with hg
  have hgJ : J.transpose.mulVec (e.evaluate x).1 = g := rfl
  -- the solution of the damped system
  have hsol : ∀ t : ℝ, 0 < t → (J.transpose * J + Matrix.diagonal fun _ => t).mulVec (solve (J.transpose * J + Matrix.diagonal fun _ => t) g) = g := by
    intro t ht
    apply hs.solves
    have hinj : Function.Injective (J.transpose * J + Matrix.diagonal fun _ => t).mulVecLin := by
      rw [← LinearMap.ker_eq_bot, LinearMap.ker_eq_bot']
      intro v hv
      have h1 : v ⬝ᵥ (J.transpose * J + Matrix.diagonal fun _ => t).mulVec v = 0 := by
        rw [← Matrix.mulVecLin_apply, hv, dotProduct_zero]
      have h2 : v ⬝ᵥ (J.transpose * J + Matrix.diagonal fun _ => t).mulVec v = J.mulVec v ⬝ᵥ J.mulVec v + t * (v ⬝ᵥ v) := by
        rw [Matrix.add_mulVec, dotProduct_add, ← Matrix.mulVec_mulVec, Matrix.dotProduct_mulVec, Matrix.vecMul_transpose]
        congr 1
        simp [Matrix.mulVec_diagonal, dotProduct, Finset.mul_sum]
        exact Finset.sum_congr rfl fun i _ => by ring
      have h3 : 0 ≤ J.mulVec v ⬝ᵥ J.mulVec v := by
        simp only [dotProduct]
        exact Finset.sum_nonneg fun i _ => mul_self_nonneg _
      have h4 := norm_sq_le v
      have h5 : ‖v‖ ^ 2 ≤ 0 := by nlinarith [sq_nonneg ‖v‖]
      exact norm_eq_zero.1 (pow_eq_zero_iff (by norm_num) |>.1 (le_antisymm h5 (sq_nonneg _)))
    obtain ⟨s, hs⟩ := LinearMap.surjective_of_injective hinj g
    exact ⟨s, hs⟩
  have htrial : ∀ t : ℝ, trial e solve damping x t = (-damping) • solve (J.transpose * J + Matrix.diagonal fun _ => t) g := fun t => rfl
  by_cases hg0 : g = 0
  · refine ⟨0, ?_⟩
    unfold Rejected
    rw [htrial, hg0, hs.zero, smul_zero, add_zero]
    exact lt_irrefl _
  have hG : 0 < ‖g‖ := norm_pos_iff.2 hg0
  obtain ⟨δ, hδ, hlit⟩ := cost_little e x h (‖g‖ / 4) (by linarith)
  set C := ‖LinearMap.toContinuousLinearMap (J.transpose * J).mulVecLin‖ with hC
  have hC0 : 0 ≤ C := norm_nonneg _
  have hgg : 0 ≤ g ⬝ᵥ g := (sq_nonneg _).trans (norm_sq_le g)
  obtain ⟨k, hk⟩ := pow_unbounded_of_one_lt ((C + 1 + damping ^ 2 * (g ⬝ᵥ g) / δ ^ 2) / l) (by norm_num : (1 : ℝ) < 2)
  rw [div_lt_iff₀ hl, mul_comm (2 ^ k) l] at hk
  refine ⟨k, ?_⟩
  have hq0 : 0 ≤ damping ^ 2 * (g ⬝ᵥ g) / δ ^ 2 := by positivity
  generalize l * 2 ^ k = t at hk
  have ht0 : 0 < t := by linarith
  have ht1 : 1 < t := by linarith
  unfold Rejected
  rw [htrial]
  have hu := hsol t ht0
  generalize solve (J.transpose * J + Matrix.diagonal fun _ => t) g = u at hu
  have hdiag : (Matrix.diagonal fun _ : Fin n => t).mulVec u = t • u := by
    funext i
    simp [Matrix.mulVec_diagonal]
  have h1 : t * (u ⬝ᵥ u) ≤ u ⬝ᵥ g := by
    rw [← hu, Matrix.add_mulVec, dotProduct_add, ← Matrix.mulVec_mulVec, Matrix.dotProduct_mulVec, Matrix.vecMul_transpose, hdiag, dotProduct_smul, smul_eq_mul]
    have : 0 ≤ J.mulVec u ⬝ᵥ J.mulVec u := (sq_nonneg _).trans (norm_sq_le _)
    linarith
  have hcs : (u ⬝ᵥ g) ^ 2 ≤ (u ⬝ᵥ u) * (g ⬝ᵥ g) := by
    have := Finset.sum_mul_sq_le_sq_mul_sq Finset.univ u g
    simpa only [dotProduct, ← pow_two] using this
  have huu : 0 ≤ u ⬝ᵥ u := (sq_nonneg _).trans (norm_sq_le u)
  have h2 : t ^ 2 * (u ⬝ᵥ u) ≤ g ⬝ᵥ g := by
    rcases eq_or_lt_of_le huu with h0 | h0
    · rw [← h0, mul_zero]; exact hgg
    · have h3 : (t * (u ⬝ᵥ u)) ^ 2 ≤ (u ⬝ᵥ u) * (g ⬝ᵥ g) := (pow_le_pow_left₀ (by positivity) h1 2).trans hcs
      have h4 : (u ⬝ᵥ u) * (t ^ 2 * (u ⬝ᵥ u)) ≤ (u ⬝ᵥ u) * (g ⬝ᵥ g) := by
        calc (u ⬝ᵥ u) * (t ^ 2 * (u ⬝ᵥ u)) = (t * (u ⬝ᵥ u)) ^ 2 := by ring
          _ ≤ _ := h3
      exact le_of_mul_le_mul_left h4 h0
  have h3 : ‖g‖ ≤ (C + t) * ‖u‖ := by
    calc ‖g‖ = ‖(J.transpose * J).mulVec u + t • u‖ := by rw [← hdiag, ← Matrix.add_mulVec, hu]
      _ ≤ ‖(J.transpose * J).mulVec u‖ + ‖t • u‖ := norm_add_le _ _
      _ ≤ C * ‖u‖ + t * ‖u‖ := by
        refine add_le_add ?_ ?_
        · exact (LinearMap.toContinuousLinearMap (J.transpose * J).mulVecLin).le_opNorm u
        · rw [norm_smul, Real.norm_eq_abs, abs_of_pos ht0]
      _ = _ := by ring
  have h4 := norm_sq_le u
  have hnu : 0 ≤ ‖u‖ := norm_nonneg u
  have hsmall : ‖(-damping) • u‖ < δ := by
    rw [norm_smul, norm_neg, Real.norm_eq_abs, abs_of_pos hd]
    have h5 : t * (damping ^ 2 * (u ⬝ᵥ u)) < t * δ ^ 2 := by
      have h6 : damping ^ 2 * (g ⬝ᵥ g) < t * δ ^ 2 := by
        rw [← div_lt_iff₀ (by positivity)]
        linarith
      have h7 : t * (u ⬝ᵥ u) ≤ t ^ 2 * (u ⬝ᵥ u) := by
        rw [pow_two, mul_assoc]
        exact le_mul_of_one_le_left (by positivity) ht1.le
      have h8 : damping ^ 2 * (t * (u ⬝ᵥ u)) ≤ damping ^ 2 * (g ⬝ᵥ g) := mul_le_mul_of_nonneg_left (h7.trans h2) (sq_nonneg _)
      linarith
    have h6 : damping ^ 2 * (u ⬝ᵥ u) < δ ^ 2 := lt_of_mul_lt_mul_left h5 ht0.le
    have h7 : (damping * ‖u‖) ^ 2 < δ ^ 2 := by
      rw [mul_pow]
      exact lt_of_le_of_lt (mul_le_mul_of_nonneg_left h4 (sq_nonneg _)) h6
    exact lt_of_pow_lt_pow_left₀ 2 hδ.le h7
  have h5 := (abs_le.1 (hlit _ hsmall)).2
  have h6 : ∑ i, e.gradient x i * ((-damping) • u) i = -(damping * (u ⬝ᵥ g)) := by
    rw [← hg, dotProduct, Finset.mul_sum, ← Finset.sum_neg_distrib]
    refine Finset.sum_congr rfl fun i _ => ?_
    simp only [Pi.smul_apply, smul_eq_mul]
    ring
  rw [h6, norm_smul, norm_neg, Real.norm_eq_abs, abs_of_pos hd] at h5
  have h7 : ‖g‖ / 2 ≤ t * ‖u‖ := by
    have : (C + t) * ‖u‖ ≤ 2 * t * ‖u‖ := mul_le_mul_of_nonneg_right (by linarith) hnu
    linarith
  have h8 : ‖g‖ / 4 * ‖u‖ ≤ u ⬝ᵥ g := by
    have h9 : t * ‖u‖ ^ 2 ≤ t * (u ⬝ᵥ u) := mul_le_mul_of_nonneg_left h4 ht0.le
    have h10 : ‖g‖ / 4 * ‖u‖ ≤ t * ‖u‖ * ‖u‖ := mul_le_mul_of_nonneg_right (by linarith) hnu
    nlinarith
  have h9 := mul_le_mul_of_nonneg_left h8 hd.le
  rw [not_lt]
  linarith

/-- With the derivative of the errors and a direction of descent, Armijo backtracking without limits returns, and the error gets smaller. -/
theorem C101_armijo (a : Armijo ℝ) (hβ : 0 < a.beta) (hβ1 : a.beta < 1) (hγ : 0 < a.gamma) (hγ1 : a.gamma < 1) (hmax : 0 < a.maxStepLen) (hmin : a.minStepLen = 0)
    (hit : a.maxIt = 0) (e : ErrorFunction ℝ n m) (x d : Fin n → ℝ) (h : Exact e x) (hd : ∑ i, e.gradient x i * d i < 0) :
    ∃ len, a.Search e x d len ∧ 0 < len ∧ cost e (x + len • d) < cost e x := by
  set D := ∑ i, e.gradient x i * d i with hD
  have hex : ∃ k : Nat, Sufficient e x d (e.gradient x) a.gamma (a.maxStepLen * a.beta ^ k) := by
    obtain ⟨δ, hδ, hlit⟩ := cost_little e x h ((1 - a.gamma) * (-D) / (‖d‖ + 1)) (by
      have := norm_nonneg d
      apply div_pos (mul_pos (by linarith) (by linarith)) (by linarith))
    obtain ⟨k, hk⟩ := exists_pow_lt_of_lt_one (show 0 < δ / (a.maxStepLen * (‖d‖ + 1)) by
      have := norm_nonneg d
      positivity) hβ1
    refine ⟨k, ?_⟩
    have hn := norm_nonneg d
    have hp : 0 < a.beta ^ k := pow_pos hβ k
    rw [lt_div_iff₀ (by positivity)] at hk
    set t := a.maxStepLen * a.beta ^ k with ht
    have ht0 : 0 < t := mul_pos hmax hp
    have htn : t * (‖d‖ + 1) < δ := by
      calc t * (‖d‖ + 1) = a.beta ^ k * (a.maxStepLen * (‖d‖ + 1)) := by rw [ht]; ring
        _ < δ := hk
    have hsd : ‖t • d‖ = t * ‖d‖ := by rw [norm_smul, Real.norm_eq_abs, abs_of_pos ht0]
    have h5 := (abs_le.1 (hlit (t • d) (by rw [hsd]; nlinarith))).2
    have h6 : ∑ i, e.gradient x i * (t • d) i = t * D := by
      rw [hD, Finset.mul_sum]
      refine Finset.sum_congr rfl fun i _ => ?_
      simp only [Pi.smul_apply, smul_eq_mul]
      ring
    rw [h6, hsd] at h5
    have h7 : (1 - a.gamma) * (-D) / (‖d‖ + 1) * (t * ‖d‖) ≤ (1 - a.gamma) * (-D) * t := by
      rw [div_mul_eq_mul_div, div_le_iff₀ (by linarith)]
      have : 0 ≤ (1 - a.gamma) * (-D) * t := by
        apply mul_nonneg (mul_nonneg (by linarith) (by linarith)) ht0.le
      nlinarith
    unfold Sufficient
    rw [← hD]
    nlinarith
  obtain ⟨len, hlen⟩ := (C100_armijo_returns_iff a e x d hβ hmax hmin.le hit).2 hex
  refine ⟨len, hlen, ?_⟩
  obtain ⟨k, -, -, ⟨h1, h2⟩ | ⟨h1, h2, -⟩ | ⟨h1, h2⟩⟩ := C100_armijo_result a e x d len hlen
  · have h0 : 0 < len := h1 ▸ mul_pos hmax (pow_pos hβ k)
    refine ⟨h0, ?_⟩
    unfold Sufficient at h2
    have := mul_neg_of_pos_of_neg (mul_pos hγ h0) hd
    rw [← hD] at h2
    linarith
  · omega
  · have := mul_pos hmax (pow_pos hβ k)
    linarith

end real

/-- A solver of systems with one unknown -/
def divide : Solver Rat 1 := fun A b _ => b 0 / A 0 0

theorem divide_solves : Solves divide where
  solves := by
    rintro A b ⟨s, hs⟩
    have h0 := congrFun hs 0
    simp [Matrix.mulVec, dotProduct] at h0
    funext i
    fin_cases i
    simp [Matrix.mulVec, dotProduct, divide]
    by_cases hA : A 0 0 = 0
    · rw [← h0, hA]; simp
    · field_simp
  zero := by
    intro A
    funext i
    simp [divide]

/-- Gauss-Newton for the errors `2 x - 3` with finite differences: the result is `3 / 2`. -/
example : ∃ r l', ({ alg := .gaussNewton 1, errorFunc := ⟨fun x _ => 2 * x 0 - 3, fun _ => none, 1 / 1000⟩, lineSearch := .off, solver := divide, maxIt := 0, eps := 0 } :
    Optimizer Rat 1 1).Optimize 1 (fun _ => 7) r l' ∧ r.converged ∧ ∀ y, cost (⟨fun x _ => 2 * x 0 - 3, fun _ => none, 1 / 1000⟩ : ErrorFunction Rat 1 1) r.state ≤
      cost (⟨fun x _ => 2 * x 0 - 3, fun _ => none, 1 / 1000⟩ : ErrorFunction Rat 1 1) y := by
  have h := C101_linear ({ alg := .gaussNewton 1, errorFunc := ⟨fun x _ => 2 * x 0 - 3, fun _ => none, 1 / 1000⟩, lineSearch := .off, solver := divide, maxIt := 0, eps := 0 } :
    Optimizer Rat 1 1) rfl rfl divide_solves le_rfl (fun _ _ => 2) (fun _ => -3) (by
      intro x
      funext i
      simp [Matrix.mulVec, dotProduct]
      ring) (fun x => Or.inr ⟨rfl, by norm_num⟩) 1 (fun _ => 7)
  obtain ⟨r, l', hr⟩ := h.1
  have h2 := h.2 r l' hr
  exact ⟨r, l', hr, h2.1, h2.2.2 (Or.inl rfl)⟩

/-- The identity has its derivative, so Levenberg-Marquardt returns for each solver which solves. -/
example (solve : Solver ℝ 1) (hs : Solves solve) : ∃ out l', (Algorithm.levenbergMarquardt 1 0).NewtonStep (identity ℝ) solve 1 (fun _ => 5)
    ((identity ℝ).evaluate fun _ => 5).1 ((identity ℝ).evaluate fun _ => 5).2 out l' := by
  apply C101_returns (identity ℝ) solve hs 1 1 one_pos one_pos
  unfold Exact
  have h1 : LinearMap.toContinuousLinearMap ((identity ℝ).evaluate fun _ => 5).2.mulVecLin = ContinuousLinearMap.id ℝ (Fin 1 → ℝ) := by
    ext v
    simp [identity, ErrorFunction.evaluate]
  rw [h1]
  exact hasFDerivAt_id _

end Stempy.Props.LeastSquares
