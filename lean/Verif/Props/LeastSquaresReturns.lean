import Verif.Props.LeastSquaresLinear

/-! # C101 continued: when `optimize` returns, and C100: what the setters let through -/

namespace Stempy.Props.LeastSquares
open Stempy.LeastSquares

variable {K : Type} [Field K] [LinearOrder K] [IsStrictOrderedRing K] {n m : Nat}

/-! ## The setters -/

/-- A call of a setter of Armijo backtracking -/
inductive ArmijoSetter (K : Type) where
  | bounds (minLen maxLen : K)
  | beta (b : K)
  | gamma (g : K)

def ArmijoSetter.run (a : Armijo K) : ArmijoSetter K → Option (Armijo K)
  | .bounds l u => (setBounds a.toBounds l u).map fun b => { a with toBounds := b }
  | .beta b => a.setBeta b
  | .gamma g => a.setGamma g

omit [IsStrictOrderedRing K] in
/-- Whatever setters of an object with the parameters of a new one were called, if no assertion failed, then the factors are in their ranges and the bounds are in their
order. -/
theorem C100_setters (a b : Armijo K) (ha : (0 < a.beta ∧ a.beta < 1) ∧ (0 < a.gamma ∧ a.gamma < 1 / 2) ∧ a.minStepLen < a.maxStepLen) (calls : List (ArmijoSetter K))
    (h : calls.foldlM ArmijoSetter.run a = some b) : (0 < b.beta ∧ b.beta < 1) ∧ (0 < b.gamma ∧ b.gamma < 1 / 2) ∧ b.minStepLen < b.maxStepLen ∧ b.maxIt = a.maxIt := by
  suffices hs : ∀ c : Armijo K, (0 < c.beta ∧ c.beta < 1) ∧ (0 < c.gamma ∧ c.gamma < 1 / 2) ∧ c.minStepLen < c.maxStepLen ∧ c.maxIt = a.maxIt →
      ∀ calls : List (ArmijoSetter K), calls.foldlM ArmijoSetter.run c = some b →
        (0 < b.beta ∧ b.beta < 1) ∧ (0 < b.gamma ∧ b.gamma < 1 / 2) ∧ b.minStepLen < b.maxStepLen ∧ b.maxIt = a.maxIt from
    hs a ⟨ha.1, ha.2.1, ha.2.2, rfl⟩ calls h
  clear h calls
  intro c hc calls
  induction calls generalizing c with
  | nil =>
    intro h
    simp only [List.foldlM_nil, Option.pure_def, Option.some.injEq] at h
    exact h ▸ hc
  | cons s calls ih =>
    intro h
    rw [List.foldlM_cons] at h
    cases hr : ArmijoSetter.run c s with
    | none => rw [hr] at h; cases h
    | some d =>
      rw [hr] at h
      refine ih d ?_ h
      cases s with
      | bounds l u =>
        simp only [ArmijoSetter.run, setBounds] at hr
        split at hr
        · cases hr
          exact ⟨hc.1, hc.2.1, by assumption, hc.2.2.2⟩
        · cases hr
      | beta t =>
        simp only [ArmijoSetter.run, Armijo.setBeta] at hr
        split at hr
        · cases hr
          exact ⟨by assumption, hc.2⟩
        · cases hr
      | gamma t =>
        simp only [ArmijoSetter.run, Armijo.setGamma] at hr
        split at hr
        · cases hr
          exact ⟨hc.1, by assumption, hc.2.2⟩
        · cases hr

omit [IsStrictOrderedRing K] in
/-- The assertions fail for other parameters only. -/
theorem C100_setters_accept (a : Armijo K) (l u b g : K) :
    ((setBounds a.toBounds l u).isSome ↔ l < u) ∧ ((a.setBeta b).isSome ↔ 0 < b ∧ b < 1) ∧ ((a.setGamma g).isSome ↔ 0 < g ∧ g < 1 / 2) := by
  refine ⟨?_, ?_, ?_⟩
  · unfold setBounds; split <;> simp [*]
  · unfold Armijo.setBeta; split <;> simp [*]
  · unfold Armijo.setGamma; split <;> simp only [Option.isSome_some, Option.isSome_none, *] <;> simp

omit [IsStrictOrderedRing K] in
/-- And they are the parameters of the next search. -/
theorem C100_setters_set (a c : Armijo K) (l u b g : K) :
    (setBounds a.toBounds l u = some c.toBounds → c.minStepLen = l ∧ c.maxStepLen = u ∧ c.maxIt = a.maxIt) ∧
      (a.setBeta b = some c → c.beta = b ∧ c.gamma = a.gamma ∧ c.toBounds = a.toBounds) ∧
      (a.setGamma g = some c → c.gamma = g ∧ c.beta = a.beta ∧ c.toBounds = a.toBounds) := by
  refine ⟨fun h => ?_, fun h => ?_, fun h => ?_⟩
  · unfold setBounds at h
    split at h
    · simp only [Option.some.injEq] at h
      rw [← h]
      exact ⟨rfl, rfl, rfl⟩
    · cases h
  · unfold Armijo.setBeta at h
    split at h
    · cases h
      exact ⟨rfl, rfl, rfl⟩
    · cases h
  · unfold Armijo.setGamma at h
    split at h
    · cases h
      exact ⟨rfl, rfl, rfl⟩
    · cases h

/-! ## With a limit of the iterations -/

/-- If a step can be computed from each state, as long as `λ` has the property `P`, then `optimize` returns, or the steps never get small and there is no limit. -/
theorem exists_optimize (o : Optimizer K n m) (P : K → Prop) (hP : ∀ l x, P l → ∃ s l', Steps o l x s l' ∧ P l') (l : K) (hl : P l) (x : Fin n → K) (hit : o.maxIt ≠ 0) :
    ∃ r l', o.Optimize l x r l' := by
  classical
  choose s l' h1 h2 using hP
  -- state and `λ` after `k` steps
  let next : (Fin n → K) × { l : K // P l } → (Fin n → K) × { l : K // P l } := fun p => (p.1 + s p.2.1 p.1 p.2.2, ⟨l' p.2.1 p.1 p.2.2, h2 _ _ _⟩)
  let q : Nat → (Fin n → K) × { l : K // P l } := fun k => next^[k] (x, ⟨l, hl⟩)
  have hq : ∀ k, q (k + 1) = next (q k) := fun k => Function.iterate_succ_apply' _ _ _
  let ss : Nat → Fin n → K := fun k => s (q k).2.1 (q k).1 (q k).2.2
  have hex : ∃ k, Small (ss k) o.eps ∨ (o.maxIt ≠ 0 ∧ o.maxIt ≤ k) := ⟨o.maxIt, Or.inr ⟨hit, le_refl _⟩⟩
  obtain ⟨r, hr, -⟩ := optimize_of_run o l x (Nat.find hex) (fun k => (q k).1) ss (fun k => (q k).2.1)
    ⟨rfl, rfl, fun j _ => by
      have := h1 (q j).2.1 (q j).1 (q j).2.2
      simp only [hq]
      exact this, fun j _ => by simp only [hq]; rfl⟩
    (fun j hj => by
      have := Nat.find_min hex hj
      push Not at this
      exact ⟨this.1, Or.inr (this.2 hit)⟩) (Nat.find_spec hex)
  exact ⟨r, _, hr⟩

/-- The line searches with parameters in their ranges -/
def LineSearch.Valid : LineSearch K → Prop
  | .off => True
  | .armijo a => 0 < a.beta ∧ a.beta < 1 ∧ 0 < a.minStepLen ∧ a.minStepLen ≤ a.maxStepLen
  | .increasing a => 1 < a.beta ∧ 0 < a.minStepLen ∧ a.minStepLen ≤ a.maxStepLen

/-- With a limit of the iterations, a limit of the search of `λ` and a line search whose parameters are in their ranges, `optimize` returns, for all errors, Jacobians,
solvers and initial states; the error of the result is that of its state and the iterations are within the limit. -/
theorem C101_limit_returns [Archimedean K] (o : Optimizer K n m) (hit : o.maxIt ≠ 0) (halg : ∀ damping, o.alg ≠ .levenbergMarquardt damping 0)
    (hls : LineSearch.Valid o.lineSearch) (l : K) (x : Fin n → K) :
    (∃ r l', o.Optimize l x r l') ∧ ∀ r l', o.Optimize l x r l' → r.iterations ≤ o.maxIt ∧ r.error = (∑ i, o.errorFunc.value r.state i ^ 2) / 2 := by
  refine ⟨exists_optimize o (fun _ => True) (fun l x _ => ?_) l trivial x hit, fun r l' h => ?_⟩
  · have hstep : ∃ step l', o.alg.NewtonStep o.errorFunc o.solver l x (o.errorFunc.evaluate x).1 (o.errorFunc.evaluate x).2 step l' := by
      cases ha : o.alg with
      | gaussNewton d => exact ⟨_, _, rfl, rfl⟩
      | gradientDescent d => exact ⟨_, _, rfl, rfl⟩
      | levenbergMarquardt d N =>
        have hN : N ≠ 0 := by
          rintro rfl
          exact halg d ha
        classical
        by_cases hr : ∀ j < N, Rejected o.errorFunc o.solver d x (l * 2 ^ j)
        · exact ⟨_, _, (lm_iff _ _ _ _ _ _ _ _).2 (Or.inr ⟨hN, hr, rfl, rfl⟩)⟩
        · push Not at hr
          have hex : ∃ k, ¬ Rejected o.errorFunc o.solver d x (l * 2 ^ k) := by
            obtain ⟨j, -, hj⟩ := hr
            exact ⟨j, hj⟩
          refine ⟨_, _, (lm_iff _ _ _ _ _ _ _ _).2 (Or.inl ⟨Nat.find hex, Or.inr ?_, fun j hj => not_not.1 (Nat.find_min hex hj), Nat.find_spec hex, rfl, rfl⟩)⟩
          obtain ⟨j, hj, hj'⟩ := hr
          exact lt_of_le_of_lt (Nat.find_min' hex hj') hj
    obtain ⟨step, l', hs⟩ := hstep
    have hlen : ∃ len, o.lineSearch.Performs o.errorFunc x step len := by
      cases hl : o.lineSearch with
      | off => exact ⟨1, rfl⟩
      | armijo a =>
        rw [hl] at hls
        obtain ⟨len, h, -⟩ := (C100_armijo a o.errorFunc x step hls.1 hls.2.1 hls.2.2.1 hls.2.2.2).1
        exact ⟨len, h⟩
      | increasing a =>
        rw [hl] at hls
        obtain ⟨len, h, -⟩ := (C100_increasing a o.errorFunc x step hls.1 hls.2.1 hls.2.2).1
        exact ⟨len, h⟩
    obtain ⟨len, hlen⟩ := hlen
    exact ⟨_, l', ⟨step, len, hs, hlen, rfl⟩, trivial⟩
  · obtain ⟨xs, ss, ls, -, -, -, e2, -, -, -, e6⟩ := C101_result o l x r l' h
    exact ⟨(e6 hit).1, e2⟩

/-- Levenberg-Marquardt without a limit for `λ` and with the derivative of the errors returns within the limit of the iterations, and the error does not increase. -/
theorem C101_lm_returns (o : Optimizer ℝ n m) (damping : ℝ) (halg : o.alg = .levenbergMarquardt damping 0) (hls : o.lineSearch = .off) (hs : Solves o.solver) (hd : 0 < damping)
    (h : ∀ x, Exact o.errorFunc x) (hit : o.maxIt ≠ 0) (l : ℝ) (hl : 0 < l) (x : Fin n → ℝ) :
    ∃ r l', o.Optimize l x r l' ∧ r.iterations ≤ o.maxIt ∧ r.error ≤ (∑ i, o.errorFunc.value x i ^ 2) / 2 := by
  obtain ⟨r, l', hr⟩ := exists_optimize o (fun l => 0 < l) (fun l x hl => by
    obtain ⟨out, l', hn⟩ := C101_returns o.errorFunc o.solver hs damping l hd hl x (h x)
    refine ⟨_, l', ⟨out, 1, halg ▸ hn, hls ▸ rfl, rfl⟩, ?_⟩
    rcases (lm_iff _ _ _ _ _ _ _ _).1 hn with ⟨k, -, -, -, -, rfl⟩ | ⟨hn, -⟩
    · positivity
    · exact absurd rfl hn) l hl x hit
  obtain ⟨xs, ss, ls, -, -, -, -, -, -, -, e6⟩ := C101_result o l x r l' hr
  exact ⟨r, l', hr, (e6 hit).1, C101_monotone o damping halg hls l x r l' hr⟩

/-- With finite differences this is false: whatever the limit of the iterations and the other parameters are, there is a polynomial in one variable for which `optimize`
does not return. -/
theorem C101_lm_returns_false (o : Optimizer K 1 1) (damping h : K) (halg : o.alg = .levenbergMarquardt damping 0) (hs : Solves o.solver) (hd0 : 0 < damping) (hd : damping ≤ 1)
    (hh : 0 < h) (he : o.errorFunc = hill h) (l : K) (hl : 0 < l) (r : Result K 1) (l' : K) : ¬ o.Optimize l (fun _ => 0) r l' := by
  intro hr
  obtain ⟨xs, ss, ls, hrun, -⟩ := C101_result o l _ r l' hr
  obtain ⟨step, len, h1, -⟩ := hrun.steps 0 (Nat.zero_le _)
  rw [hrun.first, hrun.lambda, halg, he] at h1
  exact C101_differences_false o.solver hs h l damping hh hl hd0 hd _ _ h1

/-- The parameters of a new object, armijo_backtracking.h:44-46 -/
def newArmijo : Armijo Rat := { maxIt := 0, maxStepLen := 1, minStepLen := 1 / 10 ^ 6, beta := 4 / 5, gamma := 1 / 10 }

example : ∃ r l', (⟨.gradientDescent 1, identity Rat, .armijo newArmijo, fun _ b => b, 10, 1 / 10 ^ 6⟩ : Optimizer Rat 1 1).Optimize 1 (fun _ => 3) r l' :=
  (C101_limit_returns _ (by decide) (by simp) (by simp only [LineSearch.Valid, newArmijo]; norm_num) _ _).1

example : ∃ b, [ArmijoSetter.bounds 0 2, .beta (1 / 2), .gamma (1 / 3)].foldlM ArmijoSetter.run newArmijo = some b ∧ b.maxStepLen = 2 := by
  refine ⟨{ maxIt := 0, maxStepLen := 2, minStepLen := 0, beta := 1 / 2, gamma := 1 / 3 }, ?_, rfl⟩
  norm_num [ArmijoSetter.run, setBounds, Armijo.setBeta, Armijo.setGamma, newArmijo]

end Stempy.Props.LeastSquares
