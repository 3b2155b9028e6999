import Verif.Props.LeastSquares
import Mathlib.LinearAlgebra.Matrix.Rank
import Mathlib.Analysis.Matrix.Normed
import Mathlib.Analysis.Calculus.FDeriv.Mul
import Mathlib.Analysis.Calculus.FDeriv.Add
import Mathlib.Analysis.Calculus.FDeriv.Pow
import Mathlib.Analysis.Normed.Module.FiniteDimension

/-! # C101: the optimizers of least-squares-cpp -/

set_option linter.unusedSectionVars false

namespace Stempy.Props.LeastSquares
open Stempy.LeastSquares

variable {K : Type} [Field K] [LinearOrder K] [IsStrictOrderedRing K] {n m : Nat}

/-- The solver solves: a system with a solution, and with the solution zero if the right side is zero. This holds for the solution of minimal norm, which
the singular value decomposition gives, with exact arithmetic. -/
structure Solves (solve : Solver K n) : Prop where
  solves : ∀ (A : Matrix (Fin n) (Fin n) K) b, (∃ s, A.mulVec s = b) → A.mulVec (solve A b) = b
  zero : ∀ A, solve A 0 = 0

/-! ## The steps of Levenberg-Marquardt -/

section lm
variable (e : ErrorFunction K n m) (solve : Solver K n) (damping : K) (x : Fin n → K)

/-- The step of the damped system: `-damping * solve(JᵀJ + λ I, Jᵀ r)` with the values and the Jacobian at `x`. -/
def trial (l : K) : Fin n → K := lmStep solve damping (e.evaluate x).1 (e.evaluate x).2 l

/-- The error after the step is larger. -/
def Rejected (l : K) : Prop := cost e x < cost e (x + trial e solve damping x l)

open Classical in
noncomputable def lmNext (s : LMState K n) : LMState K n :=
  if Rejected e solve damping x s.lambda then
    { lambda := s.lambda * 2, iterations := s.iterations + 1, found := false, outStep := trial e solve damping x s.lambda }
  else { lambda := s.lambda / 2, iterations := s.iterations + 1, found := true, outStep := trial e solve damping x s.lambda }

theorem squared_eq : squaredError (e.evaluate x).1 = cost e x := errorAt_eq e x

theorem lmBody_iff (s t : LMState K n) : lmBody e solve damping x (e.evaluate x).1 (e.evaluate x).2 s t ↔ t = lmNext e solve damping x s := by
  simp only [lmBody, squared_eq, errorAt_eq, lmNext]
  by_cases h : Rejected e solve damping x s.lambda
  · rw [if_pos h]
    rw [if_pos (show cost e x < cost e (x + lmStep solve damping (e.evaluate x).1 (e.evaluate x).2 s.lambda) from h)]
    rfl
  · rw [if_neg h]
    rw [if_neg (show ¬ cost e x < cost e (x + lmStep solve damping (e.evaluate x).1 (e.evaluate x).2 s.lambda) from h)]
    rfl

theorem lm_iterate (l : K) (k : Nat) (h : ∀ j < k, Rejected e solve damping x (l * 2 ^ j)) :
    (lmNext e solve damping x)^[k] { lambda := l, iterations := 0, found := false, outStep := 0 } =
      { lambda := l * 2 ^ k, iterations := k, found := false, outStep := if k = 0 then 0 else trial e solve damping x (l * 2 ^ (k - 1)) } := by
  induction k with
  | zero => simp
  | succ k ih =>
    rw [Function.iterate_succ_apply', ih (fun j hj => h j (by omega))]
    rw [lmNext, if_pos (h k (by omega))]
    simp [pow_succ, mul_assoc]

/-- Levenberg-Marquardt returns the first step which is not rejected, for `λ`, `2 λ`, `4 λ`, ...; or, if as many as allowed are rejected, the last of
them. -/
theorem lm_iff (N : Nat) (l : K) (out : Fin n → K) (l' : K) :
    (Algorithm.levenbergMarquardt damping N).NewtonStep e solve l x (e.evaluate x).1 (e.evaluate x).2 out l' ↔
      (∃ k, (N = 0 ∨ k < N) ∧ (∀ j < k, Rejected e solve damping x (l * 2 ^ j)) ∧ ¬ Rejected e solve damping x (l * 2 ^ k) ∧
        out = trial e solve damping x (l * 2 ^ k) ∧ l' = l * 2 ^ k / 2) ∨
      (N ≠ 0 ∧ (∀ j < N, Rejected e solve damping x (l * 2 ^ j)) ∧ out = trial e solve damping x (l * 2 ^ (N - 1)) ∧ l' = l * 2 ^ N) := by
  simp only [Algorithm.NewtonStep]
  have hacc : ∀ k, (∀ j < k, Rejected e solve damping x (l * 2 ^ j)) → ¬ Rejected e solve damping x (l * 2 ^ k) →
      (lmNext e solve damping x)^[k + 1] { lambda := l, iterations := 0, found := false, outStep := 0 } =
        { lambda := l * 2 ^ k / 2, iterations := k + 1, found := true, outStep := trial e solve damping x (l * 2 ^ k) } := by
    intro k hj hk
    rw [Function.iterate_succ_apply', lm_iterate e solve damping x l k hj, lmNext, if_neg hk]
  constructor
  · rintro ⟨t, ht, rfl, rfl⟩
    obtain ⟨k, rfl, h1, h2⟩ := (while_iff _ (lmBody_iff e solve damping x) _ _).1 ht
    by_cases hall : ∀ j < k, Rejected e solve damping x (l * 2 ^ j)
    · rw [lm_iterate e solve damping x l k hall] at h2 ⊢
      simp only [true_and] at h2
      unfold Goes at h2
      push Not at h2
      have hkN : k = N := by
        rcases k with _ | k
        · omega
        · have := h1 k (by omega)
          rw [lm_iterate e solve damping x l k (fun j hj => hall j (by omega))] at this
          rcases this.2 with h | h
          · exact absurd h h2.1
          · simp only at h; omega
      subst hkN
      exact Or.inr ⟨h2.1, hall, by rw [if_neg h2.1], rfl⟩
    · push Not at hall
      classical
      have hex : ∃ j, j < k ∧ ¬ Rejected e solve damping x (l * 2 ^ j) := hall
      obtain ⟨hj1, hj2⟩ := Nat.find_spec hex
      have hmin : ∀ i < Nat.find hex, Rejected e solve damping x (l * 2 ^ i) := fun i hi => by
        by_contra hr
        exact Nat.find_min hex hi ⟨by omega, hr⟩
      generalize Nat.find hex = j at hj1 hj2 hmin
      have hg := h1 j hj1
      rw [lm_iterate e solve damping x l j hmin] at hg
      have hk : k = j + 1 := by
        by_contra hne
        have := (h1 (j + 1) (by omega)).1
        rw [hacc j hmin hj2] at this
        exact absurd this (by simp)
      subst hk
      rw [hacc j hmin hj2]
      exact Or.inl ⟨j, hg.2, hmin, hj2, rfl, rfl⟩
  · rintro (⟨k, hg, hj, hk, rfl, rfl⟩ | ⟨hN, hj, rfl, rfl⟩)
    · refine ⟨_, (while_iff _ (lmBody_iff e solve damping x) _ _).2 ⟨k + 1, rfl, fun j hlt => ?_, ?_⟩, ?_, ?_⟩
      · rw [lm_iterate e solve damping x l j (fun i hi => hj i (by omega))]
        refine ⟨rfl, ?_⟩
        unfold Goes
        simp only
        omega
      · rw [hacc k hj hk]
        simp
      · rw [hacc k hj hk]
      · rw [hacc k hj hk]
    · refine ⟨_, (while_iff _ (lmBody_iff e solve damping x) _ _).2 ⟨N, rfl, fun j hlt => ?_, ?_⟩, ?_, ?_⟩
      · rw [lm_iterate e solve damping x l j (fun i hi => hj i (by omega))]
        exact ⟨rfl, Or.inr hlt⟩
      · rw [lm_iterate e solve damping x l N hj]
        simp [Goes, hN]
      · rw [lm_iterate e solve damping x l N hj, if_neg hN]
      · rw [lm_iterate e solve damping x l N hj]

end lm

/-! ## The run of an optimizer -/

/-- From `x` with `λ` the optimizer makes the step `s`, and `λ` becomes `l'`. -/
def Steps (o : Optimizer K n m) (l : K) (x s : Fin n → K) (l' : K) : Prop :=
  ∃ step len, o.alg.NewtonStep o.errorFunc o.solver l x (o.errorFunc.evaluate x).1 (o.errorFunc.evaluate x).2 step l' ∧
    o.lineSearch.Performs o.errorFunc x step len ∧ s = len • step

/-- The states `xs 0`, ..., `xs k` with the steps `ss 0`, ..., `ss k` computed there; the last step is not made. -/
structure IsRun (o : Optimizer K n m) (l : K) (x : Fin n → K) (k : Nat) (xs ss : Nat → Fin n → K) (ls : Nat → K) : Prop where
  first : xs 0 = x
  lambda : ls 0 = l
  steps : ∀ j ≤ k, Steps o (ls j) (xs j) (ss j) (ls (j + 1))
  moves : ∀ j < k, xs (j + 1) = xs j + ss j

/-- The norm of `v` is at most `eps`. -/
def Small (v : Fin n → K) (eps : K) : Prop := 0 ≤ eps ∧ ∑ i, v i ^ 2 ≤ eps ^ 2

theorem not_normGt (v : Fin n → K) (eps : K) : ¬ NormGt v eps ↔ Small v eps := by
  unfold NormGt Small dotProduct
  push Not
  simp only [pow_two]

theorem run_of_while {o : Optimizer K n m} {s t : OptState K n} (h : While o.cond o.body s t) :
    ∀ l x i, o.Increment l x i s → ∃ k xs ss ls, IsRun o l x k xs ss ls ∧ t.state = xs k ∧ t.scaledStep = ss k ∧ t.lambda = ls (k + 1) ∧
      t.error = cost o.errorFunc (xs k) ∧ t.iterations = i + k ∧ (∀ j < k, ¬ Small (ss j) o.eps ∧ (o.maxIt = 0 ∨ i + j < o.maxIt)) ∧
      (Small (ss k) o.eps ∨ (o.maxIt ≠ 0 ∧ o.maxIt ≤ i + k)) := by
  induction h with
  | @stop s hc =>
    rintro l x i ⟨step, len, h1, h2, h3, h4, h5, h6⟩
    refine ⟨0, fun _ => x, fun _ => s.scaledStep, fun j => if j = 0 then l else s.lambda, ⟨rfl, rfl, ?_, fun _ h => absurd h (Nat.not_lt_zero _)⟩, h3, rfl, rfl, ?_,
      by omega, fun _ h => absurd h (Nat.not_lt_zero _), ?_⟩
    · intro j hj
      obtain rfl : j = 0 := by omega
      exact ⟨step, len, h1, h2, h4⟩
    · rw [h5, squared_eq]
    · unfold Optimizer.cond at hc
      by_cases hn : NormGt s.scaledStep o.eps
      · have : ¬ Goes o.maxIt s.iterations := fun hg => hc ⟨hn, hg⟩
        unfold Goes at this
        push Not at this
        exact Or.inr ⟨this.1, by omega⟩
      · exact Or.inl ((not_normGt _ _).1 hn)
  | @step s u t hc hb _ ih =>
    rintro l x i ⟨step, len, h1, h2, h3, h4, h5, h6⟩
    obtain ⟨k, xs, ss, ls, hr, e1, e2, e3, e4, e5, e6, e7⟩ := ih s.lambda (s.state + s.scaledStep) (s.iterations + 1) hb
    refine ⟨k + 1, fun j => if j = 0 then x else xs (j - 1), fun j => if j = 0 then s.scaledStep else ss (j - 1),
      fun j => if j = 0 then l else ls (j - 1), ⟨rfl, rfl, ?_, ?_⟩, by simpa using e1, by simpa using e2, by simpa using e3, by simpa using e4, by omega, ?_, ?_⟩
    · rintro (_ | j) hj
      · refine ⟨step, len, ?_, h2, h4⟩
        simp only [zero_add, one_ne_zero, if_false, Nat.sub_self, if_true]
        rw [hr.lambda]
        exact h1
      · simpa using hr.steps j (by omega)
    · rintro (_ | j) hj
      · simp only [zero_add, one_ne_zero, if_false, Nat.sub_self, if_true]
        rw [hr.first, h3]
      · simpa using hr.moves j (by omega)
    · rintro (_ | j) hj
      · refine ⟨fun hs => (not_normGt _ _).2 hs hc.1, ?_⟩
        have := hc.2
        unfold Goes at this
        omega
      · have := e6 j (by omega)
        simp only [Nat.add_eq_zero_iff, one_ne_zero, and_false, if_false, Nat.add_sub_cancel]
        refine ⟨this.1, ?_⟩
        omega
    · simp only [Nat.add_eq_zero_iff, one_ne_zero, and_false, if_false, Nat.add_sub_cancel]
      rcases e7 with h | h
      · exact Or.inl h
      · exact Or.inr ⟨h.1, by omega⟩

/-- The result of `optimize`: the states are those of a run, moved by each step as long as the steps are longer than `eps` and the limit is not reached. The
error is that of the resulting state, the number of iterations is that of the moves, and "converged" says that the next step is at most `eps` long. -/
theorem C101_result (o : Optimizer K n m) (l : K) (x : Fin n → K) (r : Result K n) (l' : K) (h : o.Optimize l x r l') :
    ∃ xs ss ls, IsRun o l x r.iterations xs ss ls ∧ r.state = xs r.iterations ∧ l' = ls (r.iterations + 1) ∧
      r.error = (∑ i, o.errorFunc.value r.state i ^ 2) / 2 ∧
      (r.converged ↔ Small (ss r.iterations) o.eps) ∧ (∀ j < r.iterations, ¬ Small (ss j) o.eps) ∧
      (o.maxIt = 0 → r.converged) ∧ (o.maxIt ≠ 0 → r.iterations ≤ o.maxIt ∧ (r.iterations < o.maxIt → r.converged)) := by
  obtain ⟨s, t, hi, hw, rfl, rfl⟩ := h
  obtain ⟨k, xs, ss, ls, hr, e1, e2, e3, e4, e5, e6, e7⟩ := run_of_while hw l x 0 hi
  simp only [Nat.zero_add] at e5 e6 e7
  simp only
  rw [e5]
  refine ⟨xs, ss, ls, hr, e1, e3, ?_, ?_, fun j hj => (e6 j hj).1, fun h0 => ?_, fun h0 => ⟨?_, fun hlt => ?_⟩⟩
  · rw [e4, e1]; rfl
  · rw [e2, not_normGt]
  · rw [e2, not_normGt]
    exact e7.resolve_right fun h => h.1 h0
  · rcases k with _ | k
    · omega
    · rcases (e6 k (by omega)).2 with h | h
      · exact absurd h h0
      · omega
  · rw [e2, not_normGt]
    exact e7.resolve_right fun h => by omega

/-- The same run is the only way to the result: a run which satisfies the conditions of the loop makes `optimize` return. -/
theorem optimize_of_run (o : Optimizer K n m) (l : K) (x : Fin n → K) (k : Nat) (xs ss : Nat → Fin n → K) (ls : Nat → K) (hr : IsRun o l x k xs ss ls)
    (hgo : ∀ j < k, ¬ Small (ss j) o.eps ∧ (o.maxIt = 0 ∨ j < o.maxIt)) (hend : Small (ss k) o.eps ∨ (o.maxIt ≠ 0 ∧ o.maxIt ≤ k)) :
    ∃ r, o.Optimize l x r (ls (k + 1)) ∧ r.state = xs k ∧ r.iterations = k ∧ (r.converged ↔ Small (ss k) o.eps) := by
  let st : Nat → OptState K n := fun j => ⟨xs j, cost o.errorFunc (xs j), ss j, ls (j + 1), j⟩
  have hinc : ∀ j ≤ k, o.Increment (ls j) (xs j) j (st j) := by
    intro j hj
    obtain ⟨step, len, h1, h2, h3⟩ := hr.steps j hj
    exact ⟨step, len, h1, h2, rfl, h3, (squared_eq _ _).symm, rfl⟩
  have hw : ∀ i, i ≤ k → While o.cond o.body (st (k - i)) (st k) := by
    intro i
    induction i with
    | zero =>
      intro _
      refine .stop fun hc => ?_
      rcases hend with h | h
      · exact (not_normGt _ _).2 h hc.1
      · have := hc.2
        unfold Goes at this
        change o.maxIt = 0 ∨ k < o.maxIt at this
        omega
    | succ i ih =>
      intro hi
      have hk : k - i = (k - (i + 1)) + 1 := by omega
      refine .step ?_ ?_ (ih (by omega))
      · refine ⟨by_contra fun h => (hgo (k - (i + 1)) (by omega)).1 ((not_normGt _ _).1 h), (hgo (k - (i + 1)) (by omega)).2⟩
      · have := hinc (k - i) (by omega)
        rw [hk, hr.moves _ (by omega)] at this
        rw [hk]
        exact this
  refine ⟨⟨xs k, cost o.errorFunc (xs k), k, ¬ NormGt (ss k) o.eps⟩, ⟨st 0, st k, ?_, ?_, rfl, rfl⟩, rfl, rfl, not_normGt _ _⟩
  · have := hinc 0 (Nat.zero_le _)
    rw [hr.first, hr.lambda] at this
    exact this
  · have := hw k le_rfl
    rwa [Nat.sub_self] at this

/-! ## Levenberg-Marquardt does not increase the error, if it may try as often as it likes -/

/-- Without line search and without a limit for the search of `λ` the error of the result is not larger than that of the initial state. -/
theorem C101_monotone (o : Optimizer K n m) (damping : K) (halg : o.alg = .levenbergMarquardt damping 0) (hls : o.lineSearch = .off) (l : K) (x : Fin n → K)
    (r : Result K n) (l' : K) (h : o.Optimize l x r l') : r.error ≤ (∑ i, o.errorFunc.value x i ^ 2) / 2 := by
  obtain ⟨xs, ss, ls, hr, e1, -, e2, -⟩ := C101_result o l x r l' h
  have hstep : ∀ j < r.iterations, cost o.errorFunc (xs (j + 1)) ≤ cost o.errorFunc (xs j) := by
    intro j hj
    obtain ⟨step, len, h1, h2, h3⟩ := hr.steps j hj.le
    rw [halg] at h1
    rw [hls] at h2
    have h2 : len = 1 := h2
    rw [h2, one_smul] at h3
    rcases (lm_iff _ _ _ _ _ _ _ _).1 h1 with ⟨k, -, -, hk, hs, -⟩ | ⟨hn, -⟩
    · rw [hr.moves j hj, h3, hs]
      exact not_lt.1 hk
    · exact absurd rfl hn
  have hall : ∀ j ≤ r.iterations, cost o.errorFunc (xs j) ≤ cost o.errorFunc (xs 0) := by
    intro j
    induction j with
    | zero => intro _; exact le_rfl
    | succ j ih => intro hj; exact (hstep j (by omega)).trans (ih (by omega))
  have := hall r.iterations le_rfl
  rw [hr.first] at this
  rw [e2, e1]
  exact this

theorem solve_one {solve : Solver K 1} (hs : Solves solve) {A : Matrix (Fin 1) (Fin 1) K} (hA : A 0 0 ≠ 0) (b : Fin 1 → K) : solve A b = fun _ => b 0 / A 0 0 := by
  have h := hs.solves A b ⟨fun _ => b 0 / A 0 0, by
    funext i
    fin_cases i
    simp [Matrix.mulVec, dotProduct]
    field_simp⟩
  have h0 := congrFun h 0
  simp [Matrix.mulVec, dotProduct] at h0
  funext i
  fin_cases i
  rw [eq_div_iff hA, mul_comm]
  exact h0

/-- `1 - x + c x²` and its derivative -/
def bent (c : K) : ErrorFunction K 1 1 := ⟨fun x _ => 1 - x 0 + c * x 0 ^ 2, fun x => some fun _ _ => -1 + 2 * c * x 0, 1⟩

theorem trial_one {solve : Solver K 1} (hs : Solves solve) (e : ErrorFunction K 1 1) (damping : K) (x : Fin 1 → K) (l : K) (hl : 0 < l) :
    trial e solve damping x l = fun _ => -damping * ((e.evaluate x).2 0 0 * (e.evaluate x).1 0 / ((e.evaluate x).2 0 0 ^ 2 + l)) := by
  have hA : ((e.evaluate x).2.transpose * (e.evaluate x).2 + Matrix.diagonal fun _ => l : Matrix (Fin 1) (Fin 1) K) 0 0 = (e.evaluate x).2 0 0 ^ 2 + l := by
    simp [Matrix.mul_apply, pow_two]
  unfold trial lmStep
  rw [solve_one hs (by rw [hA]; positivity)]
  rw [hA]
  funext i
  simp [Matrix.mulVec, dotProduct]

/-- With a limit for the search of `λ` the last step is made though it is rejected: whatever the limit is, there is an error function with its exact
derivative for which the optimizer with the parameters of a new object returns a larger error. -/
theorem C101_limit_false (N : Nat) (hN : N ≠ 0) (solve : Solver K 1) (hs : Solves solve) (eps : K) (h0 : 0 ≤ eps) (heps : eps < 1 / (1 + 2 ^ (N - 1))) :
    ∃ r l', ({ alg := .levenbergMarquardt 1 N, errorFunc := bent (1 + 2 ^ N), lineSearch := .off, solver := solve, maxIt := 1, eps := eps } :
        Optimizer K 1 1).Optimize 1 (fun _ => 0) r l' ∧ (∑ i, (bent (K := K) (1 + 2 ^ N)).value (fun _ => 0) i ^ 2) / 2 < r.error := by
  set e : ErrorFunction K 1 1 := bent (1 + 2 ^ N) with he
  have ht : ∀ j : Nat, trial e solve 1 (fun _ => 0) (1 * 2 ^ j) = fun _ => 1 / (1 + 2 ^ j) := by
    intro j
    rw [trial_one hs e 1 _ _ (by positivity)]
    have hv : (e.evaluate fun _ => 0).1 0 = 1 := by simp [he, bent, ErrorFunction.evaluate]
    have hj : (e.evaluate fun _ => 0).2 0 0 = -1 := by
      change -1 + 2 * (1 + 2 ^ N) * (0 : K) = -1
      ring
    rw [hv, hj]
    funext _
    ring
  have hc0 : cost e (fun _ => 0) = 1 / 2 := by simp [cost, he, bent]
  have hrej : ∀ j < N, Rejected e solve 1 (fun _ => 0) (1 * 2 ^ j) := by
    intro j hj
    unfold Rejected
    rw [ht, hc0]
    simp only [cost, he, bent, Finset.univ_unique, Finset.sum_const, Finset.card_singleton, one_smul, Pi.add_apply, zero_add]
    have hp : (0 : K) < 1 + 2 ^ j := by positivity
    have hlt : (2 : K) ^ j < 2 ^ N := pow_lt_pow_right₀ (by norm_num) hj
    have h1 : (1 : K) < 1 - 1 / (1 + 2 ^ j) + (1 + 2 ^ N) * (1 / (1 + 2 ^ j)) ^ 2 := by
      have : (1 : K) - 1 / (1 + 2 ^ j) + (1 + 2 ^ N) * (1 / (1 + 2 ^ j)) ^ 2 = 1 + ((2 : K) ^ N - 2 ^ j) / (1 + 2 ^ j) ^ 2 := by
        field_simp
        ring
      rw [this]
      have : 0 < ((2 : K) ^ N - 2 ^ j) / (1 + 2 ^ j) ^ 2 := div_pos (by linarith) (by positivity)
      linarith
    nlinarith
  have hend : ∃ out l', (Algorithm.levenbergMarquardt 1 N).NewtonStep e solve (1 * 2 ^ N)
      ((fun _ => 0) + fun _ => 1 / (1 + 2 ^ (N - 1))) (e.evaluate ((fun _ => 0) + fun _ => 1 / (1 + 2 ^ (N - 1)))).1
      (e.evaluate ((fun _ => 0) + fun _ => 1 / (1 + 2 ^ (N - 1)))).2 out l' := by
    by_cases hall : ∀ j < N, Rejected e solve 1 ((fun _ => 0) + fun _ => 1 / (1 + 2 ^ (N - 1))) (1 * 2 ^ N * 2 ^ j)
    · exact ⟨_, _, (lm_iff _ _ _ _ _ _ _ _).2 (Or.inr ⟨hN, hall, rfl, rfl⟩)⟩
    · push Not at hall
      classical
      obtain ⟨hj1, hj2⟩ := Nat.find_spec hall
      exact ⟨_, _, (lm_iff _ _ _ _ _ _ _ _).2 (Or.inl ⟨Nat.find hall, Or.inr hj1, fun i hi => by
        by_contra hr
        exact Nat.find_min hall hi ⟨by omega, hr⟩, hj2, rfl, rfl⟩)⟩
  obtain ⟨out, l', hout⟩ := hend
  have hstep0 : (Algorithm.levenbergMarquardt 1 N).NewtonStep e solve 1 (fun _ => 0) (e.evaluate fun _ => 0).1 (e.evaluate fun _ => 0).2
      (fun _ => 1 / (1 + 2 ^ (N - 1))) (1 * 2 ^ N) := by
    refine (lm_iff _ _ _ _ _ _ _ _).2 (Or.inr ⟨hN, hrej, ?_, rfl⟩)
    rw [ht]
  let o : Optimizer K 1 1 := { alg := .levenbergMarquardt 1 N, errorFunc := e, lineSearch := .off, solver := solve, maxIt := 1, eps := eps }
  obtain ⟨r, hr1, hr2, hr3, -⟩ := optimize_of_run o 1 (fun _ => 0) 1
    (fun j => if j = 0 then fun _ => 0 else (fun _ => 0) + fun _ => 1 / (1 + 2 ^ (N - 1)))
    (fun j => if j = 0 then fun _ => 1 / (1 + 2 ^ (N - 1)) else out) (fun j => if j = 0 then 1 else if j = 1 then 1 * 2 ^ N else l')
    ⟨rfl, rfl, by
      intro j hj
      have hj' : j = 0 ∨ j = 1 := by omega
      rcases hj' with rfl | rfl
      · exact ⟨_, 1, hstep0, rfl, (one_smul _ _).symm⟩
      · exact ⟨_, 1, hout, rfl, (one_smul _ _).symm⟩, by
      intro j hj
      obtain rfl : j = 0 := by omega
      rfl⟩ (by
      intro j hj
      obtain rfl : j = 0 := by omega
      refine ⟨?_, Or.inr (by norm_num)⟩
      rintro ⟨-, h⟩
      simp only [if_true, Finset.univ_unique, Finset.sum_const, Finset.card_singleton, one_smul] at h
      have hp : (0 : K) < 1 / (1 + 2 ^ (N - 1)) := by positivity
      have : o.eps = eps := rfl
      rw [this] at h
      nlinarith) (Or.inr ⟨by simp [o], by simp [o]⟩)
  refine ⟨r, _, hr1, ?_⟩
  obtain ⟨_, _, _, _, _, _, he2, _⟩ := C101_result o _ _ _ _ hr1
  have h5 := hrej (N - 1) (by omega)
  unfold Rejected at h5
  rw [ht] at h5
  rw [he2, hr2]
  exact h5

/-- With `setLambda(0)` and a first step which is rejected the search of `λ` does not end. -/
theorem C101_lambda_false (e : ErrorFunction K n m) (solve : Solver K n) (damping : K) (x : Fin n → K) (h : Rejected e solve damping x 0) (out : Fin n → K) (l' : K) :
    ¬ (Algorithm.levenbergMarquardt damping 0).NewtonStep e solve 0 x (e.evaluate x).1 (e.evaluate x).2 out l' := by
  intro hn
  rcases (lm_iff _ _ _ _ _ _ _ _).1 hn with ⟨k, -, -, hk, -⟩ | ⟨hn, -⟩
  · rw [zero_mul] at hk
    exact hk h
  · exact hn rfl

/-- `1 + 2 (x / h) - 4 (x / h)²`, without a derivative -/
def hill (h : K) : ErrorFunction K 1 1 := ⟨fun x _ => 1 + 2 * (x 0 / h) - 4 * (x 0 / h) ^ 2, fun _ => none, h⟩

/-- With finite differences the search of `λ` may not end, whatever the difference `fdEps_` and `λ` are, and the damping in (0, 1]: the error function is a polynomial
whose slope at `x` has another sign than the difference. -/
theorem C101_differences_false (solve : Solver K 1) (hs : Solves solve) (h l damping : K) (hh : 0 < h) (hl : 0 < l) (hd0 : 0 < damping) (hd : damping ≤ 1) (out : Fin 1 → K)
    (l' : K) : ¬ (Algorithm.levenbergMarquardt damping 0).NewtonStep (hill h) solve l (fun _ => 0) ((hill h).evaluate fun _ => 0).1 ((hill h).evaluate fun _ => 0).2 out l' := by
  have hrej : ∀ l : K, 0 < l → Rejected (hill h) solve damping (fun _ => 0) l := by
    intro l hl
    have hv : ((hill h).evaluate fun _ => 0).1 0 = 1 := by simp [hill, ErrorFunction.evaluate]
    have hj : ((hill h).evaluate fun _ => 0).2 0 0 = -2 / h := by
      simp [hill, ErrorFunction.evaluate, ErrorFunction.finiteDifferences]
      field_simp
      norm_num
    unfold Rejected
    rw [trial_one hs _ _ _ _ hl, hv, hj]
    have hc0 : cost (hill h) (fun _ => 0) = 1 / 2 := by simp [cost, hill]
    rw [hc0]
    simp only [cost, hill, Finset.univ_unique, Finset.sum_const, Finset.card_singleton, one_smul, Pi.add_apply, zero_add, mul_one]
    set y := -damping * (-2 / h / ((-2 / h) ^ 2 + l)) / h with hy
    have hy2 : y = damping * 2 / (4 + l * h ^ 2) := by
      rw [hy]
      field_simp
      ring
    have hp : 0 < 4 + l * h ^ 2 := by positivity
    have h1 : 0 < y := by rw [hy2]; positivity
    have h2 : y < 1 / 2 := by
      rw [hy2, div_lt_div_iff₀ hp (by norm_num)]
      have : 0 < l * h ^ 2 := by positivity
      linarith
    nlinarith [mul_pos h1 (by linarith : 0 < 1 / 2 - y)]
  intro hn
  rcases (lm_iff _ _ _ _ _ _ _ _).1 hn with ⟨k, -, -, hk, -⟩ | ⟨hn, -⟩
  · exact hk (hrej _ (by positivity))
  · exact hn rfl

end Stempy.Props.LeastSquares
