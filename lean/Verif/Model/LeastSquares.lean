import Mathlib.Data.Matrix.Mul
import Mathlib.Algebra.Order.Field.Basic
import Mathlib.Data.Fin.VecNotation

/-!
# thirdparty/least-squares-cpp/include/lsq: error functions, line searches and optimizers

The library is in the include path of stempy (CMakeLists.txt:29). `Scalar` is a linearly ordered field `K` (no rounding, no overflow); a
vector is a function on `Fin n`. The solver of linear equation systems is a parameter; the errors of `SolverDenseCholesky` and
`SolverSparseCholesky` are left out, as are the outputs on the console and the deletion of the objects which an optimizer owns. An error
function has the same number of errors for all states, and its Jacobian has the right size (asserted in error_function.h:80-81).
-/

namespace Stempy.LeastSquares

/-- A `while` loop with the condition `cond` and the body `body`: from `s` it ends in `t`. A loop which does not end is related to nothing. -/
inductive While {S : Type} (cond : S → Prop) (body : S → S → Prop) : S → S → Prop where
  | stop {s} (h : ¬ cond s) : While cond body s s
  | step {s t u} (h : cond s) (hb : body s t) (hw : While cond body t u) : While cond body s u

variable {K : Type} [Field K] [LinearOrder K] {n m : Nat}

/-- error_function.h:15-34: `jacobian` is `none` if `_evaluate` does not touch `outJacobian`; `fdEps` is `fdEps_`. -/
structure ErrorFunction (K : Type) (n m : Nat) where
  value : (Fin n → K) → Fin m → K
  jacobian : (Fin n → K) → Option (Matrix (Fin m) (Fin n) K)
  fdEps : K

/-- error_function.h:46-66 `computeFiniteDifferences` -/
def ErrorFunction.finiteDifferences (e : ErrorFunction K n m) (state : Fin n → K) (errValue : Fin m → K) : Matrix (Fin m) (Fin n) K :=
  fun r i => (e.value (Function.update state i (state i + e.fdEps)) r - errValue r) / e.fdEps

/-- error_function.h:72-82 `evaluate`: `outValue` and `outJacobian` -/
def ErrorFunction.evaluate (e : ErrorFunction K n m) (state : Fin n → K) : (Fin m → K) × Matrix (Fin m) (Fin n) K :=
  (e.value state, (e.jacobian state).getD (e.finiteDifferences state (e.value state)))

/-- error_function.h:90-93 `squaredError` -/
def squaredError (errorVec : Fin m → K) : K := 1 / 2 * (errorVec ⬝ᵥ errorVec)

/-- `squaredError` after `evaluate(state, ...)` -/
def ErrorFunction.errorAt (e : ErrorFunction K n m) (state : Fin n → K) : K := squaredError (e.evaluate state).1

/-- line_search_algorithm.h:20-23; `maxIt = 0` means no limit. -/
structure Bounds (K : Type) where
  maxIt : Nat
  maxStepLen : K
  minStepLen : K

/-- `maxIt_ == 0 || iterations < maxIt_` -/
def Goes (maxIt iterations : Nat) : Prop := maxIt = 0 ∨ iterations < maxIt

/-- `setBounds`, line_search_algorithm.h:52-58; `none`: the assertion fails. -/
def setBounds (b : Bounds K) (minLen maxLen : K) : Option (Bounds K) :=
  if minLen < maxLen then some { b with maxStepLen := maxLen, minStepLen := minLen } else none

/-! ## armijo_backtracking.h -/

/-- armijo_backtracking.h:18-20 -/
structure Armijo (K : Type) extends Bounds K where
  beta : K
  gamma : K

/-- `setBeta`, armijo_backtracking.h:54-58 -/
def Armijo.setBeta (a : Armijo K) (beta : K) : Option (Armijo K) :=
  if 0 < beta ∧ beta < 1 then some { a with beta := beta } else none

/-- `setGamma`, armijo_backtracking.h:64-68 -/
def Armijo.setGamma (a : Armijo K) (gamma : K) : Option (Armijo K) :=
  if 0 < gamma ∧ gamma < 1 / 2 then some { a with gamma := gamma } else none

/-- armijo_backtracking.h:31-41 `armijoCondition` -/
def armijoCondition (currVal refVal : K) (refGrad step : Fin n → K) (stepLen gamma : K) : Prop :=
  currVal ≤ refVal + gamma * stepLen * (refGrad ⬝ᵥ step)

/-- The local variables of `search` which change. -/
structure ArmijoState (K : Type) where
  result : K
  currVal : K
  iterations : Nat

/-- armijo_backtracking.h:83: the gradient of the squared error -/
def ErrorFunction.gradient (e : ErrorFunction K n m) (state : Fin n → K) : Fin n → K :=
  (e.evaluate state).2.transpose.mulVec (e.evaluate state).1

/-- The condition of armijo_backtracking.h:91-94. -/
def Armijo.cond (a : Armijo K) (e : ErrorFunction K n m) (state step : Fin n → K) (s : ArmijoState K) : Prop :=
  ¬ armijoCondition s.currVal (e.errorAt state) (e.gradient state) step s.result a.gamma ∧ Goes a.maxIt s.iterations ∧ a.minStepLen < s.result

/-- armijo_backtracking.h:95-104 -/
def Armijo.body (a : Armijo K) (e : ErrorFunction K n m) (state step : Fin n → K) (s t : ArmijoState K) : Prop :=
  t = { result := s.result * a.beta
        currVal := e.errorAt (state + (s.result * a.beta) • step)
        iterations := s.iterations + 1 }

/-- armijo_backtracking.h:70-110 `search`: it returns `len`. -/
def Armijo.Search (a : Armijo K) (e : ErrorFunction K n m) (state step : Fin n → K) (len : K) : Prop :=
  ∃ t, While (a.cond e state step) (a.body e state step)
      { result := a.maxStepLen, currVal := e.errorAt (state + a.maxStepLen • step), iterations := 0 } t ∧
    len = max t.result a.minStepLen

/-! ## increasing_line_search.h -/

/-- increasing_line_search.h:19-22 -/
structure Increasing (K : Type) extends Bounds K where
  beta : K

/-- `setBeta`, increasing_line_search.h:33-37: the assertion is about the old factor. -/
def Increasing.setBeta (a : Increasing K) (beta : K) : Option (Increasing K) :=
  if 1 < a.beta then some { a with beta := beta } else none

structure IncreasingState (K : Type) where
  currLen : K
  lastLen : K
  lastErr : K
  currErr : K
  iterations : Nat

/-- The condition of increasing_line_search.h:55-57. -/
def Increasing.cond (a : Increasing K) (s : IncreasingState K) : Prop :=
  s.currErr < s.lastErr ∧ Goes a.maxIt s.iterations ∧ s.lastLen < a.maxStepLen

/-- increasing_line_search.h:58-65: `iterations` is not changed. -/
def Increasing.body (a : Increasing K) (e : ErrorFunction K n m) (state step : Fin n → K) (s t : IncreasingState K) : Prop :=
  t = { currLen := s.currLen * a.beta
        lastLen := s.currLen
        lastErr := s.currErr
        currErr := e.errorAt (state + (s.currLen * a.beta) • step)
        iterations := s.iterations }

/-- increasing_line_search.h:44-53 -/
def Increasing.init (a : Increasing K) (e : ErrorFunction K n m) (state step : Fin n → K) : IncreasingState K :=
  { currLen := a.minStepLen
    lastLen := a.minStepLen
    lastErr := e.errorAt state
    currErr := e.errorAt (state + a.minStepLen • step)
    iterations := 0 }

/-- increasing_line_search.h:39-70 `search`: it returns `len`. -/
def Increasing.Search (a : Increasing K) (e : ErrorFunction K n m) (state step : Fin n → K) (len : K) : Prop :=
  ∃ t, While a.cond (a.body e state step) (a.init e state step) t ∧ len = min t.lastLen a.maxStepLen

/-! ## optimization_algorithm.h, gauss_newton.h, gradient_descent.h, levenberg_marquardt.h -/

/-- `lineSearch_`, optimization_algorithm.h:22 -/
inductive LineSearch (K : Type) where
  | off
  | armijo (a : Armijo K)
  | increasing (a : Increasing K)

/-- optimization_algorithm.h:141-148 `performLineSearch` -/
def LineSearch.Performs (l : LineSearch K) (e : ErrorFunction K n m) (state step : Fin n → K) (len : K) : Prop :=
  match l with
  | .off => len = 1
  | .armijo a => a.Search e state step len
  | .increasing a => a.Search e state step len

/-- The solver: `solve(A, b)`, solver.h:15-26. -/
abbrev Solver (K : Type) (n : Nat) := Matrix (Fin n) (Fin n) K → (Fin n → K) → Fin n → K

/-- The three optimizers with their parameters, but `lambda_`, which changes. -/
inductive Algorithm (K : Type) where
  | gaussNewton (damping : K)
  | gradientDescent (damping : K)
  | levenbergMarquardt (damping : K) (maxItLM : Nat)

/-- The local variables of levenberg_marquardt.h:56-104 which change, and `lambda_`. -/
structure LMState (K : Type) (n : Nat) where
  lambda : K
  iterations : Nat
  found : Bool
  outStep : Fin n → K

/-- levenberg_marquardt.h:77-85: the step for `lambda_`. -/
def lmStep (solve : Solver K n) (damping : K) (errValue : Fin m → K) (errJacobian : Matrix (Fin m) (Fin n) K) (lambda : K) : Fin n → K :=
  (-damping) • solve (errJacobian.transpose * errJacobian + Matrix.diagonal fun _ => lambda) (errJacobian.transpose.mulVec errValue)

/-- levenberg_marquardt.h:77-105, the body of the loop. -/
def lmBody (e : ErrorFunction K n m) (solve : Solver K n) (damping : K) (state : Fin n → K) (errValue : Fin m → K)
    (errJacobian : Matrix (Fin m) (Fin n) K) (s t : LMState K n) : Prop :=
  let step := lmStep solve damping errValue errJacobian s.lambda
  if squaredError errValue < e.errorAt (state + step) then
    t = { lambda := s.lambda * 2, iterations := s.iterations + 1, found := false, outStep := step }
  else t = { lambda := s.lambda / 2, iterations := s.iterations + 1, found := true, outStep := step }

/-- `computeNewtonStep`: `outStep` and the new `lambda_`. -/
def Algorithm.NewtonStep (alg : Algorithm K) (e : ErrorFunction K n m) (solve : Solver K n) (lambda : K) (state : Fin n → K)
    (errValue : Fin m → K) (errJacobian : Matrix (Fin m) (Fin n) K) (outStep : Fin n → K) (lambda' : K) : Prop :=
  match alg with
  | .gaussNewton damping =>
    outStep = (-damping) • solve (errJacobian.transpose * errJacobian) (errJacobian.transpose.mulVec errValue) ∧ lambda' = lambda
  | .gradientDescent damping => outStep = (-damping) • errJacobian.transpose.mulVec errValue ∧ lambda' = lambda
  | .levenbergMarquardt damping maxItLM =>
    ∃ t, While (fun s : LMState K n => s.found = false ∧ Goes maxItLM s.iterations) (lmBody e solve damping state errValue errJacobian)
        { lambda := lambda, iterations := 0, found := false, outStep := 0 } t ∧ outStep = t.outStep ∧ lambda' = t.lambda

/-- The members of an optimizer, optimization_algorithm.h:21-27. -/
structure Optimizer (K : Type) (n m : Nat) where
  alg : Algorithm K
  errorFunc : ErrorFunction K n m
  lineSearch : LineSearch K
  solver : Solver K n
  maxIt : Nat
  eps : K

/-- The local variables of `optimize`, and `lambda_`. -/
structure OptState (K : Type) (n : Nat) where
  state : Fin n → K
  error : K
  scaledStep : Fin n → K
  lambda : K
  iterations : Nat

/-- optimization_algorithm.h:182-186 and 197-201: the next state increment for `state`. -/
def Optimizer.Increment (o : Optimizer K n m) (lambda : K) (state : Fin n → K) (iterations : Nat) (t : OptState K n) : Prop :=
  ∃ step stepLen, o.alg.NewtonStep o.errorFunc o.solver lambda state (o.errorFunc.evaluate state).1 (o.errorFunc.evaluate state).2 step t.lambda ∧
    o.lineSearch.Performs o.errorFunc state step stepLen ∧ t.state = state ∧ t.scaledStep = stepLen • step ∧
    t.error = squaredError (o.errorFunc.evaluate state).1 ∧ t.iterations = iterations

/-- `v.norm() > eps`, without the square root. -/
def NormGt (v : Fin n → K) (eps : K) : Prop := eps < 0 ∨ eps * eps < v ⬝ᵥ v

/-- The condition of optimization_algorithm.h:190. -/
def Optimizer.cond (o : Optimizer K n m) (s : OptState K n) : Prop := NormGt s.scaledStep o.eps ∧ Goes o.maxIt s.iterations

/-- optimization_algorithm.h:191-206 -/
def Optimizer.body (o : Optimizer K n m) (s t : OptState K n) : Prop := o.Increment s.lambda (s.state + s.scaledStep) (s.iterations + 1) t

/-- optimization_algorithm.h:56-66 -/
structure Result (K : Type) (n : Nat) where
  state : Fin n → K
  error : K
  iterations : Nat
  converged : Prop

/-- optimization_algorithm.h:169-218 `optimize`: it returns `r`; `lambda_` is `lambda` before the call and `lambda'` after it. -/
def Optimizer.Optimize (o : Optimizer K n m) (lambda : K) (state : Fin n → K) (r : Result K n) (lambda' : K) : Prop :=
  ∃ s t, o.Increment lambda state 0 s ∧ While o.cond o.body s t ∧
    r = { state := t.state, error := t.error, iterations := t.iterations, converged := ¬ NormGt t.scaledStep o.eps } ∧ lambda' = t.lambda

end Stempy.LeastSquares
