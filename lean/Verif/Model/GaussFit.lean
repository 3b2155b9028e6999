import Mathlib.Analysis.SpecialFunctions.Exp

/-!
Model of the error functor of the Gaussian fit in `stempy/electronthresholds.cpp`.

`double` is replaced by the real numbers. The state `x` is the triple (height, mean, deviation). The
Levenberg–Marquardt solver is Eigen's and not modelled.
-/

namespace Stempy.GaussFit

/-- The state of the fit, electronthresholds.cpp:158-161: `x[0]`, `x[1]`, `x[2]`. -/
structure State where
  x0 : ℝ
  x1 : ℝ
  x2 : ℝ

/-- `GaussianErrorFunctor::operator()`, electronthresholds.cpp:42-50: `fvec`. -/
noncomputable def residuals (bins histogram : List ℝ) (x : State) : List ℝ :=
  let variance := x.x2 ^ 2
  List.zipWith (fun b h =>
    let num := -(b - x.x1) ^ 2
    x.x0 * Real.exp (num / (2 * variance)) - h) bins histogram

/-- `GaussianErrorFunctor::df`, electronthresholds.cpp:52-69: the rows of the Jacobian, one per bin. -/
noncomputable def jacobian (bins : List ℝ) (x : State) : List (ℝ × ℝ × ℝ) :=
  let variance := x.x2 ^ 2
  let den := 2 * variance
  bins.map fun b =>
    let tmp := b - x.x1
    let num := -tmp ^ 2
    let j0 := Real.exp (num / den)
    let j1 := x.x0 * tmp * j0 / variance
    (j0, j1, tmp * j1 / x.x2)

/-- The result taken from the state, electronthresholds.cpp:170-175: mean, deviation and the background
threshold. -/
noncomputable def fitResult (x : State) (nSigma : ℝ) : ℝ × ℝ × ℝ :=
  let mean := x.x1
  let stdDev := |x.x2|
  (mean, stdDev, mean + stdDev * nSigma)

end Stempy.GaussFit
