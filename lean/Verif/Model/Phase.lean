import Mathlib.Analysis.SpecialFunctions.Trigonometric.Basic
import Mathlib.Analysis.SpecialFunctions.Complex.Log

/-!
# python/stempy/image/__init__.py:731-778 `phase_from_com`

Arrays of `ny` rows and `nx` columns are functions of the row and the column. Numbers are exact real and complex numbers, and
`numpy.fft.fft2`, `ifft2` and `fftfreq` are the sums of their definitions.
-/

namespace Stempy.Phase
open Complex Finset

/-- `numpy.fft.fftfreq(n)`: 0, 1, …, (n-1)//2, -(n//2), …, -1, divided by n. -/
noncomputable def fftfreq (n k : ℕ) : ℝ := if k < (n - 1) / 2 + 1 then (k : ℝ) / n else ((k : ℝ) - n) / n

/-- `numpy.fft.fft2` -/
noncomputable def fft2 (ny nx : ℕ) (a : ℕ → ℕ → ℂ) (k l : ℕ) : ℂ :=
  ∑ y ∈ range ny, ∑ x ∈ range nx, a y x * exp (-(2 * Real.pi * I * (k * y / ny + l * x / nx)))

/-- `numpy.fft.ifft2` -/
noncomputable def ifft2 (ny nx : ℕ) (a : ℕ → ℕ → ℂ) (y x : ℕ) : ℂ :=
  (∑ k ∈ range ny, ∑ l ∈ range nx, a k l * exp (2 * Real.pi * I * (k * y / ny + l * x / nx))) / (ny * nx)

/-- image/__init__.py:754-761: the rotated (and mirrored) center of mass. -/
noncomputable def rotate (theta : ℝ) (flip : Bool) (c0 c1 : ℕ → ℕ → ℝ) : (ℕ → ℕ → ℝ) × (ℕ → ℕ → ℝ) :=
  if flip then
    (fun y x => c0 y x * Real.cos theta + c1 y x * Real.sin theta,
      fun y x => c0 y x * Real.sin theta - c1 y x * Real.cos theta)
  else
    (fun y x => c0 y x * Real.cos theta - c1 y x * Real.sin theta,
      fun y x => c0 y x * Real.sin theta + c1 y x * Real.cos theta)

/-- image/__init__.py:771 and 774 -/
noncomputable def numerator (ny nx : ℕ) (a b : ℕ → ℕ → ℂ) (k l : ℕ) : ℂ :=
  if k = 0 ∧ l = 0 then 0 else fftfreq ny k * fft2 ny nx a k l + fftfreq nx l * fft2 ny nx b k l

/-- image/__init__.py:772 and 775 -/
noncomputable def denominator (ny nx : ℕ) (reg : ℝ) (k l : ℕ) : ℂ :=
  if k = 0 ∧ l = 0 then 1 else 2 * Real.pi * I * ((fftfreq nx l : ℂ) ^ 2 + (fftfreq ny k : ℂ) ^ 2) + reg

/-- image/__init__.py:731-778 -/
noncomputable def phaseFromCom (ny nx : ℕ) (c0 c1 : ℕ → ℕ → ℝ) (theta : ℝ) (flip : Bool) (reg : ℝ) (y x : ℕ) : ℝ :=
  let c := rotate theta flip c0 c1
  (ifft2 ny nx (fun k l => numerator ny nx (fun y x => (c.1 y x : ℂ)) (fun y x => (c.2 y x : ℂ)) k l /
    denominator ny nx reg k l) y x).re

end Stempy.Phase
