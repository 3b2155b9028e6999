import Verif.Model.FloatPixels
import Verif.Model.SafeCast
import Mathlib.Data.Int.Log

/-!
# Rounding to single precision

The value of a `float` operation is the exact result rounded to the format `float32` of `Model/SafeCast` (IEEE 754, binary32). What is
used of a rounding mode is in `Rounds`; `f32` is the default mode, to nearest with ties to even. There is one zero.
-/

namespace Stempy.Float32
open Stempy.FloatPixels (Fl)
open Stempy.SafeCast (float32)

/-- A rounding mode: numbers of the format stay, all others become a number of the format or infinite, and the order is kept. This holds
for every rounding mode of IEEE 754. -/
structure Rounds (rd : Rat → Fl) : Prop where
  fix : ∀ q, float32.Has q → rd q = .fin q
  has : ∀ q r, rd q = .fin r → float32.Has r
  mono : ∀ a b r s, a ≤ b → rd a = .fin r → rd b = .fin s → r ≤ s
  pinf : ∀ a b, a ≤ b → rd a = .pinf → rd b = .pinf
  ninf : ∀ a b, a ≤ b → rd b = .ninf → rd a = .ninf
  number : ∀ q, rd q ≠ .nan

/-- The integer next to `x`, the even one if there are two. -/
def roundEven (x : Rat) : Int :=
  if x - ⌊x⌋ < 1 / 2 then ⌊x⌋
  else if 1 / 2 < x - ⌊x⌋ then ⌊x⌋ + 1
  else if ⌊x⌋ % 2 = 0 then ⌊x⌋ else ⌊x⌋ + 1

/-- Exponent of the last digit of the numbers of the format around `q`. -/
def expo (q : Rat) : Int := if q = 0 then -149 else max (Int.log 2 |q| - 23) (-149)

/-- Rounding to nearest, ties to even (IEEE 754-2019, 4.3.1). -/
def f32 (q : Rat) : Fl :=
  if 2 ^ 128 - 2 ^ 103 ≤ |q| then (if 0 < q then .pinf else .ninf)
  else .fin (roundEven (q / 2 ^ expo q) * 2 ^ expo q)

end Stempy.Float32
