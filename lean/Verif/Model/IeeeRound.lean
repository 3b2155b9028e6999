import Verif.Model.Float32

/-!
# Rounding to a binary floating point format

As `Model/Float32`, for any format of `Model/SafeCast`: what is used of a rounding mode, and rounding to nearest with ties to even. There is one zero.
-/

namespace Stempy.IeeeRound
open Stempy.FloatPixels (Fl)
open Stempy.SafeCast (Format float64)
open Stempy.Float32 (roundEven)

/-- A rounding mode: numbers of the format stay, all others become a number of the format or infinite, and the order is kept. This holds
for every rounding mode of IEEE 754. Numbers between two numbers of the format do not become infinite. -/
structure Rounds (f : Format) (rd : Rat → Fl) : Prop where
  fix : ∀ q, f.Has q → rd q = .fin q
  has : ∀ q r, rd q = .fin r → f.Has r
  mono : ∀ a b r s, a ≤ b → rd a = .fin r → rd b = .fin s → r ≤ s
  pinf : ∀ a b, a ≤ b → rd a = .pinf → rd b = .pinf
  ninf : ∀ a b, a ≤ b → rd b = .ninf → rd a = .ninf
  number : ∀ q, rd q ≠ .nan

/-- Exponent of the last digit of the numbers of the format around `q`. -/
def expo (f : Format) (q : Rat) : Int := if q = 0 then f.emin else max (Int.log 2 |q| - (f.p - 1 : Nat)) f.emin

/-- Rounding to nearest, ties to even (IEEE 754-2019, 4.3.1). -/
def nearest (f : Format) (q : Rat) : Fl :=
  if (2 ^ f.p - 1 / 2) * (2 : Rat) ^ f.emax ≤ |q| then (if 0 < q then .pinf else .ninf)
  else .fin (roundEven (q / 2 ^ expo f q) * 2 ^ expo f q)

/-- The result of a floating point operation. -/
def rnd (rd : Rat → Fl) : Fl → Fl
  | .fin q => rd q
  | v => v

end Stempy.IeeeRound
