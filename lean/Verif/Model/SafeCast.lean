import Verif.Basic
import Mathlib.Algebra.Order.Field.Power
import Mathlib.Algebra.Order.Field.Rat
import Mathlib.Data.Set.Finite.Lattice
import Mathlib.Data.Int.Interval

/-! `_safe_cast` (python/stempy/image/__init__.py 718-728) and the conversions of `numpy.ndarray.astype` it uses.

The conversions depend on the machine: how values are rounded to a floating point type, and what a value outside of the range
of an integer type is converted to. Both are parameters (`Machine`); `Faithful` has what is assumed about rounding. Signed zeros
are not distinguished (they are equal in numpy), complex types are not modelled. -/

namespace Stempy.SafeCast

/-- An element of a numpy array. -/
inductive Val where
  | num (q : Rat)
  | posInf
  | negInf
  | nan
  deriving DecidableEq, Repr

/-- `x != y` in numpy: `NaN` differs from everything. -/
def neq (x y : Val) : Bool := decide (x ≠ y) || decide (x = .nan)

/-- A binary floating point format: the finite values are `m * 2^e` with `|m| < 2^p` and `emin ≤ e ≤ emax`. -/
structure Format where
  p : Nat
  emin : Int
  emax : Int
  deriving DecidableEq

def float16 : Format := ⟨11, -24, 5⟩
def float32 : Format := ⟨24, -149, 104⟩
def float64 : Format := ⟨53, -1074, 971⟩

/-- The finite values of a format. -/
def Format.Has (f : Format) (q : Rat) : Prop :=
  ∃ m e : Int, |m| < 2 ^ f.p ∧ f.emin ≤ e ∧ e ≤ f.emax ∧ q = m * (2 : Rat) ^ e

/-- A dtype: an integer type with its bits, or a floating point type. -/
inductive DType where
  | int (signed : Bool) (bits : Nat)
  | float (f : Format)
  deriving DecidableEq

/-- Least integer of an integer type. -/
def intMin (signed : Bool) (bits : Nat) : Int := if signed then -2 ^ (bits - 1) else 0

/-- One past the largest integer of an integer type. -/
def intEnd (signed : Bool) (bits : Nat) : Int := if signed then 2 ^ (bits - 1) else 2 ^ bits

/-- The elements an array of a dtype can have. -/
def DType.Has : DType → Val → Prop
  | .int s n, .num q => ∃ z : Int, q = z ∧ intMin s n ≤ z ∧ z < intEnd s n
  | .int _ _, _ => False
  | .float f, .num q => f.Has q
  | .float _, _ => True

/-- The conversions which depend on the machine. -/
structure Machine where
  /-- Rounding of a number to a floating point format. -/
  round : Format → Rat → Val
  /-- Conversion to an integer type of a floating point value outside of its range. -/
  outside : Bool → Nat → Val → Int

/-- Truncation towards zero. -/
def trunc (q : Rat) : Int := if 0 ≤ q then q.floor else q.ceil

/-- Conversion between integer types: modulo `2^bits`. -/
def wrap (signed : Bool) (bits : Nat) (z : Int) : Int := (z - intMin signed bits) % 2 ^ bits + intMin signed bits

/-- `astype` for one element: from a dtype to another. -/
def cast (M : Machine) : DType → DType → Val → Val
  | .int _ _, .int s n, .num q => .num (wrap s n q.floor)
  | .float _, .int s n, .num q =>
    .num (if intMin s n ≤ trunc q ∧ trunc q < intEnd s n then trunc q else M.outside s n (.num q))
  | _, .int s n, v => .num (M.outside s n v)
  | _, .float f, .num q => M.round f q
  | _, .float _, v => v

/-- `_safe_cast`, 718-728: convert, convert back, and refuse if an element is not the same. -/
def safeCast (M : Machine) (old new : DType) (a : List Val) : Outcome (List Val) :=
  let b := a.map (cast M old new)
  if ((b.map (cast M new old)).zip a).any fun p => neq p.1 p.2 then .throw "ValueError" else .ok b

/-- What is assumed about rounding: values of the format stay, other numbers become a value of the format without another one in
between, or infinite when they are beyond all values of the format. This holds for each rounding mode of IEEE 754. -/
structure Faithful (M : Machine) : Prop where
  fix : ∀ f q, f.Has q → M.round f q = .num q
  has : ∀ f q r, M.round f q = .num r → f.Has r
  between : ∀ f q r s, M.round f q = .num r → f.Has s → (q ≤ s → r ≤ s) ∧ (s ≤ q → s ≤ r)
  posInf : ∀ f q, M.round f q = .posInf → ∀ s, f.Has s → s < q
  negInf : ∀ f q, M.round f q = .negInf → ∀ s, f.Has s → q < s
  number : ∀ f q, M.round f q ≠ .nan

end Stempy.SafeCast
