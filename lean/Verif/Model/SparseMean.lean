import Verif.Model.RoundedMean
import Verif.Model.SparseDtype

/-!
# python/stempy/io/sparse_array.py: `mean` in floating point

`mean` sums in the element type (`np.float32` unless another one is given) and divides the array in place by the number of elements, an
`np.int64`. Up to NumPy 1 a scalar does not decide about the type of the quotient of an array (value based casting): the number is
converted to `np.float32` and the division is one of single precision. Since NumPy 2 (NEP 50) the quotient of a `np.float32` array and an
`np.int64` is computed in double precision and converted to `np.float32` as it is stored. The sum over all axes is a scalar, whose
quotient is a new `np.float64` for both. Rounding is to nearest.

Simplifications: the dense array of other axes has unbounded values (`Model/SparseDtype`). `np.prod` does not overflow. Neither the scan
nor the frame has no axes, so that the results over special axes are arrays.
-/

namespace Stempy.SparseMean
open Numpy Sparse
open Stempy.FloatPixels (Fl)
open Stempy.SafeCast (Format float32 float64)
open Stempy.IeeeRound (rnd nearest)
open Stempy.RoundedMean (Adds)

/-- The argument `dtype` of `mean`. -/
inductive MType where
  | single
  | double
  | uint (bits : Nat)

inductive NumPy where
  | v1
  | v2

/-- The type in which the special sums are computed. -/
def MType.dtype : MType → DType
  | .single => .float 24
  | .double => .float 53
  | .uint b => .uint b

/-- `v` may be the sum `expanded.sum(axis, dtype=dtype)` has for the numbers `l` (the order of the additions is not specified). -/
def MType.Total : MType → List Nat → Fl → Prop
  | .single, l, v => l = [] ∧ v = .fin 0 ∨ Adds (nearest float32) (l.map fun (n : Nat) => nearest float32 n) v
  | .double, l, v => l = [] ∧ v = .fin 0 ∨ Adds (nearest float64) (l.map fun (n : Nat) => nearest float64 n) v
  | .uint b, l, v => v = .fin (l.sum % 2 ^ b : Nat)

def numbers (x : NArray Nat) : NArray Fl := ⟨x.shape, x.flat.map fun (n : Nat) => .fin n⟩

/-- sparse_array.py 479-517 `sum` with a `dtype`, and 29-46: `o` may be its outcome. -/
def Sums (t : MType) (a : SparseArray) (axes : List Int) (o : Outcome (NArray Fl)) : Prop :=
  if axes = scanAxes a then o = (do .ok (numbers (← sumScanT t.dtype a)))
  else if axes = frameAxes a then o = (do .ok (numbers (← sumFrameT t.dtype a)))
  else match fullExpansion a .ok axes with
    | .ok x => ∃ flat, List.Forall₂ t.Total x.flat flat ∧ o = .ok ⟨x.shape, flat⟩
    | .throw e => o = .throw e
    | .ub => o = .ub

/-- sparse_array.py 551-556: the division of the sum by the number of elements. -/
def divide (v : NumPy) (t : MType) (n : Nat) (s : NArray Fl) : Outcome (NArray Fl) :=
  if s.shape = [] then .ok ⟨s.shape, s.flat.map fun x => rnd (nearest float64) ((rnd (nearest float64) x).div (nearest float64 n))⟩
  else match t, v with
    | .uint _, _ => .throw "UFuncTypeError"
    | .double, _ => .ok ⟨s.shape, s.flat.map fun x => rnd (nearest float64) (x.div (nearest float64 n))⟩
    | .single, .v1 => .ok ⟨s.shape, s.flat.map fun x => rnd (nearest float32) (x.div (nearest float32 n))⟩
    | .single, .v2 => .ok ⟨s.shape, s.flat.map fun x => rnd (nearest float32) (rnd (nearest float64) (x.div (nearest float64 n)))⟩

/-- sparse_array.py 520-558 `mean` with a `dtype`: `o` may be its outcome. -/
def Mean (v : NumPy) (t : MType) (a : SparseArray) (axis : Axis) (o : Outcome (NArray Fl)) : Prop :=
  ∃ s, Sums t a (formatAxis a axis) s ∧ o = (do
    let summed ← s
    let lengths ← (formatAxis a axis).mapM fun x => do
      let i ← intIndex a.shape.length x
      .ok (a.shape.getD i 0)
    divide v t (prod lengths) summed)

end Stempy.SparseMean
