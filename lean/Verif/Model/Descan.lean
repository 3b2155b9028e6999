import Verif.Model.PyImage

/-!
# examples/vacuum_scan_subtract.ipynb: correction of the descan with a vacuum scan

The beam does not stay in the middle of the detector during a scan. The notebook measures its position with a scan of the vacuum, and moves
the events of each scan position. Lines are those of the file with the notebook.

Simplifications: exact arithmetic. The median filter (201-202) is a parameter, and so are the interpolation (235-236, 398-399), of which
only the points are modelled, and the fit of a plane. In exact arithmetic, the interpolation of line 235 is at the points of the
image and changes nothing. The element type of events is not modelled.
-/

namespace Stempy.Descan
open Numpy Sparse PyImage

/-- `np.round`: to the nearest integer, and to the even one in the middle. -/
def round (q : Rat) : Int :=
  let f := q.floor
  if q - f < 1 / 2 then f
  else if 1 / 2 < q - f then f + 1
  else if f % 2 = 0 then f else f + 1

/-- `int` of a number -/
def trunc (q : Rat) : Int := if 0 ≤ q then q.floor else -(-q).floor

/-- `mean` of an array -/
def arrayMean (l : List Rat) : Rat := l.sum / (l.length : Nat)

/-- 293-294: the shifts for the vacuum scan; `int` of `NaN` raises an exception. -/
def vacuumShifts (origin : List Rat) : Outcome (List Int) :=
  if origin = [] then .throw "ValueError" else .ok (origin.map fun v => round v - trunc (arrayMean origin))

/-- 419-420: the shifts for another scan -/
def shifts (z : List Rat) : List Int := z.map fun v => round (v - arrayMean z)

/-- `np.unravel_index` for a shape with two dimensions -/
def unravel (f0 f1 : Nat) (ev : List Nat) : Outcome (List (Nat × Nat)) :=
  if ev.all fun e => e < f0 * f1 then .ok (ev.map fun e => (e / f1, e % f1)) else .throw "ValueError"

/-- 302-311, 444-453: the events of one frame -/
def centerFrame (f0 f1 : Nat) (x y : Int) (ev : List Nat) : Outcome (List Nat) := do
  let l ← unravel f0 f1 ev
  let moved := l.map fun (p : Nat × Nat) => ((p.1 : Int) - y, (p.2 : Int) - x)
  let keep := moved.filter fun (p : Int × Int) => p.1 < f0 && p.1 ≥ 0 && p.2 < f1 && p.2 ≥ 0
  .ok (keep.map fun (p : Int × Int) => (p.1 * f1 + p.2).toNat)

/-- 296-313, 422-455: the array with the events moved by `x` columns and `y` rows -/
def centered (a : SparseArray) (x y : List Int) : Outcome SparseArray :=
  match a.frameShape with
  | [f0, f1] =>
    if a.data.length ≠ x.length ∨ a.data.length ≠ y.length then .throw "AssertionError"
    else do
      let data ← (a.data.zip (x.zip y)).mapM fun p => p.1.mapM fun ev => centerFrame f0 f1 p.2.1 p.2.2 ev
      SparseArray.init { data := data, numFrames := a.numFrames, scanShape := a.scanShape, frameShape := a.frameShape }
  | _ => .throw "ValueError"

/-- All elements of an array without `NaN`. -/
def numbers (l : List (Option Rat)) : Outcome (List Rat) :=
  l.mapM fun v => match v with
    | some q => .ok q
    | none => .throw "ValueError"

/-- 176, 200-202, 231-236, 288-313: the vacuum scan is corrected with its own centers of mass, `filt` is the filter. -/
def vacuum (filt : List Rat → List Rat) (a : SparseArray) (crop : Option Rat) : Outcome SparseArray := do
  let com ← comSparse 0 a crop none true
  let x ← vacuumShifts (filt (← numbers com.1))
  let y ← vacuumShifts (filt (← numbers com.2))
  centered a x y

/-- 387-393: where the image of the vacuum scan (`v0` rows and `v1` columns) is interpolated for a scan of `s0` rows and `s1` columns,
as a flat list of rows and columns -/
def points (v0 v1 s0 s1 : Nat) : List (Rat × Rat) :=
  let factor : Rat × Rat := (s0 / v0, s1 / v1)
  (List.range s1).flatMap fun (i : Nat) => (List.range s0).map fun (j : Nat) => ((i : Rat) / factor.2, (j : Rat) / factor.1)

/-- 387-455 with the method `interp`: `interp l p` is the value of the image `l` at the point `p`. -/
def experiment (interp : List Rat → Rat × Rat → Rat) (v0 v1 : Nat) (com : List Rat × List Rat) (a : SparseArray) : Outcome SparseArray :=
  match a.scanShape with
  | [s0, s1] =>
    let z0 := (points v0 v1 s0 s1).map (interp com.1)
    let z1 := (points v0 v1 s0 s1).map (interp com.2)
    centered a (shifts z0) (shifts z1)
  | _ => .throw "IndexError"

end Stempy.Descan
