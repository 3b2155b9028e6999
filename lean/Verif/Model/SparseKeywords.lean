import Verif.Model.SparseDtype

/-!
# python/stempy/io/sparse_array.py 12-72, 384-517: keyword arguments of `sum`, `max` and `min`

`dtype`, and the arguments `keepdims` and `initial` of NumPy's methods, which `sum`, `max` and `min` take as `**kwargs`. With axes that
have an implementation of their own only `dtype` is used (`_warn_unimplemented_kwargs`, 49-60, prints a warning for the others); with
other axes all arguments are passed to the method of the expanded `np.ndarray` (46). Types are unsigned integers, given by the number
of bits; `self.dtype` is the default `np.uint32`, of which NumPy's `sum` is an `np.uint64`. The elements of the expanded array are
natural numbers: that they fit `np.uint32` is C77. Assumed of NumPy: `ndarray.max` and `ndarray.min` have no argument `dtype`
(`TypeError`), `initial` is one more number of every group. Not modelled: `out`, `where`, `dtype=None` given explicitly (for `max` and
`min` it is a `TypeError` too), an `initial` outside of the type, other positional arguments.
-/

namespace Stempy.SparseKeywords
open Numpy Sparse

inductive Op where
  | sum
  | max
  | min
  deriving DecidableEq

structure Keywords where
  /-- number of bits of the type -/
  dtype : Option Nat := none
  keepdims : Bool := false
  initial : Option Nat := none

/-- What the method of NumPy makes of a group of `np.uint32` numbers. -/
def Op.group (op : Op) (kw : Keywords) (l : List Nat) : Outcome Nat :=
  match op with
  | .sum => .ok ((kw.initial.getD 0 + l.sum) % 2 ^ kw.dtype.getD 64)
  | .max => maxOf (kw.initial.toList ++ l)
  | .min => minOf (kw.initial.toList ++ l)

/-- The shape with `keepdims=True`: the axes stay, with one element. -/
def keptShape (shape : List Nat) (axes : List Int) : List Nat :=
  (List.range shape.length).map fun (i : Nat) => if (i : Int) ∈ axes ∨ (i : Int) - shape.length ∈ axes then 1 else shape.getD i 0

/-- `x.sum(axes, **kw)` etc. of an `np.ndarray`. -/
def numpy (op : Op) (kw : Keywords) (x : NArray Nat) (axes : List Int) : Outcome (NArray Nat) :=
  if op ≠ .sum ∧ kw.dtype.isSome = true then .throw "TypeError"
  else do
    let r ← reduce (op.group kw) x axes
    .ok (if kw.keepdims then ⟨keptShape x.shape axes, r.flat⟩ else r)

/-- sparse_array.py 411-417, 454-463, 504-510: over the scan axes. -/
def scanOp (op : Op) (t : DType) (a : SparseArray) : Outcome (NArray Nat) :=
  match op with
  | .sum => sumScanT t a
  | .max => maxScanT t a
  | .min => minScanT t a

/-- sparse_array.py 419-425, 465-476, 512-517: over the frame axes. -/
def frameOp (op : Op) (t : DType) (a : SparseArray) : Outcome (NArray Nat) :=
  match op with
  | .sum => sumFrameT t a
  | .max => maxFrameT t a
  | .min => minFrameT t a

/-- `a.sum(axis, **kw)` etc. of a `SparseArray` (12-46, 384-517). -/
def call (op : Op) (kw : Keywords) (a : SparseArray) (axis : Axis) : Outcome (NArray Nat) :=
  let axes := formatAxis a axis
  let t := DType.uint (kw.dtype.getD 32)
  if axes = scanAxes a then scanOp op t a
  else if axes = frameAxes a then frameOp op t a
  else do
    match ← getitem { a with sparseSlicing := false } [.all] with
    | .dense x => numpy op kw x axes
    | .sparse _ => .throw "AttributeError"

/-- sparse_array.py 520-558 `mean`: never `None`, so that the other arguments are not used for any axes (545-548). -/
def callMean (_ : Keywords) (a : SparseArray) (axis : Axis) : Outcome (NArray Rat) := mean a axis

/-- `x.mean(axes, keepdims=…)` of an `np.ndarray`, without rounding. -/
def numpyMean (kw : Keywords) (x : NArray Nat) (axes : List Int) : Outcome (NArray Rat) := do
  let r ← reduce (fun l => .ok (((l.sum : Nat) : Rat) / (l.length : Nat))) x axes
  .ok (if kw.keepdims then ⟨keptShape x.shape axes, r.flat⟩ else r)

end Stempy.SparseKeywords
