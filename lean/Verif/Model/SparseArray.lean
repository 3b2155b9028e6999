import Mathlib.Data.List.Sort
import Verif.Model.Compat
import Mathlib.Data.Rat.Defs

/-!
# python/stempy/io/sparse_array.py

The element type of results (`dtype`) is not modelled: counts are natural numbers, means are rational.
`metadata` is in Model/SparseFile.
-/

namespace Stempy.Sparse
open Numpy Compat

/-- sparse_array.py 91-144. `data[p][k]` are the events of frame `k` at scan position `p`; `numFrames` is `data.shape[1]`. -/
structure SparseArray where
  data : List (List (List Nat))
  numFrames : Nat
  scanShape : List Nat
  frameShape : List Nat
  sparseSlicing : Bool := true
  allowFullExpand : Bool := false
  deriving DecidableEq

/-- sparse_array.py 91-172: the constructor with `_validate` (data types are not modelled). -/
def SparseArray.init (a : SparseArray) : Outcome SparseArray :=
  if a.data.length = prod a.scanShape then .ok a else .throw "Exception"

/-- sparse_array.py 308-314 -/
def SparseArray.shape (a : SparseArray) : List Nat := a.scanShape ++ a.frameShape

/-- sparse_array.py 885-899 `_sparse_frames` -/
def sparseFrames (a : SparseArray) (indices : List Nat) : Outcome (List (List Nat)) :=
  if indices.length ≠ a.scanShape.length then .throw "ValueError"
  else
    match indices with
    | [] => .throw "IndexError"
    | [i] => (gather a.data [i]).bind fun l => .ok (l.headD [])
    | i :: j :: _ => (gather a.data [i * a.scanShape.getD 1 0 + j]).bind fun l => .ok (l.headD [])

/-- sparse_array.py 992-1011 `_expand` for the indexes of a scan position (the only use) -/
def expand (a : SparseArray) (indices : List Nat) : Outcome (List Nat) := do
  let frames ← sparseFrames a indices
  frames.foldlM increment (List.replicate (prod a.frameShape) 0)

/-- sparse_array.py 1074 `_is_none_slice` -/
def isNoneSlice (x : Item) : Bool := x = .all

/-- sparse_array.py 794-818 `validate_if_advanced_indexing`: `true` is an error. -/
def tooManyDims (x : Item) (maxNdim : Nat) : Bool := x.isArray && decide (x.ndim > maxNdim)

/-- sparse_array.py 852-859: at most two frame slices; an array for the second may have one dimension only. -/
def frameSlicesOk (l : List Item) : Bool :=
  match l with
  | [] => true
  | [x] => !tooManyDims x 2
  | [x, y] => !tooManyDims x 2 && !tooManyDims y 1
  | _ => false

/-- sparse_array.py 873-881, for the scan resp. frame shape: a two-dimensional array has to be a mask of that shape. -/
def maskOk (x : Item) (shape : List Nat) : Bool :=
  match x with
  | .mask s _ => s.length ≠ 2 || s = shape
  | _ => true

/-- sparse_array.py 781-883 `_split_slices` (all the exceptions are `IndexError`) -/
def splitSlices (a : SparseArray) (slices : List Item) : Outcome (List Item × List Item) :=
  match slices with
  | [] => .ok ([], [])
  | first :: rest =>
    if tooManyDims first a.scanShape.length then .throw "IndexError"
    else
      let two := decide (a.scanShape.length > 1) && (!first.isArray || first.ndim = 1)
      let scan := if two then first :: rest.take 1 else [first]
      let frame := if two then rest.drop 1 else rest
      if two && tooManyDims (rest.headD .all) 1 then .throw "IndexError"
      else if !frameSlicesOk frame then .throw "IndexError"
      else if scan.any Item.isArray && frame.any Item.isArray then .throw "IndexError"
      else if !maskOk first a.scanShape || !maskOk (frame.headD .all) a.frameShape then .throw "IndexError"
      else .ok (scan, frame)

/-- sparse_array.py 901-929 `_slice_dense`, with the selections of the two index expressions. The frames are written one after
the other into the result; here they are concatenated. -/
def sliceDenseSel (a : SparseArray) (ss fs : Sel) : Outcome (NArray Nat) :=
  if ss.shape ++ fs.shape = a.shape ∧ a.allowFullExpand = false then .throw "FullExpansionDenied"
  else do
    let outs ← ss.idx.mapM fun p => do
      let dp ← expand a (unravel a.scanShape p)
      gather dp fs.idx
    .ok ⟨ss.shape ++ fs.shape, outs.flatten⟩

def sliceDense (a : SparseArray) (scan frame : List Item) : Outcome (NArray Nat) := do
  let ss ← selection a.scanShape scan
  let fs ← selection a.frameShape frame
  sliceDenseSel a ss fs

/-- sparse_array.py 967-970: the map from old to new frame indexes (`none` is -1). -/
def frameMap (size : Nat) (valid : List Nat) : Outcome (List (Option Nat)) :=
  scatter (List.replicate size none) valid ((List.range valid.length).map some)

/-- sparse_array.py 976-979 -/
def mapFrame (m : List (Option Nat)) (frame : List Nat) : Outcome (List Nat) := do
  let l ← gather m frame
  .ok (l.filterMap id)

/-- The result of an index expression. -/
inductive Value where
  | dense (x : NArray Nat)
  | sparse (x : SparseArray)
  deriving DecidableEq

/-- sparse_array.py 946-959: the frames of the selected scan positions. -/
def selectRows (a : SparseArray) (ss : Option Sel) : Outcome (List (List (List Nat))) :=
  match ss with
  | some s => gather a.data s.idx
  | none => .ok a.data

/-- sparse_array.py 961-990, for selections which leave a scan axis and a frame axis; `none` if the shape is not modified. -/
def sliceSparseSel (a : SparseArray) (ss fs : Option Sel) : Outcome SparseArray := do
  let newFrames ← selectRows a ss
  match fs with
  | some f => do
    let m ← frameMap (prod a.frameShape) f.idx
    let newData ← newFrames.mapM fun frames => frames.mapM fun frame => mapFrame m frame
    SparseArray.init { a with data := newData, scanShape := (ss.map Sel.shape).getD a.scanShape, frameShape := f.shape }
  | none => SparseArray.init { a with data := newFrames, scanShape := (ss.map Sel.shape).getD a.scanShape }

/-- sparse_array.py 932-937, 961-964: the selection, if there is anything other than `:`. -/
def modified (shape : List Nat) (items : List Item) : Outcome (Option Sel) :=
  if items.any fun x => !isNoneSlice x then (selection shape items).bind fun s => .ok (some s) else .ok none

/-- sparse_array.py 931-990 `_slice_sparse` -/
def sliceSparse (a : SparseArray) (scan frame : List Item) : Outcome Value := do
  let ss ← modified a.scanShape scan
  if ss.any fun s => s.shape.isEmpty then
    (sliceDense a scan frame).bind fun x => .ok (.dense x)
  else do
    let fs ← modified a.frameShape frame
    if fs.any fun s => s.shape.isEmpty then
      (sliceDense a scan frame).bind fun x => .ok (.dense x)
    else
      (sliceSparseSel a ss fs).bind fun x => .ok (.sparse x)

/-- sparse_array.py 708-714 `__getitem__` -/
def getitem (a : SparseArray) (key : List Item) : Outcome Value := do
  let (scan, frame) ← splitSlices a key
  if a.sparseSlicing then sliceSparse a scan frame
  else (sliceDense a scan frame).bind fun x => .ok (.dense x)

/-- sparse_array.py 284-305 `to_dense`; the settings are restored afterwards. -/
def toDense (a : SparseArray) : Outcome Value :=
  getitem { a with allowFullExpand := true, sparseSlicing := false } [.all]

/-- sparse_array.py 339-370 `reshape` (the array is modified and returned) -/
def reshape (a : SparseArray) (shape : List Nat) : Outcome SparseArray :=
  if shape.length ≠ 3 ∧ shape.length ≠ 4 then .throw "ValueError"
  else
    let scanShape := shape.take (shape.length - 2)
    let frameShape := shape.drop (shape.length - 2)
    if prod scanShape ≠ prod a.scanShape then .throw "ValueError"
    else if prod frameShape ≠ prod a.frameShape then .throw "ValueError"
    else .ok { a with scanShape := scanShape, frameShape := frameShape }

/-- sparse_array.py 372-382 `ravel_scans` -/
def ravelScans (a : SparseArray) : Outcome SparseArray := reshape a (prod a.scanShape :: a.frameShape)

/-! ### Reductions -/

/-- The argument `axis`. -/
inductive Axis where
  | none
  | scan
  | frame
  | axes (l : List Int)

/-- sparse_array.py 735-753 `scan_axes`, `frame_axes` -/
def scanAxes (a : SparseArray) : List Int := (List.range a.scanShape.length).map Int.ofNat
def frameAxes (a : SparseArray) : List Int :=
  (List.range a.frameShape.length).map fun (i : Nat) => (a.scanShape.length : Int) + i

/-- sparse_array.py 12-26 `_format_axis` -/
def formatAxis (a : SparseArray) (x : Axis) : List Int :=
  (match x with
    | .none => (List.range a.shape.length).map Int.ofNat
    | .scan => scanAxes a
    | .frame => frameAxes a
    | .axes l => l).insertionSort (· ≤ ·)

/-- sparse_array.py 29-46 `_default_full_expansion`: the operation on the dense array. -/
def fullExpansion {β : Type} (a : SparseArray) (op : List Nat → Outcome β) (axes : List Int) : Outcome (NArray β) := do
  match ← getitem { a with sparseSlicing := false } [.all] with
  | .dense x => reduce op x axes
  | .sparse _ => .throw "AttributeError"

/-- `np.full(_scan_shape_flat, init)` and a value for each scan position of the data. -/
def perPosition (a : SparseArray) (init : Nat) (f : List (List Nat) → Outcome Nat) : Outcome (NArray Nat) := do
  let l ← a.data.mapM f
  if l.length > prod a.scanShape then .throw "IndexError"
  else .ok ⟨a.scanShape, l ++ List.replicate (prod a.scanShape - l.length) init⟩

/-- sparse_array.py 504-510 -/
def sumScan (a : SparseArray) : Outcome (NArray Nat) := do
  let r ← a.data.foldlM (fun r frames => frames.foldlM increment r) (List.replicate (prod a.frameShape) 0)
  .ok ⟨a.frameShape, r⟩

/-- sparse_array.py 512-517 -/
def sumFrame (a : SparseArray) : Outcome (NArray Nat) :=
  perPosition a 0 fun frames => .ok (frames.foldl (fun s frame => s + frame.length) 0)

/-- sparse_array.py 479-517 `sum` -/
def sum (a : SparseArray) (axis : Axis) : Outcome (NArray Nat) :=
  let axes := formatAxis a axis
  if axes = scanAxes a then sumScan a
  else if axes = frameAxes a then sumFrame a
  else fullExpansion a (fun l => .ok l.sum) axes

/-- sparse_array.py 411-417 -/
def maxScan (a : SparseArray) : Outcome (NArray Nat) := do
  let r ← a.data.foldlM (fun r frames => do
    let c ← concatenate frames
    let old ← gather r (unique c)
    scatter r (unique c) (List.zipWith max old (counts c))) (List.replicate (prod a.frameShape) 0)
  .ok ⟨a.frameShape, r⟩

/-- sparse_array.py 419-425 -/
def maxFrame (a : SparseArray) : Outcome (NArray Nat) :=
  perPosition a 0 fun frames => do
    let c ← concatenate frames
    maxOf (counts c)

/-- sparse_array.py 385-425 `max` -/
def max (a : SparseArray) (axis : Axis) : Outcome (NArray Nat) :=
  let axes := formatAxis a axis
  if axes = scanAxes a then maxScan a
  else if axes = frameAxes a then maxFrame a
  else fullExpansion a maxOf axes

/-- `np.iinfo(dtype).max` for the default type -/
def dtypeMax : Nat := 2 ^ 32 - 1

/-- sparse_array.py 454-463 -/
def minScan (a : SparseArray) : Outcome (NArray Nat) := do
  let r ← a.data.foldlM (fun r frames => do
    let c ← concatenate frames
    let expanded ← scatter (List.replicate (prod a.frameShape) 0) (unique c) (counts c)
    .ok (List.zipWith min r expanded)) (List.replicate (prod a.frameShape) dtypeMax)
  .ok ⟨a.frameShape, r⟩

/-- sparse_array.py 465-476 -/
def minFrame (a : SparseArray) : Outcome (NArray Nat) :=
  perPosition a dtypeMax fun frames => do
    let c ← concatenate frames
    if (counts c).length < prod a.frameShape then .ok 0 else minOf (counts c)

/-- sparse_array.py 428-476 `min` -/
def min (a : SparseArray) (axis : Axis) : Outcome (NArray Nat) :=
  let axes := formatAxis a axis
  if axes = scanAxes a then minScan a
  else if axes = frameAxes a then minFrame a
  else fullExpansion a minOf axes

/-- sparse_array.py 520-558 `mean`: exact division; without any element (0/0) the model gives 0 where NumPy gives NaN. -/
def mean (a : SparseArray) (axis : Axis) : Outcome (NArray Rat) := do
  let axes := formatAxis a axis
  let summed ← sum a (.axes axes)
  let lengths ← axes.mapM fun x => do
    let i ← intIndex a.shape.length x
    .ok (a.shape.getD i 0)
  .ok ⟨summed.shape, summed.flat.map fun (x : Nat) => (x : Rat) / (prod lengths : Nat)⟩

/-! ### Binning -/

/-- sparse_array.py 574-609 `bin_scans`. The new positions are filled in increasing order. -/
def binScans (a : SparseArray) (b : Nat) : Outcome SparseArray :=
  if b = 0 then .throw "ZeroDivisionError"
  else if a.scanShape.all (fun x => x % b = 0) then
    match a.scanShape with
    | [h, w] => do
      let rows ← (List.range (h / b)).mapM fun i => (List.range (w / b)).mapM fun j => do
        let rows ← gather a.data
          ((List.range b).flatMap fun u => (List.range b).map fun v => (i * b + u) * w + (j * b + v))
        .ok rows.flatten
      SparseArray.init { a with
        data := rows.flatten, numFrames := b ^ 2 * a.numFrames, scanShape := [h / b, w / b] }
    | _ => .throw "IndexError"
  else .throw "ValueError"

/-- sparse_array.py 633-637: the new index of an event. -/
def binEvent (f0 f1 b e : Nat) : Nat := e / f0 / b * (f0 / b) + e % f1 / b

/-- sparse_array.py 611-706 `bin_frames` -/
def binFrames (a : SparseArray) (b : Nat) : Outcome SparseArray :=
  if b = 0 then .throw "ZeroDivisionError"
  else if a.frameShape.all (fun x => x % b = 0) then
    match a.frameShape with
    | [f0, f1] => do
      let rows := a.data.flatten.map fun frame => frame.map (binEvent f0 f1 b)
      let positions := (List.range (prod a.scanShape)).flatMap fun p => List.replicate a.numFrames p
      let (newData, newPositions) := separate rows positions
      let k ← if newData.length > rows.length then maxOf (counts newPositions) else .ok a.numFrames
      let result ← place (prod a.scanShape) k newData newPositions
      SparseArray.init { a with data := result, numFrames := k, frameShape := [f0 / b, f1 / b] }
    | _ => .throw "IndexError"
  else .throw "ValueError"

end Stempy.Sparse
