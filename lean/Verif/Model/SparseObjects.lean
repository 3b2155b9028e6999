import Verif.Model.SparseArray

/-!
# Storage of sparse arrays (python/stempy/io/sparse_array.py)

`Model/SparseArray` treats arrays as values. Here the NumPy arrays and dictionaries that a `SparseArray` refers to are objects in a
heap, so that it can be said which of them two sparse arrays have in common. The data of a sparse array is a two-dimensional array
of references (`dtype=object`) to arrays of events. Objects are never freed.
-/

namespace Stempy.Objects
open Numpy Sparse

abbrev Ref := Nat

/-- The objects by kind; a reference is a position in the list. -/
structure Heap where
  arrays : List (List Nat)
  tables : List (List (List Ref))
  dicts : List (List (String × Int))
  deriving DecidableEq

def Heap.array (h : Heap) (r : Ref) : List Nat := h.arrays.getD r []
def Heap.table (h : Heap) (r : Ref) : List (List Ref) := h.tables.getD r []
def Heap.dict (h : Heap) (r : Ref) : List (String × Int) := h.dicts.getD r []

/-- sparse_array.py 91-144: the attributes of a `SparseArray`. -/
structure Obj where
  data : Ref
  numFrames : Nat
  scanShape : List Nat
  frameShape : List Nat
  sparseSlicing : Bool := true
  allowFullExpand : Bool := false
  metadata : Ref
  deriving DecidableEq

/-- The contents, as in `Model/SparseArray`. -/
def view (h : Heap) (a : Obj) : SparseArray where
  data := (h.table a.data).map fun row => row.map h.array
  numFrames := a.numFrames
  scanShape := a.scanShape
  frameShape := a.frameShape
  sparseSlicing := a.sparseSlicing
  allowFullExpand := a.allowFullExpand

/-! ### New objects -/

def newArray (h : Heap) (x : List Nat) : Ref × Heap := (h.arrays.length, { h with arrays := h.arrays ++ [x] })
def newTable (h : Heap) (t : List (List Ref)) : Ref × Heap := (h.tables.length, { h with tables := h.tables ++ [t] })
def newDict (h : Heap) (d : List (String × Int)) : Ref × Heap := (h.dicts.length, { h with dicts := h.dicts ++ [d] })

/-- New arrays for a row of frames. -/
def newRow (h : Heap) : List (List Nat) → List Ref × Heap
  | [] => ([], h)
  | x :: l =>
    let (r, h) := newArray h x
    let (row, h) := newRow h l
    (r :: row, h)

/-- New arrays for all the frames. -/
def newRows (h : Heap) : List (List (List Nat)) → List (List Ref) × Heap
  | [] => ([], h)
  | x :: l =>
    let (row, h) := newRow h x
    let (rows, h) := newRows h l
    (row :: rows, h)

/-- `copy.deepcopy` of one element of an array of objects: an object met before (in `memo`) is not copied again. -/
def copyRef (memo : List (Ref × Ref)) (h : Heap) (r : Ref) : Ref × List (Ref × Ref) × Heap :=
  match memo.lookup r with
  | some r' => (r', memo, h)
  | none =>
    let (r', h) := newArray h (h.array r)
    (r', (r, r') :: memo, h)

def copyRow (memo : List (Ref × Ref)) (h : Heap) : List Ref → List Ref × List (Ref × Ref) × Heap
  | [] => ([], memo, h)
  | r :: l =>
    let (r', memo, h) := copyRef memo h r
    let (row, memo, h) := copyRow memo h l
    (r' :: row, memo, h)

/-- `copy.deepcopy` of a two-dimensional array of objects (the elements of the new array). -/
def copyRows (memo : List (Ref × Ref)) (h : Heap) : List (List Ref) → List (List Ref) × List (Ref × Ref) × Heap
  | [] => ([], memo, h)
  | x :: l =>
    let (row, memo, h) := copyRow memo h x
    let (rows, memo, h) := copyRows memo h l
    (row :: rows, memo, h)

/-! ### Sparse arrays -/

/-- sparse_array.py 126-144: `SparseArray(**kwargs)` without `metadata` (a new dictionary) for the elements of a new array. -/
def construct (h : Heap) (rows : List (List Ref)) (a : Obj) : Outcome (Obj × Heap) :=
  let (t, h) := newTable h rows
  if rows.length = prod a.scanShape then
    let (m, h) := newDict h []
    .ok ({ a with data := t, metadata := m }, h)
  else .throw "Exception"

/-- sparse_array.py 946-959: the frames of the selected scan positions are those of the array. -/
def selectRefs (h : Heap) (a : Obj) (ss : Option Sel) : Outcome (List (List Ref)) :=
  match ss with
  | some s => gather (h.table a.data) s.idx
  | none => .ok (h.table a.data)

/-- sparse_array.py 961-990 -/
def sliceSparseSel (h : Heap) (a : Obj) (ss fs : Option Sel) : Outcome (Obj × Heap) := do
  let refs ← selectRefs h a ss
  match fs with
  | some f => do
    let m ← frameMap (prod a.frameShape) f.idx
    let newData ← refs.mapM fun row => row.mapM fun r => mapFrame m (h.array r)
    let (rows, h) := newRows h newData
    construct h rows { a with scanShape := (ss.map Sel.shape).getD a.scanShape, frameShape := f.shape }
  | none =>
    let (rows, _, h) := copyRows [] h refs
    construct h rows { a with scanShape := (ss.map Sel.shape).getD a.scanShape }

/-- The result of an index expression; a dense array is new. -/
inductive Result where
  | dense (x : NArray Nat)
  | sparse (a : Obj)

/-- sparse_array.py 931-990 `_slice_sparse` -/
def sliceSparse (h : Heap) (a : Obj) (scan frame : List Item) : Outcome (Result × Heap) := do
  let ss ← modified a.scanShape scan
  if ss.any fun s => s.shape.isEmpty then
    (sliceDense (view h a) scan frame).bind fun x => .ok (.dense x, h)
  else do
    let fs ← modified a.frameShape frame
    if fs.any fun s => s.shape.isEmpty then
      (sliceDense (view h a) scan frame).bind fun x => .ok (.dense x, h)
    else
      (sliceSparseSel h a ss fs).bind fun x => .ok (.sparse x.1, x.2)

/-- sparse_array.py 708-714 `__getitem__` -/
def getitem (h : Heap) (a : Obj) (key : List Item) : Outcome (Result × Heap) := do
  let (scan, frame) ← splitSlices (view h a) key
  if a.sparseSlicing then sliceSparse h a scan frame
  else (sliceDense (view h a) scan frame).bind fun x => .ok (.dense x, h)

/-- sparse_array.py 579-595: the rows of the binned array hold the references of the array. -/
def binnedRefs (h : Heap) (a : Obj) (b : Nat) : Outcome (List (List Ref) × List Nat) :=
  if b = 0 then .throw "ZeroDivisionError"
  else if a.scanShape.all (fun x => x % b = 0) then
    match a.scanShape with
    | [n, w] => do
      let rows ← (List.range (n / b)).mapM fun i => (List.range (w / b)).mapM fun j => do
        let rows ← gather (h.table a.data)
          ((List.range b).flatMap fun u => (List.range b).map fun v => (i * b + u) * w + (j * b + v))
        .ok rows.flatten
      .ok (rows.flatten, [n / b, w / b])
    | _ => .throw "IndexError"
  else .throw "ValueError"

/-- sparse_array.py 574-609 `bin_scans`, `in_place` -/
def binScans (h : Heap) (a : Obj) (b : Nat) (inPlace : Bool) : Outcome (Obj × Heap) := do
  let (rows, shape) ← binnedRefs h a b
  let a' := { a with numFrames := b ^ 2 * a.numFrames, scanShape := shape }
  if inPlace then
    let (t, h) := newTable h rows
    .ok ({ a' with data := t }, h)
  else construct h rows a'

/-- sparse_array.py 611-706 `bin_frames`: every frame of the result is the result of an operation of NumPy and thus a new array. The
contents are those of `Sparse.binFrames`. -/
def binFrames (h : Heap) (a : Obj) (b : Nat) (inPlace : Bool) : Outcome (Obj × Heap) := do
  let x ← Sparse.binFrames (view h a) b
  let (rows, h) := newRows h x.data
  let a' := { a with numFrames := x.numFrames, frameShape := x.frameShape }
  if inPlace then
    let (t, h) := newTable h rows
    .ok ({ a' with data := t }, h)
  else construct h rows a'

/-! ### What a user can do with a sparse array -/

/-- Writing into the events of a frame, replacing a frame by a new array, changing the metadata. -/
inductive Action where
  | events (i j : Nat) (x : List Nat)
  | frame (i j : Nat) (x : List Nat)
  | metadata (d : List (String × Int))

/-- The array of events at `data[i, j]`. -/
def refAt (h : Heap) (a : Obj) (i j : Nat) : Option Ref := (h.table a.data)[i]?.bind fun row => row[j]?

def act (h : Heap) (a : Obj) : Action → Heap
  | .events i j x =>
    match refAt h a i j with
    | some r => { h with arrays := h.arrays.set r x }
    | none => h
  | .frame i j x =>
    let (r, h) := newArray h x
    let t := h.table a.data
    { h with tables := h.tables.set a.data (t.set i ((t.getD i []).set j r)) }
  | .metadata d => { h with dicts := h.dicts.set a.metadata d }

end Stempy.Objects
