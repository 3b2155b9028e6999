import Verif.Basic

/-!
# python/pyreader.cpp:22-76, python/stempy/io/__init__.py:24-52 and 152-174, buffers of python/io.cpp and python/image.cpp

`PyReader` reads blocks of frames from a Python object with a first axis of frames (an h5py data set). A frame is an
element of the list `frames` here. pybind11 and h5py are external.
-/

namespace Stempy.PyReader

variable {F : Type}

/-- pyreader.h:140-146 -/
structure State where
  imageNumbers : List Nat
  blockSize : Nat
  total : Nat
  current : Nat

/-- pyreader.cpp:13-20 -/
def create (imageNumbers : List Nat) (blockSize total : Nat) : State := ⟨imageNumbers, blockSize, total, 0⟩

/-- The block, or the empty block (with version 0) at the end. -/
inductive Block (F : Type) where
  | end_
  | frames (data : List F) (imageNumbers : List Nat)
  deriving DecidableEq

/-- Python's `data[lo:hi:1]` of a sequence. -/
def pySlice (l : List F) (lo hi : Nat) : List F := (l.take hi).drop lo

/-- pyreader.cpp:22-59. `m_currIndex` and `upperBound` are 32-bit; `m_imageNumbers[i]` is not checked. -/
def read (frames : List F) (s : State) : Outcome (Block F × State) :=
  if s.current ≥ s.total then .ok (.end_, s)
  else do
    let upper := (s.current + s.blockSize) % 2 ^ 32
    let upper := if upper > s.total then s.total else upper
    let data := pySlice frames s.current upper
    let ids ← (List.range' s.current (upper - s.current)).mapM (readAt s.imageNumbers)
    .ok (.frames data ids, { s with current := upper })

/-- pyreader.cpp:72-75 -/
def reset (s : State) : State := { s with current := 0 }

/-- `for block in reader` (io/__init__.py:28-33): reads until the empty block; at most `fuel` blocks. -/
def readAll (frames : List F) : Nat → State → Outcome (List (List F × List Nat) × Bool × State)
  | 0, s => .ok ([], false, s)
  | fuel + 1, s => do
    let (b, s) ← read frames s
    match b with
    | .end_ => .ok ([], true, s)
    | .frames d ids => do
      let (rest, ended, s) ← readAll frames fuel s
      .ok ((d, ids) :: rest, ended, s)

/-- io/__init__.py:152-174: `none` are missing scan positions. -/
def getHdf5Reader (frames : List F) (scanPositions : Option (List Nat)) : State :=
  create (scanPositions.getD (List.range frames.length)) 32 frames.length

end Stempy.PyReader

namespace Stempy.Buffer

/-- `py::buffer_info`: shape and strides, in bytes. -/
structure View where
  itemSize : Nat
  shape : List Nat
  strides : List Nat

/-- python/io.cpp:24-43 and 45-64 for a block of `n` frames of the dimensions (`first`, `second`) = (width, height). -/
def blockView (n first second : Nat) : View :=
  ⟨2, [n, second, first], [2 * second * first, 2 * second, 2]⟩

/-- python/image.cpp:243-270 and 287-299, with items of `k` bytes. -/
def imageView (k first second : Nat) : View :=
  ⟨k, [second, first], [k * first, k]⟩

/-- python/image.cpp:271-286 -/
def radialView (radii first second : Nat) : View :=
  ⟨8, [radii, second, first], [8 * first * second, 8 * first, 8]⟩

/-- Offset in bytes of an element of the array. -/
def offset (v : View) (idx : List Nat) : Nat := (List.zipWith (· * ·) v.strides idx).sum

/-- The element of the memory `mem` (items) which NumPy accesses. -/
def element {α : Type} (v : View) (mem : List α) (idx : List Nat) : Outcome α := readAt mem (offset v idx / v.itemSize)

end Stempy.Buffer
