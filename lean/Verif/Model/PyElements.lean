import Verif.Model.NumpyMemory
import Verif.Model.SafeCast
import Verif.Model.PyReader

/-!
# Element types and axes of the data of a `PyReader`: python/pyreader.cpp:38-55

`py::array_t<uint16_t> pyarray = getItems(sliceIndex)`: an array with elements `uint16` in the byte order of the machine is taken as it is;
every other one is converted (flag `forcecast`, the default) by NumPy into a new array, with the axes in the order of the strides
("K" order). Assumed of NumPy: this, and the conversion of an element (`SafeCast.cast`, where what a floating point number outside of
the range becomes is left open). Complex numbers and objects are not modelled.
-/

namespace Stempy.PyElements
open Stempy.Numpy Stempy.Strided Stempy.SafeCast

/-- `uint16_t` -/
def native : DType := .int false 16

/-- What `__getitem__` returns: an array with its element type and byte order. -/
structure Data where
  dtype : DType
  swapped : Bool
  arr : Arr Val

/-- An element of type `t` as `uint16_t`. -/
def convert (M : Machine) (t : DType) (v : Val) : Nat :=
  match cast M t native v with
  | .num q => (q.floor % 65536).toNat
  | _ => 0

/-- The indexes of an array of a shape, the last one running fastest. -/
def indexes : List Nat → List (List Nat)
  | [] => [[]]
  | n :: sh => (List.range n).flatMap fun i => (indexes sh).map fun is => i :: is

/-- A new array in C order. -/
def copyC {α β : Type} (f : α → β) (a : Arr α) : Outcome (Arr β) := do
  let l ← (indexes a.shape).mapM a.elem
  .ok ⟨l.map f, 0, a.shape, cStrides a.shape⟩

/-- The strides are those of C order, or of parts of such an array. -/
def descending (s : List Int) : Prop := s.Pairwise fun a b => b.natAbs ≤ a.natAbs

/-- The strides are those of Fortran order, or of parts of such an array. -/
def ascending (s : List Int) : Prop := s.Pairwise fun a b => a.natAbs < b.natAbs

instance (s : List Int) : Decidable (descending s) := inferInstanceAs (Decidable (s.Pairwise _))
instance (s : List Int) : Decidable (ascending s) := inferInstanceAs (Decidable (s.Pairwise _))

/-- The conversion to `py::array_t<uint16_t>`. -/
def toArray (M : Machine) (d : Data) : Outcome (Arr Nat) :=
  if d.dtype = native ∧ d.swapped = false then
    .ok ⟨d.arr.mem.map (convert M native), d.arr.start, d.arr.shape, d.arr.strides⟩
  else if descending d.arr.strides then copyC (convert M d.dtype) d.arr
  else if ascending d.arr.strides then do
    let c ← copyC (convert M d.dtype) d.arr.transpose
    .ok c.transpose
  else .throw "not modelled"

/-- A block: the dimensions of the header and the data. -/
structure Blk where
  width : Nat
  height : Nat
  arr : Arr Nat

/-- pyreader.cpp:40-44, 53 for the frames from `lo` to `hi`; `shape()` is a pointer without a check. -/
def readBlock (M : Machine) (d : Data) (lo hi : Nat) : Outcome Blk := do
  let c ← toArray M { d with arr := d.arr.rows lo hi }
  let w ← readAt c.shape 2
  let h ← readAt c.shape 1
  .ok ⟨w, h, c⟩

/-- The pixel (x, y) of image `i` of a block as all functions of C++ use it (`data.get()[i * width * height + y * width + x]`). -/
def Blk.pixel (b : Blk) (i y x : Nat) : Outcome Nat := b.arr.raw (i * (b.width * b.height) + (y * b.width + x))

end Stempy.PyElements
