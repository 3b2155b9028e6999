import Verif.Model.Numpy

/-!
# Memory of NumPy arrays at the border to C++ (python/image.cpp, python/pyreader.cpp)

An array is a view of memory: the address of its first element, a shape and strides. The bindings take `py::array_t<T>`
without a flag for the order (image.cpp:57-133, pyreader.cpp:41, image.h:68) and read the memory from the address of the first
element on; the strides are not used. Assumed of NumPy and pybind11: an array of the right type is passed as it is, and
`astype` and ufuncs return an array with the axes in the order of the strides of the argument ("K" order).
-/

namespace Stempy.Strided
open Stempy.Numpy

variable {α : Type}

/-- An array: cells of the memory, address of the first element, shape, strides (in elements). -/
structure Arr (α : Type) where
  mem : List α
  start : Nat
  shape : List Nat
  strides : List Int
  deriving DecidableEq

/-- Distance of an element from the first one. -/
def distance : List Int → List Nat → Int
  | s :: ss, i :: is => s * i + distance ss is
  | _, _ => 0

/-- Read of the memory at an address. -/
def Arr.load (a : Arr α) (address : Int) : Outcome α :=
  if address < 0 then .ub else readAt a.mem address.toNat

/-- The element `a[idx]` in Python. -/
def Arr.elem (a : Arr α) (idx : List Nat) : Outcome α := a.load (a.start + distance a.strides idx)

/-- `a.data()[i]` in C++. -/
def Arr.raw (a : Arr α) (i : Nat) : Outcome α := a.load (a.start + i)

/-- Number of elements, `a.size()`. -/
def Arr.size (a : Arr α) : Nat := prod a.shape

/-- Strides of an array in C order. -/
def cStrides : List Nat → List Int
  | [] => []
  | _ :: s => (prod s : Nat) :: cStrides s

/-- `a[lo:hi]` for `lo ≤ hi` in the array. -/
def Arr.rows (a : Arr α) (lo hi : Nat) : Arr α :=
  match a.shape, a.strides with
  | _ :: sh, s :: _ => { a with start := (a.start + s * lo).toNat, shape := (hi - lo) :: sh }
  | _, _ => a

/-- `a[:, y:y+h, x:x+w]` of frames. -/
def Arr.crop (a : Arr α) (y x h w : Nat) : Arr α :=
  match a.shape, a.strides with
  | [n, _, _], [_, s1, s2] => { a with start := (a.start + s1 * y + s2 * x).toNat, shape := [n, h, w] }
  | _, _ => a

/-- `a.T` -/
def Arr.transpose (a : Arr α) : Arr α := { a with shape := a.shape.reverse, strides := a.strides.reverse }

/-- `f(a)` for a ufunc (`np.power(gain, -1)`, image/__init__.py:238) or `a.astype(dtype)` (`_safe_cast`,
image/__init__.py:718-729) of a two-dimensional array: new memory, in the order of the strides of `a`. -/
def Arr.map2 {β : Type} (f : α → β) (a : Arr α) : Outcome (Arr β) :=
  match a.shape, a.strides with
  | [h, w], [s0, s1] =>
    if s1.natAbs ≤ s0.natAbs then do
      let l ← (List.range h).mapM fun y => (List.range w).mapM fun x => a.elem [y, x]
      .ok ⟨l.flatten.map f, 0, [h, w], [(w : Int), 1]⟩
    else do
      let l ← (List.range w).mapM fun x => (List.range h).mapM fun y => a.elem [y, x]
      .ok ⟨l.flatten.map f, 0, [h, w], [1, (h : Int)]⟩
  | _, _ => .throw "not modelled"

/-- `toCpp` of the options, image.cpp:83-92 and 125-134, for the dark reference or the gain: the memory from the pointer on.
`None` becomes an array with one element; therefore arrays with one element are no reference. -/
def Arr.pointer (a : Arr α) : Option (List α) := if a.size > 1 then some (a.mem.drop a.start) else none

/-- The pixel `p` of frame `i` of a block read by `PyReader` (pyreader.cpp:38-45): the block is `a[lo:hi]` and its data are
used as frames of `h * w` pixels, one after the other. -/
def Arr.blockPixel (a : Arr α) (lo hi i p : Nat) : Outcome α :=
  match a.shape with
  | [_, h, w] => (a.rows lo hi).raw (i * (h * w) + p)
  | _ => .throw "not modelled"

/-- The events of a sparse frame as used by `calculateSTEMValuesSparse` (image.h:65-68). -/
def Arr.events (a : Arr α) : Outcome (List α) := (List.range a.size).mapM a.raw

/-- The values of a one-dimensional array. -/
def Arr.values (a : Arr α) : Outcome (List α) := (List.range a.size).mapM fun k => a.elem [k]

end Stempy.Strided
