import Verif.Model.Image
import Verif.Model.PyImage
import Verif.Model.RawFile

/-!
# python/stempy/image/__init__.py:15-124 `create_stem_images`

The kinds of input and what is called for each of them. pybind11 is external: a sequence is converted to a vector element by
element; an array of one event (a NumPy scalar) becomes an array with this event. A block of a `PyReader` has the frame
dimensions of the array and the scan dimensions of the reader (pyreader.cpp:42-55).
-/

namespace Stempy.PyStem
open Stempy.Image

/-- Radii as a number or as a list (or tuple). -/
inductive Radii where
  | one (r : Int)
  | many (l : List Int)

/-- image/__init__.py:58-62 -/
def Radii.toList : Radii → List Int
  | .one r => [r]
  | .many l => l

/-- The input. `like1` and `like2` are objects with the attributes data, scan_dimensions and frame_dimensions, with data of
one and two dimensions (the elements are arrays of events); `events1` and `events2` are such arrays of one and two dimensions
given with `frame_dimensions`; `array` is an array of three dimensions without `frame_dimensions`. `threaded` is a threaded
reader, which has no `begin`. -/
inductive Input where
  | file (f : RawFile.File)
  | reader (blocks : List Block)
  | threaded
  | sparse (o : PyImage.PyArray)
  | like1 (data : List (List Nat)) (scan frame : Nat × Nat)
  | like2 (data : List (List (List Nat))) (scan frame : Nat × Nat)
  | events1 (data : List (List Nat)) (frame : Nat × Nat)
  | events2 (data : List (List (List Nat))) (frame : Nat × Nat)
  | array (s : RawFile.Stack)
  | other

/-- `data[:, np.newaxis]` -/
def newAxis (data : List (List Nat)) : List (List (List Nat)) := data.map fun e => [e]

/-- The conversion of a one-dimensional array of event arrays to a vector of vectors of arrays: each event is an array. -/
def asArrays (data : List (List Nat)) : List (List (List Nat)) := data.map fun e => e.map fun x => [x]

/-- pyreader.cpp:42-55 -/
def toBlock (frame scan : Nat × Nat) (x : List (List Nat) × List Nat) : Block :=
  ⟨scan, frame, x.2.length, x.2, x.1.flatten⟩

/-- The blocks between `begin()` and `end()` of a `PyReader` (pyreader.h:99-140). -/
def readerBlocks (r : RawFile.Reader) : Outcome (List Block) := do
  let x ← PyReader.readAll r.stack.frames (r.stack.frames.length + 1) r.state
  .ok (x.1.map (toBlock (r.stack.width, r.stack.height) r.scanDims))

/-- `create_stem_images` of the blocks of a `PyReader`. -/
def PyRun (r : RawFile.Reader) (inner outer : List Int) (scan : Nat × Nat) (center : Int × Int)
    (res : Outcome (List (List Nat))) : Prop :=
  match readerBlocks r with
  | .throw m => res = .throw m
  | .ub => res = .ub
  | .ok blocks => DenseRun blocks inner outer scan center res

/-- image/__init__.py:15-124, as the relation between the arguments and the results of possible runs. -/
def StemRun (input : Input) (inner outer : Radii) (scan : Nat × Nat) (center : Int × Int)
    (res : Outcome (List (List Nat))) : Prop :=
  let inner := inner.toList
  let outer := outer.toList
  match input with
  | .file f =>
    match RawFile.getReader f with
    | .throw m => res = .throw m
    | .ub => res = .ub
    | .ok r => PyRun r inner outer scan center res
  | .reader blocks => DenseRun blocks inner outer scan center res
  | .threaded => res = .throw "AttributeError"
  | .sparse o => res = PyImage.createStemImages o inner outer center
  | .like1 data s frame => res = createSTEMImagesSparse (asArrays data) inner outer s frame center
  | .like2 data s frame => res = createSTEMImagesSparse data inner outer s frame center
  | .events1 data frame => res = createSTEMImagesSparse (newAxis data) inner outer scan frame center
  | .events2 data frame => res = createSTEMImagesSparse data inner outer scan frame center
  | .array s =>
    if scan = (0, 0) then res = .throw "scan_dimensions must be provided for np.ndarray raw data input"
    else PyRun ⟨s, PyReader.create (List.range s.frames.length) 32 s.frames.length, scan⟩ inner outer scan center res
  | .other => res = .throw "Type of input is not known to stempy.image.create_stem_images()"

end Stempy.PyStem
