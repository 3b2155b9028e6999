import Verif.Model.MultiPass
import Verif.Model.Numpy

/-!
# Random access from Python, `SectorThreadedMultiPassReader` (python/stempy/io/__init__.py:67-149)

Exceptions have the name of the Python exception; pybind11 raises TypeError for a number that is no `uint32_t` and makes a
ValueError of `std::invalid_argument`. The view of the pixels of a block is in `Model/PyReader`.
-/

namespace Stempy.PyFrames
open Stempy.MultiPass Stempy.Numpy

variable {D : Type}

/-- `scan_position` -/
inductive Position where
  | seq (l : List Int)
  | flat (i : Int)

/-- `frames_slice` -/
inductive FramesSlice where
  | all
  | one (i : Int)
  | slice (start stop step : Option Int)
  | list (l : List Int)

/-- What is returned: a block for an integer, else a list of blocks. -/
inductive Result (D : Type) where
  | one (b : Block D)
  | many (bs : List (Block D))

/-- 78-87; `dims` is (width, height). -/
def scanShape (dims : Nat × Nat) : Nat × Nat := (dims.2, dims.1)

/-- 101-114. Sequences with more or less than two elements end with IndexError: `scan_shape[2]` resp.
`scan_position[1]` (or `[0]`). -/
def imageNumber (shape : Nat × Nat) : Position → Outcome Int
  | .seq [r, c] => if 0 ≤ r ∧ r < shape.1 ∧ 0 ≤ c ∧ c < shape.2 then .ok (r * shape.2 + c) else .throw "IndexError"
  | .seq _ => .throw "IndexError"
  | .flat i => .ok i

/-- 121-137: elements of `np.arange(n)`. -/
def frameIndexes (n : Nat) : FramesSlice → Outcome (List Nat)
  | .all => .ok (List.range n)
  | .one i => do
    let j ← intIndex n i
    .ok [j]
  | .slice a b c => sliceIndexes n a b c
  | .list l => l.mapM (intIndex n)

/-- `_load_frames` called from Python. -/
def pyLoadFrames (files : List (File D)) (map : ScanMap) (size : Nat) (image : Int) (frames : List Nat) : Outcome (List (Block D)) :=
  if image < 0 ∨ 2 ^ 32 ≤ image then .throw "TypeError"
  else
    match loadFrames files map size image.toNat frames with
    | .ok bs => .ok bs
    | .throw _ => .throw "ValueError"
    | .ub => .ub

/-- 149 -/
def result (fs : FramesSlice) (bs : List (Block D)) : Outcome (Result D) :=
  match fs with
  | .one _ =>
    match bs with
    | [] => .throw "IndexError"
    | b :: _ => .ok (.one b)
  | _ => .ok (.many bs)

/-- `read_frames`, 89-149. The scan map has `dims.1 * dims.2` positions (reader.h:721-733). -/
def readFrames (files : List (File D)) (map : ScanMap) (dims : Nat × Nat) (pos : Position) (fs : FramesSlice) :
    Outcome (Result D) := do
  let image ← imageNumber (scanShape dims) pos
  let n := numFramesPerScan map (dims.1 * dims.2) 0
  let frames ← frameIndexes n fs
  let bs ← pyLoadFrames files map (dims.1 * dims.2) image frames
  result fs bs

end Stempy.PyFrames
