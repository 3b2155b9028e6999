import Verif.Model.BlockPipeline
import Verif.Model.Iteration
import Verif.Model.RawFile

/-!
# `electron_count` with a stream reader or a reader of an HDF5 file: python/stempy/image/__init__.py:267-328

The same call as in `Model/BlockPipeline`, for the readers of the formats 1 to 3 (`Model/StreamReader`) and of HDF5 files
(`Model/PyReader`, `Model/RawFile`). A block is counted here after all blocks were read, in the code when it is read.
-/

namespace Stempy.FilePipeline
open Stempy.BlockPipeline (Setup)
open Stempy.Electron (electronCountClassic countFrameClassic)

/-- A reader of blocks: `read` is the step of the iterator of C++, `next` that of Python. -/
structure Reader (S : Type) where
  read : S → Outcome (Option Image.Block) × S
  next : S → Outcome (Option Image.Block) × S
  reset : S → S

/-- image/__init__.py:275-277: `next(reader)` for `n` times. -/
def sample {S : Type} (R : Reader S) : Nat → S → Outcome (List Image.Block) × S
  | 0, s => (.ok [], s)
  | n + 1, s =>
    match R.next s with
    | (.ok (some b), t) =>
      match sample R n t with
      | (.ok bs, u) => (.ok (b :: bs), u)
      | r => r
    | (.ok none, t) => (.throw "StopIteration", t)
    | (.throw m, t) => (.throw m, t)
    | (.ub, t) => (.ub, t)

/-- reader.h:109-135, pyreader.h: the blocks from `begin()` to `end()`, or the error which ended the loop. -/
inductive ReadAll {S : Type} (R : Reader S) : S → Outcome (List Image.Block) → Prop where
  | done {s t : S} : R.read s = (.ok none, t) → ReadAll R s (.ok [])
  | throw {s t : S} {m : String} : R.read s = (.throw m, t) → ReadAll R s (.throw m)
  | ub {s t : S} : R.read s = (.ub, t) → ReadAll R s .ub
  | step {s t : S} {b : Image.Block} {r : Outcome (List Image.Block)} :
      R.read s = (.ok (some b), t) → ReadAll R t r → ReadAll R s (r.bind fun bs => .ok (b :: bs))

/-- image/__init__.py:275-328: `result` is the result of the call with the reader in state `s`. -/
def Counts {S : Type} (R : Reader S) (o : Setup) (s : S) (result : Outcome ((Nat × Nat) × List (List (List Nat)))) : Prop :=
  match sample R o.numBlocks s with
  | (.ok blocks, t) =>
    match o.options blocks with
    | .ok options => ∃ r, ReadAll R (R.reset t) r ∧
        result = r.bind fun blocks => electronCountClassic (countFrameClassic options) blocks o.scan
    | .throw m => result = .throw m
    | .ub => result = .ub
  | (.throw m, _) => result = .throw m
  | (.ub, _) => result = .ub

/-- reader.h:70-88: a block of the formats 1 to 3 as an argument of the counting. -/
def ofStream (b : StreamReader.Block) : Image.Block where
  scanDims := b.header.scanDimensions
  frameDims := b.header.frameDimensions
  imagesInBlock := b.header.imagesInBlock
  imageNumbers := b.header.imageNumbers
  data := b.data

/-- A block as the result of a read. -/
def convert (r : Outcome (Option StreamReader.Block) × StreamReader.State) : Outcome (Option Image.Block) × StreamReader.State :=
  (r.1.bind fun b => .ok (b.map ofStream), r.2)

/-- reader.cpp:49-276, io/__init__.py:24-56. -/
def streamReader (version : Nat) (files : List StreamReader.File) : Reader StreamReader.State where
  read s := convert (StreamReader.nextCpp version s)
  next s := convert (StreamReader.nextPy version s)
  reset _ := StreamReader.reset files

/-- pyreader.cpp:22-59 with the header of pyreader.cpp:48-52. The version of a block is 3, so that the loops of Python and C++ agree. -/
def readHdf5 (r : RawFile.Reader) (s : PyReader.State) : Outcome (Option Image.Block) × PyReader.State :=
  match PyReader.read r.stack.frames s with
  | .ok (.end_, t) => (.ok none, t)
  | .ok (.frames data numbers, t) =>
    (.ok (some ⟨r.scanDims, (r.stack.width, r.stack.height), numbers.length, numbers, data.flatten⟩), t)
  | .throw m => (.throw m, s)
  | .ub => (.ub, s)

/-- pyreader.cpp, io/__init__.py:24-62. -/
def hdf5Reader (r : RawFile.Reader) : Reader PyReader.State where
  read := readHdf5 r
  next := readHdf5 r
  reset := PyReader.reset

end Stempy.FilePipeline
