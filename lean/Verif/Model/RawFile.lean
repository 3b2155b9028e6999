import Verif.Model.PyReader

/-!
# python/stempy/io/__init__.py:152-174, 212-251, 275-292: HDF5 files of raw data and of STEM images

The file is the part of the HDF5 file these functions use. h5py is external: `create_dataset` raises ValueError if the name
exists, a data set that is created has no attributes, `require_group` creates the group or takes the existing one. Storage
options (compression, chunks, cache) do not change the values. A failed `create_dataset` leaves what was written before.
-/

namespace Stempy.RawFile

/-- An array of shape (number of frames, height, width); the pixels of a frame are in row-major order. -/
structure Stack where
  height : Nat
  width : Nat
  frames : List (List Nat)
  deriving DecidableEq

/-- The data set stem/images with its attribute. -/
structure Stem where
  images : Stack
  names : List String
  deriving DecidableEq

/-- The data sets frames (with the attribute scan_dimensions), scan_positions and stem/images. -/
structure File where
  frames : Option Stack := none
  scanDims : Option (Nat × Nat) := none
  positions : Option (List Nat) := none
  stem : Option Stem := none
  deriving DecidableEq

/-- io/__init__.py:212-251 `save_raw_data`: the result and the file afterwards. -/
def saveRaw (f : File) (data : Stack) (dims : Option (Nat × Nat)) (positions : Option (List Nat)) : Outcome Unit × File :=
  if f.frames.isSome then (.throw "ValueError", f)
  else
    let f1 := { f with frames := some data, scanDims := dims }
    match positions with
    | none => (.ok (), f1)
    | some p => if f.positions.isSome then (.throw "ValueError", f1) else (.ok (), { f1 with positions := some p })

/-- io/__init__.py:275-292 `save_stem_images` -/
def saveStem (f : File) (images : Stack) (names : List String) : Outcome Unit × File :=
  if images.frames.length ≠ names.length then (.throw "`images` and `names` must be the same length!", f)
  else if f.stem.isSome then (.throw "ValueError", f)
  else (.ok (), { f with stem := some ⟨images, names⟩ })

/-- The reader: the array it reads from, its state, and the scan dimensions (width, height). -/
structure Reader where
  stack : Stack
  state : PyReader.State
  scanDims : Nat × Nat

/-- io/__init__.py:157-165: the attribute, or the shape of the STEM images for older files. -/
def scanDimensions (f : File) : Outcome (Nat × Nat) :=
  match f.scanDims with
  | some d => .ok d
  | none =>
    match f.stem with
    | some s => .ok (s.images.width, s.images.height)
    | none => .throw "KeyError"

/-- io/__init__.py:152-174 `get_hdf5_reader` -/
def getReader (f : File) : Outcome Reader :=
  match f.frames with
  | none => .throw "KeyError"
  | some s => do
    let d ← scanDimensions f
    .ok ⟨s, PyReader.getHdf5Reader s.frames f.positions, d⟩

end Stempy.RawFile
