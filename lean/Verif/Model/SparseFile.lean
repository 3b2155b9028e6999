import Verif.Model.SparseArray

/-!
# HDF5 files of sparse arrays (python/stempy/io/sparse_array.py 174-282, 1079-1097)

The file is the data that `h5py` gives access to. A new file is written; writing to a file which exists already is not modelled.
Values of metadata are of any type `V` and come back as they were stored (the conversions of h5py, e.g. of lists to arrays, are not
modelled).
-/

namespace Stempy.SparseFile
open Numpy Compat Sparse

/-! ### Metadata -/

/-- A nested dictionary as the list of its items, or an HDF5 group as the list of its attributes and groups: `leaf` is a value
resp. an attribute, `sub` a dictionary resp. a group. -/
inductive Tree (V : Type) where
  | nil
  | leaf (key : String) (value : V) (rest : Tree V)
  | sub (key : String) (tree : Tree V) (rest : Tree V)
  deriving DecidableEq

/-- `group.attrs[k] = v`: an attribute of that name is replaced. -/
def setAttr {V : Type} (k : String) (v : V) : Tree V → Tree V
  | .nil => .leaf k v .nil
  | .leaf k' v' r => if k' = k then .leaf k v r else .leaf k' v' (setAttr k v r)
  | .sub k' g r => .sub k' g (setAttr k v r)

/-- Changes the group `k`, which is created if it does not exist. -/
def updateSub {V : Type} (k : String) (f : Tree V → Tree V) : Tree V → Tree V
  | .nil => .sub k (f .nil) .nil
  | .leaf k' v' r => .leaf k' v' (updateSub k f r)
  | .sub k' g r => if k' = k then .sub k' (f g) r else .sub k' g (updateSub k f r)

/-- Changes the group with a path. -/
def updateAt {V : Type} (f : Tree V → Tree V) : List String → Tree V → Tree V
  | [], g => f g
  | k :: path, g => updateSub k (updateAt f path) g

/-- The parts between `/`. -/
def splitSlash : List Char → List (List Char)
  | [] => [[]]
  | c :: l =>
    if c = '/' then [] :: splitSlash l
    else match splitSlash l with
      | [] => [[c]]
      | w :: ws => (c :: w) :: ws

/-- The names in a path: HDF5 splits at `/` and ignores empty names and `.`. A path that begins with `/` starts at the root of the
file in HDF5, this is not modelled. -/
def components (k : String) : List String :=
  ((splitSlash k.toList).map String.ofList).filter fun c => c ≠ "" ∧ c ≠ "."

/-- sparse_array.py 1079-1085 `save_dict_to_h5`: `require_group` takes the key as a path. -/
def save {V : Type} : Tree V → Tree V → Tree V
  | .nil, g => g
  | .leaf k v r, g => save r (setAttr k v g)
  | .sub k d r, g => save r (updateAt (save d) (components k) g)

/-- `d[k] = v` for a dictionary -/
def setLeaf {V : Type} (k : String) (v : V) : Tree V → Tree V
  | .nil => .leaf k v .nil
  | .leaf k' v' r => if k' = k then .leaf k v r else .leaf k' v' (setLeaf k v r)
  | .sub k' g r => if k' = k then .leaf k v r else .sub k' g (setLeaf k v r)

/-- `d[k] = t` for a dictionary `t` -/
def setSub {V : Type} (k : String) (t : Tree V) : Tree V → Tree V
  | .nil => .sub k t .nil
  | .leaf k' v' r => if k' = k then .sub k t r else .leaf k' v' (setSub k t r)
  | .sub k' g r => if k' = k then .sub k t r else .sub k' g (setSub k t r)

/-- sparse_array.py 1091-1092 -/
def loadAttrs {V : Type} : Tree V → Tree V → Tree V
  | .nil, d => d
  | .leaf k v r, d => loadAttrs r (setLeaf k v d)
  | .sub _ _ r, d => loadAttrs r d

/-- sparse_array.py 1094-1097 -/
def loadSubs {V : Type} : Tree V → Tree V → Tree V
  | .nil, d => d
  | .leaf _ _ r, d => loadSubs r d
  | .sub k g r, d => loadSubs r (setSub k (loadSubs g (loadAttrs g .nil)) d)

/-- sparse_array.py 1088-1097 `load_h5_to_dict` into an empty dictionary. h5py goes through attributes and groups in the order of
their names, the model in the order of their creation. -/
def load {V : Type} (g : Tree V) : Tree V := loadSubs g (loadAttrs g .nil)

/-! ### Files -/

/-- The contents of a file: `frames` and `scan_positions` with their attributes. -/
structure File (V : Type) where
  version : Option Nat
  frames : List (List Nat)
  frameNx : Nat
  frameNy : Nat
  positions : List Nat
  scanNx : Nat
  scanNy : Nat
  metadata : Option (Tree V)

/-- sparse_array.py 251-282 `write_to_hdf5`: events are stored as `uint32`. -/
def write {V : Type} (a : SparseArray) (metadata : Tree V) : Outcome (File V) :=
  match a.scanShape, a.frameShape with
  | s0 :: s1 :: _, f0 :: f1 :: _ => .ok {
      version := some 3
      frames := a.data.flatten.map fun fr => fr.map (· % 2 ^ 32)
      frameNx := f0
      frameNy := f1
      positions := List.range (prod a.scanShape)
      scanNx := s1
      scanNy := s0
      metadata := some (save metadata .nil) }
  | _, _ => .throw "IndexError"

/-- sparse_array.py 202-210: without the last column. `num` is the number of frames per position. -/
def crop (frames : List (List Nat)) (nx ny num : Nat) : List (List Nat) :=
  (List.range ny).flatMap fun i =>
    (frames.drop (i * (nx - 1) * num + num * i)).take (((i + 1) * (nx - 1) * num + num * i) - (i * (nx - 1) * num + num * i))

/-- `data.reshape((n, k))` for `k = len(data) // n` -/
def reshapeFrames (data : List (List Nat)) (n : Nat) : Outcome (List (List (List Nat)) × Nat) :=
  let k := data.length / n
  if data.length = n * k then .ok ((List.range n).map fun p => (data.drop (p * k)).take k, k) else .throw "ValueError"

/-- sparse_array.py 198-240: the data after the flyback column was removed, for the shape `[nx, ny]`, in the current format -/
def toCurrent {V : Type} (f : File V) (frames : List (List Nat)) (positions : List Nat) (nx ny : Nat) :
    Outcome (List (List (List Nat)) × Nat) :=
  if f.version.getD 1 ≥ 3 then
    (reshapeFrames frames (prod [ny, nx])).bind fun r =>
      if f.version.getD 1 = 3 then .ok r else .throw "NotImplementedError"
  else toV3 (f.version.getD 1) frames positions [ny, nx]

/-- sparse_array.py 242-249 -/
def construct {V : Type} (f : File V) (nx ny : Nat) (r : List (List (List Nat)) × Nat) : Outcome (SparseArray × Tree V) :=
  (SparseArray.init { data := r.1, numFrames := r.2, scanShape := [ny, nx], frameShape := [f.frameNx, f.frameNy] }).bind fun a =>
    .ok (a, match f.metadata with
      | some g => load g
      | none => .nil)

/-- sparse_array.py 174-249 `from_hdf5` without `init_kwargs`. Without the flyback column, `scanNx` has to be positive. -/
def read {V : Type} (f : File V) (keepFlyback : Bool) : Outcome (SparseArray × Tree V) :=
  if keepFlyback then
    (toCurrent f f.frames f.positions f.scanNx f.scanNy).bind (construct f f.scanNx f.scanNy)
  else
    (toCurrent f (crop f.frames f.scanNx f.scanNy (f.frames.length / prod [f.scanNx, f.scanNy]))
      (List.range (prod [f.scanNx - 1, f.scanNy])) (f.scanNx - 1) f.scanNy).bind (construct f (f.scanNx - 1) f.scanNy)

end Stempy.SparseFile
