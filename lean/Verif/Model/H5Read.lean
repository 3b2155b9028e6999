import Verif.Model.Hdf5

/-!
# Reading a part of a data set: h5cpp/h5readwrite.cpp:353-429

As in `Model/Hdf5` a data set is its dimensions and its values, and HDF5 is external: `H5Sselect_hyperslab` fails for a stride 0 and
does not look at the extent; `H5Dread` fails if the selection is not inside of the data set, or if the selections of the data set
and of the memory do not have the same number of elements. The status of `H5Sselect_hyperslab` is not looked at (408-409), so
after its failure all elements of the data set are selected. The type of the data set is the requested one, and the
data set exists. `cap` is the number of elements of the buffer.
-/

namespace Stempy.Hdf5

/-- The indexes of a hyperslab in row-major order. -/
def slabIndexes : (start strides counts : List Nat) → List (List Nat)
  | s :: ss, t :: ts, c :: cs =>
    (List.range c).flatMap fun k => (slabIndexes ss ts cs).map fun idx => (s + k * t) :: idx
  | _, _, _ => [[]]

/-- The selection is inside of the extent. -/
def fitsStrided : (dims start strides counts : List Nat) → Bool
  | [], [], [], [] => true
  | d :: ds, s :: ss, t :: ts, c :: cs => s + (c - 1) * t < d && fitsStrided ds ss ts cs
  | _, _, _, _ => false

/-- 401-404: `(dims[i] - startVector[i]) / stridesVector[i]`, 64 bit unsigned; division by zero. -/
def defaultCounts : (dims start strides : List Nat) → Outcome (List Nat)
  | [], [], [] => .ok []
  | d :: ds, s :: ss, t :: ts =>
    if t = 0 then .ub
    else do
      let cs ← defaultCounts ds ss ts
      .ok (((2 ^ 64 + d - s) % 2 ^ 64 / t) :: cs)
  | _, _, _ => .ub

/-- `H5Dread` into the buffer of the elements with the given indexes. -/
def h5read (d : Dataset) (cap : Nat) (idx : List (List Nat)) : Outcome (List Nat) :=
  if cap < idx.length then .ub else .ok (idx.map d.value)

/-- All indexes of the data set. -/
def allIndexes (dims : List Nat) : List (List Nat) := slabIndexes (dims.map fun _ => 0) (dims.map fun _ => 1) dims

/-- 406-414, 427-429: selection and reading. -/
def readSlab (d : Dataset) (cap : Nat) (start strides counts : List Nat) : Outcome (List Nat) :=
  if strides.any (· == 0) then
    if counts.prod = d.dims.prod then h5read d cap (allIndexes d.dims) else .throw "Failed to read the data"
  else if counts.any (· == 0) then .ok []
  else if fitsStrided d.dims start strides counts then h5read d cap (slabIndexes start strides counts)
  else .throw "Failed to read the data"

/-- h5readwrite.cpp:353-429. -/
def readData (d : Dataset) (cap : Nat) (strides start counts : Option (List Nat)) : Outcome (List Nat) :=
  if strides.isNone ∧ start.isNone ∧ counts.isNone then h5read d cap (allIndexes d.dims)
  else
    let t := strides.getD (d.dims.map fun _ => 1)
    let s := start.getD (d.dims.map fun _ => 0)
    match counts with
    | some c => readSlab d cap s t c
    | none => do
      let c ← defaultCounts d.dims s t
      readSlab d cap s t c

end Stempy.Hdf5
