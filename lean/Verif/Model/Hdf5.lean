import Verif.Basic

/-!
# Writing a stream to HDF5: stempy/reader.cpp:635-733, h5cpp/h5readwrite.cpp:235-300

HDF5 itself is external: a dataset is its dimensions and its values, new values are 0 (the default fill value), and
`H5Dwrite` of a hyperslab fails if the slab is not inside of the dataset (`H5Sselect_hyperslab` is called with the
strides 1). Creating the dataset is assumed to succeed.
-/

namespace Stempy.Hdf5

structure Dataset where
  dims : List Nat
  value : List Nat → Nat

def create (dims : List Nat) : Dataset := ⟨dims, fun _ => 0⟩

/-- Offset in the buffer of the element `idx` of a hyperslab, in row-major order, if it is in the hyperslab. -/
def slabOffset : (start counts idx : List Nat) → Option Nat
  | [], [], [] => some 0
  | s :: ss, c :: cs, i :: is =>
    if s ≤ i ∧ i < s + c then (slabOffset ss cs is).map fun o => (i - s) * cs.prod + o else none
  | _, _, _ => none

/-- The hyperslab is inside of the dataset. -/
def fits : (dims start counts : List Nat) → Bool
  | [], [], [] => true
  | d :: ds, s :: ss, c :: cs => s + c ≤ d && fits ds ss cs
  | _, _, _ => false

/-- h5readwrite.cpp:235-300; the buffer is read up to the size of the hyperslab. -/
def updateData (d : Dataset) (start counts : List Nat) (buf : List Nat) : Outcome Dataset :=
  if !fits d.dims start counts then .throw "Unable to update HDF5."
  else if buf.length < counts.prod then .ub
  else .ok { d with value := fun idx =>
    match slabOffset start counts idx with
    | some o => buf.getD o 0
    | none => d.value idx }

/-- A block of the reader: the frames have 576 × 576 pixels. -/
structure Block where
  scanWidth : Nat
  scanHeight : Nat
  imageNumbers : List Nat
  data : List Nat

/-- reader.cpp:672-686: image `i` of the block. -/
def frameImage (d : Dataset) (b : Block) (i : Nat) : Outcome Dataset := do
  let pos ← readAt b.imageNumbers i
  updateData d [pos, 0, 0] [1, 576, 576] (b.data.drop (i * 576 * 576))

/-- reader.cpp:641-686. -/
def frameBlocks (d : Option Dataset) : List Block → Outcome (Option Dataset)
  | [] => .ok d
  | b :: bs => do
    let d ← match d with
      | some d => .ok d
      | none => do
        let size ← int32 (b.scanWidth * b.scanHeight)
        .ok (create [size.toNat, 576, 576])
    let d ← (List.range b.imageNumbers.length).foldlM (fun d i => frameImage d b i) d
    frameBlocks (some d) bs

/-- reader.cpp:635-688: the dataset `/frames`, if there is a block. -/
def toHdf5Frames (bs : List Block) : Outcome (Option Dataset) := frameBlocks none bs

/-- reader.cpp:716-731: image `i` of the block. The position is that of the first image. -/
def cubeImage (d : Dataset) (b : Block) (i : Nat) : Outcome Dataset := do
  let pos ← readAt b.imageNumbers 0
  if b.scanWidth = 0 then .ub
  else updateData d [pos % b.scanWidth, pos / b.scanWidth, 0, 0] [1, 1, 576, 576] (b.data.drop (i * 576 * 576))

/-- reader.cpp:695-731. -/
def cubeBlocks (d : Option Dataset) : List Block → Outcome (Option Dataset)
  | [] => .ok d
  | b :: bs => do
    let d := d.getD (create [b.scanWidth, b.scanHeight, 576, 576])
    let d ← (List.range b.imageNumbers.length).foldlM (fun d i => cubeImage d b i) d
    cubeBlocks (some d) bs

/-- reader.cpp:690-733: the dataset `/datacube`, if there is a block. -/
def toHdf5Cube (bs : List Block) : Outcome (Option Dataset) := cubeBlocks none bs

end Stempy.Hdf5
