import Verif.Model.Mask
import Verif.Spec.Interleave

/-!
Model of `stempy/image.cpp` and the templates of `stempy/image.h` (the non-VTKm branches).
-/

namespace Stempy.Image
open Stempy.Mask

/-- `Header` and `Block` (reader.h:49-88), the fields used by the image functions. `data` is the flat
pixel buffer of the block. -/
structure Block where
  scanDims : Nat × Nat
  frameDims : Nat × Nat
  imagesInBlock : Nat
  imageNumbers : List Nat
  data : List Nat
  deriving Repr, DecidableEq

/-- `calculateSTEMValues`, image.cpp:40-52: sum of `value & mask[i]` in a `uint64_t`. -/
def calculateSTEMValues (data : List Nat) (offset numberOfPixels : Nat) (mask : List Nat) :
    Outcome Nat :=
  (List.range numberOfPixels).foldlM (fun acc i => do
    let value ← readAt data (offset + i)
    let m ← readAt mask i
    pure ((acc + (value &&& m)) % 2 ^ 64)) 0

/-- The writes one pool task performs (`_runCalculateSTEMValues`, image.cpp:131-159): for each image
of the block, `image[imageNumbers[i]] = value`. The image is identified by its index `k`. -/
def taskWrites (k : Nat) (data : List Nat) (imageNumbers : List Nat) (numberOfPixels : Nat)
    (mask : List Nat) : Outcome (List (Nat × Nat × Nat)) :=
  (List.range imageNumbers.length).mapM fun i => do
    let v ← calculateSTEMValues data (i * numberOfPixels) numberOfPixels mask
    let n ← readAt imageNumbers i
    pure (k, n, v)

/-- One write `image.data.get()[imageNumbers[i]] = stemValues.data` (image.cpp:157), without bounds
check in the code: undefined behaviour outside of the image. -/
def applyWrite (images : List (List Nat)) (op : Nat × Nat × Nat) : Outcome (List (List Nat)) := do
  let img ← readAt images op.1
  let img' ← writeAt img op.2.1 op.2.2
  pure (images.set op.1 img')

/-- The argument checks of the dense `createSTEMImages`, image.cpp:169-197; returns the scan
dimensions in effect and the first block. -/
def validateDense (blocks : List Block) (inner outer : List Int) (scan : Nat × Nat) :
    Outcome (Block × (Nat × Nat)) :=
  match blocks with
  | [] => .throw "No blocks to read!"
  | first :: _ =>
    if inner.isEmpty || outer.isEmpty then .throw "innerRadii or outerRadii are empty!"
    else if inner.length ≠ outer.length then
      .throw "innerRadii and outerRadii are not the same size!"
    else
      let scan := if scan.1 = 0 ∨ scan.2 = 0 then first.scanDims else scan
      if scan.1 = 0 ∨ scan.2 = 0 then .throw "No scan image size provided."
      else .ok (first, scan)

/-- Zero-initialised images (image.h:24-29, image.cpp:199-203), size modulo `2^32`. -/
def zeroImages (n : Nat) (scan : Nat × Nat) : List (List Nat) :=
  List.replicate n (List.replicate ((scan.1 * scan.2) % 2 ^ 32) 0)

/-- The masks (image.cpp:215-223). -/
def makeMasks (frame : Nat × Nat) (inner outer : List Int) (center : Int × Int) :
    Outcome (List (List Nat)) :=
  (inner.zip outer).mapM fun r => createAnnularMask frame.1 frame.2 r.1 r.2 center.1 center.2

/-- All pool tasks, one for each block and mask (image.cpp:234-267). -/
def denseTasks (blocks : List Block) (masks : List (List Nat)) (numberOfPixels : Nat) :
    Outcome (List (List (Nat × Nat × Nat))) := do
  let l ← blocks.mapM fun b =>
    (masks.zipIdx).mapM fun mk => taskWrites mk.2 b.data b.imageNumbers numberOfPixels mk.1
  pure l.flatten

/-- Dense `createSTEMImages`, image.cpp:162-277, as the relation between arguments and the outcomes
of its possible runs: the pool threads execute the writes of the tasks in any interleaving
(`Interleave` over-approximates the FIFO queue with two workers; values are computed from data no
task modifies, so only the writes matter). A data race (two unordered writes to one pixel) is not
turned into undefined behaviour here: the race is between two stores of a 64 bit word, and is visible
as schedule dependence. `masks` are freed and the pool is joined before returning
(image.cpp:270-276). -/
def DenseRun (blocks : List Block) (inner outer : List Int) (scan : Nat × Nat)
    (center : Int × Int) (r : Outcome (List (List Nat))) : Prop :=
  match validateDense blocks inner outer scan with
  | .throw m => r = .throw m
  | .ub => r = .ub
  | .ok (first, scan) =>
    let numberOfPixels := (first.frameDims.1 * first.frameDims.2) % 2 ^ 32
    match makeMasks first.frameDims inner outer center with
    | .throw m => r = .throw m
    | .ub => r = .ub
    | .ok masks =>
      match denseTasks blocks masks numberOfPixels with
      | .throw m => r = .throw m
      | .ub => r = .ub
      | .ok tasks => ∃ tr, Interleave tasks tr ∧
          r = tr.foldlM applyWrite (zeroImages inner.length scan)

/-- `calculateSTEMValuesSparse`, image.h:58-74. -/
def calculateSTEMValuesSparse (sparse : List (List (List Nat))) (mask : List Nat)
    (image : List Nat) : Outcome (List Nat) :=
  (sparse.zipIdx).foldlM (fun image pi =>
    pi.1.foldlM (fun image frame => do
      let values ← frame.foldlM (fun acc pos => do
        let m ← readAt mask pos
        pure ((acc + m) % 2 ^ 64)) 0
      let old ← readAt image pi.2
      writeAt image pi.2 ((old + values) % 2 ^ 64)) image) image

/-- Sparse `createSTEMImages`, image.h:76-110. -/
def createSTEMImagesSparse (sparse : List (List (List Nat))) (inner outer : List Int)
    (scan frame : Nat × Nat) (center : Int × Int) : Outcome (List (List Nat)) :=
  if inner.isEmpty || outer.isEmpty then .throw "innerRadii or outerRadii are empty!"
  else if inner.length ≠ outer.length then
    .throw "innerRadii and outerRadii are not the same size!"
  else do
    let masks ← makeMasks frame inner outer center
    masks.mapM fun m =>
      calculateSTEMValuesSparse sparse m (List.replicate ((scan.1 * scan.2) % 2 ^ 32) 0)

end Stempy.Image
