import Verif.Model.Image
import Mathlib.Data.Rat.Defs

/-!
Model of `calculateAverage` and `maximumDiffractionPattern` of `stempy/image.cpp`.
Pixel accumulators are `double` in the code; they are exact here (sums of 16 bit values are exact in
a double up to `2^53`; `Model/RoundedImages` has the sums in double precision).
-/

namespace Stempy.Image

/-- The innermost loop shared by image.cpp:360-362 and image.cpp:601-605: for every pixel `j` of
image `i` of the block, combine the accumulator with `blockData[i * numberOfPixels + j]`. The index is
computed in 32 bit unsigned arithmetic. -/
def accumFrame {α : Type} (op : α → Nat → α) (data : List Nat) (n i : Nat) (img : List α) :
    Outcome (List α) :=
  (List.range n).foldlM (fun img j => do
    let v ← readAt data ((i * n + j) % 2 ^ 32)
    let o ← readAt img j
    writeAt img j (op o v)) img

/-- The loop over the images of one block (image.cpp:357-363, 598-606). -/
def accumBlock {α : Type} (op : α → Nat → α) (img : List α) (b : Block) : Outcome (List α) :=
  (List.range b.imagesInBlock).foldlM
    (fun img i => accumFrame op b.data ((b.frameDims.1 * b.frameDims.2) % 2 ^ 32) i img) img

/-- `calculateAverage`, image.cpp:344-372. An empty block range dereferences the end iterator
(undefined); zero images give 0/0 (NaN in the code), reported as `ub` here. -/
def calculateAverage (blocks : List Block) : Outcome (List Rat) :=
  match blocks with
  | [] => .ub
  | first :: _ => do
    let n := (first.frameDims.1 * first.frameDims.2) % 2 ^ 32
    let sum ← blocks.foldlM (accumBlock (α := Nat) (· + ·)) (List.replicate n 0)
    let cnt : Nat := (blocks.map (·.imagesInBlock)).sum
    if cnt = 0 then .ub else pure (sum.map fun s : Nat => (s : Rat) / (cnt : Rat))

/-- `maximumDiffractionPattern`, image.cpp:583-617. `dark` is the dark reference (width, pixels); it
is applied when its width is non-zero. -/
def maximumDiffractionPattern (blocks : List Block) (dark : Nat × List Rat) :
    Outcome (List Rat) :=
  match blocks with
  | [] => .ub
  | first :: _ => do
    let n := (first.frameDims.1 * first.frameDims.2) % 2 ^ 32
    let mx ← blocks.foldlM (accumBlock (fun o v => if v > o then v else o)) (List.replicate n 0)
    if dark.1 > 0 then
      (List.range n).mapM fun i => do
        let m ← readAt mx i
        let d ← readAt dark.2 i
        pure ((m : Rat) - d)
    else pure (mx.map fun m : Nat => (m : Rat))

end Stempy.Image
