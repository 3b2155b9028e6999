import Verif.Model.Image
import Mathlib.Data.Nat.Sqrt

/-!
Model of the radial sum functions of `stempy/image.cpp` (the non-VTKm branch).
-/

namespace Stempy.Image
open Stempy.Mask

/-- `ceil(sqrt(d2))`. The double computation of image.cpp:374-376,387 is exact for coordinates below
`2^24` (the square root of a non-square integer stays away from integers by more than the rounding
error). -/
def ceilSqrt (d2 : Nat) : Nat :=
  if Nat.sqrt d2 * Nat.sqrt d2 = d2 then Nat.sqrt d2 else Nat.sqrt d2 + 1

/-- squared `distance(x1,y1,x2,y2)`, image.cpp:374-376 -/
def distance2 (x1 y1 x2 y2 : Int) : Nat := ((x1 - x2) ^ 2 + (y1 - y2) ^ 2).toNat

/-- The atomic additions performed for one frame by `radialSumFrame`, image.cpp:378-395, as (address,
value) pairs. `radius * dimensions.first * dimensions.second` is 32 bit unsigned arithmetic; the image
number arrives as an `int`. -/
def radialSumFrame (cx cy : Int) (data : List Nat) (offset : Nat) (frame scan : Nat × Nat)
    (imageNumber : Nat) : Outcome (List (Nat × Nat)) :=
  (List.range ((frame.1 * frame.2) % 2 ^ 32)).mapM fun i => do
    let x := i % frame.1
    let y := i / frame.1
    let radius := ceilSqrt (distance2 x y cx cy)
    let v ← readAt data (offset + i)
    let address : Int := ((radius * scan.1 * scan.2) % 2 ^ 32 : Nat) + toInt32 imageNumber
    if address < 0 then .ub else pure (address.toNat, v)

/-- `radialSumFrames`, image.cpp:461-473: one pool task. -/
def radialSumFrames (cx cy : Int) (b : Block) (frame scan : Nat × Nat) (numberOfPixels : Nat) :
    Outcome (List (Nat × Nat)) := do
  let l ← (List.range b.imageNumbers.length).mapM fun i => do
    let n ← readAt b.imageNumbers i
    radialSumFrame cx cy b.data (i * numberOfPixels) frame scan n
  pure l.flatten

/-- `sync_fetch_and_add(address, v)` (atomic_primitives.h:8-16): atomic 64 bit addition, undefined
outside of the allocation. -/
def atomicAdd (mem : List Nat) (op : Nat × Nat) : Outcome (List Nat) := do
  let o ← readAt mem op.1
  writeAt mem op.1 ((o + op.2) % 2 ^ 64)

/-- Largest radius, image.cpp:510-524: `ceil` of the largest distance of the center to the four
corners `(0|w, 0|h)`; the comparison of distances is done on their squares. -/
def maxRadius (frame : Nat × Nat) (cx cy : Int) : Nat :=
  let corners : List (Nat × Nat) := [(0, 0), (0, frame.2), (frame.1, 0), (frame.1, frame.2)]
  ceilSqrt (corners.foldl (fun mx c =>
    let d := distance2 c.1 c.2 cx cy
    if d > mx then d else mx) 0)

/-- `radialSum`, image.cpp:477-581, as the relation between arguments and the outcomes of its possible
runs. -/
def RadialRun (blocks : List Block) (scan : Nat × Nat) (center : Int × Int)
    (r : Outcome (Nat × List Nat)) : Prop :=
  match blocks with
  | [] => r = .throw "No blocks to read!"
  | first :: _ =>
    let scan := if scan.1 = 0 ∨ scan.2 = 0 then first.scanDims else scan
    if scan.1 = 0 ∨ scan.2 = 0 then r = .throw "No scan image size provided."
    else
      let frame := first.frameDims
      match defaultCenter frame.1 center.1, defaultCenter frame.2 center.2 with
      | .ok cx, .ok cy =>
        let radii := maxRadius frame cx cy + 1
        match blocks.mapM fun b =>
          radialSumFrames cx cy b frame scan ((frame.1 * frame.2) % 2 ^ 32) with
        | .ok tasks => ∃ tr, Interleave tasks tr ∧ r = (fun m => (radii, m)) <$>
            tr.foldlM atomicAdd (List.replicate ((scan.1 * scan.2 * radii) % 2 ^ 32) 0)
        | .throw m => r = .throw m
        | .ub => r = .ub
      | _, _ => r = .ub

end Stempy.Image
