import Verif.Model.RoundedCom
import Verif.Model.Radial
import Verif.Model.Stack

/-!
# Masks, radial sums and averages in double precision

`Model/Mask`, `Model/Radial` and `Model/Stack` compute with exact numbers. Here every operation of type `double` is rounded:
`rd` is the rounding of sums, quotients and square roots, `rp` that of `pow`.

Simplifications: `pow` of a number and `2.0` is a rounding of the square, not necessarily in the mode of the other operations. Integers of 32 bits
are converted to `double` exactly.
-/

namespace Stempy.RoundedImages
open Stempy.FloatPixels (Fl)
open Stempy.IeeeRound (rnd)
open Stempy.Image

/-- `static_cast<int>` of a `double`: truncation toward zero, undefined outside of `int`. -/
def toInt : Fl → Outcome Int
  | .fin q => int32 (if q < 0 then ⌈q⌉ else ⌊q⌋)
  | _ => .ub

/-- `std::round`: half away from zero. -/
def round : Fl → Fl
  | .fin q => .fin (if q < 0 then -⌊-q + 1 / 2⌋ else ⌊q + 1 / 2⌋ : Int)
  | v => v

/-- `std::ceil` -/
def ceil : Fl → Fl
  | .fin q => .fin (⌈q⌉ : Int)
  | v => v

/-- `pow(x, 2.0)` of an `int` -/
def square (rp : Rat → Fl) (x : Int) : Fl := rp ((x : Rat) * x)

/-- `static_cast<int>(round(d / 2.0))`, mask.cpp:16,19; image.cpp:505,508 -/
def roundHalf (rd : Rat → Fl) (d : Nat) : Outcome Int := toInt (round (rnd rd ((Fl.fin d).div (.fin 2))))

/-- Center defaulting, mask.cpp:15-19; image.cpp:504-508 -/
def defaultCenter (rd : Rat → Fl) (d : Nat) (c : Int) : Outcome Int := if c < 0 then roundHalf rd d else .ok c

/-- `pow(x1 - x2, 2.0) + pow(y1 - y2, 2.0)` of `int`s, mask.cpp:29 and image.cpp:375 -/
def squaredDistance (rp rd : Rat → Fl) (x1 y1 x2 y2 : Int) : Outcome Fl := do
  let dx ← int32 (x1 - x2)
  let dy ← int32 (y1 - y2)
  pure (rnd rd ((square rp dx).add (square rp dy)))

/-- Mask value of element `i`, mask.cpp:24-31. -/
def maskValue (rp rd : Rat → Fl) (w : Nat) (inner2 outer2 cx cy : Int) (i : Nat) : Outcome Nat := do
  let d ← squaredDistance rp rd (toInt32 (i % w)) (toInt32 (i / w)) cx cy
  pure (if d.ge (.fin inner2) && (Fl.fin outer2).gt d then 0xFFFF else 0)

/-- `createAnnularMask`, mask.cpp:9-34. -/
def createAnnularMask (rp rd : Rat → Fl) (w h : Nat) (inner outer : Int) (cx cy : Int) : Outcome (List Nat) := do
  let n := (w * h) % 2 ^ 32
  let cx ← defaultCenter rd w cx
  let cy ← defaultCenter rd h cy
  let inner2 ← toInt (square rp inner)
  let outer2 ← toInt (square rp outer)
  (List.range n).mapM (maskValue rp rd w inner2 outer2 cx cy)

/-- `distance`, image.cpp:374-376 -/
def distance (rp rd : Rat → Fl) (x1 y1 x2 y2 : Int) : Outcome Fl := do
  let s ← squaredDistance rp rd x1 y1 x2 y2
  pure (RoundedCom.sqrt rd s)

/-- The atomic additions performed for one frame by `radialSumFrame`, image.cpp:378-395, as (address, value) pairs. The product of the radius and
the dimensions is 32 bit unsigned arithmetic; the image number arrives as an `int`. -/
def radialSumFrame (rp rd : Rat → Fl) (cx cy : Int) (data : List Nat) (offset : Nat) (frame scan : Nat × Nat) (imageNumber : Nat) :
    Outcome (List (Nat × Nat)) :=
  (List.range ((frame.1 * frame.2) % 2 ^ 32)).mapM fun i => do
    let d ← distance rp rd (toInt32 (i % frame.1)) (toInt32 (i / frame.1)) cx cy
    let radius ← toInt (ceil d)
    let v ← readAt data (offset + i)
    let address : Int := (radius * scan.1 * scan.2) % 2 ^ 32 + toInt32 imageNumber
    if address < 0 then .ub else pure (address.toNat, v)

/-- `radialSumFrames`, image.cpp:461-473: one pool task. -/
def radialSumFrames (rp rd : Rat → Fl) (cx cy : Int) (b : Block) (frame scan : Nat × Nat) (numberOfPixels : Nat) :
    Outcome (List (Nat × Nat)) := do
  let l ← (List.range b.imageNumbers.length).mapM fun i => do
    let n ← readAt b.imageNumbers i
    radialSumFrame rp rd cx cy b.data (i * numberOfPixels) frame scan n
  pure l.flatten

/-- Largest radius, image.cpp:510-524. -/
def maxRadius (rp rd : Rat → Fl) (frame : Nat × Nat) (cx cy : Int) : Outcome Int := do
  let corners : List (Nat × Nat) := [(0, 0), (0, frame.2), (frame.1, 0), (frame.1, frame.2)]
  let mx ← corners.foldlM (fun mx c => do
    let d ← distance rp rd (toInt32 c.1) (toInt32 c.2) cx cy
    pure (if d.gt mx then d else mx)) (.fin 0)
  toInt (ceil mx)

/-- The center and the number of radii, image.cpp:503-526 and 533; `maxRadius + 1` is an `int`. -/
def geometry (rp rd : Rat → Fl) (frame : Nat × Nat) (center : Int × Int) : Outcome (Int × Int × Int) := do
  let cx ← defaultCenter rd frame.1 center.1
  let cy ← defaultCenter rd frame.2 center.2
  let m ← maxRadius rp rd frame cx cy
  let radii ← int32 (m + 1)
  pure (cx, cy, radii)

/-- `radialSum`, image.cpp:477-581, as the relation between arguments and the outcomes of its possible runs. The size of the memory is computed
in unsigned arithmetic. -/
def RadialRun (rp rd : Rat → Fl) (blocks : List Block) (scan : Nat × Nat) (center : Int × Int) (r : Outcome (Nat × List Nat)) : Prop :=
  match blocks with
  | [] => r = .throw "No blocks to read!"
  | first :: _ =>
    let scan := if scan.1 = 0 ∨ scan.2 = 0 then first.scanDims else scan
    if scan.1 = 0 ∨ scan.2 = 0 then r = .throw "No scan image size provided."
    else
      let frame := first.frameDims
      match geometry rp rd frame center with
      | .ok (cx, cy, radii) =>
        match blocks.mapM fun b => radialSumFrames rp rd cx cy b frame scan ((frame.1 * frame.2) % 2 ^ 32) with
        | .ok tasks => ∃ tr, Interleave tasks tr ∧ r = (fun m => (radii.toNat, m)) <$>
            tr.foldlM atomicAdd (List.replicate ((scan.1 * scan.2 * radii.toNat) % 2 ^ 32) 0)
        | .throw m => r = .throw m
        | .ub => r = .ub
      | .throw m => r = .throw m
      | .ub => r = .ub

/-- `calculateAverage`, image.cpp:344-372. The number of images is a `uint64_t` and converted to `double`. -/
def calculateAverage (rd : Rat → Fl) (blocks : List Block) : Outcome (List Fl) :=
  match blocks with
  | [] => .ub
  | first :: _ => do
    let n := (first.frameDims.1 * first.frameDims.2) % 2 ^ 32
    let sum ← blocks.foldlM (accumBlock fun (a : Fl) (v : Nat) => rnd rd (a.add (.fin v))) (List.replicate n (.fin 0))
    let cnt : Nat := (blocks.map (·.imagesInBlock)).sum % 2 ^ 64
    pure (sum.map fun s => rnd rd (s.div (rd (cnt : Nat))))

end Stempy.RoundedImages
