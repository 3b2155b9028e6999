import Verif.Model.Image
import Mathlib.Data.Rat.Floor
import Mathlib.Algebra.Order.Field.Rat

/-!
Model of the per-frame part of `stempy/electron.cpp` (the non-VTKm branches): row dark correction,
local maxima, preprocessing, and the block-wise (`Classic`) electron counting.

Pixel values are exact rationals in both instantiations. For `FrameType = uint16_t` every store into the
frame goes through the conversion rules of C++ (`toU16`, `wrapU16`); for `FrameType = float` stores are
exact (rounding is not modelled).
-/

namespace Stempy.Electron
open Stempy.Image

/-- The two instantiations of `FrameType` (electron.cpp:512-524, 838-855). -/
inductive FT where
  | u16
  | f32
  deriving Repr, DecidableEq

/-- Conversion of a floating point value to `uint16_t`: truncation toward zero, undefined behaviour when
the truncated value is not representable ([conv.fpint]). -/
def toU16 (r : Rat) : Outcome Rat :=
  if r ≤ -1 ∨ 65536 ≤ r then .ub else if r < 0 then .ok 0 else .ok (⌊r⌋ : Int)

/-- Conversion of an `int` to `uint16_t`: modulo `2^16`. The argument is integral in all uses. -/
def wrapU16 (r : Rat) : Rat := ((⌊r⌋ % 65536 : Int) : Rat)

/-- Store of a floating point result into a frame element. -/
def store (ft : FT) (r : Rat) : Outcome Rat :=
  match ft with
  | .u16 => toU16 r
  | .f32 => .ok r

/-- Read through a possibly null pointer to an array. -/
def readPtr (p : Option (List Rat)) (j : Nat) : Outcome Rat :=
  match p with
  | none => .ub
  | some l => readAt l j

/-- Threshold step shared by electron.cpp:297-299, 486-489 and 551-554. -/
def thresholdPixel (bg xr v : Rat) : Rat := if v ≤ bg ∨ v ≥ xr then 0 else v

/-- One pixel of the preprocessing in the block-wise counting, electron.cpp:475-490. The dark
reference is read whether or not one was given. -/
def classicPixel (ft : FT) (bg xr : Rat) (dark gain : Option (List Rat)) (j : Nat) (v : Rat) :
    Outcome Rat := do
  let d ← readPtr dark j
  let v ← match ft with
    | .u16 => toU16 (v - d)
    | .f32 => do
      let g ← readPtr gain j
      pure ((v - d) * g)
  pure (thresholdPixel bg xr v)

/-- One pixel of the preprocessing in the streaming counting, electron.cpp:541-555. The template
parameter `dark` is true exactly when a dark reference was given (electron.cpp:845-853). For `uint16_t`
the dark value is converted first and the subtraction wraps. -/
def streamPixel (ft : FT) (bg xr : Rat) (dark gain : Option (List Rat)) (j : Nat) (v : Rat) :
    Outcome Rat := do
  let v ← match dark with
    | none => pure v
    | some _ => do
      let d ← readPtr dark j
      match ft with
      | .u16 => do
        let d ← toU16 d
        pure (wrapU16 (v - d))
      | .f32 => pure (v - d)
  let v ← match ft with
    | .u16 => pure v
    | .f32 => do
      let g ← readPtr gain j
      pure (v * g)
  pure (thresholdPixel bg xr v)

/-- A preprocessing loop over the pixels of a frame (electron.cpp:475-476, 540). -/
def forPixels (n : Nat) (f : Nat → Rat → Outcome Rat) (frame : List Rat) : Outcome (List Rat) :=
  (List.range n).foldlM (fun fr j => do
    let v ← readAt fr j
    let v' ← f j v
    writeAt fr j v') frame

/-- `mean` of electron.cpp:254-257; `none` is the NaN of an empty range. Rounding is not modelled. -/
def meanStat (v : List Rat) : Outcome (Option Rat) :=
  .ok (if v.length = 0 then none else some (v.sum / v.length))

/-- `median` of electron.cpp:260-273. `nth v n` is the state of the vector after
`std::nth_element(begin, begin + n, end)`. -/
def medianStat (nth : List Rat → Nat → List Rat) (v : List Rat) : Outcome (Option Rat) := do
  let n := v.length / 2
  let u := nth v n
  let vn ← readAt u n
  if v.length % 2 = 1 then pure (some vn)
  else
    match u.take n with
    | [] => .ub
    | a :: l => pure (some ((l.foldl max a + vn) / 2))

/-- One pixel of `apply` in `applyRowDark`, electron.cpp:285-300. A zero or NaN statistic makes the factor
infinite or NaN; the conversion to `uint16_t` is then undefined, and for `float` the result is outside of
the modelled values, so both are `ub`. -/
def rowDarkPixel (ft : FT) (optMean bg xr : Rat) (dark gain : Option (List Rat))
    (stat : Option Rat) (i : Nat) (v : Rat) : Outcome Rat := do
  let v ← match dark with
    | none => pure v
    | some _ => do
      let d ← readPtr dark i
      store ft (v - d)
  let v ← match stat with
    | none => .ub
    | some s => if s = 0 then .ub else store ft (v * (optMean / s))
  let v ← match ft with
    | .u16 => pure v
    | .f32 => do
      let g ← readPtr gain i
      pure (v * g)
  pure (thresholdPixel bg xr v)

/-- `apply` in `applyRowDark`, electron.cpp:282-302: statistic of `[start, start + len)`, then the pixels
of this range. -/
def rowDarkRange (statFunc : List Rat → Outcome (Option Rat)) (ft : FT) (optMean bg xr : Rat)
    (dark gain : Option (List Rat)) (start len : Nat) (frame : List Rat) : Outcome (List Rat) := do
  if start + len ≤ frame.length then
    let stat ← statFunc ((frame.drop start).take len)
    (List.range len).foldlM (fun fr k => do
      let v ← readAt fr (start + k)
      let v' ← rowDarkPixel ft optMean bg xr dark gain stat (start + k) v
      writeAt fr (start + k) v') frame
  else .ub

/-- `applyRowDark`, electron.cpp:239-312. As in the code, `height` is the first frame dimension and
`width` the second. The row offset is computed in 32 bit arithmetic. -/
def applyRowDark (statFunc : List Rat → Outcome (Option Rat)) (ft : FT) (dims : Nat × Nat)
    (optMean bg xr : Rat) (dark gain : Option (List Rat)) (frame : List Rat) :
    Outcome (List Rat) :=
  let height := dims.1
  let width := dims.2
  let leftSize := width / 2
  let rightSize := width - leftSize
  (List.range height).foldlM (fun fr row => do
    let i := (row * width) % 2 ^ 32
    let fr ← rowDarkRange statFunc ft optMean bg xr dark gain i leftSize fr
    rowDarkRange statFunc ft optMean bg xr dark gain (i + leftSize) rightSize fr) frame

/-- `mod`, electron.cpp:332-335, with the conversion of both arguments to `uint16_t`. -/
def mod16 (x y : Nat) : Outcome Nat :=
  let x := x % 65536
  let y := y % 65536
  if y = 0 then .ub else .ok ((x % y + y) % y)

/-- Short-circuit `e && c`. -/
def andThen (e : Bool) (c : Outcome Bool) : Outcome Bool := if e then c else .ok false

/-- Short-circuit `e || c`. -/
def orElse (e : Bool) (c : Outcome Bool) : Outcome Bool := if e then .ok true else c

/-- Three comparisons with the row above or below, electron.cpp:366-375 and 380-391: straight, left and
right neighbour in the row starting at `rowStart`. -/
def rowChecks (greater : Nat → Outcome Bool) (rowStart column left right width : Nat) (event : Bool) :
    Outcome Bool := do
  let event ← andThen event (greater (rowStart + column))
  let event ← andThen event (orElse (column = 0) (greater (rowStart + left)))
  andThen event (orElse (column = width - 1) (greater (rowStart + right)))

/-- The row checks are skipped on the first resp. last row, and when the pixel is already known not to be
an event (electron.cpp:364, 378). -/
def rowChecksIf (cond : Bool) (greater : Nat → Outcome Bool)
    (rowStart column left right width : Nat) (event : Bool) : Outcome Bool :=
  if event && cond then rowChecks greater rowStart column left right width event else .ok event

/-- The checks of one loop iteration of `maximalPoints`, electron.cpp:361-397, given the neighbour
columns and rows. -/
def eventChecks (greater : Nat → Outcome Bool) (width height row column left right top bottom : Nat) :
    Outcome Bool := do
  let bottomIndex := (bottom * width) % 2 ^ 32
  let topIndex := (top * width) % 2 ^ 32
  let rowIndex := (row * width) % 2 ^ 32
  let event ← rowChecksIf (row ≠ 0) greater topIndex column left right width true
  let event ← rowChecksIf (row ≠ height - 1) greater bottomIndex column left right width event
  let event ← andThen event (orElse (column = 0) (greater (rowIndex + left)))
  andThen event (orElse (column = width - 1) (greater (rowIndex + right)))

/-- The body of the loop of `maximalPoints`, electron.cpp:349-399: is pixel `i` an event? `gt a b` is the
comparison `a > b` of the pixel type. 32 bit unsigned arithmetic. -/
def isEvent {α : Type} (gt : α → α → Bool) (frame : List α) (width height i : Nat) :
    Outcome Bool :=
  if width = 0 then .ub
  else do
    let row := i / width
    let column := i % width
    let right ← mod16 ((column + 1) % 2 ^ 32) width
    let left ← mod16 ((column + 2 ^ 32 - 1) % 2 ^ 32) width
    let top ← mod16 ((row + 2 ^ 32 - 1) % 2 ^ 32) height
    let bottom ← mod16 ((row + 1) % 2 ^ 32) height
    let pixelValue ← readAt frame i
    eventChecks (fun j => do let v ← readAt frame j; pure (gt pixelValue v))
      width height row column left right top bottom

/-- `maximalPoints`, electron.cpp:339-406. -/
def maximalPoints {α : Type} (gt : α → α → Bool) (frame : List α) (dims : Nat × Nat) :
    Outcome (List Nat) :=
  let width := dims.1
  let height := dims.2
  (List.range ((height * width) % 2 ^ 32)).foldlM (fun events i => do
    let e ← isEvent gt frame width height i
    pure (if e then events ++ [i] else events)) []

/-- Options of the counting of one frame; `rowDark` is `none` when row dark subtraction is off, and
otherwise the statistic function chosen by `applyRowDarkUseMean`. -/
structure CountOptions where
  ft : FT
  bg : Rat
  xr : Rat
  dark : Option (List Rat)
  gain : Option (List Rat)
  rowDark : Option (List Rat → Outcome (Option Rat))
  optMean : Rat

/-- Comparison `a > b` of pixels. -/
def ratGt (a b : Rat) : Bool := decide (a > b)

/-- The per-frame `electronCount` of the streaming path, electron.cpp:527-561. -/
def countFrameStream (o : CountOptions) (dims : Nat × Nat) (frame : List Rat) :
    Outcome (List Nat) := do
  let fr ← match o.rowDark with
    | some stat => applyRowDark stat o.ft dims o.optMean o.bg o.xr o.dark o.gain frame
    | none => forPixels ((dims.1 * dims.2) % 2 ^ 32) (streamPixel o.ft o.bg o.xr o.dark o.gain) frame
  maximalPoints ratGt fr dims

/-- The per-frame part of the block-wise path, electron.cpp:462-495. -/
def countFrameClassic (o : CountOptions) (dims : Nat × Nat) (frame : List Rat) :
    Outcome (List Nat) := do
  let fr ← match o.rowDark with
    | some stat => applyRowDark stat o.ft dims o.optMean o.bg o.xr o.dark o.gain frame
    | none => forPixels ((dims.1 * dims.2) % 2 ^ 32) (classicPixel o.ft o.bg o.xr o.dark o.gain) frame
  maximalPoints ratGt fr dims

/-- The copy of image `i` of a block into the frame vector, electron.cpp:455-459: the offset
`i * frameDimensions.first * frameDimensions.second` is computed in 32 bit arithmetic. Reading past the
block is undefined. -/
def copyFrame (data : List Nat) (dims : Nat × Nat) (i : Nat) : Outcome (List Rat) :=
  let n := (dims.1 * dims.2) % 2 ^ 32
  let start := (i * dims.1 * dims.2) % 2 ^ 32
  if start + n ≤ data.length then .ok (((data.drop start).take n).map fun v : Nat => (v : Rat)) else .ub

/-- `electronCount` over a range of blocks, electron.cpp:408-506 (dispatch 508-525). `count` is the
per-frame counting. Result: scan dimensions, and for every scan position the list of its frames. -/
def electronCountClassic (count : Nat × Nat → List Rat → Outcome (List Nat)) (blocks : List Block)
    (scan : Nat × Nat) : Outcome ((Nat × Nat) × List (List (List Nat))) :=
  match blocks with
  | [] => .throw "No blocks to read!"
  | first :: _ =>
    let scan := if scan.1 = 0 ∨ scan.2 = 0 then first.scanDims else scan
    if scan.1 = 0 ∨ scan.2 = 0 then .throw "No scan image size provided."
    else do
      let dims := first.frameDims
      let events : List (List (List Nat)) := List.replicate ((scan.1 * scan.2) % 2 ^ 32) [[]]
      let events ← blocks.foldlM (fun events b =>
        (List.range b.imagesInBlock).foldlM (fun events i => do
          let frame ← copyFrame b.data dims i
          let ev ← count dims frame
          let n ← readAt b.imageNumbers i
          let cell ← readAt events n
          let cell ← writeAt cell 0 ev
          writeAt events n cell) events) events
      pure (scan, events)

end Stempy.Electron
