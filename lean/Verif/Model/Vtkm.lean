import Verif.Model.Electron
import Verif.Model.Radial

/-!
Model of the VTK-m branches (`#ifdef VTKm`) of `stempy/electron.cpp` and `stempy/image.cpp`.

External behaviour assumed of VTK-m:
* the points of a `CellSetStructured<2>` with point dimensions `(nx, ny)` are numbered with the first
  dimension varying fastest;
* `neighborhood.Get(i, j, 0)` reads the point at that offset, with every coordinate clamped to the grid;
* a map worklet visits every point once, in any order;
* `Algorithm::Reduce` combines the initial value and every input once, with any bracketing and order;
* `AtomicArrayInOut::Add` is an atomic addition.
-/

namespace Stempy.Vtkm
open Stempy.Electron Stempy.Image

/-- A coordinate moved by `d` and clamped to `0 … n - 1` (VTK-m `BoundaryState`). -/
def clampTo (n : Nat) (i : Nat) (d : Int) : Nat := (max 0 (min ((n : Int) - 1) (i + d))).toNat

/-- Flat index read by `neighborhood.Get(di, dj, 0)` at point `k` of a grid of point dimensions
`(nx, ny)`. -/
def neighbourIndex (nx ny k : Nat) (o : Int × Int) : Nat :=
  clampTo nx (k % nx) o.1 + clampTo ny (k / nx) o.2 * nx

/-- The offsets visited by the two loops of `IsMaximalPixel`, electron.cpp:40-43, in order. -/
def offsets : List (Int × Int) :=
  [(-1, -1), (0, -1), (1, -1), (-1, 0), (1, 0), (-1, 1), (0, 1), (1, 1)]

/-- The loop of `IsMaximalPixel::operator()`, electron.cpp:40-47: stops at the first neighbour that is not
smaller. -/
def noneReaches (frame : List Rat) (nx ny k : Nat) (current : Rat) : List (Int × Int) → Outcome Bool
  | [] => .ok true
  | o :: os => do
    let v ← readAt frame (neighbourIndex nx ny k o)
    if current ≤ v then .ok false else noneReaches frame nx ny k current os

/-- `IsMaximalPixel::operator()`, electron.cpp:34-51. -/
def isMaximalPixel (frame : List Rat) (nx ny k : Nat) : Outcome Bool := do
  let current ← readAt frame k
  noneReaches frame nx ny k current offsets

/-- The worklets of the preprocessing at one point: `SubtractAndThreshold`, `Threshold`,
`ApplySubtractGainAndThreshold` or `ApplyGainAndThreshold` (electron.cpp:55-155), chosen by
electron.cpp:181-222. The derived worklets use the thresholds of the base class. -/
def workletPixel (ft : FT) (bg xr : Rat) (dark gain : Option (List Rat)) (j : Nat) (v : Rat) :
    Outcome Rat :=
  match ft with
  | .u16 =>
    match dark with
    | none => pure (thresholdPixel bg xr v)
    | some _ => do
      let d ← readPtr dark j
      let d ← toU16 d
      pure (thresholdPixel bg xr (wrapU16 (v - d)))
  | .f32 => do
    let g ← readPtr gain j
    match dark with
    | none => pure (thresholdPixel bg xr (v * g))
    | some _ => do
      let d ← readPtr dark j
      pure (thresholdPixel bg xr ((v - d) * g))

/-- The maximal points of a frame, electron.cpp:163-168 and 224-236. The point dimensions are
`(frameDimensions.second, frameDimensions.first)`, as in the code. -/
def maximalPixels (frame : List Rat) (dims : Nat × Nat) : Outcome (List Nat) :=
  (List.range (dims.2 * dims.1)).foldlM (fun out k => do
    let e ← isMaximalPixel frame dims.2 dims.1 k
    pure (if e then out ++ [k] else out)) []

/-- `maximalPointsParallel`, electron.cpp:157-238, with the surrounding row dark correction of
electron.cpp:462-473: the counting of one frame in the block-wise path of a VTK-m build. -/
def countFrameVtkm (o : CountOptions) (dims : Nat × Nat) (frame : List Rat) : Outcome (List Nat) := do
  let fr ← match o.rowDark with
    | some stat => applyRowDark stat o.ft dims o.optMean o.bg o.xr o.dark o.gain frame
    | none => forPixels (dims.2 * dims.1) (workletPixel o.ft o.bg o.xr o.dark o.gain) frame
  maximalPixels fr dims

/-- What `Reduce` applies the functor to: an input (value, mask) or an intermediate result. -/
inductive Operand where
  | input (v m : Nat)
  | partial_ (s : Nat)
  deriving Repr, DecidableEq

/-- The five overloads of `MaskAndAdd::operator()`, image.cpp:72-100: `Operand.input` is a
`Vec<uint16_t, 2>`, and a result is a `uint64_t`. The sum of an input and a result is computed in 64 bits
because of the type of the result. -/
def maskAndAdd : Operand → Operand → Nat
  | .input v m, .input v' m' => ((v &&& m) + (v' &&& m')) % 2 ^ 64
  | .input v m, .partial_ b => ((v &&& m) + b) % 2 ^ 64
  | .partial_ a, .input v m => ((v &&& m) + a) % 2 ^ 64
  | .partial_ a, .partial_ b => (a + b) % 2 ^ 64

/-- The unary overload, image.cpp:72. -/
def maskOnly : Operand → Nat
  | .input v m => v &&& m
  | .partial_ s => s

/-- An order of evaluation of `Algorithm::Reduce`: the initial value, an input used as it is, an input
converted by the unary overload, or the combination of two evaluations. -/
inductive Tree where
  | initial
  | raw (v m : Nat)
  | converted (v m : Nat)
  | node (l r : Tree)
  deriving Repr, DecidableEq

/-- The evaluation of a tree. -/
def Tree.eval : Tree → Operand
  | .initial => .partial_ 0
  | .raw v m => .input v m
  | .converted v m => .partial_ (maskOnly (.input v m))
  | .node l r => .partial_ (maskAndAdd l.eval r.eval)

/-- The inputs used by a tree. -/
def Tree.inputs : Tree → List (Nat × Nat)
  | .initial => []
  | .raw v m => [(v, m)]
  | .converted v m => [(v, m)]
  | .node l r => l.inputs ++ r.inputs

/-- `calculateSTEMValuesParallel`, image.cpp:104-121, as the relation between the zipped frame and mask
and the possible results. -/
def StemValue (inputs : List (Nat × Nat)) (r : Nat) : Prop :=
  ∃ t : Tree, t.inputs.Perm inputs ∧ maskOnly t.eval = r

/-- `RadialSumWorklet::operator()` at work index `i`, image.cpp:418-427: one atomic addition.
`radius * m_numberOfScanPositions + m_imageNumber` is 32 bit unsigned arithmetic. -/
def radialWorklet (cx cy : Int) (width imageNumber positions : Nat) (value i : Nat) : Nat × Nat :=
  let x := i % width
  let y := i / width
  let radius := ceilSqrt (distance2 x y cx cy)
  ((radius * positions % 2 ^ 32 + imageNumber) % 2 ^ 32, value)

/-- The additions of `radialSumFrame`, image.cpp:430-438: the worklet at every index of the view of
length `numberOfPixels` at `offset`, in any order. -/
def RadialFrame (cx cy : Int) (data : List Nat) (offset numberOfPixels width imageNumber positions : Nat)
    (ops : List (Nat × Nat)) : Prop :=
  offset + numberOfPixels ≤ data.length ∧
    ops.Perm (((data.drop offset).take numberOfPixels).zipIdx.map fun vi =>
      radialWorklet cx cy width imageNumber positions vi.1 vi.2)

end Stempy.Vtkm
