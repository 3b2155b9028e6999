import Verif.Model.Electron

/-!
Model of `stempy/electronthresholds.cpp`.

External: the random choice of the sample frames (a parameter `picks`), the square root (`stdDev` is a
parameter), the Levenberg-Marquardt fit (its result, optimized mean and sigma, is a parameter).
Floating point values are exact rationals.
-/

namespace Stempy.Thresholds
open Stempy.Image Stempy.Electron

/-- `static_cast<int>` of a floating point value: truncation toward zero, undefined outside of `int`. -/
def toInt (r : Rat) : Outcome Int :=
  let t := if r < 0 then ⌈r⌉ else ⌊r⌋
  int32 t

/-- One sample value, electronthresholds.cpp:101-115. `value` has type `uint16_t` in both instantiations;
without gain the dark value is converted to `int16_t` (undefined out of range) and the difference wraps;
with gain both operations convert a floating point result back to `uint16_t`. -/
def sampleValue (ft : FT) (dark gain : Option (List Rat)) (j : Nat) (value : Nat) : Outcome Rat := do
  match ft with
  | .u16 =>
    match dark with
    | none => pure (value : Rat)
    | some _ => do
      let d ← readPtr dark j
      let t := if d < 0 then ⌈d⌉ else ⌊d⌋
      if -32768 ≤ t ∧ t ≤ 32767 then pure ((((value : Int) - t) % 65536 : Int) : Rat) else .ub
  | .f32 => do
    let v ← match dark with
      | none => pure (value : Rat)
      | some _ => do
        let d ← readPtr dark j
        toU16 ((value : Rat) - d)
    let g ← readPtr gain j
    toU16 (v * g)

/-- The sampling loop, electronthresholds.cpp:87-119. `picks` are the random (block, frame) choices. The code
writes the values of sample `i` at `samples[i * numberOfPixels + j]`; here the samples are
concatenated. -/
def gatherSamples (ft : FT) (dark gain : Option (List Rat)) (blocks : List Block)
    (picks : List (Nat × Nat)) : Outcome (List Rat) :=
  match blocks with
  | [] => .ub
  | first :: _ => do
    let n := (first.frameDims.1 * first.frameDims.2) % 2 ^ 32
    let rows ← picks.mapM fun p => do
      let b ← readAt blocks p.1
      (List.range n).mapM fun j => do
        let v ← readAt b.data ((p.2 * n + j) % 2 ^ 32)
        sampleValue ft dark gain j v
    pure rows.flatten

/-- `calculateMean`, electronthresholds.cpp:13-17. -/
def calculateMean (values : List Rat) : Rat := values.sum / values.length

/-- `calculateVariance`, electronthresholds.cpp:19-31. -/
def calculateVariance (values : List Rat) (mean : Rat) : Rat :=
  (values.map fun v => (v - mean) ^ 2).sum / ((values.length : Rat) - 1)

/-- Smallest/largest sample (`std::minmax_element`), electronthresholds.cpp:128. -/
def minSample : List Rat → Outcome Rat
  | [] => .ub
  | v :: vs => .ok (vs.foldl min v)
def maxSample : List Rat → Outcome Rat
  | [] => .ub
  | v :: vs => .ok (vs.foldl max v)

/-- Histogram of the samples, electronthresholds.cpp:125-153: the first bin edge and the bin counts. Note
that the bin range uses `xrayThreshold * stdDev`. A negative number of bins makes the vector constructor
throw. A negative `binIndex` is not skipped: it is written out of bounds. -/
def buildHistogram (samples : List Rat) (stdDev xRayNSigma : Rat) : Outcome (Int × List Nat) := do
  let mean := calculateMean samples
  let xrayThreshold := mean + xRayNSigma * stdDev
  let mn ← minSample samples
  let mx ← maxSample samples
  let mxInt ← toInt (⌈mx⌉ : Int)
  let mnInt ← toInt mn
  let hi ← toInt (mean + xrayThreshold * stdDev)
  let lo ← toInt (mean - xrayThreshold * stdDev)
  let maxBin := min mxInt hi
  let minBin := max mnInt lo
  let numberOfBins := maxBin - minBin
  if numberOfBins < 0 then .throw "cannot create std::vector larger than max_size()"
  else
    let hist ← samples.foldlM (fun (hist : List Nat) v => do
      let binIndex ← toInt (v - minBin)
      if binIndex ≥ numberOfBins then pure hist
      else if binIndex < 0 then .ub
      else do
        let c ← readAt hist binIndex.toNat
        writeAt hist binIndex.toNat (c + 1)) (List.replicate numberOfBins.toNat 0)
    pure (minBin, hist)

/-- Initial height of the fit, electronthresholds.cpp:159-161: `histogram[indexOfMaxElement]`. For an empty
histogram `max_element` returns the end, and element 0 is read out of bounds. -/
def peakHeight (hist : List Nat) : Outcome Nat := readAt hist (hist.idxOf (hist.foldl max 0))

/-- The thresholds, electronthresholds.cpp:125 and 171-175, from the statistics and the fit result. -/
def thresholds (samples : List Rat) (stdDev xRayNSigma bgNSigma : Rat) (fit : Rat × Rat) : Rat × Rat :=
  (calculateMean samples + xRayNSigma * stdDev, fit.1 + |fit.2| * bgNSigma)

end Stempy.Thresholds
