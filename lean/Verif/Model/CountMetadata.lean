import Verif.Model.Thresholds
import Verif.Model.PyImage
import Verif.Model.SparseFile

/-!
# The metadata of counted data

stempy/electronthresholds.cpp:73-192, stempy/electron.cpp:408-506 and 685-835, stempy/electron_mpi.cpp:186-198,
python/image.cpp:37-49 and 369-390, python/stempy/image/__init__.py:334-347 and 780-805.

The random choice of samples, the square root and the fit are given from outside, as in `Model/Thresholds.lean`. Floating point
values are exact rationals. The frames of a process are given for every position in the order in which their events are in the
result, the threads which find them are in `Model/Streaming.lean` and the exchange of events with MPI is in `Model/Mpi.lean`.
All frames have the same dimensions.
-/

namespace Stempy.CountMetadata
open Stempy.Image Stempy.Electron Stempy.Thresholds Stempy.PyImage Stempy.Sparse Stempy.SparseFile

/-- electronthresholds.h:15-30 `CalculateThresholdsResults` with its initial values -/
structure Results where
  backgroundThreshold : Rat := 0
  xRayThreshold : Rat := 0
  numberOfSamples : Int := 0
  minSample : Rat := 0
  maxSample : Rat := 0
  mean : Rat := 0
  variance : Rat := 0
  stdDev : Rat := 0
  numberOfBins : Int := 0
  xRayThresholdNSigma : Rat := 0
  backgroundThresholdNSigma : Rat := 0
  optimizedMean : Rat := 0
  optimizedStdDev : Rat := 0
  deriving DecidableEq

/-- electron.h:14-30 `ElectronCountedMetadata` with its initial values -/
structure Metadata where
  thresholdCalculated : Bool := true
  backgroundThreshold : Rat := 0
  xRayThreshold : Rat := 0
  numberOfSamples : Int := 0
  minSample : Rat := 0
  maxSample : Rat := 0
  mean : Rat := 0
  variance : Rat := 0
  stdDev : Rat := 0
  numberOfBins : Int := 0
  xRayThresholdNSigma : Rat := 0
  backgroundThresholdNSigma : Rat := 0
  optimizedMean : Rat := 0
  optimizedStdDev : Rat := 0
  deriving DecidableEq

/-- electronthresholds.cpp:121-192: `calculateThresholds` from the samples on. `sqrt` and `fit` (of the histogram and its first bin,
the height, the mean and the standard deviation) are external; a fit which does not converge is an exception. -/
def calculate (sqrt : Rat → Rat) (fit : Int × List Nat → Nat → Rat → Rat → Outcome (Rat × Rat)) (numberOfSamples : Int)
    (bgNSigma xRayNSigma : Rat) (samples : List Rat) : Outcome Results := do
  let mean := calculateMean samples
  let variance := calculateVariance samples mean
  let stdDev := sqrt variance
  let mn ← Thresholds.minSample samples
  let mx ← Thresholds.maxSample samples
  let hist ← buildHistogram samples stdDev xRayNSigma
  let height ← peakHeight hist.2
  let opt ← fit hist height mean stdDev
  let t := thresholds samples stdDev xRayNSigma bgNSigma opt
  .ok {
    numberOfSamples := numberOfSamples
    minSample := mn
    maxSample := mx
    mean := mean
    variance := variance
    stdDev := stdDev
    numberOfBins := hist.2.length
    xRayThresholdNSigma := xRayNSigma
    backgroundThresholdNSigma := bgNSigma
    xRayThreshold := t.1
    backgroundThreshold := t.2
    optimizedMean := opt.1
    optimizedStdDev := |opt.2| }

/-- electron.cpp:818-833 -/
def record (calculated : Bool) (r : Results) : Metadata where
  thresholdCalculated := calculated
  backgroundThreshold := r.backgroundThreshold
  xRayThreshold := r.xRayThreshold
  numberOfSamples := r.numberOfSamples
  minSample := r.minSample
  maxSample := r.maxSample
  mean := r.mean
  variance := r.variance
  stdDev := r.stdDev
  numberOfBins := r.numberOfBins
  xRayThresholdNSigma := r.xRayThresholdNSigma
  backgroundThresholdNSigma := r.backgroundThresholdNSigma
  optimizedMean := r.optimizedMean
  optimizedStdDev := r.optimizedStdDev

/-- A process: without MPI, or its rank. -/
abbrev Process := Option Nat

/-- electron.cpp:690-705: whether this process calculates the thresholds -/
def calculates : Process → Bool
  | none => true
  | some rank => rank = 0

/-- electron.cpp:701-733: the variable `threshold` of a process. `found` is the calculation from the samples of all processes. -/
def threshold (p : Process) (found : Outcome Results) : Outcome Results := if calculates p then found else .ok {}

/-- electron_mpi.cpp:186-198: the values of rank 0 -/
def broadcast (root mine : Rat × Rat × Rat) : Process → Rat × Rat × Rat
  | none => mine
  | some _ => root

/-- The values for the counting. -/
def triple (r : Results) : Rat × Rat × Rat := (r.backgroundThreshold, r.xRayThreshold, r.optimizedMean)

def withThresholds (o : CountOptions) (t : Rat × Rat × Rat) : CountOptions :=
  { o with bg := t.1, xr := t.2.1, optMean := t.2.2 }

/-- electron.cpp:801-811 -/
def pad (events : List (List (List Nat))) : List (List (List Nat)) :=
  let n := events.foldl (fun m l => max m l.length) 0
  events.map fun l => l ++ List.replicate (n - l.length) []

/-- `ElectronCountedData` -/
structure Counted where
  data : CountedData
  metadata : Metadata
  deriving DecidableEq

/-- electron.cpp:563-835: the counting of a process. `frames` are the frames in the result of the process (on rank 0 those of all
processes). A calculation which fails ends rank 0; the other ranks then wait for ever in the broadcast, which is the same failure
here. -/
def countThreaded (p : Process) (found : Outcome Results) (o : CountOptions) (scan dims : Nat × Nat)
    (frames : List (List (List Rat))) : Outcome Counted := do
  let root ← threshold (p.map fun _ => 0) found
  let mine ← threshold p found
  let used := broadcast (triple root) (triple mine) p
  let events ← frames.mapM fun l => l.mapM (countFrameStream (withThresholds o used) dims)
  .ok ⟨⟨pad events, scan, dims⟩, record (calculates p) mine⟩

/-- electron.cpp:408-506 and image/__init__.py:283-330: counting of a range of blocks. The thresholds are given by Python, and
nothing is assigned to `metadata`. -/
def countClassic (found : Outcome Results) (o : CountOptions) (scan : Nat × Nat) (blocks : List Block) : Outcome Counted := do
  let r ← found
  let res ← electronCountClassic (countFrameClassic (withThresholds o (triple r))) blocks scan
  .ok ⟨⟨res.2, res.1, (blocks.head?.map (·.frameDims)).getD (0, 0)⟩, {}⟩

/-! ### Python -/

/-- A Python value of the metadata. -/
inductive Val where
  | bool (b : Bool)
  | int (i : Int)
  | float (r : Rat)
  deriving DecidableEq

/-- python/image.cpp:369-390: the attributes of the Python class -/
def attribute? : String → Option (Metadata → Val)
  | "threshold_calculated" => some fun m => .bool m.thresholdCalculated
  | "background_threshold" => some fun m => .float m.backgroundThreshold
  | "x_ray_threshold" => some fun m => .float m.xRayThreshold
  | "number_of_samples" => some fun m => .int m.numberOfSamples
  | "min_sample" => some fun m => .float m.minSample
  | "max_sample" => some fun m => .float m.maxSample
  | "mean" => some fun m => .float m.mean
  | "variance" => some fun m => .float m.variance
  | "std_dev" => some fun m => .float m.stdDev
  | "number_of_bins" => some fun m => .int m.numberOfBins
  | "x_ray_threshold_n_sigma" => some fun m => .float m.xRayThresholdNSigma
  | "background_threshold_n_sigma" => some fun m => .float m.backgroundThresholdNSigma
  | "optimized_mean" => some fun m => .float m.optimizedMean
  | "optimized_std_dev" => some fun m => .float m.optimizedStdDev
  | _ => none

/-- image/__init__.py:782-797 -/
def attributes : List String :=
  ["threshold_calculated", "background_threshold", "x_ray_threshold", "number_of_samples", "min_sample", "max_sample", "mean",
    "variance", "std_dev", "number_of_bins", "x_ray_threshold_n_sigma", "background_threshold_n_sigma", "optimized_mean",
    "optimized_std_dev"]

/-- image/__init__.py:799-801 -/
def fill (m : Metadata) : List String → SparseFile.Tree Val → Outcome (SparseFile.Tree Val)
  | [], d => .ok d
  | n :: l, d =>
    match attribute? n with
    | some f => fill m l (setLeaf n (f m) d)
    | none => .throw "AttributeError"

/-- image/__init__.py:780-803 `_electron_counted_metadata_to_dict` -/
def toDict (m : Metadata) : Outcome (SparseFile.Tree Val) := fill m attributes .nil

/-- image/__init__.py:330-352: the sparse array with its metadata -/
def toArray (c : Counted) : Outcome (PyArray × SparseFile.Tree Val) := do
  let d ← toDict c.metadata
  let a ← toPython c.data
  .ok (a, .sub "electron_counting" d .nil)

end Stempy.CountMetadata
