import Verif.Model.RoundedImages
import Verif.Model.Thresholds

/-!
# The statistics and the histogram of the samples in double precision

`Model/Thresholds` computes with exact numbers. Here every operation of type `double` is rounded: `rd` is the rounding of sums, differences, products,
quotients and square roots, `rp` that of `pow`. The samples are integers below 2^16, in an array of `uint16_t` or `float`
(electronthresholds.cpp:101-115: the variable `value` is a `uint16_t`).
-/

namespace Stempy.RoundedThresholds
open Stempy.FloatPixels (Fl)
open Stempy.IeeeRound (rnd)
open Stempy.RoundedImages (toInt)

/-- `calculateMean`, electronthresholds.cpp:13-17, of samples which are integers. -/
def calculateMean (rd : Rat → Fl) (values : List Nat) : Fl :=
  rnd rd ((values.foldl (fun a (v : Nat) => rnd rd (a.add (.fin v))) (.fin 0)).div (rd values.length))

/-- `pow(v, 2.0)` of a `double` -/
def squareOf (rp : Rat → Fl) : Fl → Fl
  | .fin q => rp (q * q)
  | v => v.mul v

/-- `calculateVariance`, electronthresholds.cpp:19-31. -/
def calculateVariance (rp rd : Rat → Fl) (values : List Nat) (mean : Fl) : Fl :=
  let v1 := values.foldl (fun a (v : Nat) => rnd rd (a.add (squareOf rp (rnd rd ((Fl.fin v).sub mean))))) (.fin 0)
  rnd rd (v1.div (rnd rd ((rd values.length).sub (.fin 1))))

/-- `stdDev`, electronthresholds.cpp:124 -/
def deviation (rp rd : Rat → Fl) (values : List Nat) : Fl :=
  RoundedCom.sqrt rd (calculateVariance rp rd values (calculateMean rd values))

/-- `xrayThreshold`, electronthresholds.cpp:125 -/
def xrayThreshold (rp rd : Rat → Fl) (values : List Nat) (nSigma : Fl) : Fl :=
  rnd rd ((calculateMean rd values).add (rnd rd (nSigma.mul (deviation rp rd values))))

/-- `mean + xrayThreshold * stdDev`, electronthresholds.cpp:132 -/
def upper (rp rd : Rat → Fl) (values : List Nat) (nSigma : Fl) : Fl :=
  rnd rd ((calculateMean rd values).add (rnd rd ((xrayThreshold rp rd values nSigma).mul (deviation rp rd values))))

/-- `mean - xrayThreshold * stdDev`, electronthresholds.cpp:134 -/
def lower (rp rd : Rat → Fl) (values : List Nat) (nSigma : Fl) : Fl :=
  rnd rd ((calculateMean rd values).sub (rnd rd ((xrayThreshold rp rd values nSigma).mul (deviation rp rd values))))

/-- electronthresholds.cpp:146-153 for one sample. Differences of `float` integers below 2^24 are exact. -/
def binStep (minBin bins : Int) (hist : List Nat) (v : Nat) : Outcome (List Nat) := do
  let binIndex ← int32 (v - minBin)
  if binIndex ≥ bins then pure hist
  else if binIndex < 0 then .ub
  else do
    let c ← readAt hist binIndex.toNat
    writeAt hist binIndex.toNat (c + 1)

/-- Histogram of the samples, electronthresholds.cpp:121-153: the first bin edge and the bin counts. A negative number of bins makes the vector
constructor throw. -/
def buildHistogram (rp rd : Rat → Fl) (values : List Nat) (nSigma : Fl) : Outcome (Int × List Nat) :=
  match values with
  | [] => .ub
  | v :: vs => do
    let hi ← toInt (upper rp rd values nSigma)
    let lo ← toInt (lower rp rd values nSigma)
    let maxBin := min ((vs.foldl max v : Nat) : Int) hi
    let minBin := max ((vs.foldl min v : Nat) : Int) lo
    let bins ← int32 (maxBin - minBin)
    if bins < 0 then .throw "cannot create std::vector larger than max_size()"
    else do
      let hist ← values.foldlM (binStep minBin bins) (List.replicate bins.toNat 0)
      pure (minBin, hist)

end Stempy.RoundedThresholds
