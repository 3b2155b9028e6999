import Verif.Model.IeeeRound
import Verif.Model.Histogram

/-!
# The histogram of a STEM image in double precision

`Model/Histogram` has exact bin edges. Here every operation of `getContainer` is rounded, in any rounding mode, and the pixels are
converted to `double` for the comparisons.

Simplifications: no operation is fused (a compiler may contract `min + i * length`); `numBins` is an `int`, so that `i` and `numBins`
are converted exactly; the `int` counters do not overflow (see `Model/HistogramInt`).
-/

namespace Stempy.RoundedHistogram
open Stempy.FloatPixels (Fl)
open Stempy.IeeeRound (rnd)

/-- A double as a number. The edges and pixels are never infinite or NaN (`container_eq`, `histogram_eq` of the properties), so the error
is not reached. -/
def finite : Fl → Outcome Rat
  | .fin q => .ok q
  | _ => .throw "not a finite number"

/-- `getContainer`, image.cpp:280-302. The elements are `uint64_t` (image.h:48) and compared as such by `std::minmax_element`. The loop
`i <= numBins` (image.cpp:297) does not end before `i` overflows if `numBins` is the largest `int`. -/
def container (rd : Rat → Fl) (values : List Nat) (numBins : Nat) : Outcome (List Rat) := do
  let (mn, mx) ← Histogram.minmax (values.map fun v : Nat => (v : Rat))
  let min ← finite (rd mn)
  let max ← finite (rd mx)
  if numBins = 0 ∨ numBins = 2 ^ 31 - 1 then .ub
  else do
    let length ← finite (rnd rd ((rnd rd (.fin (max - min))).div (.fin numBins)))
    (List.range (numBins + 1)).mapM fun i : Nat => finite (rnd rd ((Fl.fin min).add (rnd rd (.fin (i * length)))))

/-- `createSTEMHistogram`, image.cpp:306-333: each value is converted to `double` when it is compared with an edge. -/
def histogram (rd : Rat → Fl) (values : List Nat) (numBins : Nat) (bins : List Rat) : Outcome (List Nat) := do
  let values ← values.mapM fun v : Nat => finite (rd v)
  Histogram.createSTEMHistogram values numBins bins

end Stempy.RoundedHistogram
