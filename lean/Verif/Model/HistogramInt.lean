import Verif.Model.RoundedHistogram

/-!
The counters of `createSTEMHistogram` (image.cpp:306-333) are of type `int`; in `Model/Histogram` they are natural numbers.
-/

namespace Stempy.Histogram

/-- `++frequencies[j]`, image.cpp:323,328; the overflow of an `int` is undefined. -/
def bumpInt (freq : List Int) (j : Nat) : Outcome (List Int) := do
  let c ← readAt freq j
  let c ← int32 (c + 1)
  writeAt freq j c

/-- The loop over the bins for one value, image.cpp:319-329. -/
def histValueInt {α : Type} [LinearOrder α] (numBins : Nat) (bins : List α) (freq : List Int) (v : α) : Outcome (List Int) := do
  let freq ← (List.range numBins).foldlM (fun freq j => do
    let b ← readAt bins j
    if b ≤ v then do
      let b' ← readAt bins (j + 1)
      if v < b' then bumpInt freq j else pure freq
    else pure freq) freq
  let bn ← readAt bins numBins
  if v = bn then
    if numBins = 0 then .ub else bumpInt freq (numBins - 1)
  else pure freq

/-- `createSTEMHistogram`, image.cpp:306-333. As in `Model/Histogram` the order is that of the doubles. -/
def histogramInt {α : Type} [LinearOrder α] (values : List α) (numBins : Nat) (bins : List α) : Outcome (List Int) :=
  values.foldlM (histValueInt numBins bins) (List.replicate numBins 0)

end Stempy.Histogram

namespace Stempy.RoundedHistogram
open Stempy.FloatPixels (Fl)

/-- `createSTEMHistogram`, image.cpp:306-333, in double precision: each value is converted when it is compared with an edge. -/
def histogramInt (rd : Rat → Fl) (values : List Nat) (numBins : Nat) (bins : List Rat) : Outcome (List Int) := do
  let values ← values.mapM fun v : Nat => finite (rd v)
  Histogram.histogramInt values numBins bins

end Stempy.RoundedHistogram
