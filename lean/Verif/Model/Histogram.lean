import Verif.Basic
import Mathlib.Data.Rat.Defs
import Mathlib.Algebra.Order.Field.Rat

/-!
Model of the histogram functions of `stempy/image.cpp`.
-/

namespace Stempy.Histogram

/-- `++frequencies[j]` (image.cpp:323,328); an `int` counter, for its overflow see `Model/HistogramInt`. -/
def bump (freq : List Nat) (j : Nat) : Outcome (List Nat) := do
  let c ← readAt freq j
  writeAt freq j (c + 1)

/-- The inner loop of `createSTEMHistogram` for one value, image.cpp:321-329. -/
def histValue {α : Type} [LinearOrder α] (numBins : Nat) (bins : List α) (freq : List Nat) (v : α) :
    Outcome (List Nat) := do
  let freq ← (List.range numBins).foldlM (fun freq j => do
    let b ← readAt bins j
    if b ≤ v then do
      let b' ← readAt bins (j + 1)
      if v < b' then bump freq j else pure freq
    else pure freq) freq
  let bn ← readAt bins numBins
  if v = bn then
    if numBins = 0 then .ub else bump freq (numBins - 1)
  else pure freq

/-- `createSTEMHistogram`, image.cpp:306-333. Pixel values are converted to `double` for the
comparisons; the model works over any linear order (the order of the doubles without NaN). -/
def createSTEMHistogram {α : Type} [LinearOrder α] (values : List α) (numBins : Nat)
    (bins : List α) : Outcome (List Nat) :=
  values.foldlM (histValue numBins bins) (List.replicate numBins 0)

/-- `std::minmax_element` (external): smallest and largest element of a non-empty list. -/
def minmax : List Rat → Outcome (Rat × Rat)
  | [] => .ub
  | v :: vs => .ok (vs.foldl min v, vs.foldl max v)

/-- `getContainer`, image.cpp:280-302, over exact rationals instead of doubles. `numBins = 0` divides
by zero, which gives NaN edges in the code; it is reported as undefined here and excluded below. -/
def getContainer (values : List Rat) (numBins : Nat) : Outcome (List Rat) := do
  let (mn, mx) ← minmax values
  if numBins = 0 then .ub
  else
    let length := (mx - mn) / numBins
    pure ((List.range (numBins + 1)).map fun i : Nat => mn + (i : Rat) * length)

end Stempy.Histogram
