import Verif.Model.PyStem
import Verif.Model.IeeeRound
import Verif.Model.Histogram

/-!
# python/stempy/image/__init__.py:126-168 `create_stem_histogram`

The STEM images of a reader, and for each of them the edges of `getContainer` and the numbers of `createSTEMHistogram`, in double
precision with any number of bins which Python can pass.

Simplifications: those of `Model/RoundedHistogram` (no fused operations, no overflow of a counter); memory is not exhausted.
-/

namespace Stempy.PyHistogram
open Stempy.FloatPixels (Fl)
open Stempy.IeeeRound (rnd)
open Stempy.PyStem (Radii Input StemRun)

/-- `a == b` of two doubles: false if one of them is NaN. -/
def same (a b : Fl) : Bool := a.ge b && b.ge a

/-- Edge `i`: `min + i * length` (image.cpp:298). -/
def edge (rd : Rat → Fl) (min length : Fl) (i : Nat) : Fl := rnd rd (min.add (rnd rd ((Fl.fin i).mul length)))

/-- `getContainer`, image.cpp:280-302, for any `int`. The smallest and the largest pixel of an image without pixels are read after its
end. The loop `i <= numBins` is not entered if `numBins` is negative, and `i` overflows if it is the largest `int`. -/
def getContainer (rd : Rat → Fl) (values : List Nat) (numBins : Int) : Outcome (List Fl) := do
  let (mn, mx) ← Histogram.minmax (values.map fun v : Nat => (v : Rat))
  let min := rd mn
  let max := rd mx
  let length := rnd rd ((rnd rd (max.sub min)).div (.fin numBins))
  if numBins = 2 ^ 31 - 1 then .ub
  else .ok ((List.range (numBins + 1).toNat).map (edge rd min length))

/-- The loop of `createSTEMHistogram` over the bins for one pixel, image.cpp:319-329. -/
def histValue (numBins : Nat) (bins : List Fl) (freq : List Nat) (value : Fl) : Outcome (List Nat) := do
  let freq ← (List.range numBins).foldlM (fun freq j => do
    let b ← readAt bins j
    if value.ge b then do
      let b' ← readAt bins (j + 1)
      if b'.gt value then Histogram.bump freq j else pure freq
    else pure freq) freq
  let bn ← readAt bins numBins
  if same value bn then
    if numBins = 0 then .ub else Histogram.bump freq (numBins - 1)
  else pure freq

/-- `createSTEMHistogram`, image.cpp:306-333, for any `int`: a vector of a negative size throws `std::length_error` (a `ValueError` in
Python). -/
def createSTEMHistogram (rd : Rat → Fl) (values : List Nat) (numBins : Int) (bins : List Fl) : Outcome (List Nat) :=
  if numBins < 0 then .throw "ValueError"
  else (values.map fun v : Nat => rd v).foldlM (histValue numBins.toNat bins) (List.replicate numBins.toNat 0)

/-- What the readers which can be passed give: blocks (`Reader`, `SectorReader`), the reader of an HDF5 file, or no `begin` at all (the
threaded readers). -/
inductive Source where
  | blocks (bs : List Image.Block)
  | hdf5 (f : RawFile.File)
  | threaded

/-- The images come from the same function of C++ as those of `create_stem_images`. -/
def Source.input : Source → Input
  | .blocks bs => .reader bs
  | .hdf5 f => .file f
  | .threaded => .threaded

/-- The radii are passed on as they are: pybind11 makes a vector of a sequence and raises a `TypeError` for a number. -/
def vector : Radii → Outcome (List Int)
  | .one _ => .throw "TypeError"
  | .many l => .ok l

/-- The loop over the images, image/__init__.py:158-166; a number of bins which is no `int` is a `TypeError` of pybind11. -/
def histograms (rd : Rat → Fl) (numBins : Int) (images : List (List Nat)) : Outcome (List (List Fl × List Nat)) :=
  images.mapM fun image => do
    if numBins < -2 ^ 31 ∨ 2 ^ 31 ≤ numBins then .throw "TypeError"
    else do
      let bins ← getContainer rd image numBins
      let freq ← createSTEMHistogram rd image numBins bins
      .ok (bins, freq)

/-- image/__init__.py:126-168, as the relation between the arguments and the results of possible runs. The lists `allBins` and `allFreqs`
are given as one list of pairs. A threaded reader fails at `reader.begin()`, before the radii are converted. -/
def HistogramRun (rd : Rat → Fl) (numBins : Int) (src : Source) (inner outer : Radii) (scan : Nat × Nat) (center : Int × Int)
    (res : Outcome (List (List Fl × List Nat))) : Prop :=
  match src with
  | .threaded => res = .throw "AttributeError"
  | src =>
    match (do let i ← vector inner; let o ← vector outer; .ok (i, o)) with
    | .throw m => res = .throw m
    | .ub => res = .ub
    | .ok (i, o) => ∃ r, StemRun src.input (.many i) (.many o) scan center r ∧ res = r.bind (histograms rd numBins)

end Stempy.PyHistogram
