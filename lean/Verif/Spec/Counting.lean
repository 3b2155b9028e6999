import Verif.Spec.Events
import Mathlib.Data.Rat.Floor
import Mathlib.Algebra.Order.Field.Rat

/-!
Specification of electron counting of one frame with thresholds.
-/

namespace Stempy.Spec

/-- What a pixel with corrected value `c` counts for: itself strictly between the thresholds, else 0. -/
def eligible (bg xr c : Rat) : Rat := if bg < c ∧ c < xr then c else 0

/-- `events` are the electron events of the `w × h` frame with corrected pixel values `c`: pixels strictly
between the thresholds that exceed all their neighbours, listed in increasing order. -/
structure IsEventList (bg xr : Rat) (w h : Nat) (c : Nat → Rat) (events : List Nat) : Prop where
  sorted : events.Pairwise (· < ·)
  onDetector : ∀ e ∈ events, e < w * h
  mem : ∀ x y, x < w → y < h → (y * w + x ∈ events ↔
    (bg < c (y * w + x) ∧ c (y * w + x) < xr) ∧
      ∀ x' y', x' < w → y' < h → Neighbour x y x' y' →
        eligible bg xr (c (y' * w + x')) < c (y * w + x))

/-- Truncation toward zero. -/
def truncZero (r : Rat) : Int := if r < 0 then ⌈r⌉ else ⌊r⌋

end Stempy.Spec
