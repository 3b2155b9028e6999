/-!
Specification of electron events in one frame.
-/

namespace Stempy.Spec

/-- `(x', y')` is one of the 8 neighbours of `(x, y)` (not yet required to be on the detector). -/
def Neighbour (x y x' y' : Nat) : Prop :=
  ¬(x' = x ∧ y' = y) ∧ x' ≤ x + 1 ∧ x ≤ x' + 1 ∧ y' ≤ y + 1 ∧ y ≤ y' + 1

/-- Pixel `(x, y)` of a `w × h` frame (row-major) is strictly greater than each of its neighbours on the
detector. -/
def StrictLocalMax {α : Type} (gt : α → α → Bool) (frame : List α) (w h x y : Nat) : Prop :=
  ∃ v, frame[y * w + x]? = some v ∧
    ∀ x' y' v', x' < w → y' < h → Neighbour x y x' y' → frame[y' * w + x']? = some v' →
      gt v v' = true

end Stempy.Spec
