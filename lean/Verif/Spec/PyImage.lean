import Verif.Spec.Dense
import Mathlib.Algebra.Order.Ring.Rat

/-!
# What the functions of stempy.image for sparse arrays mean

An event `e` of a frame with `w` columns is at row `e / w` and column `e % w` (as in `Spec.Dense`).
-/

namespace Stempy.PyImage
open Sparse

/-- Squared distance of an event to a point (row, column). -/
def eventDist2 (w : Nat) (c : Rat × Rat) (e : Nat) : Rat := (((e / w : Nat) : Rat) - c.1) ^ 2 + (((e % w : Nat) : Rat) - c.2) ^ 2

/-- Mean of a value over the events. -/
def average (f : Nat → Nat) (ev : List Nat) : Rat := ((ev.map f).sum : Nat) / (ev.length : Nat)

/-- The events which count for the center of mass: those in a disc of radius `r` around `init`, resp. around the center of mass
of all events. -/
def kept (w : Nat) (crop : Option Rat) (init : Option (Rat × Rat)) (ev : List Nat) : List Nat :=
  match crop with
  | none => ev
  | some r => ev.filter fun e =>
      decide (0 ≤ r ∧ eventDist2 w (init.getD (average (· / w) ev, average (· % w) ev)) e ≤ r ^ 2)

/-- Column and row of the center of mass; `none` if nothing counts. -/
def centerOfMass (w : Nat) (crop : Option Rat) (init : Option (Rat × Rat)) (ev : List Nat) : Option (Rat × Rat) :=
  let l := kept w crop init ev
  if l = [] then none else some (average (· % w) l, average (· / w) l)

/-- The events of a scan position. -/
def eventsAt (a : SparseArray) (p : Nat) : List Nat := (a.data.getD p []).flatten

end Stempy.PyImage
