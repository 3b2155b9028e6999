/-!
Specification vocabulary for detector geometry and virtual detectors. Nothing here refers to the
model of the code.
-/

namespace Stempy.Spec

/-- Half of a dimension rounded half up. -/
def half (d : Nat) : Int := (d : Int) / 2 + (d : Int) % 2

/-- The center coordinate in effect: what the user gave, or half the dimension when not given
(negative). -/
def effCenter (d : Nat) (c : Int) : Int := if c < 0 then half d else c

/-- Squared distance of pixel `(x,y)` to a point. -/
def dist2 (cx cy : Int) (x y : Nat) : Int := ((x : Int) - cx) ^ 2 + ((y : Int) - cy) ^ 2

/-- Pixel `(x,y)` is inside the annulus with closed inner and open outer radius. -/
def inAnnulus (inner outer cx cy : Int) (x y : Nat) : Prop :=
  inner ^ 2 ≤ dist2 cx cy x y ∧ dist2 cx cy x y < outer ^ 2

instance (inner outer cx cy : Int) (x y : Nat) : Decidable (inAnnulus inner outer cx cy x y) := by
  unfold inAnnulus; infer_instance

/-- Detector and virtual-detector parameters for which no integer leaves its C++ range: a detector
with less than `2^32` pixels and sides at most `2^31`, radii with `int` squares, `int` center. -/
structure GeometryOK (w h : Nat) (inner outer cx cy : Int) : Prop where
  size : w * h < 2 ^ 32
  wlt : w < 2 ^ 31
  hlt : h < 2 ^ 31
  inner_lt : inner ^ 2 < 2 ^ 31
  outer_lt : outer ^ 2 < 2 ^ 31
  cx_lt : cx < 2 ^ 31
  cy_lt : cy < 2 ^ 31

end Stempy.Spec
