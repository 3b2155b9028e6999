import Verif.Spec.Detector

/-!
Specification of STEM images: what the user expects in each image pixel.
-/

namespace Stempy.Spec

/-- A frame: its scan position (image number) and its pixels in row-major order. -/
abbrev Frame := Nat × List Nat

/-- Sum of the pixels of a `w × h` frame inside the annulus. -/
def annulusSum (w h : Nat) (inner outer cx cy : Int) (px : List Nat) : Nat :=
  ((List.range h).map fun y => ((List.range w).map fun x =>
    if inAnnulus inner outer cx cy x y then px.getD (y * w + x) 0 else 0).sum).sum

/-- Number of events (flat detector positions, row-major) inside the annulus. -/
def annulusHits (w : Nat) (inner outer cx cy : Int) (events : List Nat) : Nat :=
  events.countP fun e => inAnnulus inner outer cx cy (e % w) (e / w)

/-- Pixel `p` of image `k` of a list of images. -/
def pixelAt (images : List (List Nat)) (k p : Nat) : Option Nat :=
  (images[k]?).bind fun img => img[p]?

end Stempy.Spec
