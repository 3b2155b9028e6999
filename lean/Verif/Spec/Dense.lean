import Verif.Model.SparseArray

/-!
# What a sparse array means

Independent of the implementation: the dense array has, at a scan position and a pixel, the number of events of the pixel in all
frames of the position.
-/

namespace Stempy.Sparse
open Numpy

/-- Number of events of pixel `q` at scan position `p`. -/
def eventCount (a : SparseArray) (p q : Nat) : Nat := (a.data.getD p []).flatten.count q

/-- The dense array. -/
def dense (a : SparseArray) : NArray Nat :=
  ⟨a.scanShape ++ a.frameShape,
   (List.range (prod a.scanShape)).flatMap fun p => (List.range (prod a.frameShape)).map fun q => eventCount a p q⟩

/-- A data set in the current format: one list of frames for each scan position, as many frames everywhere, events inside of the
frame, and no event twice in a frame. The scan has one or two axes. -/
structure WF (a : SparseArray) : Prop where
  ndim : a.scanShape.length = 1 ∨ a.scanShape.length = 2
  length : a.data.length = prod a.scanShape
  frames : ∀ row ∈ a.data, row.length = a.numFrames
  lt : ∀ row ∈ a.data, ∀ fr ∈ row, ∀ e ∈ fr, e < prod a.frameShape
  nodup : ∀ row ∈ a.data, ∀ fr ∈ row, fr.Nodup

end Stempy.Sparse
