import Verif.Model.NumpyAdvanced
import Verif.Model.SparseFile

/-!
# python/stempy/io/sparse_array.py: sequences of operations

Each operation is applied to the result of the one before. A slice may return a NumPy array, to which NumPy's operations are applied
then. The in-place variants (`in_place=True`) store in `self` what the other ones return. An array may be written to a new file and read
again (`Model/SparseFile`); its metadata is not followed here.
-/

namespace Stempy.SparseSession
open Numpy Sparse

/-- The operations that return an array of counts. -/
inductive Op where
  /-- `a[key]` -/
  | slice (key : List Item)
  /-- `a.bin_scans(b)` -/
  | binScans (b : Nat)
  /-- `a.bin_frames(b)` -/
  | binFrames (b : Nat)
  /-- `a.reshape(shape)`, `a.shape = shape` -/
  | reshape (shape : List Nat)
  /-- `a.ravel_scans()` -/
  | ravel
  /-- `a.write_to_hdf5(path)` and `SparseArray.from_hdf5(path, keep_flyback)` -/
  | reload (keepFlyback : Bool)

/-- NumPy's `reshape`, without -1. -/
def reshapeDense (x : NArray Nat) (shape : List Nat) : Outcome (NArray Nat) :=
  if prod shape = prod x.shape then .ok ⟨shape, x.flat⟩ else .throw "ValueError"

/-- sparse_array.py 174-282, 339-382, 560-716 -/
def Op.apply : Op → Value → Outcome Value
  | .slice key, .sparse a => getitem a key
  | .binScans b, .sparse a => (Sparse.binScans a b).bind fun r => .ok (.sparse r)
  | .binFrames b, .sparse a => (Sparse.binFrames a b).bind fun r => .ok (.sparse r)
  | .reshape s, .sparse a => (Sparse.reshape a s).bind fun r => .ok (.sparse r)
  | .ravel, .sparse a => (ravelScans a).bind fun r => .ok (.sparse r)
  | .reload keep, .sparse a => (SparseFile.write a (SparseFile.Tree.nil : SparseFile.Tree Unit)).bind fun f =>
    (SparseFile.read f keep).bind fun r => .ok (.sparse r.1)
  | .slice key, .dense x => (indexPairs x key).bind fun y => .ok (.dense y)
  | .reshape s, .dense x => (reshapeDense x s).bind fun y => .ok (.dense y)
  | _, .dense _ => .throw "AttributeError"

def run : List Op → Value → Outcome Value
  | [], v => .ok v
  | op :: ops, v => do run ops (← op.apply v)

end Stempy.SparseSession
