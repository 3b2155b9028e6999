import Verif.Model.Numpy

/-!
# python/stempy/io/compatibility.py

Frames are lists of events. A data set of version 1 or 2 is a list of frames (version 1: one per scan position, which may hold
an event several times) and a list of scan positions; of version 3 it has a list of frames for each scan position.
-/

namespace Stempy.Compat
open Numpy

/-- compatibility.py 97-105 `is_data_v1_format` -/
def isV1 (data : List (List Nat)) (scanShape : List Nat) : Bool :=
  if data.length > prod scanShape then false
  else data.any fun x => (unique x).length ≠ x.length

/-- compatibility.py 45-50 (and sparse_array.py 654-659), the `while` loop: after `k` rounds the counts are the multiplicities
less `k + 1`. The number of rounds is below the length of the row. -/
def extraRows (row : List Nat) (k : Nat) : Nat → List (List Nat)
  | 0 => []
  | fuel + 1 =>
    if (unique row).any fun x => row.count x > k + 1 then
      ((unique row).filter fun x => row.count x > k + 1) :: extraRows row (k + 1) fuel
    else []

/-- compatibility.py 40-61 (and sparse_array.py 649-669): duplicates are removed from the rows and put in rows of their own, at
the end. `np.append` etc. only when there are extra rows, which gives the same. -/
def separate (data : List (List Nat)) (positions : List Nat) : List (List Nat) × List Nat :=
  (data.map unique ++ data.flatMap (fun row => extraRows row 0 row.length),
   positions ++ (data.zip positions).flatMap (fun x => (extraRows x.1 0 x.1.length).map fun _ => x.2))

/-- compatibility.py 27-63 `convert_data_v1_to_v2` -/
def v1ToV2 (data : List (List Nat)) (positions scanShape : List Nat) : List (List Nat) × List Nat :=
  if isV1 data scanShape then separate data (List.range data.length) else (data, positions)

/-- compatibility.py 83-87: the first slot that is `None`; nothing happens if there is none. -/
def putFirst (d : List Nat) : List (Option (List Nat)) → List (Option (List Nat))
  | [] => []
  | none :: l => some d :: l
  | some x :: l => some x :: putFirst d l

/-- compatibility.py 81-86, one frame `x.1` at position `x.2` -/
def placeOne (r : List (List (Option (List Nat)))) (x : List Nat × Nat) : Outcome (List (List (Option (List Nat)))) :=
  match r[x.2]? with
  | some current => .ok (r.set x.2 (putFirst x.1 current))
  | none => .throw "IndexError"

/-- compatibility.py 78-92 (and sparse_array.py 676-690): `n` scan positions with `k` frames. -/
def place (n k : Nat) (data : List (List Nat)) (positions : List Nat) : Outcome (List (List (List Nat))) := do
  let result ← (data.zip positions).foldlM placeOne (List.replicate n (List.replicate k none))
  .ok (result.map fun l => l.map fun o => o.getD [])

/-- compatibility.py 72-94 `convert_data_v2_to_v3`; the result also has `frames_per_scan`. -/
def v2ToV3 (data : List (List Nat)) (positions scanShape : List Nat) : Outcome (List (List (List Nat)) × Nat) := do
  let k ← maxOf (counts positions)
  let r ← place (prod scanShape) k data positions
  .ok (r, k)

/-- compatibility.py 66-69 `convert_data_v1_to_v3` -/
def v1ToV3 (data : List (List Nat)) (positions scanShape : List Nat) : Outcome (List (List (List Nat)) × Nat) :=
  v2ToV3 (v1ToV2 data positions scanShape).1 (v1ToV2 data positions scanShape).2 scanShape

/-- compatibility.py 4-24 `convert_data_format` to version 3, from another version -/
def toV3 (version : Nat) (data : List (List Nat)) (positions scanShape : List Nat) :
    Outcome (List (List (List Nat)) × Nat) :=
  if version = 1 then v1ToV3 data positions scanShape
  else if version = 2 then v2ToV3 data positions scanShape
  else .throw "NotImplementedError"

end Stempy.Compat
