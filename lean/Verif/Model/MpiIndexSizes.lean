import Verif.Model.MpiSizes

/-!
# Sizes of the messages with the index of sector locations: stempy/reader_mpi.cpp:144-214

`Mpi.gatherScanMap` assumes that the sizes are `int`s. Here they are those of the code, as in `Model.MpiSizes`: `GetSize()` is
converted to `int` (lines 150 and 174), the displacements are sums in `int`, the total is a `size_t` and is not checked.
-/

namespace Stempy.MpiSizes
open Stempy.Archive
open Stempy.MultiPass (ScanMap)

/-- reader_mpi.cpp:117-128, 147-148 -/
def indexMessage (map : ScanMap) (size : Nat) : Bytes := saveScanMap (Mpi.sparse map size)

/-- reader_mpi.cpp:180-211: the message `b` of rank `r` -/
def receiveIndex (me : Nat) (map : ScanMap) (b : Bytes) (r : Nat) : Outcome ScanMap :=
  if r = me then .ok map
  else
    match loadScanMap b with
    | none => .throw "cereal"
    | some (m, _) => .ok (Mpi.mergeMap map m)

/-- reader_mpi.cpp:144-214: the result on rank `me`. A `std::vector<char>` (line 171) has at most 2^63 - 1 elements.
`MPI_Allgatherv` (line 174) with a negative number of bytes has no defined result. All ranks are assumed to have opened the same
files (line 204). -/
def gatherScanMap (maps : List ScanMap) (size me : Nat) : Outcome ScanMap :=
  let msgs := maps.map fun m => indexMessage m size
  let sizes := msgs.map fun b => toInt32 b.length
  do
    let ds ← displacements sizes 0
    if 2 ^ 63 - 1 < totalSize sizes then .throw "std::length_error"
    else if sizes.any (fun s => decide (s < 0)) then .ub
    else
      let buf := (msgs.map fun b => b.take (toInt32 b.length).toNat).flatten
      (ds.zip sizes).zipIdx.foldlM (fun map x => receiveIndex me map ((buf.drop x.1.1.toNat).take x.1.2.toNat) x.2) (maps.getD me fun _ => [])

end Stempy.MpiSizes
