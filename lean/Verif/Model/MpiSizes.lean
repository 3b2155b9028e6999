import Verif.Model.Mpi

/-!
# Sizes of the messages with sample blocks: stempy/electron_mpi.cpp:122-183

`Mpi.gatherBlocks` gives up when a message has 2^31 bytes or more. Here the sizes are those of the code: `GetSize()` is
converted to `int` (lines 127 and 161), the displacements are sums of these numbers in `int`, and the total is their sum in
`size_t`. The conversion wraps around (as with GCC and Clang, and in the standard since C++20).
-/

namespace Stempy.MpiSizes
open Stempy.Archive

/-- electron_mpi.cpp:33-37, 124-125 -/
def message (bl : List Block) : Bytes := saveVector saveBlock bl

/-- electron_mpi.cpp:127, and the second argument in line 161 -/
def localSize (bl : List Block) : Int := toInt32 (message bl).length

/-- electron_mpi.cpp:140-144 -/
def displacements : List Int → Int → Outcome (List Int)
  | [], _ => .ok []
  | s :: ss, d => do
    let d' ← int32 (d + s)
    let rest ← displacements ss d'
    .ok (d :: rest)

/-- electron_mpi.cpp:146-148: every `int` is converted to `size_t`. -/
def totalSize (sizes : List Int) : Nat := sizes.foldl (fun t s => ((t + s) % 2 ^ 64).toNat) 0

/-- electron_mpi.cpp:122-183: the result on rank 0. `MPI_Gatherv` (line 161) with a negative number of bytes is an error of
the caller and has no defined result; otherwise every rank sends as many bytes as its `int` says, from the beginning. -/
def gatherBlocks (root : List Block) (others : List (List Block)) : Outcome (List Block) :=
  let sizes := (root :: others).map localSize
  do
    let ds ← displacements sizes 0
    if 2 ^ 31 - 1 < totalSize sizes then .throw "Data too large to send using MPI."
    else if sizes.any (fun s => decide (s < 0)) then .ub
    else do
      let buf := ((root :: others).map fun bl => (message bl).take (localSize bl).toNat).flatten
      let rest ← Mpi.takeBlocks buf ((ds.zip (sizes.map Int.toNat)).drop 1)
      .ok (root ++ rest)

end Stempy.MpiSizes
