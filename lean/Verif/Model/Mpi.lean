import Verif.Model.Archive

/-!
# MPI: stempy/reader_mpi.cpp:94-214, stempy/electron_mpi.cpp:39-211

MPI is external: messages arrive unchanged and in order, and the collective functions are called by all ranks.
A function of the code that is executed by all ranks is a function of the list of their inputs.
-/

namespace Stempy.Mpi
open Stempy.Archive Stempy.MultiPass

/-- reader_mpi.cpp:103-114 and 132-141: offset and size of the share of a rank. -/
def share (n worldSize rank : Nat) : Nat × Nat :=
  let perRank := n / worldSize
  let offset := rank * perRank
  (offset, if rank = worldSize - 1 then n - offset else perRank)

/-- electron_mpi.cpp:200-211 -/
def sampleBlocksPerRank (worldSize rank blocks : Nat) : Nat :=
  let perRank := blocks / worldSize
  let offset := rank * perRank
  if rank = worldSize - 1 then blocks - offset else perRank

/-- The members `m_scanMapOffset`, `m_scanMapSize` and whether `m_scanMap` has elements, reader.h:563-565. -/
structure Scan where
  offset : Nat
  size : Nat
  initialized : Bool
  deriving DecidableEq

/-- reader.h:691-707, with `n` scan positions according to the header. -/
def readFirstHeader (n : Nat) (s : Scan) : Scan := if s.size ≠ 0 then s else { s with size := n }

/-- reader.h:709-756 with MPI: the part that determines the share of the scan positions. -/
def initializeScanMap (n worldSize rank : Nat) (s : Scan) : Scan :=
  let s := readFirstHeader n s
  if s.initialized then s
  else ⟨(share s.size worldSize rank).1, (share s.size worldSize rank).2, s.size ≠ 0⟩

/-! ### Events -/

/-- electron_mpi.cpp:75-82 -/
def partialEvents (events : List (List (List Nat))) : EventMap :=
  (List.range events.length).filterMap fun i =>
    if (events.getD i []).isEmpty then none else some (i, events.getD i [])

/-- electron_mpi.cpp:61-70: `events[scanPosition]` is not checked. -/
def addEvents (events : List (List (List Nat))) (m : EventMap) : Outcome (List (List (List Nat))) :=
  m.foldlM (fun ev e => do
    let old ← readAt ev e.1
    writeAt ev e.1 (old ++ e.2)) events

/-- electron_mpi.cpp:39-71; an incomplete message is an exception of cereal. -/
def receive (events : List (List (List Nat))) (msg : Bytes) : Outcome (List (List (List Nat))) :=
  match loadEvents msg with
  | none => .throw "cereal"
  | some (m, _) => addEvents events m

/-- electron_mpi.cpp:100-120: the result on rank 0. -/
def gatherEvents (root : List (List (List Nat))) (others : List (List (List (List Nat)))) :
    Outcome (List (List (List Nat))) :=
  others.foldlM (fun ev o => receive ev (saveEvents (partialEvents o))) root

/-! ### Blocks -/

/-- electron_mpi.cpp:140-144: displacements are `int`. -/
def displacements : List Nat → Int → Outcome (List Int)
  | [], _ => .ok []
  | s :: ss, d => do
    let d' ← int32 (d + s)
    let rest ← displacements ss d'
    .ok (d :: rest)

/-- electron_mpi.cpp:168-183: the messages of the other ranks, in the buffer at the displacements. -/
def takeBlocks (buf : Bytes) : List (Int × Nat) → Outcome (List Block)
  | [] => .ok []
  | (d, s) :: l =>
    match loadVector loadBlock ((buf.drop d.toNat).take s) with
    | none => .throw "cereal"
    | some (bs, _) => do
      let rest ← takeBlocks buf l
      .ok (bs ++ rest)

/-- electron_mpi.cpp:122-184: the result on rank 0 (the first of the list). The size of a message is converted to `int`
(line 127); the model gives up (`ub`) if it does not fit, where the code goes on with a wrong size. -/
def gatherBlocks (root : List Block) (others : List (List Block)) : Outcome (List Block) :=
  let msgs := (root :: others).map (saveVector saveBlock)
  let sizes := msgs.map List.length
  if sizes.any (fun s => 2 ^ 31 ≤ s) then .ub
  else do
    let ds ← displacements sizes 0
    if 2 ^ 31 ≤ sizes.sum then .throw "Data too large to send using MPI."
    else do
      let rest ← takeBlocks msgs.flatten ((ds.zip sizes).drop 1)
      .ok (root ++ rest)

/-! ### Scan map -/

/-- reader_mpi.cpp:119-124 -/
def sparse (map : ScanMap) (size : Nat) : SparseScanMap :=
  (List.range size).filterMap fun i =>
    if (map i).isEmpty then none else some (i, (map i).map fun e => (e.1, locations e.2))

/-- reader_mpi.cpp:195-209: the locations of a frame. -/
def mergeFrame (map : ScanMap) (p f : Nat) (ls : List Location) : ScanMap :=
  ls.zipIdx.foldl (fun map lj =>
    if lj.1.streamIndex ≠ -1 then
      update map p ((map p).put f
        (update (((map p).get f).getD fun _ => none) lj.2 (some ⟨lj.1.streamIndex.toNat, lj.1.offset⟩)))
    else map) map

/-- reader_mpi.cpp:188-211 -/
def mergeMap (map : ScanMap) (m : SparseScanMap) : ScanMap :=
  m.foldl (fun map e => e.2.foldl (fun map f => mergeFrame map e.1 f.1 f.2) map) map

/-- reader_mpi.cpp:144-214: the result on rank `me`. Messages are assumed to be small enough for `int` (line 150, which
is not checked), and all ranks to have opened the same files (`m_streams[streamIndex]`, line 204). -/
def gatherScanMap (maps : List ScanMap) (size me : Nat) : Outcome ScanMap :=
  maps.zipIdx.foldlM (fun map r =>
    if r.2 = me then .ok map
    else
      match loadScanMap (saveScanMap (sparse r.1 size)) with
      | none => .throw "cereal"
      | some (m, _) => .ok (mergeMap map m)) (maps.getD me fun _ => [])

end Stempy.Mpi
