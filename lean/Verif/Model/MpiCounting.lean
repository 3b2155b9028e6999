import Verif.Model.CountingReader
import Verif.Model.Mpi

/-!
# electronCount with a SectorStreamMultiPassThreadedReader on several MPI ranks

stempy/electron.cpp:563-836 with `USE_MPI`, stempy/electron_mpi.cpp:39-211, stempy/reader_mpi.cpp:94-142.

Every rank is a process with the threads of `CountingReader`. It reads its share of the positions and waits for its share of
the sample blocks (electron.cpp:602-608); then the calling threads of the ranks meet in `gatherBlocks`,
`broadcastThresholds` and `gatherEvents`, while the threads of the pool go on.

MPI is external: the messages arrive unchanged and in order. `MPI_Send` (electron_mpi.cpp:91-97) is allowed to return before
the message is received. Nobody waits for anything else in a gather or broadcast than the messages it needs. The
bytes of the sample blocks are in `Mpi.gatherBlocks` (C35, C36); here the blocks arrive as they are. The events are sent as the bytes of the code.
-/

namespace Stempy.MpiCounting
open Stempy.MultiPass (ScanMap)
open Stempy.CountingReader (Call)

variable {D Θ : Type}

/-- electron.cpp:602-608: the number of samples to take on a rank. -/
def rankCall (K : Call D Θ) (worldSize rank : Nat) : Call D Θ :=
  { K with numBlocks := Mpi.sampleBlocksPerRank worldSize rank K.numBlocks }

/-- The first position of the share of a rank and the first one after it, reader_mpi.cpp:132-141, reader.h:656, 754-756. -/
def firstPosition (positions worldSize rank : Nat) : Nat := (Mpi.share positions worldSize rank).1
def endPosition (positions worldSize rank : Nat) : Nat :=
  (Mpi.share positions worldSize rank).1 + (Mpi.share positions worldSize rank).2

structure State (D Θ : Type) where
  ranks : Nat → CountingReader.State D Θ
  /-- the thresholds of rank 0, from `broadcastThresholds` on -/
  broadcast : Option Θ
  /-- the messages with the events of the other ranks -/
  sent : Nat → Option Archive.Bytes
  /-- rank 0 in `gatherEvents`: the rank of the next message, and the events -/
  gathering : Option (Nat × List (List (List Nat)))
  /-- what rank 0 returns -/
  result : Option (List (List (List Nat)))
  /-- an exception or undefined behaviour in `gatherEvents` -/
  failed : Bool

/-- electron.cpp:684 on all ranks. -/
def init (K : Call D Θ) (worldSize : Nat) (at_ : Nat → Nat → Nat) : State D Θ where
  ranks := fun r => CountingReader.init (rankCall K worldSize r) (firstPosition K.positions worldSize r) (at_ r)
  broadcast := none
  sent := fun _ => none
  gathering := none
  result := none
  failed := false

/-- What a rank does without the others: its calling thread does not leave `gatherBlocks`, and does not return. -/
def Alone (x x' : CountingReader.State D Θ) : Prop :=
  (x.counting.main = .holding → x'.counting.main = .holding ∧ x'.counting.ub = x.counting.ub) ∧
  ∀ d, x'.counting.main ≠ .done d

/-- electron.cpp:735-755 -/
def start (K : Call D Θ) (x : CountingReader.State D Θ) (samples : List Streaming.Blk) (θ : Θ) : CountingReader.State D Θ :=
  { x with
    counting := { x.counting with
      samples := samples
      thresholds := some θ
      events := List.replicate K.positions []
      counting := true
      main := .started } }

/-- electron_mpi.cpp:163-183: `sampleBlocks` of rank 0 after `gatherBlocks`. -/
def gathered (worldSize : Nat) (z : State D Θ) : List Streaming.Blk :=
  (List.range worldSize).flatMap fun r => (z.ranks r).counting.samples

/-- One rank changes. -/
def set (z : State D Θ) (r : Nat) (x : CountingReader.State D Θ) : State D Θ :=
  { z with ranks := fun i => if i = r then x else z.ranks i }

inductive Label where
  | rank (r : Nat) (l : CountingReader.Label)
  | mpi
  deriving DecidableEq

inductive Step (K : Call D Θ) (worldSize : Nat) (files : List (MultiPass.File D)) (maps : Nat → ScanMap) :
    State D Θ → Label → State D Θ → Prop where
  | rank {z : State D Θ} {r l x'} : r < worldSize →
      CountingReader.Step (rankCall K worldSize r) files (maps r) (endPosition K.positions worldSize r) (z.ranks r) l x' →
      Alone (z.ranks r) x' →
      Step K worldSize files maps z (.rank r l) (set z r x')
  /-- electron.cpp:696-755 on rank 0: all ranks have sent their samples -/
  | compute {z : State D Θ} : (∀ r < worldSize, (z.ranks r).counting.main = .holding ∧ (z.ranks r).counting.ub = false) →
      0 < worldSize → gathered worldSize z ≠ [] →
      Step K worldSize files maps z .mpi
        { set z 0 (start K (z.ranks 0) (gathered worldSize z) (K.params.threshold (gathered worldSize z))) with
          broadcast := some (K.params.threshold (gathered worldSize z)) }
  /-- electron.cpp:742 without any sample -/
  | computeUb {z : State D Θ} : (∀ r < worldSize, (z.ranks r).counting.main = .holding ∧ (z.ranks r).counting.ub = false) →
      0 < worldSize → gathered worldSize z = [] →
      Step K worldSize files maps z .mpi
        (set z 0 { z.ranks 0 with counting := { (z.ranks 0).counting with ub := true } })
  /-- electron.cpp:735-755 on another rank: the thresholds have arrived -/
  | receive {z : State D Θ} {r θ} : 0 < r → r < worldSize → (z.ranks r).counting.main = .holding →
      (z.ranks r).counting.ub = false → z.broadcast = some θ → (z.ranks r).counting.samples ≠ [] →
      Step K worldSize files maps z .mpi (set z r (start K (z.ranks r) (z.ranks r).counting.samples θ))
  /-- electron.cpp:742 on a rank without samples -/
  | receiveUb {z : State D Θ} {r θ} : 0 < r → r < worldSize → (z.ranks r).counting.main = .holding →
      (z.ranks r).counting.ub = false → z.broadcast = some θ → (z.ranks r).counting.samples = [] →
      Step K worldSize files maps z .mpi
        (set z r { z.ranks r with counting := { (z.ranks r).counting with ub := true } })
  /-- electron.cpp:793-835, electron_mpi.cpp:73-98 on another rank -/
  | send {z : State D Θ} {r} : 0 < r → r < worldSize → (z.ranks r).counting.ub = false →
      (z.ranks r).counting.main = .join → (∀ w ∈ (z.ranks r).reader.workers, w = .exited) →
      Step K worldSize files maps z .mpi
        { set z r { z.ranks r with counting := { (z.ranks r).counting with
            main := .done (Streaming.padEvents (z.ranks r).counting.events) } } with
          sent := fun i => if i = r then some (Archive.saveEvents (Mpi.partialEvents (z.ranks r).counting.events))
            else z.sent i }
  /-- electron.cpp:793-796 on rank 0 -/
  | gather {z : State D Θ} : 0 < worldSize → (z.ranks 0).counting.ub = false → (z.ranks 0).counting.main = .join →
      (∀ w ∈ (z.ranks 0).reader.workers, w = .exited) → z.gathering = none →
      Step K worldSize files maps z .mpi { z with gathering := some (1, (z.ranks 0).counting.events) }
  /-- electron_mpi.cpp:39-71, 112-114 -/
  | recv {z : State D Θ} {k ev msg ev'} : z.failed = false → z.gathering = some (k, ev) → k < worldSize → z.sent k = some msg →
      Mpi.receive ev msg = .ok ev' →
      Step K worldSize files maps z .mpi { z with gathering := some (k + 1, ev') }
  | recvFail {z : State D Θ} {k ev msg} : z.failed = false → z.gathering = some (k, ev) → k < worldSize →
      z.sent k = some msg → (∀ ev', Mpi.receive ev msg ≠ .ok ev') →
      Step K worldSize files maps z .mpi { z with failed := true }
  /-- electron.cpp:801-835 on rank 0 -/
  | finish {z : State D Θ} {ev} : z.failed = false → z.gathering = some (worldSize, ev) → z.result = none →
      Step K worldSize files maps z .mpi { z with result := some (Streaming.padEvents ev) }

end Stempy.MpiCounting
