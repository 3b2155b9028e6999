import Verif.Model.ByteCounting
import Verif.Model.MpiCounting

/-!
# electronCount with a SectorStreamMultiPassThreadedReader on several MPI ranks, from the bytes of the files

stempy/reader.h:683-757, 814-834, stempy/reader_mpi.cpp:94-142, stempy/electron.cpp:563-836 with `USE_MPI`, stempy/electron_mpi.cpp:39-211.

`Model/MpiCounting` has the same on records. Every rank opens all files by itself; it reads the first header, then the headers of its share of
the files, the indexes are gathered, and its threads read and count the frames of its share of the positions, on its own streams of bytes. MPI
is external as in `Model/MpiCounting`: messages arrive unchanged and in order, and the sample blocks arrive as they are.
-/

namespace Stempy.MpiBytes
open Stempy.MultiPass (ScanMap update)
open Stempy.SectorStreams (IStream readFirstHeader)
open Stempy.CountingReader (Call)
open Stempy.MpiCounting (rankCall firstPosition endPosition Label)
open Stempy.ByteCounting (HState HStep hinit rewound streamsOf withScan)
open Stempy.EndToEnd (Setup)

variable {Θ : Type}

/-- As `MpiCounting.State`. -/
structure State (Θ : Type) where
  ranks : Nat → ByteCounting.State Θ
  broadcast : Option Θ
  sent : Nat → Option Archive.Bytes
  gathering : Option (Nat × List (List (List Nat)))
  result : Option (List (List (List Nat)))
  failed : Bool

/-- electron.cpp:684 on all ranks; `size` is the number of positions in the index (reader_mpi.cpp:128-142). -/
def init (K : Call (List Nat) Θ) (worldSize size : Nat) (streams : Nat → Nat → IStream) : State Θ where
  ranks := fun r => ByteCounting.init (rankCall K worldSize r) (firstPosition size worldSize r) (streams r)
  broadcast := none
  sent := fun _ => none
  gathering := none
  result := none
  failed := false

/-- As `MpiCounting.Alone`. -/
def Alone (x x' : ByteCounting.State Θ) : Prop :=
  (x.counting.main = .holding → x'.counting.main = .holding ∧ x'.counting.ub = x.counting.ub) ∧
  ∀ d, x'.counting.main ≠ .done d

/-- electron.cpp:735-755 -/
def start (K : Call (List Nat) Θ) (x : ByteCounting.State Θ) (samples : List Streaming.Blk) (θ : Θ) : ByteCounting.State Θ :=
  { x with
    counting := { x.counting with
      samples := samples
      thresholds := some θ
      events := List.replicate K.positions []
      counting := true
      main := .started } }

/-- electron_mpi.cpp:163-183 -/
def gathered (worldSize : Nat) (z : State Θ) : List Streaming.Blk :=
  (List.range worldSize).flatMap fun r => (z.ranks r).counting.samples

def set (z : State Θ) (r : Nat) (x : ByteCounting.State Θ) : State Θ :=
  { z with ranks := fun i => if i = r then x else z.ranks i }

inductive Step (K : Call (List Nat) Θ) (worldSize size : Nat) (maps : Nat → ScanMap) : State Θ → Label → State Θ → Prop where
  | rank {z : State Θ} {r l x'} : r < worldSize →
      ByteCounting.Step (rankCall K worldSize r) (maps r) (endPosition size worldSize r) (z.ranks r) l x' →
      Alone (z.ranks r) x' →
      Step K worldSize size maps z (.rank r l) (set z r x')
  /-- electron.cpp:696-755 on rank 0: all ranks have sent their samples -/
  | compute {z : State Θ} : (∀ r < worldSize, (z.ranks r).counting.main = .holding ∧ (z.ranks r).counting.ub = false) →
      0 < worldSize → gathered worldSize z ≠ [] →
      Step K worldSize size maps z .mpi
        { set z 0 (start K (z.ranks 0) (gathered worldSize z) (K.params.threshold (gathered worldSize z))) with
          broadcast := some (K.params.threshold (gathered worldSize z)) }
  /-- electron.cpp:742 without any sample -/
  | computeUb {z : State Θ} : (∀ r < worldSize, (z.ranks r).counting.main = .holding ∧ (z.ranks r).counting.ub = false) →
      0 < worldSize → gathered worldSize z = [] →
      Step K worldSize size maps z .mpi
        (set z 0 { z.ranks 0 with counting := { (z.ranks 0).counting with ub := true } })
  /-- electron.cpp:735-755 on another rank: the thresholds have arrived -/
  | receive {z : State Θ} {r θ} : 0 < r → r < worldSize → (z.ranks r).counting.main = .holding →
      (z.ranks r).counting.ub = false → z.broadcast = some θ → (z.ranks r).counting.samples ≠ [] →
      Step K worldSize size maps z .mpi (set z r (start K (z.ranks r) (z.ranks r).counting.samples θ))
  /-- electron.cpp:742 on a rank without samples -/
  | receiveUb {z : State Θ} {r θ} : 0 < r → r < worldSize → (z.ranks r).counting.main = .holding →
      (z.ranks r).counting.ub = false → z.broadcast = some θ → (z.ranks r).counting.samples = [] →
      Step K worldSize size maps z .mpi
        (set z r { z.ranks r with counting := { (z.ranks r).counting with ub := true } })
  /-- electron.cpp:793-835, electron_mpi.cpp:73-98 on another rank -/
  | send {z : State Θ} {r} : 0 < r → r < worldSize → (z.ranks r).counting.ub = false →
      (z.ranks r).counting.main = .join → (∀ w ∈ (z.ranks r).reader.workers, w = .exited) →
      Step K worldSize size maps z .mpi
        { set z r { z.ranks r with counting := { (z.ranks r).counting with
            main := .done (Streaming.padEvents (z.ranks r).counting.events) } } with
          sent := fun i => if i = r then some (Archive.saveEvents (Mpi.partialEvents (z.ranks r).counting.events))
            else z.sent i }
  /-- electron.cpp:793-796 on rank 0 -/
  | gather {z : State Θ} : 0 < worldSize → (z.ranks 0).counting.ub = false → (z.ranks 0).counting.main = .join →
      (∀ w ∈ (z.ranks 0).reader.workers, w = .exited) → z.gathering = none →
      Step K worldSize size maps z .mpi { z with gathering := some (1, (z.ranks 0).counting.events) }
  /-- electron_mpi.cpp:39-71, 112-114 -/
  | recv {z : State Θ} {k ev msg ev'} : z.failed = false → z.gathering = some (k, ev) → k < worldSize → z.sent k = some msg →
      Mpi.receive ev msg = .ok ev' →
      Step K worldSize size maps z .mpi { z with gathering := some (k + 1, ev') }
  | recvFail {z : State Θ} {k ev msg} : z.failed = false → z.gathering = some (k, ev) → k < worldSize →
      z.sent k = some msg → (∀ ev', Mpi.receive ev msg ≠ .ok ev') →
      Step K worldSize size maps z .mpi { z with failed := true }
  /-- electron.cpp:801-835 on rank 0 -/
  | finish {z : State Θ} {ev} : z.failed = false → z.gathering = some (worldSize, ev) → z.result = none →
      Step K worldSize size maps z .mpi { z with result := some (Streaming.padEvents ev) }

/-- The positions of the index: `m_scanMapSize`, a `uint32_t` (reader.h:704). -/
def mapSize (dims : Nat × Nat) : Nat := dims.1 * dims.2 % 2 ^ 32

/-- The execution of `electronCount` on all ranks: the header pass of rank `r` ends in `s r`, its index is `maps r` after the gathering,
and the counting has come to `z`. `dims` are those of the first header. -/
structure Exec (o : Setup) (files : List (Nat × List UInt8)) (worldSize : Nat) (dims : Nat × Nat) (s : Nat → HState)
    (maps : Nat → ScanMap) (z : State (Rat × Rat × Rat)) : Prop where
  /-- reader.h:691-733, reader_mpi.cpp:94-114: the share of the files -/
  first : ∀ r < worldSize, ∃ number st, readFirstHeader (streamsOf files 0) = .ok (dims, number, st) ∧
    Spec.Reach (HStep files (mapSize dims) ((Mpi.share files.length worldSize r).1 + (Mpi.share files.length worldSize r).2))
      (hinit o.threads (Mpi.share files.length worldSize r).1 (update (streamsOf files) 0 st)) (s r)
  /-- reader.h:735-738 -/
  waited : ∀ r < worldSize, (s r).ub = false ∧ ∀ w ∈ (s r).workers, w = .exited
  /-- reader.h:741 -/
  gather : ∀ r < worldSize, Mpi.gatherScanMap ((List.range worldSize).map fun r => (s r).map) (mapSize dims) r = .ok (maps r)
  /-- reader.h:744-757, 814-834 -/
  counting : Spec.Reach (Step (EndToEnd.call (withScan o dims)) worldSize (mapSize dims) maps)
    (init (EndToEnd.call (withScan o dims)) worldSize (mapSize dims) fun r => rewound (s r).streams) z

end Stempy.MpiBytes
