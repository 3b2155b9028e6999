import Verif.Model.MultiPass
import Verif.Model.Streaming

/-!
# electronCount with a SectorStreamMultiPassThreadedReader: stempy/electron.cpp:563-836, stempy/reader.h:606-689, 814-834

The processing pass of the reader (`MultiPass.PStep`) and the counting (`Streaming.Step`) run in the same threads: a
worker of the reader which has assembled a frame calls `counter` (reader.h:648), and goes on reading when `counter`
returns. In `Streaming` the reader is an unordered supply of blocks; here it is the code of the reader, with its
counter of positions, the locks of the streams and its loops.

A state is a pair of the state of the reader and the state of the counting. Worker `i` of the one is worker `i` of the other:
it is in the code of the reader exactly if it is `idle` in the counting. `State.pending` of the counting is not
used.
-/

namespace Stempy.CountingReader
open Stempy.MultiPass (PState PWorker PStep pinit ScanMap)

variable {D Θ : Type}

/-- A call of `electronCount`. The blocks of the counting carry the contents of the block in `Blk.id`, by
an arbitrary coding. -/
structure Call (D Θ : Type) where
  threads : Nat
  numBlocks : Nat
  positions : Nat
  threshold : List (MultiPass.Block D) → Θ
  count : Θ → MultiPass.Block D → List Nat
  code : MultiPass.Block D → Nat
  decode : Nat → Option (MultiPass.Block D)
  decode_code : ∀ b, decode (code b) = some b

/-- The block as an argument of `counter`: reader.h:611-648 fills `imageNumbers[0]` and `complete[0]`. -/
def Call.tag (K : Call D Θ) (b : MultiPass.Block D) : Streaming.Blk := ⟨K.code b, b.pos, some b.complete⟩

def Call.params (K : Call D Θ) : Streaming.Params Θ where
  threads := K.threads
  numBlocks := K.numBlocks
  positions := K.positions
  threshold := fun l => K.threshold (l.filterMap fun b => K.decode b.id)
  count := fun θ b =>
    match K.decode b.id with
    | some b => K.count θ b
    | none => []

structure State (D Θ : Type) where
  reader : PState D
  counting : Streaming.State Θ

/-- electron.cpp:684, after the tasks have been enqueued. `lo` is `m_processed`, `at_` are the positions of the streams. -/
def init (K : Call D Θ) (lo : Nat) (at_ : Nat → Nat) : State D Θ where
  reader := pinit K.threads lo at_
  counting := Streaming.init K.params []

inductive Label where
  /-- a thread of the pool in the code of the reader -/
  | reader
  /-- a thread of the pool in `counter`, or the calling thread -/
  | count (l : Streaming.Label)
  deriving DecidableEq

/-- Steps of the counting that do not belong to the reader: no block is taken, no worker returns, and the calling thread does
not return (these three are replaced by `deliver`, `finish` and `join` below). -/
def Inside (c c' : Streaming.State Θ) : Prop :=
  c'.pending = c.pending ∧ c'.workers.count .exited = c.workers.count .exited ∧ ∀ d, c'.main ≠ .done d

inductive Step (K : Call D Θ) (files : List (MultiPass.File D)) (map : ScanMap) (hi : Nat) :
    State D Θ → Label → State D Θ → Prop where
  /-- a worker in the code of the reader, reader.h:631-641, 653-689 -/
  | read {x : State D Θ} {r' : PState D} {rpre rpost w w' cpre cpost} : x.counting.ub = false →
      PStep files map hi x.reader () r' →
      x.reader.workers = rpre ++ w :: rpost → r'.workers = rpre ++ w' :: rpost → w' ≠ .exited →
      r'.delivered = x.reader.delivered →
      x.counting.workers = cpre ++ .idle :: cpost → cpre.length = rpre.length →
      Step K files map hi x .reader { x with reader := r' }
  /-- reader.h:648 -/
  | deliver {x : State D Θ} {r' : PState D} {rpre rpost w w' cpre cpost b} : x.counting.ub = false →
      PStep files map hi x.reader () r' →
      x.reader.workers = rpre ++ w :: rpost → r'.workers = rpre ++ w' :: rpost → w' ≠ .exited →
      r'.delivered = x.reader.delivered ++ [b] →
      x.counting.workers = cpre ++ .idle :: cpost → cpre.length = rpre.length →
      Step K files map hi x .reader
        { reader := r', counting := { x.counting with workers := cpre ++ .got (K.tag b) :: cpost } }
  /-- reader.h:655-661: the task ends -/
  | finish {x : State D Θ} {r' : PState D} {rpre rpost w cpre cpost} : x.counting.ub = false →
      PStep files map hi x.reader () r' →
      x.reader.workers = rpre ++ w :: rpost → r'.workers = rpre ++ .exited :: rpost →
      r'.delivered = x.reader.delivered →
      x.counting.workers = cpre ++ .idle :: cpost → cpre.length = rpre.length →
      Step K files map hi x .reader
        { reader := r', counting := { x.counting with workers := cpre ++ .exited :: cpost } }
  /-- electron.cpp:616-682 in a worker, electron.cpp:686-790 in the calling thread -/
  | count {x : State D Θ} {l c'} : Streaming.Step K.params x.counting l c' → Inside x.counting c' →
      Step K files map hi x (.count l) { x with counting := c' }
  /-- electron.cpp:793-835: `done.wait()` waits for the tasks (reader.h:827-831) -/
  | join {x : State D Θ} : x.counting.ub = false → x.counting.main = .join →
      (∀ w ∈ x.reader.workers, w = .exited) →
      Step K files map hi x (.count .internal)
        { x with counting := { x.counting with main := .done (Streaming.padEvents x.counting.events) } }

end Stempy.CountingReader
