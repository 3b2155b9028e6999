import Verif.Model.ThreadedReader
import Verif.Model.CountingReader

/-!
# electronCount with a SectorStreamThreadedReader: stempy/electron.cpp:563-836, stempy/reader.h:375-481, stempy/reader.cpp:798-831

As `CountingReader` with the code of the single-pass reader (`ThreadedReader.Step`): a worker that has completed a frame gives its stream
back and calls `counter` (reader.h:466-468).

The reader fills in the header of the frame at reader.h:423-429, but not the vector `complete`, which stays
empty. `flag` is the first element of that vector, hence `none` in the code; `some true` is the program with the line
`frame.block.header.complete.resize(1, true)` added.
-/

namespace Stempy.ThreadedCounting
open Stempy.ThreadedReader (Entry Block)
open Stempy.CountingReader (Inside)

variable {D Θ : Type}

/-- A call of `electronCount`. The blocks of the counting carry the contents of the block in `Blk.id`, by
an arbitrary coding. -/
structure Call (D Θ : Type) where
  threads : Nat
  numBlocks : Nat
  positions : Nat
  flag : Option Bool
  threshold : List (Block D) → Θ
  count : Θ → Block D → List Nat
  code : Block D → Nat
  decode : Nat → Option (Block D)
  decode_code : ∀ b, decode (code b) = some b

/-- The block as an argument of `counter`; `imageNumbers[0]` is from the record which allocated the frame, reader.h:427. -/
def Call.tag (K : Call D Θ) (b : Block D) : Streaming.Blk := ⟨K.code b, b.head.pos, K.flag⟩

def Call.params (K : Call D Θ) : Streaming.Params Θ where
  threads := K.threads
  numBlocks := K.numBlocks
  positions := K.positions
  threshold := fun l => K.threshold (l.filterMap fun b => K.decode b.id)
  count := fun θ b =>
    match K.decode b.id with
    | some b => K.count θ b
    | none => []

structure State (D Θ : Type) where
  reader : ThreadedReader.State D
  counting : Streaming.State Θ

/-- electron.cpp:684, after the tasks have been enqueued. -/
def init (K : Call D Θ) (files : List (Entry D)) : State D Θ where
  reader := ThreadedReader.init K.threads files
  counting := Streaming.init K.params []

inductive Label where
  /-- a thread of the pool in the code of the reader -/
  | reader (l : ThreadedReader.Label)
  /-- a thread of the pool in `counter`, or the calling thread -/
  | count (l : Streaming.Label)
  deriving DecidableEq

inductive Step (K : Call D Θ) : State D Θ → Label → State D Θ → Prop where
  /-- a worker in the code of the reader -/
  | read {x : State D Θ} {l} {r' : ThreadedReader.State D} {rpre rpost w w' cpre cpost} : x.counting.ub = false → x.reader.ub = false →
      ThreadedReader.Step x.reader l r' →
      x.reader.workers = rpre ++ w :: rpost → r'.workers = rpre ++ w' :: rpost → w ≠ .exited → w' ≠ .exited →
      r'.delivered = x.reader.delivered →
      x.counting.workers = cpre ++ .idle :: cpost → cpre.length = rpre.length →
      Step K x (.reader l) { x with reader := r' }
  /-- reader.h:467 -/
  | deliver {x : State D Θ} {l} {r' : ThreadedReader.State D} {rpre rpost w w' cpre cpost b} : x.counting.ub = false → x.reader.ub = false →
      ThreadedReader.Step x.reader l r' →
      x.reader.workers = rpre ++ w :: rpost → r'.workers = rpre ++ w' :: rpost → w ≠ .exited → w' ≠ .exited →
      r'.delivered = x.reader.delivered ++ [b] →
      x.counting.workers = cpre ++ .idle :: cpost → cpre.length = rpre.length →
      Step K x (.reader l) { reader := r', counting := { x.counting with workers := cpre ++ .got (K.tag b) :: cpost } }
  /-- reader.h:395: the task ends -/
  | finish {x : State D Θ} {l} {r' : ThreadedReader.State D} {rpre rpost w cpre cpost} : x.counting.ub = false → x.reader.ub = false →
      ThreadedReader.Step x.reader l r' →
      x.reader.workers = rpre ++ w :: rpost → r'.workers = rpre ++ .exited :: rpost → w ≠ .exited →
      r'.delivered = x.reader.delivered →
      x.counting.workers = cpre ++ .idle :: cpost → cpre.length = rpre.length →
      Step K x (.reader l) { reader := r', counting := { x.counting with workers := cpre ++ .exited :: cpost } }
  /-- electron.cpp:616-682 in a worker, electron.cpp:686-790 in the calling thread -/
  | count {x : State D Θ} {l c'} : x.reader.ub = false → Streaming.Step K.params x.counting l c' → Inside x.counting c' →
      Step K x (.count l) { x with counting := c' }
  /-- electron.cpp:793-835: `done.wait()` waits for the tasks (reader.h:474-478) -/
  | join {x : State D Θ} : x.counting.ub = false → x.reader.ub = false → x.counting.main = .join →
      (∀ w ∈ x.reader.workers, w = .exited) →
      Step K x (.count .internal) { x with counting := { x.counting with main := .done (Streaming.padEvents x.counting.events) } }

end Stempy.ThreadedCounting
