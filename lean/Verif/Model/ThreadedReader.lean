import Verif.Model.SectorReader
import Verif.Spec.Transition

/-!
# SectorStreamThreadedReader::readAll: stempy/reader.h:375-481, stempy/reader.cpp:798-831

One step per critical section or atomic access. The unsynchronised test `m_streams.empty()` (reader.h:395) is one
atomic step here; that it is a data race is shown by `C27_race`. The queue is a priority queue on
the number of reads; here any entry may be taken, which includes the order of the code. The user function does not
throw.

The pixels of a frame are described by the list of the sectors written into it, in the order of the writes; the
sectors are disjoint parts of the memory of the frame (C25), so that simultaneous writes need not be atomic.
Records are complete (`Stream.cut = false` and full pixel data).
-/

namespace Stempy.ThreadedReader
open Stempy.SectorReader

variable {D : Type}

/-- Entry of the queue: a stream at its position. -/
structure Entry (D : Type) where
  sector : Nat
  rest : List (Rec D)

/-- A cached frame (`SectorStreamReader::Frame`). `head` is the record from which the header was filled in when the
pixels were allocated; `none` as long as `block.data == nullptr`. -/
structure Obj (D : Type) where
  head : Option (Rec D)
  placed : List (Nat × Rec D)
  count : Nat

/-- A block handed to the user function. -/
structure Block (D : Type) where
  key : Nat
  head : Rec D
  items : List (Nat × Rec D)

/-- Where a worker is. `g` is the generation of the cache entry to which the worker has a reference. -/
inductive Worker (D : Type) where
  /-- reader.h:395 -/
  | loop
  /-- reader.h:399, before `nextStream` -/
  | next
  /-- reader.cpp:813-828, the stream taken is at its end -/
  | eof
  /-- reader.h:406-413, with a record -/
  | got (e : Entry D) (r : Rec D)
  /-- reader.h:418 -/
  | check (e : Entry D) (r : Rec D) (g : Nat)
  /-- reader.h:419 -/
  | lock (e : Entry D) (r : Rec D) (g : Nat)
  /-- reader.h:444 -/
  | write (e : Entry D) (r : Rec D) (g : Nat)
  /-- reader.h:447 -/
  | count (e : Entry D) (k g : Nat)
  /-- reader.h:448-451 -/
  | finish (e : Entry D) (k g : Nat)
  /-- reader.h:459-463 -/
  | giveback (e : Entry D) (b : Option (Block D))
  /-- reader.h:466-468 -/
  | deliver (b : Block D)
  | exited

/-- `cache k` is `m_frameCache[k]`, `gen k` counts the erasures of the key `k`; a reference obtained before an
erasure dangles. `streams` is the size of `m_streams`. -/
structure State (D : Type) where
  queue : List (Entry D)
  streams : Nat
  cache : Nat → Option (Obj D)
  gen : Nat → Nat
  workers : List (Worker D)
  delivered : List (Block D)
  ub : Bool

def update {α : Type} (f : Nat → α) (k : Nat) (v : α) : Nat → α := fun j => if j = k then v else f j

/-- `readAll` after the tasks have been enqueued; every thread of the pool runs one of them. -/
def init (threads : Nat) (files : List (Entry D)) : State D where
  queue := files
  streams := files.length
  cache := fun _ => none
  gen := fun _ => 0
  workers := List.replicate threads .loop
  delivered := []
  ub := false

inductive Label where
  /-- busy waiting -/
  | spin
  | work
  deriving DecidableEq

/-- The frame with key `k` as seen through a reference of generation `g`. -/
def deref (s : State D) (k g : Nat) : Option (Obj D) := if s.gen k = g then s.cache k else none

inductive Step : State D → Label → State D → Prop where
  /-- reader.h:395 -/
  | exit {s : State D} {pre post} : s.workers = pre ++ .loop :: post → s.streams = 0 →
      Step s .work { s with workers := pre ++ .exited :: post }
  | test {s : State D} {pre post} : s.workers = pre ++ .loop :: post → s.streams ≠ 0 →
      Step s .spin { s with workers := pre ++ .next :: post }
  /-- reader.cpp:800-804 -/
  | miss {s : State D} {pre post} : s.workers = pre ++ .next :: post → s.queue = [] →
      Step s .spin { s with workers := pre ++ .loop :: post }
  /-- reader.cpp:805-813 -/
  | takeEnd {s : State D} {pre post qpre qpost sector} : s.workers = pre ++ .next :: post →
      s.queue = qpre ++ ⟨sector, []⟩ :: qpost →
      Step s .work { s with queue := qpre ++ qpost, workers := pre ++ .eof :: post }
  | take {s : State D} {pre post qpre qpost sector r rest} : s.workers = pre ++ .next :: post →
      s.queue = qpre ++ ⟨sector, r :: rest⟩ :: qpost →
      Step s .work { s with queue := qpre ++ qpost, workers := pre ++ .got ⟨sector, rest⟩ r :: post }
  /-- reader.cpp:814-828 -/
  | close {s : State D} {pre post} : s.workers = pre ++ .eof :: post →
      Step s .work { s with streams := s.streams - 1, workers := pre ++ .loop :: post }
  /-- reader.h:413-415: look up or insert. -/
  | lookup {s : State D} {pre post e r} : s.workers = pre ++ .got e r :: post →
      Step s .work { s with
        cache := update s.cache r.frameNumber (some ((s.cache r.frameNumber).getD ⟨none, [], 0⟩))
        workers := pre ++ .check e r (s.gen r.frameNumber) :: post }
  /-- reader.h:418 -/
  | checkNull {s : State D} {pre post e r g o} : s.workers = pre ++ .check e r g :: post →
      deref s r.frameNumber g = some o → o.head = none →
      Step s .work { s with workers := pre ++ .lock e r g :: post }
  | checkData {s : State D} {pre post e r g o} : s.workers = pre ++ .check e r g :: post →
      deref s r.frameNumber g = some o → o.head ≠ none →
      Step s .work { s with workers := pre ++ .write e r g :: post }
  /-- reader.h:419-441, with the mutex of the frame -/
  | allocate {s : State D} {pre post e r g o} : s.workers = pre ++ .lock e r g :: post →
      deref s r.frameNumber g = some o →
      Step s .work { s with
        cache := update s.cache r.frameNumber (some { o with head := some (o.head.getD r) })
        workers := pre ++ .write e r g :: post }
  /-- reader.h:444 -/
  | write {s : State D} {pre post e r g o} : s.workers = pre ++ .write e r g :: post →
      deref s r.frameNumber g = some o → o.head ≠ none →
      Step s .work { s with
        cache := update s.cache r.frameNumber (some { o with placed := o.placed ++ [(e.sector, r)] })
        workers := pre ++ .count e r.frameNumber g :: post }
  /-- reader.h:447 -/
  | count {s : State D} {pre post e k g o} : s.workers = pre ++ .count e k g :: post →
      deref s k g = some o → o.count + 1 ≠ 4 →
      Step s .work { s with
        cache := update s.cache k (some { o with count := o.count + 1 })
        workers := pre ++ .giveback e none :: post }
  | countFour {s : State D} {pre post e k g o} : s.workers = pre ++ .count e k g :: post →
      deref s k g = some o → o.count + 1 = 4 →
      Step s .work { s with
        cache := update s.cache k (some { o with count := o.count + 1 })
        workers := pre ++ .finish e k g :: post }
  /-- reader.h:448-451 -/
  | finish {s : State D} {pre post e k g o head} : s.workers = pre ++ .finish e k g :: post →
      deref s k g = some o → o.head = some head →
      Step s .work { s with
        cache := update s.cache k none
        gen := update s.gen k (s.gen k + 1)
        workers := pre ++ .giveback e (some ⟨k, head, o.placed⟩) :: post }
  /-- reader.h:459-463 -/
  | giveback {s : State D} {pre post e} : s.workers = pre ++ .giveback e none :: post →
      Step s .work { s with queue := s.queue ++ [e], workers := pre ++ .loop :: post }
  | givebackBlock {s : State D} {pre post e b} : s.workers = pre ++ .giveback e (some b) :: post →
      Step s .work { s with queue := s.queue ++ [e], workers := pre ++ .deliver b :: post }
  /-- reader.h:466-468 -/
  | deliver {s : State D} {pre post b} : s.workers = pre ++ .deliver b :: post →
      Step s .work { s with delivered := s.delivered ++ [b], workers := pre ++ .loop :: post }
  /-- Access through a dangling reference, or writing pixels to a null pointer. -/
  | bad {s : State D} {pre post w k g} : s.workers = pre ++ w :: post →
      ((∃ e r, (w = .check e r g ∨ w = .lock e r g ∨ w = .write e r g) ∧ k = r.frameNumber) ∨
        ∃ e, w = .count e k g ∨ w = .finish e k g) → deref s k g = none →
      Step s .work { s with ub := true }
  | badNull {s : State D} {pre post w k g o} : s.workers = pre ++ w :: post →
      ((∃ e r, w = .write e r g ∧ k = r.frameNumber) ∨ ∃ e, w = .finish e k g) → deref s k g = some o →
      o.head = none → Step s .work { s with ub := true }

end Stempy.ThreadedReader
