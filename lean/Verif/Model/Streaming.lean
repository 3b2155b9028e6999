import Verif.Spec.Transition

/-!
Model of the streaming electron counting of `stempy/electron.cpp:563-836` with its threads.

The reader is abstracted to what its `readAll` does (properties C27 and C29): worker threads take the blocks,
each block once, in any order, and call `counter(b)`; a worker returns when no block is left. Both readers that can be
used here (electron.cpp:869-875) deliver blocks of one image, so `countBlock` is modelled for one frame.

A step is either an action that is atomic for the other threads (access to an atomic variable, a whole section under
`sampleMutex` that does not block) or the beginning / end of `push_back` on the frame list of a position. Two
overlapping `push_back` on the same list are a data race, hence undefined behaviour.

External: the computation of the thresholds (`threshold`, C57) and of the events of a frame (`count`, C12). If the
threshold computation throws: `StreamingThrow`.
-/

namespace Stempy.Streaming

/-- A block: identity, `imageNumbers[0]`, `complete[0]` (`none`: the vector `complete` is empty). -/
structure Blk where
  id : Nat
  pos : Nat
  complete : Option Bool
  deriving Repr, DecidableEq

/-- A worker thread in `counter`, electron.cpp:644-682, and `countBlock`, electron.cpp:616-642. `hold` tells
whether the thread still owns `sampleMutex` (electron.cpp:671-675). -/
inductive Worker where
  /-- between two blocks (in the reader) -/
  | idle
  /-- `counter` called, before electron.cpp:648 -/
  | got (b : Blk)
  /-- has seen `electronCounting == false`, before electron.cpp:649 -/
  | wantLock (b : Blk)
  /-- has added the last sample and released the mutex, before electron.cpp:665 -/
  | notify
  /-- blocked in electron.cpp:671 -/
  | asleep (b : Blk)
  /-- woken up in electron.cpp:671, has to lock the mutex again -/
  | awake (b : Blk)
  /-- in `countBlock` before the lock of the position, electron.cpp:638 -/
  | append (b : Blk) (hold : Bool)
  /-- inside `push_back`, electron.cpp:640 -/
  | pushing (b : Blk) (hold : Bool)
  /-- the reader function has returned -/
  | exited
  deriving Repr, DecidableEq

/-- The calling thread, electron.cpp:684-835. -/
inductive Main where
  /-- before electron.cpp:687 -/
  | start
  /-- blocked in electron.cpp:688 -/
  | asleep
  /-- woken up in electron.cpp:688, has to lock the mutex again -/
  | awake
  /-- owns the mutex, enough samples, electron.cpp:693-754 -/
  | holding
  /-- after `electronCounting = true`, electron.cpp:755, still owns the mutex -/
  | started
  /-- mutex released, before `notify_all`, electron.cpp:757 -/
  | notify
  /-- loops of electron.cpp:781-790, blocks left in the current loop; `second` is the loop over the incomplete
  blocks -/
  | extra (todo : List Blk) (second : Bool)
  /-- inside `push_back`, electron.cpp:776 -/
  | pushing (b : Blk) (todo : List Blk) (second : Bool)
  /-- `done.wait()`, electron.cpp:793 -/
  | join
  /-- returned, with the data -/
  | done (data : List (List (List Nat)))
  deriving Repr, DecidableEq

/-- `counted` is a history: the blocks whose frame was appended, in order. -/
structure State (Θ : Type) where
  pending : List Blk
  workers : List Worker
  main : Main
  locked : Bool
  counting : Bool
  samples : List Blk
  incomplete : List Blk
  thresholds : Option Θ
  events : List (List (List Nat))
  counted : List Blk
  ub : Bool

/-- Largest number of frames of a position, electron.cpp:801-806. -/
def maxNumFrames (events : List (List (List Nat))) : Nat :=
  events.foldl (fun m l => if l.length > m then l.length else m) 0

/-- `std::vector::resize(n)`: cut, or filled with empty vectors. -/
def resize (l : List (List Nat)) (n : Nat) : List (List Nat) :=
  l.take n ++ List.replicate (n - l.length) []

/-- electron.cpp:801-811. -/
def padEvents (events : List (List (List Nat))) : List (List (List Nat)) :=
  events.map fun l => resize l (maxNumFrames events)

/-- Parameters of a call: number of threads, `thresholdNumberOfBlocks`, number of scan positions, the threshold
computation and the counting of a frame. -/
structure Params (Θ : Type) where
  threads : Nat
  numBlocks : Nat
  positions : Nat
  threshold : List Blk → Θ
  count : Θ → Blk → List Nat

/-- State after `readAll` has started the workers, electron.cpp:684. -/
def init {Θ : Type} (P : Params Θ) (blocks : List Blk) : State Θ where
  pending := blocks
  workers := List.replicate P.threads .idle
  main := .start
  locked := false
  counting := false
  samples := []
  incomplete := []
  thresholds := none
  events := []
  counted := []
  ub := false

/-- `notify_all` on `sampleCondition`. -/
def wakeWorker : Worker → Worker
  | .asleep b => .awake b
  | w => w
def wakeMain : Main → Main
  | .asleep => .awake
  | m => m

/-- The worker is inside of `push_back` on the list of position `p`. -/
def pushesAt (p : Nat) : Worker → Bool
  | .pushing b _ => b.pos = p
  | _ => false

/-- The calling thread is inside of `push_back` on the list of position `p`. -/
def mainPushesAt (p : Nat) : Main → Bool
  | .pushing b _ _ => b.pos = p
  | _ => false

/-- End of `push_back(count(b))` on the list of the block's position. -/
def pushEvents {Θ : Type} (P : Params Θ) (s : State Θ) (θ : Θ) (b : Blk) : List (List (List Nat)) :=
  s.events.modify b.pos (· ++ [P.count θ b])

/-- Kinds of steps. -/
inductive Label where
  | internal
  | spurious
  deriving Repr, DecidableEq

/-- Steps of the threads. -/
inductive Step {Θ : Type} (P : Params Θ) : State Θ → Label → State Θ → Prop where
  /-- the reader hands a block to a worker -/
  | take {s : State Θ} {b : Blk} {p1 p2 : List Blk} {pre post : List Worker} : s.ub = false →
      s.workers = pre ++ .idle :: post → s.pending = p1 ++ b :: p2 →
      Step P s .internal { s with pending := p1 ++ p2, workers := pre ++ .got b :: post }
  /-- no block left: the worker returns -/
  | exit {s : State Θ} {pre post : List Worker} : s.ub = false →
      s.workers = pre ++ .idle :: post → s.pending = [] →
      Step P s .internal { s with workers := pre ++ .exited :: post }
  /-- electron.cpp:648, 679-680 -/
  | seeFlag {s : State Θ} {b : Blk} {pre post : List Worker} : s.ub = false →
      s.workers = pre ++ .got b :: post → s.counting = true →
      Step P s .internal { s with workers := pre ++ .append b false :: post }
  /-- electron.cpp:648 -/
  | noFlag {s : State Θ} {b : Blk} {pre post : List Worker} : s.ub = false →
      s.workers = pre ++ .got b :: post → s.counting = false →
      Step P s .internal { s with workers := pre ++ .wantLock b :: post }
  /-- electron.cpp:649-655 with an empty `complete` vector -/
  | sampleUb {s : State Θ} {b : Blk} {pre post : List Worker} : s.ub = false →
      s.workers = pre ++ .wantLock b :: post → s.locked = false →
      s.samples.length < P.numBlocks → b.complete = none →
      Step P s .internal { s with ub := true }
  /-- electron.cpp:649-656, 662-666: a sample, not the last -/
  | sample {s : State Θ} {b : Blk} {pre post : List Worker} : s.ub = false →
      s.workers = pre ++ .wantLock b :: post → s.locked = false →
      s.samples.length + 1 < P.numBlocks → b.complete = some true →
      Step P s .internal { s with samples := s.samples ++ [b], workers := pre ++ .idle :: post }
  /-- electron.cpp:649-656, 662-666: the last sample -/
  | lastSample {s : State Θ} {b : Blk} {pre post : List Worker} : s.ub = false →
      s.workers = pre ++ .wantLock b :: post → s.locked = false →
      s.samples.length + 1 = P.numBlocks → b.complete = some true →
      Step P s .internal { s with samples := s.samples ++ [b], workers := pre ++ .notify :: post }
  /-- electron.cpp:649-660 -/
  | incomplete {s : State Θ} {b : Blk} {pre post : List Worker} : s.ub = false →
      s.workers = pre ++ .wantLock b :: post → s.locked = false →
      s.samples.length < P.numBlocks → b.complete = some false →
      Step P s .internal { s with incomplete := s.incomplete ++ [b], workers := pre ++ .idle :: post }
  /-- electron.cpp:665 -/
  | notifyAll {s : State Θ} {pre post : List Worker} : s.ub = false →
      s.workers = pre ++ .notify :: post →
      Step P s .internal { s with workers := pre.map wakeWorker ++ .idle :: post.map wakeWorker,
                                  main := wakeMain s.main }
  /-- electron.cpp:670-671, predicate false -/
  | sleep {s : State Θ} {b : Blk} {pre post : List Worker} : s.ub = false →
      (s.workers = pre ++ .wantLock b :: post ∧ P.numBlocks ≤ s.samples.length ∨
        s.workers = pre ++ .awake b :: post) →
      s.locked = false → s.counting = false →
      Step P s .internal { s with workers := pre ++ .asleep b :: post }
  /-- electron.cpp:670-675, predicate true: continues with the mutex locked -/
  | proceed {s : State Θ} {b : Blk} {pre post : List Worker} : s.ub = false →
      (s.workers = pre ++ .wantLock b :: post ∧ P.numBlocks ≤ s.samples.length ∨
        s.workers = pre ++ .awake b :: post) →
      s.locked = false → s.counting = true →
      Step P s .internal { s with locked := true, workers := pre ++ .append b true :: post }
  /-- electron.cpp:635 with a position outside of the scan -/
  | appendOut {s : State Θ} {b : Blk} {hold : Bool} {pre post : List Worker} : s.ub = false →
      s.workers = pre ++ .append b hold :: post → s.events.length ≤ b.pos →
      Step P s .internal { s with ub := true }
  /-- electron.cpp:638-640: the position is locked, `push_back` begins -/
  | append {s : State Θ} {b : Blk} {hold : Bool} {pre post : List Worker} : s.ub = false →
      s.workers = pre ++ .append b hold :: post → b.pos < s.events.length →
      (∀ w ∈ pre ++ post, pushesAt b.pos w = false) → mainPushesAt b.pos s.main = false →
      Step P s .internal { s with workers := pre ++ .pushing b hold :: post }
  /-- the same while the calling thread appends to this list: data race -/
  | appendRace {s : State Θ} {b : Blk} {hold : Bool} {pre post : List Worker} : s.ub = false →
      s.workers = pre ++ .append b hold :: post → b.pos < s.events.length →
      (∀ w ∈ pre ++ post, pushesAt b.pos w = false) → mainPushesAt b.pos s.main = true →
      Step P s .internal { s with ub := true }
  /-- end of `push_back`; thresholds that were never set would be an uninitialised read -/
  | push {s : State Θ} {b : Blk} {hold : Bool} {θ : Θ} {pre post : List Worker} : s.ub = false →
      s.workers = pre ++ .pushing b hold :: post → s.thresholds = some θ →
      Step P s .internal { s with events := pushEvents P s θ b, counted := s.counted ++ [b],
                                  locked := if hold then false else s.locked,
                                  workers := pre ++ .idle :: post }
  | pushUb {s : State Θ} {b : Blk} {hold : Bool} {pre post : List Worker} : s.ub = false →
      s.workers = pre ++ .pushing b hold :: post → s.thresholds = none →
      Step P s .internal { s with ub := true }
  /-- electron.cpp:687-691, predicate false -/
  | mainSleep {s : State Θ} : s.ub = false → (s.main = .start ∨ s.main = .awake) → s.locked = false →
      s.samples.length ≠ P.numBlocks → Step P s .internal { s with main := .asleep }
  /-- electron.cpp:687-691, predicate true -/
  | mainLock {s : State Θ} : s.ub = false → (s.main = .start ∨ s.main = .awake) → s.locked = false →
      s.samples.length = P.numBlocks → Step P s .internal { s with main := .holding, locked := true }
  /-- electron.cpp:703-755 -/
  | mainStart {s : State Θ} : s.ub = false → s.main = .holding → s.samples ≠ [] →
      Step P s .internal { s with thresholds := some (P.threshold s.samples),
                                  events := List.replicate P.positions [],
                                  counting := true, main := .started }
  /-- electron.cpp:742 without any sample -/
  | mainUb {s : State Θ} : s.ub = false → s.main = .holding → s.samples = [] →
      Step P s .internal { s with ub := true }
  /-- electron.cpp:756 -/
  | mainUnlock {s : State Θ} : s.ub = false → s.main = .started →
      Step P s .internal { s with locked := false, main := .notify }
  /-- electron.cpp:757 -/
  | mainNotify {s : State Θ} : s.ub = false → s.main = .notify →
      Step P s .internal { s with workers := s.workers.map wakeWorker,
                                  main := .extra (s.samples.take P.numBlocks) false }
  /-- electron.cpp:776 with a position outside of the scan -/
  | extraOut {s : State Θ} {b : Blk} {todo : List Blk} {second : Bool} : s.ub = false →
      s.main = .extra (b :: todo) second → s.events.length ≤ b.pos →
      Step P s .internal { s with ub := true }
  /-- electron.cpp:776: `push_back` begins (no lock) -/
  | extra {s : State Θ} {b : Blk} {todo : List Blk} {second : Bool} : s.ub = false →
      s.main = .extra (b :: todo) second → b.pos < s.events.length →
      (∀ w ∈ s.workers, pushesAt b.pos w = false) →
      Step P s .internal { s with main := .pushing b todo second }
  /-- the same while a worker appends to this list: data race -/
  | extraRace {s : State Θ} {b : Blk} {todo : List Blk} {second : Bool} {w : Worker} : s.ub = false →
      s.main = .extra (b :: todo) second → b.pos < s.events.length →
      w ∈ s.workers → pushesAt b.pos w = true →
      Step P s .internal { s with ub := true }
  /-- end of `push_back` -/
  | mainPush {s : State Θ} {b : Blk} {todo : List Blk} {second : Bool} {θ : Θ} : s.ub = false →
      s.main = .pushing b todo second → s.thresholds = some θ →
      Step P s .internal { s with events := pushEvents P s θ b, counted := s.counted ++ [b],
                                  main := .extra todo second }
  | mainPushUb {s : State Θ} {b : Blk} {todo : List Blk} {second : Bool} : s.ub = false →
      s.main = .pushing b todo second → s.thresholds = none →
      Step P s .internal { s with ub := true }
  /-- electron.cpp:787: second loop -/
  | mainSecond {s : State Θ} : s.ub = false → s.main = .extra [] false →
      Step P s .internal { s with main := .extra s.incomplete true }
  /-- end of the loops -/
  | mainJoin {s : State Θ} : s.ub = false → s.main = .extra [] true →
      Step P s .internal { s with main := .join }
  /-- electron.cpp:793-835 -/
  | mainDone {s : State Θ} : s.ub = false → s.main = .join → (∀ w ∈ s.workers, w = .exited) →
      Step P s .internal { s with main := .done (padEvents s.events) }
  /-- spurious wake-ups -/
  | spurious {s : State Θ} {b : Blk} {pre post : List Worker} : s.ub = false →
      s.workers = pre ++ .asleep b :: post →
      Step P s .spurious { s with workers := pre ++ .awake b :: post }
  | mainSpurious {s : State Θ} : s.ub = false → s.main = .asleep →
      Step P s .spurious { s with main := .awake }

end Stempy.Streaming
