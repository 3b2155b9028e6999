import Verif.Spec.Transition

/-!
Model of `thirdparty/ThreadPool/ThreadPool.h`.

Everything done while holding `queue_mutex` is one atomic step (all accesses to `tasks` and `stop` are under
that mutex). `condition.wait` releases the mutex and goes to sleep atomically. A task is an identifier of type
`Nat`; executing it takes one step of its own (`finish`), between which any other thread may run. A task that throws
is not distinguished: `packaged_task` stores the exception, the worker goes on.
-/

namespace Stempy.Pool

/-- Where a worker thread is, ThreadPool.h:41-56: before taking the lock and testing the predicate (`ready`; also
after a wake-up), blocked in `condition.wait` (`asleep`), executing `task()`, or returned. -/
inductive Worker where
  | ready
  | asleep
  | running (t : Nat)
  | exited
  deriving Repr, DecidableEq

/-- Progress of the destructor, ThreadPool.h:87-96: not called, `stop` set but `notify_all` not yet called,
joining, returned. -/
inductive Phase where
  | live
  | stopped
  | joining
  | destroyed
  deriving Repr, DecidableEq

/-- State of the pool. `notifies` counts the `enqueue` calls that have pushed their task but not yet called
`notify_one`. `accepted`, `rejected`, `started`, `finished` are a history: tasks in the order in which they
were accepted by / rejected from `enqueue`, taken from the queue, and run to the end. -/
structure State where
  queue : List Nat
  stop : Bool
  workers : List Worker
  notifies : Nat
  phase : Phase
  accepted : List Nat
  rejected : List Nat
  started : List Nat
  finished : List Nat
  deriving Repr, DecidableEq

/-- The constructor, ThreadPool.h:34-59. -/
def init (threads : Nat) : State where
  queue := []
  stop := false
  workers := List.replicate threads .ready
  notifies := 0
  phase := .live
  accepted := []
  rejected := []
  started := []
  finished := []

/-- Kinds of steps. `enqueue` and `destroy` are decisions of the client, `spurious` is a wake-up without a
notification. -/
inductive Label where
  | enqueue (t : Nat)
  | destroy
  | spurious
  | internal
  deriving Repr, DecidableEq

/-- One worker leaves `condition.wait`. -/
def wake : Worker → Worker
  | .asleep => .ready
  | w => w

/-- One step of some thread. -/
inductive Step : State → Label → State → Prop where
  /-- `enqueue`, ThreadPool.h:74-81: accepted, the notification is still to come. -/
  | accept {s : State} (t : Nat) : s.phase ≠ .destroyed → s.stop = false →
      Step s (.enqueue t)
        { s with queue := s.queue ++ [t], accepted := s.accepted ++ [t], notifies := s.notifies + 1 }
  /-- `enqueue` on a stopped pool throws, ThreadPool.h:77-78. -/
  | reject {s : State} (t : Nat) : s.phase ≠ .destroyed → s.stop = true →
      Step s (.enqueue t) { s with rejected := s.rejected ++ [t] }
  /-- `notify_one`, ThreadPool.h:82, with a sleeping worker: any one of them wakes up. -/
  | notify {s : State} {n : Nat} {pre post : List Worker} : s.notifies = n + 1 →
      s.workers = pre ++ .asleep :: post →
      Step s .internal { s with notifies := n, workers := pre ++ .ready :: post }
  /-- `notify_one` while no worker sleeps has no effect. -/
  | notifyNone {s : State} {n : Nat} : s.notifies = n + 1 → Worker.asleep ∉ s.workers →
      Step s .internal { s with notifies := n }
  /-- Wait with a false predicate, ThreadPool.h:46-48: the worker goes to sleep. -/
  | sleep {s : State} {pre post : List Worker} : s.workers = pre ++ .ready :: post →
      s.stop = false → s.queue = [] →
      Step s .internal { s with workers := pre ++ .asleep :: post }
  /-- Stop requested and no task left, ThreadPool.h:49-50. -/
  | exit {s : State} {pre post : List Worker} : s.workers = pre ++ .ready :: post →
      s.stop = true → s.queue = [] →
      Step s .internal { s with workers := pre ++ .exited :: post }
  /-- Take the first task, ThreadPool.h:51-52. -/
  | take {s : State} {t : Nat} {q : List Nat} {pre post : List Worker} :
      s.workers = pre ++ .ready :: post → s.queue = t :: q →
      Step s .internal { s with queue := q, workers := pre ++ .running t :: post,
                                started := s.started ++ [t] }
  /-- `task()` returns, ThreadPool.h:55. -/
  | finish {s : State} {t : Nat} {pre post : List Worker} : s.workers = pre ++ .running t :: post →
      Step s .internal { s with workers := pre ++ .ready :: post, finished := s.finished ++ [t] }
  /-- Spurious wake-up. -/
  | spurious {s : State} {pre post : List Worker} : s.workers = pre ++ .asleep :: post →
      Step s .spurious { s with workers := pre ++ .ready :: post }
  /-- The destructor sets `stop`, ThreadPool.h:89-92. -/
  | destroy {s : State} : s.phase = .live →
      Step s .destroy { s with stop := true, phase := .stopped }
  /-- `notify_all`, ThreadPool.h:93. -/
  | notifyAll {s : State} : s.phase = .stopped →
      Step s .internal { s with phase := .joining, workers := s.workers.map wake }
  /-- All workers joined, ThreadPool.h:94-95: the destructor returns. -/
  | joined {s : State} : s.phase = .joining → (∀ w ∈ s.workers, w = .exited) →
      Step s .internal { s with phase := .destroyed }

end Stempy.Pool
