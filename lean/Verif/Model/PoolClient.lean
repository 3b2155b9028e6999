import Verif.Model.Pool

/-!
Model of the life times of the pool and the result in `createSTEMImages` (stempy/image.cpp:162-277) and
`radialSum` (stempy/image.cpp:477-581).
-/

namespace Stempy.PoolClient
open Stempy.Pool

/-- Destruction of a local variable. -/
inductive Cleanup where
  | pool
  | result
  deriving Repr, DecidableEq

/-- Order of destruction (reverse of the declarations) in `createSTEMImages`: `images` (image.cpp:199) is declared
before `pool` (image.cpp:230). -/
def stemOrder : List Cleanup := [.pool, .result]

/-- Order of destruction in `radialSum`: `pool` (image.cpp:531) is declared before `radialSum` (image.cpp:532). -/
def radialOrder : List Cleanup := [.result, .pool]

/-- Where the calling thread is: submitting the tasks of the remaining blocks, running destructors because
`++first` or `*first` has thrown (`unwind`), waiting in the destructor of the pool, or after the function.
`returned` means the normal return, with the result handed to the caller; on that path the pool is still
destroyed, but all futures are ready before (image.cpp:271-272, 577-578). -/
inductive Client where
  | submit (tasks : List Nat)
  | unwind (todo : List Cleanup)
  | joinPool (todo : List Cleanup)
  | failed
  | returned
  deriving Repr, DecidableEq

structure State where
  pool : Pool.State
  client : Client
  live : Bool
  deriving Repr, DecidableEq

/-- Start of the loop with the tasks to submit if no error occurs. -/
def init (threads : Nat) (tasks : List Nat) : State where
  pool := Pool.init threads
  client := .submit tasks
  live := true

/-- Steps; `order` is the order of destruction of the locals. -/
inductive Step (order : List Cleanup) : State → Unit → State → Prop where
  /-- The workers run (and spurious wake-ups occur) at any time. -/
  | internal {s : State} {p : Pool.State} : Pool.Step s.pool .internal p →
      Step order s () { s with pool := p }
  | spurious {s : State} {p : Pool.State} : Pool.Step s.pool .spurious p →
      Step order s () { s with pool := p }
  /-- `pool.enqueue`, image.cpp:255-262, 563-570. -/
  | submit {s : State} {t : Nat} {ts : List Nat} {p : Pool.State} : s.client = .submit (t :: ts) →
      Pool.Step s.pool (.enqueue t) p → Step order s () { s with pool := p, client := .submit ts }
  /-- Reading the next block throws. -/
  | error {s : State} {t : Nat} {ts : List Nat} : s.client = .submit (t :: ts) →
      Step order s () { s with client := .unwind order }
  /-- All futures are ready: normal return. -/
  | return_ {s : State} : s.client = .submit [] → s.pool.finished.Perm s.pool.accepted →
      Step order s () { s with client := .returned }
  /-- The result is destroyed. -/
  | freeResult {s : State} {todo : List Cleanup} : s.client = .unwind (.result :: todo) →
      Step order s () { s with client := .unwind todo, live := false }
  /-- The destructor of the pool starts ... -/
  | destroyPool {s : State} {todo : List Cleanup} {p : Pool.State} :
      s.client = .unwind (.pool :: todo) → Pool.Step s.pool .destroy p →
      Step order s () { s with pool := p, client := .joinPool todo }
  /-- ... and returns. -/
  | joinedPool {s : State} {todo : List Cleanup} : s.client = .joinPool todo →
      s.pool.phase = .destroyed → Step order s () { s with client := .unwind todo }
  /-- The exception leaves the function. -/
  | rethrow {s : State} : s.client = .unwind [] → Step order s () { s with client := .failed }

end Stempy.PoolClient
