import Verif.Model.MultiPass
import Verif.Model.ThreadedReader

/-!
# Reading again with a SectorStreamThreadedReader: stempy/reader.h:378-481, stempy/reader.cpp:557-567

`reset` opens the files again; the cached frames (`m_frameCache`) and the futures of the former call (`m_futures`) stay. The calls follow
each other: `readAll` replaces the pool, whose destructor waits for the tasks of the former call.
-/

namespace Stempy.ThreadedAgain
open ThreadedReader (Entry Obj Block State Step)
open MultiPass (Future)
open Spec

variable {D : Type}

/-- What stays between the calls. -/
structure Reader (D : Type) where
  streams : List (Entry D)
  cache : Nat → Option (Obj D)
  futures : List Future

def opened (files : List (Entry D)) : Reader D := ⟨files, fun _ => none, []⟩

/-- reader.cpp:557-567 -/
def Reader.reset (files : List (Entry D)) (r : Reader D) : Reader D := { r with streams := files }

/-- reader.h:380-393: the state in which the tasks start. -/
def Reader.start (threads : Nat) (r : Reader D) : State D := { ThreadedReader.init threads r.streams with cache := r.cache }

/-- A call of `readAll`, until all tasks have returned: the frames given to the function, and the reader then. The streams were
removed one by one. -/
inductive Pass (threads : Nat) : Reader D → List (Block D) → Reader D → Prop where
  | mk {r : Reader D} {s : State D} : Reach Step (r.start threads) s → (∀ w ∈ s.workers, w = .exited) →
      Pass threads r s.delivered ⟨[], s.cache, (MultiPass.readAllFutures threads r.futures).1⟩

/-- What the future returned by `readAll` gives, reader.h:474-478. -/
def Reader.waits (threads : Nat) (r : Reader D) : Outcome Unit := (MultiPass.readAllFutures threads r.futures).2

/-- Calls of `readAll`, with a rewind before each: the frames of each call. -/
inductive Passes (threads : Nat) (files : List (Entry D)) : List (List (Block D)) → Reader D → Prop where
  | new : Passes threads files [] (opened files)
  | again {ds : List (List (Block D))} {r r' : Reader D} {d : List (Block D)} : Passes threads files ds r →
      Pass threads (r.reset files) d r' → Passes threads files (ds ++ [d]) r'

end Stempy.ThreadedAgain
