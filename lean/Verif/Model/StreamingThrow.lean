import Verif.Model.Streaming

/-!
# Streaming electron counting when the thresholds cannot be computed: stempy/electron.cpp:684-711, stempy/electronthresholds.cpp:166-168

`calculateThresholds` throws if the fit does not converge (or if the number of bins is negative, electronthresholds.cpp:132-133).
It is called by the calling thread, which owns `sampleMutex`, while the workers of the reader go on. `electronCount` has no handler,
so its variables are destroyed: `threshold`, `lock` (which unlocks the mutex), `done` (a future of `std::launch::deferred`: its
function, which would wait for the workers, is not run), `counter`, `countBlock`, the blocks, `sampleCondition`, `sampleMutex`, the
atomic flag and the events. The workers have references to all of these (reader.h:393, 823, electron.cpp:615-646).
-/

namespace Stempy.StreamingThrow
open Stempy.Streaming

/-- The threads, and whether the call has been left by the exception. -/
structure State (Θ : Type) where
  run : Streaming.State Θ
  thrown : Bool

def init {Θ : Type} (P : Params Θ) (blocks : List Blk) : State Θ := ⟨Streaming.init P blocks, false⟩

/-- The worker is between two blocks, so it uses variables of the reader only. -/
def inReader : Worker → Bool
  | .idle => true
  | .exited => true
  | _ => false

def sleeps : Worker → Bool
  | .asleep _ => true
  | _ => false

/-- `fails samples`: the computation of the thresholds from these samples throws. -/
inductive Step {Θ : Type} (P : Params Θ) (fails : List Blk → Bool) : State Θ → Label → State Θ → Prop where
  /-- As without exceptions; the calling thread does not get past the computation if it throws. -/
  | run {s t : Streaming.State Θ} {l : Label} : Streaming.Step P s l t →
      (s.main = .holding → fails s.samples = true → t.main = .holding) →
      Step P fails ⟨s, false⟩ l ⟨t, false⟩
  /-- electron.cpp:708 throws -/
  | throws {s : Streaming.State Θ} : s.ub = false → s.main = .holding → s.samples ≠ [] → fails s.samples = true →
      (∀ w ∈ s.workers, sleeps w = false) →
      Step P fails ⟨s, false⟩ .internal ⟨{ s with locked := false }, true⟩
  /-- the same, with a worker in `sampleCondition.wait`: the condition variable must not be destroyed -/
  | throwsUb {s : Streaming.State Θ} {w : Worker} : s.ub = false → s.main = .holding → s.samples ≠ [] → fails s.samples = true →
      w ∈ s.workers → sleeps w = true →
      Step P fails ⟨s, false⟩ .internal ⟨{ s with locked := false, ub := true }, true⟩
  /-- afterwards: a worker of the reader returns -/
  | exit {s : Streaming.State Θ} {pre post : List Worker} : s.ub = false → s.workers = pre ++ .idle :: post → s.pending = [] →
      Step P fails ⟨s, true⟩ .internal ⟨{ s with workers := pre ++ .exited :: post }, true⟩
  /-- afterwards: a worker calls `counter`, which has been destroyed -/
  | call {s : Streaming.State Θ} {b : Blk} {p1 p2 : List Blk} {pre post : List Worker} : s.ub = false →
      s.workers = pre ++ .idle :: post → s.pending = p1 ++ b :: p2 →
      Step P fails ⟨s, true⟩ .internal ⟨{ s with ub := true }, true⟩
  /-- afterwards: a worker goes on in `counter` with references to destroyed variables -/
  | use {s : Streaming.State Θ} {w : Worker} : s.ub = false → w ∈ s.workers → inReader w = false →
      Step P fails ⟨s, true⟩ .internal ⟨{ s with ub := true }, true⟩

end Stempy.StreamingThrow
