import Verif.Model.MpiCounting

/-!
# Counting on several MPI ranks when the thresholds cannot be computed: stempy/electron.cpp:695-739, stempy/electron_mpi.cpp:185-211

Only rank 0 computes the thresholds, after it has the samples of all ranks. If `calculateThresholds` throws there
(electronthresholds.cpp:132-133, 166-168), the exception leaves `electronCount` on rank 0 before `broadcastThresholds`. What the threads
of rank 0 do after that is in `StreamingThrow` (C84); here rank 0 does nothing any more, in particular no MPI call. The other
ranks are in `MPI_Bcast`, the threads of their pools go on.
-/

namespace Stempy.MpiThrow
open Stempy.MpiCounting
open Stempy.MultiPass (ScanMap)
open Stempy.CountingReader (Call)

variable {D Θ : Type}

/-- The ranks, and whether rank 0 has been left by the exception. -/
structure State (D Θ : Type) where
  run : MpiCounting.State D Θ
  thrown : Bool

def init (K : Call D Θ) (worldSize : Nat) (at_ : Nat → Nat → Nat) : State D Θ := ⟨MpiCounting.init K worldSize at_, false⟩

/-- `fails samples`: the computation of the thresholds from these samples throws. -/
inductive Step (K : Call D Θ) (fails : List Streaming.Blk → Bool) (worldSize : Nat) (files : List (MultiPass.File D))
    (maps : Nat → ScanMap) : State D Θ → MpiCounting.Label → State D Θ → Prop where
  /-- As without exceptions; rank 0 does not get past the computation if it throws. -/
  | run {z z' : MpiCounting.State D Θ} {l} : MpiCounting.Step K worldSize files maps z l z' →
      (z.broadcast = none → z'.broadcast ≠ none → fails (gathered worldSize z) = false) →
      Step K fails worldSize files maps ⟨z, false⟩ l ⟨z', false⟩
  /-- electron.cpp:706 throws -/
  | throws {z : MpiCounting.State D Θ} : (∀ r < worldSize, (z.ranks r).counting.main = .holding ∧ (z.ranks r).counting.ub = false) →
      0 < worldSize → gathered worldSize z ≠ [] → fails (gathered worldSize z) = true →
      Step K fails worldSize files maps ⟨z, false⟩ .mpi ⟨z, true⟩
  /-- afterwards: the other ranks and the messages between them -/
  | others {z z' : MpiCounting.State D Θ} {l} : MpiCounting.Step K worldSize files maps z l z' →
      z'.ranks 0 = z.ranks 0 → z'.broadcast = z.broadcast → z'.gathering = z.gathering → z'.result = z.result →
      Step K fails worldSize files maps ⟨z, true⟩ l ⟨z', true⟩

end Stempy.MpiThrow
