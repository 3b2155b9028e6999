import Verif.Model.MpiThrow
import Verif.Props.MpiCounting

/-!
# C112: if the thresholds cannot be computed, the exception has to end the counting on all ranks

It ends it on rank 0 only: the other ranks wait for the thresholds forever.
-/

namespace Stempy.Props.MpiThrow
open Stempy.Spec
open Stempy.MpiCounting
open Stempy.CountingReader (Call)
open Stempy.MultiPass (ScanMap File)

variable {D Θ : Type} {K : Call D Θ} {fails : List Streaming.Blk → Bool} {ws : Nat} {files : List (File D)} {maps : Nat → ScanMap}
  {at_ : Nat → Nat → Nat}

/-- The calling threads of the other ranks are in `MPI_Bcast`, and rank 0 has neither sent thresholds nor returned. -/
def Waiting (ws : Nat) (z : MpiCounting.State D Θ) : Prop :=
  z.broadcast = none ∧ z.gathering = none ∧ z.result = none ∧ ∀ r < ws, (z.ranks r).counting.main = .holding

theorem waiting_step {z z' : MpiCounting.State D Θ} {l : MpiCounting.Label} (hz : Waiting ws z) (hs : MpiCounting.Step K ws files maps z l z')
    (hb : z'.broadcast = z.broadcast) : Waiting ws z' := by
  obtain ⟨h1, h2, h3, h4⟩ := hz
  cases hs with
  | @rank r l x' hr hst hal =>
    refine ⟨h1, h2, h3, fun i hi => ?_⟩
    show (if i = r then x' else z.ranks i).counting.main = _
    by_cases e : i = r
    · rw [if_pos e]; exact (hal.1 (h4 r hr)).1
    · rw [if_neg e]; exact h4 i hi
  | compute _ _ _ =>
    rw [h1] at hb
    cases hb
  | computeUb _ hw _ =>
    refine ⟨h1, h2, h3, fun i hi => ?_⟩
    show (if i = 0 then _ else z.ranks i).counting.main = _
    by_cases e : i = 0
    · rw [if_pos e]; exact h4 0 hw
    · rw [if_neg e]; exact h4 i hi
  | receive _ _ _ _ h _ => rw [h1] at h; cases h
  | receiveUb _ _ _ _ h _ => rw [h1] at h; cases h
  | send _ hr _ hm _ => rw [h4 _ hr] at hm; cases hm
  | gather hw _ hm _ _ => rw [h4 0 hw] at hm; cases hm
  | recv _ h _ _ _ => rw [h2] at h; cases h
  | recvFail _ h _ _ _ => rw [h2] at h; cases h
  | finish _ h _ => rw [h2] at h; cases h

/-- The steps of the ranks, without that of the exception, are those of `MpiCounting`. -/
theorem run_of (hn : 0 < K.threads) (hN : ws ≤ K.numBlocks) {x : MpiThrow.State D Θ} {ls : List MpiCounting.Label}
    (h : Run (MpiThrow.Step K fails ws files maps) (MpiThrow.init K ws at_) ls x) :
    ∃ ls', Run (MpiCounting.Step K ws files maps) (MpiCounting.init K ws at_) ls' x.run ∧
      ls.length = ls'.length + (if x.thrown then 1 else 0) ∧ ls'.countP isSpurious = ls.countP isSpurious ∧
      (x.thrown = true → Waiting ws x.run) := by
  generalize hx : MpiThrow.init K ws at_ = x0 at h
  induction h with
  | nil => subst hx; exact ⟨[], .nil _, rfl, rfl, by simp [MpiThrow.init]⟩
  | snoc _ h2 ih =>
    obtain ⟨ls', i1, i2, i3, i4⟩ := ih
    cases h2 with
    | run hs _ =>
      refine ⟨_, i1.snoc hs, ?_, ?_, by simp⟩
      · simp only [List.length_append, i2]; simp
      · simp only [List.countP_append, i3]
    | @throws z hm hw hg hf =>
      have I := inv_run hn (shares_pos hN) i1
      refine ⟨ls', i1, by simp only [List.length_append, i2]; simp, ?_, fun _ => ?_⟩
      · rw [List.countP_append, i3]; rfl
      · have hb : ∀ z : MpiCounting.State D Θ, z.broadcast ≠ none ∨ z.broadcast = none := fun z => by
          cases z.broadcast <;> simp
        refine ⟨?_, ?_, ?_, fun r hr => (hm r hr).1⟩
        · rcases hb _ with h | h
          · have := (I.root h).2
            simp only [(hm 0 hw).1] at this
            cases this
          · exact h
        · simp only
          cases hgz : z.gathering with
          | none => rfl
          | some g =>
            obtain ⟨k, ev⟩ := g
            have := (I.gath k ev hgz).2.1
            simp only [(hm 0 hw).1] at this
            cases this
        · simp only
          cases hr : z.result with
          | none => rfl
          | some d =>
            obtain ⟨ev, hgz, -⟩ := I.res d hr
            have := (I.gath _ ev hgz).2.1
            simp only [(hm 0 hw).1] at this
            cases this
    | others hs h0 hb hg hr =>
      refine ⟨_, i1.snoc hs, ?_, ?_, fun _ => waiting_step (i4 rfl) hs hb⟩
      · simp only [List.length_append, i2]; simp
      · simp only [List.countP_append, i3]

/-- C112 is false on two ranks and more: in every execution in which the exception leaves rank 0, the calling thread of every other rank is in
`MPI_Bcast`, and stays there, whatever the threads do. -/
theorem C112_false (hn : 0 < K.threads) (hN : ws ≤ K.numBlocks) {x y : MpiThrow.State D Θ}
    (hx : Reach (MpiThrow.Step K fails ws files maps) (MpiThrow.init K ws at_) x) (hth : x.thrown = true)
    (hy : Reach (MpiThrow.Step K fails ws files maps) x y) :
    y.thrown = true ∧ y.run.result = none ∧ y.run.broadcast = none ∧
      ∀ r < ws, (y.run.ranks r).counting.main = .holding ∧ ∀ d, (y.run.ranks r).counting.main ≠ .done d := by
  obtain ⟨ls, hx⟩ := hx
  obtain ⟨ls2, hy⟩ := hy
  have hth' : y.thrown = true := by
    clear hx
    induction hy with
    | nil => exact hth
    | snoc _ h2 ih =>
      cases h2 with
      | run _ _ => exact absurd ih (by simp)
      | throws _ _ _ _ => rfl
      | others _ _ _ _ _ => rfl
  have hxy := hx.trans hy
  obtain ⟨_, _, _, _, h⟩ := run_of hn hN hxy
  obtain ⟨h1, _, h3, h4⟩ := h hth'
  exact ⟨hth', h3, h1, fun r hr => ⟨h4 r hr, fun d hd => by rw [h4 r hr] at hd; cases hd⟩⟩

/-- Rank 0 has left the call with the exception: nothing it has changes any more. -/
theorem C112_left {x y : MpiThrow.State D Θ} (hth : x.thrown = true) (hy : Reach (MpiThrow.Step K fails ws files maps) x y) :
    y.run.ranks 0 = x.run.ranks 0 := by
  obtain ⟨ls, hy⟩ := hy
  have : y.thrown = true ∧ y.run.ranks 0 = x.run.ranks 0 := by
    induction hy with
    | nil => exact ⟨hth, rfl⟩
    | snoc _ h ih =>
      cases h with
      | run _ _ => cases ih.1
      | throws _ _ _ _ => cases ih.1
      | others _ h0 _ _ _ => exact ⟨rfl, h0.trans ih.2⟩
  exact this.2

/-- So all calls end exactly if there is one rank only. -/
theorem C112_iff (hn : 0 < K.threads) (hN : ws ≤ K.numBlocks) (hws : 0 < ws) {x : MpiThrow.State D Θ}
    (hx : Reach (MpiThrow.Step K fails ws files maps) (MpiThrow.init K ws at_) x) (hth : x.thrown = true) :
    (∃ y, Reach (MpiThrow.Step K fails ws files maps) x y ∧ ∀ r, 0 < r → r < ws → ∃ d, (y.run.ranks r).counting.main = .done d) ↔ ws = 1 := by
  constructor
  · rintro ⟨y, hy, h⟩
    by_contra hne
    obtain ⟨d, hd⟩ := h 1 (by omega) (by omega)
    exact ((C112_false hn hN hx hth hy).2.2.2 1 (by omega)).2 d hd
  · rintro rfl
    exact ⟨x, ⟨[], .nil _⟩, fun r h1 h2 => absurd h1 (by omega)⟩

/-- If the computation throws for all samples, nothing is broadcast. -/
theorem broadcast_none (hf : ∀ l, fails l = true) {x : MpiThrow.State D Θ} {ls : List MpiCounting.Label}
    (h : Run (MpiThrow.Step K fails ws files maps) (MpiThrow.init K ws at_) ls x) : x.run.broadcast = none := by
  generalize hx : MpiThrow.init K ws at_ = x0 at h
  induction h with
  | nil => subst hx; rfl
  | snoc _ h2 ih =>
    cases h2 with
    | run hs hok =>
      by_contra hc
      have := hok ih hc
      rw [hf] at this
      cases this
    | throws _ _ _ _ => exact ih
    | others _ _ hb _ _ => simp only at ih ⊢; rw [hb]; exact ih

/-- No deadlock before: as long as rank 0 has neither returned nor thrown, some thread can take a step. -/
theorem C112_progress (hn : 0 < K.threads) (hws : 0 < ws) (hN : ws ≤ K.numBlocks) (hidx : ∀ r < ws, IsIndex files 0 files.length (maps r))
    (hC : ∀ r < ws, HasComplete files 0 files.length (firstPosition K.positions ws r) (endPosition K.positions ws r)
      (Mpi.sampleBlocksPerRank ws r K.numBlocks))
    {x : MpiThrow.State D Θ} (h : Reach (MpiThrow.Step K fails ws files maps) (MpiThrow.init K ws at_) x)
    (hub : ∀ r < ws, (x.run.ranks r).counting.ub = false) (hf : x.run.failed = false) (hd : x.run.result = none) (hth : x.thrown = false) :
    ∃ l y, MpiThrow.Step K fails ws files maps x l y ∧ isSpurious l = false := by
  obtain ⟨ls, h⟩ := h
  obtain ⟨ls', h1, -⟩ := run_of hn hN h
  obtain ⟨z, t⟩ := x
  simp only at hth hub hf hd h1
  subst hth
  obtain ⟨l, z', hs, hl⟩ := C91_progress K hn ws hws hN files maps at_ hidx hC ⟨ls', h1⟩ hub hf hd
  by_cases hc : z.broadcast = none ∧ z'.broadcast ≠ none ∧ fails (gathered ws z) = true
  · obtain ⟨hb, hb', hfl⟩ := hc
    cases hs with
    | rank _ _ _ => exact absurd hb hb'
    | compute hm hw hg => exact ⟨_, _, .throws hm hw hg hfl, rfl⟩
    | computeUb _ _ _ => exact absurd hb hb'
    | receive _ _ _ _ _ _ => exact absurd hb hb'
    | receiveUb _ _ _ _ _ _ => exact absurd hb hb'
    | send _ _ _ _ _ => exact absurd hb hb'
    | gather _ _ _ _ _ => exact absurd hb hb'
    | recv _ _ _ _ _ => exact absurd hb hb'
    | recvFail _ _ _ _ _ => exact absurd hb hb'
    | finish _ _ _ => exact absurd hb hb'
  · refine ⟨l, ⟨z', false⟩, .run hs fun h1 h2 => ?_, hl⟩
    by_contra h3
    exact hc ⟨h1, h2, by simpa using h3⟩

/-- Termination, also of the threads of the other ranks. -/
theorem C112_termination (hn : 0 < K.threads) (hN : ws ≤ K.numBlocks) {x : MpiThrow.State D Θ} {ls : List MpiCounting.Label}
    (h : Run (MpiThrow.Step K fails ws files maps) (MpiThrow.init K ws at_) ls x) :
    ls.length ≤ ((List.range ws).map (rankSteps K ws maps)).sum + ws + 3 + 2 * ls.countP isSpurious := by
  obtain ⟨ls', h1, h2, h3, -⟩ := run_of hn hN h
  have := C91_termination K hn ws hN files maps at_ h1
  rw [h3] at this
  split at h2 <;> omega

/-- If the thresholds cannot be computed from any samples, every execution that has come to its end (nobody can take a step except for spurious wake-ups) has
left rank 0 by the exception, with all other ranks waiting. -/
theorem C112_certain (hn : 0 < K.threads) (hws : 0 < ws) (hN : ws ≤ K.numBlocks) (hidx : ∀ r < ws, IsIndex files 0 files.length (maps r))
    (hfit : CountFits K files)
    (hone : ∀ i j r i' j' r' p f f' sec sec', IsRecord files i j r p f sec → IsRecord files i' j' r' p f' sec' → f = f')
    (hC : ∀ r < ws, HasComplete files 0 files.length (firstPosition K.positions ws r) (endPosition K.positions ws r)
      (Mpi.sampleBlocksPerRank ws r K.numBlocks))
    (hf : ∀ l, fails l = true)
    {x : MpiThrow.State D Θ} (h : Reach (MpiThrow.Step K fails ws files maps) (MpiThrow.init K ws at_) x)
    (hend : ∀ l y, MpiThrow.Step K fails ws files maps x l y → isSpurious l = true) :
    x.thrown = true ∧ ∀ r < ws, (x.run.ranks r).counting.main = .holding := by
  obtain ⟨ls, h⟩ := h
  obtain ⟨ls', h1, -, -, h4⟩ := run_of hn hN h
  have hr : Reach (MpiCounting.Step K ws files maps) (MpiCounting.init K ws at_) x.run := ⟨ls', h1⟩
  have hth : x.thrown = true := by
    by_contra hc
    have hc : x.thrown = false := by simpa using hc
    have hres : x.run.result = none := by
      have I := inv_run hn (shares_pos hN) h1
      cases hres : x.run.result with
      | none => rfl
      | some d =>
        obtain ⟨ev, hg, -⟩ := I.res d hres
        have hm := (I.gath _ ev hg).2.1
        have := I.quiet (broadcast_none hf h) 0 hws
        rw [hm] at this
        cases this
    obtain ⟨l, y, hs, hl⟩ := C112_progress (fails := fails) hn hws hN hidx hC ⟨ls, h⟩
      (fun r hr' => C91_race_free_partial K hn ws hN files maps at_ hidx hone hr hr')
      (C91_no_failure K hn ws hN files maps at_ hidx hfit hr) hres hc
    rw [hend l y hs] at hl
    cases hl
  exact ⟨hth, (h4 hth).2.2.2⟩

/-- And there is such an execution, on every number of ranks. -/
theorem C112_exists (hn : 0 < K.threads) (hws : 0 < ws) (hN : ws ≤ K.numBlocks) (hidx : ∀ r < ws, IsIndex files 0 files.length (maps r))
    (hfit : CountFits K files)
    (hone : ∀ i j r i' j' r' p f f' sec sec', IsRecord files i j r p f sec → IsRecord files i' j' r' p f' sec' → f = f')
    (hC : ∀ r < ws, HasComplete files 0 files.length (firstPosition K.positions ws r) (endPosition K.positions ws r)
      (Mpi.sampleBlocksPerRank ws r K.numBlocks))
    (hf : ∀ l, fails l = true) :
    ∃ x, Reach (MpiThrow.Step K fails ws files maps) (MpiThrow.init K ws at_) x ∧ x.thrown = true := by
  let st : MpiThrow.State D Θ → MpiCounting.Label → MpiThrow.State D Θ → Prop :=
    fun x l y => MpiThrow.Step K fails ws files maps x l y ∧ isSpurious l = false
  have weak : ∀ {ls y}, Run st (MpiThrow.init K ws at_) ls y →
      Run (MpiThrow.Step K fails ws files maps) (MpiThrow.init K ws at_) ls y ∧ ls.countP isSpurious = 0 := by
    intro ls y h
    induction h with
    | nil => exact ⟨.nil _, rfl⟩
    | snoc _ h2 ih =>
      refine ⟨ih.1.snoc h2.1, ?_⟩
      rw [List.countP_append, ih.2, List.countP_singleton, h2.2]
      rfl
  obtain ⟨t, ⟨ls, ht⟩, hd⟩ := Reach.exists_final (st := st) (s := MpiThrow.init K ws at_)
    (final := fun x => ∀ l y, MpiThrow.Step K fails ws files maps x l y → isSpurious l = true)
    (n := ((List.range ws).map (rankSteps K ws maps)).sum + ws + 3)
    (by
      rintro t - hf
      push Not at hf
      obtain ⟨l, y, h1, h2⟩ := hf
      exact ⟨l, y, h1, by simpa using h2⟩)
    (by
      intro ls t ht
      obtain ⟨h1, h2⟩ := weak ht
      have := C112_termination hn hN h1
      omega)
  have hr : Reach (MpiThrow.Step K fails ws files maps) (MpiThrow.init K ws at_) t := ⟨ls, (weak ht).1⟩
  exact ⟨t, hr, (C112_certain hn hws hN hidx hfit hone hC hf hr hd).1⟩

/-- Without exceptions these are the executions of C91. -/
theorem C112_no_exception (hf : ∀ l, fails l = false) (hn : 0 < K.threads) (hN : ws ≤ K.numBlocks) (z : MpiCounting.State D Θ) :
    Reach (MpiThrow.Step K fails ws files maps) (MpiThrow.init K ws at_) ⟨z, false⟩ ↔
      Reach (MpiCounting.Step K ws files maps) (MpiCounting.init K ws at_) z := by
  constructor
  · rintro ⟨ls, h⟩
    obtain ⟨ls', h1, -⟩ := run_of hn hN h
    exact ⟨ls', h1⟩
  · rintro ⟨ls, h⟩
    refine ⟨ls, ?_⟩
    generalize hx : MpiCounting.init K ws at_ = z0 at h
    induction h with
    | nil => subst hx; exact .nil _
    | snoc _ h2 ih => exact ih.snoc (.run h2 fun _ _ => hf _)

/-- The hypotheses can be met: two ranks, after every execution of the header passes and the gathering, with thresholds that cannot be computed. Rank 1 then never returns. -/
example : ∃ (merged : Nat → ScanMap) (x : MpiThrow.State Nat Nat),
    Reach (MpiThrow.Step mpiCall (fun _ => true) 2 (mpiFiles 3) merged) (MpiThrow.init mpiCall 2 fun _ _ => 17) x ∧ x.thrown = true ∧
    ∀ y, Reach (MpiThrow.Step mpiCall (fun _ => true) 2 (mpiFiles 3) merged) x y → ∀ d, (y.run.ranks 1).counting.main ≠ .done d := by
  obtain ⟨hs, ps, merged, h1, h2, _⟩ := C35_exists (mpiFiles 3) mpiCall.positions 2 3 (by decide) (by decide)
    (mpi_sendable (.inl rfl)) (mpi_distinct (by decide) (by decide)) (fun _ _ => 0)
  have hf := mpi_sendable (q := 3) (.inl rfl)
  have hidx := C35_merged (mpiFiles 3) mpiCall.positions 2 3 (by decide) (by decide) hf (mpi_distinct (by decide) (by decide)) hs merged h1 h2
  obtain ⟨x, hx, hth⟩ := C112_exists (K := mpiCall) (fails := fun _ => true) (ws := 2) (files := mpiFiles 3) (maps := merged)
    (at_ := fun _ _ => 17) (by decide) (by decide) (by decide) hidx
    ⟨hf.positions, fun f hfm r hr => (hf.inside f hfm r hr).2, mpiCall_events⟩ (mpi_one (by decide) (by decide))
    (by
      intro r hr
      have : r = 0 ∨ r = 1 := by omega
      rcases this with rfl | rfl
      · refine ⟨[(0, 5)], by simp, by decide, ?_⟩
        intro x hx
        obtain rfl := List.mem_singleton.1 hx
        exact ⟨by decide, by decide, mpi_five⟩
      · refine ⟨[(3, 6)], by simp, by decide, ?_⟩
        intro x hx
        obtain rfl := List.mem_singleton.1 hx
        exact ⟨by decide, by decide, mpi_six (by decide) (by decide)⟩) (fun _ => rfl)
  exact ⟨merged, x, hx, hth, fun y hy => ((C112_false (by decide) (by decide) hx hth hy).2.2.2 1 (by decide)).2⟩

end Stempy.Props.MpiThrow
