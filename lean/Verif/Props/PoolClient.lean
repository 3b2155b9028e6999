import Verif.Model.PoolClient
import Verif.Props.Pool

/-!
C58: a read error while tasks are queued.
-/

namespace Stempy.Props
open Stempy.Pool Stempy.PoolClient Stempy.Spec

/-- A task is executing, and therefore writing to the result, although the result was destroyed. -/
def UseAfterFree (s : PoolClient.State) : Prop := s.live = false ∧ executing s.pool ≠ []

/-- All tasks that were accepted have been executed, and none will be: the pool is gone. -/
private def StemInv (n : Nat) (s : PoolClient.State) : Prop :=
  Reach Pool.Step (Pool.init n) s.pool ∧
  match s.client with
  | .submit _ => s.live = true
  | .returned => s.live = true
  | .unwind todo => (todo = [.pool, .result] ∧ s.live = true) ∨
      ((todo = [.result] ∨ todo = []) ∧ s.pool.phase = .destroyed)
  | .joinPool todo => todo = [.result] ∧ s.live = true
  | .failed => s.pool.phase = .destroyed

private theorem destroyed_internal {a b : Pool.State} {l : Label} (h : Pool.Step a l b)
    (hd : a.phase = .destroyed) (hl : l = .internal ∨ l = .spurious) : b.phase = .destroyed := by
  cases h <;> simp_all

private theorem stemInv_step (n : Nat) (a : PoolClient.State) (l : Unit) (c : PoolClient.State)
    (h : StemInv n a) (hs : PoolClient.Step stemOrder a l c) : StemInv n c := by
  obtain ⟨hr, hc⟩ := h
  cases hs with
  | @internal p h1 =>
    refine ⟨hr.step h1, ?_⟩
    revert hc
    cases a.client <;> simp only <;> intro hc <;> try exact hc
    · rcases hc with hc | ⟨hc, hd⟩
      · exact .inl hc
      · exact .inr ⟨hc, destroyed_internal h1 hd (.inl rfl)⟩
    · exact destroyed_internal h1 hc (.inl rfl)
  | @spurious p h1 =>
    refine ⟨hr.step h1, ?_⟩
    revert hc
    cases a.client <;> simp only <;> intro hc <;> try exact hc
    · rcases hc with hc | ⟨hc, hd⟩
      · exact .inl hc
      · exact .inr ⟨hc, destroyed_internal h1 hd (.inr rfl)⟩
    · exact destroyed_internal h1 hc (.inr rfl)
  | submit h1 h2 =>
    rw [h1] at hc
    exact ⟨hr.step h2, hc⟩
  | error h1 =>
    rw [h1] at hc
    exact ⟨hr, .inl ⟨rfl, hc⟩⟩
  | return_ h1 h2 =>
    rw [h1] at hc
    exact ⟨hr, hc⟩
  | freeResult h1 =>
    rw [h1] at hc
    rcases hc with ⟨hc, _⟩ | ⟨hc, hd⟩
    · simp at hc
    · rcases hc with hc | hc
      · simp only [List.cons.injEq, true_and] at hc
        exact ⟨hr, .inr ⟨.inr hc, hd⟩⟩
      · simp at hc
  | destroyPool h1 h2 =>
    rw [h1] at hc
    rcases hc with ⟨hc, hl⟩ | ⟨hc, hd⟩
    · simp only [List.cons.injEq, true_and] at hc
      exact ⟨hr.step h2, hc, hl⟩
    · rcases hc with hc | hc <;> simp at hc
  | joinedPool h1 h2 =>
    rw [h1] at hc
    exact ⟨hr, .inr ⟨.inl hc.1, h2⟩⟩
  | rethrow h1 =>
    rw [h1] at hc
    rcases hc with ⟨hc, _⟩ | ⟨_, hd⟩
    · simp at hc
    · exact ⟨hr, hd⟩

/-- **C58** (STEM images) Whenever and wherever reading fails, no task runs after the images were destroyed,
and when the error leaves the function every task that was submitted has been executed. -/
theorem C58_stem {n : Nat} (hn : 0 < n) {tasks : List Nat} {s : PoolClient.State}
    (h : Reach (PoolClient.Step stemOrder) (PoolClient.init n tasks) s) :
    ¬ UseAfterFree s ∧ (s.client = .failed → s.pool.finished.Perm s.pool.accepted) := by
  have hi : StemInv n s := h.inv (StemInv n) ⟨Reach.refl _, rfl⟩ (stemInv_step n)
  obtain ⟨hr, hc⟩ := hi
  refine ⟨?_, ?_⟩
  · rintro ⟨hl, he⟩
    have hnd : s.pool.phase ≠ .destroyed := fun hd => he (C20_shutdown hn hr hd).2.2
    cases hcl : s.client with
    | submit ts => rw [hcl] at hc; simp [hl] at hc
    | returned => rw [hcl] at hc; simp [hl] at hc
    | unwind todo => rw [hcl] at hc; simp [hl, hnd] at hc
    | joinPool todo => rw [hcl] at hc; simp [hl] at hc
    | failed => rw [hcl] at hc; exact hnd hc
  · intro hf
    rw [hf] at hc
    exact (C20_shutdown hn hr hc).1

/-- A failing read after one submitted task: the task is executed and the error is reported. -/
example : ∃ s, Reach (PoolClient.Step stemOrder) (PoolClient.init 1 [1, 2]) s ∧ s.client = .failed ∧
    s.live = false ∧ s.pool.finished = [1] := by
  refine ⟨_, (((((((((((Reach.refl _).step (Step.submit (t := 1) (ts := [2]) rfl
    (Pool.Step.accept 1 ?_ ?_))).step
    (Step.error (t := 2) (ts := []) rfl)).step
    (Step.destroyPool (todo := [.result]) rfl (Pool.Step.destroy ?_))).step
    (Step.internal (Pool.Step.take (t := 1) (q := []) (pre := []) (post := []) ?_ ?_))).step
    (Step.internal (Pool.Step.finish (t := 1) (pre := []) (post := []) ?_))).step
    (Step.internal (Pool.Step.exit (pre := []) (post := []) ?_ ?_ ?_))).step
    (Step.internal (Pool.Step.notifyAll ?_))).step
    (Step.internal (Pool.Step.joined ?_ ?_))).step
    (Step.joinedPool (todo := [.result]) rfl ?_)).step
    (Step.freeResult (todo := []) rfl)).step (Step.rethrow rfl), ?_⟩ <;>
    simp [PoolClient.init, Pool.init, Pool.wake]

/-- **C58** No hang: from any reachable state in which the caller is not finished, some thread can go on. -/
theorem C58_progress {n : Nat} (hn : 0 < n) {tasks : List Nat} {s : PoolClient.State}
    (h : Reach (PoolClient.Step stemOrder) (PoolClient.init n tasks) s)
    (hd : s.client ≠ .failed) (hr2 : s.client ≠ .returned) :
    ∃ s', PoolClient.Step stemOrder s () s' := by
  have hi : StemInv n s := h.inv (StemInv n) ⟨Reach.refl _, rfl⟩ (stemInv_step n)
  obtain ⟨hr, hc⟩ := hi
  by_contra hno
  have hstuck : ∀ p, ¬ Pool.Step s.pool .internal p := fun p hp => hno ⟨_, .internal hp⟩
  obtain ⟨hp1, hp2, hp3, hp4⟩ := C20_progress hn hr hstuck
  cases hcl : s.client with
  | submit ts =>
    cases ts with
    | nil => exact hno ⟨_, .return_ hcl hp1⟩
    | cons t ts => exact hno ⟨_, .error hcl⟩
  | returned => exact hr2 hcl
  | failed => exact hd hcl
  | unwind todo =>
    cases todo with
    | nil => exact hno ⟨_, .rethrow hcl⟩
    | cons c todo =>
      cases c with
      | result => exact hno ⟨_, .freeResult hcl⟩
      | pool =>
        rw [hcl] at hc
        simp only [List.cons.injEq, true_and, reduceCtorEq, false_or, or_self, false_and, or_false] at hc
        by_cases hl : s.pool.phase = .live
        · exact hno ⟨_, .destroyPool hcl (Pool.Step.destroy hl)⟩
        · -- the pool is destroyed only by the client
          have : s.pool.phase = .live := by
            have key : ∀ s : PoolClient.State, Reach (PoolClient.Step stemOrder) (PoolClient.init n tasks) s →
                ((∃ ts, s.client = .submit ts) ∨ s.client = .unwind [.pool, .result]) →
                s.pool.phase = .live := by
              intro s hs
              have := hs.inv (fun s => StemInv n s ∧
                  (((∃ ts, s.client = .submit ts) ∨ s.client = .unwind [.pool, .result]) →
                s.pool.phase = .live)) ⟨⟨Reach.refl _, rfl⟩, fun _ => rfl⟩ (by
                  rintro a l c ⟨hI, hA⟩ hs
                  refine ⟨stemInv_step n a l c hI hs, ?_⟩
                  cases hs with
                  | @internal p h1 =>
                    intro h
                    have hl := hA h
                    cases h1 <;> simp_all
                  | @spurious p h1 =>
                    intro h
                    have hl := hA h
                    cases h1; simp_all
                  | submit h1 h2 =>
                    intro _
                    have hl := hA (.inl ⟨_, h1⟩)
                    cases h2 <;> simp_all
                  | error h1 =>
                    intro _
                    exact hA (.inl ⟨_, h1⟩)
                  | return_ h1 h2 => simp
                  | freeResult h1 =>
                    rintro (⟨ts, h⟩ | h)
                    · simp at h
                    · simp only [Client.unwind.injEq] at h
                      subst h
                      have := hI.2
                      rw [h1] at this
                      simp at this
                  | destroyPool h1 h2 => simp
                  | joinedPool h1 h2 =>
                    have := hI.2
                    rw [h1] at this
                    simp [this.1]
                  | rethrow h1 => simp)
              exact this.2
            exact key s h (.inr (by rw [hcl, hc.1]))
          exact hl this
  | joinPool todo =>
    have hph : s.pool.phase ≠ .live := by
      have key : ∀ s : PoolClient.State, Reach (PoolClient.Step stemOrder) (PoolClient.init n tasks) s →
          (∃ td, s.client = .joinPool td) → s.pool.phase ≠ .live := by
        intro s hs
        exact hs.inv (fun s => (∃ td, s.client = .joinPool td) → s.pool.phase ≠ .live)
          (by simp [PoolClient.init]) (by
            intro a l c hA hs
            cases hs with
            | @internal p h1 =>
              intro h
              have hl := hA h
              cases h1 <;> simp_all
            | @spurious p h1 =>
              intro h
              have hl := hA h
              cases h1; simp_all
            | submit h1 h2 => simp
            | error h1 => simp
            | return_ h1 h2 => simp
            | freeResult h1 => simp
            | destroyPool h1 h2 =>
              intro _
              cases h2; simp
            | joinedPool h1 h2 => simp
            | rethrow h1 => simp)
      exact key s h ⟨todo, hcl⟩
    rcases hp4 with h4 | h4
    · exact hph h4
    · exact hno ⟨_, .joinedPool hcl h4⟩

/-- **C58** is false for the radial sum: with the destruction order of that function a task may run after the
result was destroyed. -/
theorem C58_radial_false :
    ∃ s, Reach (PoolClient.Step radialOrder) (PoolClient.init 2 [1, 2]) s ∧ UseAfterFree s := by
  refine ⟨_, ((((Reach.refl _).step (Step.submit (t := 1) (ts := [2]) rfl (Pool.Step.accept 1 ?_ ?_))).step
    (Step.error (t := 2) (ts := []) rfl)).step (Step.freeResult (todo := [.pool]) rfl)).step
    (Step.internal (Pool.Step.take (t := 1) (q := []) (pre := []) (post := [.ready]) ?_ ?_)), ?_⟩ <;>
    simp [PoolClient.init, Pool.init, UseAfterFree, executing, taskOf, List.replicate]

/-- **C58** For the radial sum nothing goes wrong as long as no read fails. -/
theorem C58_radial_partial {n : Nat} {tasks : List Nat} {s : PoolClient.State}
    (h : Reach (PoolClient.Step radialOrder) (PoolClient.init n tasks) s)
    (hne : (∃ ts, s.client = .submit ts) ∨ s.client = .returned) : ¬ UseAfterFree s := by
  have := h.inv (fun s => ((∃ ts, s.client = .submit ts) ∨ s.client = .returned) → s.live = true)
    (fun _ => rfl) (by
      intro a l c hA hs
      cases hs with
      | internal h1 => exact hA
      | spurious h1 => exact hA
      | submit h1 h2 => intro _; exact hA (.inl ⟨_, h1⟩)
      | error h1 => simp
      | return_ h1 h2 => intro _; exact hA (.inl ⟨_, h1⟩)
      | freeResult h1 => simp
      | destroyPool h1 h2 => simp
      | joinedPool h1 h2 => simp
      | rethrow h1 => simp) hne
  rintro ⟨hl, _⟩
  simp [this] at hl

end Stempy.Props
