import Verif.Model.Pool
import Mathlib.Data.List.Basic
import Mathlib.Tactic.Ring

/-!
C20: the thread pool.
-/

namespace Stempy.Props
open Stempy.Pool Stempy.Spec

/-- The task a worker is executing. -/
def taskOf : Worker → Option Nat
  | .running t => some t
  | _ => none

/-- The tasks being executed in a state. -/
def executing (s : State) : List Nat := s.workers.filterMap taskOf

structure PoolInv (n : Nat) (s : State) : Prop where
  size : s.workers.length = n
  fifo : s.accepted = s.started ++ s.queue
  exec : s.started.Perm (s.finished ++ executing s)
  wake : Worker.asleep ∉ s.workers ∨ s.queue.length ≤ s.workers.count .ready + s.notifies
  stop : s.stop = true ↔ s.phase ≠ .live
  exited : Worker.exited ∈ s.workers → s.stop = true ∧ s.queue = []
  awake : s.phase = .joining ∨ s.phase = .destroyed → Worker.asleep ∉ s.workers
  joined : s.phase = .destroyed → ∀ w ∈ s.workers, w = .exited

theorem poolInv_init (n : Nat) : PoolInv n (init n) := by
  have h : ∀ k, (List.replicate k Worker.ready).filterMap taskOf = [] := by
    intro k
    induction k with
    | zero => rfl
    | succ k ih => simp [List.replicate_succ, taskOf, ih]
  constructor <;> simp [init, executing, h, List.mem_replicate]

theorem poolInv_step (n : Nat) (s : State) (l : Label) (s' : State) (h : PoolInv n s)
    (hs : Step s l s') : PoolInv n s' := by
  obtain ⟨hsize, hfifo, hexec, hwake, hstop, hexit, hawake, hjoin⟩ := h
  cases hs with
  | accept t h1 h2 =>
    refine ⟨hsize, by simp [hfifo], hexec, ?_, hstop, ?_, hawake, hjoin⟩
    · rcases hwake with h | h
      · exact .inl h
      · right; simp only [List.length_append, List.length_cons, List.length_nil]; omega
    · intro h; have := (hexit h).1; simp [h2] at this
  | reject t h1 h2 => exact ⟨hsize, hfifo, hexec, hwake, hstop, hexit, hawake, hjoin⟩
  | @notify m pre post h1 h2 =>
    refine ⟨?_, hfifo, ?_, ?_, hstop, ?_, ?_, ?_⟩
    · simp only [h2, List.length_append, List.length_cons] at hsize ⊢; exact hsize
    · simpa [executing, h2, taskOf, List.filterMap_cons] using hexec
    · right
      rcases hwake with h | h
      · simp [h2] at h
      · simp only [h2, List.count_append, List.count_cons, h1] at h ⊢
        simp at h ⊢
        omega
    · intro h
      exact hexit (by simpa [h2] using h)
    · intro h
      have := hawake h
      simp [h2] at this
    · intro h w hw
      have := hjoin h .asleep (by simp [h2])
      cases this
  | @notifyNone m h1 h2 =>
    exact ⟨hsize, hfifo, hexec, .inl h2, hstop, hexit, hawake, hjoin⟩
  | @sleep pre post h1 h2 h3 =>
    refine ⟨?_, hfifo, ?_, .inr ?_, hstop, ?_, ?_, ?_⟩
    · simpa [h1] using hsize
    · simpa [executing, h1, taskOf, List.filterMap_cons] using hexec
    · simp [h3]
    · intro h
      exact hexit (by simpa [h1] using h)
    · intro h
      have := hstop.2 (by rcases h with h | h <;> rw [h] <;> simp)
      simp [h2] at this
    · intro h w hw
      have := hjoin h .ready (by simp [h1])
      cases this
  | @exit pre post h1 h2 h3 =>
    refine ⟨?_, hfifo, ?_, .inr ?_, hstop, ?_, ?_, ?_⟩
    · simpa [h1] using hsize
    · simpa [executing, h1, taskOf, List.filterMap_cons] using hexec
    · simp [h3]
    · intro _; exact ⟨h2, h3⟩
    · intro h
      have := hawake h
      simpa [h1] using this
    · intro h w hw
      have := hjoin h .ready (by simp [h1])
      cases this
  | @take t q pre post h1 h2 =>
    refine ⟨?_, by simp [hfifo, h2], ?_, ?_, hstop, ?_, ?_, ?_⟩
    · simpa [h1] using hsize
    · simp only [executing, h1, List.filterMap_append, List.filterMap_cons, taskOf] at hexec ⊢
      refine (hexec.append_right [t]).trans ?_
      rw [List.append_assoc]
      refine List.Perm.append_left _ ?_
      rw [List.append_assoc]
      refine List.Perm.append_left _ ?_
      exact List.perm_append_comm
    · rcases hwake with h | h
      · left; simpa [h1] using h
      · right
        simp only [h1, h2, List.count_append, List.count_cons, List.length_cons] at h ⊢
        simp at h ⊢
        omega
    · intro h
      have := (hexit (by simpa [h1] using h)).2
      simp [h2] at this
    · intro h
      have := hawake h
      simpa [h1] using this
    · intro h w hw
      have := hjoin h .ready (by simp [h1])
      cases this
  | @finish t pre post h1 =>
    refine ⟨?_, hfifo, ?_, ?_, hstop, ?_, ?_, ?_⟩
    · simpa [h1] using hsize
    · simp only [executing, h1, List.filterMap_append, List.filterMap_cons, taskOf] at hexec ⊢
      refine hexec.trans ?_
      rw [List.append_assoc]
      refine List.Perm.append_left _ ?_
      exact List.perm_middle
    · rcases hwake with h | h
      · left; simpa [h1] using h
      · right
        simp only [h1, List.count_append, List.count_cons] at h ⊢
        simp at h ⊢
        omega
    · intro h
      exact hexit (by simpa [h1] using h)
    · intro h
      have := hawake h
      simpa [h1] using this
    · intro h w hw
      have := hjoin h (.running t) (by simp [h1])
      cases this
  | @spurious pre post h1 =>
    refine ⟨?_, hfifo, ?_, ?_, hstop, ?_, ?_, ?_⟩
    · simpa [h1] using hsize
    · simpa [executing, h1, taskOf, List.filterMap_cons] using hexec
    · rcases hwake with h | h
      · simp [h1] at h
      · right
        simp only [h1, List.count_append, List.count_cons] at h ⊢
        simp at h ⊢
        omega
    · intro h
      exact hexit (by simpa [h1] using h)
    · intro h
      have := hawake h
      simp [h1] at this
    · intro h w hw
      have := hjoin h .asleep (by simp [h1])
      cases this
  | destroy h1 =>
    refine ⟨hsize, hfifo, hexec, hwake, by simp, ?_, by simp, by simp⟩
    intro h
    exact ⟨rfl, (hexit h).2⟩
  | notifyAll h1 =>
    have hw : Worker.asleep ∉ s.workers.map Pool.wake := by
      intro h
      obtain ⟨w, _, h⟩ := List.mem_map.1 h
      cases w <;> simp [Pool.wake] at h
    refine ⟨by simpa using hsize, hfifo, ?_, .inl hw, ?_, ?_, fun _ => hw, by simp⟩
    · have : ∀ l : List Worker, (l.map Pool.wake).filterMap taskOf = l.filterMap taskOf := by
        intro l
        rw [List.filterMap_map]
        congr 1
        funext w
        cases w <;> rfl
      simpa [executing, this] using hexec
    · simp [hstop, h1]
    · intro h
      obtain ⟨w, hw, h⟩ := List.mem_map.1 h
      cases w <;> simp [Pool.wake] at h
      exact hexit hw
  | joined h1 h2 =>
    exact ⟨hsize, hfifo, hexec, hwake, by simp [hstop, h1], hexit, fun _ => hawake (.inl h1),
      fun _ => h2⟩

theorem poolInv {n : Nat} {s : State} (h : Reach Step (init n) s) : PoolInv n s :=
  h.inv (PoolInv n) (poolInv_init n) (poolInv_step n)

/-- **C20** In every reachable state each accepted task is either still queued, or being executed, or was
executed, and exactly once; tasks are taken in the order in which they were accepted. -/
theorem C20_exactly_once {n : Nat} {s : State} (h : Reach Step (init n) s) :
    s.accepted = s.started ++ s.queue ∧
    (∀ t, s.accepted.count t = s.queue.count t + (executing s).count t + s.finished.count t) := by
  have hi := poolInv h
  refine ⟨hi.fifo, fun t => ?_⟩
  rw [hi.fifo, List.count_append, hi.exec.count_eq, List.count_append]
  omega

/-- **C20** When the destructor has returned, every accepted task was executed exactly once. -/
theorem C20_shutdown {n : Nat} (hn : 0 < n) {s : State} (h : Reach Step (init n) s)
    (hd : s.phase = .destroyed) : s.finished.Perm s.accepted ∧ s.queue = [] ∧ executing s = [] := by
  have hi := poolInv h
  have hw := hi.joined hd
  have hne : Worker.exited ∈ s.workers := by
    cases hws : s.workers with
    | nil => have := hi.size; simp [hws] at this; omega
    | cons w ws => have := hw w (by simp [hws]); simp [this]
  have hq := (hi.exited hne).2
  have he : executing s = [] := by
    unfold executing
    rw [List.filterMap_eq_nil_iff]
    intro w hw2
    rw [hw w hw2]; rfl
  refine ⟨?_, hq, he⟩
  rw [hi.fifo, hq, List.append_nil]
  simpa [he] using hi.exec.symm

/-- **C20** A pool without workers runs nothing: the hypothesis `0 < n` is needed. -/
theorem C20_zero_threads :
    ∃ s, Reach Step (init 0) s ∧ s.phase = .destroyed ∧ s.accepted = [7] ∧ s.finished = [] := by
  refine ⟨_, ((((Reach.refl _).step (Step.accept 7 ?_ ?_)).step (Step.destroy ?_)).step
    (Step.notifyAll ?_)).step (Step.joined ?_ ?_), ?_, ?_, ?_⟩ <;> simp [init]

/-- **C20** A task submitted before the destructor started is accepted, one submitted later is rejected with
an error and changes nothing else. -/
theorem C20_rejected {n : Nat} {s s' : State} {t : Nat} (h : Reach Step (init n) s)
    (hs : Step s (.enqueue t) s') :
    (s.phase = .live → s'.accepted = s.accepted ++ [t] ∧ s'.rejected = s.rejected) ∧
    (s.phase ≠ .live → s'.rejected = s.rejected ++ [t] ∧ s'.accepted = s.accepted ∧
      s'.queue = s.queue) := by
  have hi := poolInv h
  cases hs with
  | accept _ h1 h2 =>
    refine ⟨fun _ => ⟨rfl, rfl⟩, fun hp => ?_⟩
    have := hi.stop.2 hp
    simp [h2] at this
  | reject _ h1 h2 =>
    refine ⟨fun hp => ?_, fun _ => ⟨rfl, rfl, rfl⟩⟩
    exact absurd hp (hi.stop.1 h2)

/-- **C20** No lost wake-up: if some worker sleeps, then there are at least as many awake idle workers and
notifications under way as queued tasks. -/
theorem C20_no_lost_wakeup {n : Nat} {s : State} (h : Reach Step (init n) s)
    (ha : Worker.asleep ∈ s.workers) :
    s.queue.length ≤ s.workers.count .ready + s.notifies := by
  rcases (poolInv h).wake with h2 | h2
  · exact absurd ha h2
  · exact h2

/-- **C20** No deadlock: when no thread can take a step of its own (not counting spurious wake-ups and new
client calls), all accepted tasks were executed, and a destructor that was called has returned. -/
theorem C20_progress {n : Nat} (hn : 0 < n) {s : State} (h : Reach Step (init n) s)
    (hstuck : ∀ s', ¬ Step s .internal s') :
    s.finished.Perm s.accepted ∧ s.queue = [] ∧ executing s = [] ∧
      (s.phase = .live ∨ s.phase = .destroyed) := by
  have hi := poolInv h
  have hrun : ∀ t, Worker.running t ∉ s.workers := by
    intro t ht
    obtain ⟨pre, post, e⟩ := List.append_of_mem ht
    exact hstuck _ (.finish e)
  have hready : Worker.ready ∉ s.workers := by
    intro ht
    obtain ⟨pre, post, e⟩ := List.append_of_mem ht
    cases hq : s.queue with
    | cons t q => exact hstuck _ (.take e hq)
    | nil =>
      cases hst : s.stop with
      | false => exact hstuck _ (.sleep e hst hq)
      | true => exact hstuck _ (.exit e hst hq)
  have hnot : s.notifies = 0 := by
    rcases hn2 : s.notifies with _ | m
    · rfl
    · by_cases ha : Worker.asleep ∈ s.workers
      · obtain ⟨pre, post, e⟩ := List.append_of_mem ha
        exact absurd (Step.notify hn2 e) (hstuck _)
      · exact absurd (Step.notifyNone hn2 ha) (hstuck _)
  have hq : s.queue = [] := by
    rcases hi.wake with ha | hle
    · cases hws : s.workers with
      | nil => have := hi.size; simp [hws] at this; omega
      | cons w ws =>
        have hm : w ∈ s.workers := by simp [hws]
        cases w with
        | ready => exact absurd hm hready
        | asleep => exact absurd hm ha
        | running t => exact absurd hm (hrun t)
        | exited => exact (hi.exited hm).2
    · rw [List.count_eq_zero_of_not_mem hready, hnot] at hle
      exact List.length_eq_zero_iff.1 (by omega)
  have he : executing s = [] := by
    unfold executing
    rw [List.filterMap_eq_nil_iff]
    intro w hw
    cases w with
    | running t => exact absurd hw (hrun t)
    | _ => rfl
  refine ⟨?_, hq, he, ?_⟩
  · rw [hi.fifo, hq, List.append_nil]
    simpa [he] using hi.exec.symm
  · cases hp : s.phase with
    | live => exact .inl rfl
    | destroyed => exact .inr rfl
    | stopped => exact absurd (Step.notifyAll hp) (hstuck _)
    | joining =>
      refine absurd (Step.joined hp ?_) (hstuck _)
      intro w hw
      cases w with
      | ready => exact absurd hw hready
      | asleep => exact absurd hw (hi.awake (.inl hp))
      | running t => exact absurd hw (hrun t)
      | exited => rfl

private def cost : Worker → Nat
  | .ready => 1
  | .running _ => 2
  | _ => 0

private def phaseCost (n : Nat) : Phase → Nat
  | .stopped => n + 2
  | .joining => 1
  | _ => 0

private def poolMeasure (n : Nat) (s : State) : Nat :=
  3 * s.queue.length + 2 * s.notifies + (s.workers.map cost).sum + phaseCost n s.phase

/-- Number of own steps the pool may take because of a client call or a spurious wake-up. -/
def poolGain (n : Nat) : Label → Nat
  | .enqueue _ => 6
  | .destroy => n + 3
  | .spurious => 2
  | .internal => 0

/-- **C20** Every execution is finite up to client calls and spurious wake-ups: the number of steps is bounded
by the number of workers plus a constant for each call and each spurious wake-up. Together with
`C20_progress`, the accepted tasks are all executed under every scheduler. -/
theorem C20_termination {n : Nat} {s : State} {ls : List Label} (h : Run Step (init n) ls s) :
    ls.length ≤ n + (ls.map (poolGain n)).sum := by
  have hmap : ∀ l : List Worker, ((l.map Pool.wake).map cost).sum ≤ (l.map cost).sum + l.length := by
    intro l
    induction l with
    | nil => simp
    | cons w l ih =>
      have : cost (Pool.wake w) ≤ cost w + 1 := by cases w <;> simp [Pool.wake, cost]
      simp only [List.map_cons, List.sum_cons, List.length_cons]
      omega
  have := h.length_le (PoolInv n) (poolMeasure n) (poolGain n) (poolInv_init n) (poolInv_step n)
    (by
      intro a l c hi hs
      cases hs with
      | accept t h1 h2 => simp [poolMeasure, poolGain]; omega
      | reject t h1 h2 => simp [poolMeasure, poolGain]
      | notify h1 h2 => simp [poolMeasure, poolGain, h1, h2, cost]; omega
      | notifyNone h1 h2 => simp [poolMeasure, poolGain, h1]; omega
      | sleep h1 h2 h3 => simp [poolMeasure, poolGain, h1, cost]; omega
      | exit h1 h2 h3 => simp [poolMeasure, poolGain, h1, cost]; omega
      | take h1 h2 => simp [poolMeasure, poolGain, h1, h2, cost]; omega
      | finish h1 => simp [poolMeasure, poolGain, h1, cost]; omega
      | spurious h1 => simp [poolMeasure, poolGain, h1, cost]; omega
      | destroy h1 => simp [poolMeasure, poolGain, h1, phaseCost]; omega
      | notifyAll h1 =>
        have := hmap a.workers
        have := hi.size
        simp only [poolMeasure, poolGain, h1, phaseCost] at *
        omega
      | joined h1 h2 => simp [poolMeasure, poolGain, h1, phaseCost])
  have h0 : poolMeasure n (init n) = n := by
    simp [poolMeasure, init, phaseCost, cost]
  omega

/-- A run in which two tasks are executed by one worker and the pool is destroyed. -/
example : ∃ s, Reach Step (init 1) s ∧ s.phase = .destroyed ∧ s.finished = [3, 4] := by
  refine ⟨_, (((((((((((Reach.refl (init 1)).step (Step.sleep (pre := []) (post := []) ?_ ?_ ?_)).step
    (Step.accept 3 ?_ ?_)).step (Step.accept 4 ?_ ?_)).step
    (Step.notify (pre := []) (post := []) (n := 1) ?_ ?_)).step
    (Step.take (t := 3) (q := [4]) (pre := []) (post := []) ?_ ?_)).step (Step.destroy ?_)).step
    (Step.finish (t := 3) (pre := []) (post := []) ?_)).step
    (Step.take (t := 4) (q := []) (pre := []) (post := []) ?_ ?_)).step
    (Step.finish (t := 4) (pre := []) (post := []) ?_)).step
    (Step.exit (pre := []) (post := []) ?_ ?_ ?_)).step
    (Step.notifyAll ?_) |>.step (Step.joined ?_ ?_), ?_, ?_⟩ <;> simp [init, Pool.wake]

end Stempy.Props
