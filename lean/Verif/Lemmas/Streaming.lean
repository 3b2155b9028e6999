import Verif.Model.Streaming
import Mathlib.Data.List.Basic
import Mathlib.Tactic.Ring

/-!
Invariants of the streaming electron counting machine.
-/

namespace Stempy.Streaming
open Stempy.Spec

/-- The block a worker has in hand. -/
def blkOf : Worker → Option Blk
  | .got b => some b
  | .wantLock b => some b
  | .asleep b => some b
  | .awake b => some b
  | .append b _ => some b
  | .pushing b _ => some b
  | _ => none

/-- Blocks stored for the calling thread and not yet counted. -/
def owed (samples incomplete : List Blk) : Main → List Blk
  | .extra todo second => todo ++ if second then [] else incomplete
  | .pushing b todo second => b :: todo ++ if second then [] else incomplete
  | .join => []
  | .done _ => []
  | _ => samples ++ incomplete

/-- The calling thread has not yet set `electronCounting`. -/
def early : Main → Bool
  | .start => true
  | .asleep => true
  | .awake => true
  | .holding => true
  | _ => false

/-- The worker is in `countBlock`. -/
def active : Worker → Bool
  | .append _ _ => true
  | .pushing _ _ => true
  | _ => false

/-- The worker owns `sampleMutex`. -/
def holds : Worker → Bool
  | .append _ h => h
  | .pushing _ h => h
  | _ => false

def isAsleep : Worker → Bool
  | .asleep _ => true
  | _ => false

def waits : Worker → Bool
  | .asleep _ => true
  | .awake _ => true
  | _ => false

/-- Data invariant. -/
structure InvA {Θ : Type} (P : Params Θ) (blocks : List Blk) (s : State Θ) : Prop where
  size : s.workers.length = P.threads
  cons : ∀ b, s.pending.count b + (s.workers.filterMap blkOf).count b +
    (owed s.samples s.incomplete s.main).count b + s.counted.count b = blocks.count b
  flag : s.counting = !early s.main
  quiet : s.counting = false → s.counted = [] ∧ ∀ w ∈ s.workers, active w = false
  le : s.samples.length ≤ P.numBlocks
  full : s.main = .holding ∨ s.counting = true → s.samples.length = P.numBlocks
  smp : ∀ b ∈ s.samples, b.complete = some true
  inc : ∀ b ∈ s.incomplete, b.complete = some false
  sub : ∀ b, s.samples.count b ≤ blocks.count b
  thr : s.counting = true → s.thresholds = some (P.threshold s.samples) ∧
    s.events.length = P.positions ∧ ∀ p, p < P.positions →
      s.events[p]? = some ((s.counted.filter fun b => b.pos = p).map (P.count (P.threshold s.samples)))
  exited : Worker.exited ∈ s.workers → s.pending = []
  ret : ∀ d, s.main = .done d → (∀ w ∈ s.workers, w = .exited) ∧ d = padEvents s.events

theorem invA_init {Θ : Type} (P : Params Θ) (blocks : List Blk) : InvA P blocks (init P blocks) := by
  have h : ∀ k, (List.replicate k Worker.idle).filterMap blkOf = [] := by
    intro k
    induction k with
    | zero => rfl
    | succ k ih => simp [List.replicate_succ, blkOf]
  constructor <;> simp [init, owed, early, h, active]

theorem invA_ub {Θ : Type} {P : Params Θ} {blocks : List Blk} {s : State Θ} (h : InvA P blocks s)
    (u : Bool) : InvA P blocks { s with ub := u } :=
  ⟨h.size, h.cons, h.flag, h.quiet, h.le, h.full, h.smp, h.inc, h.sub, h.thr, h.exited, h.ret⟩

/-- A worker changes its state, the calling thread and the data do not. -/
theorem invA_worker {Θ : Type} {P : Params Θ} {blocks : List Blk} {s : State Θ} (h : InvA P blocks s)
    {pre post : List Worker} {w w' : Worker} (locked : Bool) (hw : s.workers = pre ++ w :: post)
    (hb : blkOf w' = blkOf w) (hne : w ≠ .exited) (hne' : w' = .exited → s.pending = [])
    (hact : s.counting = false → active w' = false) :
    InvA P blocks { s with locked := locked, workers := pre ++ w' :: post } := by
  refine ⟨?_, ?_, h.flag, ?_, h.le, h.full, h.smp, h.inc, h.sub, h.thr, ?_, ?_⟩
  · have := h.size
    simpa [hw] using this
  · intro b
    have := h.cons b
    simpa [hw, List.filterMap_cons, hb] using this
  · intro hc
    obtain ⟨h1, h2⟩ := h.quiet hc
    refine ⟨h1, ?_⟩
    intro v hv
    simp only [List.mem_append, List.mem_cons] at hv
    rcases hv with hv | rfl | hv
    · exact h2 v (by simp [hw, hv])
    · exact hact hc
    · exact h2 v (by simp [hw, hv])
  · intro hv
    simp only [List.mem_append, List.mem_cons] at hv
    rcases hv with hv | hv | hv
    · exact h.exited (by simp [hw, hv])
    · exact hne' hv.symm
    · exact h.exited (by simp [hw, hv])
  · intro d hd
    have := (h.ret d hd).1 w (by simp [hw])
    exact absurd this hne

/-- Only the calling thread changes its state. -/
theorem invA_main {Θ : Type} {P : Params Θ} {blocks : List Blk} {s : State Θ} (h : InvA P blocks s)
    {m : Main} (locked : Bool)
    (ho : owed s.samples s.incomplete m = owed s.samples s.incomplete s.main)
    (he : early m = early s.main) (hf : m = .holding → s.samples.length = P.numBlocks)
    (hd : ∀ d, m = .done d → (∀ w ∈ s.workers, w = .exited) ∧ d = padEvents s.events) :
    InvA P blocks { s with locked := locked, main := m } := by
  refine ⟨h.size, ?_, ?_, h.quiet, h.le, ?_, h.smp, h.inc, h.sub, h.thr, h.exited, hd⟩
  · intro b
    rw [ho]
    exact h.cons b
  · rw [he]; exact h.flag
  · rintro (h1 | h1)
    · exact hf h1
    · exact h.full (.inr h1)

/-- `notify_all`. -/
theorem invA_wake {Θ : Type} {P : Params Θ} {blocks : List Blk} {s : State Θ} (h : InvA P blocks s) :
    InvA P blocks { s with workers := s.workers.map wakeWorker } := by
  have hf : ∀ l : List Worker, (l.map wakeWorker).filterMap blkOf = l.filterMap blkOf := by
    intro l
    rw [List.filterMap_map]
    congr 1
    funext w
    cases w <;> rfl
  refine ⟨by simpa using h.size, ?_, h.flag, ?_, h.le, h.full, h.smp, h.inc, h.sub, h.thr, ?_, ?_⟩
  · intro b
    have := h.cons b
    simpa [hf] using this
  · intro hc
    obtain ⟨h1, h2⟩ := h.quiet hc
    refine ⟨h1, ?_⟩
    intro v hv
    obtain ⟨w, hw, rfl⟩ := List.mem_map.1 hv
    have := h2 w hw
    cases w <;> simp_all [wakeWorker, active]
  · intro hv
    obtain ⟨w, hw, he⟩ := List.mem_map.1 hv
    have : w = .exited := by cases w <;> simp_all [wakeWorker]
    exact h.exited (this ▸ hw)
  · intro d hd
    refine ⟨?_, (h.ret d hd).2⟩
    intro v hv
    obtain ⟨w, hw, rfl⟩ := List.mem_map.1 hv
    rw [(h.ret d hd).1 w hw]
    rfl

theorem pushEvents_spec {Θ : Type} {P : Params Θ} {s : State Θ} {θ : Θ} {b : Blk}
    {counted : List Blk} {p : Nat}
    (h : s.events[p]? = some ((counted.filter fun b => b.pos = p).map (P.count θ))) :
    (pushEvents P s θ b)[p]? =
      some (((counted ++ [b]).filter fun b => b.pos = p).map (P.count θ)) := by
  unfold pushEvents
  rw [List.getElem?_modify]
  by_cases hp : b.pos = p
  · subst hp
    simp [h]
  · simp [h, hp]

theorem invA_step {Θ : Type} (P : Params Θ) (blocks : List Blk) (s : State Θ) (l : Label)
    (s' : State Θ) (h : InvA P blocks s) (hs : Step P s l s') : InvA P blocks s' := by
  cases hs with
  | @take b p1 p2 pre post h0 h1 h2 =>
    refine ⟨?_, ?_, h.flag, ?_, h.le, h.full, h.smp, h.inc, h.sub, h.thr, ?_, ?_⟩
    · simpa [h1] using h.size
    · intro c
      have := h.cons c
      simp only [h1, h2, List.filterMap_append, List.filterMap_cons, blkOf, List.count_append,
        List.count_cons] at this ⊢
      omega
    · intro hc
      obtain ⟨a1, a2⟩ := h.quiet hc
      refine ⟨a1, ?_⟩
      intro v hv
      simp only [List.mem_append, List.mem_cons] at hv
      rcases hv with hv | rfl | hv
      · exact a2 v (by simp [h1, hv])
      · rfl
      · exact a2 v (by simp [h1, hv])
    · intro hv
      have : s.pending = [] := h.exited (by simpa [h1] using hv)
      simp [h2] at this
    · intro d hd
      have := (h.ret d hd).1 .idle (by simp [h1])
      cases this
  | @exit pre post h0 h1 h2 =>
    exact invA_worker h s.locked h1 rfl (by simp) (fun _ => h2) (fun _ => rfl)
  | @seeFlag b pre post h0 h1 h2 =>
    exact invA_worker h s.locked h1 rfl (by simp) (by simp) (by simp [h2])
  | @noFlag b pre post h0 h1 h2 =>
    exact invA_worker h s.locked h1 rfl (by simp) (by simp) (fun _ => rfl)
  | sampleUb h0 => exact invA_ub h true
  | @sample b pre post h0 h1 h2 h3 h4 =>
    have hc : s.counting = false := by
      by_contra hc
      have := h.full (.inr (by simpa using hc))
      omega
    have he : early s.main = true := by
      have := h.flag; rw [hc] at this; simpa using this.symm
    have ho : ∀ a, owed a s.incomplete s.main = a ++ s.incomplete := by
      intro a; cases hm : s.main <;> simp_all [early, owed]
    refine ⟨?_, ?_, h.flag, ?_, ?_, ?_, ?_, h.inc, ?_, by simp [hc], ?_, ?_⟩
    · simpa [h1] using h.size
    · intro c
      have := h.cons c
      simp only [ho, h1, List.filterMap_append, List.filterMap_cons, blkOf, List.count_append,
        List.count_cons, List.count_nil] at this ⊢
      omega
    · intro _
      obtain ⟨a1, a2⟩ := h.quiet hc
      refine ⟨a1, ?_⟩
      intro v hv
      simp only [List.mem_append, List.mem_cons] at hv
      rcases hv with hv | rfl | hv
      · exact a2 v (by simp [h1, hv])
      · rfl
      · exact a2 v (by simp [h1, hv])
    · simp only [List.length_append, List.length_cons, List.length_nil]; omega
    · rintro (hh | hh)
      · have := h.full (.inl hh); omega
      · simp [hc] at hh
    · intro c hcm
      rcases List.mem_append.1 hcm with hcm | hcm
      · exact h.smp c hcm
      · simp only [List.mem_cons, List.not_mem_nil, or_false] at hcm; rw [hcm]; exact h4
    · intro c
      have := h.cons c
      simp only [ho, h1, List.filterMap_append, List.filterMap_cons, blkOf, List.count_append,
        List.count_cons, List.count_nil] at this ⊢
      omega
    · intro hv; exact h.exited (by simpa [h1] using hv)
    · intro d hd; rw [hd] at he; simp [early] at he
  | @lastSample b pre post h0 h1 h2 h3 h4 =>
    have hc : s.counting = false := by
      by_contra hc
      have := h.full (.inr (by simpa using hc))
      omega
    have he : early s.main = true := by
      have := h.flag; rw [hc] at this; simpa using this.symm
    have ho : ∀ a, owed a s.incomplete s.main = a ++ s.incomplete := by
      intro a; cases hm : s.main <;> simp_all [early, owed]
    refine ⟨?_, ?_, h.flag, ?_, ?_, ?_, ?_, h.inc, ?_, by simp [hc], ?_, ?_⟩
    · simpa [h1] using h.size
    · intro c
      have := h.cons c
      simp only [ho, h1, List.filterMap_append, List.filterMap_cons, blkOf, List.count_append,
        List.count_cons, List.count_nil] at this ⊢
      omega
    · intro _
      obtain ⟨a1, a2⟩ := h.quiet hc
      refine ⟨a1, ?_⟩
      intro v hv
      simp only [List.mem_append, List.mem_cons] at hv
      rcases hv with hv | rfl | hv
      · exact a2 v (by simp [h1, hv])
      · rfl
      · exact a2 v (by simp [h1, hv])
    · simp only [List.length_append, List.length_cons, List.length_nil]; omega
    · intro _
      simp only [List.length_append, List.length_cons, List.length_nil]; omega
    · intro c hcm
      rcases List.mem_append.1 hcm with hcm | hcm
      · exact h.smp c hcm
      · simp only [List.mem_cons, List.not_mem_nil, or_false] at hcm; rw [hcm]; exact h4
    · intro c
      have := h.cons c
      simp only [ho, h1, List.filterMap_append, List.filterMap_cons, blkOf, List.count_append,
        List.count_cons, List.count_nil] at this ⊢
      omega
    · intro hv; exact h.exited (by simpa [h1] using hv)
    · intro d hd; rw [hd] at he; simp [early] at he
  | @incomplete b pre post h0 h1 h2 h3 h4 =>
    have hc : s.counting = false := by
      by_contra hc
      have := h.full (.inr (by simpa using hc))
      omega
    have he : early s.main = true := by
      have := h.flag; rw [hc] at this; simpa using this.symm
    have ho : ∀ a, owed s.samples a s.main = s.samples ++ a := by
      intro a; cases hm : s.main <;> simp_all [early, owed]
    refine ⟨?_, ?_, h.flag, ?_, h.le, h.full, h.smp, ?_, h.sub, by simp [hc], ?_, ?_⟩
    · simpa [h1] using h.size
    · intro c
      have := h.cons c
      simp only [ho, h1, List.filterMap_append, List.filterMap_cons, blkOf, List.count_append,
        List.count_cons, List.count_nil] at this ⊢
      omega
    · intro _
      obtain ⟨a1, a2⟩ := h.quiet hc
      refine ⟨a1, ?_⟩
      intro v hv
      simp only [List.mem_append, List.mem_cons] at hv
      rcases hv with hv | rfl | hv
      · exact a2 v (by simp [h1, hv])
      · rfl
      · exact a2 v (by simp [h1, hv])
    · intro c hcm
      rcases List.mem_append.1 hcm with hcm | hcm
      · exact h.inc c hcm
      · simp only [List.mem_cons, List.not_mem_nil, or_false] at hcm; rw [hcm]; exact h4
    · intro hv; exact h.exited (by simpa [h1] using hv)
    · intro d hd; rw [hd] at he; simp [early] at he
  | @notifyAll pre post h0 h1 =>
    have a1 := invA_worker h s.locked h1 (w' := .idle) rfl (by simp) (by simp) (fun _ => rfl)
    have a2 := invA_wake a1
    have a3 := invA_main a2 (m := wakeMain s.main) s.locked
      (by cases s.main <;> rfl) (by cases s.main <;> rfl)
      (by
        intro hm
        have : s.main = .holding := by cases hm2 : s.main <;> simp_all [wakeMain]
        exact h.full (.inl this))
      (by
        intro d hd
        have : s.main = .done d := by cases hm2 : s.main <;> simp_all [wakeMain]
        exact a2.ret d this)
    simpa [wakeWorker] using a3
  | @sleep b pre post h0 h1 h2 h3 =>
    rcases h1 with ⟨h1, _⟩ | h1
    · exact invA_worker h s.locked h1 rfl (by simp) (by simp) (fun _ => rfl)
    · exact invA_worker h s.locked h1 rfl (by simp) (by simp) (fun _ => rfl)
  | @proceed b pre post h0 h1 h2 h3 =>
    rcases h1 with ⟨h1, _⟩ | h1
    · exact invA_worker h true h1 rfl (by simp) (by simp) (by simp [h3])
    · exact invA_worker h true h1 rfl (by simp) (by simp) (by simp [h3])
  | appendOut h0 => exact invA_ub h true
  | @append b hold pre post h0 h1 h2 h3 h4 =>
    refine invA_worker h s.locked h1 rfl (by simp) (by simp) ?_
    intro hc
    have := (h.quiet hc).2 (.append b hold) (by simp [h1])
    simp [active] at this
  | appendRace h0 => exact invA_ub h true
  | @push b hold θ pre post h0 h1 h2 =>
    have hc : s.counting = true := by
      by_contra hc
      have := (h.quiet (by simpa using hc)).2 (.pushing b hold) (by simp [h1])
      simp [active] at this
    obtain ⟨t1, t2, t3⟩ := h.thr hc
    rw [h2] at t1
    obtain rfl : θ = P.threshold s.samples := by simpa using t1
    refine ⟨?_, ?_, h.flag, by simp [hc], h.le, h.full, h.smp, h.inc, h.sub, ?_, ?_, ?_⟩
    · simpa [h1] using h.size
    · intro c
      have := h.cons c
      simp only [h1, List.filterMap_append, List.filterMap_cons, blkOf, List.count_append,
        List.count_cons, List.count_nil] at this ⊢
      omega
    · intro _
      refine ⟨h2, by simpa [pushEvents] using t2, ?_⟩
      intro p hp
      exact pushEvents_spec (t3 p hp)
    · intro hv; exact h.exited (by simpa [h1] using hv)
    · intro d hd
      have := (h.ret d hd).1 (.pushing b hold) (by simp [h1])
      cases this
  | pushUb h0 => exact invA_ub h true
  | mainSleep h0 h1 h2 h3 =>
    rcases h1 with h1 | h1
    · exact invA_main h s.locked (by simp [h1, owed]) (by simp [h1, early]) (by simp) (by simp)
    · exact invA_main h s.locked (by simp [h1, owed]) (by simp [h1, early]) (by simp) (by simp)
  | mainLock h0 h1 h2 h3 =>
    rcases h1 with h1 | h1
    · exact invA_main h true (by simp [h1, owed]) (by simp [h1, early]) (fun _ => h3) (by simp)
    · exact invA_main h true (by simp [h1, owed]) (by simp [h1, early]) (fun _ => h3) (by simp)
  | mainStart h0 h1 h2 =>
    have hc : s.counting = false := by rw [h.flag, h1]; rfl
    obtain ⟨q1, q2⟩ := h.quiet hc
    refine ⟨h.size, ?_, rfl, by simp, h.le, ?_, h.smp, h.inc, h.sub, ?_, h.exited, by simp⟩
    · intro c
      have := h.cons c
      simpa [h1, owed] using this
    · intro _; exact h.full (.inl h1)
    · intro _
      refine ⟨rfl, by simp, ?_⟩
      intro p hp
      simp [q1, hp]
  | mainUb h0 => exact invA_ub h true
  | mainUnlock h0 h1 =>
    exact invA_main h false (by simp [h1, owed]) (by simp [h1, early]) (by simp) (by simp)
  | mainNotify h0 h1 =>
    have hc : s.counting = true := by rw [h.flag, h1]; rfl
    have hf := h.full (.inr hc)
    have a := invA_wake h
    refine invA_main a s.locked ?_ (by simp [h1, early]) (by simp) (by simp)
    have : s.samples.take P.numBlocks = s.samples := List.take_of_length_le (by omega)
    simp [h1, owed, this]
  | extraOut h0 => exact invA_ub h true
  | extra h0 h1 h2 h3 =>
    exact invA_main h s.locked (by simp [h1, owed]) (by simp [h1, early]) (by simp) (by simp)
  | extraRace h0 => exact invA_ub h true
  | @mainPush b todo second θ h0 h1 h2 =>
    have hc : s.counting = true := by rw [h.flag, h1]; rfl
    obtain ⟨t1, t2, t3⟩ := h.thr hc
    rw [h2] at t1
    obtain rfl : θ = P.threshold s.samples := by simpa using t1
    refine ⟨h.size, ?_, ?_, by simp [hc], h.le, ?_, h.smp, h.inc, h.sub, ?_, h.exited, by simp⟩
    · intro c
      have := h.cons c
      simp only [h1, owed, List.count_append, List.count_cons, List.count_nil, List.cons_append] at this ⊢
      omega
    · simp [hc, early]
    · intro _; exact h.full (.inr hc)
    · intro _
      refine ⟨h2, by simpa [pushEvents] using t2, ?_⟩
      intro p hp
      exact pushEvents_spec (t3 p hp)
  | mainPushUb h0 => exact invA_ub h true
  | mainSecond h0 h1 =>
    exact invA_main h s.locked (by simp [h1, owed]) (by simp [h1, early]) (by simp) (by simp)
  | mainJoin h0 h1 =>
    exact invA_main h s.locked (by simp [h1, owed]) (by simp [h1, early]) (by simp) (by simp)
  | mainDone h0 h1 h2 =>
    refine invA_main h s.locked (by simp [h1, owed]) (by simp [h1, early]) (by simp) ?_
    intro d hd
    simp only [Main.done.injEq] at hd
    exact ⟨h2, hd.symm⟩
  | @spurious b pre post h0 h1 =>
    exact invA_worker h s.locked h1 rfl (by simp) (by simp) (fun _ => rfl)
  | mainSpurious h0 h1 =>
    exact invA_main h s.locked (by simp [h1, owed]) (by simp [h1, early]) (by simp) (by simp)

/-- Synchronisation invariant. -/
structure InvB {Θ : Type} (P : Params Θ) (s : State Θ) : Prop where
  lock : s.locked = true → s.main = .holding ∨ s.main = .started ∨ ∃ w ∈ s.workers, holds w = true
  sleepCounting : s.counting = true → (∃ w ∈ s.workers, isAsleep w = true) →
    s.main = .started ∨ s.main = .notify
  sleepFull : (∃ w ∈ s.workers, waits w = true) → s.samples.length = P.numBlocks
  sleepMain : s.main = .asleep → s.samples.length < P.numBlocks ∨ Worker.notify ∈ s.workers

theorem invB_init {Θ : Type} (P : Params Θ) (blocks : List Blk) : InvB P (init P blocks) := by
  constructor <;> simp [init, isAsleep, waits]

/-- A worker changes its state, the calling thread and the data do not. -/
theorem invB_worker {Θ : Type} {P : Params Θ} {s : State Θ} (h : InvB P s)
    {pre post : List Worker} {w w' : Worker} (locked : Bool) (hw : s.workers = pre ++ w :: post)
    (hl : locked = true → holds w' = true ∨ s.locked = true ∧ holds w = holds w')
    (hs1 : isAsleep w' = true → s.counting = false)
    (hs2 : waits w' = true → s.samples.length = P.numBlocks)
    (hn : w ≠ .notify) :
    InvB P { s with locked := locked, workers := pre ++ w' :: post } := by
  have hex : ∀ (p : Worker → Bool), (∃ v ∈ pre ++ w' :: post, p v = true) →
      p w' = true ∨ ∃ v ∈ s.workers, p v = true := by
    rintro p ⟨v, hv, hp⟩
    simp only [List.mem_append, List.mem_cons] at hv
    rcases hv with hv | rfl | hv
    · exact .inr ⟨v, by simp [hw, hv], hp⟩
    · exact .inl hp
    · exact .inr ⟨v, by simp [hw, hv], hp⟩
  refine ⟨?_, ?_, ?_, ?_⟩
  · intro h1
    rcases hl h1 with h2 | ⟨h2, h3⟩
    · exact .inr (.inr ⟨w', by simp, h2⟩)
    · rcases h.lock h2 with h4 | h4 | ⟨v, hv, hp⟩
      · exact .inl h4
      · exact .inr (.inl h4)
      · refine .inr (.inr ?_)
        rw [hw] at hv
        simp only [List.mem_append, List.mem_cons] at hv
        rcases hv with hv | rfl | hv
        · exact ⟨v, by simp [hv], hp⟩
        · exact ⟨w', by simp, h3 ▸ hp⟩
        · exact ⟨v, by simp [hv], hp⟩
  · intro hc he
    rcases hex isAsleep he with h1 | h1
    · simp [hs1 h1] at hc
    · exact h.sleepCounting hc h1
  · intro he
    rcases hex waits he with h1 | h1
    · exact hs2 h1
    · exact h.sleepFull h1
  · intro hm
    rcases h.sleepMain hm with h1 | h1
    · exact .inl h1
    · right
      rw [hw] at h1
      simp only [List.mem_append, List.mem_cons] at h1 ⊢
      rcases h1 with h1 | h1 | h1
      · exact .inl h1
      · exact absurd h1.symm hn
      · exact .inr (.inr h1)

theorem invB_step {Θ : Type} (P : Params Θ) (blocks : List Blk) (s : State Θ) (l : Label)
    (s' : State Θ) (hA : InvA P blocks s) (h : InvB P s) (hs : Step P s l s') : InvB P s' := by
  have hub : InvB P { s with ub := true } := ⟨h.lock, h.sleepCounting, h.sleepFull, h.sleepMain⟩
  cases hs with
  | @take b p1 p2 pre post h0 h1 h2 =>
    have := invB_worker h s.locked h1 (w' := .got b) (fun hl => .inr ⟨hl, rfl⟩) (by simp [isAsleep])
      (by simp [waits]) (by simp)
    exact ⟨this.lock, this.sleepCounting, this.sleepFull, this.sleepMain⟩
  | @exit pre post h0 h1 h2 =>
    exact invB_worker h s.locked h1 (fun hl => .inr ⟨hl, rfl⟩) (by simp [isAsleep])
      (by simp [waits]) (by simp)
  | @seeFlag b pre post h0 h1 h2 =>
    exact invB_worker h s.locked h1 (fun hl => .inr ⟨hl, rfl⟩) (by simp [isAsleep])
      (by simp [waits]) (by simp)
  | @noFlag b pre post h0 h1 h2 =>
    exact invB_worker h s.locked h1 (fun hl => .inr ⟨hl, rfl⟩) (by simp [isAsleep])
      (by simp [waits]) (by simp)
  | sampleUb h0 => exact hub
  | @sample b pre post h0 h1 h2 h3 h4 =>
    have := invB_worker h s.locked h1 (w' := .idle) (fun hl => .inr ⟨hl, rfl⟩) (by simp [isAsleep])
      (by simp [waits]) (by simp)
    refine ⟨this.lock, this.sleepCounting, ?_, ?_⟩
    · intro he
      have := this.sleepFull he
      simp only at this
      omega
    · intro hm
      left
      simp only [List.length_append, List.length_cons, List.length_nil]; omega
  | @lastSample b pre post h0 h1 h2 h3 h4 =>
    have := invB_worker h s.locked h1 (w' := .notify) (fun hl => .inr ⟨hl, rfl⟩) (by simp [isAsleep])
      (by simp [waits]) (by simp)
    refine ⟨this.lock, this.sleepCounting, ?_, ?_⟩
    · intro he
      simp only [List.length_append, List.length_cons, List.length_nil]; omega
    · intro hm
      right; simp
  | @incomplete b pre post h0 h1 h2 h3 h4 =>
    have := invB_worker h s.locked h1 (w' := .idle) (fun hl => .inr ⟨hl, rfl⟩) (by simp [isAsleep])
      (by simp [waits]) (by simp)
    exact ⟨this.lock, this.sleepCounting, this.sleepFull, this.sleepMain⟩
  | @notifyAll pre post h0 h1 =>
    have hw : ∀ v ∈ pre.map wakeWorker ++ Worker.idle :: post.map wakeWorker,
        v = .idle ∨ ∃ w ∈ s.workers, v = wakeWorker w := by
      intro v hv
      simp only [List.mem_append, List.mem_cons, List.mem_map] at hv
      rcases hv with ⟨w, hv, rfl⟩ | rfl | ⟨w, hv, rfl⟩
      · exact .inr ⟨w, by simp [h1, hv], rfl⟩
      · exact .inl rfl
      · exact .inr ⟨w, by simp [h1, hv], rfl⟩
    refine ⟨?_, ?_, ?_, ?_⟩
    · intro hl
      rcases h.lock hl with h4 | h4 | ⟨v, hv, hp⟩
      · left; simp [h4, wakeMain]
      · right; left; simp [h4, wakeMain]
      · right; right
        have hv2 : wakeWorker v = v := by cases v <;> simp_all [holds, wakeWorker]
        rw [h1] at hv
        simp only [List.mem_append, List.mem_cons] at hv
        rcases hv with hv | rfl | hv
        · exact ⟨v, by
            simp only [List.mem_append, List.mem_map]
            exact .inl ⟨v, hv, hv2⟩, hp⟩
        · simp [holds] at hp
        · exact ⟨v, by
            simp only [List.mem_append, List.mem_cons, List.mem_map]
            exact .inr (.inr ⟨v, hv, hv2⟩), hp⟩
    · rintro hc ⟨v, hv, hp⟩
      rcases hw v hv with rfl | ⟨w, _, rfl⟩
      · simp [isAsleep] at hp
      · cases w <;> simp [isAsleep, wakeWorker] at hp
    · rintro ⟨v, hv, hp⟩
      rcases hw v hv with rfl | ⟨w, hw2, rfl⟩
      · simp [waits] at hp
      · refine h.sleepFull ⟨w, hw2, ?_⟩
        cases w <;> simp_all [waits, wakeWorker]
    · intro hm
      exfalso
      revert hm
      cases s.main <;> simp [wakeMain]
  | @sleep b pre post h0 h1 h2 h3 =>
    rcases h1 with ⟨h1, h4⟩ | h1
    · exact invB_worker h s.locked h1 (fun hl => .inr ⟨hl, rfl⟩) (fun _ => h3)
        (fun _ => Nat.le_antisymm hA.le h4) (by simp)
    · exact invB_worker h s.locked h1 (fun hl => .inr ⟨hl, rfl⟩) (fun _ => h3)
        (fun _ => h.sleepFull ⟨.awake b, by simp [h1], rfl⟩) (by simp)
  | @proceed b pre post h0 h1 h2 h3 =>
    rcases h1 with ⟨h1, h4⟩ | h1
    · exact invB_worker h true h1 (fun hl => .inl rfl) (by simp [isAsleep]) (by simp [waits]) (by simp)
    · exact invB_worker h true h1 (fun hl => .inl rfl) (by simp [isAsleep]) (by simp [waits]) (by simp)
  | appendOut h0 => exact hub
  | @append b hold pre post h0 h1 h2 h3 h4 =>
    exact invB_worker h s.locked h1 (fun hl => .inr ⟨hl, rfl⟩) (by simp [isAsleep])
      (by simp [waits]) (by simp)
  | appendRace h0 => exact hub
  | @push b hold θ pre post h0 h1 h2 =>
    have := invB_worker h (if hold then false else s.locked) h1 (w' := .idle)
      (by cases hold with
        | false => intro hl; exact .inr ⟨by simpa using hl, rfl⟩
        | true => simp)
      (by simp [isAsleep]) (by simp [waits]) (by simp)
    exact ⟨this.lock, this.sleepCounting, this.sleepFull, this.sleepMain⟩
  | pushUb h0 => exact hub
  | mainSleep h0 h1 h2 h3 =>
    have hc : s.counting = false := by
      rw [hA.flag]; rcases h1 with h1 | h1 <;> simp [h1, early]
    refine ⟨by simp [h2], by simp [hc], h.sleepFull, ?_⟩
    intro _
    exact .inl (Nat.lt_of_le_of_ne hA.le h3)
  | mainLock h0 h1 h2 h3 =>
    have hc : s.counting = false := by
      rw [hA.flag]; rcases h1 with h1 | h1 <;> simp [h1, early]
    exact ⟨by simp, by simp [hc], h.sleepFull, by simp⟩
  | mainStart h0 h1 h2 =>
    refine ⟨by simp, by simp, h.sleepFull, by simp⟩
  | mainUb h0 => exact hub
  | mainUnlock h0 h1 =>
    exact ⟨by simp, by simp, h.sleepFull, by simp⟩
  | mainNotify h0 h1 =>
    have hw : ∀ v ∈ s.workers.map wakeWorker, ∃ w ∈ s.workers, v = wakeWorker w := by
      intro v hv
      obtain ⟨w, hw, rfl⟩ := List.mem_map.1 hv
      exact ⟨w, hw, rfl⟩
    refine ⟨?_, ?_, ?_, by simp⟩
    · intro hl
      rcases h.lock hl with h4 | h4 | ⟨v, hv, hp⟩
      · simp [h1] at h4
      · simp [h1] at h4
      · right; right
        have hv2 : wakeWorker v = v := by cases v <;> simp_all [holds, wakeWorker]
        exact ⟨v, List.mem_map.2 ⟨v, hv, hv2⟩, hp⟩
    · rintro hc ⟨v, hv, hp⟩
      obtain ⟨w, _, rfl⟩ := hw v hv
      cases w <;> simp [isAsleep, wakeWorker] at hp
    · rintro ⟨v, hv, hp⟩
      obtain ⟨w, hw2, rfl⟩ := hw v hv
      refine h.sleepFull ⟨w, hw2, ?_⟩
      cases w <;> simp_all [waits, wakeWorker]
  | extraOut h0 => exact hub
  | extra h0 h1 h2 h3 =>
    refine ⟨?_, ?_, h.sleepFull, by simp⟩
    · intro hl; simpa [h1] using h.lock hl
    · intro hc he; simpa [h1] using h.sleepCounting hc he
  | extraRace h0 => exact hub
  | mainPush h0 h1 h2 =>
    refine ⟨?_, ?_, h.sleepFull, by simp⟩
    · intro hl; simpa [h1] using h.lock hl
    · intro hc he; simpa [h1] using h.sleepCounting hc he
  | mainPushUb h0 => exact hub
  | mainSecond h0 h1 =>
    refine ⟨?_, ?_, h.sleepFull, by simp⟩
    · intro hl; simpa [h1] using h.lock hl
    · intro hc he; simpa [h1] using h.sleepCounting hc he
  | mainJoin h0 h1 =>
    refine ⟨?_, ?_, h.sleepFull, by simp⟩
    · intro hl; simpa [h1] using h.lock hl
    · intro hc he; simpa [h1] using h.sleepCounting hc he
  | mainDone h0 h1 h2 =>
    refine ⟨?_, ?_, h.sleepFull, by simp⟩
    · intro hl; simpa [h1] using h.lock hl
    · intro hc he; simpa [h1] using h.sleepCounting hc he
  | @spurious b pre post h0 h1 =>
    exact invB_worker h s.locked h1 (fun hl => .inr ⟨hl, rfl⟩) (by simp [isAsleep])
      (fun _ => h.sleepFull ⟨.asleep b, by simp [h1], rfl⟩) (by simp)
  | mainSpurious h0 h1 =>
    have hc : s.counting = false := by rw [hA.flag]; simp [h1, early]
    refine ⟨?_, by simp [hc], h.sleepFull, by simp⟩
    intro hl; simpa [h1] using h.lock hl

theorem invAB {Θ : Type} {P : Params Θ} {blocks : List Blk} {s : State Θ}
    (h : Reach (Step P) (init P blocks) s) : InvA P blocks s ∧ InvB P s :=
  h.inv (fun s => InvA P blocks s ∧ InvB P s) ⟨invA_init P blocks, invB_init P blocks⟩
    (fun a l c hi hs => ⟨invA_step P blocks a l c hi.1 hs, invB_step P blocks a l c hi.1 hi.2 hs⟩)

end Stempy.Streaming
