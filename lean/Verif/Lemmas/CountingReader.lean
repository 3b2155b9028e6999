import Verif.Model.CountingReader
import Verif.Lemmas.Streaming
import Verif.Lemmas.ProcessPass

/-!
The counting with the code of the reader is simulated by the counting with an unordered supply of blocks.
-/

namespace Stempy.CountingReader
open Stempy.Spec Stempy.Streaming
open Stempy.MultiPass (PState PWorker PStep pinit ScanMap PInv)

variable {D Θ : Type}

/-- A worker that has returned is seen as one that does not take a block. -/
def back : Worker → Worker
  | .exited => .idle
  | w => w

/-- The counting as a state of `Streaming`, with the blocks `rem` still to be delivered. -/
def abs (c : Streaming.State Θ) (rem : List Blk) : Streaming.State Θ :=
  { c with pending := rem, workers := c.workers.map back }

theorem back_wake (w : Worker) : back (wakeWorker w) = wakeWorker (back w) := by cases w <;> rfl

theorem map_back_wake (l : List Worker) : (l.map wakeWorker).map back = (l.map back).map wakeWorker := by
  simp [back_wake]

theorem pushesAt_back (p : Nat) (w : Worker) : pushesAt p (back w) = pushesAt p w := by cases w <;> rfl

theorem pushesAt_all {p : Nat} {l : List Worker} (h : ∀ w ∈ l, pushesAt p w = false) :
    ∀ w ∈ l.map back, pushesAt p w = false := by
  intro w hw
  obtain ⟨v, hv, rfl⟩ := List.mem_map.1 hw
  rw [pushesAt_back]
  exact h v hv

/-- A step of the counting that does not belong to the reader is a step of `Streaming`. -/
theorem abs_step {P : Params Θ} {c c' : Streaming.State Θ} {l : Streaming.Label} (h : Streaming.Step P c l c')
    (hi : Inside c c') (rem : List Blk) : Streaming.Step P (abs c rem) l (abs c' rem) := by
  obtain ⟨hp, hx, hd⟩ := hi
  have split : ∀ {pre post : List Worker} {w : Worker}, c.workers = pre ++ w :: post →
      (abs c rem).workers = pre.map back ++ back w :: post.map back := by
    intro pre post w hw
    simp [abs, hw]
  have free : ∀ {pre post : List Worker} {p : Nat}, (∀ w ∈ pre ++ post, pushesAt p w = false) →
      ∀ w ∈ pre.map back ++ post.map back, pushesAt p w = false := by
    intro pre post p hf
    rw [← List.map_append]
    exact pushesAt_all hf
  cases h with
  | @take b p1 p2 pre post h0 h1 h2 =>
    simp only [h2] at hp
    have := congrArg List.length hp
    simp at this
  | @exit pre post h0 h1 h2 => simp [h1] at hx
  | @seeFlag b pre post h0 h1 h2 =>
    have := Streaming.Step.seeFlag (P := P) (s := abs c rem) h0 (split h1) h2
    simpa [abs, back] using this
  | @noFlag b pre post h0 h1 h2 =>
    have := Streaming.Step.noFlag (P := P) (s := abs c rem) h0 (split h1) h2
    simpa [abs, back] using this
  | @sampleUb b pre post h0 h1 h2 h3 h4 =>
    exact Streaming.Step.sampleUb (P := P) (s := abs c rem) h0 (split h1) h2 h3 h4
  | @sample b pre post h0 h1 h2 h3 h4 =>
    have := Streaming.Step.sample (P := P) (s := abs c rem) h0 (split h1) h2 h3 h4
    simpa [abs, back] using this
  | @lastSample b pre post h0 h1 h2 h3 h4 =>
    have := Streaming.Step.lastSample (P := P) (s := abs c rem) h0 (split h1) h2 h3 h4
    simpa [abs, back] using this
  | @incomplete b pre post h0 h1 h2 h3 h4 =>
    have := Streaming.Step.incomplete (P := P) (s := abs c rem) h0 (split h1) h2 h3 h4
    simpa [abs, back] using this
  | @notifyAll pre post h0 h1 =>
    have := Streaming.Step.notifyAll (P := P) (s := abs c rem) h0 (split h1)
    have e : back .idle = .idle := rfl
    have e' : back .notify = .notify := rfl
    simpa [abs, e, e', back_wake, Function.comp_def] using this
  | @sleep b pre post h0 h1 h2 h3 =>
    have := Streaming.Step.sleep (P := P) (s := abs c rem) h0 (h1.imp (fun h => ⟨split h.1, h.2⟩) split) h2 h3
    simpa [abs, back] using this
  | @proceed b pre post h0 h1 h2 h3 =>
    have := Streaming.Step.proceed (P := P) (s := abs c rem) h0 (h1.imp (fun h => ⟨split h.1, h.2⟩) split) h2 h3
    simpa [abs, back] using this
  | @appendOut b hold pre post h0 h1 h2 =>
    exact Streaming.Step.appendOut (P := P) (s := abs c rem) h0 (split h1) h2
  | @append b hold pre post h0 h1 h2 h3 h4 =>
    have := Streaming.Step.append (P := P) (s := abs c rem) h0 (split h1) h2 (free h3) h4
    simpa [abs, back] using this
  | @appendRace b hold pre post h0 h1 h2 h3 h4 =>
    exact Streaming.Step.appendRace (P := P) (s := abs c rem) h0 (split h1) h2 (free h3) h4
  | @push b hold θ pre post h0 h1 h2 =>
    have := Streaming.Step.push (P := P) (s := abs c rem) h0 (split h1) h2
    simpa [abs, back, pushEvents] using this
  | @pushUb b hold pre post h0 h1 h2 =>
    exact Streaming.Step.pushUb (P := P) (s := abs c rem) h0 (split h1) h2
  | mainSleep h0 h1 h2 h3 => exact Streaming.Step.mainSleep (P := P) (s := abs c rem) h0 h1 h2 h3
  | mainLock h0 h1 h2 h3 => exact Streaming.Step.mainLock (P := P) (s := abs c rem) h0 h1 h2 h3
  | mainStart h0 h1 h2 => exact Streaming.Step.mainStart (P := P) (s := abs c rem) h0 h1 h2
  | mainUb h0 h1 h2 => exact Streaming.Step.mainUb (P := P) (s := abs c rem) h0 h1 h2
  | mainUnlock h0 h1 => exact Streaming.Step.mainUnlock (P := P) (s := abs c rem) h0 h1
  | mainNotify h0 h1 =>
    have := Streaming.Step.mainNotify (P := P) (s := abs c rem) h0 h1
    simpa [abs, ← map_back_wake, back_wake, Function.comp_def] using this
  | extraOut h0 h1 h2 => exact Streaming.Step.extraOut (P := P) (s := abs c rem) h0 h1 h2
  | extra h0 h1 h2 h3 => exact Streaming.Step.extra (P := P) (s := abs c rem) h0 h1 h2 (pushesAt_all h3)
  | @extraRace b todo second w h0 h1 h2 h3 h4 =>
    exact Streaming.Step.extraRace (P := P) (s := abs c rem) (w := back w) h0 h1 h2 (List.mem_map_of_mem h3)
      (by rw [pushesAt_back]; exact h4)
  | mainPush h0 h1 h2 =>
    have := Streaming.Step.mainPush (P := P) (s := abs c rem) h0 h1 h2
    simpa [abs, pushEvents] using this
  | mainPushUb h0 h1 h2 => exact Streaming.Step.mainPushUb (P := P) (s := abs c rem) h0 h1 h2
  | mainSecond h0 h1 => exact Streaming.Step.mainSecond (P := P) (s := abs c rem) h0 h1
  | mainJoin h0 h1 => exact Streaming.Step.mainJoin (P := P) (s := abs c rem) h0 h1
  | mainDone h0 h1 h2 => exact absurd rfl (hd _)
  | @spurious b pre post h0 h1 =>
    have := Streaming.Step.spurious (P := P) (s := abs c rem) h0 (split h1)
    simpa [abs, back] using this
  | mainSpurious h0 h1 => exact Streaming.Step.mainSpurious (P := P) (s := abs c rem) h0 h1

/-- When no block is left, idle workers return one after the other. -/
theorem exits {P : Params Θ} (s : Streaming.State Θ) (hub : s.ub = false) (hp : s.pending = []) :
    ∀ (pre ws : List Worker), s.workers = pre ++ ws → (∀ w ∈ ws, w = .idle) →
      Run (Streaming.Step P) s (List.replicate ws.length .internal)
        { s with workers := pre ++ List.replicate ws.length .exited } := by
  intro pre ws
  induction ws generalizing s pre with
  | nil =>
    intro hw _
    have : s = { s with workers := pre ++ List.replicate 0 .exited } := by
      cases s; simp only [List.append_nil] at hw; simp [hw]
    rw [List.length_nil, ← this]
    exact .nil s
  | cons w ws ih =>
    intro hw hall
    obtain rfl : w = .idle := hall w (by simp)
    have h1 : Streaming.Step P s .internal { s with workers := pre ++ .exited :: ws } := .exit hub hw hp
    have h2 := ih { s with workers := pre ++ .exited :: ws } hub hp (pre ++ [.exited]) (by simp)
      fun v hv => hall v (by simp [hv])
    have h3 := Run.cons h1 h2
    simpa [List.replicate_succ] using h3


/-! ### The simulation -/

def goneC : Worker → Bool
  | .exited => true
  | _ => false

def goneR : PWorker D → Bool
  | .exited => true
  | _ => false

theorem goneC_iff {w : Worker} : goneC w = true ↔ w = .exited := by cases w <;> simp [goneC]

theorem goneR_iff {w : PWorker D} : goneR w = true ↔ w = .exited := by cases w <;> simp [goneR]

theorem gone_wake (w : Worker) : goneC (wakeWorker w) = goneC w := by cases w <;> rfl

/-- Steps inside of the counting do not end tasks. -/
theorem gone_step {P : Params Θ} {c c' : Streaming.State Θ} {l : Streaming.Label} (h : Streaming.Step P c l c')
    (hi : Inside c c') : c'.workers.map goneC = c.workers.map goneC := by
  obtain ⟨hp, hx, hd⟩ := hi
  cases h with
  | exit h0 h1 h2 => simp [h1] at hx
  | take h0 h1 h2 => simp [h1, goneC]
  | seeFlag h0 h1 => simp [h1, goneC]
  | noFlag h0 h1 => simp [h1, goneC]
  | sample h0 h1 => simp [h1, goneC]
  | lastSample h0 h1 => simp [h1, goneC]
  | incomplete h0 h1 => simp [h1, goneC]
  | notifyAll h0 h1 =>
    have e : goneC .idle = goneC .notify := rfl
    simp [h1, e, gone_wake, Function.comp_def]
  | sleep h0 h1 => rcases h1 with ⟨h1, _⟩ | h1 <;> simp [h1, goneC]
  | proceed h0 h1 => rcases h1 with ⟨h1, _⟩ | h1 <;> simp [h1, goneC]
  | append h0 h1 => simp [h1, goneC]
  | push h0 h1 => simp [h1, goneC]
  | mainNotify h0 h1 => simp [gone_wake, Function.comp_def]
  | spurious h0 h1 => simp [h1, goneC]
  | _ => rfl

/-- Once the calling thread has returned it stays so. -/
theorem done_step {P : Params Θ} {c c' : Streaming.State Θ} {l : Streaming.Label} (h : Streaming.Step P c l c')
    {d : List (List (List Nat))} (hm : c.main = .done d) : c'.main = .done d := by
  cases h <;> simp_all [wakeMain]

/-- All blocks of the reader for the positions `lo`, ..., `hi - 1`. -/
def blocks (files : List (MultiPass.File D)) (map : ScanMap) (lo hi : Nat) : List (MultiPass.Block D) :=
  (MultiPass.frames map lo hi).map fun x =>
    MultiPass.processFrame files (((map x.1).get x.2).getD fun _ => none) x.1 x.2

theorem delivered_blocks {files : List (MultiPass.File D)} {map : ScanMap} {lo hi : Nat} {r : PState D}
    (I : PInv files map lo hi r) : ∃ X, (r.delivered ++ X).Perm (blocks files map lo hi) := by
  have h := I.perm.map fun x : Nat × Nat =>
    MultiPass.processFrame files (((map x.1).get x.2).getD fun _ => none) x.1 x.2
  rw [List.append_assoc, List.map_append, List.map_map] at h
  have e : r.delivered.map ((fun x : Nat × Nat =>
      MultiPass.processFrame files (((map x.1).get x.2).getD fun _ => none) x.1 x.2) ∘ fun b => (b.pos, b.frame)) =
      r.delivered := by
    conv_rhs => rw [← List.map_id r.delivered]
    apply List.map_congr_left
    intro b hb
    obtain ⟨a, ha, hbe⟩ := I.good b hb
    simp only [Function.comp, ha, Option.getD_some, id]
    exact hbe.symm
  rw [e] at h
  exact ⟨_, h⟩

theorem delivered_all {files : List (MultiPass.File D)} {map : ScanMap} {lo hi : Nat} {r : PState D}
    (I : PInv files map lo hi r) (hne : r.workers ≠ []) (hex : ∀ w ∈ r.workers, w = .exited) :
    r.delivered.length = (blocks files map lo hi).length := by
  have hmem : (.exited : PWorker D) ∈ r.workers := by
    obtain ⟨w, l, hw⟩ := List.exists_cons_of_ne_nil hne
    rw [← hex w (by simp [hw])]
    simp [hw]
  have hh : r.workers.flatMap MultiPass.pheld = [] := by
    rw [List.flatMap_eq_nil_iff]
    intro w hw
    rw [hex w hw]
    rfl
  have hp := I.perm
  rw [hh, MultiPass.frames_ge map (I.exited hmem)] at hp
  simpa [blocks] using hp.length_eq

structure Sim (K : Call D Θ) (files : List (MultiPass.File D)) (map : ScanMap) (lo hi : Nat) (at_ : Nat → Nat)
    (ls : List Label) (x : State D Θ) : Prop where
  sync : x.counting.workers.map goneC = x.reader.workers.map goneR
  pend : x.counting.pending = []
  reader : ∃ rls, Run (PStep files map hi) (pinit K.threads lo at_) rls x.reader ∧ rls.length = ls.count .reader
  counting : ∃ rem als, (x.reader.delivered.map K.tag ++ rem).Perm ((blocks files map lo hi).map K.tag) ∧
    ls.length ≤ als.length + ls.count .reader ∧ als.count .spurious = ls.count (.count .spurious) ∧
    (((∀ d, x.counting.main ≠ .done d) ∧
        Run (Streaming.Step K.params) (Streaming.init K.params ((blocks files map lo hi).map K.tag)) als
          (abs x.counting rem)) ∨
      ((∃ d, x.counting.main = .done d) ∧ rem = [] ∧ (∀ w ∈ x.counting.workers, w = .exited) ∧
        Run (Streaming.Step K.params) (Streaming.init K.params ((blocks files map lo hi).map K.tag)) als x.counting))

theorem pinv_run {files : List (MultiPass.File D)} {map : ScanMap} {threads lo hi : Nat} {at_ : Nat → Nat}
    {rls : List Unit} {r : PState D} (h : Run (PStep files map hi) (pinit threads lo at_) rls r) :
    PInv files map lo hi r ∧ r.workers.length = threads :=
  h.inv (fun r => PInv files map lo hi r ∧ r.workers.length = threads)
    ⟨MultiPass.pinv_init files map threads lo hi at_, by simp [pinit]⟩ fun _ _ _ hI hs =>
      ⟨MultiPass.pinv_step hI.1 hs, by have := hI.2; cases hs <;> simp_all⟩

theorem sim {K : Call D Θ} (hn : 0 < K.threads) {files : List (MultiPass.File D)} {map : ScanMap} {lo hi : Nat}
    {at_ : Nat → Nat} {ls : List Label} {x : State D Θ}
    (h : Run (Step K files map hi) (init K lo at_) ls x) : Sim K files map lo hi at_ ls x := by
  generalize hx0 : init K lo at_ = x0 at h
  induction h with
  | nil =>
    subst hx0
    refine ⟨?_, rfl, ⟨[], .nil _, rfl⟩, (blocks files map lo hi).map K.tag, [], ?_, by simp, by simp, .inl ⟨?_, ?_⟩⟩
    · simp [init, Streaming.init, pinit, goneC, goneR, Call.params]
    · simp [init, pinit]
    · intro d; simp [init, Streaming.init]
    · have : abs (init K lo at_).counting ((blocks files map lo hi).map K.tag) =
          Streaming.init K.params ((blocks files map lo hi).map K.tag) := by
        simp [abs, init, Streaming.init, back]
      rw [this]
      exact .nil _
  | @snoc y z ls l hr hs ih =>
    obtain ⟨sync, pend, ⟨rls, hrr, hrl⟩, rem, als, hperm, hlen, hsp, hcnt⟩ := ih
    have notDone : ∀ {cpre cpost}, y.counting.workers = cpre ++ .idle :: cpost → (∀ d, y.counting.main ≠ .done d) ∧
        Run (Streaming.Step K.params) (Streaming.init K.params ((blocks files map lo hi).map K.tag)) als
          (abs y.counting rem) := by
      intro cpre cpost hw
      rcases hcnt with hc | ⟨_, _, hall, _⟩
      · exact hc
      · have := hall .idle (by simp [hw])
        cases this
    cases hs with
    | @read r' rpre rpost w w' cpre cpost h0 hp h1 h2 h3 h4 h5 h6 =>
      refine ⟨?_, pend, ⟨rls ++ [()], hrr.snoc hp, by simp [hrl]⟩, rem, als, ?_, ?_, ?_, .inl (notDone h5)⟩
      · rw [h1, h5] at sync
        simp only [List.map_append, List.map_cons] at sync
        obtain ⟨e1, e2⟩ := List.append_inj sync (by simpa using h6)
        simp only [List.cons.injEq] at e2
        simp only [h2, h5, List.map_append, List.map_cons, e1, e2.2]
        have : goneR w' = false := by
          rw [← Bool.not_eq_true, goneR_iff]
          exact h3
        rw [this]
        rfl
      · rw [h4]; exact hperm
      · simp; omega
      · rw [hsp]; simp
    | @deliver r' rpre rpost w w' cpre cpost b h0 hp h1 h2 h3 h4 h5 h6 =>
      obtain ⟨hnd, hrun⟩ := notDone h5
      have hrun' := hrr.snoc hp
      obtain ⟨X, hX⟩ := delivered_blocks (pinv_run hrun').1
      have hX' := (hX.map K.tag).symm
      rw [h4] at hX'
      simp only [List.map_append, List.map_cons, List.map_nil, List.append_assoc] at hX'
      have hrem : rem.Perm (K.tag b :: X.map K.tag) := (List.perm_append_left_iff _).1 (hperm.trans hX')
      obtain ⟨p1, p2, e⟩ := List.append_of_mem (hrem.mem_iff.2 (List.mem_cons_self : K.tag b ∈ K.tag b :: X.map K.tag))
      subst e
      have hstep : Streaming.Step K.params (abs y.counting (p1 ++ K.tag b :: p2)) .internal
          (abs { y.counting with workers := cpre ++ .got (K.tag b) :: cpost } (p1 ++ p2)) := by
        have := Streaming.Step.take (P := K.params) (s := abs y.counting (p1 ++ K.tag b :: p2)) (b := K.tag b) (p1 := p1)
          (p2 := p2) (pre := cpre.map back) (post := cpost.map back) h0 (by simp [abs, h5, back]) rfl
        simpa [abs, back] using this
      refine ⟨?_, pend, ⟨rls ++ [()], hrun', by simp [hrl]⟩, p1 ++ p2, als ++ [.internal], ?_, ?_, ?_,
        .inl ⟨hnd, hrun.snoc hstep⟩⟩
      · rw [h1, h5] at sync
        simp only [List.map_append, List.map_cons] at sync
        obtain ⟨e1, e2⟩ := List.append_inj sync (by simpa using h6)
        simp only [List.cons.injEq] at e2
        simp only [h2, List.map_append, List.map_cons, e1, e2.2]
        have : goneR w' = false := by
          rw [← Bool.not_eq_true, goneR_iff]
          exact h3
        rw [this]
        rfl
      · simp only [h4, List.map_append, List.map_cons, List.map_nil, List.append_assoc]
        refine List.Perm.trans ?_ hperm
        refine List.Perm.append_left _ ?_
        exact (List.perm_middle (l₁ := p1) (l₂ := p2) (a := K.tag b)).symm
      · simp; omega
      · simp [hsp]
    | @finish r' rpre rpost w cpre cpost h0 hp h1 h2 h3 h5 h6 =>
      obtain ⟨hnd, hrun⟩ := notDone h5
      refine ⟨?_, pend, ⟨rls ++ [()], hrr.snoc hp, by simp [hrl]⟩, rem, als, ?_, ?_, ?_, .inl ⟨hnd, ?_⟩⟩
      · rw [h1, h5] at sync
        simp only [List.map_append, List.map_cons] at sync
        obtain ⟨e1, e2⟩ := List.append_inj sync (by simpa using h6)
        simp only [List.cons.injEq] at e2
        simp only [h2, List.map_append, List.map_cons, e1, e2.2]
        rfl
      · simp only [h3]; exact hperm
      · simp; omega
      · rw [hsp]; simp
      · have : abs { y.counting with workers := cpre ++ .exited :: cpost } rem = abs y.counting rem := by
          simp [abs, h5, back]
        rw [this]
        exact hrun
    | @count l c' hc hin =>
      rcases hcnt with ⟨hnd, hrun⟩ | ⟨⟨d, hd⟩, _, _, _⟩
      · refine ⟨?_, ?_, ⟨rls, hrr, by simp [hrl]⟩, rem, als ++ [l], hperm, ?_, ?_,
          .inl ⟨hin.2.2, hrun.snoc (abs_step hc hin rem)⟩⟩
        · rw [gone_step hc hin]; exact sync
        · rw [hin.1]; exact pend
        · simp; omega
        · cases l <;> simp [hsp]
      · exact absurd (done_step hc hd) (hin.2.2 d)
    | join h0 hm hall =>
      obtain ⟨hnd, hrun⟩ : (∀ d, y.counting.main ≠ .done d) ∧
          Run (Streaming.Step K.params) (Streaming.init K.params ((blocks files map lo hi).map K.tag)) als
            (abs y.counting rem) := by
        rcases hcnt with hc | ⟨⟨d, hd⟩, _⟩
        · exact hc
        · rw [hm] at hd; cases hd
      obtain ⟨I, hlenr⟩ := pinv_run hrr
      have hne : y.reader.workers ≠ [] := by
        intro e; rw [e] at hlenr; simp at hlenr; omega
      have hlall := delivered_all I hne hall
      have hrem : rem = [] := by
        have := hperm.length_eq
        simp at this
        exact List.length_eq_zero_iff.1 (by omega)
      subst hrem
      have hgone : ∀ w ∈ y.counting.workers, w = .exited := by
        intro w hw
        rw [← goneC_iff]
        have h1 : goneC w ∈ y.reader.workers.map goneR := by rw [← sync]; exact List.mem_map_of_mem hw
        obtain ⟨v, hv, e⟩ := List.mem_map.1 h1
        rw [← e, goneR_iff]
        exact hall v hv
      have hrep : y.counting.workers = List.replicate y.counting.workers.length .exited :=
        List.eq_replicate_iff.2 ⟨rfl, hgone⟩
      have hidle : ∀ w ∈ (abs y.counting []).workers, w = .idle := by
        intro w hw
        obtain ⟨v, hv, rfl⟩ := List.mem_map.1 hw
        rw [hgone v hv]
        rfl
      have hex := exits (P := K.params) (abs y.counting []) h0 rfl [] (abs y.counting []).workers rfl hidle
      have hstate : { abs y.counting [] with workers := [] ++ List.replicate (abs y.counting []).workers.length .exited } =
          y.counting := by
        have e1 : (abs y.counting []).workers.length = y.counting.workers.length := by simp [abs]
        rw [e1, List.nil_append, ← hrep]
        simp [abs, ← pend]
      rw [hstate] at hex
      have hfin := (hrun.trans hex).snoc (Streaming.Step.mainDone (P := K.params) (s := y.counting) h0 hm hgone)
      refine ⟨sync, pend, ⟨rls, hrr, by simp [hrl]⟩, [], _, hperm, ?_, ?_, .inr ⟨⟨_, rfl⟩, rfl, hgone, hfin⟩⟩
      · simp; omega
      · simp [hsp, List.count_replicate]

/-! ### Progress -/

theorem pstep_shape {files : List (MultiPass.File D)} {map : ScanMap} {hi : Nat} {s t : PState D}
    (h : PStep files map hi s () t) : ∃ pre w post w', s.workers = pre ++ w :: post ∧ t.workers = pre ++ w' :: post ∧
      w ≠ .exited ∧ ((w' ≠ .exited ∧ t.delivered = s.delivered) ∨ (w' ≠ .exited ∧ ∃ b, t.delivered = s.delivered ++ [b]) ∨
        (w' = .exited ∧ t.delivered = s.delivered)) := by
  cases h with
  | done hw _ => exact ⟨_, _, _, _, hw, rfl, by simp, .inr (.inr ⟨rfl, rfl⟩)⟩
  | overrun hw _ => exact ⟨_, _, _, _, hw, rfl, by simp, .inr (.inr ⟨rfl, rfl⟩)⟩
  | deliver hw => exact ⟨_, _, _, _, hw, rfl, by simp, .inr (.inl ⟨by simp, _, rfl⟩)⟩
  | more hw _ => exact ⟨_, _, _, _, hw, rfl, by simp, .inl ⟨by simp, rfl⟩⟩
  | fetch hw _ => exact ⟨_, _, _, _, hw, rfl, by simp, .inl ⟨by simp, rfl⟩⟩
  | end_ hw => exact ⟨_, _, _, _, hw, rfl, by simp, .inl ⟨by simp, rfl⟩⟩
  | frame hw => exact ⟨_, _, _, _, hw, rfl, by simp, .inl ⟨by simp, rfl⟩⟩
  | missing hw => exact ⟨_, _, _, _, hw, rfl, by simp, .inl ⟨by simp, rfl⟩⟩
  | acquire hw => exact ⟨_, _, _, _, hw, rfl, by simp, .inl ⟨by simp, rfl⟩⟩
  | seek hw => exact ⟨_, _, _, _, hw, rfl, by simp, .inl ⟨by simp, rfl⟩⟩
  | read hw => exact ⟨_, _, _, _, hw, rfl, by simp, .inl ⟨by simp, rfl⟩⟩

/-- A step of the reader is a step, if the worker is not in the counting. -/
theorem reader_step {K : Call D Θ} {files : List (MultiPass.File D)} {map : ScanMap} {hi : Nat} {x : State D Θ}
    {r' : PState D} (hub : x.counting.ub = false) (h : PStep files map hi x.reader () r')
    (sync : x.counting.workers.map goneC = x.reader.workers.map goneR)
    (hw : ∀ w ∈ x.counting.workers, w = .idle ∨ w = .exited) : ∃ x', Step K files map hi x .reader x' := by
  obtain ⟨pre, w, post, w', h1, h2, h3, h4⟩ := pstep_shape h
  rw [h1, List.map_append, List.map_cons] at sync
  obtain ⟨cpre, c2, e, ec, e2⟩ := List.map_eq_append_iff.1 sync
  obtain ⟨v, cpost, rfl, ev, _⟩ := List.map_eq_cons_iff.1 e2
  have hlen : cpre.length = pre.length := by simpa using congrArg List.length ec
  have hv : v = .idle := by
    rcases hw v (by simp [e]) with hv | rfl
    · exact hv
    · exfalso
      apply h3
      rw [← goneR_iff, ← ev]
      rfl
  subst hv
  rcases h4 with ⟨h4, h5⟩ | ⟨h4, b, h5⟩ | ⟨rfl, h5⟩
  · exact ⟨_, .read hub h h1 h2 h4 h5 e hlen⟩
  · exact ⟨_, .deliver hub h h1 h2 h4 h5 e hlen⟩
  · exact ⟨_, .finish hub h h1 h2 h5 e hlen⟩

/-- If no thread can go on inside of the counting, the workers are in the reader and the calling thread waits for them. -/
theorem stuck {P : Params Θ} {c : Streaming.State Θ} {rem bs : List Blk} (hA : InvA P bs (abs c rem)) (hB : InvB P (abs c rem))
    (hub : c.ub = false) (hd : ∀ d, c.main ≠ .done d)
    (hno : ∀ c', Streaming.Step P c .internal c' → ¬ Inside c c') :
    (∀ w ∈ c.workers, w = .idle ∨ w = .exited) ∧
      (c.main = .join ∨ c.main = .asleep ∧ c.samples.length < P.numBlocks) := by
  have hmem : ∀ w ∈ c.workers, back w ∈ (abs c rem).workers := fun w hw => List.mem_map_of_mem hw
  have wake : ∀ l : List Worker, (l.map wakeWorker).count .exited = l.count .exited := by
    intro l
    induction l with
    | nil => rfl
    | cons w l ih => cases w <;> simp [wakeWorker, ih]
  have hgot : ∀ b, Worker.got b ∉ c.workers := by
    intro b hm
    obtain ⟨pre, post, e⟩ := List.append_of_mem hm
    cases hc : c.counting with
    | true => exact hno _ (.seeFlag hub e hc) ⟨rfl, by simp [e], hd⟩
    | false => exact hno _ (.noFlag hub e hc) ⟨rfl, by simp [e], hd⟩
  have hnot : Worker.notify ∉ c.workers := by
    intro hm
    obtain ⟨pre, post, e⟩ := List.append_of_mem hm
    refine hno _ (.notifyAll hub e) ⟨rfl, by simp [e, wake], ?_⟩
    intro d hw
    refine hd d ?_
    revert hw
    simp only
    cases c.main <;> simp [wakeMain]
  have hpush : ∀ b k, Worker.pushing b k ∉ c.workers := by
    intro b k hm
    obtain ⟨pre, post, e⟩ := List.append_of_mem hm
    cases ht : c.thresholds with
    | none => exact hno _ (.pushUb hub e ht) ⟨rfl, by simp, hd⟩
    | some θ => exact hno _ (.push hub e ht) ⟨rfl, by simp [e], hd⟩
  have happ : ∀ b k, Worker.append b k ∉ c.workers := by
    intro b k hm
    obtain ⟨pre, post, e⟩ := List.append_of_mem hm
    by_cases hpos : b.pos < c.events.length
    · have hfree : ∀ w ∈ pre ++ post, pushesAt b.pos w = false := by
        intro w hw
        cases w with
        | pushing b' k' =>
          refine absurd ?_ (hpush b' k')
          rw [e]
          simp only [List.mem_append, List.mem_cons] at hw ⊢
          rcases hw with hw | hw
          · exact .inl hw
          · exact .inr (.inr hw)
        | _ => rfl
      cases hm : mainPushesAt b.pos c.main with
      | false => exact hno _ (.append hub e hpos hfree hm) ⟨rfl, by simp [e], hd⟩
      | true => exact hno _ (.appendRace hub e hpos hfree hm) ⟨rfl, by simp, hd⟩
    · exact hno _ (.appendOut hub e (by omega)) ⟨rfl, by simp, hd⟩
  have hholding : c.main ≠ .holding := by
    intro hm
    by_cases hs : c.samples = []
    · exact hno _ (.mainUb hub hm hs) ⟨rfl, by simp, hd⟩
    · exact hno _ (.mainStart hub hm hs) ⟨rfl, by simp, by simp⟩
  have hstarted : c.main ≠ .started := fun hm => hno _ (.mainUnlock hub hm) ⟨rfl, by simp, by simp⟩
  have hlock : c.locked = false := by
    by_contra hl
    rcases hB.lock (by simpa [abs] using hl) with h1 | h1 | ⟨w, hw, h1⟩
    · exact hholding h1
    · exact hstarted h1
    · obtain ⟨v, hv, rfl⟩ := List.mem_map.1 hw
      cases v with
      | append b k => exact happ b k hv
      | pushing b k => exact hpush b k hv
      | _ => simp [holds, back] at h1
  have hawake : ∀ b, Worker.awake b ∉ c.workers := by
    intro b hm
    obtain ⟨pre, post, e⟩ := List.append_of_mem hm
    cases hc : c.counting with
    | true => exact hno _ (.proceed hub (.inr e) hlock hc) ⟨rfl, by simp [e], hd⟩
    | false => exact hno _ (.sleep hub (.inr e) hlock hc) ⟨rfl, by simp [e], hd⟩
  have hwant : ∀ b, Worker.wantLock b ∉ c.workers := by
    intro b hm
    obtain ⟨pre, post, e⟩ := List.append_of_mem hm
    by_cases hl : c.samples.length < P.numBlocks
    · cases hcm : b.complete with
      | none => exact hno _ (.sampleUb hub e hlock hl hcm) ⟨rfl, by simp, hd⟩
      | some k =>
        cases k with
        | false => exact hno _ (.incomplete hub e hlock hl hcm) ⟨rfl, by simp [e], hd⟩
        | true =>
          by_cases h1 : c.samples.length + 1 = P.numBlocks
          · exact hno _ (.lastSample hub e hlock h1 hcm) ⟨rfl, by simp [e], hd⟩
          · exact hno _ (.sample hub e hlock (by omega) hcm) ⟨rfl, by simp [e], hd⟩
    · cases hc : c.counting with
      | true => exact hno _ (.proceed hub (.inl ⟨e, by omega⟩) hlock hc) ⟨rfl, by simp [e], hd⟩
      | false => exact hno _ (.sleep hub (.inl ⟨e, by omega⟩) hlock hc) ⟨rfl, by simp [e], hd⟩
  have hcases : ∀ w ∈ c.workers, (w = .idle ∨ w = .exited) ∨ ∃ b, w = .asleep b := by
    intro w hw
    cases w with
    | idle => exact .inl (.inl rfl)
    | got b => exact absurd hw (hgot b)
    | wantLock b => exact absurd hw (hwant b)
    | notify => exact absurd hw hnot
    | asleep b => exact .inr ⟨b, rfl⟩
    | awake b => exact absurd hw (hawake b)
    | append b k => exact absurd hw (happ b k)
    | pushing b k => exact absurd hw (hpush b k)
    | exited => exact .inl (.inr rfl)
  cases hm : c.main with
  | start =>
    exfalso
    by_cases hl : c.samples.length = P.numBlocks
    · exact hno _ (.mainLock hub (.inl hm) hlock hl) ⟨rfl, by simp, by simp⟩
    · exact hno _ (.mainSleep hub (.inl hm) hlock hl) ⟨rfl, by simp, by simp⟩
  | awake =>
    exfalso
    by_cases hl : c.samples.length = P.numBlocks
    · exact hno _ (.mainLock hub (.inr hm) hlock hl) ⟨rfl, by simp, by simp⟩
    · exact hno _ (.mainSleep hub (.inr hm) hlock hl) ⟨rfl, by simp, by simp⟩
  | holding => exact absurd hm hholding
  | started => exact absurd hm hstarted
  | notify =>
    exact absurd ⟨rfl, by simp [wake], by simp⟩ (hno _ (.mainNotify hub hm))
  | extra todo second =>
    exfalso
    cases todo with
    | nil =>
      cases second with
      | false => exact hno _ (.mainSecond hub hm) ⟨rfl, by simp, by simp⟩
      | true => exact hno _ (.mainJoin hub hm) ⟨rfl, by simp, by simp⟩
    | cons b todo =>
      by_cases hpos : b.pos < c.events.length
      · refine hno _ (.extra hub hm hpos ?_) ⟨rfl, by simp, by simp⟩
        intro w hw
        rcases hcases w hw with (rfl | rfl) | ⟨b', rfl⟩ <;> rfl
      · exact hno _ (.extraOut hub hm (by omega)) ⟨rfl, by simp, hd⟩
  | pushing b todo second =>
    exfalso
    cases ht : c.thresholds with
    | none => exact hno _ (.mainPushUb hub hm ht) ⟨rfl, by simp, hd⟩
    | some θ => exact hno _ (.mainPush hub hm ht) ⟨rfl, by simp, by simp⟩
  | done data => exact absurd hm (hd data)
  | join =>
    refine ⟨fun w hw => ?_, .inl rfl⟩
    rcases hcases w hw with h | ⟨b, rfl⟩
    · exact h
    · have hc : (abs c rem).counting = true := by rw [hA.flag]; simp [abs, hm, early]
      have := hB.sleepCounting hc ⟨_, hmem _ hw, rfl⟩
      simp [abs, hm] at this
  | asleep =>
    have hl : c.samples.length < P.numBlocks := by
      rcases hB.sleepMain hm with hl | hl
      · exact hl
      · obtain ⟨v, hv, e⟩ := List.mem_map.1 hl
        cases v <;> simp [back] at e
        exact absurd hv hnot
    refine ⟨fun w hw => ?_, .inr ⟨rfl, hl⟩⟩
    rcases hcases w hw with h | ⟨b, rfl⟩
    · exact h
    · have h1 := hB.sleepFull ⟨_, hmem _ hw, rfl⟩
      have h2 : (abs c rem).samples = c.samples := rfl
      rw [h2] at h1
      omega

/-! ### A worker alone -/

/-- The first worker reads the sectors of a frame. -/
theorem read_sectors {K : Call D Θ} {files : List (MultiPass.File D)} {map : ScanMap} {hi : Nat} {c : Streaming.State Θ}
    {cpost : List Worker} {p f : Nat} {fs : List Nat} {a : MultiPass.Sectors} (ha : (map p).get f = some a)
    (hub : c.ub = false) (hc : c.workers = .idle :: cpost) {rpost : List (PWorker D)} {n : Nat} {dl : List (MultiPass.Block D)} :
    ∀ (k j : Nat), j + k = 4 → ∀ (r : PState D), r.processed = n → (∀ i, r.locks i = false) → r.delivered = dl →
      r.workers = .sector p f fs j (MultiPass.sectorCount a j) (MultiPass.sectorData files a j) :: rpost →
      ∃ r', Reach (Step K files map hi) ⟨r, c⟩ ⟨r', c⟩ ∧ r'.processed = n ∧ (∀ i, r'.locks i = false) ∧ r'.delivered = dl ∧
        r'.workers = .sector p f fs 4 (MultiPass.sectorCount a 4) (MultiPass.sectorData files a 4) :: rpost := by
  intro k
  induction k with
  | zero =>
    intro j hj r h1 h2 h3 h4
    obtain rfl : j = 4 := by omega
    exact ⟨r, Reach.refl _, h1, h2, h3, h4⟩
  | succ k ih =>
    intro j hj r h1 h2 h3 h4
    cases haj : a j with
    | none =>
      obtain ⟨r', g1, g2⟩ := ih (j + 1) (by omega)
        { r with workers := .sector p f fs (j + 1) (MultiPass.sectorCount a j) (MultiPass.sectorData files a j) :: rpost } h1 h2 h3
        (by simp [MultiPass.sectorCount_succ, MultiPass.sectorData_succ, haj])
      refine ⟨r', Reach.head (a := .reader) ?_ g1, g2⟩
      exact .read (x := ⟨r, c⟩) (rpre := []) (cpre := []) hub (.missing (pre := []) h4 (by omega) ha haj) h4 rfl (by simp) rfl hc rfl
    | some loc =>
      let r1 : PState D := { r with
        locks := MultiPass.update r.locks loc.stream true
        workers := .seek p f fs j (MultiPass.sectorCount a j) (MultiPass.sectorData files a j) loc :: rpost }
      let r2 : PState D := { r1 with
        at_ := MultiPass.update r1.at_ loc.stream loc.offset
        workers := .read p f fs j (MultiPass.sectorCount a j) (MultiPass.sectorData files a j) loc :: rpost }
      let r3 : PState D := { r2 with
        at_ := MultiPass.update r2.at_ loc.stream (r2.at_ loc.stream + 2 * (576 * 144))
        locks := MultiPass.update r2.locks loc.stream false
        workers := .sector p f fs (j + 1) (MultiPass.sectorCount a j + 1) (MultiPass.sectorData files a j ++
          ((MultiPass.dataAt files loc.stream (r2.at_ loc.stream)).map fun d => (j, d)).toList) :: rpost }
      obtain ⟨r', g1, g2⟩ := ih (j + 1) (by omega) r3 h1
        (by intro i; simp only [r3, r2, r1, MultiPass.update]; split <;> simp [h2]) h3
        (by simp [r3, r2, r1, MultiPass.update, MultiPass.sectorCount_succ, MultiPass.sectorData_succ, haj])
      refine ⟨r', Reach.head (a := .reader) (t := ⟨r1, c⟩) ?_ (Reach.head (a := .reader) (t := ⟨r2, c⟩) ?_
        (Reach.head (a := .reader) ?_ g1)), g2⟩
      · exact .read (x := ⟨r, c⟩) (r' := r1) (rpre := []) (cpre := []) hub (.acquire (pre := []) h4 (by omega) ha haj (h2 _)) h4 rfl (by simp)
          rfl hc rfl
      · exact .read (x := ⟨r1, c⟩) (r' := r2) (rpre := []) (cpre := []) hub (.seek (pre := []) rfl) rfl rfl (by simp) rfl hc rfl
      · exact .read (x := ⟨r2, c⟩) (r' := r3) (rpre := []) (cpre := []) hub (.read (pre := []) rfl) rfl rfl (by simp) rfl hc rfl

/-- The first worker reads a frame and calls `counter`. -/
theorem read_block {K : Call D Θ} {files : List (MultiPass.File D)} {map : ScanMap} {hi : Nat} {c : Streaming.State Θ}
    {cpost : List Worker} {p f : Nat} {fs : List Nat} {a : MultiPass.Sectors} (ha : (map p).get f = some a)
    (hub : c.ub = false) (hc : c.workers = .idle :: cpost) {rpost : List (PWorker D)} (r : PState D)
    (hl : ∀ i, r.locks i = false) (hw : r.workers = .image p (f :: fs) :: rpost) :
    ∃ r', Reach (Step K files map hi) ⟨r, c⟩ ⟨r', { c with workers := .got (K.tag (MultiPass.processFrame files a p f)) :: cpost }⟩ ∧
      (∀ i, r'.locks i = false) ∧ r'.workers = .image p fs :: rpost ∧ r'.processed = r.processed := by
  let r1 : PState D := { r with workers := .sector p f fs 0 0 [] :: rpost }
  obtain ⟨r2, g1, g2, g3, g4, g5⟩ := read_sectors (K := K) (files := files) (map := map) (hi := hi) ha hub hc
    (rpost := rpost) (n := r.processed) (dl := r.delivered) (fs := fs) 4 0 rfl r1 rfl hl rfl rfl
  let b := MultiPass.processFrame files a p f
  let r3 : PState D := { r2 with delivered := r2.delivered ++ [b], workers := .image p fs :: rpost }
  refine ⟨r3, ?_, g3, rfl, g2⟩
  refine Reach.head (a := .reader) (t := ⟨r1, c⟩) ?_ (g1.step (a := .reader) ?_)
  · exact .read (x := ⟨r, c⟩) (r' := r1) (rpre := []) (cpre := []) hub (.frame (pre := []) hw) hw rfl (by simp) rfl hc rfl
  · have h := PStep.deliver (files := files) (map := map) (hi := hi) (s := r2) (pre := []) g5
    exact .deliver (x := ⟨r2, c⟩) (r' := r3) (rpre := []) (cpre := []) (b := b) hub h g5 rfl (by simp) rfl hc rfl

end Stempy.CountingReader
