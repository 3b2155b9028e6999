import Verif.Model.StreamingThrow
import Verif.Props.Streaming

/-!
C84: electron counting with a threaded reader when the thresholds cannot be computed.
-/

namespace Stempy.StreamingThrow
open Stempy.Spec
open Stempy.Streaming (Blk Params Worker Main Label InvA InvB invA_init invA_step invA_ub invA_worker blkOf owed early)
open Stempy.Props (numComplete)

variable {Θ : Type} {P : Params Θ} {fails : List Blk → Bool} {blocks : List Blk}

/-- Before the exception the threads are in a state of an execution without exceptions; after it the calling thread stays where it was. -/
private structure Inv (P : Params Θ) (fails : List Blk → Bool) (blocks : List Blk) (x : State Θ) : Prop where
  data : InvA P blocks x.run
  before : x.thrown = false → Reach (Streaming.Step P) (Streaming.init P blocks) x.run
  after : x.thrown = true → x.run.main = .holding ∧ fails x.run.samples = true ∧ x.run.samples ≠ []
  done : x.thrown = false → early x.run.main = false → fails x.run.samples = false

private theorem early_step {s t : Streaming.State Θ} {l : Label} (h : Streaming.Step P s l t) (hA : InvA P blocks s)
    (he : early t.main = false) : (s.main = .holding ∧ t.main = .started ∧ t.samples = s.samples) ∨ (early s.main = false ∧ t.samples = s.samples) := by
  have hlt : s.samples.length < P.numBlocks → early s.main = true := by
    intro h
    cases hc : s.counting with
    | true => have := hA.full (.inr hc); omega
    | false => have := hA.flag; rw [hc] at this; simpa using this
  cases h with
  | mainStart _ h => exact .inl ⟨h, rfl, rfl⟩
  | sample _ _ _ h => exact absurd (hlt (by omega)) (by simpa using he)
  | lastSample _ _ _ h => exact absurd (hlt (by omega)) (by simpa using he)
  | notifyAll =>
    refine .inr ⟨?_, rfl⟩
    cases hm : s.main <;> simp_all [Streaming.wakeMain, early]
  | mainSleep => simp [early] at he
  | mainLock => simp [early] at he
  | mainSpurious => simp [early] at he
  | _ => simp_all [early]

private theorem inv_init : Inv P fails blocks (init P blocks) where
  data := invA_init P blocks
  before := fun _ => .refl _
  after := by simp [init]
  done := by simp [init, Streaming.init, early]

private theorem inv_step {x y : State Θ} {l : Label} (I : Inv P fails blocks x) (h : Step P fails x l y) : Inv P fails blocks y := by
  cases h with
  | @run s t _ hs hm =>
    refine ⟨invA_step P blocks _ _ _ I.data hs, fun _ => (I.before rfl).step hs, by simp, ?_⟩
    intro _ he
    rcases early_step hs I.data he with ⟨h1, h2, h3⟩ | ⟨h1, h2⟩
    · cases hf : fails s.samples with
      | true => have := hm h1 hf; simp [this] at h2
      | false => simpa [h3] using hf
    · have := I.done rfl h1
      simpa [h2] using this
  | throws h1 h2 h3 h4 =>
    have hA := I.data
    exact ⟨⟨hA.size, hA.cons, hA.flag, hA.quiet, hA.le, hA.full, hA.smp, hA.inc, hA.sub, hA.thr, hA.exited, hA.ret⟩, by simp,
      fun _ => ⟨h2, h4, h3⟩, by simp⟩
  | throwsUb h1 h2 h3 h4 =>
    have hA := I.data
    exact ⟨⟨hA.size, hA.cons, hA.flag, hA.quiet, hA.le, hA.full, hA.smp, hA.inc, hA.sub, hA.thr, hA.exited, hA.ret⟩, by simp,
      fun _ => ⟨h2, h4, h3⟩, by simp⟩
  | @exit s pre post h1 h2 h3 =>
    refine ⟨invA_worker I.data s.locked h2 rfl (by simp) (fun _ => h3) (fun _ => rfl), by simp, fun h => I.after h, by simp⟩
  | call => exact ⟨invA_ub I.data true, by simp, fun h => I.after h, by simp⟩
  | use => exact ⟨invA_ub I.data true, by simp, fun h => I.after h, by simp⟩

private theorem inv_reach {x : State Θ} (h : Reach (Step P fails) (init P blocks) x) : Inv P fails blocks x :=
  h.inv _ inv_init fun _ _ _ I h => inv_step I h

private theorem count_eq {A B : List Blk} (h : ∀ b, A.count b = B.count b) : A.countP (fun b => b.complete = some true) = numComplete B :=
  (List.perm_iff_count.2 h).countP_eq _

/-- **C84** If the exception has left the call without undefined behaviour and all threads have come to their end, every frame
of the stream was a sample or incomplete. -/
theorem C84_all_sampled (ht : 0 < P.threads) {x : State Θ} (h : Reach (Step P fails) (init P blocks) x) (hth : x.thrown = true)
    (hstuck : ∀ y, ¬ Step P fails x .internal y) (hub : x.run.ub = false) :
    (∀ w ∈ x.run.workers, w = .exited) ∧ (x.run.samples ++ x.run.incomplete).Perm blocks ∧ numComplete blocks = P.numBlocks := by
  obtain ⟨s, th⟩ := x
  simp only at hth hub
  subst hth
  have I := inv_reach h
  have hA := I.data
  obtain ⟨hm, -, -⟩ := I.after rfl
  simp only at hA hm
  have hin : ∀ w ∈ s.workers, Stempy.StreamingThrow.inReader w = true := by
    intro w hw
    cases hr : inReader w with
    | true => rfl
    | false => exact absurd (.use hub hw hr) (hstuck _)
  have hex : ∀ w ∈ s.workers, w = .exited := by
    intro w hw
    have := hin w hw
    cases w with
    | exited => rfl
    | idle =>
      obtain ⟨pre, post, e⟩ := List.append_of_mem hw
      cases hp : s.pending with
      | nil => exact absurd (.exit hub e hp) (hstuck _)
      | cons b p => exact absurd (.call (p1 := []) hub e hp) (hstuck _)
    | _ => simp [inReader] at this
  have hpend : s.pending = [] := by
    apply hA.exited
    obtain ⟨w, hw⟩ := List.exists_mem_of_length_pos (l := s.workers) (by rw [hA.size]; exact ht)
    rw [← hex w hw]
    exact hw
  have hnone : s.workers.filterMap blkOf = [] := by
    rw [List.filterMap_eq_nil_iff]
    intro w hw
    rw [hex w hw]; rfl
  have hcounted : s.counted = [] := (hA.quiet (by rw [hA.flag, hm]; rfl)).1
  have hcons : ∀ b, (s.samples ++ s.incomplete).count b = blocks.count b := by
    intro b
    have := hA.cons b
    rw [hpend, hnone, hcounted, hm] at this
    simpa [owed] using this
  refine ⟨hex, List.perm_iff_count.2 hcons, ?_⟩
  rw [← count_eq hcons, List.countP_append, List.countP_eq_length.2 (by simpa using hA.smp),
    List.countP_eq_zero.2 (by intro b hb; simp [hA.inc b hb]), hA.full (.inl hm)]
  rfl

/-- **C84** If the thresholds can be computed, there is no exception and the executions are those of C16 to C19. -/
theorem C84_no_exception (hf : ∀ l : List Blk, l.length = P.numBlocks → (∀ b ∈ l, b ∈ blocks ∧ b.complete = some true) → fails l = false)
    {x : State Θ} (h : Reach (Step P fails) (init P blocks) x) :
    x.thrown = false ∧ Reach (Streaming.Step P) (Streaming.init P blocks) x.run := by
  have I := inv_reach h
  cases hth : x.thrown with
  | false => exact ⟨rfl, I.before hth⟩
  | true =>
    exfalso
    obtain ⟨h1, h2, _⟩ := I.after hth
    rw [hf _ (I.data.full (.inl h1))] at h2
    · cases h2
    · intro b hb
      exact ⟨List.count_pos_iff.1 (Nat.lt_of_lt_of_le (List.count_pos_iff.2 hb) (I.data.sub b)), I.data.smp b hb⟩

/-- **C84** The machine does not get stuck without undefined behaviour: it can go on until the call has returned, or was left by the
exception and all workers have returned. -/
theorem C84_progress (ht : 0 < P.threads) (hN : P.numBlocks ≤ numComplete blocks) {x : State Θ}
    (h : Reach (Step P fails) (init P blocks) x) (hub : x.run.ub = false) (hd : ∀ d, x.run.main ≠ .done d)
    (hex : x.thrown = true → ∃ w ∈ x.run.workers, w ≠ .exited) : ∃ y, Step P fails x .internal y := by
  obtain ⟨s, th⟩ := x
  have I := inv_reach h
  cases th with
  | true =>
    obtain ⟨w, hw, hne⟩ := hex rfl
    simp only at hub hw
    cases hr : inReader w with
    | false => exact ⟨_, .use hub hw hr⟩
    | true =>
      cases w with
      | exited => exact absurd rfl hne
      | idle =>
        obtain ⟨pre, post, e⟩ := List.append_of_mem hw
        cases hp : s.pending with
        | nil => exact ⟨_, .exit hub e hp⟩
        | cons b p => exact ⟨_, .call (p1 := []) hub e hp⟩
      | _ => simp [inReader] at hr
  | false =>
    simp only at hub hd
    obtain ⟨t, hs⟩ := Props.C18_progress ht (I.before rfl) hub hN hd
    by_cases hm : s.main = .holding → fails s.samples = true → t.main = .holding
    · exact ⟨_, .run hs hm⟩
    · obtain ⟨h1, h2⟩ := Classical.not_imp.1 hm
      obtain ⟨h2, h3⟩ := Classical.not_imp.1 h2
      have hne : s.samples ≠ [] := by
        cases hs with
        | mainStart _ _ h => exact h
        | notifyAll => simp [h1, Streaming.wakeMain] at h3
        | mainSleep _ h => simp [h1] at h
        | mainLock _ h => simp [h1] at h
        | _ => simp_all
      by_cases ha : ∀ w ∈ s.workers, sleeps w = false
      · exact ⟨_, .throws hub h1 hne h2 ha⟩
      · obtain ⟨w, hw⟩ := Classical.not_forall.1 ha
        obtain ⟨hw, hs⟩ := Classical.not_imp.1 hw
        exact ⟨_, .throwsUb hub h1 hne h2 hw (by simpa using hs)⟩

private def live (x : State Θ) : Nat := x.run.workers.countP (fun w => w ≠ .exited) + (if x.run.ub then 0 else 1)

private theorem split_run {x : State Θ} {ls : List Label} (h : Run (Step P fails) (init P blocks) ls x) :
    ∃ l1 l2 s, ls = l1 ++ l2 ∧ Run (Streaming.Step P) (Streaming.init P blocks) l1 s ∧ (x.thrown = false → l2 = [] ∧ x.run = s) ∧
      (x.thrown = true → l2.length + live x ≤ P.threads + 2) := by
  induction h with
  | nil => exact ⟨[], [], _, rfl, .nil _, fun _ => ⟨rfl, rfl⟩, by simp [init]⟩
  | @snoc x y ls l hr hs ih =>
    have I := inv_reach ⟨_, hr⟩
    obtain ⟨l1, l2, s, rfl, h1, h2, h3⟩ := ih
    cases hs with
    | @run s' t _ hs _ =>
      obtain ⟨rfl, rfl⟩ := h2 rfl
      exact ⟨l1 ++ [l], [], t, by simp, h1.snoc hs, fun _ => ⟨rfl, rfl⟩, by simp⟩
    | @throws s' hub _ _ _ _ =>
      obtain ⟨rfl, rfl⟩ := h2 rfl
      refine ⟨l1, [.internal], s', by simp, h1, by simp, fun _ => ?_⟩
      have := I.data.size
      simp only at this
      have hle := List.countP_le_length (p := fun w => decide (w ≠ Worker.exited)) (l := s'.workers)
      simp only [live, hub]
      simp only [List.length_singleton, Bool.false_eq_true, if_false]
      omega
    | @throwsUb s' _ hub _ _ _ _ _ =>
      obtain ⟨rfl, rfl⟩ := h2 rfl
      refine ⟨l1, [.internal], s', by simp, h1, by simp, fun _ => ?_⟩
      have := I.data.size
      simp only at this
      have hle := List.countP_le_length (p := fun w => decide (w ≠ Worker.exited)) (l := s'.workers)
      simp only [live]
      simp only [List.length_singleton, if_true]
      omega
    | @exit s' pre post hub hw _ =>
      refine ⟨l1, l2 ++ [.internal], s, by simp, h1, by simp, fun _ => ?_⟩
      have := h3 rfl
      simp only [live, hw, hub, List.countP_append, List.countP_cons, List.length_append, List.length_singleton] at this ⊢
      simp at this ⊢
      omega
    | @call s' _ _ _ _ _ hub _ _ =>
      refine ⟨l1, l2 ++ [.internal], s, by simp, h1, by simp, fun _ => ?_⟩
      have := h3 rfl
      simp [live, hub] at this ⊢
      omega
    | @use s' _ hub _ _ =>
      refine ⟨l1, l2 ++ [.internal], s, by simp, h1, by simp, fun _ => ?_⟩
      have := h3 rfl
      simp [live, hub] at this ⊢
      omega

/-- **C84** Every execution ends: the bound of C18 and at most one step for each worker, the exception and undefined behaviour. -/
theorem C84_termination {x : State Θ} {ls : List Label} (h : Run (Step P fails) (init P blocks) ls x) :
    ls.length ≤ (P.threads + 21) * blocks.length + 3 * P.threads + 23 + (ls.map Props.streamGain).sum := by
  obtain ⟨l1, l2, s, rfl, h1, h2, h3⟩ := split_run h
  have := Props.C18_termination h1
  have hl : l2.length ≤ P.threads + 2 := by
    cases hx : x.thrown with
    | false => rw [(h2 hx).1]; simp
    | true => have := h3 hx; omega
  simp only [List.length_append, List.map_append, List.sum_append]
  omega

/-- **C84** is false: with more complete frames than samples, every execution in which the thresholds cannot be computed ends with undefined behaviour. -/
theorem C84_false (ht : 0 < P.threads) (hN : P.numBlocks < numComplete blocks)
    (hf : ∀ l : List Blk, l.length = P.numBlocks → (∀ b ∈ l, b ∈ blocks ∧ b.complete = some true) → fails l = true) {x : State Θ}
    (h : Reach (Step P fails) (init P blocks) x) (hstuck : ∀ y, ¬ Step P fails x .internal y) : x.run.ub = true := by
  cases hub : x.run.ub with
  | true => rfl
  | false =>
    exfalso
    cases hth : x.thrown with
    | true =>
      have := (C84_all_sampled ht h hth hstuck hub).2.2
      omega
    | false =>
      have I := inv_reach h
      have hearly : early x.run.main = true := by
        cases he : early x.run.main with
        | true => rfl
        | false =>
          have h1 := I.done hth he
          have hc : x.run.counting = true := by rw [I.data.flag, he]; rfl
          rw [hf _ (I.data.full (.inr hc))] at h1
          · cases h1
          · intro b hb
            refine ⟨List.count_pos_iff.1 (Nat.lt_of_lt_of_le (List.count_pos_iff.2 hb) (I.data.sub b)), I.data.smp b hb⟩
      obtain ⟨y, hy⟩ := C84_progress ht (Nat.le_of_lt hN) h hub (by intro d hd; simp [hd, early] at hearly) (by simp [hth])
      exact hstuck y hy

/-- **C84** What holds: if the call is left while all workers are in the reader, and it has no more frames, nothing is used any more. -/
theorem C84_partial {x y : State Θ} (hth : x.thrown = true) (hub : x.run.ub = false) (hw : ∀ w ∈ x.run.workers, inReader w = true)
    (hp : x.run.pending = []) (h : Reach (Step P fails) x y) : y.run.ub = false := by
  have := h.inv (fun z => z.thrown = true ∧ z.run.ub = false ∧ (∀ w ∈ z.run.workers, inReader w = true) ∧ z.run.pending = [])
    ⟨hth, hub, hw, hp⟩ (by
      rintro a l c ⟨h1, h2, h3, h4⟩ hs
      cases hs with
      | run => simp at h1
      | throws => simp at h1
      | throwsUb => simp at h1
      | @exit s pre post _ e _ =>
        refine ⟨rfl, h2, ?_, h4⟩
        intro w hw
        simp only [List.mem_append, List.mem_cons] at hw
        rcases hw with hw | rfl | hw
        · exact h3 w (by simp [e, hw])
        · rfl
        · exact h3 w (by simp [e, hw])
      | call _ _ e => simp only at h4; simp [e] at h4
      | use _ hw hr => simp [h3 _ hw] at hr)
  exact this.2.1

/-- **C84** If a worker waits for the condition variable when the exception leaves the call, the behaviour is undefined at once. -/
theorem C84_asleep {x y : State Θ} {l : Label} (h : Step P fails x l y) (hx : x.thrown = false) (hy : y.thrown = true) {b : Blk}
    (hw : Worker.asleep b ∈ x.run.workers) : y.run.ub = true := by
  cases h with
  | run => simp at hy
  | throws _ _ _ _ ha => exact absurd (ha _ hw) (by simp [sleeps])
  | throwsUb => rfl
  | exit => simp at hx
  | call => simp at hx
  | use => simp at hx

/-- **C84** Exactly when the exception is harmless: nothing is used after it if and only if, when it leaves the call, all workers are in the
reader and the reader has no more frames. -/
theorem C84_iff (ht : 0 < P.threads) {x y : State Θ} {l : Label} (hr : Reach (Step P fails) (init P blocks) x) (h : Step P fails x l y)
    (hx : x.thrown = false) (hy : y.thrown = true) :
    (∀ z, Reach (Step P fails) y z → z.run.ub = false) ↔ (∀ w ∈ x.run.workers, inReader w = true) ∧ x.run.pending = [] := by
  have same : y.run.workers = x.run.workers ∧ y.run.pending = x.run.pending := by
    cases h with
    | run => simp at hy
    | throws => exact ⟨rfl, rfl⟩
    | throwsUb => exact ⟨rfl, rfl⟩
    | exit => simp at hx
    | call => simp at hx
    | use => simp at hx
  constructor
  · intro hz
    have hub := hz y (.refl _)
    obtain ⟨s, th⟩ := y
    have I := inv_reach (hr.step h)
    simp only at hy same hub
    subst hy
    rw [← same.1, ← same.2]
    have hin : ∀ w ∈ s.workers, inReader w = true := by
      intro w hw
      cases hi : inReader w with
      | true => rfl
      | false => exact absurd (hz _ (.head (.use hub hw hi) (.refl _))) (by simp)
    refine ⟨hin, ?_⟩
    obtain ⟨w, hw⟩ := List.exists_mem_of_length_pos (l := s.workers) (by rw [I.data.size]; exact ht)
    have hwi := hin w hw
    cases w with
    | exited => exact I.data.exited hw
    | idle =>
      cases hp : s.pending with
      | nil => rfl
      | cons b p =>
        obtain ⟨pre, post, e⟩ := List.append_of_mem hw
        exact absurd (hz _ (.head (.call (p1 := []) hub e hp) (.refl _))) (by simp)
    | _ => simp [inReader] at hwi
  · rintro ⟨h1, h2⟩ z hz
    have hub : y.run.ub = false := by
      cases h with
      | run => simp at hy
      | throws h => exact h
      | throwsUb _ _ _ _ hw hs =>
        have awake : ∀ v, inReader v = true → sleeps v = true → False := by
          intro v
          cases v <;> simp [inReader, sleeps]
        exact absurd hs (awake _ (h1 _ hw))
      | exit => simp at hx
      | call => simp at hx
      | use => simp at hx
    exact C84_partial hy hub (by rw [same.1]; exact h1) (by rw [same.2]; exact h2) hz

/-! ### Both ends are possible if the stream has exactly as many complete frames as samples -/

/-- One worker takes the blocks, the others and the caller have not done anything yet. -/
private def alone (w : Worker) (k : Nat) (pending S I : List Blk) : Streaming.State Θ :=
  ⟨pending, w :: List.replicate k .idle, .start, false, false, S, I, none, [], [], false⟩

private theorem alone_step {k : Nat} {pending pending' S S' I I' : List Blk} {w w' : Worker}
    (h : Streaming.Step P (alone w k pending S I) .internal (alone w' k pending' S' I')) :
    Step P fails ⟨alone w k pending S I, false⟩ .internal ⟨alone w' k pending' S' I', false⟩ :=
  .run h (by simp [alone])

private theorem take_one {k : Nat} {b : Blk} {rest S I : List Blk} :
    Reach (Step P fails) ⟨alone .idle k (b :: rest) S I, false⟩ ⟨alone (.wantLock b) k rest S I, false⟩ :=
  .head (alone_step (.take (b := b) (p1 := []) (p2 := rest) (pre := []) (post := List.replicate k .idle) rfl rfl rfl))
    (.head (alone_step (.noFlag (b := b) (pre := []) (post := List.replicate k .idle) rfl rfl rfl)) (.refl _))

private theorem take_all {k : Nat} (l : List Blk) {rest S I : List Blk} (hl : ∀ b ∈ l, b.complete ≠ none)
    (hn : S.length + numComplete l < P.numBlocks) :
    ∃ S' I', S'.length = S.length + numComplete l ∧
      Reach (Step P fails) ⟨alone .idle k (l ++ rest) S I, false⟩ ⟨alone .idle k rest S' I', false⟩ := by
  induction l generalizing S I with
  | nil => exact ⟨S, I, by simp [numComplete], .refl _⟩
  | cons b l ih =>
    have hlt := hn
    cases hc : b.complete with
    | none => exact absurd hc (hl b (by simp))
    | some c =>
      cases c with
      | true =>
        have e : numComplete (b :: l) = numComplete l + 1 := by simp [numComplete, hc]
        rw [e] at hn
        obtain ⟨S', I', h1, h2⟩ := ih (S := S ++ [b]) (I := I) (fun b hb => hl b (by simp [hb])) (by simp; omega)
        refine ⟨S', I', by rw [h1, e]; simp; omega, take_one.trans (.head (alone_step ?_) h2)⟩
        exact .sample (b := b) (pre := []) (post := List.replicate k .idle) rfl rfl rfl (by simp [alone]; omega) hc
      | false =>
        have e : numComplete (b :: l) = numComplete l := by simp [numComplete, hc]
        rw [e] at hn
        obtain ⟨S', I', h1, h2⟩ := ih (S := S) (I := I ++ [b]) (fun b hb => hl b (by simp [hb])) hn
        refine ⟨S', I', by rw [h1, e], take_one.trans (.head (alone_step ?_) h2)⟩
        exact .incomplete (b := b) (pre := []) (post := List.replicate k .idle) rfl rfl rfl (by simp [alone]; omega) hc

private theorem last_sample {k : Nat} (hk : P.threads = k + 1) (l : List Blk) (b : Blk) (post : List Blk)
    (hl : ∀ b ∈ l, b.complete ≠ none) (hb : b.complete = some true) (hn : numComplete l + 1 = P.numBlocks) :
    ∃ S I, S.length = P.numBlocks ∧ Reach (Step P fails) (init P (l ++ b :: post)) ⟨alone .notify k post S I, false⟩ := by
  obtain ⟨S, I, h1, h2⟩ := take_all (P := P) (fails := fails) (k := k) l (rest := b :: post) (S := []) (I := []) hl (by simp; omega)
  have hi : init P (l ++ b :: post) = ⟨alone .idle k (l ++ b :: post) [] [], false⟩ := by
    simp [init, Streaming.init, alone, hk, List.replicate_succ]
  simp at h1
  rw [hi]
  refine ⟨S ++ [b], I, by simp; omega, (h2.trans take_one).trans (.head (alone_step ?_) (.refl _))⟩
  exact .lastSample (b := b) (pre := []) (post := List.replicate k .idle) rfl rfl rfl (by simp [alone]; omega) hb

private theorem throw_alone {k : Nat} {w : Worker} {post S I : List Blk} (hS : S.length = P.numBlocks) (h0 : 0 < P.numBlocks)
    (hf : fails S = true) (hw : sleeps w = false) :
    Reach (Step P fails) ⟨alone w k post S I, false⟩ ⟨{ alone w k post S I with main := .holding }, true⟩ := by
  refine .head (t := ⟨{ alone w k post S I with main := .holding, locked := true }, false⟩) (.run (.mainLock rfl (.inl rfl) rfl hS) ?_) ?_
  · simp [alone]
  · refine .head (.throws rfl rfl ?_ hf ?_) (.refl _)
    · intro h
      have h : S = [] := h
      subst h
      simp at hS
      omega
    · intro v hv
      have hv : v ∈ w :: List.replicate k Worker.idle := hv
      rcases List.mem_cons.1 hv with rfl | hv
      · exact hw
      · rw [List.eq_of_mem_replicate hv]; rfl

/-- **C84** The exception can come between the last sample and the notification of the waiting caller: undefined behaviour, also if
no frame is left. -/
theorem C84_notify_false (ht : 0 < P.threads) (l : List Blk) (b : Blk) (post : List Blk) (hl : ∀ b ∈ l, b.complete ≠ none)
    (hb : b.complete = some true) (hn : numComplete l + 1 = P.numBlocks) (hf : ∀ S : List Blk, S.length = P.numBlocks → fails S = true) :
    ∃ x, Reach (Step P fails) (init P (l ++ b :: post)) x ∧ x.thrown = true ∧ x.run.ub = true := by
  obtain ⟨k, hk⟩ : ∃ k, P.threads = k + 1 := ⟨P.threads - 1, by omega⟩
  obtain ⟨S, I, h1, h2⟩ := last_sample (fails := fails) hk l b post hl hb hn
  refine ⟨_, (h2.trans (throw_alone h1 (by omega) (hf S h1) rfl)).step (.use (w := .notify) rfl (List.mem_cons_self ..) rfl), rfl, rfl⟩

/-- **C84** With exactly enough frames there is also an execution in which the call throws, and nothing is used any more
(by `C84_partial`). -/
theorem C84_exists (ht : 0 < P.threads) (l : List Blk) (b : Blk) (hl : ∀ b ∈ l, b.complete ≠ none)
    (hb : b.complete = some true) (hn : numComplete l + 1 = P.numBlocks) (hf : ∀ S : List Blk, S.length = P.numBlocks → fails S = true) :
    ∃ x, Reach (Step P fails) (init P (l ++ [b])) x ∧ x.thrown = true ∧ x.run.ub = false ∧
      (∀ w ∈ x.run.workers, inReader w = true) ∧ x.run.pending = [] := by
  obtain ⟨k, hk⟩ : ∃ k, P.threads = k + 1 := ⟨P.threads - 1, by omega⟩
  obtain ⟨S, I, h1, h2⟩ := last_sample (fails := fails) hk l b [] hl hb hn
  have h3 : Reach (Step P fails) ⟨alone .notify k [] S I, false⟩ ⟨alone .idle k [] S I, false⟩ := by
    have := Streaming.Step.notifyAll (P := P) (s := alone .notify k [] S I) (pre := []) (post := List.replicate k .idle) rfl rfl
    refine .head (alone_step ?_) (.refl _)
    simpa [alone, Streaming.wakeMain, Streaming.wakeWorker] using this
  refine ⟨_, (h2.trans h3).trans (throw_alone h1 (by omega) (hf S h1) rfl), rfl, rfl, ?_, rfl⟩
  intro w hw
  have hw : w ∈ Worker.idle :: List.replicate k Worker.idle := hw
  rcases List.mem_cons.1 hw with rfl | hw
  · rfl
  · rw [List.eq_of_mem_replicate hw]; rfl

/-! ### Examples -/

private def demo : Params Unit where
  threads := 2
  numBlocks := 2
  positions := 3
  threshold := fun _ => ()
  count := fun _ b => [b.id]

/-- Three complete frames, two samples: whenever the machine stops, the behaviour was undefined; and it stops. -/
example : (∀ x, Reach (Step demo fun _ => true) (init demo [⟨0, 0, some true⟩, ⟨1, 1, some false⟩, ⟨2, 1, some true⟩, ⟨3, 2, some true⟩]) x →
    (∀ y, ¬ Step demo (fun _ => true) x .internal y) → x.run.ub = true) :=
  fun _ h hs => C84_false (by decide) (by decide) (fun _ _ _ => rfl) h hs

/-- Two complete frames: both ends are possible. -/
example : (∃ x, Reach (Step demo fun _ => true) (init demo [⟨0, 0, some true⟩, ⟨1, 1, some false⟩, ⟨2, 1, some true⟩]) x ∧
      x.thrown = true ∧ x.run.ub = true) ∧
    ∃ x, Reach (Step demo fun _ => true) (init demo [⟨0, 0, some true⟩, ⟨1, 1, some false⟩, ⟨2, 1, some true⟩]) x ∧
      x.thrown = true ∧ x.run.ub = false ∧ (∀ w ∈ x.run.workers, inReader w = true) ∧ x.run.pending = [] :=
  ⟨C84_notify_false (by decide) [⟨0, 0, some true⟩, ⟨1, 1, some false⟩] ⟨2, 1, some true⟩ [] (by decide) rfl rfl fun _ _ => rfl,
    C84_exists (by decide) [⟨0, 0, some true⟩, ⟨1, 1, some false⟩] ⟨2, 1, some true⟩ (by decide) rfl rfl fun _ _ => rfl⟩

/-- The hypotheses of `C84_asleep` and `C84_iff` can be met: two samples were taken by the first worker, and the second waits with a third frame. -/
example : ∃ x y : State Unit, Step demo (fun _ => true) x .internal y ∧ x.thrown = false ∧ y.thrown = true ∧
    Worker.asleep ⟨3, 2, some true⟩ ∈ x.run.workers ∧ x.run.samples.length = 2 :=
  ⟨⟨⟨[], [.idle, .asleep ⟨3, 2, some true⟩], .holding, true, false, [⟨0, 0, some true⟩, ⟨2, 1, some true⟩], [], none, [], [], false⟩, false⟩,
    _, .throwsUb (w := .asleep ⟨3, 2, some true⟩) rfl rfl (by simp) rfl (by simp) rfl, rfl, rfl, by simp, rfl⟩

end Stempy.StreamingThrow
