import Verif.Lemmas.Streaming
import Mathlib.Data.List.Perm.Subperm
import Mathlib.Data.List.Nodup
import Mathlib.Tactic.Linarith

/-!
C16-C19: streaming electron counting with threads.
-/

namespace Stempy.Props
open Stempy.Streaming Stempy.Spec

private theorem maxFold (l : List (List (List Nat))) (a : Nat) :
    let m := l.foldl (fun m l => if l.length > m then l.length else m) a
    a ≤ m ∧ (∀ x ∈ l, x.length ≤ m) ∧ (m = a ∨ ∃ x ∈ l, x.length = m) := by
  induction l generalizing a with
  | nil => simp
  | cons x l ih =>
    simp only [List.foldl_cons]
    obtain ⟨h1, h2, h3⟩ := ih (if x.length > a then x.length else a)
    have h4 : a ≤ (if x.length > a then x.length else a) := by split <;> omega
    have h5 : x.length ≤ (if x.length > a then x.length else a) := by split <;> omega
    refine ⟨le_trans h4 h1, ?_, ?_⟩
    · intro y hy
      rcases List.mem_cons.1 hy with rfl | hy
      · exact le_trans h5 h1
      · exact h2 y hy
    · rcases h3 with h3 | ⟨y, hy, h3⟩
      · by_cases hx : x.length > a
        · right; exact ⟨x, by simp, by rw [h3, if_pos hx]⟩
        · left; rw [h3, if_neg hx]
      · right; exact ⟨y, by simp [hy], h3⟩

/-- **C17** Padding: all positions get the same number of frames, the largest number of frames of any position,
by adding empty frames at the end; nothing else changes. -/
theorem C17_uniform (events : List (List (List Nat))) :
    ∃ m, (∀ l ∈ events, l.length ≤ m) ∧ (events ≠ [] → ∃ l ∈ events, l.length = m) ∧
      (padEvents events).length = events.length ∧
      (∀ d ∈ padEvents events, d.length = m) ∧
      ∀ (p : Nat) (l : List (List Nat)), events[p]? = some l →
        (padEvents events)[p]? = some (l ++ List.replicate (m - l.length) []) := by
  obtain ⟨h1, h2, h3⟩ := maxFold events 0
  refine ⟨maxNumFrames events, h2, ?_, by simp [padEvents], ?_, ?_⟩
  · intro hne
    rcases h3 with h3 | h3
    · obtain ⟨x, l, rfl⟩ := List.exists_cons_of_ne_nil hne
      refine ⟨x, by simp, ?_⟩
      have := h2 x (by simp)
      unfold maxNumFrames
      omega
    · exact h3
  · intro d hd
    simp only [padEvents, List.mem_map] at hd
    obtain ⟨l, hl, rfl⟩ := hd
    have := h2 l hl
    unfold resize maxNumFrames at *
    simp
    omega
  · intro p l hp
    have hl := h2 l (List.mem_of_getElem? hp)
    simp only [padEvents, List.getElem?_map, hp, Option.map_some]
    unfold resize
    rw [List.take_of_length_le (by unfold maxNumFrames; omega)]

/-- **C17** No event is added, lost or moved to another position. -/
theorem C17_events (events : List (List (List Nat))) (p : Nat) :
    ((padEvents events)[p]?.map List.flatten) = (events[p]?.map List.flatten) := by
  obtain ⟨m, _, _, hlen, _, h⟩ := C17_uniform events
  cases hp : events[p]? with
  | none =>
    have := List.getElem?_eq_none_iff.1 hp
    have : (padEvents events)[p]? = none := List.getElem?_eq_none_iff.2 (by omega)
    simp [this]
  | some l =>
    rw [h p l hp]
    simp

example : padEvents [[[1, 2]], [], [[3], [4]]] = [[[1, 2], []], [[], []], [[3], [4]]] := by decide

/-- positions of counted frames are inside of the scan -/
private def InvC {Θ : Type} (P : Params Θ) (s : State Θ) : Prop :=
  (∀ b h, Worker.pushing b h ∈ s.workers → b.pos < P.positions) ∧
  (∀ b t k, s.main = .pushing b t k → b.pos < P.positions) ∧
  (∀ b ∈ s.counted, b.pos < P.positions)

private theorem pushing_wake {b : Blk} {h : Bool} {l : List Worker}
    (hm : Worker.pushing b h ∈ l.map wakeWorker) : Worker.pushing b h ∈ l := by
  obtain ⟨w, hw, e⟩ := List.mem_map.1 hm
  cases w <;> simp [wakeWorker] at e
  rw [e.1, e.2] at hw
  exact hw

private theorem invC_step {Θ : Type} (P : Params Θ) (blocks : List Blk) (s : State Θ) (l : Label)
    (s' : State Θ) (hA : InvA P blocks s) (h : InvC P s) (hs : Step P s l s') : InvC P s' := by
  obtain ⟨h1, h2, h3⟩ := h
  have hpush : ∀ (pre post : List Worker) (w w' : Worker), s.workers = pre ++ w :: post →
      (∀ b h, w' = .pushing b h → b.pos < P.positions) →
      ∀ b h, Worker.pushing b h ∈ pre ++ w' :: post → b.pos < P.positions := by
    intro pre post w w' hw hw' b h hm
    simp only [List.mem_append, List.mem_cons] at hm
    rcases hm with hm | hm | hm
    · exact h1 b h (by simp [hw, hm])
    · exact hw' b h hm.symm
    · exact h1 b h (by simp [hw, hm])
  cases hs with
  | take h0 a b => exact ⟨hpush _ _ _ _ a (by simp), h2, h3⟩
  | exit h0 a b => exact ⟨hpush _ _ _ _ a (by simp), h2, h3⟩
  | seeFlag h0 a b => exact ⟨hpush _ _ _ _ a (by simp), h2, h3⟩
  | noFlag h0 a b => exact ⟨hpush _ _ _ _ a (by simp), h2, h3⟩
  | sampleUb h0 => exact ⟨h1, h2, h3⟩
  | sample h0 a b c d => exact ⟨hpush _ _ _ _ a (by simp), h2, h3⟩
  | lastSample h0 a b c d => exact ⟨hpush _ _ _ _ a (by simp), h2, h3⟩
  | incomplete h0 a b c d => exact ⟨hpush _ _ _ _ a (by simp), h2, h3⟩
  | @notifyAll pre post h0 a =>
    refine ⟨?_, ?_, h3⟩
    · intro b h hm
      apply h1 b h
      simp only [List.mem_append, List.mem_cons] at hm
      rw [a]
      simp only [List.mem_append, List.mem_cons]
      rcases hm with hm | hm | hm
      · exact .inl (pushing_wake hm)
      · cases hm
      · exact .inr (.inr (pushing_wake hm))
    · intro b t k hm
      apply h2 b t k
      cases hm2 : s.main <;> simp_all [wakeMain]
  | sleep h0 a b c =>
    rcases a with ⟨a, _⟩ | a
    · exact ⟨hpush _ _ _ _ a (by simp), h2, h3⟩
    · exact ⟨hpush _ _ _ _ a (by simp), h2, h3⟩
  | proceed h0 a b c =>
    rcases a with ⟨a, _⟩ | a
    · exact ⟨hpush _ _ _ _ a (by simp), h2, h3⟩
    · exact ⟨hpush _ _ _ _ a (by simp), h2, h3⟩
  | appendOut h0 => exact ⟨h1, h2, h3⟩
  | @append b hold pre post h0 a c d e =>
    refine ⟨hpush _ _ _ _ a ?_, h2, h3⟩
    intro b' h' e'
    simp only [Worker.pushing.injEq] at e'
    have hc : s.counting = true := by
      by_contra hc
      have := (hA.quiet (by simpa using hc)).2 (.append b hold) (by simp [a])
      simp [active] at this
    have := (hA.thr hc).2.1
    rw [← e'.1]
    omega
  | appendRace h0 => exact ⟨h1, h2, h3⟩
  | @push b hold θ pre post h0 a c =>
    refine ⟨hpush _ _ _ _ a (by simp), h2, ?_⟩
    intro b' hb'
    rcases List.mem_append.1 hb' with hb' | hb'
    · exact h3 b' hb'
    · simp only [List.mem_cons, List.not_mem_nil, or_false] at hb'
      rw [hb']
      exact h1 b hold (by simp [a])
  | pushUb h0 => exact ⟨h1, h2, h3⟩
  | mainSleep h0 => exact ⟨h1, by simp, h3⟩
  | mainLock h0 => exact ⟨h1, by simp, h3⟩
  | mainStart h0 => exact ⟨h1, by simp, h3⟩
  | mainUb h0 => exact ⟨h1, h2, h3⟩
  | mainUnlock h0 => exact ⟨h1, by simp, h3⟩
  | mainNotify h0 => exact ⟨fun b h hm => h1 b h (pushing_wake hm), by simp, h3⟩
  | extraOut h0 => exact ⟨h1, h2, h3⟩
  | @extra b todo second h0 a c d =>
    refine ⟨h1, ?_, h3⟩
    intro b' t k e
    simp only [Main.pushing.injEq] at e
    have hc : s.counting = true := by rw [hA.flag, a]; rfl
    have := (hA.thr hc).2.1
    rw [← e.1]
    omega
  | extraRace h0 => exact ⟨h1, h2, h3⟩
  | @mainPush b todo second θ h0 a c =>
    refine ⟨h1, by simp, ?_⟩
    intro b' hb'
    rcases List.mem_append.1 hb' with hb' | hb'
    · exact h3 b' hb'
    · simp only [List.mem_cons, List.not_mem_nil, or_false] at hb'
      rw [hb']
      exact h2 b todo second a
  | mainPushUb h0 => exact ⟨h1, h2, h3⟩
  | mainSecond h0 => exact ⟨h1, by simp, h3⟩
  | mainJoin h0 => exact ⟨h1, by simp, h3⟩
  | mainDone h0 => exact ⟨h1, by simp, h3⟩
  | spurious h0 a => exact ⟨hpush _ _ _ _ a (by simp), h2, h3⟩
  | mainSpurious h0 => exact ⟨h1, by simp, h3⟩

private theorem invC {Θ : Type} {P : Params Θ} {blocks : List Blk} {s : State Θ}
    (h : Reach (Step P) (init P blocks) s) : InvC P s :=
  (h.inv (fun s => InvA P blocks s ∧ InvC P s)
    ⟨invA_init P blocks, by
      refine ⟨?_, by simp [init], by simp [init]⟩
      intro b h hm
      simp [init, List.mem_replicate] at hm⟩
    (fun a l c hi hs => ⟨invA_step P blocks a l c hi.1 hs, invC_step P blocks a l c hi.1 hi.2 hs⟩)).2

/-- **C16** The state when the call returns, before padding: the samples are `numBlocks` complete blocks of the stream, and the list of every position
has the frames of the blocks of that position, counted with the thresholds of the samples, each exactly once. -/
theorem C16_stored {Θ : Type} {P : Params Θ} (hn : 0 < P.threads) {blocks : List Blk} {s : State Θ}
    {data : List (List (List Nat))} (h : Reach (Step P) (init P blocks) s) (hd : s.main = .done data) :
    s.samples.length = P.numBlocks ∧ (∀ b ∈ s.samples, b.complete = some true) ∧ s.samples.Subperm blocks ∧
      (∀ b ∈ blocks, b.pos < P.positions) ∧ data = padEvents s.events ∧ s.events.length = P.positions ∧
      ∀ p, p < P.positions → ∃ frames : List (List Nat), s.events[p]? = some frames ∧
        frames.Perm ((blocks.filter fun b => b.pos = p).map (P.count (P.threshold s.samples))) := by
  obtain ⟨hA, hB⟩ := invAB h
  have hC := invC h
  obtain ⟨hw, hdata⟩ := hA.ret data hd
  have hc : s.counting = true := by rw [hA.flag, hd]; rfl
  obtain ⟨t1, t2, t3⟩ := hA.thr hc
  have hne : Worker.exited ∈ s.workers := by
    cases hws : s.workers with
    | nil => have := hA.size; simp [hws] at this; omega
    | cons w ws => have := hw w (by simp [hws]); simp [this]
  have hp := hA.exited hne
  have hheld : s.workers.filterMap blkOf = [] := by
    rw [List.filterMap_eq_nil_iff]
    intro w hw2
    rw [hw w hw2]; rfl
  have hperm : s.counted.Perm blocks := by
    rw [List.perm_iff_count]
    intro b
    have := hA.cons b
    simpa [hp, hheld, hd, owed] using this
  refine ⟨hA.full (.inr hc), hA.smp, ?_, ?_, hdata, t2, ?_⟩
  · rw [List.subperm_iff_count]
    exact hA.sub
  · intro b hb
    exact hC.2.2 b (hperm.mem_iff.2 hb)
  · intro p hpp
    exact ⟨_, t3 p hpp, (hperm.filter _).map _⟩

/-- **C16** When the call returns, there are `numBlocks` complete sample blocks `S` of the stream such that every
block of the stream lies inside the scan and its frame, counted with the thresholds of `S`, was stored exactly once at
its position, and nothing else was stored; after that the positions are padded with empty frames to the same
number of frames. For all numbers of threads, all streams and all schedules. -/
theorem C16_exactly_once {Θ : Type} {P : Params Θ} (hn : 0 < P.threads) {blocks : List Blk} {s : State Θ}
    {data : List (List (List Nat))} (h : Reach (Step P) (init P blocks) s) (hd : s.main = .done data) :
    ∃ S : List Blk, S.length = P.numBlocks ∧ (∀ b ∈ S, b.complete = some true) ∧ S.Subperm blocks ∧
      (∀ b ∈ blocks, b.pos < P.positions) ∧ data.length = P.positions ∧
      ∃ m, ∀ p, p < P.positions → ∃ frames : List (List Nat),
        frames.Perm ((blocks.filter fun b => b.pos = p).map (P.count (P.threshold S))) ∧
        frames.length ≤ m ∧ data[p]? = some (frames ++ List.replicate (m - frames.length) []) := by
  obtain ⟨h1, h2, h3, h4, hdata, h5, h6⟩ := C16_stored hn h hd
  refine ⟨s.samples, h1, h2, h3, h4, ?_, ?_⟩
  · rw [hdata]; simpa [padEvents] using h5
  · obtain ⟨m, m1, _, _, _, m5⟩ := C17_uniform s.events
    refine ⟨m, fun p hpp => ?_⟩
    obtain ⟨frames, g1, g2⟩ := h6 p hpp
    refine ⟨frames, g2, m1 _ (List.mem_of_getElem? g1), ?_⟩
    rw [hdata]
    exact m5 p _ g1

/-! ### C18 -/

/-- Number of complete blocks. -/
def numComplete (blocks : List Blk) : Nat := blocks.countP fun b => b.complete = some true

private theorem mem_blocks {Θ : Type} {P : Params Θ} {blocks : List Blk} {s : State Θ}
    (hA : InvA P blocks s) {b : Blk} (h : b ∈ s.pending ∨ b ∈ s.workers.filterMap blkOf ∨
      b ∈ owed s.samples s.incomplete s.main ∨ b ∈ s.counted) : b ∈ blocks := by
  have := hA.cons b
  rw [← List.count_pos_iff]
  rcases h with h | h | h | h
  · have := List.count_pos_iff.2 h; omega
  · have := List.count_pos_iff.2 h; omega
  · have := List.count_pos_iff.2 h; omega
  · have := List.count_pos_iff.2 h; omega

/-- **C18** No deadlock: as long as the call has not returned, some thread can take a step (not counting
spurious wake-ups), if the stream has at least the requested number of complete blocks. -/
theorem C18_progress {Θ : Type} {P : Params Θ} (hn : 0 < P.threads) {blocks : List Blk} {s : State Θ}
    (h : Reach (Step P) (init P blocks) s) (hub : s.ub = false)
    (hN : P.numBlocks ≤ numComplete blocks) (hd : ∀ data, s.main ≠ .done data) :
    ∃ s', Step P s .internal s' := by
  obtain ⟨hA, hB⟩ := invAB h
  by_contra hno
  have hstuck : ∀ s', ¬ Step P s .internal s' := fun s' hs => hno ⟨s', hs⟩
  -- threads that can always go on
  have hidle : Worker.idle ∉ s.workers := by
    intro hm
    obtain ⟨pre, post, e⟩ := List.append_of_mem hm
    cases hp : s.pending with
    | nil => exact hstuck _ (.exit hub e hp)
    | cons b p => exact hstuck _ (.take hub e (p1 := []) hp)
  have hgot : ∀ b, Worker.got b ∉ s.workers := by
    intro b hm
    obtain ⟨pre, post, e⟩ := List.append_of_mem hm
    cases hc : s.counting with
    | true => exact hstuck _ (.seeFlag hub e hc)
    | false => exact hstuck _ (.noFlag hub e hc)
  have hnot : Worker.notify ∉ s.workers := by
    intro hm
    obtain ⟨pre, post, e⟩ := List.append_of_mem hm
    exact hstuck _ (.notifyAll hub e)
  have hpush : ∀ b k, Worker.pushing b k ∉ s.workers := by
    intro b k hm
    obtain ⟨pre, post, e⟩ := List.append_of_mem hm
    cases ht : s.thresholds with
    | none => exact hstuck _ (.pushUb hub e ht)
    | some θ => exact hstuck _ (.push hub e ht)
  have happ : ∀ b k, Worker.append b k ∉ s.workers := by
    intro b k hm
    obtain ⟨pre, post, e⟩ := List.append_of_mem hm
    by_cases hpos : b.pos < s.events.length
    · have hfree : ∀ w ∈ pre ++ post, pushesAt b.pos w = false := by
        intro w hw
        cases w with
        | pushing b' k' =>
          refine absurd ?_ (hpush b' k')
          rw [e]
          simp only [List.mem_append, List.mem_cons] at hw ⊢
          rcases hw with hw | hw
          · exact .inl hw
          · exact .inr (.inr hw)
        | _ => rfl
      cases hm : mainPushesAt b.pos s.main with
      | false => exact hstuck _ (.append hub e hpos hfree hm)
      | true => exact hstuck _ (.appendRace hub e hpos hfree hm)
    · exact hstuck _ (.appendOut hub e (by omega))
  have hholding : s.main ≠ .holding := by
    intro hm
    by_cases hs : s.samples = []
    · exact hstuck _ (.mainUb hub hm hs)
    · exact hstuck _ (.mainStart hub hm hs)
  have hstarted : s.main ≠ .started := fun hm => hstuck _ (.mainUnlock hub hm)
  have hlock : s.locked = false := by
    by_contra hl
    rcases hB.lock (by simpa using hl) with h1 | h1 | ⟨w, hw, h1⟩
    · exact hholding h1
    · exact hstarted h1
    · cases w with
      | append b k => exact happ b k hw
      | pushing b k => exact hpush b k hw
      | _ => simp [holds] at h1
  have hawake : ∀ b, Worker.awake b ∉ s.workers := by
    intro b hm
    obtain ⟨pre, post, e⟩ := List.append_of_mem hm
    cases hc : s.counting with
    | true => exact hstuck _ (.proceed hub (.inr e) hlock hc)
    | false => exact hstuck _ (.sleep hub (.inr e) hlock hc)
  have hwant : ∀ b, Worker.wantLock b ∉ s.workers := by
    intro b hm
    obtain ⟨pre, post, e⟩ := List.append_of_mem hm
    by_cases hl : s.samples.length < P.numBlocks
    · cases hcm : b.complete with
      | none => exact hstuck _ (.sampleUb hub e hlock hl hcm)
      | some k =>
        cases k with
        | false => exact hstuck _ (.incomplete hub e hlock hl hcm)
        | true =>
          by_cases h1 : s.samples.length + 1 = P.numBlocks
          · exact hstuck _ (.lastSample hub e hlock h1 hcm)
          · exact hstuck _ (.sample hub e hlock (by omega) hcm)
    · cases hc : s.counting with
      | true => exact hstuck _ (.proceed hub (.inl ⟨e, by omega⟩) hlock hc)
      | false => exact hstuck _ (.sleep hub (.inl ⟨e, by omega⟩) hlock hc)
  have hcases : ∀ w ∈ s.workers, w = .exited ∨ ∃ b, w = .asleep b := by
    intro w hw
    cases w with
    | idle => exact absurd hw hidle
    | got b => exact absurd hw (hgot b)
    | wantLock b => exact absurd hw (hwant b)
    | notify => exact absurd hw hnot
    | asleep b => exact .inr ⟨b, rfl⟩
    | awake b => exact absurd hw (hawake b)
    | append b k => exact absurd hw (happ b k)
    | pushing b k => exact absurd hw (hpush b k)
    | exited => exact .inl rfl
  -- the calling thread
  cases hm : s.main with
  | start =>
    by_cases hl : s.samples.length = P.numBlocks
    · exact hstuck _ (.mainLock hub (.inl hm) hlock hl)
    · exact hstuck _ (.mainSleep hub (.inl hm) hlock hl)
  | awake =>
    by_cases hl : s.samples.length = P.numBlocks
    · exact hstuck _ (.mainLock hub (.inr hm) hlock hl)
    · exact hstuck _ (.mainSleep hub (.inr hm) hlock hl)
  | holding => exact hholding hm
  | started => exact hstarted hm
  | notify => exact hstuck _ (.mainNotify hub hm)
  | extra todo second =>
    cases todo with
    | nil =>
      cases second with
      | false => exact hstuck _ (.mainSecond hub hm)
      | true => exact hstuck _ (.mainJoin hub hm)
    | cons b todo =>
      by_cases hpos : b.pos < s.events.length
      · refine hstuck _ (.extra hub hm hpos ?_)
        intro w hw
        rcases hcases w hw with rfl | ⟨b', rfl⟩ <;> rfl
      · exact hstuck _ (.extraOut hub hm (by omega))
  | pushing b todo second =>
    cases ht : s.thresholds with
    | none => exact hstuck _ (.mainPushUb hub hm ht)
    | some θ => exact hstuck _ (.mainPush hub hm ht)
  | done data => exact hd data hm
  | join =>
    have hc : s.counting = true := by rw [hA.flag, hm]; rfl
    refine hstuck _ (.mainDone hub hm ?_)
    intro w hw
    rcases hcases w hw with rfl | ⟨b, rfl⟩
    · rfl
    · have := hB.sleepCounting hc ⟨_, hw, rfl⟩
      simp [hm] at this
  | asleep =>
    rcases hB.sleepMain hm with hl | hl
    · have hall : ∀ w ∈ s.workers, w = .exited := by
        intro w hw
        rcases hcases w hw with rfl | ⟨b, rfl⟩
        · rfl
        · have := hB.sleepFull ⟨_, hw, rfl⟩
          omega
      have hne : Worker.exited ∈ s.workers := by
        cases hws : s.workers with
        | nil => have := hA.size; simp [hws] at this; omega
        | cons w ws => have := hall w (by simp [hws]); simp [this]
      have hp := hA.exited hne
      have hheld : s.workers.filterMap blkOf = [] := by
        rw [List.filterMap_eq_nil_iff]
        intro w hw2
        rw [hall w hw2]; rfl
      have hc : s.counting = false := by rw [hA.flag, hm]; rfl
      have hcnt := (hA.quiet hc).1
      have hperm : (s.samples ++ s.incomplete).Perm blocks := by
        rw [List.perm_iff_count]
        intro b
        have := hA.cons b
        simpa [hp, hheld, hm, owed, hcnt] using this
      have : numComplete blocks = s.samples.length := by
        unfold numComplete
        rw [← hperm.countP_eq, List.countP_append]
        have e1 : s.samples.countP (fun b => b.complete = some true) = s.samples.length := by
          rw [List.countP_eq_length]
          intro b hb; simp [hA.smp b hb]
        have e2 : s.incomplete.countP (fun b => b.complete = some true) = 0 := by
          rw [List.countP_eq_zero]
          intro b hb; simp [hA.inc b hb]
        omega
      omega
    · exact hnot hl

/-- **C18** With fewer complete blocks than requested the call never returns: the calling thread never leaves its
wait for samples. -/
theorem C18_hang {Θ : Type} {P : Params Θ} {blocks : List Blk} {s : State Θ}
    (h : Reach (Step P) (init P blocks) s) (hN : numComplete blocks < P.numBlocks) :
    s.main = .start ∨ s.main = .asleep ∨ s.main = .awake := by
  obtain ⟨hA, hB⟩ := invAB h
  have hlt : s.samples.length < P.numBlocks := by
    have hsub : s.samples.Subperm blocks := by
      rw [List.subperm_iff_count]; exact hA.sub
    have := hsub.countP_le (fun b => decide (b.complete = some true))
    have e1 : s.samples.countP (fun b => b.complete = some true) = s.samples.length := by
      rw [List.countP_eq_length]
      intro b hb; simp [hA.smp b hb]
    unfold numComplete at hN
    omega
  have hc : s.counting = false := by
    by_contra hc
    have := hA.full (.inr (by simpa using hc))
    omega
  have hf := hA.flag
  rw [hc] at hf
  cases hm : s.main with
  | start => simp
  | asleep => simp
  | awake => simp
  | holding => have := hA.full (.inl hm); omega
  | _ => simp [hm, early] at hf

/-- **C18** With `thresholdNumberOfBlocks = 0` the call never returns a result (it reads the first of no
samples). -/
theorem C18_zero_blocks {Θ : Type} {P : Params Θ} {blocks : List Blk} {s : State Θ}
    (h : Reach (Step P) (init P blocks) s) (hN : P.numBlocks = 0) : ∀ data, s.main ≠ .done data := by
  intro data hd
  have := h.inv (fun s => InvA P blocks s ∧ early s.main = true) ⟨invA_init P blocks, rfl⟩ (by
    rintro a l c ⟨hA, he⟩ hs
    refine ⟨invA_step P blocks a l c hA hs, ?_⟩
    have hle := hA.le
    cases hs with
    | mainStart h0 h1 h2 =>
      exfalso
      apply h2
      exact List.length_eq_zero_iff.1 (by omega)
    | mainUnlock h0 h1 => simp [h1, early] at he
    | mainNotify h0 h1 => simp [h1, early] at he
    | extra h0 h1 => simp [h1, early] at he
    | mainPush h0 h1 => simp [h1, early] at he
    | mainSecond h0 h1 => simp [h1, early] at he
    | mainJoin h0 h1 => simp [h1, early] at he
    | mainDone h0 h1 => simp [h1, early] at he
    | mainSleep h0 h1 => rfl
    | mainLock h0 h1 => rfl
    | mainSpurious h0 h1 => rfl
    | notifyAll h0 h1 =>
      revert he
      simp only
      cases a.main <;> simp [early, wakeMain]
    | _ => exact he)
  have := this.2
  simp [hd, early] at this

/-- **C18** The single-pass threaded reader never fills the `complete` flags of its blocks
(stempy/reader.h:418-442): with it the call never returns, and reading the flag of the first block is undefined
behaviour. -/
theorem C18_single_pass_reader {Θ : Type} {P : Params Θ} (hn : 0 < P.threads) {blocks : List Blk}
    (hN : 0 < P.numBlocks) (hflag : ∀ b ∈ blocks, b.complete = none) :
    (∀ s, Reach (Step P) (init P blocks) s → ∀ data, s.main ≠ .done data) ∧
    (blocks ≠ [] → ∃ s, Reach (Step P) (init P blocks) s ∧ s.ub = true) := by
  constructor
  · intro s h data hd
    have h0 : numComplete blocks = 0 := by
      unfold numComplete
      rw [List.countP_eq_zero]
      intro b hb; simp [hflag b hb]
    rcases C18_hang h (by omega) with h1 | h1 | h1 <;> simp [hd] at h1
  · intro hne
    obtain ⟨b, bs, rfl⟩ := List.exists_cons_of_ne_nil hne
    obtain ⟨k, hk⟩ : ∃ k, P.threads = k + 1 := ⟨P.threads - 1, by omega⟩
    refine ⟨_, (((Reach.refl _).step (Step.take (b := b) (p1 := []) (p2 := bs) (pre := [])
      (post := List.replicate k .idle) ?_ ?_ ?_)).step
      (Step.noFlag (b := b) (pre := []) (post := List.replicate k .idle) ?_ ?_ ?_)).step
      (Step.sampleUb (b := b) (pre := []) (post := List.replicate k .idle) ?_ ?_ ?_ ?_ ?_), ?_⟩ <;>
      simp [init, hk, List.replicate_succ, hN, hflag]

private def wcost (n : Nat) : Worker → Nat
  | .idle => 1
  | .got _ => n + 20
  | .wantLock _ => n + 19
  | .notify => n + 5
  | .asleep _ => 5
  | .awake _ => 6
  | .append _ _ => 4
  | .pushing _ _ => 3
  | .exited => 0

private def mcost (n : Nat) : Main → Nat
  | .start => n + 20
  | .asleep => n + 18
  | .awake => n + 19
  | .holding => n + 17
  | .started => n + 16
  | .notify => n + 15
  | .extra _ false => 8
  | .pushing _ _ false => 7
  | .extra _ true => 6
  | .pushing _ _ true => 5
  | .join => 4
  | .done _ => 0

private def streamMeasure {Θ : Type} (n : Nat) (s : State Θ) : Nat :=
  (n + 21) * s.pending.length + (s.workers.map (wcost n)).sum +
    3 * (owed s.samples s.incomplete s.main).length + mcost n s.main + (if s.ub then 0 else 1)

/-- Steps gained by a spurious wake-up. -/
def streamGain : Label → Nat
  | .spurious => 2
  | .internal => 0

/-- **C18** Termination: the number of steps of any execution is bounded by the number of threads and blocks and twice
the number of spurious wake-ups. -/
theorem C18_termination {Θ : Type} {P : Params Θ} {blocks : List Blk} {s : State Θ} {ls : List Label}
    (h : Run (Step P) (init P blocks) ls s) :
    ls.length ≤ (P.threads + 21) * blocks.length + 2 * P.threads + 21 + (ls.map streamGain).sum := by
  have hmap : ∀ l : List Worker, ((l.map wakeWorker).map (wcost P.threads)).sum ≤
      (l.map (wcost P.threads)).sum + l.length := by
    intro l
    induction l with
    | nil => simp
    | cons w l ih =>
      have : wcost P.threads (wakeWorker w) ≤ wcost P.threads w + 1 := by
        cases w <;> simp [wakeWorker, wcost]
      simp only [List.map_cons, List.sum_cons, List.length_cons]
      omega
  have hub : ∀ a : State Θ, a.ub = false →
      streamMeasure P.threads { a with ub := true } + 1 ≤ streamMeasure P.threads a := by
    intro a ha
    simp [streamMeasure, ha]
  have := h.length_le (InvA P blocks) (streamMeasure P.threads) streamGain (invA_init P blocks)
    (invA_step P blocks)
    (by
      intro a l c hA hs
      have howed : a.samples.length < P.numBlocks → ∀ x y, owed x y a.main = x ++ y := by
        intro hlt x y
        have hc : a.counting = false := by
          by_contra hc
          have := hA.full (.inr (by simpa using hc))
          omega
        have he : early a.main = true := by
          have := hA.flag; rw [hc] at this; simpa using this.symm
        cases hm : a.main <;> simp_all [early, owed]
      cases hs with
      | take h0 h1 h2 =>
        simp [streamMeasure, streamGain, h1, h2, wcost]
        ring_nf; omega
      | exit h0 h1 h2 => simp [streamMeasure, streamGain, h1, wcost]; omega
      | seeFlag h0 h1 h2 => simp [streamMeasure, streamGain, h1, wcost]; omega
      | noFlag h0 h1 h2 => simp [streamMeasure, streamGain, h1, wcost]; omega
      | sampleUb h0 => exact hub a h0
      | sample h0 h1 h2 h3 h4 =>
        simp [streamMeasure, streamGain, h1, wcost, howed (by omega)]; omega
      | lastSample h0 h1 h2 h3 h4 =>
        simp [streamMeasure, streamGain, h1, wcost, howed (by omega)]; omega
      | incomplete h0 h1 h2 h3 h4 =>
        simp [streamMeasure, streamGain, h1, wcost, howed (by omega)]; omega
      | @notifyAll pre post h0 h1 =>
        have e1 := hmap pre
        have e2 := hmap post
        have e3 := hA.size
        have e4 : mcost P.threads (wakeMain a.main) ≤ mcost P.threads a.main + 1 := by
          cases a.main <;> simp [wakeMain, mcost]
        have e5 : owed a.samples a.incomplete (wakeMain a.main) = owed a.samples a.incomplete a.main := by
          cases a.main <;> rfl
        rw [h1] at e3
        simp only [List.length_append, List.length_cons] at e3
        simp only [streamMeasure, streamGain, h1, e5, List.map_append, List.map_cons, List.sum_append,
          List.sum_cons, wcost]
        omega
      | sleep h0 h1 h2 h3 =>
        rcases h1 with ⟨h1, _⟩ | h1
        · simp [streamMeasure, streamGain, h1, wcost]; omega
        · simp [streamMeasure, streamGain, h1, wcost]; omega
      | proceed h0 h1 h2 h3 =>
        rcases h1 with ⟨h1, _⟩ | h1
        · simp [streamMeasure, streamGain, h1, wcost]; omega
        · simp [streamMeasure, streamGain, h1, wcost]; omega
      | appendOut h0 => exact hub a h0
      | append h0 h1 => simp [streamMeasure, streamGain, h1, wcost]; omega
      | appendRace h0 => exact hub a h0
      | push h0 h1 => simp [streamMeasure, streamGain, h1, wcost]; omega
      | pushUb h0 => exact hub a h0
      | mainSleep h0 h1 =>
        rcases h1 with h1 | h1 <;> simp [streamMeasure, streamGain, h1, mcost, owed] <;> omega
      | mainLock h0 h1 =>
        rcases h1 with h1 | h1 <;> simp [streamMeasure, streamGain, h1, mcost, owed] <;> omega
      | mainStart h0 h1 => simp [streamMeasure, streamGain, h1, mcost, owed]; omega
      | mainUb h0 => exact hub a h0
      | mainUnlock h0 h1 => simp [streamMeasure, streamGain, h1, mcost, owed]; omega
      | mainNotify h0 h1 =>
        have e1 := hmap a.workers
        have e3 := hA.size
        have e4 : (a.samples.take P.numBlocks).length ≤ a.samples.length := by simp
        simp only [streamMeasure, streamGain, h1, mcost, owed, List.length_append] at *
        simp only [Bool.false_eq_true, if_false]
        omega
      | extraOut h0 => exact hub a h0
      | @extra b todo second h0 h1 =>
        cases second <;> simp [streamMeasure, streamGain, h1, mcost, owed]
        all_goals omega
      | extraRace h0 => exact hub a h0
      | @mainPush b todo second θ h0 h1 =>
        cases second <;> simp [streamMeasure, streamGain, h1, mcost, owed]
        all_goals omega
      | mainPushUb h0 => exact hub a h0
      | mainSecond h0 h1 => simp [streamMeasure, streamGain, h1, mcost, owed]; omega
      | mainJoin h0 h1 => simp [streamMeasure, streamGain, h1, mcost, owed]; omega
      | mainDone h0 h1 => simp [streamMeasure, streamGain, h1, mcost, owed]; omega
      | spurious h0 h1 => simp [streamMeasure, streamGain, h1, wcost]; omega
      | mainSpurious h0 h1 => simp [streamMeasure, streamGain, h1, mcost, owed]; omega)
  have h0 : streamMeasure P.threads (init P blocks) =
      (P.threads + 21) * blocks.length + 2 * P.threads + 21 := by
    simp [streamMeasure, init, owed, mcost, wcost]
    ring
  omega

/-! ### C19 -/

/-- Number of threads inside of `push_back` on the frame list of position `p`. -/
def appenders {Θ : Type} (s : State Θ) (p : Nat) : Nat :=
  s.workers.countP (pushesAt p) + if mainPushesAt p s.main then 1 else 0

/-- **C19** If no two frames of the stream have the same scan position (and the positions are inside of the scan,
and the reader fills the flags), there is no data race nor any other undefined behaviour, in any schedule.
Missing for the full statement: several frames at a position, for which it is false (`C19_race`). -/
theorem C19_race_free_partial {Θ : Type} {P : Params Θ} {blocks : List Blk} {s : State Θ}
    (h : Reach (Step P) (init P blocks) s) (hnd : (blocks.map Blk.pos).Nodup)
    (hpos : ∀ b ∈ blocks, b.pos < P.positions) (hflag : ∀ b ∈ blocks, b.complete ≠ none)
    (hN : 0 < P.numBlocks) : s.ub = false := by
  have hinj : ∀ b ∈ blocks, ∀ c ∈ blocks, b.pos = c.pos → b = c :=
    by
    intro b hb c hc e
    exact List.inj_on_of_nodup_map hnd hb hc e
  have hcnt : ∀ b, blocks.count b ≤ 1 := fun b => List.nodup_iff_count_le_one.1 (List.Nodup.of_map _ hnd) b
  refine (h.inv (fun s => InvA P blocks s ∧ s.ub = false) ⟨invA_init P blocks, rfl⟩ ?_).2
  rintro a l c ⟨hA, hu⟩ hs
  refine ⟨invA_step P blocks a l c hA hs, ?_⟩
  have hclash : ∀ b b', b ∈ a.workers.filterMap blkOf → b' ∈ owed a.samples a.incomplete a.main →
      b.pos = b'.pos → False := by
    intro b b' hb hb' e
    have m1 := mem_blocks hA (.inr (.inl hb))
    have m2 := mem_blocks hA (.inr (.inr (.inl hb')))
    have := hinj b m1 b' m2 e
    subst this
    have c1 := hA.cons b
    have c2 := List.count_pos_iff.2 hb
    have c3 := List.count_pos_iff.2 hb'
    have c4 := hcnt b
    omega
  have hactive : ∀ w ∈ a.workers, active w = true → a.counting = true := by
    intro w hw ha
    by_contra hc
    have := (hA.quiet (by simpa using hc)).2 w hw
    simp [ha] at this
  have hheld : ∀ {pre post : List Worker} {w : Worker} {b : Blk}, a.workers = pre ++ w :: post →
      blkOf w = some b → b ∈ a.workers.filterMap blkOf := by
    intro pre post w b e hb
    rw [List.mem_filterMap]
    exact ⟨w, by simp [e], hb⟩
  cases hs with
  | @sampleUb b pre post h0 h1 h2 h3 h4 =>
    exact absurd h4 (hflag b (mem_blocks hA (.inr (.inl (hheld h1 rfl)))))
  | @appendOut b hold pre post h0 h1 h2 =>
    have hc := hactive (.append b hold) (by rw [h1]; simp) rfl
    have := (hA.thr hc).2.1
    have := hpos b (mem_blocks hA (.inr (.inl (hheld h1 rfl))))
    omega
  | @appendRace b hold pre post h0 h1 h2 h3 h4 =>
    exfalso
    cases hm : a.main with
    | pushing b' todo second =>
      rw [hm] at h4
      refine hclash b b' (hheld h1 rfl) ?_ (by simpa [mainPushesAt, eq_comm] using h4)
      simp [hm, owed]
    | _ => simp [hm, mainPushesAt] at h4
  | @pushUb b hold pre post h0 h1 h2 =>
    have hc := hactive (.pushing b hold) (by rw [h1]; simp) rfl
    have := (hA.thr hc).1
    simp [h2] at this
  | mainUb h0 h1 h2 =>
    have := hA.full (.inl h1)
    simp [h2] at this
    omega
  | @extraOut b todo second h0 h1 h2 =>
    have hc : a.counting = true := by rw [hA.flag, h1]; rfl
    have := (hA.thr hc).2.1
    have := hpos b (mem_blocks hA (.inr (.inr (.inl (by simp [h1, owed])))))
    omega
  | @extraRace b todo second w h0 h1 h2 h3 h4 =>
    exfalso
    cases w with
    | pushing b' k =>
      refine hclash b' b ?_ (by simp [h1, owed]) (by simpa [pushesAt] using h4)
      rw [List.mem_filterMap]
      exact ⟨_, h3, rfl⟩
    | _ => simp [pushesAt] at h4
  | @mainPushUb b todo second h0 h1 h2 =>
    have hc : a.counting = true := by rw [hA.flag, h1]; rfl
    have := (hA.thr hc).1
    simp [h2] at this
  | _ => exact hu

/-- **C19** Before the first data race at most one thread is inside of an append to the list of a position. -/
theorem C19_one_appender {Θ : Type} {P : Params Θ} {blocks : List Blk} {s : State Θ}
    (h : Reach (Step P) (init P blocks) s) (p : Nat) : appenders s p ≤ 1 := by
  refine h.inv (fun s => appenders s p ≤ 1) ?_ ?_
  · have : ∀ k, (List.replicate k Worker.idle).countP (pushesAt p) = 0 := by
      intro k; rw [List.countP_eq_zero]; intro w hw
      rw [(List.mem_replicate.1 hw).2]; simp [pushesAt]
    simp [appenders, init, this, mainPushesAt]
  · intro a l c hi hs
    have hwake : ∀ l : List Worker, (l.map wakeWorker).countP (pushesAt p) = l.countP (pushesAt p) := by
      intro l
      rw [List.countP_map]
      congr 1
      funext w
      cases w <;> rfl
    have hwm : mainPushesAt p (wakeMain a.main) = mainPushesAt p a.main := by
      cases a.main <;> rfl
    cases hs with
    | take h0 h1 h2 => simpa [appenders, h1, pushesAt] using hi
    | exit h0 h1 h2 => simpa [appenders, h1, pushesAt] using hi
    | seeFlag h0 h1 h2 => simpa [appenders, h1, pushesAt] using hi
    | noFlag h0 h1 h2 => simpa [appenders, h1, pushesAt] using hi
    | sampleUb h0 => exact hi
    | sample h0 h1 => simpa [appenders, h1, pushesAt] using hi
    | lastSample h0 h1 => simpa [appenders, h1, pushesAt] using hi
    | incomplete h0 h1 => simpa [appenders, h1, pushesAt] using hi
    | notifyAll h0 h1 => simpa [appenders, h1, pushesAt, hwake, hwm] using hi
    | sleep h0 h1 =>
      rcases h1 with ⟨h1, _⟩ | h1 <;> simpa [appenders, h1, pushesAt] using hi
    | proceed h0 h1 =>
      rcases h1 with ⟨h1, _⟩ | h1 <;> simpa [appenders, h1, pushesAt] using hi
    | appendOut h0 => exact hi
    | @append b hold pre post h0 h1 h2 h3 h4 =>
      by_cases hp : b.pos = p
      · subst hp
        have e1 : (pre ++ post).countP (pushesAt b.pos) = 0 := by
          rw [List.countP_eq_zero]; intro w hw; simp [h3 w hw]
        rw [List.countP_append] at e1
        simp only [appenders, List.countP_append, List.countP_cons, h4]
        simp [pushesAt]
        omega
      · simpa [appenders, h1, pushesAt, hp] using hi
    | appendRace h0 => exact hi
    | push h0 h1 =>
      refine le_trans ?_ hi
      simp [appenders, h1, List.countP_cons, show pushesAt p Worker.idle = false from rfl]
    | pushUb h0 => exact hi
    | mainSleep h0 h1 => rcases h1 with h1 | h1 <;> simpa [appenders, h1, mainPushesAt] using hi
    | mainLock h0 h1 => rcases h1 with h1 | h1 <;> simpa [appenders, h1, mainPushesAt] using hi
    | mainStart h0 h1 => simpa [appenders, h1, mainPushesAt] using hi
    | mainUb h0 => exact hi
    | mainUnlock h0 h1 => simpa [appenders, h1, mainPushesAt] using hi
    | mainNotify h0 h1 => simpa [appenders, h1, mainPushesAt, hwake] using hi
    | extraOut h0 => exact hi
    | @extra b todo second h0 h1 h2 h3 =>
      by_cases hp : b.pos = p
      · subst hp
        have e1 : a.workers.countP (pushesAt b.pos) = 0 := by
          rw [List.countP_eq_zero]; intro w hw; simp [h3 w hw]
        simp [appenders, e1, mainPushesAt]
      · simpa [appenders, h1, mainPushesAt, hp] using hi
    | extraRace h0 => exact hi
    | mainPush h0 h1 =>
      refine le_trans ?_ hi
      simp [appenders, h1, mainPushesAt]
    | mainPushUb h0 => exact hi
    | mainSecond h0 h1 => simpa [appenders, h1, mainPushesAt] using hi
    | mainJoin h0 h1 => simpa [appenders, h1, mainPushesAt] using hi
    | mainDone h0 h1 => simpa [appenders, h1, mainPushesAt] using hi
    | spurious h0 h1 => simpa [appenders, h1, pushesAt] using hi
    | mainSpurious h0 h1 => simpa [appenders, h1, mainPushesAt] using hi

private def demo : Params Unit where
  threads := 1
  numBlocks := 1
  positions := 2
  threshold := fun _ => ()
  count := fun _ b => [b.id]

/-- **C19** is false: with two frames at the same position, one of them a sample frame, the calling thread and a
worker append to the same list at the same time. -/
theorem C19_race :
    ∃ s s' : State Unit, Reach (Step demo) (init demo [⟨0, 1, some true⟩, ⟨1, 1, some true⟩]) s ∧
      (∃ hold pre post, s.workers = pre ++ .append ⟨1, 1, some true⟩ hold :: post) ∧
      s.main = .pushing ⟨0, 1, some true⟩ [] false ∧ Step demo s .internal s' ∧ s'.ub = true := by
  refine ⟨⟨[], [.append ⟨1, 1, some true⟩ false], .pushing ⟨0, 1, some true⟩ [] false, false, true, [⟨0, 1, some true⟩], [], some (), [[], []], [], false⟩, _, ?_,
    ⟨false, [], [], rfl⟩, rfl,
    Step.appendRace (b := ⟨1, 1, some true⟩) (hold := false) (pre := []) (post := []) rfl rfl (by simp) (by simp) rfl,
    rfl⟩
  refine Reach.head (t := ⟨[⟨1, 1, some true⟩], [.got ⟨0, 1, some true⟩], .start, false, false, [], [], none, [], [], false⟩)
    (Step.take (b := ⟨0, 1, some true⟩) (p1 := []) (p2 := [⟨1, 1, some true⟩]) (pre := []) (post := []) rfl rfl rfl) ?_
  refine Reach.head (t := ⟨[⟨1, 1, some true⟩], [.wantLock ⟨0, 1, some true⟩], .start, false, false, [], [], none, [], [], false⟩)
    (Step.noFlag (b := ⟨0, 1, some true⟩) (pre := []) (post := []) rfl rfl rfl) ?_
  refine Reach.head (t := ⟨[⟨1, 1, some true⟩], [.notify], .start, false, false, [⟨0, 1, some true⟩], [], none, [], [], false⟩)
    (Step.lastSample (b := ⟨0, 1, some true⟩) (pre := []) (post := []) rfl rfl rfl rfl rfl) ?_
  refine Reach.head (t := ⟨[⟨1, 1, some true⟩], [.idle], .start, false, false, [⟨0, 1, some true⟩], [], none, [], [], false⟩)
    (Step.notifyAll (pre := []) (post := []) rfl rfl) ?_
  refine Reach.head (t := ⟨[⟨1, 1, some true⟩], [.idle], .holding, true, false, [⟨0, 1, some true⟩], [], none, [], [], false⟩)
    (Step.mainLock rfl (.inl rfl) rfl rfl) ?_
  refine Reach.head (t := ⟨[⟨1, 1, some true⟩], [.idle], .started, true, true, [⟨0, 1, some true⟩], [], some (), [[], []], [], false⟩)
    (Step.mainStart rfl rfl (by simp)) ?_
  refine Reach.head (t := ⟨[⟨1, 1, some true⟩], [.idle], .notify, false, true, [⟨0, 1, some true⟩], [], some (), [[], []], [], false⟩)
    (Step.mainUnlock rfl rfl) ?_
  refine Reach.head (t := ⟨[⟨1, 1, some true⟩], [.idle], .extra [⟨0, 1, some true⟩] false, false, true, [⟨0, 1, some true⟩], [], some (), [[], []], [], false⟩)
    (Step.mainNotify rfl rfl) ?_
  refine Reach.head (t := ⟨[⟨1, 1, some true⟩], [.idle], .pushing ⟨0, 1, some true⟩ [] false, false, true, [⟨0, 1, some true⟩], [], some (), [[], []], [], false⟩)
    (Step.extra (b := ⟨0, 1, some true⟩) (todo := []) (second := false) rfl rfl (by simp) (by simp [pushesAt])) ?_
  refine Reach.head (t := ⟨[], [.got ⟨1, 1, some true⟩], .pushing ⟨0, 1, some true⟩ [] false, false, true, [⟨0, 1, some true⟩], [], some (), [[], []], [], false⟩)
    (Step.take (b := ⟨1, 1, some true⟩) (p1 := []) (p2 := []) (pre := []) (post := []) rfl rfl rfl) ?_
  refine Reach.head (t := ⟨[], [.append ⟨1, 1, some true⟩ false], .pushing ⟨0, 1, some true⟩ [] false, false, true, [⟨0, 1, some true⟩], [], some (), [[], []], [], false⟩)
    (Step.seeFlag (b := ⟨1, 1, some true⟩) (pre := []) (post := []) rfl rfl rfl) ?_
  exact Reach.refl _

/-- A complete run with a sample and an incomplete block: the call returns. -/
example : ∃ s, Reach (Step demo) (init demo [⟨5, 1, some false⟩, ⟨7, 1, some true⟩]) s ∧
    s.main = .done [[[], []], [[7], [5]]] ∧ s.ub = false := by
  refine ⟨⟨[], [.exited], .done [[[], []], [[7], [5]]], false, true, [⟨7, 1, some true⟩], [⟨5, 1, some false⟩], some (), [[], [[7], [5]]], [⟨7, 1, some true⟩, ⟨5, 1, some false⟩], false⟩, ?_, rfl, rfl⟩
  refine Reach.head (t := ⟨[⟨7, 1, some true⟩], [.got ⟨5, 1, some false⟩], .start, false, false, [], [], none, [], [], false⟩)
    (Step.take (b := ⟨5, 1, some false⟩) (p1 := []) (p2 := [⟨7, 1, some true⟩]) (pre := []) (post := []) rfl rfl rfl) ?_
  refine Reach.head (t := ⟨[⟨7, 1, some true⟩], [.wantLock ⟨5, 1, some false⟩], .start, false, false, [], [], none, [], [], false⟩)
    (Step.noFlag (b := ⟨5, 1, some false⟩) (pre := []) (post := []) rfl rfl rfl) ?_
  refine Reach.head (t := ⟨[⟨7, 1, some true⟩], [.idle], .start, false, false, [], [⟨5, 1, some false⟩], none, [], [], false⟩)
    (Step.incomplete (b := ⟨5, 1, some false⟩) (pre := []) (post := []) rfl rfl rfl (by decide) rfl) ?_
  refine Reach.head (t := ⟨[], [.got ⟨7, 1, some true⟩], .start, false, false, [], [⟨5, 1, some false⟩], none, [], [], false⟩)
    (Step.take (b := ⟨7, 1, some true⟩) (p1 := []) (p2 := []) (pre := []) (post := []) rfl rfl rfl) ?_
  refine Reach.head (t := ⟨[], [.wantLock ⟨7, 1, some true⟩], .start, false, false, [], [⟨5, 1, some false⟩], none, [], [], false⟩)
    (Step.noFlag (b := ⟨7, 1, some true⟩) (pre := []) (post := []) rfl rfl rfl) ?_
  refine Reach.head (t := ⟨[], [.notify], .start, false, false, [⟨7, 1, some true⟩], [⟨5, 1, some false⟩], none, [], [], false⟩)
    (Step.lastSample (b := ⟨7, 1, some true⟩) (pre := []) (post := []) rfl rfl rfl rfl rfl) ?_
  refine Reach.head (t := ⟨[], [.idle], .start, false, false, [⟨7, 1, some true⟩], [⟨5, 1, some false⟩], none, [], [], false⟩)
    (Step.notifyAll (pre := []) (post := []) rfl rfl) ?_
  refine Reach.head (t := ⟨[], [.idle], .holding, true, false, [⟨7, 1, some true⟩], [⟨5, 1, some false⟩], none, [], [], false⟩)
    (Step.mainLock rfl (.inl rfl) rfl rfl) ?_
  refine Reach.head (t := ⟨[], [.idle], .started, true, true, [⟨7, 1, some true⟩], [⟨5, 1, some false⟩], some (), [[], []], [], false⟩)
    (Step.mainStart rfl rfl (by simp)) ?_
  refine Reach.head (t := ⟨[], [.idle], .notify, false, true, [⟨7, 1, some true⟩], [⟨5, 1, some false⟩], some (), [[], []], [], false⟩)
    (Step.mainUnlock rfl rfl) ?_
  refine Reach.head (t := ⟨[], [.idle], .extra [⟨7, 1, some true⟩] false, false, true, [⟨7, 1, some true⟩], [⟨5, 1, some false⟩], some (), [[], []], [], false⟩)
    (Step.mainNotify rfl rfl) ?_
  refine Reach.head (t := ⟨[], [.idle], .pushing ⟨7, 1, some true⟩ [] false, false, true, [⟨7, 1, some true⟩], [⟨5, 1, some false⟩], some (), [[], []], [], false⟩)
    (Step.extra rfl rfl (by simp) (by simp [pushesAt])) ?_
  refine Reach.head (t := ⟨[], [.idle], .extra [] false, false, true, [⟨7, 1, some true⟩], [⟨5, 1, some false⟩], some (), [[], [[7]]], [⟨7, 1, some true⟩], false⟩)
    (Step.mainPush (b := ⟨7, 1, some true⟩) (θ := ()) rfl rfl rfl) ?_
  refine Reach.head (t := ⟨[], [.idle], .extra [⟨5, 1, some false⟩] true, false, true, [⟨7, 1, some true⟩], [⟨5, 1, some false⟩], some (), [[], [[7]]], [⟨7, 1, some true⟩], false⟩)
    (Step.mainSecond rfl rfl) ?_
  refine Reach.head (t := ⟨[], [.idle], .pushing ⟨5, 1, some false⟩ [] true, false, true, [⟨7, 1, some true⟩], [⟨5, 1, some false⟩], some (), [[], [[7]]], [⟨7, 1, some true⟩], false⟩)
    (Step.extra rfl rfl (by simp) (by simp [pushesAt])) ?_
  refine Reach.head (t := ⟨[], [.idle], .extra [] true, false, true, [⟨7, 1, some true⟩], [⟨5, 1, some false⟩], some (), [[], [[7], [5]]], [⟨7, 1, some true⟩, ⟨5, 1, some false⟩], false⟩)
    (Step.mainPush (b := ⟨5, 1, some false⟩) (θ := ()) rfl rfl rfl) ?_
  refine Reach.head (t := ⟨[], [.idle], .join, false, true, [⟨7, 1, some true⟩], [⟨5, 1, some false⟩], some (), [[], [[7], [5]]], [⟨7, 1, some true⟩, ⟨5, 1, some false⟩], false⟩)
    (Step.mainJoin rfl rfl) ?_
  refine Reach.head (t := ⟨[], [.exited], .join, false, true, [⟨7, 1, some true⟩], [⟨5, 1, some false⟩], some (), [[], [[7], [5]]], [⟨7, 1, some true⟩, ⟨5, 1, some false⟩], false⟩)
    (Step.exit (pre := []) (post := []) rfl rfl rfl) ?_
  refine Reach.head (t := ⟨[], [.exited], .done [[[], []], [[7], [5]]], false, true, [⟨7, 1, some true⟩], [⟨5, 1, some false⟩], some (), [[], [[7], [5]]], [⟨7, 1, some true⟩, ⟨5, 1, some false⟩], false⟩)
    (Step.mainDone rfl rfl (by simp)) ?_
  exact Reach.refl _

end Stempy.Props
