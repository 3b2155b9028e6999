import Verif.Props.Streaming
import Mathlib.Data.List.Perm.Subperm

/-!
# C19: exactly when the streaming counting has a data race

`C19_race_free_partial` excludes races for frames with different positions. Here: which streams have a schedule with a race.
-/

namespace Stempy.Props
open Stempy.Streaming Stempy.Spec

namespace StreamRace

variable {Θ : Type} {P : Params Θ} {blocks : List Blk}

/-- The frames kept for the calling thread are none of those that the workers have or will get. -/
structure InvD (blocks : List Blk) (s : State Θ) : Prop where
  apart : ∀ b, s.pending.count b + (s.workers.filterMap blkOf).count b + s.samples.count b + s.incomplete.count b ≤ blocks.count b
  owes : ∀ b ∈ owed s.samples s.incomplete s.main, b ∈ s.samples ∨ b ∈ s.incomplete

theorem invD_init : InvD blocks (init P blocks) := by
  have h : ∀ k, (List.replicate k Worker.idle).filterMap blkOf = [] := by
    intro k
    induction k with
    | zero => rfl
    | succ k ih => simp [List.replicate_succ, blkOf]
  constructor <;> simp [init, owed, h]

theorem wake_blk (l : List Worker) : (l.map wakeWorker).filterMap blkOf = l.filterMap blkOf := by
  induction l with
  | nil => rfl
  | cons w l ih => cases w <;> simp [wakeWorker, blkOf, List.filterMap_cons, ih]

theorem invD_step (s : State Θ) (l : Label) (t : State Θ) (h : InvD blocks s) (hs : Step P s l t) : InvD blocks t := by
  obtain ⟨h1, h2⟩ := h
  have hw : ∀ (main : Main), owed s.samples s.incomplete (wakeMain main) = owed s.samples s.incomplete main := by
    intro main
    cases main <;> rfl
  cases hs with
  | take h0 e1 e2 =>
    refine ⟨fun b => ?_, h2⟩
    have := h1 b
    simp only [e1, e2, List.filterMap_append, List.filterMap_cons, blkOf, List.count_append, List.count_cons] at this ⊢
    omega
  | exit h0 e1 e2 => exact ⟨fun b => by have := h1 b; simpa [e1, e2, blkOf, List.filterMap_cons] using this, h2⟩
  | seeFlag h0 e1 e2 => exact ⟨fun b => by have := h1 b; simpa [e1, blkOf] using this, h2⟩
  | noFlag h0 e1 e2 => exact ⟨fun b => by have := h1 b; simpa [e1, blkOf] using this, h2⟩
  | sample h0 e1 e2 e3 e4 =>
    refine ⟨fun b => ?_, ?_⟩
    · have := h1 b
      simp only [e1, List.filterMap_append, List.filterMap_cons, blkOf, List.count_append, List.count_cons, List.count_nil] at this ⊢
      omega
    · intro b hb
      revert hb h2
      cases s.main <;> simp [owed] <;> grind
  | lastSample h0 e1 e2 e3 e4 =>
    refine ⟨fun b => ?_, ?_⟩
    · have := h1 b
      simp only [e1, List.filterMap_append, List.filterMap_cons, blkOf, List.count_append, List.count_cons, List.count_nil] at this ⊢
      omega
    · intro b hb
      revert hb h2
      cases s.main <;> simp [owed] <;> grind
  | incomplete h0 e1 e2 e3 e4 =>
    refine ⟨fun b => ?_, ?_⟩
    · have := h1 b
      simp only [e1, List.filterMap_append, List.filterMap_cons, blkOf, List.count_append, List.count_cons, List.count_nil] at this ⊢
      omega
    · intro b hb
      revert hb h2
      cases s.main <;> simp [owed] <;> grind
  | notifyAll h0 e1 =>
    refine ⟨fun b => ?_, by rw [hw]; exact h2⟩
    have := h1 b
    simp only [e1, List.filterMap_append, List.filterMap_cons, blkOf, wake_blk] at this ⊢
    exact this
  | sleep h0 e1 => rcases e1 with ⟨e1, _⟩ | e1 <;> exact ⟨fun b => by have := h1 b; simpa [e1, blkOf] using this, h2⟩
  | proceed h0 e1 => rcases e1 with ⟨e1, _⟩ | e1 <;> exact ⟨fun b => by have := h1 b; simpa [e1, blkOf] using this, h2⟩
  | append h0 e1 => exact ⟨fun b => by have := h1 b; simpa [e1, blkOf] using this, h2⟩
  | push h0 e1 =>
    refine ⟨fun b => ?_, h2⟩
    have := h1 b
    simp only [e1, List.filterMap_append, List.filterMap_cons, blkOf, List.count_append, List.count_cons] at this ⊢
    omega
  | mainSleep h0 e1 => exact ⟨h1, fun b hb => by simpa [owed] using hb⟩
  | mainLock h0 e1 => exact ⟨h1, fun b hb => by simpa [owed] using hb⟩
  | mainStart h0 e1 => exact ⟨h1, fun b hb => by simpa [owed] using hb⟩
  | mainUnlock h0 e1 => exact ⟨h1, fun b hb => by simpa [owed] using hb⟩
  | mainNotify h0 e1 =>
    refine ⟨fun b => by rw [wake_blk]; exact h1 b, fun b hb => ?_⟩
    simp only [owed, Bool.false_eq_true, if_false, List.mem_append] at hb
    rcases hb with hb | hb
    · exact Or.inl (List.mem_of_mem_take hb)
    · exact Or.inr hb
  | extra h0 e1 => exact ⟨h1, fun b hb => h2 b (by simpa [e1, owed] using hb)⟩
  | mainPush h0 e1 => exact ⟨h1, fun b hb => h2 b (by simp only [e1, owed] at hb ⊢; exact List.mem_cons_of_mem _ hb)⟩
  | mainSecond h0 e1 => exact ⟨h1, fun b hb => Or.inr (by simpa [owed] using hb)⟩
  | mainJoin h0 e1 => exact ⟨h1, fun b hb => by simp [owed] at hb⟩
  | mainDone h0 e1 => exact ⟨h1, fun b hb => by simp [owed] at hb⟩
  | spurious h0 e1 => exact ⟨fun b => by have := h1 b; simpa [e1, blkOf] using this, h2⟩
  | mainSpurious h0 e1 => exact ⟨h1, fun b hb => by simpa [owed] using hb⟩
  | _ => exact ⟨h1, h2⟩

/-- Two frames of the stream have the same position, enough frames are complete for the thresholds, and there is one more if both of
the two are complete. -/
def Clash (N : Nat) (blocks : List Blk) : Prop :=
  ∃ a b rest, blocks.Perm (a :: b :: rest) ∧ a.pos = b.pos ∧ N ≤ numComplete blocks ∧
    (a.complete = some true → b.complete = some true → N < numComplete blocks)

theorem two_of {a b : Blk} (h : ∀ x, [a, b].count x ≤ blocks.count x) : ∃ rest, blocks.Perm (a :: b :: rest) := by
  have h1 : a ∈ blocks := List.count_pos_iff.1 (lt_of_lt_of_le (by simp) (h a))
  have h2 : b ∈ blocks.erase a := by
    apply List.count_pos_iff.1
    have := h b
    rw [List.count_erase]
    by_cases e : a = b
    · subst e
      simp at this ⊢
      omega
    · have e' : (a == b) = false := by simpa using e
      simp [List.count_cons, e'] at this ⊢
      omega
  exact ⟨(blocks.erase a).erase b, (List.perm_cons_erase h1).trans ((List.perm_cons_erase h2).cons a)⟩

theorem clash_of {s : State Θ} (hA : InvA P blocks s) (hD : InvD blocks s) (hc : s.counting = true) {b b' : Blk}
    (hb : b ∈ s.workers.filterMap blkOf) (hb' : b' ∈ owed s.samples s.incomplete s.main) (e : b.pos = b'.pos) :
    Clash P.numBlocks blocks := by
  have hfull := hA.full (.inr hc)
  have hcnt : (s.samples.countP fun b => decide (b.complete = some true)) = P.numBlocks := by
    rw [← hfull, List.countP_eq_length]
    intro x hx
    simp [hA.smp x hx]
  have cb := List.count_pos_iff.2 hb
  have cb' : 0 < s.samples.count b' + s.incomplete.count b' := by
    rcases hD.owes b' hb' with x | x
    · have := List.count_pos_iff.2 x; omega
    · have := List.count_pos_iff.2 x; omega
  obtain ⟨rest, hr⟩ := two_of (blocks := blocks) (a := b') (b := b) (fun x => by
    have := hD.apart x
    simp only [List.count_cons, List.count_nil, beq_iff_eq]
    split <;> split <;> (try subst_vars) <;> omega)
  refine ⟨b', b, rest, hr, e.symm, ?_, ?_⟩
  · rw [← hcnt]
    exact (List.subperm_iff_count.2 hA.sub).countP_le _
  · intro h1 h2
    have hs : (b :: s.samples).Subperm blocks := by
      rw [List.subperm_iff_count]
      intro x
      have := hD.apart x
      simp only [List.count_cons, beq_iff_eq]
      split <;> (try subst_vars) <;> omega
    have := hs.countP_le (fun b => decide (b.complete = some true))
    rw [List.countP_cons, hcnt] at this
    simp [h2] at this
    unfold numComplete
    omega

theorem forward (hpos : ∀ b ∈ blocks, b.pos < P.positions) (hflag : ∀ b ∈ blocks, b.complete ≠ none) (hN : 0 < P.numBlocks)
    {s : State Θ} (h : Reach (Step P) (init P blocks) s) (hub : s.ub = true) : Clash P.numBlocks blocks := by
  refine (h.inv (fun s => InvA P blocks s ∧ InvD blocks s ∧ (s.ub = true → Clash P.numBlocks blocks))
    ⟨invA_init P blocks, invD_init, nofun⟩ ?_).2.2 hub
  rintro a l c ⟨hA, hD, hu⟩ hs
  refine ⟨invA_step P blocks a l c hA hs, invD_step a l c hD hs, ?_⟩
  have mem : ∀ b, b ∈ a.workers.filterMap blkOf ∨ b ∈ owed a.samples a.incomplete a.main → b ∈ blocks := by
    intro b hb
    have := hA.cons b
    rw [← List.count_pos_iff]
    rcases hb with hb | hb
    · have := List.count_pos_iff.2 hb; omega
    · have := List.count_pos_iff.2 hb; omega
  have hactive : ∀ w ∈ a.workers, active w = true → a.counting = true := by
    intro w hw ha
    by_contra hc
    have := (hA.quiet (by simpa using hc)).2 w hw
    simp [ha] at this
  have hheld : ∀ {pre post : List Worker} {w : Worker} {b : Blk}, a.workers = pre ++ w :: post →
      blkOf w = some b → b ∈ a.workers.filterMap blkOf := by
    intro pre post w b e hb
    rw [List.mem_filterMap]
    exact ⟨w, by simp [e], hb⟩
  cases hs with
  | @sampleUb b pre post h0 h1 h2 h3 h4 => exact absurd h4 (hflag b (mem b (.inl (hheld h1 rfl))))
  | @appendOut b hold pre post h0 h1 h2 =>
    have hc := hactive (.append b hold) (by rw [h1]; simp) rfl
    have := (hA.thr hc).2.1
    have := hpos b (mem b (.inl (hheld h1 rfl)))
    omega
  | @appendRace b hold pre post h0 h1 h2 h3 h4 =>
    intro _
    have hc := hactive (.append b hold) (by rw [h1]; simp) rfl
    cases hm : a.main with
    | pushing b' todo second =>
      rw [hm] at h4
      refine clash_of hA hD hc (hheld h1 rfl) (b' := b') ?_ (by simpa [mainPushesAt, eq_comm] using h4)
      simp [hm, owed]
    | _ => simp [hm, mainPushesAt] at h4
  | @pushUb b hold pre post h0 h1 h2 =>
    have hc := hactive (.pushing b hold) (by rw [h1]; simp) rfl
    have := (hA.thr hc).1
    simp [h2] at this
  | mainUb h0 h1 h2 =>
    have := hA.full (.inl h1)
    simp [h2] at this
    omega
  | @extraOut b todo second h0 h1 h2 =>
    have hc : a.counting = true := by rw [hA.flag, h1]; rfl
    have := (hA.thr hc).2.1
    have := hpos b (mem b (.inr (by simp [h1, owed])))
    omega
  | @extraRace b todo second w h0 h1 h2 h3 h4 =>
    intro _
    have hc : a.counting = true := by rw [hA.flag, h1]; rfl
    cases w with
    | pushing b' k =>
      refine clash_of hA hD hc (b := b') (b' := b) ?_ (by simp [h1, owed]) (by simpa [pushesAt] using h4)
      rw [List.mem_filterMap]
      exact ⟨_, h3, rfl⟩
    | _ => simp [pushesAt] at h4
  | @mainPushUb b todo second h0 h1 h2 =>
    have hc : a.counting = true := by rw [hA.flag, h1]; rfl
    have := (hA.thr hc).1
    simp [h2] at this
  | _ => exact hu

/-! ### An execution with a race -/

/-- Before the thresholds: one worker does all the work. -/
def early (W : List Worker) (pending samples incomplete : List Blk) : State Θ :=
  ⟨pending, .idle :: W, .start, false, false, samples, incomplete, none, [], [], false⟩

/-- After the thresholds. -/
def late (W : List Worker) (w : Worker) (pending samples incomplete : List Blk) (main : Main) (θ : Θ)
    (events : List (List (List Nat))) (counted : List Blk) : State Θ :=
  ⟨pending, w :: W, main, false, true, samples, incomplete, some θ, events, counted, false⟩

theorem take_one {W : List Worker} {pending samples incomplete : List Blk} {b : Blk} {R : List Blk} (hp : pending.Perm (b :: R)) :
    ∃ pending', pending'.Perm R ∧ Reach (Step P) (early W pending samples incomplete)
      ⟨pending', .wantLock b :: W, .start, false, false, samples, incomplete, none, [], [], false⟩ := by
  obtain ⟨p1, p2, rfl⟩ := List.append_of_mem (hp.symm.subset List.mem_cons_self)
  refine ⟨p1 ++ p2, List.Perm.cons_inv (List.perm_middle.symm.trans hp), ?_⟩
  refine Reach.head (Step.take (b := b) (p1 := p1) (p2 := p2) (pre := []) (post := W) rfl rfl rfl) ?_
  exact Reach.head (Step.noFlag (b := b) (pre := []) (post := W) rfl rfl rfl) (Reach.refl _)

theorem collect {W : List Worker} {incomplete : List Blk} {R : List Blk} (T : List Blk) (hT : ∀ b ∈ T, b.complete = some true) :
    ∀ (pending samples : List Blk), pending.Perm (T ++ R) → samples.length + T.length < P.numBlocks →
    ∃ pending', pending'.Perm R ∧ Reach (Step P) (early W pending samples incomplete) (early W pending' (samples ++ T) incomplete) := by
  induction T with
  | nil =>
    intro pending samples hp _
    exact ⟨pending, hp, by rw [List.append_nil]; exact Reach.refl _⟩
  | cons b T ih =>
    intro pending samples hp hlt
    obtain ⟨p1, h1, r1⟩ := take_one (P := P) (W := W) (samples := samples) (incomplete := incomplete) hp
    obtain ⟨p2, h2, r2⟩ := ih (fun x hx => hT x (List.mem_cons_of_mem _ hx)) p1 (samples ++ [b]) h1 (by
      simp at hlt ⊢
      omega)
    refine ⟨p2, h2, r1.trans (Reach.head (Step.sample (b := b) (pre := []) (post := W) rfl rfl rfl ?_ (hT b List.mem_cons_self)) ?_)⟩
    · simp at hlt ⊢
      omega
    · rw [List.append_assoc] at r2
      exact r2

theorem wake_idle (k : Nat) : (List.replicate k Worker.idle).map wakeWorker = List.replicate k Worker.idle := by
  rw [List.map_replicate]
  rfl

/-- From the first sample to the loops of the calling thread. -/
theorem begin_loops {k : Nat} {incomplete : List Blk} {R : List Blk} (T : List Blk) (hT : ∀ b ∈ T, b.complete = some true)
    (hlen : T.length = P.numBlocks) (hN : 0 < P.numBlocks) {pending : List Blk} (hp : pending.Perm (T ++ R)) :
    ∃ pending', pending'.Perm R ∧ Reach (Step P) (early (List.replicate k .idle) pending [] incomplete)
      (late (List.replicate k .idle) .idle pending' T incomplete (.extra T false) (P.threshold T) (List.replicate P.positions []) []) := by
  have hne : T ≠ [] := by
    rintro rfl
    simp at hlen
    omega
  have hsplit := List.dropLast_append_getLast hne
  obtain ⟨b, hb⟩ : ∃ b, b = T.getLast hne := ⟨_, rfl⟩
  rw [← hb] at hsplit
  have hlen' : T.dropLast.length + 1 = P.numBlocks := by
    rw [List.length_dropLast]
    omega
  have hbT : b ∈ T := by
    rw [hb]
    exact List.getLast_mem hne
  obtain ⟨p1, h1, r1⟩ := collect (P := P) (W := List.replicate k .idle) (incomplete := incomplete) (R := b :: R) T.dropLast
    (fun x hx => hT x (List.dropLast_subset _ hx)) pending [] (by
      refine hp.trans ?_
      rw [← hsplit]
      simp) (by simp only [List.length_nil]; omega)
  obtain ⟨p2, h2, r2⟩ := take_one (P := P) (W := List.replicate k .idle) (samples := [] ++ T.dropLast) (incomplete := incomplete) h1
  refine ⟨p2, h2, r1.trans (r2.trans ?_)⟩
  refine Reach.head (Step.lastSample (b := b) (pre := []) (post := List.replicate k .idle) rfl rfl rfl (by simpa using hlen')
    (hT b hbT)) ?_
  refine Reach.head (Step.notifyAll (pre := []) (post := List.replicate k .idle) rfl rfl) ?_
  rw [wake_idle]
  simp only [List.nil_append, List.map_nil, hsplit, wakeMain]
  refine Reach.head (Step.mainLock rfl (.inl rfl) rfl hlen) ?_
  refine Reach.head (Step.mainStart rfl rfl hne) ?_
  refine Reach.head (Step.mainUnlock rfl rfl) ?_
  refine Reach.head (Step.mainNotify rfl rfl) ?_
  simp only [List.map_cons, wake_idle, wakeWorker, ← hlen, List.take_length]
  exact Reach.refl _

/-- The calling thread appends some of its frames while the worker waits. -/
theorem loop {k : Nat} {pending samples incomplete : List Blk} {θ : Θ} {second : Bool} (T U : List Blk)
    (hpos : ∀ b ∈ T, b.pos < P.positions) : ∀ (events : List (List (List Nat))) (counted : List Blk), events.length = P.positions →
    ∃ events' counted', events'.length = P.positions ∧
      Reach (Step P) (late (List.replicate k .idle) .idle pending samples incomplete (.extra (T ++ U) second) θ events counted)
        (late (List.replicate k .idle) .idle pending samples incomplete (.extra U second) θ events' counted') := by
  induction T with
  | nil =>
    intro events counted he
    exact ⟨events, counted, he, Reach.refl _⟩
  | cons b T ih =>
    intro events counted he
    obtain ⟨e', c', h1, h2⟩ := ih (fun x hx => hpos x (List.mem_cons_of_mem _ hx)) (events.modify b.pos (· ++ [P.count θ b]))
      (counted ++ [b]) (by simpa using he)
    refine ⟨e', c', h1, ?_⟩
    refine Reach.head (Step.extra (b := b) (todo := T ++ U) (second := second) rfl rfl ?_ ?_) ?_
    · show b.pos < events.length
      rw [he]
      exact hpos b List.mem_cons_self
    · intro w hw
      have : w = .idle := by
        rcases List.mem_cons.1 hw with x | x
        · exact x
        · exact (List.mem_replicate.1 x).2
      rw [this]
      rfl
    · exact Reach.head (Step.mainPush (b := b) (θ := θ) rfl rfl rfl) h2

/-- The calling thread is at frame `a`, the worker gets frame `b` of the same position. -/
theorem collide {k : Nat} {pending samples incomplete : List Blk} {θ : Θ} {second : Bool} {events : List (List (List Nat))}
    {counted : List Blk} {a b : Blk} {todo : List Blk} (he : events.length = P.positions) (ha : a.pos < P.positions) (hab : a.pos = b.pos)
    (hb : b ∈ pending) :
    ∃ s, Reach (Step P) (late (List.replicate k .idle) .idle pending samples incomplete (.extra (a :: todo) second) θ events counted) s ∧
      s.ub = true := by
  obtain ⟨p1, p2, rfl⟩ := List.append_of_mem hb
  refine ⟨_, Reach.head (Step.extra (b := a) (todo := todo) (second := second) rfl rfl (by show a.pos < events.length; omega) ?_)
    (Reach.head (Step.take (b := b) (p1 := p1) (p2 := p2) (pre := []) (post := List.replicate k .idle) rfl rfl rfl)
    (Reach.head (Step.seeFlag (b := b) (pre := []) (post := List.replicate k .idle) rfl rfl rfl)
    (Reach.head (Step.appendRace (b := b) (hold := false) (pre := []) (post := List.replicate k .idle) rfl rfl
      (by show b.pos < events.length; omega) ?_ ?_) (Reach.refl _)))), rfl⟩
  · intro w hw
    have : w = .idle := by
      rcases List.mem_cons.1 hw with x | x
      · exact x
      · exact (List.mem_replicate.1 x).2
    rw [this]
    rfl
  · intro w hw
    rw [(List.mem_replicate.1 hw).2]
    rfl
  · simp [mainPushesAt, hab]

theorem init_early (hn : 0 < P.threads) : init P blocks = early (List.replicate (P.threads - 1) .idle) blocks [] [] := by
  have : List.replicate P.threads Worker.idle = .idle :: List.replicate (P.threads - 1) .idle := by
    rw [← List.replicate_succ]
    congr 1
    omega
  unfold init early
  rw [this]

/-- Some complete frames of a list. -/
theorem pick (l : List Blk) (n : Nat) (h : n ≤ numComplete l) :
    ∃ T R, T.length = n ∧ (∀ b ∈ T, b.complete = some true) ∧ l.Perm (T ++ R) := by
  refine ⟨(l.filter fun b => b.complete = some true).take n,
    (l.filter fun b => b.complete = some true).drop n ++ l.filter fun b => !decide (b.complete = some true), ?_, ?_, ?_⟩
  · rw [List.length_take, ← List.countP_eq_length_filter]
    exact min_eq_left h
  · intro b hb
    simpa using (List.mem_filter.1 (List.mem_of_mem_take hb)).2
  · rw [← List.append_assoc, List.take_append_drop]
    exact (List.filter_append_perm _ _).symm

theorem numComplete_perm {l l' : List Blk} (h : l.Perm l') : numComplete l = numComplete l' := h.countP_eq _

/-- `a` is a sample. -/
theorem race_sample (hn : 0 < P.threads) (hN : 0 < P.numBlocks) (hpos : ∀ b ∈ blocks, b.pos < P.positions) {a b : Blk} {rest : List Blk}
    (hp : blocks.Perm (a :: b :: rest)) (hab : a.pos = b.pos) (ha : a.complete = some true)
    (hc : P.numBlocks ≤ numComplete rest + 1) : ∃ s, Reach (Step P) (init P blocks) s ∧ s.ub = true := by
  obtain ⟨T, R, h1, h2, h3⟩ := pick rest (P.numBlocks - 1) (by omega)
  have hmem : ∀ x ∈ a :: b :: rest, x.pos < P.positions := fun x hx => hpos x (hp.symm.subset hx)
  obtain ⟨p', q1, r1⟩ := begin_loops (P := P) (k := P.threads - 1) (incomplete := []) (R := b :: R) (a :: T)
    (by
      intro x hx
      rcases List.mem_cons.1 hx with rfl | hx
      · exact ha
      · exact h2 x hx) (by simp; omega) hN (pending := blocks) (by
        refine hp.trans (List.Perm.cons a ?_)
        exact ((h3.cons b).trans List.perm_middle.symm))
  obtain ⟨s, r2, hs⟩ := collide (P := P) (k := P.threads - 1) (pending := p') (samples := a :: T) (incomplete := [])
    (θ := P.threshold (a :: T)) (second := false) (events := List.replicate P.positions []) (counted := []) (a := a) (b := b) (todo := T)
    (by simp) (hmem a List.mem_cons_self) hab (q1.symm.subset List.mem_cons_self)
  exact ⟨s, by rw [init_early hn]; exact r1.trans r2, hs⟩

/-- `a` is an incomplete frame read before the samples. -/
theorem race_incomplete (hn : 0 < P.threads) (hN : 0 < P.numBlocks) (hpos : ∀ b ∈ blocks, b.pos < P.positions) {a b : Blk}
    {rest : List Blk} (hp : blocks.Perm (a :: b :: rest)) (hab : a.pos = b.pos) (ha : a.complete = some false)
    (hc : P.numBlocks ≤ numComplete rest) : ∃ s, Reach (Step P) (init P blocks) s ∧ s.ub = true := by
  obtain ⟨T, R, h1, h2, h3⟩ := pick rest P.numBlocks hc
  have hmem : ∀ x ∈ a :: b :: rest, x.pos < P.positions := fun x hx => hpos x (hp.symm.subset hx)
  obtain ⟨p1, q1, r1⟩ := take_one (P := P) (W := List.replicate (P.threads - 1) .idle) (samples := []) (incomplete := []) hp
  obtain ⟨p2, q2, r2⟩ := begin_loops (P := P) (k := P.threads - 1) (incomplete := [a]) (R := b :: R) T h2 h1 hN (pending := p1)
    (q1.trans ((h3.cons b).trans List.perm_middle.symm))
  obtain ⟨e', c', he, r3⟩ := loop (P := P) (k := P.threads - 1) (pending := p2) (samples := T) (incomplete := [a]) (θ := P.threshold T)
    (second := false) T [] (fun x hx => hmem x (by
      have := h3.symm.subset (List.mem_append_left R hx)
      simp [this])) (List.replicate P.positions []) [] (by simp)
  obtain ⟨s, r4, hs⟩ := collide (P := P) (k := P.threads - 1) (pending := p2) (samples := T) (incomplete := [a])
    (θ := P.threshold T) (second := true) (events := e') (counted := c') (a := a) (b := b) (todo := [])
    he (hmem a List.mem_cons_self) hab (q2.symm.subset List.mem_cons_self)
  refine ⟨s, ?_, hs⟩
  rw [init_early hn]
  refine r1.trans (Reach.head (Step.incomplete (b := a) (pre := []) (post := List.replicate (P.threads - 1) .idle) rfl rfl rfl
    (by simpa using hN) ha) (r2.trans ?_))
  rw [List.append_nil] at r3
  exact r3.trans (Reach.head (Step.mainSecond rfl rfl) r4)

theorem backward (hn : 0 < P.threads) (hN : 0 < P.numBlocks) (hpos : ∀ b ∈ blocks, b.pos < P.positions)
    (hflag : ∀ b ∈ blocks, b.complete ≠ none) (h : Clash P.numBlocks blocks) : ∃ s, Reach (Step P) (init P blocks) s ∧ s.ub = true := by
  obtain ⟨a, b, rest, hp, hab, h1, h2⟩ := h
  have fa := hflag a (hp.symm.subset (by simp))
  have fb := hflag b (hp.symm.subset (by simp))
  have hcnt : numComplete blocks = (if a.complete = some true then 1 else 0) + (if b.complete = some true then 1 else 0) +
      numComplete rest := by
    rw [numComplete_perm hp]
    unfold numComplete
    simp only [List.countP_cons, decide_eq_true_eq]
    omega
  have hswap : blocks.Perm (b :: a :: rest) := hp.trans (List.Perm.swap _ _ _)
  rcases ha : a.complete with _ | ca
  · exact absurd ha fa
  rcases hb : b.complete with _ | cb
  · exact absurd hb fb
  rw [ha, hb] at hcnt
  rw [ha, hb] at h2
  cases ca <;> cases cb
  · simp at hcnt
    exact race_incomplete hn hN hpos hp hab ha (by omega)
  · simp at hcnt
    exact race_sample hn hN hpos hswap hab.symm hb (by omega)
  · simp at hcnt
    exact race_sample hn hN hpos hp hab ha (by omega)
  · have := h2 rfl rfl
    simp at hcnt
    exact race_sample hn hN hpos hp hab ha (by omega)

end StreamRace
open StreamRace

/-- **C19** Exactly these streams have a schedule with a data race (nothing else undefined can happen with positions inside of the
scan and flags for all frames): two frames have the same position, there are enough complete frames for the thresholds, and one more if
both of the two are complete. The number of threads does not matter. -/
theorem C19_iff {Θ : Type} (P : Params Θ) (hn : 0 < P.threads) (hN : 0 < P.numBlocks) (blocks : List Blk)
    (hpos : ∀ b ∈ blocks, b.pos < P.positions) (hflag : ∀ b ∈ blocks, b.complete ≠ none) :
    (∃ s, Reach (Step P) (init P blocks) s ∧ s.ub = true) ↔
      ∃ a b rest, blocks.Perm (a :: b :: rest) ∧ a.pos = b.pos ∧ P.numBlocks ≤ numComplete blocks ∧
        (a.complete = some true → b.complete = some true → P.numBlocks < numComplete blocks) :=
  ⟨fun ⟨_, h, hu⟩ => forward hpos hflag hN h hu, backward hn hN hpos hflag⟩

/-- **C19** If all frames are complete and two have the same position, there is a schedule with a race unless all frames are
samples. -/
theorem C19_all_samples {Θ : Type} (P : Params Θ) (hn : 0 < P.threads) (hN : 0 < P.numBlocks) (blocks : List Blk)
    (hpos : ∀ b ∈ blocks, b.pos < P.positions) (hflag : ∀ b ∈ blocks, b.complete = some true) (hdup : ¬ (blocks.map Blk.pos).Nodup) :
    (∃ s, Reach (Step P) (init P blocks) s ∧ s.ub = true) ↔ P.numBlocks < blocks.length := by
  have hc : numComplete blocks = blocks.length := by
    unfold numComplete
    rw [List.countP_eq_length]
    intro b hb
    simp [hflag b hb]
  rw [C19_iff P hn hN blocks hpos (fun b hb => by rw [hflag b hb]; simp), hc]
  constructor
  · rintro ⟨a, b, rest, hp, _, _, h⟩
    exact h (hflag a (hp.symm.subset (by simp))) (hflag b (hp.symm.subset (by simp)))
  · intro h
    have : ∃ a b rest, blocks.Perm (a :: b :: rest) ∧ a.pos = b.pos := by
      clear hpos hflag hc h
      induction blocks with
      | nil => simp at hdup
      | cons x l ih =>
        rw [List.map_cons, List.nodup_cons, not_and_or, not_not] at hdup
        rcases hdup with h | h
        · obtain ⟨y, hy, e⟩ := List.mem_map.1 h
          exact ⟨x, y, l.erase y, (List.perm_cons_erase hy).cons x, e.symm⟩
        · obtain ⟨a, b, rest, hp, e⟩ := ih h
          exact ⟨a, b, x :: rest, (hp.cons x).trans ((List.Perm.swap _ _ _).trans ((List.Perm.swap _ _ _).cons a)), e⟩
    obtain ⟨a, b, rest, hp, e⟩ := this
    exact ⟨a, b, rest, hp, e, by omega, fun _ _ => h⟩

/-! Instances of the hypotheses: a race with two incomplete frames, and none if the only two frames are the samples. -/

private def demo (N : Nat) : Params Unit := ⟨3, N, 5, fun _ => (), fun _ b => [b.id]⟩

example : ∃ s, Reach (Step (demo 1)) (init (demo 1) [⟨0, 4, some false⟩, ⟨1, 2, some true⟩, ⟨2, 4, some false⟩]) s ∧ s.ub = true :=
  (C19_iff (demo 1) (by decide) (by decide) _ (by decide) (by decide)).2
    ⟨⟨0, 4, some false⟩, ⟨2, 4, some false⟩, [⟨1, 2, some true⟩], by decide, rfl, by decide, by decide⟩
example : ¬ ∃ s, Reach (Step (demo 2)) (init (demo 2) [⟨0, 4, some true⟩, ⟨1, 4, some true⟩]) s ∧ s.ub = true := by
  rw [C19_all_samples (demo 2) (by decide) (by decide) _ (by decide) (by decide) (by decide)]
  decide

end Stempy.Props
