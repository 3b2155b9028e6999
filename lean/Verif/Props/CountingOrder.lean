import Verif.Lemmas.CountingOrder
import Verif.Props.CountingReader

/-!
C82: when the calling thread and a worker of the multi-pass reader append to the same list of frames.
-/

namespace Stempy.Props
open Stempy.Spec Stempy.CountingReader
open Stempy.MultiPass (PState PWorker PStep pinit ScanMap File Block processFrame frames HState HStep hinit)

variable {D Θ : Type}

/-- The blocks of the reader are in the order of the positions, and at a position in the order of the frame numbers. With
`allBlocks` this determines the list. -/
theorem blocks_order {files : List (File D)} {flo fhi : Nat} {map : ScanMap} (hidx : IsIndex files flo fhi map) (lo hi : Nat) :
    (CountingReader.blocks files map lo hi).Pairwise fun b c => b.pos < c.pos ∨ b.pos = c.pos ∧ b.frame < c.frame := by
  rw [CountingReader.blocks, List.pairwise_map]
  show (frames map lo hi).Pairwise fun a b => a.1 < b.1 ∨ a.1 = b.1 ∧ a.2 < b.2
  rw [frames, List.pairwise_flatMap]
  refine ⟨?_, ?_⟩
  · intro p _
    rw [List.pairwise_map]
    exact (SMap.sorted_keys (hidx.sorted p)).imp fun h => .inr ⟨rfl, h⟩
  · refine (List.pairwise_lt_range' (s := lo) (n := hi - lo)).imp ?_
    intro p q hpq a ha b hb
    obtain ⟨_, _, rfl⟩ := List.mem_map.1 ha
    obtain ⟨_, _, rfl⟩ := List.mem_map.1 hb
    exact .inl hpq

/-- In the order of the reader, the last of the sample blocks, with the number `numBlocks`, is followed by another frame of the same position. -/
def Torn (K : Call D Θ) (all : List (Block D)) : Prop :=
  ∃ before b b' after, all = before ++ b :: b' :: after ∧ b.complete = true ∧ b'.pos = b.pos ∧
    before.countP (·.complete) + 1 = K.numBlocks

/-- **C82** Any number of threads, of samples and of frames at the positions: if the last sample, in the order of the reader, is not the last frame of
its position, then there is a schedule in which the calling thread and a worker append to the same list at the same
time. -/
theorem C82_race_any_false (K : Call D Θ) (hn : 0 < K.threads) (files : List (File D)) (map : ScanMap) (lo hi : Nat)
    (at_ : Nat → Nat) (hpos : ∀ b ∈ CountingReader.blocks files map lo hi, b.pos < K.positions)
    (ht : Torn K (CountingReader.blocks files map lo hi)) :
    ∃ x, Reach (Step K files map hi) (init K lo at_) x ∧ x.counting.ub = true := by
  obtain ⟨before, b, b', after, e, hb, hp, hN⟩ := ht
  rw [e] at hpos
  obtain ⟨m, hm⟩ : ∃ m, K.threads = m + 1 := ⟨K.threads - 1, by omega⟩
  let rest : List (PWorker D) := List.replicate m .test
  let idles : List Streaming.Worker := List.replicate m .idle
  have hpn : K.params.numBlocks = K.numBlocks := rfl
  let c0 : Streaming.State Θ := (init K lo at_ : State D Θ).counting
  have hc0 : c0.workers = .idle :: idles := by
    simp [c0, init, Streaming.init, Call.params, hm, List.replicate_succ, idles]
  let r0 : PState D := (init K lo at_ : State D Θ).reader
  have hr0 : r0.workers = .test :: rest := by
    simp [r0, init, pinit, hm, List.replicate_succ, rest]
  have hA0 : At files map hi rest r0 (before ++ b :: b' :: after) := ⟨fun _ => rfl, .inl ⟨hr0, e⟩⟩
  -- all samples but the last
  obtain ⟨r1, I, s1, hA1⟩ := collect (K := K) before r0 c0 rfl rfl rfl hc0 (by intro d h; cases h)
    (by simp only [c0, init, Streaming.init, List.length_nil]; omega) hA0
  let S := (before.filter (·.complete)).map K.tag
  have hS : S.length + 1 = K.numBlocks := by
    simp only [S, List.length_map]
    rw [← List.countP_eq_length_filter]
    exact hN
  let c1 : Streaming.State Θ := { c0 with samples := c0.samples ++ S, incomplete := I }
  -- the last sample
  obtain ⟨r2, s2, hA2⟩ := next_block (K := K) (c := c1) rfl hc0 _ r1 rfl hA1
  let c2 : Streaming.State Θ := { c1 with workers := .got (K.tag b) :: idles }
  let c3 : Streaming.State Θ := { c2 with workers := .wantLock (K.tag b) :: idles }
  let c4 : Streaming.State Θ := { c3 with samples := c0.samples ++ S ++ [K.tag b], workers := .notify :: idles }
  let c5 : Streaming.State Θ := { c4 with workers := .idle :: idles }
  have hs5 : c5.samples = S ++ [K.tag b] := rfl
  have wake : idles.map Streaming.wakeWorker = idles := by simp [idles, Streaming.wakeWorker]
  have s3 : Step K files map hi ⟨r2, c2⟩ (.count .internal) ⟨r2, c3⟩ :=
    .count (x := ⟨r2, c2⟩) (c' := c3) (.noFlag (pre := []) (post := idles) rfl rfl rfl) ⟨rfl, by simp [c2, c3], by intro d h; cases h⟩
  have s4 : Step K files map hi ⟨r2, c3⟩ (.count .internal) ⟨r2, c4⟩ :=
    .count (x := ⟨r2, c3⟩) (c' := c4) (.lastSample (pre := []) (post := idles) (s := c3) rfl rfl rfl
      (by rw [hpn]; exact hS) (by simp [Call.tag, hb])) ⟨rfl, by simp [c3, c4], by intro d h; cases h⟩
  have s5 : Step K files map hi ⟨r2, c4⟩ (.count .internal) ⟨r2, c5⟩ := by
    have h := Streaming.Step.notifyAll (P := K.params) (s := c4) (pre := []) (post := idles) rfl rfl
    rw [wake] at h
    exact .count (x := ⟨r2, c4⟩) (c' := c5) h ⟨rfl, by simp [c4, c5], by intro d h; cases h⟩
  -- the next frame
  obtain ⟨r3, s6, _⟩ := next_block (K := K) (c := c5) rfl rfl _ r2 rfl hA2
  let c6 : Streaming.State Θ := { c5 with workers := .got (K.tag b') :: idles }
  let c7 : Streaming.State Θ := { c6 with main := .holding, locked := true }
  let c8 : Streaming.State Θ := { c7 with thresholds := some (K.params.threshold c7.samples), events := List.replicate K.params.positions [], counting := true, main := .started }
  let c9 : Streaming.State Θ := { c8 with locked := false, main := .notify }
  let c10 : Streaming.State Θ := { c9 with main := .extra (S ++ [K.tag b]) false }
  have hlen : c7.samples.length = K.numBlocks := by
    show (S ++ [K.tag b]).length = _
    rw [List.length_append]
    exact hS
  have s7 : Step K files map hi ⟨r3, c6⟩ (.count .internal) ⟨r3, c7⟩ :=
    .count (x := ⟨r3, c6⟩) (c' := c7) (.mainLock rfl (.inl rfl) rfl hlen) ⟨rfl, rfl, by intro d h; cases h⟩
  have s8 : Step K files map hi ⟨r3, c7⟩ (.count .internal) ⟨r3, c8⟩ :=
    .count (x := ⟨r3, c7⟩) (c' := c8) (.mainStart rfl rfl (by intro h; rw [h, List.length_nil] at hlen; omega))
      ⟨rfl, rfl, by intro d h; cases h⟩
  have s9 : Step K files map hi ⟨r3, c8⟩ (.count .internal) ⟨r3, c9⟩ :=
    .count (x := ⟨r3, c8⟩) (c' := c9) (.mainUnlock rfl rfl) ⟨rfl, rfl, by intro d h; cases h⟩
  have s10 : Step K files map hi ⟨r3, c9⟩ (.count .internal) ⟨r3, c10⟩ := by
    have h := Streaming.Step.mainNotify (P := K.params) (s := c9) rfl rfl
    have e1 : c9.workers.map Streaming.wakeWorker = c9.workers := by
      show Streaming.Worker.got (K.tag b') :: idles.map Streaming.wakeWorker = _
      rw [wake]
    have e2 : c9.samples.take K.params.numBlocks = S ++ [K.tag b] := by
      rw [hpn, ← hlen]
      exact List.take_length
    rw [e1, e2] at h
    exact .count (x := ⟨r3, c9⟩) (c' := c10) h ⟨rfl, rfl, by intro d h; cases h⟩
  have hev : c10.events.length = K.positions := by
    show (List.replicate K.params.positions ([] : List (List Nat))).length = _
    simp [Call.params]
  have hidle : ∀ w ∈ idles, ∀ p, Streaming.pushesAt p w = false := by
    intro w hw p
    rw [List.eq_of_mem_replicate hw]
    rfl
  -- the calling thread counts the samples before
  obtain ⟨E, C, hE, s11⟩ := main_pushes (K := K) (files := files) (map := map) (hi := hi) (r := r3) (todo := [K.tag b]) S c10 rfl rfl rfl
    (by
      intro a ha
      obtain ⟨a', ha', rfl⟩ := List.mem_map.1 ha
      rw [hev]
      exact hpos a' (by simp [(List.mem_filter.1 ha').1]))
    (by
      intro w hw p
      rcases List.mem_cons.1 hw with rfl | hw
      · rfl
      · exact hidle w hw p)
  rw [hev] at hE
  let c11 : Streaming.State Θ := { c10 with events := E, counted := C, main := .extra [K.tag b] false }
  let c12 : Streaming.State Θ := { c11 with main := .pushing (K.tag b) [] false }
  let c13 : Streaming.State Θ := { c12 with workers := .append (K.tag b') false :: idles }
  have s12 : Step K files map hi ⟨r3, c11⟩ (.count .internal) ⟨r3, c12⟩ := by
    refine .count (x := ⟨r3, c11⟩) (c' := c12) (.extra rfl rfl ?_ ?_) ⟨rfl, rfl, by intro d h; cases h⟩
    · show b.pos < E.length
      rw [hE]
      exact hpos b (by simp)
    · intro w hw
      rcases List.mem_cons.1 hw with rfl | hw
      · rfl
      · exact hidle w hw _
  have s13 : Step K files map hi ⟨r3, c12⟩ (.count .internal) ⟨r3, c13⟩ :=
    .count (x := ⟨r3, c12⟩) (c' := c13) (.seeFlag (pre := []) (post := idles) rfl rfl rfl)
      ⟨rfl, by simp [c12, c13, c11, c10, c9, c8, c7, c6], by intro d h; cases h⟩
  have s14 : Step K files map hi ⟨r3, c13⟩ (.count .internal) ⟨r3, { c13 with ub := true }⟩ := by
    refine .count (x := ⟨r3, c13⟩) (.appendRace (pre := []) (post := idles) (b := K.tag b') rfl rfl ?_ ?_ ?_)
      ⟨rfl, rfl, by intro d h; cases h⟩
    · show b'.pos < E.length
      rw [hE]
      exact hpos b' (by simp)
    · intro w hw
      exact hidle w hw _
    · show decide (b.pos = b'.pos) = true
      simp [hp]
  exact ⟨_, (((((((((((s1.trans s2).step s3).step s4).step s5).trans s6).step s7).step s8).step s9).step s10).trans s11).step s12).step
    s13 |>.step s14, rfl⟩

/-- Positions of the blocks of the reader do not decrease. -/
private theorem blocks_le {files : List (File D)} {flo fhi : Nat} {map : ScanMap} (hidx : IsIndex files flo fhi map) (lo hi : Nat) :
    (CountingReader.blocks files map lo hi).Pairwise fun b c => b.pos ≤ c.pos :=
  (blocks_order hidx lo hi).imp fun h => by omega

/-- Two frames of a position, one collected before the counting and one counted by the worker. -/
private theorem torn {K : Call D Θ} {files : List (File D)} {flo fhi : Nat} {map : ScanMap} (hidx : IsIndex files flo fhi map) {lo hi : Nat}
    {d X : List (Block D)} (hd : d ++ X = CountingReader.blocks files map lo hi) {col rest : List Streaming.Blk} {c : Streaming.State Θ}
    (C : Collected K.params (d.map K.tag) c col rest) (hfull : c.samples.length = K.numBlocks)
    (hsmp : ∀ b ∈ c.samples, b.complete = some true) (hinc : ∀ b ∈ c.incomplete, b.complete = some false)
    {a b : Streaming.Blk} (ha : a ∈ Streaming.owed c.samples c.incomplete c.main) (hb : inHand c.workers = [b]) (hab : a.pos = b.pos) :
    Torn K (CountingReader.blocks files map lo hi) := by
  obtain ⟨col', s, rfl, hs⟩ := C.enough (by show K.numBlocks ≤ _; omega)
  obtain ⟨r, hr⟩ := C.last
  rw [hb] at hr
  have hac := C.perm.mem_iff.1 (C.owed a ha)
  -- the number of complete blocks collected
  have hcount : (col' ++ [s]).countP (fun b => b.complete = some true) = K.numBlocks := by
    rw [← C.perm.countP_eq, List.countP_append, ← hfull]
    have h1 : c.samples.countP (fun b => b.complete = some true) = c.samples.length :=
      List.countP_eq_length.2 fun b hb => by simpa using hsmp b hb
    have h2 : c.incomplete.countP (fun b => b.complete = some true) = 0 :=
      List.countP_eq_zero.2 fun b hb => by simp [hinc b hb]
    omega
  -- the block after the last sample
  obtain ⟨b0, r', hr'⟩ : ∃ b0 r', rest = b0 :: r' := by
    cases r with
    | nil => exact ⟨b, [], hr⟩
    | cons x r => exact ⟨x, r ++ [b], hr⟩
  have hparts := C.parts
  rw [hr', List.append_assoc] at hparts
  obtain ⟨d1, d2, rfl, e1, e2⟩ := List.map_eq_append_iff.1 hparts
  obtain ⟨s', d3, rfl, e3, e4⟩ := List.map_eq_cons_iff.1 e2
  obtain ⟨b0', d4, rfl, e5, e6⟩ := List.map_eq_cons_iff.1 e4
  have ho := blocks_le hidx lo hi
  rw [← hd] at ho ⊢
  have hod := (List.pairwise_append.1 ho).1
  have htag : ∀ x : Block D, (K.tag x).pos = x.pos := fun _ => rfl
  have hod' : ((d1 ++ s' :: b0' :: d4).map K.tag).Pairwise fun b c => b.pos ≤ c.pos := by
    rw [List.pairwise_map]
    exact hod
  have e7 : (d1 ++ s' :: b0' :: d4).map K.tag = (col' ++ [s]) ++ rest := by
    rw [← C.parts]
  have h1 : b0'.pos = s'.pos := by
    rw [List.pairwise_append] at hod
    obtain ⟨_, h2, _⟩ := hod
    have h3 : s'.pos ≤ b0'.pos := (List.pairwise_cons.1 h2).1 b0' (by simp)
    have h4 : a.pos ≤ s.pos := by
      rw [e7, List.pairwise_append] at hod'
      have := (List.pairwise_append.1 hod'.1).2.2
      rcases List.mem_append.1 hac with h | h
      · exact this a h s (by simp)
      · rw [List.mem_singleton.1 h]
    have h5 : b0.pos ≤ b.pos := by
      rw [e7, List.pairwise_append] at hod'
      have h6 := hod'.2.1
      have h7 : b ∈ rest := by rw [hr]; simp
      rw [hr'] at h6 h7
      rcases List.mem_cons.1 h7 with h | h
      · rw [h]
      · exact (List.pairwise_cons.1 h6).1 b h
    rw [← e3, htag] at h4
    rw [← e5, htag] at h5
    omega
  refine ⟨d1, s', b0', d4 ++ X, by simp, ?_, h1, ?_⟩
  · rw [← e3] at hs
    simpa [Call.tag] using hs
  · rw [← hcount, List.countP_append, ← e1, List.countP_map]
    have h8 : [s].countP (fun b => decide (b.complete = some true)) = 1 := by simp [hs]
    rw [h8]
    congr 2
    funext x
    simp [Function.comp, Call.tag]

/-- **C82** With one thread of the pool, for any number of samples and of frames at the positions: the two threads can append to the same
list at the same time exactly if the last sample is not the last frame of its position. Nothing else that is undefined can happen. -/
theorem C82_one_thread_iff (K : Call D Θ) (hn : K.threads = 1) (files : List (File D)) (map : ScanMap) (flo fhi lo hi : Nat)
    (at_ : Nat → Nat) (hidx : IsIndex files flo fhi map) (hN : 0 < K.numBlocks)
    (hpos : ∀ i j r p f sec, lo ≤ p → p < hi → flo ≤ i → i < fhi → IsRecord files i j r p f sec → p < K.positions) :
    (∃ x, Reach (Step K files map hi) (init K lo at_) x ∧ x.counting.ub = true) ↔ Torn K (CountingReader.blocks files map lo hi) := by
  have hpos' : ∀ b ∈ CountingReader.blocks files map lo hi, b.pos < K.positions := by
    intro b hb
    obtain ⟨b1, b2, i, j, r, sec, b3, b4, b5⟩ := ((allBlocks (files := files) hidx lo hi).iff b.pos b.frame).1 ⟨b, hb, rfl, rfl⟩
    exact hpos _ _ _ _ _ _ b1 b2 b3 b4 b5
  refine ⟨?_, C82_race_any_false K (by omega) files map lo hi at_ hpos'⟩
  rintro ⟨x, ⟨ls, h⟩, hub⟩
  cases h with
  | nil => cases hub
  | @snoc y _ ls l hr hs =>
    obtain ⟨hflag, hquiet, hfull, hthr, hsize, -, hsmp, hinc⟩ := phases (by omega) hr
    obtain ⟨col, rest, C⟩ := collected hn hN hr
    obtain ⟨_, _, ⟨rls, hrr, _⟩, _⟩ := sim (by omega) hr
    rw [hn] at hsize hrr
    obtain ⟨X, hX⟩ := one_order hrr
    have hin : ∀ b ∈ col ++ rest, b.pos < K.positions ∧ b.complete ≠ none := by
      intro b hb
      rw [← C.parts] at hb
      obtain ⟨b', hb', rfl⟩ := List.mem_map.1 hb
      exact ⟨hpos' b' (by rw [← hX]; simp [hb']), by simp [Call.tag]⟩
    have hhand : ∀ {pre post w b}, y.counting.workers = pre ++ w :: post → Streaming.blkOf w = some b →
        inHand y.counting.workers = [b] ∧ b ∈ col ++ rest := by
      intro pre post w b hw hb
      obtain ⟨rfl, rfl⟩ := single hsize hw
      have h1 : inHand y.counting.workers = [b] := by simp [hw, inHand, hb]
      obtain ⟨r, hr⟩ := C.last
      refine ⟨h1, ?_⟩
      rw [hr, h1]
      simp
    have hcoll : ∀ a ∈ Streaming.owed y.counting.samples y.counting.incomplete y.counting.main, a ∈ col ++ rest := fun a ha =>
      List.mem_append_left _ (C.perm.mem_iff.1 (C.owed a ha))
    have hact : ∀ w ∈ y.counting.workers, Streaming.active w = true → y.counting.counting = true := by
      intro w hw ha
      cases hc : y.counting.counting with
      | true => rfl
      | false => rw [hquiet hc w hw] at ha; cases ha
    cases hs with
    | read h0 => rw [hub] at h0; cases h0
    | deliver h0 => simp only at hub; rw [hub] at h0; cases h0
    | finish h0 => simp only at hub; rw [hub] at h0; cases h0
    | join h0 => simp only at hub; rw [hub] at h0; cases h0
    | @count l c' hst _ =>
      have hne : y.counting.ub = false := by cases hst <;> assumption
      cases hst
      case sampleUb b pre post g0 g1 g2 g3 g4 _ =>
        exact absurd g4 (hin b (hhand g1 rfl).2).2
      case appendOut b hold pre post g0 g1 g2 _ =>
        have h1 := hact _ (by rw [g1]; simp) (show Streaming.active (.append b hold) = true from rfl)
        have := (hin b (hhand g1 rfl).2).1
        have := (hthr h1).2
        omega
      case appendRace b hold pre post g0 g1 g2 g3 g4 _ =>
        have h1 := hact _ (by rw [g1]; simp) (show Streaming.active (.append b hold) = true from rfl)
        cases hm : y.counting.main <;> rw [hm] at g4 <;> simp [Streaming.mainPushesAt] at g4
        case pushing a todo second =>
          exact torn hidx hX C (hfull (.inr h1)) hsmp hinc (a := a) (by rw [hm]; simp [Streaming.owed]) (hhand g1 rfl).1 g4
      case pushUb b hold pre post g0 g1 g2 _ =>
        have h1 := hact _ (by rw [g1]; simp) (show Streaming.active (.pushing b hold) = true from rfl)
        obtain ⟨⟨θ, hθ⟩, _⟩ := hthr h1
        rw [g2] at hθ
        cases hθ
      case mainUb g0 g1 g2 _ =>
        have := hfull (.inl g1)
        rw [g2, List.length_nil] at this
        omega
      case extraOut b todo second g0 g1 g2 _ =>
        have h1 : y.counting.counting = true := by rw [hflag, g1]; rfl
        have := (hin b (hcoll b (by rw [g1]; simp [Streaming.owed]))).1
        have := (hthr h1).2
        omega
      case extraRace a todo second w g0 g1 g2 g3 g4 _ =>
        have h1 : y.counting.counting = true := by rw [hflag, g1]; rfl
        obtain ⟨pre, post, hw⟩ := List.append_of_mem g3
        cases w <;> simp [Streaming.pushesAt] at g4
        case pushing b hold =>
          exact torn hidx hX C (hfull (.inr h1)) hsmp hinc (a := a) (by rw [g1]; simp [Streaming.owed]) (hhand hw rfl).1 g4.symm
      case mainPushUb b todo second g0 g1 g2 _ =>
        have h1 : y.counting.counting = true := by rw [hflag, g1]; rfl
        obtain ⟨⟨θ, hθ⟩, _⟩ := hthr h1
        rw [g2] at hθ
        cases hθ
      all_goals
        simp only at hub
        rw [hne] at hub
        cases hub

/-! ### Examples -/

/-- Four sector files: the complete frame 3 at position 0, and at position 1 the complete frame 5 and the frame 6 without sector 2. -/
def orderFiles : List (File Nat) :=
  [⟨0, [⟨1, 3, 3, 2, 0, 0, 10⟩, ⟨1, 5, 3, 2, 1, 0, 20⟩, ⟨1, 6, 3, 2, 1, 0, 30⟩]⟩,
    ⟨1, [⟨1, 3, 3, 2, 0, 0, 11⟩, ⟨1, 5, 3, 2, 1, 0, 21⟩, ⟨1, 6, 3, 2, 1, 0, 31⟩]⟩,
    ⟨2, [⟨1, 3, 3, 2, 0, 0, 12⟩, ⟨1, 5, 3, 2, 1, 0, 22⟩]⟩,
    ⟨3, [⟨1, 3, 3, 2, 0, 0, 13⟩, ⟨1, 5, 3, 2, 1, 0, 23⟩, ⟨1, 6, 3, 2, 1, 0, 33⟩]⟩]

/-- The index of `orderFiles`. -/
def orderMap : ScanMap := fun p =>
  if p = 0 then [(3, fun s => if s < 4 then some ⟨s, 16⟩ else none)]
  else if p = 1 then [(5, fun s => if s < 4 then some ⟨s, MultiPass.recordSize + 16⟩ else none),
    (6, fun s => if s < 4 ∧ s ≠ 2 then some ⟨s, 2 * MultiPass.recordSize + 16⟩ else none)]
  else []

private theorem order_records (i j p f sec : Nat) : (∃ r, IsRecord orderFiles i j r p f sec) ↔
    i = sec ∧ sec < 4 ∧ (j = 0 ∧ p = 0 ∧ f = 3 ∨ j = 1 ∧ p = 1 ∧ f = 5 ∨ j = 2 ∧ p = 1 ∧ f = 6 ∧ sec ≠ 2) := by
  constructor
  · rintro ⟨r, file, h1, h2, h3, h4, h5⟩
    rcases i with _ | _ | _ | _ | i <;>
      simp only [orderFiles, List.getElem?_cons_zero, List.getElem?_cons_succ, List.getElem?_nil, Option.some.injEq,
        reduceCtorEq] at h1 <;>
      subst h1 <;> rcases j with _ | _ | _ | j <;>
        simp only [List.getElem?_cons_zero, List.getElem?_cons_succ, List.getElem?_nil, Option.some.injEq, reduceCtorEq] at h2 <;>
        subst h2 <;> subst h3 <;> subst h4 <;> subst h5 <;> simp [SectorReader.Rec.pos]
  · rintro ⟨rfl, h1, h2⟩
    have c : i = 0 ∨ i = 1 ∨ i = 2 ∨ i = 3 := by omega
    rcases c with rfl | rfl | rfl | rfl <;> rcases h2 with ⟨rfl, rfl, rfl⟩ | ⟨rfl, rfl, rfl⟩ | ⟨rfl, rfl, rfl, h3⟩ <;>
      first | exact ⟨_, _, rfl, rfl, rfl, rfl, rfl⟩ | exact absurd rfl h3

theorem orderMap_index : IsIndex orderFiles 0 4 orderMap := by
  have ex : ∀ (p f sec : Nat) (Q : Nat → Nat → Prop), (∃ i j r, 0 ≤ i ∧ i < 4 ∧ IsRecord orderFiles i j r p f sec ∧ Q i j) ↔
      sec < 4 ∧ (Q sec 0 ∧ p = 0 ∧ f = 3 ∨ Q sec 1 ∧ p = 1 ∧ f = 5 ∨ Q sec 2 ∧ p = 1 ∧ f = 6 ∧ sec ≠ 2) := by
    intro p f sec Q
    constructor
    · rintro ⟨i, j, r, _, _, h, hQ⟩
      obtain ⟨rfl, h1, h2⟩ := (order_records i j p f sec).1 ⟨r, h⟩
      rcases h2 with ⟨rfl, h2⟩ | ⟨rfl, h2⟩ | ⟨rfl, h2⟩
      · exact ⟨h1, .inl ⟨hQ, h2⟩⟩
      · exact ⟨h1, .inr (.inl ⟨hQ, h2⟩)⟩
      · exact ⟨h1, .inr (.inr ⟨hQ, h2⟩)⟩
    · rintro ⟨h1, ⟨hQ, h2⟩ | ⟨hQ, h2⟩ | ⟨hQ, h2⟩⟩
      · obtain ⟨r, h⟩ := (order_records sec 0 p f sec).2 ⟨rfl, h1, .inl ⟨rfl, h2⟩⟩
        exact ⟨_, _, r, by omega, h1, h, hQ⟩
      · obtain ⟨r, h⟩ := (order_records sec 1 p f sec).2 ⟨rfl, h1, .inr (.inl ⟨rfl, h2⟩)⟩
        exact ⟨_, _, r, by omega, h1, h, hQ⟩
      · obtain ⟨r, h⟩ := (order_records sec 2 p f sec).2 ⟨rfl, h1, .inr (.inr ⟨rfl, h2⟩)⟩
        exact ⟨_, _, r, by omega, h1, h, hQ⟩
  refine ⟨?_, ?_, ?_⟩
  · intro p
    rcases p with _ | _ | p <;> simp [orderMap, SMap.Sorted]
  · intro p f sec loc
    rw [ex p f sec fun i j => loc = ⟨i, j * MultiPass.recordSize + 16⟩]
    rcases p with _ | _ | p
    · by_cases h3 : f = 3
      · subst h3
        simp [orderMap, SMap.get, eq_comm]
      · simp [orderMap, SMap.get, h3, Ne.symm h3]
    · by_cases h5 : f = 5
      · subst h5
        simp [orderMap, SMap.get, eq_comm]
      · by_cases h6 : f = 6
        · subst h6
          simp [orderMap, SMap.get, eq_comm, and_assoc, and_comm, and_left_comm]
        · simp [orderMap, SMap.get, h5, h6, Ne.symm h5, Ne.symm h6]
    · simp [orderMap, SMap.get]
  · intro p f
    have : (∃ i j r sec, 0 ≤ i ∧ i < 4 ∧ IsRecord orderFiles i j r p f sec) ↔ ∃ sec, ∃ i j r, 0 ≤ i ∧ i < 4 ∧ IsRecord orderFiles i j r p f sec ∧ True := by
      constructor
      · rintro ⟨i, j, r, sec, h⟩
        exact ⟨sec, i, j, r, by simpa using h⟩
      · rintro ⟨sec, i, j, r, h⟩
        exact ⟨i, j, r, sec, by simpa using h⟩
    rw [this]
    simp only [ex]
    constructor
    · intro h
      refine ⟨0, by omega, ?_⟩
      rcases p with _ | _ | p <;> simp [orderMap, SMap.keys] at h ⊢ <;> omega
    · rintro ⟨sec, h1, h2⟩
      rcases h2 with ⟨_, rfl, rfl⟩ | ⟨_, rfl, rfl⟩ | ⟨_, rfl, rfl, _⟩ <;> simp [orderMap, SMap.keys]

private theorem order_blocks : CountingReader.blocks orderFiles orderMap 0 6 =
    [CountingReader.blk orderFiles orderMap 0 3, CountingReader.blk orderFiles orderMap 1 5, CountingReader.blk orderFiles orderMap 1 6] := rfl

/-- A call with one thread and `n` sample blocks. -/
def orderCall (n : Nat) : Call Nat Nat := { exampleCall with threads := 1, numBlocks := n }

/-- With two samples, frames 3 and 5, the worker may count frame 6 of position 1 while the calling thread counts frame 5 of it. -/
example : ∃ x, Reach (Step (orderCall 2) orderFiles orderMap 6) (init (orderCall 2) 0 fun _ => 0) x ∧ x.counting.ub = true := by
  refine (C82_one_thread_iff (orderCall 2) rfl orderFiles orderMap 0 4 0 6 _ orderMap_index (by decide) ?_).2 ?_
  · intro i j r p f sec _ h _ _ _
    exact h
  · exact ⟨[_], _, _, [], order_blocks, by decide, rfl, by decide⟩

/-- With one sample, frame 3, nothing undefined happens, although position 1 has two frames. -/
example (x : State Nat Nat) (h : Reach (Step (orderCall 1) orderFiles orderMap 6) (init (orderCall 1) 0 fun _ => 0) x) :
    x.counting.ub = false := by
  rw [← Bool.not_eq_true]
  intro hu
  obtain ⟨before, b, b', after, e, hb, hp, hN⟩ := (C82_one_thread_iff (orderCall 1) rfl orderFiles orderMap 0 4 0 6 _ orderMap_index
    (by decide) (by intro i j r p f sec _ h _ _ _; exact h)).1 ⟨x, h, hu⟩
  rw [order_blocks] at e
  cases before with
  | nil =>
    simp only [List.nil_append, List.cons.injEq] at e
    rw [← e.1, ← e.2.1] at hp
    cases hp
  | cons y before =>
    simp only [List.cons_append, List.cons.injEq] at e
    rw [← e.1, List.countP_cons_of_pos (by decide)] at hN
    have h1 : (orderCall 1).numBlocks = 1 := rfl
    omega

end Stempy.Props
