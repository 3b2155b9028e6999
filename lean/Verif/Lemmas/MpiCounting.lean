import Verif.Model.MpiCounting
import Verif.Lemmas.CountingReader

/-!
The counting on several ranks: every rank is simulated by the counting of a single process that gets the thresholds of
rank 0.
-/

namespace Stempy.MpiCounting
open Stempy.Spec
open Stempy.Streaming (Blk Worker Main Params early wakeMain wakeWorker)
open Stempy.MultiPass (ScanMap)
open Stempy.CountingReader (Call)

variable {D Θ : Type}

/-- The samples that a rank has taken itself. -/
def cutS (N : Nat) (s : Streaming.State Θ) : Streaming.State Θ := { s with samples := s.samples.take N }

def cut (N : Nat) (x : CountingReader.State D Θ) : CountingReader.State D Θ := { x with counting := cutS N x.counting }

theorem take_cond {N : Nat} {l : List Blk} : ((l.take N).length < N ↔ l.length < N) ∧ (N ≤ (l.take N).length ↔ N ≤ l.length) ∧
    ((l.take N).length + 1 < N ↔ l.length + 1 < N) ∧ ((l.take N).length + 1 = N ↔ l.length + 1 = N) := by
  rw [List.length_take]
  omega

theorem cut_stream {P P' : Params Θ} (hc : P'.count = P.count) (hN : P'.numBlocks = P.numBlocks)
    {s t : Streaming.State Θ} {l : Streaming.Label} (h : Streaming.Step P s l t)
    (hh : s.main = .holding → t.main = .holding ∧ t.ub = s.ub)
    (hle : early s.main = true → s.samples.length ≤ P.numBlocks) :
    Streaming.Step P' (cutS P.numBlocks s) l (cutS P.numBlocks t) := by
  obtain ⟨c1, c2, c3, c4⟩ := take_cond (N := P.numBlocks) (l := s.samples)
  have app : ∀ b, s.samples.length + 1 ≤ P.numBlocks →
      (s.samples ++ [b]).take P.numBlocks = s.samples.take P.numBlocks ++ [b] := by
    intro b hb
    rw [List.take_of_length_le (by simpa using hb), List.take_of_length_le (by omega)]
  cases h with
  | take h0 h1 h2 => exact .take (s := cutS P.numBlocks s) h0 h1 h2
  | exit h0 h1 h2 => exact .exit (s := cutS P.numBlocks s) h0 h1 h2
  | seeFlag h0 h1 h2 => exact .seeFlag (s := cutS P.numBlocks s) h0 h1 h2
  | noFlag h0 h1 h2 => exact .noFlag (s := cutS P.numBlocks s) h0 h1 h2
  | sampleUb h0 h1 h2 h3 h4 => exact .sampleUb (s := cutS P.numBlocks s) h0 h1 h2 (by rw [hN]; exact c1.2 h3) h4
  | @sample b pre post h0 h1 h2 h3 h4 =>
    have := Streaming.Step.sample (P := P') (s := cutS P.numBlocks s) h0 h1 h2 (by rw [hN]; exact c3.2 h3) h4
    simp only [cutS, app b (by omega)] at this ⊢
    exact this
  | @lastSample b pre post h0 h1 h2 h3 h4 =>
    have := Streaming.Step.lastSample (P := P') (s := cutS P.numBlocks s) h0 h1 h2 (by rw [hN]; exact c4.2 h3) h4
    simp only [cutS, app b (by omega)] at this ⊢
    exact this
  | incomplete h0 h1 h2 h3 h4 => exact .incomplete (s := cutS P.numBlocks s) h0 h1 h2 (by rw [hN]; exact c1.2 h3) h4
  | notifyAll h0 h1 => exact .notifyAll (s := cutS P.numBlocks s) h0 h1
  | sleep h0 h1 h2 h3 =>
    exact .sleep (s := cutS P.numBlocks s) h0 (h1.imp (fun h => ⟨h.1, by rw [hN]; exact c2.2 h.2⟩) id) h2 h3
  | proceed h0 h1 h2 h3 =>
    exact .proceed (s := cutS P.numBlocks s) h0 (h1.imp (fun h => ⟨h.1, by rw [hN]; exact c2.2 h.2⟩) id) h2 h3
  | appendOut h0 h1 h2 => exact .appendOut (s := cutS P.numBlocks s) h0 h1 h2
  | append h0 h1 h2 h3 h4 => exact .append (s := cutS P.numBlocks s) h0 h1 h2 h3 h4
  | appendRace h0 h1 h2 h3 h4 => exact .appendRace (s := cutS P.numBlocks s) h0 h1 h2 h3 h4
  | @push b hold θ pre post h0 h1 h2 =>
    have := Streaming.Step.push (P := P') (s := cutS P.numBlocks s) h0 h1 h2
    simp only [cutS, Streaming.pushEvents, hc] at this ⊢
    exact this
  | pushUb h0 h1 h2 => exact .pushUb (s := cutS P.numBlocks s) h0 h1 h2
  | mainSleep h0 h1 h2 h3 =>
    refine .mainSleep (s := cutS P.numBlocks s) h0 h1 h2 ?_
    have := hle (by rcases h1 with h1 | h1 <;> rw [h1] <;> rfl)
    simp only [cutS, List.length_take]
    omega
  | mainLock h0 h1 h2 h3 =>
    refine .mainLock (s := cutS P.numBlocks s) h0 h1 h2 ?_
    simp only [cutS, List.length_take]
    omega
  | mainStart h0 h1 h2 => exact absurd (hh h1).1 (by simp)
  | mainUb h0 h1 h2 =>
    have := (hh h1).2
    simp [h0] at this
  | mainUnlock h0 h1 => exact .mainUnlock (s := cutS P.numBlocks s) h0 h1
  | mainNotify h0 h1 =>
    have := Streaming.Step.mainNotify (P := P') (s := cutS P.numBlocks s) h0 h1
    simp only [cutS, hN, List.take_take, Nat.min_self] at this ⊢
    exact this
  | extraOut h0 h1 h2 => exact .extraOut (s := cutS P.numBlocks s) h0 h1 h2
  | extra h0 h1 h2 h3 => exact .extra (s := cutS P.numBlocks s) h0 h1 h2 h3
  | extraRace h0 h1 h2 h3 h4 => exact .extraRace (s := cutS P.numBlocks s) h0 h1 h2 h3 h4
  | mainPush h0 h1 h2 =>
    have := Streaming.Step.mainPush (P := P') (s := cutS P.numBlocks s) h0 h1 h2
    simp only [cutS, Streaming.pushEvents, hc] at this ⊢
    exact this
  | mainPushUb h0 h1 h2 => exact .mainPushUb (s := cutS P.numBlocks s) h0 h1 h2
  | mainSecond h0 h1 => exact .mainSecond (s := cutS P.numBlocks s) h0 h1
  | mainJoin h0 h1 => exact .mainJoin (s := cutS P.numBlocks s) h0 h1
  | mainDone h0 h1 h2 => exact .mainDone (s := cutS P.numBlocks s) h0 h1 h2
  | spurious h0 h1 => exact .spurious (s := cutS P.numBlocks s) h0 h1
  | mainSpurious h0 h1 => exact .mainSpurious (s := cutS P.numBlocks s) h0 h1

/-- The other direction: what can happen with the samples of the rank alone can happen with all of them. -/
theorem uncut_stream {P P' : Params Θ} (hN : P'.numBlocks = P.numBlocks)
    {s t : Streaming.State Θ} {l : Streaming.Label} (h : Streaming.Step P' (cutS P.numBlocks s) l t)
    (hle : early s.main = true → s.samples.length ≤ P.numBlocks) :
    ∃ t', Streaming.Step P s l t' ∧ t'.pending = t.pending ∧ t'.workers = t.workers ∧ t'.main = t.main ∧ t'.ub = t.ub := by
  obtain ⟨c1, c2, c3, c4⟩ := take_cond (N := P.numBlocks) (l := s.samples)
  cases h with
  | take h0 h1 h2 => exact ⟨_, .take (s := s) h0 h1 h2, rfl, rfl, rfl, rfl⟩
  | exit h0 h1 h2 => exact ⟨_, .exit (s := s) h0 h1 h2, rfl, rfl, rfl, rfl⟩
  | seeFlag h0 h1 h2 => exact ⟨_, .seeFlag (s := s) h0 h1 h2, rfl, rfl, rfl, rfl⟩
  | noFlag h0 h1 h2 => exact ⟨_, .noFlag (s := s) h0 h1 h2, rfl, rfl, rfl, rfl⟩
  | sampleUb h0 h1 h2 h3 h4 =>
    exact ⟨_, .sampleUb (s := s) h0 h1 h2 (c1.1 (by rw [hN] at h3; exact h3)) h4, rfl, rfl, rfl, rfl⟩
  | sample h0 h1 h2 h3 h4 =>
    exact ⟨_, .sample (s := s) h0 h1 h2 (c3.1 (by rw [hN] at h3; exact h3)) h4, rfl, rfl, rfl, rfl⟩
  | lastSample h0 h1 h2 h3 h4 =>
    exact ⟨_, .lastSample (s := s) h0 h1 h2 (c4.1 (by rw [hN] at h3; exact h3)) h4, rfl, rfl, rfl, rfl⟩
  | incomplete h0 h1 h2 h3 h4 =>
    exact ⟨_, .incomplete (s := s) h0 h1 h2 (c1.1 (by rw [hN] at h3; exact h3)) h4, rfl, rfl, rfl, rfl⟩
  | notifyAll h0 h1 => exact ⟨_, .notifyAll (s := s) h0 h1, rfl, rfl, rfl, rfl⟩
  | sleep h0 h1 h2 h3 =>
    exact ⟨_, .sleep (s := s) h0 (h1.imp (fun h => ⟨h.1, c2.1 (by have := h.2; rw [hN] at this; exact this)⟩) id) h2 h3,
      rfl, rfl, rfl, rfl⟩
  | proceed h0 h1 h2 h3 =>
    exact ⟨_, .proceed (s := s) h0 (h1.imp (fun h => ⟨h.1, c2.1 (by have := h.2; rw [hN] at this; exact this)⟩) id) h2 h3,
      rfl, rfl, rfl, rfl⟩
  | appendOut h0 h1 h2 => exact ⟨_, .appendOut (s := s) h0 h1 h2, rfl, rfl, rfl, rfl⟩
  | append h0 h1 h2 h3 h4 => exact ⟨_, .append (s := s) h0 h1 h2 h3 h4, rfl, rfl, rfl, rfl⟩
  | appendRace h0 h1 h2 h3 h4 => exact ⟨_, .appendRace (s := s) h0 h1 h2 h3 h4, rfl, rfl, rfl, rfl⟩
  | push h0 h1 h2 => exact ⟨_, .push (s := s) h0 h1 h2, rfl, rfl, rfl, rfl⟩
  | pushUb h0 h1 h2 => exact ⟨_, .pushUb (s := s) h0 h1 h2, rfl, rfl, rfl, rfl⟩
  | mainSleep h0 h1 h2 h3 =>
    refine ⟨_, .mainSleep (s := s) h0 h1 h2 ?_, rfl, rfl, rfl, rfl⟩
    intro e
    apply h3
    simp only [cutS, List.length_take]
    omega
  | mainLock h0 h1 h2 h3 =>
    refine ⟨_, .mainLock (s := s) h0 h1 h2 ?_, rfl, rfl, rfl, rfl⟩
    have := hle (by rcases h1 with h1 | h1 <;> (simp only [cutS] at h1; rw [h1]; rfl))
    simp only [cutS, List.length_take] at h3
    omega
  | mainStart h0 h1 h2 =>
    refine ⟨_, .mainStart (s := s) h0 h1 ?_, rfl, rfl, rfl, rfl⟩
    intro e
    apply h2
    simp [cutS, e]
  | mainUb h0 h1 h2 =>
    by_cases e : s.samples = []
    · exact ⟨_, .mainUb (s := s) h0 h1 e, rfl, rfl, rfl, rfl⟩
    · exfalso
      have := hle (by simp only [cutS] at h1; rw [h1]; rfl)
      simp only [cutS, List.take_of_length_le this] at h2
      exact e h2
  | mainUnlock h0 h1 => exact ⟨_, .mainUnlock (s := s) h0 h1, rfl, rfl, rfl, rfl⟩
  | mainNotify h0 h1 =>
    refine ⟨_, .mainNotify (s := s) h0 h1, rfl, rfl, ?_, rfl⟩
    simp only [cutS, hN, List.take_take, Nat.min_self]
  | extraOut h0 h1 h2 => exact ⟨_, .extraOut (s := s) h0 h1 h2, rfl, rfl, rfl, rfl⟩
  | extra h0 h1 h2 h3 => exact ⟨_, .extra (s := s) h0 h1 h2 h3, rfl, rfl, rfl, rfl⟩
  | extraRace h0 h1 h2 h3 h4 => exact ⟨_, .extraRace (s := s) h0 h1 h2 h3 h4, rfl, rfl, rfl, rfl⟩
  | mainPush h0 h1 h2 => exact ⟨_, .mainPush (s := s) h0 h1 h2, rfl, rfl, rfl, rfl⟩
  | mainPushUb h0 h1 h2 => exact ⟨_, .mainPushUb (s := s) h0 h1 h2, rfl, rfl, rfl, rfl⟩
  | mainSecond h0 h1 => exact ⟨_, .mainSecond (s := s) h0 h1, rfl, rfl, rfl, rfl⟩
  | mainJoin h0 h1 => exact ⟨_, .mainJoin (s := s) h0 h1, rfl, rfl, rfl, rfl⟩
  | mainDone h0 h1 h2 => exact ⟨_, .mainDone (s := s) h0 h1 h2, rfl, rfl, rfl, rfl⟩
  | spurious h0 h1 => exact ⟨_, .spurious (s := s) h0 h1, rfl, rfl, rfl, rfl⟩
  | mainSpurious h0 h1 => exact ⟨_, .mainSpurious (s := s) h0 h1, rfl, rfl, rfl, rfl⟩

/-- The call of a rank in which the thresholds are known. -/
def constCall (K : Call D Θ) (ws r : Nat) (θ : Θ) : Call D Θ := { rankCall K ws r with threshold := fun _ => θ }

theorem cut_step {K : Call D Θ} {ws r : Nat} {files : List (MultiPass.File D)} {map : ScanMap} {hi : Nat}
    {x x' : CountingReader.State D Θ} {l : CountingReader.Label} (θ : Θ)
    (h : CountingReader.Step (rankCall K ws r) files map hi x l x') (ha : Alone x x')
    (hle : early x.counting.main = true → x.counting.samples.length ≤ (rankCall K ws r).numBlocks) :
    CountingReader.Step (constCall K ws r θ) files map hi (cut (rankCall K ws r).numBlocks x) l
      (cut (rankCall K ws r).numBlocks x') := by
  cases h with
  | read h0 hp h1 h2 h3 h4 h5 h6 =>
    exact .read (x := cut (rankCall K ws r).numBlocks x) h0 hp h1 h2 h3 h4 h5 h6
  | deliver h0 hp h1 h2 h3 h4 h5 h6 =>
    exact .deliver (K := constCall K ws r θ) (x := cut (rankCall K ws r).numBlocks x) h0 hp h1 h2 h3 h4 h5 h6
  | finish h0 hp h1 h2 h3 h4 h5 =>
    exact .finish (x := cut (rankCall K ws r).numBlocks x) h0 hp h1 h2 h3 h4 h5
  | count h1 h2 =>
    exact .count (x := cut (rankCall K ws r).numBlocks x)
      (cut_stream (P := (rankCall K ws r).params) (P' := (constCall K ws r θ).params) rfl rfl h1 ha.1 hle) h2
  | join h0 h1 h2 => exact absurd rfl (ha.2 _)

theorem uncut_step {K : Call D Θ} {ws r : Nat} {files : List (MultiPass.File D)} {map : ScanMap} {hi : Nat}
    {x y : CountingReader.State D Θ} {l : CountingReader.Label} {θ : Θ}
    (h : CountingReader.Step (constCall K ws r θ) files map hi (cut (rankCall K ws r).numBlocks x) l y)
    (hle : early x.counting.main = true → x.counting.samples.length ≤ (rankCall K ws r).numBlocks) :
    ∃ x', CountingReader.Step (rankCall K ws r) files map hi x l x' ∧ x'.counting.main = y.counting.main ∧
      x'.counting.ub = y.counting.ub := by
  cases h with
  | read h0 hp h1 h2 h3 h4 h5 h6 => exact ⟨_, .read (x := x) h0 hp h1 h2 h3 h4 h5 h6, rfl, rfl⟩
  | deliver h0 hp h1 h2 h3 h4 h5 h6 => exact ⟨_, .deliver (x := x) h0 hp h1 h2 h3 h4 h5 h6, rfl, rfl⟩
  | finish h0 hp h1 h2 h3 h4 h5 => exact ⟨_, .finish (x := x) h0 hp h1 h2 h3 h4 h5, rfl, rfl⟩
  | @count l' c' h1 h2 =>
    obtain ⟨t, h3, h4, h5, h6, h7⟩ := uncut_stream (P := (rankCall K ws r).params) (P' := (constCall K ws r θ).params)
      (s := x.counting) rfl h1 hle
    refine ⟨_, .count h3 ⟨?_, ?_, ?_⟩, h6, h7⟩
    · rw [h4]; exact h2.1
    · rw [h5]; exact h2.2.1
    · rw [h6]; exact h2.2.2
  | join h0 h1 h2 => exact ⟨_, .join (x := x) h0 h1 h2, rfl, rfl⟩

/-! ### Facts about a rank -/

theorem early_back {P : Params Θ} {s t : Streaming.State Θ} {l : Streaming.Label} (h : Streaming.Step P s l t)
    (ht : early t.main = true) : early s.main = true := by
  cases h with
  | notifyAll h0 h1 => cases hm : s.main <;> simp_all [wakeMain, early]
  | mainSleep h0 h1 h2 h3 => rcases h1 with h1 | h1 <;> rw [h1] <;> rfl
  | mainLock h0 h1 h2 h3 => rcases h1 with h1 | h1 <;> rw [h1] <;> rfl
  | mainSpurious h0 h1 => rw [h1]; rfl
  | mainStart h0 h1 => simp [early] at ht
  | mainUnlock h0 h1 => simp [early] at ht
  | mainNotify h0 h1 => simp [early] at ht
  | extra h0 h1 => simp [early] at ht
  | mainPush h0 h1 => simp [early] at ht
  | mainSecond h0 h1 => simp [early] at ht
  | mainJoin h0 h1 => simp [early] at ht
  | mainDone h0 h1 => simp [early] at ht
  | _ => exact ht

theorem samples_le {P : Params Θ} {s t : Streaming.State Θ} {l : Streaming.Label} (h : Streaming.Step P s l t)
    (hs : s.samples.length ≤ P.numBlocks) : t.samples.length ≤ P.numBlocks := by
  cases h with
  | sample h0 h1 h2 h3 h4 => simp; omega
  | lastSample h0 h1 h2 h3 h4 => simp; omega
  | _ => exact hs

theorem samples_keep {P : Params Θ} {s t : Streaming.State Θ} {l : Streaming.Label} (h : Streaming.Step P s l t)
    (hs : P.numBlocks ≤ s.samples.length) : t.samples = s.samples := by
  cases h with
  | sample h0 h1 h2 h3 h4 => omega
  | lastSample h0 h1 h2 h3 h4 => omega
  | _ => rfl

section
variable {C : Call D Θ} {files : List (MultiPass.File D)} {map : ScanMap} {lo hi : Nat} {at_ : Nat → Nat}
  {x x' : CountingReader.State D Θ} {l : CountingReader.Label}

theorem early_back' (h : CountingReader.Step C files map hi x l x') (ht : early x'.counting.main = true) :
    early x.counting.main = true := by
  cases h with
  | count h1 h2 => exact early_back h1 ht
  | join h0 h1 h2 => simp [early] at ht
  | _ => exact ht

theorem samples_le' (h : CountingReader.Step C files map hi x l x') (hs : x.counting.samples.length ≤ C.numBlocks) :
    x'.counting.samples.length ≤ C.numBlocks := by
  cases h with
  | count h1 h2 => exact samples_le h1 hs
  | _ => exact hs

theorem samples_keep' (h : CountingReader.Step C files map hi x l x') (hs : C.numBlocks ≤ x.counting.samples.length) :
    x'.counting.samples = x.counting.samples := by
  cases h with
  | count h1 h2 => exact samples_keep h1 hs
  | _ => rfl

/-- The rank has finished counting. -/
def Frozen (x : CountingReader.State D Θ) : Prop :=
  (∃ d, x.counting.main = .done d) ∨ x.counting.main = .join ∧ ∀ w ∈ x.reader.workers, w = .exited

theorem frozen_exited (hn : 0 < C.threads) {ls : List CountingReader.Label}
    (h : Run (CountingReader.Step C files map hi) (CountingReader.init C lo at_) ls x) (hf : Frozen x) :
    ∀ w ∈ x.counting.workers, w = .exited := by
  obtain ⟨sync, _, _, rem, als, _, _, _, hc⟩ := CountingReader.sim hn h
  rcases hf with ⟨d, hd⟩ | ⟨_, hex⟩
  · rcases hc with ⟨hnd, _⟩ | ⟨_, _, hall, _⟩
    · exact absurd hd (hnd d)
    · exact hall
  · intro w hw
    have h1 : CountingReader.goneC w ∈ x.reader.workers.map CountingReader.goneR := by
      rw [← sync]; exact List.mem_map_of_mem hw
    obtain ⟨v, hv, e⟩ := List.mem_map.1 h1
    rw [hex v hv] at e
    exact CountingReader.goneC_iff.1 e.symm

theorem frozen_stuck (hw : ∀ w ∈ x.counting.workers, w = .exited) (hf : Frozen x)
    (h : CountingReader.Step C files map hi x l x') (ha : Alone x x') : False := by
  have no : ∀ {pre post : List Worker} {w : Worker}, x.counting.workers = pre ++ w :: post → w ≠ .exited → False := by
    intro pre post w e hne
    exact hne (hw w (by simp [e]))
  have hm : ∀ m, x.counting.main = m → early m = false ∧ m ≠ .started ∧ m ≠ .notify ∧ (∀ a b, m ≠ .extra a b) ∧
      ∀ a b c, m ≠ .pushing a b c := by
    rintro m rfl
    rcases hf with ⟨d, hd⟩ | ⟨hd, _⟩ <;> simp [hd, early]
  cases h with
  | read h0 hp h1 h2 h3 h4 h5 h6 => exact no h5 (by simp)
  | deliver h0 hp h1 h2 h3 h4 h5 h6 => exact no h5 (by simp)
  | finish h0 hp h1 h2 h3 h4 h5 => exact no h4 (by simp)
  | join h0 h1 h2 => exact ha.2 _ rfl
  | count h1 h2 =>
    cases h1 with
    | take h0 h1 => exact no h1 (by simp)
    | exit h0 h1 => exact no h1 (by simp)
    | seeFlag h0 h1 => exact no h1 (by simp)
    | noFlag h0 h1 => exact no h1 (by simp)
    | sampleUb h0 h1 => exact no h1 (by simp)
    | sample h0 h1 => exact no h1 (by simp)
    | lastSample h0 h1 => exact no h1 (by simp)
    | incomplete h0 h1 => exact no h1 (by simp)
    | notifyAll h0 h1 => exact no h1 (by simp)
    | sleep h0 h1 => rcases h1 with ⟨h1, _⟩ | h1 <;> exact no h1 (by simp)
    | proceed h0 h1 => rcases h1 with ⟨h1, _⟩ | h1 <;> exact no h1 (by simp)
    | appendOut h0 h1 => exact no h1 (by simp)
    | append h0 h1 => exact no h1 (by simp)
    | appendRace h0 h1 => exact no h1 (by simp)
    | push h0 h1 => exact no h1 (by simp)
    | pushUb h0 h1 => exact no h1 (by simp)
    | spurious h0 h1 => exact no h1 (by simp)
    | mainSleep h0 h1 => rcases h1 with h1 | h1 <;> simpa [early] using (hm _ h1).1
    | mainLock h0 h1 => rcases h1 with h1 | h1 <;> simpa [early] using (hm _ h1).1
    | mainStart h0 h1 => simpa [early] using (hm _ h1).1
    | mainUb h0 h1 => simpa [early] using (hm _ h1).1
    | mainUnlock h0 h1 => simpa using (hm _ h1).2.1
    | mainNotify h0 h1 => simpa using (hm _ h1).2.2.1
    | extraOut h0 h1 => exact (hm _ h1).2.2.2.1 _ _ rfl
    | extra h0 h1 => exact (hm _ h1).2.2.2.1 _ _ rfl
    | extraRace h0 h1 => exact (hm _ h1).2.2.2.1 _ _ rfl
    | mainPush h0 h1 => exact (hm _ h1).2.2.2.2 _ _ _ rfl
    | mainPushUb h0 h1 => exact (hm _ h1).2.2.2.2 _ _ _ rfl
    | mainSecond h0 h1 => exact (hm _ h1).2.2.2.1 _ _ rfl
    | mainJoin h0 h1 => exact (hm _ h1).2.2.2.1 _ _ rfl
    | mainDone h0 h1 => exact ha.2 _ rfl
    | mainSpurious h0 h1 => simpa [early] using (hm _ h1).1

/-- Invariants of the counting of a rank. -/
theorem rank_inv (hn : 0 < C.threads) {ls : List CountingReader.Label}
    (h : Run (CountingReader.Step C files map hi) (CountingReader.init C lo at_) ls x) :
    x.counting.counting = (!early x.counting.main) ∧
    (x.counting.main = .holding ∨ x.counting.counting = true → x.counting.samples.length = C.numBlocks) := by
  obtain ⟨_, _, _, rem, als, _, _, _, hc⟩ := CountingReader.sim hn h
  rcases hc with ⟨_, hr⟩ | ⟨_, _, _, hr⟩
  · have A := (Streaming.invAB ⟨_, hr⟩).1
    exact ⟨A.flag, A.full⟩
  · have A := (Streaming.invAB ⟨_, hr⟩).1
    exact ⟨A.flag, A.full⟩

end

/-! ### Sums over the ranks -/

theorem sum_change (f : Nat → Nat) (r a ws : Nat) (hr : r < ws) :
    ((List.range ws).map fun i => if i = r then a else f i).sum + f r = ((List.range ws).map f).sum + a := by
  induction ws with
  | zero => omega
  | succ n ih =>
    rw [List.range_succ, List.map_append, List.map_append, List.sum_append, List.sum_append]
    simp only [List.map_cons, List.map_nil, List.sum_cons, List.sum_nil]
    by_cases h : n = r
    · subst h
      have : ((List.range n).map fun i => if i = n then a else f i) = (List.range n).map f := by
        apply List.map_congr_left
        intro i hi
        rw [if_neg (by have := List.mem_range.1 hi; omega)]
      rw [this, if_pos rfl]
      omega
    · have := ih (by omega)
      rw [if_neg h]
      omega

theorem flatMap_first {α : Type} (f g : Nat → List α) (ws : Nat) (h : ∀ r < ws, f r = g r) :
    (List.range ws).flatMap f = (List.range ws).flatMap g := by
  rw [List.flatMap_def, List.flatMap_def]
  congr 1
  exact List.map_congr_left fun r hr => h r (List.mem_range.1 hr)

/-! ### The invariant -/

/-- Number of samples of a rank. -/
abbrev share (K : Call D Θ) (ws r : Nat) : Nat := (rankCall K ws r).numBlocks

def isSpurious : Label → Bool
  | .rank _ (.count .spurious) => true
  | _ => false

/-- Steps of rank 0 in `gatherEvents` and after it. -/
def lateSteps (z : State D Θ) : Nat :=
  (match z.gathering with | none => 0 | some (k, _) => k) + (if z.result.isSome then 1 else 0) + (if z.failed then 1 else 0)

structure Inv (K : Call D Θ) (ws : Nat) (files : List (MultiPass.File D)) (maps : Nat → ScanMap) (at_ : Nat → Nat → Nat)
    (ls : List Label) (z : State D Θ) : Prop where
  runs : ∃ lss : Nat → List CountingReader.Label,
    (∀ r < ws, ∀ θ, (z.broadcast = none ∨ z.broadcast = some θ) →
      Run (CountingReader.Step (constCall K ws r θ) files (maps r) (endPosition K.positions ws r))
        (CountingReader.init (constCall K ws r θ) (firstPosition K.positions ws r) (at_ r)) (lss r)
        (cut (share K ws r) (z.ranks r))) ∧
    ls.length ≤ ((List.range ws).map fun r => (lss r).length).sum + lateSteps z ∧
    ls.countP isSpurious = ((List.range ws).map fun r => (lss r).count (.count .spurious)).sum
  le : ∀ r < ws, early (z.ranks r).counting.main = true → (z.ranks r).counting.samples.length ≤ share K ws r
  quiet : z.broadcast = none → ∀ r < ws, early (z.ranks r).counting.main = true
  root : z.broadcast ≠ none → 0 < ws ∧ early (z.ranks 0).counting.main = false
  bcast : ∀ θ, z.broadcast = some θ → (∀ r < ws, share K ws r ≤ (z.ranks r).counting.samples.length) ∧
    θ = K.params.threshold ((List.range ws).flatMap fun r => (z.ranks r).counting.samples.take (share K ws r))
  sent : ∀ r msg, z.sent r = some msg → r < ws ∧ (∃ d, (z.ranks r).counting.main = .done d) ∧
    msg = Archive.saveEvents (Mpi.partialEvents (z.ranks r).counting.events)
  done : ∀ r < ws, ∀ d, (z.ranks r).counting.main = .done d → 0 < r ∧ (z.sent r).isSome
  gath : ∀ k ev, z.gathering = some (k, ev) → (z.ranks 0).counting.ub = false ∧ (z.ranks 0).counting.main = .join ∧
    (∀ w ∈ (z.ranks 0).reader.workers, w = .exited) ∧ 1 ≤ k ∧ k ≤ ws ∧
    (∀ r, 0 < r → r < k → ∃ d, (z.ranks r).counting.main = .done d) ∧
    Mpi.gatherEvents (z.ranks 0).counting.events
      ((List.range' 1 (k - 1)).map fun r => (z.ranks r).counting.events) = .ok ev
  res : ∀ d, z.result = some d → ∃ ev, z.gathering = some (ws, ev) ∧ d = Streaming.padEvents ev

theorem inv_init (K : Call D Θ) (ws : Nat) (files : List (MultiPass.File D)) (maps : Nat → ScanMap) (at_ : Nat → Nat → Nat) :
    Inv K ws files maps at_ [] (init K ws at_) := by
  refine ⟨⟨fun _ => [], ?_, ?_, ?_⟩, ?_, ?_, ?_, ?_, ?_, ?_, ?_, ?_⟩
  · intro r _ θ _
    have : cut (share K ws r) ((init K ws at_).ranks r) =
        CountingReader.init (constCall K ws r θ) (firstPosition K.positions ws r) (at_ r) := by
      simp [cut, cutS, init, CountingReader.init, Streaming.init, constCall, Call.params]
    rw [this]
    exact .nil _
  · simp
  · simp
  · intro r _ _; simp [init, CountingReader.init, Streaming.init]
  · intro _ r _; rfl
  · intro h; exact absurd rfl h
  · intro θ h; simp [init] at h
  · intro r msg h; simp [init] at h
  · intro r _ d h; simp [init, CountingReader.init, Streaming.init] at h
  · intro k ev h; simp [init] at h
  · intro d h; simp [init] at h

/-- A step of one rank (`x'` is its new state), seen as a step of the single process. -/
theorem runs_set {K : Call D Θ} {ws : Nat} {files : List (MultiPass.File D)} {maps : Nat → ScanMap} {at_ : Nat → Nat → Nat}
    {ls : List Label} {z z' : State D Θ} (I : Inv K ws files maps at_ ls z) {r : Nat} (hr : r < ws)
    {x' : CountingReader.State D Θ} {l : CountingReader.Label} {gl : Label}
    (hz : z'.ranks = (set z r x').ranks) (hlate : lateSteps z' = lateSteps z)
    (hsp : isSpurious gl = decide (l = .count .spurious))
    (hb : ∀ θ, (z'.broadcast = none ∨ z'.broadcast = some θ) → (z.broadcast = none ∨ z.broadcast = some θ) ∧
      CountingReader.Step (constCall K ws r θ) files (maps r) (endPosition K.positions ws r)
        (cut (share K ws r) (z.ranks r)) l (cut (share K ws r) x')) :
    ∃ lss : Nat → List CountingReader.Label,
    (∀ r < ws, ∀ θ, (z'.broadcast = none ∨ z'.broadcast = some θ) →
      Run (CountingReader.Step (constCall K ws r θ) files (maps r) (endPosition K.positions ws r))
        (CountingReader.init (constCall K ws r θ) (firstPosition K.positions ws r) (at_ r)) (lss r)
        (cut (share K ws r) (z'.ranks r))) ∧
    (ls ++ [gl]).length ≤ ((List.range ws).map fun r => (lss r).length).sum + lateSteps z' ∧
    (ls ++ [gl]).countP isSpurious = ((List.range ws).map fun r => (lss r).count (.count .spurious)).sum := by
  obtain ⟨lss, h1, h2, h3⟩ := I.runs
  refine ⟨fun i => if i = r then lss r ++ [l] else lss i, ?_, ?_, ?_⟩
  · intro i hi θ hθ
    obtain ⟨g1, g2⟩ := hb θ hθ
    have e : z'.ranks i = if i = r then x' else z.ranks i := by rw [hz]; rfl
    rw [e]
    by_cases hir : i = r
    · subst hir
      simp only [if_true]
      exact (h1 i hi θ g1).snoc g2
    · simp only [if_neg hir]
      exact h1 i hi θ g1
  · have := sum_change (fun i => (lss i).length) r ((lss r).length + 1) ws hr
    have e : ((List.range ws).map fun i => ((if i = r then lss r ++ [l] else lss i).length)) =
        (List.range ws).map fun i => if i = r then (lss r).length + 1 else (lss i).length := by
      apply List.map_congr_left
      intro i _
      split <;> simp
    rw [e, hlate]
    simp only [List.length_append, List.length_cons, List.length_nil]
    omega
  · have := sum_change (fun i => (lss i).count (.count .spurious)) r
      ((lss r).count (.count .spurious) + if l = .count .spurious then 1 else 0) ws hr
    have e : ((List.range ws).map fun i => ((if i = r then lss r ++ [l] else lss i).count (.count .spurious))) =
        (List.range ws).map fun i => if i = r then (lss r).count (.count .spurious) + (if l = .count .spurious then 1 else 0)
          else (lss i).count (.count .spurious) := by
      apply List.map_congr_left
      intro i _
      split
      · rw [List.count_append]
        by_cases hl : l = .count .spurious
        · simp [hl]
        · rw [if_neg hl, List.count_cons_of_ne hl]; rfl
      · rfl
    rw [e, List.countP_append, List.countP_singleton, hsp, h3]
    simp only [decide_eq_true_eq]
    omega

/-- What `gatherEvents` has received does not change when another rank does something. -/
theorem gath_set {ws : Nat} {z z' : State D Θ} {r : Nat} {x' : CountingReader.State D Θ}
    (hz : z'.ranks = (set z r x').ranks) (hg : z'.gathering = z.gathering) (h0 : z.gathering ≠ none → r ≠ 0)
    (hd : ∀ d, (z.ranks r).counting.main ≠ .done d)
    (h : ∀ k ev, z.gathering = some (k, ev) → (z.ranks 0).counting.ub = false ∧ (z.ranks 0).counting.main = .join ∧
      (∀ w ∈ (z.ranks 0).reader.workers, w = .exited) ∧ 1 ≤ k ∧ k ≤ ws ∧
      (∀ r, 0 < r → r < k → ∃ d, (z.ranks r).counting.main = .done d) ∧
      Mpi.gatherEvents (z.ranks 0).counting.events
        ((List.range' 1 (k - 1)).map fun r => (z.ranks r).counting.events) = .ok ev) :
    ∀ k ev, z'.gathering = some (k, ev) → (z'.ranks 0).counting.ub = false ∧ (z'.ranks 0).counting.main = .join ∧
      (∀ w ∈ (z'.ranks 0).reader.workers, w = .exited) ∧ 1 ≤ k ∧ k ≤ ws ∧
      (∀ r, 0 < r → r < k → ∃ d, (z'.ranks r).counting.main = .done d) ∧
      Mpi.gatherEvents (z'.ranks 0).counting.events
        ((List.range' 1 (k - 1)).map fun r => (z'.ranks r).counting.events) = .ok ev := by
  intro k ev hk
  rw [hg] at hk
  obtain ⟨g0, g1, g2, g3, g4, g5, g6⟩ := h k ev hk
  have hr0 : r ≠ 0 := h0 (by rw [hk]; simp)
  have hkr : ¬ r < k := by
    intro hlt
    obtain ⟨d, e⟩ := g5 r (by omega) hlt
    exact hd d e
  have e : ∀ i, i ≠ r → z'.ranks i = z.ranks i := by
    intro i hi
    rw [hz]
    simp [set, hi]
  rw [e 0 (by omega)]
  refine ⟨g0, g1, g2, g3, g4, ?_, ?_⟩
  · intro i hi hik
    rw [e i (by omega)]
    exact g5 i hi hik
  · rw [← g6]
    congr 1
    apply List.map_congr_left
    intro i hi
    rw [List.mem_range'_1] at hi
    rw [e i (by omega)]

theorem early_keep {P : Params Θ} {s t : Streaming.State Θ} {l : Streaming.Label} (h : Streaming.Step P s l t)
    (hs : early s.main = true) (hh : s.main = .holding → t.main = .holding) : early t.main = true := by
  cases h with
  | notifyAll h0 h1 => cases hm : s.main <;> simp_all [wakeMain, early]
  | mainStart h0 h1 => exact absurd (hh h1) (by simp)
  | mainUnlock h0 h1 => simp [h1, early] at hs
  | mainNotify h0 h1 => simp [h1, early] at hs
  | extra h0 h1 => simp [h1, early] at hs
  | mainPush h0 h1 => simp [h1, early] at hs
  | mainSecond h0 h1 => simp [h1, early] at hs
  | mainJoin h0 h1 => simp [h1, early] at hs
  | mainDone h0 h1 => simp [h1, early] at hs
  | mainSleep => rfl
  | mainLock => rfl
  | mainSpurious => rfl
  | _ => exact hs

theorem early_keep' {C : Call D Θ} {files : List (MultiPass.File D)} {map : ScanMap} {hi : Nat}
    {x x' : CountingReader.State D Θ} {l : CountingReader.Label}
    (h : CountingReader.Step C files map hi x l x') (hs : early x.counting.main = true) (ha : Alone x x') :
    early x'.counting.main = true := by
  cases h with
  | count h1 h2 => exact early_keep h1 hs fun hh => (ha.1 hh).1
  | join h0 h1 h2 => simp [h1, early] at hs
  | _ => exact hs

section
variable {K : Call D Θ} {ws : Nat} {files : List (MultiPass.File D)} {maps : Nat → ScanMap} {at_ : Nat → Nat → Nat}
  {ls : List Label} {z z' : State D Θ} {gl : Label}

/-- Thresholds for which the ranks can be seen as single processes. -/
theorem Inv.theta (_ : Inv K ws files maps at_ ls z) : ∃ θ, z.broadcast = none ∨ z.broadcast = some θ := by
  cases h : z.broadcast with
  | none => exact ⟨K.params.threshold [], .inl rfl⟩
  | some θ => exact ⟨θ, .inr rfl⟩

theorem Inv.run (I : Inv K ws files maps at_ ls z) {r : Nat} (hr : r < ws) :
    ∃ θ lsr, (z.broadcast = none ∨ z.broadcast = some θ) ∧
      Run (CountingReader.Step (constCall K ws r θ) files (maps r) (endPosition K.positions ws r))
        (CountingReader.init (constCall K ws r θ) (firstPosition K.positions ws r) (at_ r)) lsr
        (cut (share K ws r) (z.ranks r)) := by
  obtain ⟨θ, hθ⟩ := I.theta
  obtain ⟨lss, h, _⟩ := I.runs
  exact ⟨θ, lss r, hθ, h r hr θ hθ⟩

theorem Inv.not_frozen (hn : 0 < K.threads) (I : Inv K ws files maps at_ ls z) {r : Nat} (hr : r < ws)
    {l : CountingReader.Label} {x' : CountingReader.State D Θ}
    (h : CountingReader.Step (rankCall K ws r) files (maps r) (endPosition K.positions ws r) (z.ranks r) l x')
    (ha : Alone (z.ranks r) x') : ¬ Frozen (z.ranks r) := by
  intro hf
  obtain ⟨θ, lsr, _, hrun⟩ := I.run hr
  have hw := frozen_exited (C := constCall K ws r θ) (x := cut (share K ws r) (z.ranks r)) hn hrun hf
  exact frozen_stuck (x := z.ranks r) hw hf h ha

theorem Inv.full (hn : 0 < K.threads) (I : Inv K ws files maps at_ ls z) {r : Nat} (hr : r < ws)
    (hm : (z.ranks r).counting.main = .holding) : (z.ranks r).counting.samples.length = share K ws r := by
  obtain ⟨θ, lsr, _, hrun⟩ := I.run hr
  have h1 := (rank_inv (C := constCall K ws r θ) hn hrun).2 (.inl hm)
  have h2 := I.le r hr (by rw [hm]; rfl)
  have h3 : (constCall K ws r θ).numBlocks = share K ws r := rfl
  simp only [cut, cutS, List.length_take, h3] at h1
  omega

theorem inv_step (hn : 0 < K.threads) (hN : ∀ r < ws, 0 < share K ws r) (I : Inv K ws files maps at_ ls z)
    (h : Step K ws files maps z gl z') : Inv K ws files maps at_ (ls ++ [gl]) z' := by
  have same : ∀ {r x' i}, i ≠ r → (set z r x').ranks i = z.ranks i := by
    intro r x' i hi
    simp [set, hi]
  have this' : ∀ {r x'}, (set z r x').ranks r = x' := by
    intro r x'
    simp [set]
  cases h with
  | @rank r l x' hr h ha =>
    have hnf := I.not_frozen hn hr h ha
    have hnd : ∀ d, (z.ranks r).counting.main ≠ .done d := fun d hd => hnf (.inl ⟨d, hd⟩)
    refine ⟨runs_set (l := l) I hr rfl rfl ?_ ?_, ?_, ?_, ?_, ?_, ?_, ?_, ?_, I.res⟩
    · cases l with
      | reader => rfl
      | count l => cases l <;> rfl
    · intro θ hθ
      exact ⟨hθ, cut_step θ h ha (I.le r hr)⟩
    · intro i hi he
      by_cases hir : i = r
      · subst hir
        rw [this'] at he ⊢
        exact samples_le' h (I.le i hr (early_back' h he))
      · rw [same hir] at he ⊢
        exact I.le i hi he
    · intro hb i hi
      by_cases hir : i = r
      · subst hir
        rw [this']
        exact early_keep' h (I.quiet hb i hi) ha
      · rw [same hir]
        exact I.quiet hb i hi
    · intro hb
      obtain ⟨g1, g2⟩ := I.root hb
      refine ⟨g1, ?_⟩
      by_cases hir : 0 = r
      · subst hir
        rw [this']
        cases he : early x'.counting.main with
        | false => rfl
        | true => rw [early_back' h he] at g2; cases g2
      · rw [same hir]; exact g2
    · intro θ hθ
      obtain ⟨g1, g2⟩ := I.bcast θ hθ
      have e : ∀ i < ws, ((set z r x').ranks i).counting.samples = (z.ranks i).counting.samples := by
        intro i hi
        by_cases hir : i = r
        · subst hir
          rw [this']
          exact samples_keep' h (g1 i hi)
        · rw [same hir]
      refine ⟨fun i hi => by rw [e i hi]; exact g1 i hi, ?_⟩
      rw [g2]
      congr 1
      exact (flatMap_first _ _ _ fun i hi => by rw [e i hi]).symm
    · intro i msg hm
      obtain ⟨g1, ⟨d, g2⟩, g3⟩ := I.sent i msg hm
      have hir : i ≠ r := by
        rintro rfl
        exact hnd d g2
      rw [same hir]
      exact ⟨g1, ⟨d, g2⟩, g3⟩
    · intro i hi d hd
      by_cases hir : i = r
      · subst hir
        rw [this'] at hd
        exact absurd hd (ha.2 d)
      · rw [same hir] at hd
        exact I.done i hi d hd
    · refine gath_set rfl rfl ?_ hnd I.gath
      intro hg hr0
      subst hr0
      obtain ⟨⟨k, ev⟩, hk⟩ := Option.ne_none_iff_exists'.1 hg
      obtain ⟨_, g1, g2, _⟩ := I.gath k ev hk
      exact hnf (.inr ⟨g1, g2⟩)
  | compute hall hws hne =>
    have hm0 := (hall 0 hws).1
    have hb0 : z.broadcast = none := by
      cases hb : z.broadcast with
      | none => rfl
      | some θ =>
        have := (I.root (by rw [hb]; simp)).2
        rw [hm0] at this
        cases this
    have hfull : ∀ r < ws, (z.ranks r).counting.samples.length = share K ws r := fun r hr => I.full hn hr (hall r hr).1
    have htk : (gathered ws z).take (share K ws 0) = (z.ranks 0).counting.samples := by
      obtain ⟨n, rfl⟩ : ∃ n, ws = n + 1 := ⟨ws - 1, by omega⟩
      rw [gathered, List.range_succ_eq_map, List.flatMap_cons, ← hfull 0 hws, List.take_left]
    have hg : ∀ k ev, z.gathering ≠ some (k, ev) := by
      intro k ev hk
      have := (I.gath k ev hk).2.1
      rw [hm0] at this
      cases this
    refine ⟨runs_set (l := .count .internal) I hws rfl rfl rfl ?_, ?_, ?_, ?_, ?_, ?_, ?_, ?_, I.res⟩
    · intro θ hθ
      obtain rfl : K.params.threshold (gathered ws z) = θ := by
        rcases hθ with hθ | hθ
        · cases hθ
        · exact Option.some.inj hθ
      refine ⟨.inl hb0, ?_⟩
      have hs := Streaming.Step.mainStart (P := (constCall K ws 0 (K.params.threshold (gathered ws z))).params)
        (s := cutS (share K ws 0) (z.ranks 0).counting) (hall 0 hws).2 hm0 (by
          have h1 := hfull 0 hws
          have h2 := hN 0 hws
          intro e
          have := congrArg List.length e
          simp only [cutS, List.length_take, List.length_nil] at this
          omega)
      have e1 : cutS (share K ws 0) (start K (z.ranks 0) (gathered ws z) (K.params.threshold (gathered ws z))).counting =
          { cutS (share K ws 0) (z.ranks 0).counting with
            thresholds := some ((constCall K ws 0 (K.params.threshold (gathered ws z))).params.threshold
              (cutS (share K ws 0) (z.ranks 0).counting).samples)
            events := List.replicate (constCall K ws 0 (K.params.threshold (gathered ws z))).params.positions []
            counting := true, main := .started } := by
        simp only [cutS, start, htk, List.take_of_length_le (Nat.le_of_eq (hfull 0 hws))]
        rfl
      rw [← e1] at hs
      exact .count (x := cut (share K ws 0) (z.ranks 0)) hs ⟨rfl, rfl, by intro d; simp [cutS, start]⟩
    · intro i hi he
      by_cases hir : i = 0
      · subst hir
        simp [set, start, early] at he
      · have e := same (x' := start K (z.ranks 0) (gathered ws z) (K.params.threshold (gathered ws z))) hir
        simp only [e] at he ⊢
        exact I.le i hi he
    · intro hb; simp at hb
    · intro _
      exact ⟨hws, by simp [set, start, early]⟩
    · intro θ hθ
      obtain rfl : K.params.threshold (gathered ws z) = θ := Option.some.inj hθ
      have e : ∀ i < ws, ((set z 0 (start K (z.ranks 0) (gathered ws z)
          (K.params.threshold (gathered ws z)))).ranks i).counting.samples.take (share K ws i) =
          (z.ranks i).counting.samples := by
        intro i hi
        by_cases hir : i = 0
        · subst hir
          rw [this']
          exact htk
        · rw [same hir, List.take_of_length_le (Nat.le_of_eq (hfull i hi))]
      constructor
      · intro i hi
        have := congrArg List.length (e i hi)
        rw [List.length_take, hfull i hi] at this
        show share K ws i ≤ ((set z 0 _).ranks i).counting.samples.length
        omega
      · congr 1
        exact (flatMap_first _ _ _ e).symm
    · intro i msg hm
      obtain ⟨g1, ⟨d, g2⟩, g3⟩ := I.sent i msg hm
      rw [(hall i g1).1] at g2
      cases g2
    · intro i hi d hd
      by_cases hir : i = 0
      · subst hir
        simp [set, start] at hd
      · simp only [same hir] at hd
        exact I.done i hi d hd
    · intro k ev hk
      exact absurd hk (hg k ev)
  | computeUb hall hws he =>
    exfalso
    have h1 := I.full hn hws (hall 0 hws).1
    have h2 := hN 0 hws
    rw [gathered, List.flatMap_eq_nil_iff] at he
    have := he 0 (List.mem_range.2 hws)
    rw [this] at h1
    simp at h1
    omega
  | @receive r θ h0 hr hm hub hb hne =>
    have hfull := I.full hn hr hm
    refine ⟨runs_set (l := .count .internal) I hr rfl rfl rfl ?_, ?_, ?_, ?_, ?_, ?_, ?_, ?_, I.res⟩
    · intro θ' hθ
      obtain rfl : θ = θ' := by
        rcases hθ with hθ | hθ
        · simp only [set, hb] at hθ
          cases hθ
        · simp only [set, hb] at hθ
          exact Option.some.inj hθ
      refine ⟨.inr hb, ?_⟩
      have hs := Streaming.Step.mainStart (P := (constCall K ws r θ).params)
        (s := cutS (share K ws r) (z.ranks r).counting) hub hm (by
          have h2 := hN r hr
          intro e
          have := congrArg List.length e
          simp only [cutS, List.length_take, List.length_nil] at this
          omega)
      exact .count (x := cut (share K ws r) (z.ranks r)) hs ⟨rfl, rfl, by intro d; show Main.started ≠ _; simp⟩
    · intro i hi he
      by_cases hir : i = r
      · subst hir
        rw [this'] at he
        simp [start, early] at he
      · rw [same hir] at he ⊢
        exact I.le i hi he
    · intro h'
      simp only [set, hb] at h'
      cases h'
    · intro _
      obtain ⟨g1, g2⟩ := I.root (by rw [hb]; simp)
      rw [same (by omega)]
      exact ⟨g1, g2⟩
    · intro θ' hθ
      obtain ⟨g1, g2⟩ := I.bcast θ' hθ
      have e : ∀ i < ws, ((set z r (start K (z.ranks r) (z.ranks r).counting.samples θ)).ranks i).counting.samples =
          (z.ranks i).counting.samples := by
        intro i hi
        by_cases hir : i = r
        · subst hir; rw [this']; rfl
        · rw [same hir]
      refine ⟨fun i hi => by rw [e i hi]; exact g1 i hi, ?_⟩
      rw [g2]
      congr 1
      exact (flatMap_first _ _ _ fun i hi => by rw [e i hi]).symm
    · intro i msg hm'
      obtain ⟨g1, ⟨d, g2⟩, g3⟩ := I.sent i msg hm'
      have hir : i ≠ r := by
        rintro rfl
        rw [hm] at g2
        cases g2
      rw [same hir]
      exact ⟨g1, ⟨d, g2⟩, g3⟩
    · intro i hi d hd
      by_cases hir : i = r
      · subst hir
        rw [this'] at hd
        simp [start] at hd
      · rw [same hir] at hd
        exact I.done i hi d hd
    · exact gath_set rfl rfl (fun _ => by omega) (by intro d; rw [hm]; simp) I.gath
  | @receiveUb r θ h0 hr hm hub hb he =>
    exfalso
    have h1 := I.full hn hr hm
    have h2 := hN r hr
    rw [he] at h1
    simp at h1
    omega
  | @send r h0 hr hub hm hex =>
    refine ⟨runs_set (l := .count .internal) I hr rfl rfl rfl ?_, ?_, ?_, ?_, ?_, ?_, ?_, ?_, I.res⟩
    · intro θ hθ
      exact ⟨hθ, .join (x := cut (share K ws r) (z.ranks r)) hub hm hex⟩
    · intro i hi he
      by_cases hir : i = r
      · subst hir
        simp [set, early] at he
      · simp only [same hir] at he ⊢
        exact I.le i hi he
    · intro hb i hi
      have := I.quiet hb r hr
      rw [hm] at this
      cases this
    · intro hb
      obtain ⟨g1, g2⟩ := I.root hb
      refine ⟨g1, ?_⟩
      simp only [same (show 0 ≠ r by omega)]
      exact g2
    · intro θ hθ
      obtain ⟨g1, g2⟩ := I.bcast θ hθ
      have e : ∀ i < ws, ((set z r { z.ranks r with counting := { (z.ranks r).counting with
          main := .done (Streaming.padEvents (z.ranks r).counting.events) } }).ranks i).counting.samples =
          (z.ranks i).counting.samples := by
        intro i hi
        by_cases hir : i = r
        · subst hir; rw [this']
        · rw [same hir]
      refine ⟨fun i hi => by simp only [e i hi]; exact g1 i hi, ?_⟩
      rw [g2]
      congr 1
      exact (flatMap_first _ _ _ fun i hi => by rw [e i hi]).symm
    · intro i msg hm'
      by_cases hir : i = r
      · subst hir
        simp only [if_true, Option.some.injEq] at hm'
        refine ⟨hr, ⟨_, by simp only [this']; rfl⟩, ?_⟩
        simp only [this']
        exact hm'.symm
      · simp only [if_neg hir] at hm'
        obtain ⟨g1, g2, g3⟩ := I.sent i msg hm'
        simp only [same hir]
        exact ⟨g1, g2, g3⟩
    · intro i hi d hd
      by_cases hir : i = r
      · subst hir
        exact ⟨h0, by simp⟩
      · simp only [same hir, if_neg hir] at hd ⊢
        exact I.done i hi d hd
    · exact gath_set rfl rfl (fun _ => by omega) (by intro d; rw [hm]; simp) I.gath
  | gather hws hub hm hex hg =>
    obtain ⟨lss, h1, h2, h3⟩ := I.runs
    refine ⟨⟨lss, h1, ?_, by simpa [isSpurious] using h3⟩, I.le, I.quiet, I.root, I.bcast, I.sent, I.done, ?_, ?_⟩
    · simp only [lateSteps, hg, List.length_append, List.length_cons, List.length_nil] at h2 ⊢
      omega
    · intro k ev hk
      simp only [Option.some.injEq, Prod.mk.injEq] at hk
      obtain ⟨rfl, rfl⟩ := hk
      exact ⟨hub, hm, hex, by omega, by omega, fun r _ _ => by omega, rfl⟩
    · intro d hd
      obtain ⟨ev, g, _⟩ := I.res d hd
      rw [hg] at g
      cases g
  | @recv k ev msg ev' hf hg hk hs hrec =>
    obtain ⟨lss, h1, h2, h3⟩ := I.runs
    obtain ⟨g0, g1, g2, g3, g4, g5, g6⟩ := I.gath k ev hg
    obtain ⟨s1, s2, s3⟩ := I.sent k msg hs
    refine ⟨⟨lss, h1, ?_, by simpa [isSpurious] using h3⟩, I.le, I.quiet, I.root, I.bcast, I.sent, I.done, ?_, ?_⟩
    · simp only [lateSteps, hg, List.length_append, List.length_cons, List.length_nil] at h2 ⊢
      omega
    · intro k' ev'' hk'
      simp only [Option.some.injEq, Prod.mk.injEq] at hk'
      obtain ⟨rfl, rfl⟩ := hk'
      refine ⟨g0, g1, g2, by omega, by omega, ?_, ?_⟩
      · intro r hr hrk
        by_cases hrk' : r = k
        · subst hrk'; exact s2
        · exact g5 r hr (by omega)
      · obtain ⟨j, rfl⟩ : ∃ j, k = j + 1 := ⟨k - 1, by omega⟩
        simp only [Nat.add_sub_cancel] at g6 ⊢
        rw [List.range'_1_concat, List.map_append, Mpi.gatherEvents, List.foldlM_append, ← Mpi.gatherEvents, g6]
        simp only [List.map_cons, List.map_nil, List.foldlM_cons, List.foldlM_nil, Outcome.ok_bind]
        rw [Nat.add_comm 1 j, ← s3, hrec]
        rfl
    · intro d hd
      obtain ⟨ev2, g, _⟩ := I.res d hd
      rw [hg] at g
      simp only [Option.some.injEq, Prod.mk.injEq] at g
      omega
  | @recvFail k ev msg hf hg hk hs hrec =>
    obtain ⟨lss, h1, h2, h3⟩ := I.runs
    refine ⟨⟨lss, h1, ?_, by simpa [isSpurious] using h3⟩, I.le, I.quiet, I.root, I.bcast, I.sent, I.done, I.gath, I.res⟩
    simp only [lateSteps, hf, List.length_append, List.length_cons, List.length_nil] at h2 ⊢
    simp at h2 ⊢
    omega
  | @finish ev hf hg hres =>
    obtain ⟨lss, h1, h2, h3⟩ := I.runs
    refine ⟨⟨lss, h1, ?_, by simpa [isSpurious] using h3⟩, I.le, I.quiet, I.root, I.bcast, I.sent, I.done, I.gath, ?_⟩
    · simp only [lateSteps, hres, List.length_append, List.length_cons, List.length_nil] at h2 ⊢
      simp at h2 ⊢
      omega
    · intro d hd
      exact ⟨ev, hg, (Option.some.inj hd).symm⟩

theorem inv_run (hn : 0 < K.threads) (hN : ∀ r < ws, 0 < share K ws r)
    (h : Run (Step K ws files maps) (init K ws at_) ls z) : Inv K ws files maps at_ ls z := by
  generalize hx : init K ws at_ = z0 at h
  induction h with
  | nil => subst hx; exact inv_init K ws files maps at_
  | snoc _ h2 ih => exact inv_step hn hN ih h2

end

end Stempy.MpiCounting
