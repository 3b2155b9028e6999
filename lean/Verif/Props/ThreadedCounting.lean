import Verif.Model.ThreadedCounting
import Verif.Lemmas.CountingReader
import Verif.Props.Streaming
import Verif.Props.ThreadedReader
import Mathlib.Logic.Equiv.List

/-!
# C113: streaming electron counting with the code of the single-pass reader
-/

namespace Stempy.Props.ThreadedCounting
open Stempy.Spec Stempy.ThreadedCounting
open Stempy.Streaming (Worker Blk wakeWorker)
open Stempy.CountingReader (Inside back goneC goneC_iff gone_step abs_step done_step exits)
open Stempy.ThreadedReader (Entry Block)

variable {D Θ : Type}

def goneR : ThreadedReader.Worker D → Bool
  | .exited => true
  | _ => false

theorem goneR_iff {w : ThreadedReader.Worker D} : goneR w = true ↔ w = .exited := by cases w <;> simp [goneR]

/-- The steps of the reader in an execution. -/
def readerOf : Label → Option ThreadedReader.Label
  | .reader l => some l
  | .count _ => none

def isCount : Label → Bool
  | .count _ => true
  | .reader _ => false

/-- The counting, seen as a state of `Streaming` for the blocks delivered so far and any further ones. -/
structure Sim (K : Call D Θ) (files : List (Entry D)) (ls : List Label) (x : State D Θ) : Prop where
  sync : x.counting.workers.map goneC = x.reader.workers.map goneR
  pend : x.counting.pending = []
  reader : Run ThreadedReader.Step (ThreadedReader.init K.threads files) (ls.filterMap readerOf) x.reader
  counting : ((∀ d, x.counting.main ≠ .done d) ∧ ∀ rem, ∃ als,
        Run (Streaming.Step K.params) (Streaming.init K.params (x.reader.delivered.map K.tag ++ rem)) als (CountingReader.abs x.counting rem) ∧
        ls.countP isCount ≤ als.length ∧ als.count .spurious = ls.count (.count .spurious)) ∨
      ((∃ d, x.counting.main = .done d) ∧ (∀ w ∈ x.counting.workers, w = .exited) ∧ ∃ als,
        Run (Streaming.Step K.params) (Streaming.init K.params (x.reader.delivered.map K.tag)) als x.counting ∧
        ls.countP isCount ≤ als.length ∧ als.count .spurious = ls.count (.count .spurious))

private theorem sync_change {cw : List Worker} {rw_ : List (ThreadedReader.Worker D)} {cpre cpost : List Worker}
    {rpre rpost : List (ThreadedReader.Worker D)} {v v' : Worker} {w w' : ThreadedReader.Worker D}
    (sync : cw.map goneC = rw_.map goneR) (h1 : rw_ = rpre ++ w :: rpost) (h5 : cw = cpre ++ v :: cpost)
    (h6 : cpre.length = rpre.length) (e : goneC v' = goneR w') :
    (cpre ++ v' :: cpost).map goneC = (rpre ++ w' :: rpost).map goneR := by
  rw [h1, h5] at sync
  simp only [List.map_append, List.map_cons] at sync ⊢
  obtain ⟨e1, e2⟩ := List.append_inj sync (by simpa using h6)
  simp only [List.cons.injEq] at e2
  rw [e1, e2.2, e]

theorem sim {K : Call D Θ} {files : List (Entry D)} {ls : List Label} {x : State D Θ}
    (h : Run (Step K) (init K files) ls x) : Sim K files ls x := by
  generalize hx0 : init K files = x0 at h
  induction h with
  | nil =>
    subst hx0
    refine ⟨?_, rfl, .nil _, .inl ⟨?_, fun rem => ⟨[], ?_, by simp, by simp⟩⟩⟩
    · simp [init, Streaming.init, ThreadedReader.init, goneC, goneR, Call.params]
    · intro d; simp [init, Streaming.init]
    · have : CountingReader.abs (init K files).counting rem = Streaming.init K.params ((init K files).reader.delivered.map K.tag ++ rem) := by
        simp [CountingReader.abs, init, Streaming.init, back, ThreadedReader.init]
      rw [this]
      exact .nil _
  | @snoc y z ls l hr hs ih =>
    obtain ⟨sync, pend, hrr, hcnt⟩ := ih
    have notDone : ∀ {cpre cpost}, y.counting.workers = cpre ++ .idle :: cpost → (∀ d, y.counting.main ≠ .done d) ∧ ∀ rem, ∃ als,
        Run (Streaming.Step K.params) (Streaming.init K.params (y.reader.delivered.map K.tag ++ rem)) als (CountingReader.abs y.counting rem) ∧
        ls.countP isCount ≤ als.length ∧ als.count .spurious = ls.count (.count .spurious) := by
      intro cpre cpost hw
      rcases hcnt with hc | ⟨_, hall, _⟩
      · exact hc
      · have := hall .idle (by simp [hw])
        cases this
    have gone : ∀ {w : ThreadedReader.Worker D}, w ≠ .exited → goneR w = false := by
      intro w hw
      rw [← Bool.not_eq_true, goneR_iff]
      exact hw
    cases hs with
    | @read l r' rpre rpost w w' cpre cpost h0 h0' hp h1 h2 hw h3 h4 h5 h6 =>
      refine ⟨?_, pend, by simpa [readerOf, List.filterMap_cons] using hrr.snoc hp, .inl ⟨(notDone h5).1, fun rem => ?_⟩⟩
      · have := sync_change (v' := .idle) (w' := w') sync h1 h5 h6 (gone h3).symm
        simp only [h2]
        rw [h5]
        exact this
      · obtain ⟨als, a1, a2, a3⟩ := (notDone h5).2 rem
        exact ⟨als, by simpa only [h4] using a1, by simpa [isCount] using a2, by simpa using a3⟩
    | @deliver l r' rpre rpost w w' cpre cpost b h0 h0' hp h1 h2 hw h3 h4 h5 h6 =>
      refine ⟨?_, pend, by simpa [readerOf, List.filterMap_cons] using hrr.snoc hp, .inl ⟨(notDone h5).1, fun rem => ?_⟩⟩
      · have := sync_change (v' := .got (K.tag b)) (w' := w') sync h1 h5 h6 (gone h3).symm
        simp only [h2]
        exact this
      · obtain ⟨als, a1, a2, a3⟩ := (notDone h5).2 (K.tag b :: rem)
        have hstep : Streaming.Step K.params (CountingReader.abs y.counting (K.tag b :: rem)) .internal
            (CountingReader.abs { y.counting with workers := cpre ++ .got (K.tag b) :: cpost } rem) := by
          have := Streaming.Step.take (P := K.params) (s := CountingReader.abs y.counting (K.tag b :: rem)) (b := K.tag b) (p1 := [])
            (p2 := rem) (pre := cpre.map back) (post := cpost.map back) h0 (by simp [CountingReader.abs, h5, back]) rfl
          simpa [CountingReader.abs, back] using this
        refine ⟨als ++ [.internal], ?_, ?_, ?_⟩
        · have := a1.snoc hstep
          simpa [h4] using this
        · simp [isCount]; omega
        · simpa using a3
    | @finish l r' rpre rpost w cpre cpost h0 h0' hp h1 h2 hw h4 h5 h6 =>
      refine ⟨?_, pend, by simpa [readerOf, List.filterMap_cons] using hrr.snoc hp, .inl ⟨(notDone h5).1, fun rem => ?_⟩⟩
      · have := sync_change (v' := .exited) (w' := .exited) sync h1 h5 h6 rfl
        simp only [h2]
        exact this
      · obtain ⟨als, a1, a2, a3⟩ := (notDone h5).2 rem
        have e : CountingReader.abs { y.counting with workers := cpre ++ .exited :: cpost } rem = CountingReader.abs y.counting rem := by
          simp [CountingReader.abs, h5, back]
        refine ⟨als, ?_, by simpa [isCount] using a2, by simpa using a3⟩
        rw [e]
        simpa only [h4] using a1
    | @count l c' h0' hc hin =>
      rcases hcnt with ⟨hnd, hrun⟩ | ⟨⟨d, hd⟩, _, _⟩
      · refine ⟨?_, ?_, by simpa [readerOf, List.filterMap_cons] using hrr, .inl ⟨hin.2.2, fun rem => ?_⟩⟩
        · rw [gone_step hc hin]; exact sync
        · rw [hin.1]; exact pend
        · obtain ⟨als, a1, a2, a3⟩ := hrun rem
          refine ⟨als ++ [l], a1.snoc (abs_step hc hin rem), ?_, ?_⟩
          · simp [isCount]; omega
          · cases l <;> simp [a3]
      · exact absurd (done_step hc hd) (hin.2.2 d)
    | join h0 h0' hm hall =>
      obtain ⟨hnd, hrun⟩ : (∀ d, y.counting.main ≠ .done d) ∧ ∀ rem, ∃ als,
          Run (Streaming.Step K.params) (Streaming.init K.params (y.reader.delivered.map K.tag ++ rem)) als (CountingReader.abs y.counting rem) ∧
          ls.countP isCount ≤ als.length ∧ als.count .spurious = ls.count (.count .spurious) := by
        rcases hcnt with hc | ⟨⟨d, hd⟩, _⟩
        · exact hc
        · rw [hm] at hd; cases hd
      obtain ⟨als, a1, a2, a3⟩ := hrun []
      have hgone : ∀ w ∈ y.counting.workers, w = .exited := by
        intro w hw
        rw [← goneC_iff]
        have h1 : goneC w ∈ y.reader.workers.map goneR := by rw [← sync]; exact List.mem_map_of_mem hw
        obtain ⟨v, hv, e⟩ := List.mem_map.1 h1
        rw [← e, goneR_iff]
        exact hall v hv
      have hrep : y.counting.workers = List.replicate y.counting.workers.length .exited :=
        List.eq_replicate_iff.2 ⟨rfl, hgone⟩
      have hidle : ∀ w ∈ (CountingReader.abs y.counting []).workers, w = .idle := by
        intro w hw
        obtain ⟨v, hv, rfl⟩ := List.mem_map.1 hw
        rw [hgone v hv]
        rfl
      have hex := exits (P := K.params) (CountingReader.abs y.counting []) h0 rfl [] (CountingReader.abs y.counting []).workers rfl hidle
      have hstate : { CountingReader.abs y.counting [] with workers := [] ++ List.replicate (CountingReader.abs y.counting []).workers.length .exited } =
          y.counting := by
        have e1 : (CountingReader.abs y.counting []).workers.length = y.counting.workers.length := by simp [CountingReader.abs]
        rw [e1, List.nil_append, ← hrep]
        simp [CountingReader.abs, ← pend]
      rw [hstate] at hex
      have hfin := (a1.trans hex).snoc (Streaming.Step.mainDone (P := K.params) (s := y.counting) h0 hm hgone)
      rw [List.append_nil] at hfin
      refine ⟨sync, pend, by simpa [readerOf, List.filterMap_cons] using hrr, .inr ⟨⟨_, rfl⟩, hgone, _, hfin, ?_, ?_⟩⟩
      · simp [isCount]; omega
      · simp [a3, List.count_replicate]

/-! ### Exactly once -/

private theorem untag (K : Call D Θ) (l : List (Block D)) : (l.map K.tag).filterMap (fun b => K.decode b.id) = l := by
  rw [List.filterMap_map]
  have : (fun b : Block D => K.decode (K.tag b).id) = some := by
    funext b
    exact K.decode_code b
  simp [this]

private theorem tagged {K : Call D Θ} {l : List Blk} {bs : List (Block D)} (h : l.Subperm (bs.map K.tag)) :
    ∃ S : List (Block D), l = S.map K.tag := by
  have hsub : ∀ b ∈ l, ∃ c, K.tag c = b := by
    intro b hb
    obtain ⟨c, _, hc⟩ := List.mem_map.1 (h.subset hb)
    exact ⟨c, hc⟩
  clear h
  induction l with
  | nil => exact ⟨[], rfl⟩
  | cons b l ih =>
    obtain ⟨c, rfl⟩ := hsub b (by simp)
    obtain ⟨S, rfl⟩ := ih fun b hb => hsub b (by simp [hb])
    exact ⟨c :: S, rfl⟩

/-- The frames given to the counting: of every frame number with four records exactly one, with these records, and no others. -/
structure Frames (files : List (Entry D)) (all : List (Block D)) : Prop where
  once : (all.map fun b => b.key).Nodup
  iff : ∀ k, (∃ b ∈ all, b.key = k) ↔ (recordsOf files k).length = 4
  items : ∀ b ∈ all, b.items.Perm (recordsOf files b.key)
  head : ∀ b ∈ all, ∃ i ∈ recordsOf files b.key, i.2 = b.head

theorem frames_of {files : List (Entry D)} (h4 : ∀ k, (recordsOf files k).length ≤ 4) {n : Nat} (hn : 0 < n)
    {s : ThreadedReader.State D} (h : Reach ThreadedReader.Step (ThreadedReader.init n files) s) (hall : ∀ w ∈ s.workers, w = .exited) :
    Frames files s.delivered := by
  obtain ⟨_, h2, h3, h5⟩ := C27_exactly_once files h4 h
  refine ⟨h2, fun k => ?_, fun b hb => (h3 b hb).2.1, fun b hb => (h3 b hb).2.2⟩
  have := h5 hn hall k
  constructor
  · rintro ⟨b, hb, rfl⟩
    have hpos : 0 < s.delivered.countP fun c => c.key = b.key := List.countP_pos_iff.2 ⟨b, hb, by simp⟩
    by_contra hne
    rw [if_neg hne] at this
    omega
  · intro hk
    rw [if_pos hk] at this
    obtain ⟨b, hb, e⟩ := List.countP_pos_iff.1 (show 0 < s.delivered.countP fun c => c.key = k by omega)
    exact ⟨b, hb, by simpa using e⟩

/-- **C113** When the call returns, every frame with four records was counted with the thresholds of the samples and stored exactly once at its position, and
nothing else was. For all files with at most four records per frame number, all numbers of threads and all schedules of reader and
counting together. In the code the call does not return (`C113_false`); this is for the program with the flag. -/
theorem C113_exactly_once (K : Call D Θ) (hn : 0 < K.threads) (files : List (Entry D)) (h4 : ∀ k, (recordsOf files k).length ≤ 4)
    {x : State D Θ} (h : Reach (Step K) (init K files) x) {data : List (List (List Nat))} (hd : x.counting.main = .done data) :
    ∃ all, Frames files all ∧ (∀ b ∈ all, b.head.pos < K.positions) ∧ data.length = K.positions ∧
      ∃ S : List (Block D), S.length = K.numBlocks ∧ S.Subperm all ∧
        ∃ m, ∀ p, p < K.positions → ∃ stored : List (List Nat),
          stored.Perm ((all.filter fun b => b.head.pos = p).map (K.count (K.threshold S))) ∧ stored.length ≤ m ∧
          data[p]? = some (stored ++ List.replicate (m - stored.length) []) := by
  obtain ⟨ls, h⟩ := h
  obtain ⟨sync, _, hrr, hc⟩ := sim h
  rcases hc with ⟨hnd, _⟩ | ⟨_, hall, als, hrun, _⟩
  · exact absurd hd (hnd data)
  have hex : ∀ w ∈ x.reader.workers, w = .exited := by
    intro w hw
    rw [← goneR_iff]
    have h1 : goneR w ∈ x.counting.workers.map goneC := by rw [sync]; exact List.mem_map_of_mem hw
    obtain ⟨v, hv, e⟩ := List.mem_map.1 h1
    rw [← e, goneC_iff]
    exact hall v hv
  obtain ⟨S', h1, h2, h3, h5, h6, m, h7⟩ := C16_exactly_once (P := K.params) hn ⟨als, hrun⟩ hd
  obtain ⟨S, rfl⟩ := tagged h3
  refine ⟨x.reader.delivered, frames_of h4 hn ⟨_, hrr⟩ hex, fun b hb => h5 (K.tag b) (List.mem_map_of_mem hb), h6, S, by simpa [Call.params] using h1, ?_, m, ?_⟩
  · obtain ⟨l, hl, hs⟩ := h3
    have := hs.filterMap fun b => K.decode b.id
    rw [untag] at this
    refine ⟨_, ?_, this⟩
    have := hl.filterMap fun b => K.decode b.id
    rwa [untag] at this
  · intro p hp
    obtain ⟨st, g1, g2, g3⟩ := h7 p hp
    refine ⟨st, g1.trans ?_, g2, g3⟩
    rw [List.filter_map, List.map_map]
    have e1 : K.params.threshold (S.map K.tag) = K.threshold S := by
      simp only [Call.params, untag]
    have e2 : (K.params.count (K.params.threshold (S.map K.tag)) ∘ K.tag) = K.count (K.threshold S) := by
      funext b
      rw [e1]
      simp [Call.params, Call.tag, K.decode_code]
    rw [e2]
    exact List.Perm.refl _

/-! ### Without the flag -/

private theorem run_waiting {K : Call D Θ} {files : List (Entry D)} {ls : List Label} {x : State D Θ}
    (h : Run (Step K) (init K files) ls x) (hd : ∀ d, x.counting.main ≠ .done d) :
    Reach (Streaming.Step K.params) (Streaming.init K.params (x.reader.delivered.map K.tag)) (CountingReader.abs x.counting []) := by
  rcases (sim h).counting with ⟨_, hrun⟩ | ⟨⟨d, hd'⟩, _⟩
  · obtain ⟨als, a1, _⟩ := hrun []
    rw [List.append_nil] at a1
    exact ⟨als, a1⟩
  · exact absurd hd' (hd d)

/-- **C113** is false for the code: the vector `complete` is empty, and whatever the files, the call never returns and nothing is stored. -/
theorem C113_false (K : Call D Θ) (hflag : K.flag = none) (hN : 0 < K.numBlocks) (files : List (Entry D))
    {x : State D Θ} (h : Reach (Step K) (init K files) x) :
    (x.counting.main = .start ∨ x.counting.main = .asleep ∨ x.counting.main = .awake) ∧ x.counting.samples = [] ∧
      x.counting.incomplete = [] ∧ x.counting.counted = [] := by
  obtain ⟨ls, h⟩ := h
  have hz : ∀ bs : List (Block D), numComplete (bs.map K.tag) < K.params.numBlocks := by
    intro bs
    have : numComplete (bs.map K.tag) = 0 := by
      rw [numComplete, List.countP_eq_zero]
      intro b hb
      obtain ⟨c, _, rfl⟩ := List.mem_map.1 hb
      simp [Call.tag, hflag]
    rw [this]
    exact hN
  have hmain : x.counting.main = .start ∨ x.counting.main = .asleep ∨ x.counting.main = .awake := by
    rcases (sim h).counting with ⟨_, hrun⟩ | ⟨_, _, als, hrun, _⟩
    · obtain ⟨als, a1, _⟩ := hrun []
      rw [List.append_nil] at a1
      exact C18_hang (s := CountingReader.abs x.counting []) ⟨_, a1⟩ (hz _)
    · exact C18_hang ⟨_, hrun⟩ (hz _)
  have hd : ∀ d, x.counting.main ≠ .done d := by
    intro d hd
    rw [hd] at hmain
    simp at hmain
  obtain ⟨hA, _⟩ := Streaming.invAB (run_waiting h hd)
  have hcf : (CountingReader.abs x.counting []).counting = false := by
    rw [hA.flag]
    rcases hmain with e | e | e <;> simp [CountingReader.abs, e, Streaming.early]
  have hmem : ∀ b ∈ x.counting.samples ++ x.counting.incomplete, b.complete = none := by
    intro b hb
    have hc := hA.cons b
    have ho : Streaming.owed (CountingReader.abs x.counting []).samples (CountingReader.abs x.counting []).incomplete
        (CountingReader.abs x.counting []).main = x.counting.samples ++ x.counting.incomplete := by
      rcases hmain with e | e | e <;> simp [CountingReader.abs, e, Streaming.owed]
    rw [ho] at hc
    have : 0 < (x.counting.samples ++ x.counting.incomplete).count b := List.count_pos_iff.2 hb
    have : b ∈ x.reader.delivered.map K.tag := List.count_pos_iff.1 (by omega)
    obtain ⟨c, _, rfl⟩ := List.mem_map.1 this
    exact hflag
  refine ⟨hmain, ?_, ?_, (hA.quiet hcf).1⟩
  · rw [List.eq_nil_iff_forall_not_mem]
    intro b hb
    have h1 := hA.smp b hb
    rw [hmem b (by simp [hb])] at h1
    cases h1
  · rw [List.eq_nil_iff_forall_not_mem]
    intro b hb
    have h1 := hA.inc b hb
    rw [hmem b (by simp [hb])] at h1
    cases h1

/-! ### Progress and termination -/

/-- Steps other than busy waiting of the reader and spurious wake-ups. -/
def working : Label → Bool
  | .reader .work => true
  | .count .internal => true
  | _ => false

private theorem shape {s t : ThreadedReader.State D} {l : ThreadedReader.Label} (h : ThreadedReader.Step s l t) (hub : t.ub = false) :
    ∃ pre w post w', s.workers = pre ++ w :: post ∧ t.workers = pre ++ w' :: post ∧ w ≠ .exited ∧
      ((w' ≠ .exited ∧ t.delivered = s.delivered) ∨ (l = .work ∧ w' ≠ .exited ∧ ∃ b, t.delivered = s.delivered ++ [b]) ∨
        (l = .work ∧ w' = .exited ∧ t.delivered = s.delivered)) := by
  cases h with
  | exit hw _ => exact ⟨_, _, _, _, hw, rfl, by simp, .inr (.inr ⟨rfl, rfl, rfl⟩)⟩
  | deliver hw => exact ⟨_, _, _, _, hw, rfl, by simp, .inr (.inl ⟨rfl, by simp, _, rfl⟩)⟩
  | test hw _ => exact ⟨_, _, _, _, hw, rfl, by simp, .inl ⟨by simp, rfl⟩⟩
  | miss hw _ => exact ⟨_, _, _, _, hw, rfl, by simp, .inl ⟨by simp, rfl⟩⟩
  | takeEnd hw _ => exact ⟨_, _, _, _, hw, rfl, by simp, .inl ⟨by simp, rfl⟩⟩
  | take hw _ => exact ⟨_, _, _, _, hw, rfl, by simp, .inl ⟨by simp, rfl⟩⟩
  | close hw => exact ⟨_, _, _, _, hw, rfl, by simp, .inl ⟨by simp, rfl⟩⟩
  | lookup hw => exact ⟨_, _, _, _, hw, rfl, by simp, .inl ⟨by simp, rfl⟩⟩
  | checkNull hw _ _ => exact ⟨_, _, _, _, hw, rfl, by simp, .inl ⟨by simp, rfl⟩⟩
  | checkData hw _ _ => exact ⟨_, _, _, _, hw, rfl, by simp, .inl ⟨by simp, rfl⟩⟩
  | allocate hw _ => exact ⟨_, _, _, _, hw, rfl, by simp, .inl ⟨by simp, rfl⟩⟩
  | write hw _ _ => exact ⟨_, _, _, _, hw, rfl, by simp, .inl ⟨by simp, rfl⟩⟩
  | count hw _ _ => exact ⟨_, _, _, _, hw, rfl, by simp, .inl ⟨by simp, rfl⟩⟩
  | countFour hw _ _ => exact ⟨_, _, _, _, hw, rfl, by simp, .inl ⟨by simp, rfl⟩⟩
  | finish hw _ _ => exact ⟨_, _, _, _, hw, rfl, by simp, .inl ⟨by simp, rfl⟩⟩
  | giveback hw => exact ⟨_, _, _, _, hw, rfl, by simp, .inl ⟨by simp, rfl⟩⟩
  | givebackBlock hw => exact ⟨_, _, _, _, hw, rfl, by simp, .inl ⟨by simp, rfl⟩⟩
  | bad _ _ _ => cases hub
  | badNull _ _ _ _ => cases hub

/-- A step of the reader is a step, if the worker is not in the counting. Busy waiting does not touch the counting. -/
private theorem reader_step {K : Call D Θ} {x : State D Θ} {l : ThreadedReader.Label} {r' : ThreadedReader.State D}
    (hub : x.counting.ub = false) (hub' : x.reader.ub = false) (h : ThreadedReader.Step x.reader l r') (hr' : r'.ub = false)
    (sync : x.counting.workers.map goneC = x.reader.workers.map goneR) (hw : ∀ w ∈ x.counting.workers, w = .idle ∨ w = .exited) :
    ∃ x', Step K x (.reader l) x' ∧ x'.reader = r' ∧ (l = .spin → x'.counting = x.counting) := by
  obtain ⟨pre, w, post, w', h1, h2, h3, h4⟩ := shape h hr'
  have sync' := sync
  rw [h1, List.map_append, List.map_cons] at sync'
  obtain ⟨cpre, c2, e, ec, e2⟩ := List.map_eq_append_iff.1 sync'
  obtain ⟨v, cpost, rfl, ev, _⟩ := List.map_eq_cons_iff.1 e2
  have hlen : cpre.length = pre.length := by simpa using congrArg List.length ec
  have hv : v = .idle := by
    rcases hw v (by simp [e]) with hv | rfl
    · exact hv
    · exfalso
      apply h3
      rw [← goneR_iff, ← ev]
      rfl
  subst hv
  rcases h4 with ⟨h4, h5⟩ | ⟨rfl, h4, b, h5⟩ | ⟨rfl, rfl, h5⟩
  · exact ⟨_, .read hub hub' h h1 h2 h3 h4 h5 e hlen, rfl, fun _ => rfl⟩
  · exact ⟨_, .deliver hub hub' h h1 h2 h3 h4 h5 e hlen, rfl, by simp⟩
  · exact ⟨_, .finish hub hub' h h1 h2 h3 h5 e hlen, rfl, by simp⟩

/-- There is a step that does work, possibly after one test of the loop condition of the reader. -/
def CanWork (K : Call D Θ) (x : State D Θ) : Prop :=
  (∃ l y, Step K x l y ∧ working l = true) ∨ ∃ y l z, Step K x (.reader .spin) y ∧ Step K y l z ∧ working l = true

private theorem go_on (K : Call D Θ) (hn : 0 < K.threads) (files : List (Entry D)) (h4 : ∀ k, (recordsOf files k).length ≤ 4)
    {x : State D Θ} (h : Reach (Step K) (init K files) x) (hub : x.counting.ub = false) (hd : ∀ data, x.counting.main ≠ .done data) :
    CanWork K x ∨ (Frames files x.reader.delivered ∧ x.counting.samples.length < K.numBlocks ∧
      (x.counting.samples ++ x.counting.incomplete).Perm (x.reader.delivered.map K.tag)) := by
  obtain ⟨ls, h⟩ := h
  obtain ⟨sync, pend, hrr, hc⟩ := sim h
  have hrun := run_waiting h hd
  have hub' := (C27_exactly_once files h4 ⟨_, hrr⟩).1
  obtain ⟨hA, hB⟩ := Streaming.invAB hrun
  by_cases hex : ∃ c', Streaming.Step K.params x.counting .internal c' ∧ Inside x.counting c'
  · obtain ⟨c', hs, hin⟩ := hex
    exact .inl (.inl ⟨_, _, .count hub' hs hin, rfl⟩)
  have hst := CountingReader.stuck hA hB hub hd fun c' hs hin => hex ⟨c', hs, hin⟩
  by_cases hall : ∀ w ∈ x.reader.workers, w = .exited
  · rcases hst.2 with hm | ⟨hm, hlt⟩
    · exact .inl (.inl ⟨_, _, .join hub hub' hm hall, rfl⟩)
    · refine .inr ⟨frames_of h4 hn ⟨_, hrr⟩ hall, hlt, ?_⟩
      have hheld : (CountingReader.abs x.counting []).workers.filterMap Streaming.blkOf = [] := by
        rw [List.filterMap_eq_nil_iff]
        intro w hw
        obtain ⟨v, hv, rfl⟩ := List.mem_map.1 hw
        rcases hst.1 v hv with rfl | rfl <;> rfl
      have hcf : (CountingReader.abs x.counting []).counting = false := by rw [hA.flag]; simp [CountingReader.abs, hm, Streaming.early]
      have hcnt := (hA.quiet hcf).1
      rw [List.perm_iff_count]
      intro b
      have := hA.cons b
      rw [hheld, hcnt] at this
      simpa [CountingReader.abs, hm, Streaming.owed] using this
  · have hne : ∃ w ∈ x.reader.workers, w ≠ .exited := by simpa using hall
    have safe : ∀ {ls t l u}, Run ThreadedReader.Step (ThreadedReader.init K.threads files) ls t → ThreadedReader.Step t l u → u.ub = false :=
      fun hr hs => (C27_exactly_once files h4 ⟨_, hr.snoc hs⟩).1
    rcases C27_progress files h4 ⟨_, hrr⟩ hne with ⟨t, ht⟩ | ⟨t, u, ht, hu⟩
    · obtain ⟨x', hx', _⟩ := reader_step (K := K) hub hub' ht (safe hrr ht) sync hst.1
      exact .inl (.inl ⟨_, x', hx', rfl⟩)
    · obtain ⟨x', hx', e1, e2⟩ := reader_step (K := K) hub hub' ht (safe hrr ht) sync hst.1
      have e2 := e2 rfl
      subst e1
      have sync' := (sim (h.snoc hx')).sync
      obtain ⟨x2, hx2, _⟩ := reader_step (K := K) (x := x') (by rw [e2]; exact hub) (safe hrr ht) hu (safe (hrr.snoc ht) hu) sync'
        (by rw [e2]; exact hst.1)
      exact .inl (.inr ⟨x', _, x2, hx', hx2, rfl⟩)

/-- **C113** With the flag: no deadlock, if there are `numBlocks` frames with all records. -/
theorem C113_progress (K : Call D Θ) (hflag : K.flag = some true) (hn : 0 < K.threads) (files : List (Entry D))
    (h4 : ∀ k, (recordsOf files k).length ≤ 4) (hC : ∃ ks : List Nat, ks.Nodup ∧ K.numBlocks ≤ ks.length ∧ ∀ k ∈ ks, (recordsOf files k).length = 4)
    {x : State D Θ} (h : Reach (Step K) (init K files) x) (hub : x.counting.ub = false) (hd : ∀ data, x.counting.main ≠ .done data) :
    CanWork K x := by
  rcases go_on K hn files h4 h hub hd with hw | ⟨F, hlt, hp⟩
  · exact hw
  exfalso
  obtain ⟨ls, h⟩ := h
  obtain ⟨hA, _⟩ := Streaming.invAB (run_waiting h hd)
  have hinc : x.counting.incomplete = [] := by
    rw [List.eq_nil_iff_forall_not_mem]
    intro b hb
    have h1 := hA.inc b hb
    obtain ⟨c, _, rfl⟩ := List.mem_map.1 (hp.mem_iff.1 (List.mem_append_right _ hb))
    simp [Call.tag, hflag] at h1
  have hlen := hp.length_eq
  rw [hinc, List.append_nil, List.length_map] at hlen
  obtain ⟨ks, k1, k2, k3⟩ := hC
  have hsub : ks.Subperm (x.reader.delivered.map fun b => b.key) := by
    refine List.subperm_of_subset k1 ?_
    intro k hk
    obtain ⟨b, hb, e⟩ := (F.iff k).2 (k3 k hk)
    exact List.mem_map.2 ⟨b, hb, e⟩
  have := hsub.length_le
  rw [List.length_map] at this
  omega

/-- **C113** In the code: as long as nothing undefined has happened, some thread goes on, if there is a frame with all records. -/
theorem C113_goes_on (K : Call D Θ) (hflag : K.flag = none) (hN : 0 < K.numBlocks) (hn : 0 < K.threads) (files : List (Entry D))
    (h4 : ∀ k, (recordsOf files k).length ≤ 4) (hC : ∃ k, (recordsOf files k).length = 4)
    {x : State D Θ} (h : Reach (Step K) (init K files) x) (hub : x.counting.ub = false) : CanWork K x := by
  obtain ⟨hm, hs, hi, _⟩ := C113_false K hflag hN files h
  have hd : ∀ data, x.counting.main ≠ .done data := by
    intro d hd
    rw [hd] at hm
    simp at hm
  rcases go_on K hn files h4 h hub hd with hw | ⟨F, _, hp⟩
  · exact hw
  exfalso
  rw [hs, hi, List.append_nil] at hp
  obtain ⟨k, hk⟩ := hC
  obtain ⟨b, hb, _⟩ := (F.iff k).2 hk
  have := hp.symm.mem_iff.1 (List.mem_map_of_mem (f := K.tag) hb)
  cases this

private theorem gain_sum (als : List Streaming.Label) : (als.map streamGain).sum = 2 * als.count .spurious := by
  induction als with
  | nil => rfl
  | cons l als ih =>
    cases l <;> simp [streamGain, ih]
    omega

/-- **C113** Termination: the number of steps which are no busy waiting is bounded, with and without the flag. -/
theorem C113_termination (K : Call D Θ) (files : List (Entry D)) (h4 : ∀ k, (recordsOf files k).length ≤ 4)
    {x : State D Θ} {ls : List Label} (h : Run (Step K) (init K files) ls x) :
    ls.countP working ≤ (K.threads + 31) * (sectorRecords files).length + 3 * files.length + 3 * K.threads + 21 +
      2 * ls.count (.count .spurious) := by
  obtain ⟨_, _, hrr, hc⟩ := sim h
  have h1 := C27_termination files h4 hrr
  have hdel : x.reader.delivered.length ≤ (sectorRecords files).length := by
    obtain ⟨_, hnd, hit, _⟩ := C27_exactly_once files h4 ⟨_, hrr⟩
    have hsub : (x.reader.delivered.map fun b => b.key).Subperm ((sectorRecords files).map fun i => i.2.frameNumber) := by
      refine List.subperm_of_subset hnd ?_
      intro k hk
      obtain ⟨b, hb, rfl⟩ := List.mem_map.1 hk
      obtain ⟨_, _, i, hi, _⟩ := hit b hb
      obtain ⟨g1, g2⟩ := List.mem_filter.1 hi
      exact List.mem_map.2 ⟨i, g1, by simpa using g2⟩
    simpa using hsub.length_le
  have h2 : ls.countP isCount ≤ (K.threads + 21) * x.reader.delivered.length + 2 * K.threads + 21 + 2 * ls.count (.count .spurious) := by
    have key : ∀ {als s}, Run (Streaming.Step K.params) (Streaming.init K.params (x.reader.delivered.map K.tag)) als s →
        ls.countP isCount ≤ als.length → als.count .spurious = ls.count (.count .spurious) →
        ls.countP isCount ≤ (K.threads + 21) * x.reader.delivered.length + 2 * K.threads + 21 + 2 * ls.count (.count .spurious) := by
      intro als s hr g1 g2
      have := C18_termination hr
      rw [gain_sum, g2, List.length_map] at this
      have e : K.params.threads = K.threads := rfl
      rw [e] at this
      omega
    rcases hc with ⟨_, hrun⟩ | ⟨_, _, als, hr, g1, g2⟩
    · obtain ⟨als, hr, g1, g2⟩ := hrun []
      rw [List.append_nil] at hr
      exact key hr g1 g2
    · exact key hr g1 g2
  have h3 : ls.countP working ≤ ls.countP isCount + (ls.filterMap readerOf).countP (fun l => l = .work) := by
    clear * -
    induction ls with
    | nil => simp
    | cons l ls ih =>
      rcases l with l | l <;> cases l <;> simp [working, isCount, readerOf, List.filterMap_cons, List.countP_cons] at ih ⊢ <;> omega
  have h5 := Nat.mul_le_mul_left (K.threads + 21) hdel
  have h6 : (K.threads + 31) * (sectorRecords files).length = (K.threads + 21) * (sectorRecords files).length + 10 * (sectorRecords files).length := by
    rw [← Nat.add_mul]
  omega

/-- **C113** In the code every execution that cannot go on has read `complete[0]` of an empty vector, if there is a frame with all records. -/
theorem C113_certain (K : Call D Θ) (hflag : K.flag = none) (hN : 0 < K.numBlocks) (hn : 0 < K.threads) (files : List (Entry D))
    (h4 : ∀ k, (recordsOf files k).length ≤ 4) (hC : ∃ k, (recordsOf files k).length = 4)
    {x : State D Θ} (h : Reach (Step K) (init K files) x) (hend : ¬ CanWork K x) : x.counting.ub = true := by
  by_contra hub
  exact hend (C113_goes_on K hflag hN hn files h4 hC h (by simpa using hub))

/-- Working steps, each after at most one test of the reader's loop. -/
private theorem exists_end {K : Call D Θ} {files : List (Entry D)} (h4 : ∀ k, (recordsOf files k).length ≤ 4) :
    ∃ x, Reach (Step K) (init K files) x ∧ ¬ CanWork K x := by
  let st : State D Θ → Unit → State D Θ → Prop := fun x _ z =>
    (∃ l, Step K x l z ∧ working l = true) ∨ ∃ y l, Step K x (.reader .spin) y ∧ Step K y l z ∧ working l = true
  have weak : ∀ {us z}, Run st (init K files) us z → ∃ ls, Run (Step K) (init K files) ls z ∧ us.length = ls.countP working ∧
      ls.count (.count .spurious) = 0 := by
    intro us z h
    induction h with
    | nil => exact ⟨[], .nil _, rfl, rfl⟩
    | snoc _ h2 ih =>
      obtain ⟨ls, i1, i2, i3⟩ := ih
      have hno : ∀ {l}, working l = true → l ≠ .count .spurious := by
        intro l hl e
        subst e
        cases hl
      rcases h2 with ⟨l, g1, g2⟩ | ⟨y, l, g0, g1, g2⟩
      · exact ⟨_, i1.snoc g1, by simp [i2, g2], by simp [i3, hno g2]⟩
      · exact ⟨_, (i1.snoc g0).snoc g1, by simp [i2, g2, show working (.reader .spin) = false from rfl], by simp [i3, hno g2]⟩
  obtain ⟨t, ⟨us, ht⟩, hd⟩ := Reach.exists_final (st := st) (s := init K files) (final := fun x => ¬ CanWork K x)
    (n := (K.threads + 31) * (sectorRecords files).length + 3 * files.length + 3 * K.threads + 21)
    (by
      rintro t - hf
      rcases not_not.1 hf with ⟨l, y, g1, g2⟩ | ⟨y, l, z, g0, g1, g2⟩
      · exact ⟨(), y, .inl ⟨l, g1, g2⟩⟩
      · exact ⟨(), z, .inr ⟨y, l, g0, g1, g2⟩⟩)
    (by
      intro us t ht
      obtain ⟨ls, g1, g2, g3⟩ := weak ht
      have := C113_termination K files h4 g1
      omega)
  obtain ⟨ls, g1, _⟩ := weak ht
  exact ⟨t, ⟨ls, g1⟩, hd⟩

/-- **C113** So there is an execution with undefined behaviour, for every number of threads. -/
theorem C113_undefined (K : Call D Θ) (hflag : K.flag = none) (hN : 0 < K.numBlocks) (hn : 0 < K.threads) (files : List (Entry D))
    (h4 : ∀ k, (recordsOf files k).length ≤ 4) (hC : ∃ k, (recordsOf files k).length = 4) :
    ∃ x, Reach (Step K) (init K files) x ∧ x.counting.ub = true := by
  obtain ⟨x, h1, h2⟩ := exists_end (K := K) h4
  exact ⟨x, h1, C113_certain K hflag hN hn files h4 hC h1 h2⟩

/-! ### With the flag -/

/-- **C113** With the flag and at most one frame at a position nothing undefined happens.
Missing for the full statement: the flag (`C113_undefined`), and several frames at a position; with these the counting races for some order of
the frames (`C19_iff`), which is not carried over to the order of this reader here. -/
theorem C113_race_free_partial (K : Call D Θ) (hflag : K.flag = some true) (hN : 0 < K.numBlocks) (files : List (Entry D))
    (h4 : ∀ k, (recordsOf files k).length ≤ 4)
    (hone : ∀ i ∈ sectorRecords files, ∀ j ∈ sectorRecords files, i.2.pos = j.2.pos → i.2.frameNumber = j.2.frameNumber)
    (hpos : ∀ i ∈ sectorRecords files, i.2.pos < K.positions)
    {x : State D Θ} (h : Reach (Step K) (init K files) x) : x.counting.ub = false ∧ x.reader.ub = false := by
  obtain ⟨ls, h⟩ := h
  obtain ⟨_, _, hrr, hc⟩ := sim h
  obtain ⟨hub', hnd, hit, _⟩ := C27_exactly_once files h4 ⟨_, hrr⟩
  refine ⟨?_, hub'⟩
  have hrec : ∀ b ∈ x.reader.delivered, ∃ i ∈ sectorRecords files, i.2 = b.head ∧ i.2.frameNumber = b.key := by
    intro b hb
    obtain ⟨_, _, i, hi, e⟩ := hit b hb
    obtain ⟨g1, g2⟩ := List.mem_filter.1 hi
    exact ⟨i, g1, e, by simpa using g2⟩
  have hnd' : ((x.reader.delivered.map K.tag).map Streaming.Blk.pos).Nodup := by
    rw [List.map_map]
    refine List.Nodup.map_on ?_ (List.Nodup.of_map _ hnd)
    intro b hb c hc e
    have e : b.head.pos = c.head.pos := e
    obtain ⟨i, i1, i2, i3⟩ := hrec b hb
    obtain ⟨j, j1, j2, j3⟩ := hrec c hc
    refine List.inj_on_of_nodup_map hnd hb hc ?_
    rw [← i3, ← j3]
    exact hone i i1 j j1 (by rw [i2, j2, e])
  have hp : ∀ b ∈ x.reader.delivered.map K.tag, b.pos < K.params.positions := by
    intro b hb
    obtain ⟨c, hc, rfl⟩ := List.mem_map.1 hb
    obtain ⟨i, i1, i2, _⟩ := hrec c hc
    have := hpos i i1
    rwa [i2] at this
  have hf : ∀ b ∈ x.reader.delivered.map K.tag, b.complete ≠ none := by
    intro b hb
    obtain ⟨c, _, rfl⟩ := List.mem_map.1 hb
    simp [Call.tag, hflag]
  rcases hc with ⟨_, hrun⟩ | ⟨_, _, als, hr, _⟩
  · obtain ⟨als, hr, _⟩ := hrun []
    rw [List.append_nil] at hr
    exact C19_race_free_partial (s := CountingReader.abs x.counting []) ⟨_, hr⟩ hnd' hp hf hN
  · exact C19_race_free_partial ⟨_, hr⟩ hnd' hp hf hN

/-- **C113** So then there is an execution to the end. -/
theorem C113_exists (K : Call D Θ) (hflag : K.flag = some true) (hN : 0 < K.numBlocks) (hn : 0 < K.threads) (files : List (Entry D))
    (h4 : ∀ k, (recordsOf files k).length ≤ 4)
    (hone : ∀ i ∈ sectorRecords files, ∀ j ∈ sectorRecords files, i.2.pos = j.2.pos → i.2.frameNumber = j.2.frameNumber)
    (hpos : ∀ i ∈ sectorRecords files, i.2.pos < K.positions)
    (hC : ∃ ks : List Nat, ks.Nodup ∧ K.numBlocks ≤ ks.length ∧ ∀ k ∈ ks, (recordsOf files k).length = 4) :
    ∃ x data, Reach (Step K) (init K files) x ∧ x.counting.main = .done data := by
  obtain ⟨x, h1, h2⟩ := exists_end (K := K) h4
  by_contra hno
  push Not at hno
  exact h2 (C113_progress K hflag hn files h4 hC h1 (C113_race_free_partial K hflag hN files h4 hone hpos h1).1 fun d => hno x d h1)

/-! ### Examples -/

private def recCode (r : SectorReader.Rec Nat) : Nat × Nat × Nat × Nat × Nat × Nat × Nat :=
  (r.scanNumber, r.frameNumber, r.width, r.height, r.x, r.y, r.data)

private def recDecode (c : Nat × Nat × Nat × Nat × Nat × Nat × Nat) : SectorReader.Rec Nat :=
  ⟨c.1, c.2.1, c.2.2.1, c.2.2.2.1, c.2.2.2.2.1, c.2.2.2.2.2.1, c.2.2.2.2.2.2⟩

private instance : Encodable (SectorReader.Rec Nat) := Encodable.ofEquiv _ ⟨recCode, recDecode, fun _ => rfl, fun _ => rfl⟩

/-- Three threads, one sample block, a scan of 2 × 1 positions. -/
def exampleCall (flag : Option Bool) : Call Nat Nat where
  threads := 3
  numBlocks := 1
  positions := 2
  flag := flag
  threshold := fun l => (l.map fun b => (b.items.map Prod.fst).sum).sum
  count := fun θ b => (b.items.map fun i => i.2.data).filter fun d => θ < d
  code := fun b => Encodable.encode (b.key, b.head, b.items)
  decode := fun n => (Encodable.decode (α := Nat × SectorReader.Rec Nat × List (Nat × SectorReader.Rec Nat)) n).map fun x => ⟨x.1, x.2.1, x.2.2⟩
  decode_code := by intro b; simp [Encodable.encodek]

private theorem fourFiles_le (k : Nat) : (recordsOf fourFiles k).length ≤ 4 := by
  simp only [recordsOf, sectorRecords, fourFiles, List.flatMap_cons, List.flatMap_nil, List.map_cons, List.map_nil,
    List.cons_append, List.nil_append, List.append_nil]
  by_cases h1 : k = 1
  · subst h1; decide
  · by_cases h2 : k = 2
    · subst h2; decide
    · have e1 : ¬ 1 = k := fun h => h1 h.symm
      have e2 : ¬ 2 = k := fun h => h2 h.symm
      simp [e1, e2]

/-- The code with the files `fourFiles` of two complete frames: an execution with undefined behaviour, and none that returns. -/
example : (∃ x, Reach (Step (exampleCall none)) (init (exampleCall none) fourFiles) x ∧ x.counting.ub = true) ∧
    ∀ x, Reach (Step (exampleCall none)) (init (exampleCall none) fourFiles) x → ∀ d, x.counting.main ≠ .done d := by
  refine ⟨C113_undefined _ rfl (by decide) (by decide) fourFiles fourFiles_le ⟨1, by decide⟩, fun x hx d hd => ?_⟩
  have := (C113_false _ rfl (by decide) fourFiles hx).1
  simp [hd] at this

/-- With the flag there is an execution to the end, and the result has two positions. -/
example : ∃ x data, Reach (Step (exampleCall (some true))) (init (exampleCall (some true)) fourFiles) x ∧ x.counting.main = .done data ∧
    data.length = 2 := by
  obtain ⟨x, data, h1, h2⟩ := C113_exists (exampleCall (some true)) rfl (by decide) (by decide) fourFiles fourFiles_le (by decide) (by decide)
    ⟨[2, 1], by decide, by decide, by decide⟩
  obtain ⟨_, _, _, h3, _⟩ := C113_exactly_once (exampleCall (some true)) (by decide) fourFiles fourFiles_le h1 h2
  exact ⟨x, data, h1, h2, h3⟩

end Stempy.Props.ThreadedCounting
