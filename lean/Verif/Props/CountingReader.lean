import Verif.Lemmas.CountingReader
import Verif.Props.Streaming
import Verif.Props.MultiPass
import Mathlib.Logic.Equiv.List

/-!
C82: streaming electron counting with the code of the multi-pass reader.
-/

namespace Stempy.Props
open Stempy.Spec Stempy.CountingReader
open Stempy.MultiPass (PState PWorker PStep pinit ScanMap File Block processFrame frames HState HStep hinit)

variable {D Θ : Type}

/-! ### The blocks of the reader -/

private theorem blocks_keys (files : List (File D)) (map : ScanMap) (lo hi : Nat) :
    (CountingReader.blocks files map lo hi).map (fun b => (b.pos, b.frame)) = frames map lo hi := by
  rw [CountingReader.blocks, List.map_map]
  conv_rhs => rw [← List.map_id (frames map lo hi)]
  exact List.map_congr_left fun _ _ => rfl

private theorem mem_frames {map : ScanMap} {lo hi p f : Nat} :
    (p, f) ∈ frames map lo hi ↔ lo ≤ p ∧ p < hi ∧ f ∈ (map p).keys := by
  simp only [frames, List.mem_flatMap, List.mem_range'_1, List.mem_map, Prod.mk.injEq]
  constructor
  · rintro ⟨p', h1, f', h2, rfl, rfl⟩
    exact ⟨h1.1, by omega, h2⟩
  · rintro ⟨h1, h2, h3⟩
    exact ⟨p, by omega, f, h3, rfl, rfl⟩

/-- The blocks of the positions `lo`, ..., `hi - 1`: one for every frame of which there is a record. -/
structure AllBlocks (files : List (File D)) (flo fhi lo hi : Nat) (all : List (Block D)) : Prop where
  once : (all.map fun b => (b.pos, b.frame)).Nodup
  iff : ∀ p f, (∃ b ∈ all, b.pos = p ∧ b.frame = f) ↔
    lo ≤ p ∧ p < hi ∧ ∃ i j r sec, flo ≤ i ∧ i < fhi ∧ IsRecord files i j r p f sec
  ok : ∀ b ∈ all, BlockOk files flo fhi b

theorem allBlocks {files : List (File D)} {flo fhi : Nat} {map : ScanMap} (hidx : IsIndex files flo fhi map)
    (lo hi : Nat) : AllBlocks files flo fhi lo hi (CountingReader.blocks files map lo hi) := by
  refine ⟨?_, ?_, ?_⟩
  · rw [blocks_keys]
    exact frames_nodup hidx.sorted lo hi
  · intro p f
    have e1 : (∃ b ∈ CountingReader.blocks files map lo hi, b.pos = p ∧ b.frame = f) ↔
        (p, f) ∈ (CountingReader.blocks files map lo hi).map fun b => (b.pos, b.frame) := by simp
    rw [e1, blocks_keys, mem_frames, hidx.keys]
  · intro b hb
    obtain ⟨⟨p, f⟩, hpf, rfl⟩ := List.mem_map.1 hb
    obtain ⟨_, _, hk⟩ := mem_frames.1 hpf
    obtain ⟨a, ha⟩ := Option.isSome_iff_exists.1 (SMap.mem_keys.1 hk)
    simp only [ha, Option.getD_some]
    exact blockOk hidx ha

private theorem untag (K : Call D Θ) (l : List (Block D)) :
    (l.map K.tag).filterMap (fun b => K.decode b.id) = l := by
  rw [List.filterMap_map]
  conv_rhs => rw [← List.filterMap_some (l := l)]
  congr 1
  funext b
  simp [Call.tag, K.decode_code]

private theorem tag_inj (K : Call D Θ) {a b : Block D} (h : K.tag a = K.tag b) : a = b := by
  have h1 : K.code a = K.code b := congrArg Streaming.Blk.id h
  have h2 := K.decode_code a
  rw [h1, K.decode_code] at h2
  exact (Option.some.inj h2).symm

private theorem count_tag (K : Call D Θ) (θ : Θ) (b : Block D) : K.params.count θ (K.tag b) = K.count θ b := by
  simp [Call.params, Call.tag, K.decode_code]

/-- **C82** The state when `electronCount` returns, before padding. -/
theorem C82_stored (K : Call D Θ) (hn : 0 < K.threads) (files : List (File D)) (map : ScanMap) (lo hi : Nat)
    (at_ : Nat → Nat) {x : State D Θ}
    (h : Reach (Step K files map hi) (init K lo at_) x) {data : List (List (List Nat))} (hd : x.counting.main = .done data) :
    (∀ b ∈ CountingReader.blocks files map lo hi, b.pos < K.positions) ∧ data = Streaming.padEvents x.counting.events ∧
      x.counting.events.length = K.positions ∧
      ∃ S : List (Block D), x.counting.samples = S.map K.tag ∧ S.length = K.numBlocks ∧ (∀ b ∈ S, b.complete = true) ∧
        S.Subperm (CountingReader.blocks files map lo hi) ∧
        ∀ p, p < K.positions → ∃ stored : List (List Nat), x.counting.events[p]? = some stored ∧
          stored.Perm (((CountingReader.blocks files map lo hi).filter fun b => b.pos = p).map (K.count (K.threshold S))) := by
  obtain ⟨ls, h⟩ := h
  obtain ⟨_, _, _, rem, als, _, _, _, hc⟩ := sim hn h
  have hrun : Reach (Streaming.Step K.params)
      (Streaming.init K.params ((CountingReader.blocks files map lo hi).map K.tag)) x.counting := by
    rcases hc with ⟨hnd, _⟩ | ⟨_, _, _, hr⟩
    · exact absurd hd (hnd data)
    · exact ⟨_, hr⟩
  obtain ⟨h1, h2, h3, h4, hdata, h5, h6⟩ := C16_stored (P := K.params) hn hrun hd
  obtain ⟨S, hS⟩ : ∃ S : List (Block D), x.counting.samples = S.map K.tag := by
    have hsub : ∀ b ∈ x.counting.samples, ∃ c, K.tag c = b := by
      intro b hb
      obtain ⟨c, _, hc⟩ := List.mem_map.1 (h3.subset hb)
      exact ⟨c, hc⟩
    generalize x.counting.samples = S' at hsub
    clear * - hsub
    induction S' with
    | nil => exact ⟨[], rfl⟩
    | cons b l ih =>
      obtain ⟨c, rfl⟩ := hsub b (by simp)
      obtain ⟨S, rfl⟩ := ih fun b hb => hsub b (by simp [hb])
      exact ⟨c :: S, rfl⟩
  rw [hS] at h1 h2 h3 h6
  refine ⟨fun b hb => h4 (K.tag b) (List.mem_map_of_mem hb), hdata, h5, S, hS, by simpa [Call.params] using h1, ?_, ?_, ?_⟩
  · intro b hb
    have := h2 (K.tag b) (List.mem_map_of_mem hb)
    simpa [Call.tag] using this
  · obtain ⟨l, hl, hs⟩ := h3
    have := hs.filterMap fun b => K.decode b.id
    rw [untag] at this
    refine ⟨_, ?_, this⟩
    have := hl.filterMap fun b => K.decode b.id
    rwa [untag] at this
  · intro p hp
    obtain ⟨st, g1, g2⟩ := h6 p hp
    refine ⟨st, g1, ?_⟩
    refine g2.trans ?_
    rw [List.filter_map, List.map_map]
    have e1 : K.params.threshold (S.map K.tag) = K.threshold S := by
      simp only [Call.params, untag]
    have e2 : (K.params.count (K.params.threshold (S.map K.tag)) ∘ K.tag) = K.count (K.threshold S) := by
      funext b
      rw [e1]
      exact count_tag K _ b
    rw [e2]
    exact List.Perm.refl _

/-- **C82** When `electronCount` returns, there are `numBlocks` complete frames `S` of the files such that every frame of which there is
a record, with the pixels of its records, was counted with the thresholds of `S` and stored exactly once at its position, and
nothing else was stored; after that the positions are padded with empty frames. For all files, numbers of
threads and schedules of the reader and the counting together. -/
theorem C82_exactly_once (K : Call D Θ) (hn : 0 < K.threads) (files : List (File D)) (map : ScanMap) (flo fhi lo hi : Nat)
    (at_ : Nat → Nat) (hidx : IsIndex files flo fhi map) {x : State D Θ}
    (h : Reach (Step K files map hi) (init K lo at_) x) {data : List (List (List Nat))} (hd : x.counting.main = .done data) :
    ∃ all, AllBlocks files flo fhi lo hi all ∧ (∀ b ∈ all, b.pos < K.positions) ∧ data.length = K.positions ∧
      ∃ S : List (Block D), S.length = K.numBlocks ∧ (∀ b ∈ S, b.complete = true) ∧ S.Subperm all ∧
        ∃ m, ∀ p, p < K.positions → ∃ stored : List (List Nat),
          stored.Perm ((all.filter fun b => b.pos = p).map (K.count (K.threshold S))) ∧ stored.length ≤ m ∧
          data[p]? = some (stored ++ List.replicate (m - stored.length) []) := by
  obtain ⟨h1, hdata, h2, S, _, h3, h4, h5, h6⟩ := C82_stored K hn files map lo hi at_ h hd
  refine ⟨CountingReader.blocks files map lo hi, allBlocks hidx lo hi, h1, ?_, S, h3, h4, h5, ?_⟩
  · rw [hdata]; simpa [Streaming.padEvents] using h2
  · obtain ⟨m, m1, _, _, _, m5⟩ := C17_uniform x.counting.events
    refine ⟨m, fun p hpp => ?_⟩
    obtain ⟨stored, g1, g2⟩ := h6 p hpp
    refine ⟨stored, g2, m1 _ (List.mem_of_getElem? g1), ?_⟩
    rw [hdata]
    exact m5 p _ g1

/-- **C82** The same from the files on: the header pass with `n` threads over all files, then the counting over all positions of the scan. -/
theorem C82_files (K : Call D Θ) (hn : 0 < K.threads) (files : List (File D)) (n : Nat) (hn' : 0 < n)
    (hsec : ∀ f ∈ files, f.sector < 4) (hpos : ∀ f ∈ files, ∀ r ∈ f.records, r.pos < K.positions)
    (hdist : DistinctRecords files 0 files.length) {s : HState D}
    (hs : Reach (HStep files K.positions files.length) (hinit n 0) s) (hex : ∀ w ∈ s.workers, w = .exited)
    (at_ : Nat → Nat) {x : State D Θ} (h : Reach (Step K files s.map K.positions) (init K 0 at_) x)
    {data : List (List (List Nat))} (hd : x.counting.main = .done data) :
    ∃ all : List (Block D), (all.map fun b => (b.pos, b.frame)).Nodup ∧
      (∀ p f, (∃ b ∈ all, b.pos = p ∧ b.frame = f) ↔ ∃ i j r sec, IsRecord files i j r p f sec) ∧
      (∀ b ∈ all, BlockOk files 0 files.length b) ∧
      data.length = K.positions ∧
      ∃ S : List (Block D), S.length = K.numBlocks ∧ (∀ b ∈ S, b.complete = true) ∧ S.Subperm all ∧
        ∃ m, ∀ p, p < K.positions → ∃ stored : List (List Nat),
          stored.Perm ((all.filter fun b => b.pos = p).map (K.count (K.threshold S))) ∧ stored.length ≤ m ∧
          data[p]? = some (stored ++ List.replicate (m - stored.length) []) := by
  have hidx := (C28_index files K.positions 0 files.length n (Nat.le_refl _) hsec hpos hdist hn' hs).2 hex
  obtain ⟨all, ⟨a1, a2, a3⟩, _, a4, a5⟩ := C82_exactly_once K hn files s.map 0 files.length 0 K.positions at_ hidx h hd
  refine ⟨all, a1, ?_, a3, a4, a5⟩
  intro p f
  rw [a2]
  constructor
  · rintro ⟨_, _, i, j, r, sec, _, _, hr⟩
    exact ⟨i, j, r, sec, hr⟩
  · rintro ⟨i, j, r, sec, hr⟩
    obtain ⟨file, h1, h2, h3, h4, h5⟩ := hr
    have hm := List.mem_of_getElem? h1
    have hi : i < files.length := (List.getElem?_eq_some_iff.1 h1).1
    have := hpos file hm r (List.mem_of_getElem? h2)
    exact ⟨by omega, by omega, i, j, r, sec, by omega, hi, file, h1, h2, h3, h4, h5⟩

/-! ### Progress and termination -/

/-- The positions have at least `n` frames with records of all four sectors. -/
def HasComplete (files : List (File D)) (flo fhi lo hi n : Nat) : Prop :=
  ∃ L : List (Nat × Nat), L.Nodup ∧ n ≤ L.length ∧ ∀ x ∈ L, lo ≤ x.1 ∧ x.1 < hi ∧
    ∀ sec < 4, ∃ i j r, flo ≤ i ∧ i < fhi ∧ IsRecord files i j r x.1 x.2 sec

private theorem numComplete_le (K : Call D Θ) {files : List (File D)} {flo fhi lo hi n : Nat} {map : ScanMap}
    (hidx : IsIndex files flo fhi map) :
    HasComplete files flo fhi lo hi n ↔ n ≤ numComplete ((CountingReader.blocks files map lo hi).map K.tag) := by
  have A := allBlocks (files := files) hidx lo hi
  have e : numComplete ((CountingReader.blocks files map lo hi).map K.tag) =
      (((CountingReader.blocks files map lo hi).filter fun b => b.complete).map fun b => (b.pos, b.frame)).length := by
    rw [numComplete, List.countP_map, List.countP_eq_length_filter, List.length_map]
    congr 1
    apply List.filter_congr
    intro b _
    simp [Call.tag]
  have hnd : (((CountingReader.blocks files map lo hi).filter fun b => b.complete).map fun b => (b.pos, b.frame)).Nodup :=
    A.once.sublist (List.filter_sublist.map _)
  rw [e]
  constructor
  · rintro ⟨L, h1, h2, h3⟩
    refine Nat.le_trans h2 ?_
    refine (List.subperm_of_subset h1 ?_).length_le
    intro x hx
    obtain ⟨g1, g2, g3⟩ := h3 x hx
    obtain ⟨i, j, r, f1, f2, f3⟩ := g3 0 (by omega)
    obtain ⟨b, hb, e1, e2⟩ := (A.iff x.1 x.2).2 ⟨g1, g2, i, j, r, 0, f1, f2, f3⟩
    rw [List.mem_map]
    refine ⟨b, List.mem_filter.2 ⟨hb, ?_⟩, by rw [e1, e2]⟩
    rw [(A.ok b hb).complete, e1, e2]
    exact g3
  · intro hle
    refine ⟨_, hnd, hle, ?_⟩
    intro x hx
    obtain ⟨b, hb, rfl⟩ := List.mem_map.1 hx
    obtain ⟨hb, hc⟩ := List.mem_filter.1 hb
    obtain ⟨g1, g2, _⟩ := (A.iff b.pos b.frame).1 ⟨b, hb, rfl, rfl⟩
    exact ⟨g1, g2, (A.ok b hb).complete.1 hc⟩

/-- **C82** No deadlock: as long as `electronCount` has not returned, some thread can take a step (not counting spurious wake-ups), if
the positions have the requested number of complete frames. -/
theorem C82_progress (K : Call D Θ) (hn : 0 < K.threads) (files : List (File D)) (map : ScanMap) (flo fhi lo hi : Nat)
    (at_ : Nat → Nat) (hidx : IsIndex files flo fhi map) {x : State D Θ}
    (h : Reach (Step K files map hi) (init K lo at_) x) (hub : x.counting.ub = false)
    (hN : HasComplete files flo fhi lo hi K.numBlocks) (hd : ∀ data, x.counting.main ≠ .done data) :
    ∃ l x', Step K files map hi x l x' ∧ l ≠ .count .spurious := by
  obtain ⟨ls, h⟩ := h
  obtain ⟨sync, pend, ⟨rls, hrr, _⟩, rem, als, hperm, _, _, hc⟩ := sim hn h
  have hrun : Reach (Streaming.Step K.params)
      (Streaming.init K.params ((CountingReader.blocks files map lo hi).map K.tag)) (abs x.counting rem) := by
    rcases hc with ⟨_, hr⟩ | ⟨⟨d, hd'⟩, _⟩
    · exact ⟨_, hr⟩
    · exact absurd hd' (hd d)
  obtain ⟨hA, hB⟩ := Streaming.invAB hrun
  by_cases hex : ∃ c', Streaming.Step K.params x.counting .internal c' ∧ Inside x.counting c'
  · obtain ⟨c', hs, hin⟩ := hex
    exact ⟨_, _, .count hs hin, by simp⟩
  have hst := stuck hA hB hub hd fun c' hs hin => hex ⟨c', hs, hin⟩
  by_cases hall : ∀ w ∈ x.reader.workers, w = .exited
  · rcases hst.2 with hm | ⟨hm, hlt⟩
    · exact ⟨_, _, .join hub hm hall, by simp⟩
    · exfalso
      obtain ⟨I, hlen⟩ := pinv_run hrr
      have hne : x.reader.workers ≠ [] := by
        intro e; rw [e] at hlen; simp at hlen; omega
      have hl := delivered_all I hne hall
      have hrem : rem = [] := by
        have := hperm.length_eq
        simp at this
        exact List.length_eq_zero_iff.1 (by omega)
      subst hrem
      have hheld : (abs x.counting []).workers.filterMap Streaming.blkOf = [] := by
        rw [List.filterMap_eq_nil_iff]
        intro w hw
        obtain ⟨v, hv, rfl⟩ := List.mem_map.1 hw
        rcases hst.1 v hv with rfl | rfl <;> rfl
      have hcf : (abs x.counting []).counting = false := by rw [hA.flag]; simp [CountingReader.abs, hm, Streaming.early]
      have hcnt := (hA.quiet hcf).1
      have hp2 : (x.counting.samples ++ x.counting.incomplete).Perm ((CountingReader.blocks files map lo hi).map K.tag) := by
        rw [List.perm_iff_count]
        intro b
        have := hA.cons b
        rw [hheld, hcnt] at this
        simpa [CountingReader.abs, hm, Streaming.owed] using this
      have hN' := (numComplete_le K (lo := lo) (hi := hi) hidx).1 hN
      rw [numComplete, ← hp2.countP_eq, List.countP_append] at hN'
      have e1 : x.counting.samples.countP (fun b => b.complete = some true) ≤ x.counting.samples.length := List.countP_le_length
      have e2 : x.counting.incomplete.countP (fun b => b.complete = some true) = 0 := by
        rw [List.countP_eq_zero]
        intro b hb
        have := hA.inc b hb
        simp [this]
      have hpn : K.params.numBlocks = K.numBlocks := rfl
      omega
  · have hne : ∃ w ∈ x.reader.workers, w ≠ .exited := by simpa using hall
    obtain ⟨t, ht⟩ := C29_progress files map lo hi K.threads at_ ⟨rls, hrr⟩ hne
    obtain ⟨x', hx'⟩ := reader_step (K := K) hub ht sync hst.1
    exact ⟨_, x', hx', by simp⟩

/-- **C82** With fewer complete frames `electronCount` never returns. -/
theorem C82_hang (K : Call D Θ) (hn : 0 < K.threads) (files : List (File D)) (map : ScanMap) (flo fhi lo hi : Nat)
    (at_ : Nat → Nat) (hidx : IsIndex files flo fhi map) {x : State D Θ}
    (h : Reach (Step K files map hi) (init K lo at_) x) (hN : ¬ HasComplete files flo fhi lo hi K.numBlocks) :
    x.counting.main = .start ∨ x.counting.main = .asleep ∨ x.counting.main = .awake := by
  rw [numComplete_le K hidx] at hN
  obtain ⟨ls, h⟩ := h
  obtain ⟨_, _, _, rem, als, _, _, _, hc⟩ := sim hn h
  have hN' : numComplete ((CountingReader.blocks files map lo hi).map K.tag) < K.params.numBlocks := by
    have : K.params.numBlocks = K.numBlocks := rfl
    omega
  rcases hc with ⟨_, hr⟩ | ⟨_, _, _, hr⟩
  · exact C18_hang (s := CountingReader.abs x.counting rem) ⟨_, hr⟩ hN'
  · exact C18_hang ⟨_, hr⟩ hN'

private theorem gain_sum (als : List Streaming.Label) : (als.map streamGain).sum = 2 * als.count .spurious := by
  induction als with
  | nil => rfl
  | cons l als ih =>
    cases l <;> simp [streamGain, ih]
    omega

/-- **C82** Termination: the number of steps of any execution is bounded by the numbers of threads, positions and frames and twice the
number of spurious wake-ups. -/
theorem C82_termination (K : Call D Θ) (hn : 0 < K.threads) (files : List (File D)) (map : ScanMap) (lo hi : Nat)
    (at_ : Nat → Nat) {x : State D Θ} {ls : List Label} (h : Run (Step K files map hi) (init K lo at_) ls x) :
    ls.length ≤ (K.threads + 21) * (frames map lo hi).length + 14 * (frames map lo hi).length + 3 * (hi - lo) +
      4 * K.threads + 21 + 2 * ls.count (.count .spurious) := by
  obtain ⟨_, _, ⟨rls, hrr, hrl⟩, rem, als, _, hlen, hsp, hc⟩ := sim hn h
  have h1 := C29_termination files map lo hi K.threads at_ hrr
  have h2 : als.length ≤ (K.params.threads + 21) * ((CountingReader.blocks files map lo hi).map K.tag).length +
      2 * K.params.threads + 21 + (als.map streamGain).sum := by
    rcases hc with ⟨_, hr⟩ | ⟨_, _, _, hr⟩
    · exact C18_termination hr
    · exact C18_termination hr
  rw [gain_sum, hsp] at h2
  have e1 : ((CountingReader.blocks files map lo hi).map K.tag).length = (frames map lo hi).length := by
    simp [CountingReader.blocks]
  have e2 : ((List.range' lo (hi - lo)).map fun p => 14 * (map p).length + 3).sum =
      14 * (frames map lo hi).length + 3 * (hi - lo) := by
    have key : ∀ k l, ((List.range' l k).map fun p => 14 * (map p).length + 3).sum =
        14 * ((List.range' l k).flatMap fun p => (map p).keys.map fun f => (p, f)).length + 3 * k := by
      intro k
      induction k with
      | zero => simp
      | succ k ih =>
        intro l
        rw [List.range'_succ, List.map_cons, List.sum_cons, List.flatMap_cons, List.length_append, List.length_map, ih]
        simp only [SMap.keys, List.length_map]
        omega
    exact key _ _
  have e3 : K.params.threads = K.threads := rfl
  rw [e1, e3] at h2
  omega

/-- **C82** If no two frames have the same position (and the positions are inside of the scan), nothing undefined happens, in any schedule.
Missing for the full statement: several frames at a position, for which it is false (`C82_race_false`). -/
theorem C82_race_free_partial (K : Call D Θ) (hn : 0 < K.threads) (files : List (File D)) (map : ScanMap) (flo fhi lo hi : Nat)
    (at_ : Nat → Nat) (hidx : IsIndex files flo fhi map)
    (hone : ∀ i j r i' j' r' p f f' sec sec', lo ≤ p → p < hi → flo ≤ i → i < fhi → flo ≤ i' → i' < fhi →
      IsRecord files i j r p f sec → IsRecord files i' j' r' p f' sec' → f = f')
    (hpos : ∀ i j r p f sec, lo ≤ p → p < hi → flo ≤ i → i < fhi → IsRecord files i j r p f sec → p < K.positions)
    (hN : 0 < K.numBlocks) {x : State D Θ} (h : Reach (Step K files map hi) (init K lo at_) x) : x.counting.ub = false := by
  have A := allBlocks (files := files) hidx lo hi
  obtain ⟨ls, h⟩ := h
  obtain ⟨_, _, _, rem, als, _, _, _, hc⟩ := sim hn h
  have hnd : (((CountingReader.blocks files map lo hi).map K.tag).map Streaming.Blk.pos).Nodup := by
    rw [List.map_map]
    refine List.Nodup.map_on ?_ (List.Nodup.of_map _ A.once)
    intro b hb c hc e
    have e : b.pos = c.pos := e
    obtain ⟨b1, b2, i, j, r, sec, b3, b4, b5⟩ := (A.iff b.pos b.frame).1 ⟨b, hb, rfl, rfl⟩
    obtain ⟨_, _, i', j', r', sec', c3, c4, c5⟩ := (A.iff c.pos c.frame).1 ⟨c, hc, rfl, rfl⟩
    rw [← e] at c5
    have := hone _ _ _ _ _ _ _ _ _ _ _ b1 b2 b3 b4 c3 c4 b5 c5
    exact List.inj_on_of_nodup_map A.once hb hc (by rw [e, this])
  have hp : ∀ b ∈ (CountingReader.blocks files map lo hi).map K.tag, b.pos < K.params.positions := by
    intro b hb
    obtain ⟨c, hc, rfl⟩ := List.mem_map.1 hb
    obtain ⟨b1, b2, i, j, r, sec, b3, b4, b5⟩ := (A.iff c.pos c.frame).1 ⟨c, hc, rfl, rfl⟩
    exact hpos _ _ _ _ _ _ b1 b2 b3 b4 b5
  have hf : ∀ b ∈ (CountingReader.blocks files map lo hi).map K.tag, b.complete ≠ none := by
    intro b hb
    obtain ⟨c, hc, rfl⟩ := List.mem_map.1 hb
    simp [Call.tag]
  rcases hc with ⟨_, hr⟩ | ⟨_, _, _, hr⟩
  · exact C19_race_free_partial (s := CountingReader.abs x.counting rem) ⟨_, hr⟩ hnd hp hf hN
  · exact C19_race_free_partial ⟨_, hr⟩ hnd hp hf hN

/-- **C82** So then there is an execution to the end. -/
theorem C82_exists (K : Call D Θ) (hn : 0 < K.threads) (files : List (File D)) (map : ScanMap) (flo fhi lo hi : Nat)
    (at_ : Nat → Nat) (hidx : IsIndex files flo fhi map)
    (hone : ∀ i j r i' j' r' p f f' sec sec', lo ≤ p → p < hi → flo ≤ i → i < fhi → flo ≤ i' → i' < fhi →
      IsRecord files i j r p f sec → IsRecord files i' j' r' p f' sec' → f = f')
    (hpos : ∀ i j r p f sec, lo ≤ p → p < hi → flo ≤ i → i < fhi → IsRecord files i j r p f sec → p < K.positions)
    (hN : 0 < K.numBlocks) (hC : HasComplete files flo fhi lo hi K.numBlocks) :
    ∃ x data, Reach (Step K files map hi) (init K lo at_) x ∧ x.counting.main = .done data := by
  let st : State D Θ → Label → State D Θ → Prop := fun x l y => Step K files map hi x l y ∧ l ≠ .count .spurious
  have weak : ∀ {ls y}, Run st (init K lo at_) ls y →
      Run (Step K files map hi) (init K lo at_) ls y ∧ ls.count (.count .spurious) = 0 := by
    intro ls y h
    induction h with
    | nil => exact ⟨.nil _, rfl⟩
    | snoc _ h2 ih =>
      refine ⟨ih.1.snoc h2.1, ?_⟩
      rw [List.count_append, ih.2, List.count_cons_of_ne h2.2]
      rfl
  obtain ⟨t, ⟨ls, ht⟩, data, hd⟩ := Reach.exists_final (st := st) (s := init K lo at_)
    (final := fun x => ∃ data, x.counting.main = .done data)
    (n := (K.threads + 21) * (frames map lo hi).length + 14 * (frames map lo hi).length + 3 * (hi - lo) +
      4 * K.threads + 21)
    (by
      rintro t ⟨ls, ht⟩ hf
      have hr : Reach (Step K files map hi) (init K lo at_) t := ⟨ls, (weak ht).1⟩
      obtain ⟨l, y, h1, h2⟩ := C82_progress K hn files map flo fhi lo hi at_ hidx hr
        (C82_race_free_partial K hn files map flo fhi lo hi at_ hidx hone hpos hN hr) hC fun d hd => hf ⟨d, hd⟩
      exact ⟨l, y, h1, h2⟩)
    (by
      intro ls t ht
      obtain ⟨h1, h2⟩ := weak ht
      have := C82_termination K hn files map lo hi at_ h1
      omega)
  exact ⟨t, data, ⟨ls, (weak ht).1⟩, hd⟩

/-- **C82** Several frames at a position: if the first position has another frame besides its first one, and that one is complete, then with
one sample block there is a schedule in which the calling thread and a worker append to the same list at the same time.
One thread of the pool is enough. -/
theorem C82_race_false (K : Call D Θ) (hn : 0 < K.threads) (files : List (File D)) (map : ScanMap) (flo fhi lo hi : Nat)
    (at_ : Nat → Nat) (hidx : IsIndex files flo fhi map) (hlo : lo < hi) (hpos : lo < K.positions) (hN : K.numBlocks = 1)
    {f g : Nat} (hf : ∀ sec < 4, ∃ i j r, flo ≤ i ∧ i < fhi ∧ IsRecord files i j r lo f sec) (hfg : f < g)
    (hg : ∃ i j r sec, flo ≤ i ∧ i < fhi ∧ IsRecord files i j r lo g sec)
    (hmin : ∀ k i j r sec, flo ≤ i → i < fhi → IsRecord files i j r lo k sec → f ≤ k) :
    ∃ x, Reach (Step K files map hi) (init K lo at_) x ∧ x.counting.ub = true := by
  have hfm : f ∈ (map lo).keys := by
    obtain ⟨i, j, r, h1, h2, h3⟩ := hf 0 (by omega)
    exact (hidx.keys lo f).2 ⟨i, j, r, 0, h1, h2, h3⟩
  have hgm : g ∈ (map lo).keys := (hidx.keys lo g).2 hg
  have hsort := SMap.sorted_keys (hidx.sorted lo)
  obtain ⟨f2, fs, hk⟩ : ∃ f2 fs, (map lo).keys = f :: f2 :: fs := by
    cases hkeys : (map lo).keys with
    | nil => rw [hkeys] at hfm; cases hfm
    | cons k ks =>
      rw [hkeys] at hsort hfm hgm
      have hk1 : k = f := by
        obtain ⟨i, j, r, sec, h1, h2, h3⟩ := (hidx.keys lo k).1 (by rw [hkeys]; simp)
        have h4 := hmin k i j r sec h1 h2 h3
        rcases List.mem_cons.1 hfm with h | h
        · exact h.symm
        · have := List.rel_of_pairwise_cons hsort h
          omega
      cases ks with
      | nil =>
        simp only [List.mem_singleton] at hgm
        omega
      | cons f2 fs => exact ⟨f2, fs, by rw [hk1]⟩
  obtain ⟨a, ha⟩ := Option.isSome_iff_exists.1 (SMap.mem_keys.1 hfm)
  obtain ⟨a2, ha2⟩ := Option.isSome_iff_exists.1 (SMap.mem_keys.1 (show f2 ∈ (map lo).keys by rw [hk]; simp))
  obtain ⟨m, hm⟩ : ∃ m, K.threads = m + 1 := ⟨K.threads - 1, by omega⟩
  let b1 := processFrame files a lo f
  let b2 := processFrame files a2 lo f2
  have hcomp : (K.tag b1).complete = some true := by
    have := (blockOk hidx ha).complete.2 hf
    simp only [Call.tag, b1, this]
  have hpn : K.params.numBlocks = 1 := hN
  -- the first worker takes the first position
  let rest : List (PWorker D) := List.replicate m .test
  let idles : List Streaming.Worker := List.replicate m .idle
  let c0 : Streaming.State Θ := (init K lo at_ : State D Θ).counting
  have hc0 : c0.workers = .idle :: idles := by
    simp [c0, init, Streaming.init, Call.params, hm, List.replicate_succ, idles]
  let r0 : PState D := (init K lo at_ : State D Θ).reader
  have hr0 : r0.workers = .test :: rest := by
    simp [r0, init, pinit, hm, List.replicate_succ, rest]
  let r1 : PState D := { r0 with workers := .fetch :: rest }
  let r2 : PState D := { r1 with processed := lo + 1, workers := .image lo (map lo).keys :: rest }
  have s1 : Step K files map hi ⟨r0, c0⟩ .reader ⟨r1, c0⟩ :=
    .read (x := ⟨r0, c0⟩) (r' := r1) (rpre := []) (cpre := []) rfl (.more (pre := []) hr0 hlo) hr0 rfl (by simp) rfl hc0 rfl
  have s2 : Step K files map hi ⟨r1, c0⟩ .reader ⟨r2, c0⟩ :=
    .read (x := ⟨r1, c0⟩) (r' := r2) (rpre := []) (cpre := []) rfl (.fetch (pre := []) rfl hlo) rfl rfl (by simp) rfl hc0 rfl
  -- the first frame is the sample
  obtain ⟨r3, s3, hl3, hw3, _⟩ := read_block (K := K) (files := files) (map := map) (hi := hi) (c := c0) ha rfl hc0
    (fs := f2 :: fs) r2 (fun _ => rfl) (by rw [← hk])
  let c1 : Streaming.State Θ := { c0 with workers := .got (K.tag b1) :: idles }
  let c2 : Streaming.State Θ := { c1 with workers := .wantLock (K.tag b1) :: idles }
  let c3 : Streaming.State Θ := { c2 with samples := [K.tag b1], workers := .notify :: idles }
  let c4 : Streaming.State Θ := { c3 with workers := .idle :: idles }
  have wake : idles.map Streaming.wakeWorker = idles := by simp [idles, Streaming.wakeWorker]
  have s4 : Step K files map hi ⟨r3, c1⟩ (.count .internal) ⟨r3, c2⟩ :=
    .count (x := ⟨r3, c1⟩) (c' := c2) (.noFlag (pre := []) (post := idles) rfl rfl rfl) ⟨rfl, by simp [c1, c2], by intro d h; cases h⟩
  have s5 : Step K files map hi ⟨r3, c2⟩ (.count .internal) ⟨r3, c3⟩ :=
    .count (x := ⟨r3, c2⟩) (c' := c3) (.lastSample (pre := []) (post := idles) (s := c2) rfl rfl rfl
      (by simp [hpn, c2, c1, c0, init, Streaming.init]) hcomp) ⟨rfl, by simp [c2, c3], by intro d h; cases h⟩
  have s6 : Step K files map hi ⟨r3, c3⟩ (.count .internal) ⟨r3, c4⟩ := by
    have h := Streaming.Step.notifyAll (P := K.params) (s := c3) (pre := []) (post := idles) rfl rfl
    rw [wake] at h
    exact .count (x := ⟨r3, c3⟩) (c' := c4) h ⟨rfl, by simp [c3, c4], by intro d h; cases h⟩
  -- the second frame of the same position
  obtain ⟨r5, s7, _, _, _⟩ := read_block (K := K) (files := files) (map := map) (hi := hi) (c := c4) ha2 rfl rfl r3 hl3 hw3
  let c5 : Streaming.State Θ := { c4 with workers := .got (K.tag b2) :: idles }
  let c6 : Streaming.State Θ := { c5 with main := .holding, locked := true }
  let c7 : Streaming.State Θ := { c6 with thresholds := some (K.params.threshold c6.samples), events := List.replicate K.params.positions [], counting := true, main := .started }
  let c8 : Streaming.State Θ := { c7 with locked := false, main := .notify }
  let c9 : Streaming.State Θ := { c8 with main := .extra [K.tag b1] false }
  let c10 : Streaming.State Θ := { c9 with main := .pushing (K.tag b1) [] false }
  let c11 : Streaming.State Θ := { c10 with workers := .append (K.tag b2) false :: idles }
  have s8 : Step K files map hi ⟨r5, c5⟩ (.count .internal) ⟨r5, c6⟩ :=
    .count (x := ⟨r5, c5⟩) (c' := c6) (.mainLock rfl (.inl rfl) rfl hpn.symm) ⟨rfl, rfl, by intro d h; cases h⟩
  have s9 : Step K files map hi ⟨r5, c6⟩ (.count .internal) ⟨r5, c7⟩ :=
    .count (x := ⟨r5, c6⟩) (c' := c7) (.mainStart rfl rfl (by simp [c6, c5, c4, c3])) ⟨rfl, rfl, by intro d h; cases h⟩
  have s10 : Step K files map hi ⟨r5, c7⟩ (.count .internal) ⟨r5, c8⟩ :=
    .count (x := ⟨r5, c7⟩) (c' := c8) (.mainUnlock rfl rfl) ⟨rfl, rfl, by intro d h; cases h⟩
  have s11 : Step K files map hi ⟨r5, c8⟩ (.count .internal) ⟨r5, c9⟩ := by
    have h := Streaming.Step.mainNotify (P := K.params) (s := c8) rfl rfl
    have e1 : c8.workers.map Streaming.wakeWorker = c8.workers := by
      show Streaming.Worker.got (K.tag b2) :: idles.map Streaming.wakeWorker = _
      rw [wake]
    have e2 : c8.samples.take K.params.numBlocks = [K.tag b1] := by rw [hpn]; rfl
    rw [e1, e2] at h
    exact .count (x := ⟨r5, c8⟩) (c' := c9) h ⟨rfl, rfl, by intro d h; cases h⟩
  have hlen : c9.events.length = K.positions := by
    show (List.replicate K.params.positions ([] : List (List Nat))).length = _
    simp [Call.params]
  have hnone : ∀ w ∈ idles, Streaming.pushesAt lo w = false := by
    intro w hw
    rw [List.eq_of_mem_replicate hw]
    rfl
  have s12 : Step K files map hi ⟨r5, c9⟩ (.count .internal) ⟨r5, c10⟩ := by
    refine .count (x := ⟨r5, c9⟩) (c' := c10) (.extra rfl rfl ?_ ?_) ⟨rfl, rfl, by intro d h; cases h⟩
    · rw [hlen]; exact hpos
    · intro w hw
      rcases List.mem_cons.1 hw with rfl | hw
      · rfl
      · exact hnone w hw
  have s13 : Step K files map hi ⟨r5, c10⟩ (.count .internal) ⟨r5, c11⟩ :=
    .count (x := ⟨r5, c10⟩) (c' := c11) (.seeFlag (pre := []) (post := idles) rfl rfl rfl)
      ⟨rfl, by simp [c10, c11, c9, c8, c7, c6, c5], by intro d h; cases h⟩
  have s14 : Step K files map hi ⟨r5, c11⟩ (.count .internal) ⟨r5, { c11 with ub := true }⟩ := by
    refine .count (x := ⟨r5, c11⟩) (.appendRace (pre := []) (post := idles) (b := K.tag b2) rfl rfl ?_ hnone ?_)
      ⟨rfl, rfl, by intro d h; cases h⟩
    · show lo < c9.events.length
      rw [hlen]; exact hpos
    · show decide (lo = lo) = true
      simp
  refine ⟨_, (((((((((((((Reach.refl (⟨r0, c0⟩ : State D Θ)).step s1).step s2).trans s3).step s4).step s5).step s6).trans s7).step
    s8).step s9).step s10).step s11).step s12).step s13 |>.step s14, rfl⟩

/-! ### Examples -/

/-- Four sector files: position 0 has the complete frame 5, and position 4 the frame 6 of sector 2 only. -/
def scanFiles : List (File Nat) :=
  [⟨0, [⟨1, 5, 3, 2, 0, 0, 100⟩]⟩, ⟨1, [⟨1, 5, 3, 2, 0, 0, 101⟩]⟩,
    ⟨2, [⟨1, 6, 3, 2, 1, 1, 200⟩, ⟨1, 5, 3, 2, 0, 0, 102⟩]⟩, ⟨3, [⟨1, 5, 3, 2, 0, 0, 103⟩]⟩]

/-- The same with the frame 6 at position 0. -/
def scanFiles' : List (File Nat) :=
  [⟨0, [⟨1, 5, 3, 2, 0, 0, 100⟩]⟩, ⟨1, [⟨1, 5, 3, 2, 0, 0, 101⟩]⟩,
    ⟨2, [⟨1, 6, 3, 2, 0, 0, 200⟩, ⟨1, 5, 3, 2, 0, 0, 102⟩]⟩, ⟨3, [⟨1, 5, 3, 2, 0, 0, 103⟩]⟩]

/-- A call with three threads and one sample block for a scan of 3 × 2 positions. -/
def exampleCall : Call Nat Nat where
  threads := 3
  numBlocks := 1
  positions := 6
  threshold := fun l => (l.map fun b => (b.items.map Prod.snd).sum).sum
  count := fun θ b => (b.items.map Prod.snd).filter fun d => θ < 4 * d
  code := fun b => Encodable.encode (b.pos, b.frame, b.items, b.complete)
  decode := fun n => (Encodable.decode (α := Nat × Nat × List (Nat × Nat) × Bool) n).map fun x => ⟨x.1, x.2.1, x.2.2.1, x.2.2.2⟩
  decode_code := by intro b; simp [Encodable.encodek]

private theorem records {files : List (File Nat)} (hf : files = scanFiles ∨ files = scanFiles') {i j p f sec : Nat}
    {r : SectorReader.Rec Nat} (h : IsRecord files i j r p f sec) :
    i = sec ∧ f = 5 ∧ p = 0 ∧ (sec = 2 → j = 1) ∧ (sec ≠ 2 → j = 0) ∨
      i = sec ∧ f = 6 ∧ sec = 2 ∧ j = 0 ∧ (files = scanFiles → p = 4) := by
  obtain ⟨file, h1, h2, h3, h4, h5⟩ := h
  rcases hf with rfl | rfl
  all_goals
    rcases i with _ | _ | _ | _ | i <;>
      simp only [scanFiles, scanFiles', List.getElem?_cons_zero, List.getElem?_cons_succ, List.getElem?_nil, Option.some.injEq,
        reduceCtorEq] at h1 <;>
      subst h1 <;> rcases j with _ | _ | j <;>
        simp only [List.getElem?_cons_zero, List.getElem?_cons_succ, List.getElem?_nil, Option.some.injEq, reduceCtorEq] at h2 <;>
        subst h2 <;> subst h3 <;> subst h4 <;> subst h5 <;> simp [SectorReader.Rec.pos, scanFiles, scanFiles']

private theorem scanFiles_distinct {files : List (File Nat)} (hf : files = scanFiles ∨ files = scanFiles') :
    DistinctRecords files 0 4 := by
  intro i j r i' j' r' p f sec _ hi _ hi' h h'
  have h1 := records hf h
  have h2 := records hf h'
  omega

private theorem five {files : List (File Nat)} (hf : files = scanFiles ∨ files = scanFiles') :
    ∀ sec < 4, ∃ i j r, 0 ≤ i ∧ i < 4 ∧ IsRecord files i j r 0 5 sec := by
  intro sec hs
  have c : sec = 0 ∨ sec = 1 ∨ sec = 2 ∨ sec = 3 := by omega
  rcases hf with rfl | rfl
  all_goals
    rcases c with rfl | rfl | rfl | rfl
    · exact ⟨0, 0, _, by omega, by omega, _, rfl, rfl, rfl, rfl, rfl⟩
    · exact ⟨1, 0, _, by omega, by omega, _, rfl, rfl, rfl, rfl, rfl⟩
    · exact ⟨2, 1, _, by omega, by omega, _, rfl, rfl, rfl, rfl, rfl⟩
    · exact ⟨3, 0, _, by omega, by omega, _, rfl, rfl, rfl, rfl, rfl⟩

/-- Header pass and counting of `scanFiles` have an execution to the end: the hypotheses of the theorems can be met. -/
example : ∃ s, Reach (HStep scanFiles exampleCall.positions scanFiles.length) (hinit 2 0) s ∧ (∀ w ∈ s.workers, w = .exited) ∧
    HasComplete scanFiles 0 4 0 6 exampleCall.numBlocks ∧
    ∃ x data, Reach (Step exampleCall scanFiles s.map 6) (init exampleCall 0 fun _ => 17) x ∧ x.counting.main = .done data := by
  have hf : scanFiles = scanFiles ∨ scanFiles = scanFiles' := .inl rfl
  have h1 : ∀ f ∈ scanFiles, f.sector < 4 := by decide
  have h2 : ∀ f ∈ scanFiles, ∀ r ∈ f.records, r.pos < 6 := by decide
  obtain ⟨s, hs, he⟩ := C28_exists scanFiles 6 0 4 2 (by decide) h1 h2 (scanFiles_distinct hf)
  have hidx := (C28_index scanFiles 6 0 4 2 (by decide) h1 h2 (scanFiles_distinct hf) (by decide) hs).2 he
  have hC : HasComplete scanFiles 0 4 0 6 exampleCall.numBlocks := by
    refine ⟨[(0, 5)], by simp, by simp [exampleCall], ?_⟩
    intro x hx
    simp only [List.mem_singleton] at hx
    subst hx
    exact ⟨by omega, by omega, five hf⟩
  refine ⟨s, hs, he, hC, C82_exists exampleCall (by decide) scanFiles s.map 0 4 0 6 _ hidx ?_ ?_ (by decide) hC⟩
  · intro i j r i' j' r' p f f' sec sec' _ _ _ _ _ _ h h'
    have h3 := records hf h
    have h4 := records hf h'
    rcases h3 with h3 | h3 <;> rcases h4 with h4 | h4
    · omega
    · have := h4.2.2.2.2 rfl; omega
    · have := h3.2.2.2.2 rfl; omega
    · omega
  · intro i j r p f sec _ h _ _ _
    exact h

/-- The hypotheses of `C82_race_false` hold for `scanFiles'`. -/
example : ∃ map x, IsIndex scanFiles' 0 4 map ∧ Reach (Step exampleCall scanFiles' map 6) (init exampleCall 0 fun _ => 17) x ∧
    x.counting.ub = true := by
  have hf : scanFiles' = scanFiles ∨ scanFiles' = scanFiles' := .inr rfl
  have h1 : ∀ f ∈ scanFiles', f.sector < 4 := by decide
  have h2 : ∀ f ∈ scanFiles', ∀ r ∈ f.records, r.pos < 6 := by decide
  obtain ⟨s, hs, he⟩ := C28_exists scanFiles' 6 0 4 2 (by decide) h1 h2 (scanFiles_distinct hf)
  have hidx := (C28_index scanFiles' 6 0 4 2 (by decide) h1 h2 (scanFiles_distinct hf) (by decide) hs).2 he
  obtain ⟨x, hx, hu⟩ := C82_race_false exampleCall (by decide) scanFiles' s.map 0 4 0 6 (fun _ => 17) hidx (by omega) (by decide) rfl
    (five hf) (show 5 < 6 by omega) ⟨2, 0, _, 2, by omega, by omega, _, rfl, rfl, rfl, rfl, rfl⟩ (by
      intro k i j r sec _ _ h
      have := records hf h
      omega)
  exact ⟨s.map, x, hidx, hx, hu⟩

end Stempy.Props
