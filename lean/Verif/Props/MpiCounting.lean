import Verif.Lemmas.MpiCounting
import Verif.Props.CountingReader
import Verif.Props.MpiGather

/-!
C91: electron counting of sector files on several MPI ranks.
-/

namespace Stempy.Props
open Stempy.Spec
open Stempy.MpiCounting
open Stempy.CountingReader (Call)
open Stempy.MultiPass (ScanMap File Block HState HStep hinit)

variable {D Θ : Type}

/-! ### The blocks of all ranks -/

/-- The blocks of the shares of all ranks. -/
private def rankBlocks (files : List (File D)) (maps : Nat → ScanMap) (n ws : Nat) : List (Block D) :=
  (List.range ws).flatMap fun r => CountingReader.blocks files (maps r) (firstPosition n ws r) (endPosition n ws r)

private theorem allRanks {files : List (File D)} {maps : Nat → ScanMap} {n ws : Nat} (hws : 0 < ws)
    (hidx : ∀ r < ws, IsIndex files 0 files.length (maps r)) :
    AllBlocks files 0 files.length 0 n (rankBlocks files maps n ws) := by
  have A : ∀ r < ws, AllBlocks files 0 files.length (firstPosition n ws r) (endPosition n ws r)
      (CountingReader.blocks files (maps r) (firstPosition n ws r) (endPosition n ws r)) := fun r hr => allBlocks (hidx r hr) _ _
  obtain ⟨hone, hle⟩ := C34_exactly_one n ws hws
  have inside : ∀ r < ws, ∀ b ∈ CountingReader.blocks files (maps r) (firstPosition n ws r) (endPosition n ws r),
      firstPosition n ws r ≤ b.pos ∧ b.pos < endPosition n ws r := by
    intro r hr b hb
    obtain ⟨h1, h2, _⟩ := ((A r hr).iff b.pos b.frame).1 ⟨b, hb, rfl, rfl⟩
    exact ⟨h1, h2⟩
  refine ⟨?_, ?_, ?_⟩
  · rw [rankBlocks, List.map_flatMap, List.nodup_flatMap]
    refine ⟨fun r hr => (A r (List.mem_range.1 hr)).once, ?_⟩
    refine List.Pairwise.imp_of_mem ?_ (List.nodup_range (n := ws))
    intro r r' hr hr' hne x hx hx'
    obtain ⟨b, hb, rfl⟩ := List.mem_map.1 hx
    obtain ⟨c, hc, e⟩ := List.mem_map.1 hx'
    have hr := List.mem_range.1 hr
    have hr' := List.mem_range.1 hr'
    have e1 : c.pos = b.pos := congrArg Prod.fst e
    obtain ⟨b1, b2⟩ := inside r hr b hb
    obtain ⟨c1, c2⟩ := inside r' hr' c hc
    rw [e1] at c1 c2
    have hp : b.pos < n := Nat.lt_of_lt_of_le b2 (hle r hr)
    obtain ⟨q, _, hq⟩ := hone b.pos hp
    exact hne ((hq r ⟨hr, b1, b2⟩).trans (hq r' ⟨hr', c1, c2⟩).symm)
  · intro p f
    constructor
    · rintro ⟨b, hb, rfl, rfl⟩
      obtain ⟨r, hr, hb⟩ := List.mem_flatMap.1 hb
      have hr := List.mem_range.1 hr
      obtain ⟨h1, h2, h3⟩ := ((A r hr).iff b.pos b.frame).1 ⟨b, hb, rfl, rfl⟩
      exact ⟨by omega, Nat.lt_of_lt_of_le h2 (hle r hr), h3⟩
    · rintro ⟨_, hp, h3⟩
      obtain ⟨r, ⟨hr, h1, h2⟩, _⟩ := hone p hp
      obtain ⟨b, hb, e⟩ := ((A r hr).iff p f).2 ⟨h1, h2, h3⟩
      exact ⟨b, List.mem_flatMap.2 ⟨r, List.mem_range.2 hr, hb⟩, e⟩
  · intro b hb
    obtain ⟨r, hr, hb⟩ := List.mem_flatMap.1 hb
    exact (A r (List.mem_range.1 hr)).ok b hb

private theorem perm_ranks {α : Type} (f g : Nat → List α) (ws : Nat) (h : ∀ r < ws, (f r).Perm (g r)) :
    ((List.range ws).flatMap f).Perm ((List.range ws).flatMap g) := by
  induction ws with
  | zero => simp
  | succ n ih =>
    rw [List.range_succ, List.flatMap_append, List.flatMap_append]
    refine (ih fun r hr => h r (by omega)).append ?_
    simpa using h n (by omega)

private theorem subperm_ranks {α : Type} (f g : Nat → List α) (ws : Nat) (h : ∀ r < ws, (f r).Subperm (g r)) :
    ((List.range ws).flatMap f).Subperm ((List.range ws).flatMap g) := by
  induction ws with
  | zero => simp
  | succ n ih =>
    rw [List.range_succ, List.flatMap_append, List.flatMap_append]
    refine (ih fun r hr => h r (by omega)).append ?_
    simpa using h n (by omega)

private theorem untag_ranks (K : Call D Θ) (S : Nat → List (Block D)) (ws : Nat) :
    ((List.range ws).flatMap fun r => (S r).map K.tag).filterMap (fun b => K.decode b.id) = (List.range ws).flatMap S := by
  have e : ((List.range ws).flatMap fun r => (S r).map K.tag) = ((List.range ws).flatMap S).map K.tag := by
    rw [List.map_flatMap]
  rw [e, List.filterMap_map]
  conv_rhs => rw [← List.filterMap_some (l := (List.range ws).flatMap S)]
  congr 1
  funext b
  simp [Call.tag, K.decode_code]

/-- What the code can count and send: all numbers fit into their types. -/
structure CountFits (K : Call D Θ) (files : List (File D)) : Prop where
  positions : K.positions ≤ 2 ^ 32
  frames : ∀ f ∈ files, ∀ r ∈ f.records, r.frameNumber < 2 ^ 32
  events : ∀ θ b, (K.count θ b).length < 2 ^ 64 ∧ ∀ e ∈ K.count θ b, e < 2 ^ 32

/-- A rank that has finished, with its samples. -/
private def StoredOn (K : Call D Θ) (ws r : Nat) (files : List (File D)) (map : ScanMap) (θ : Θ)
    (x : CountingReader.State D Θ) (S : List (Block D)) : Prop :=
    (∀ b ∈ CountingReader.blocks files map (firstPosition K.positions ws r) (endPosition K.positions ws r),
      b.pos < K.positions) ∧ x.counting.events.length = K.positions ∧
    x.counting.samples.take (share K ws r) = S.map K.tag ∧ S.length = share K ws r ∧
      (∀ b ∈ S, b.complete = true) ∧
      S.Subperm (CountingReader.blocks files map (firstPosition K.positions ws r) (endPosition K.positions ws r)) ∧
      ∀ p, p < K.positions → ∃ stored : List (List Nat), x.counting.events[p]? = some stored ∧
        stored.Perm (((CountingReader.blocks files map (firstPosition K.positions ws r) (endPosition K.positions ws r)).filter
          fun b => b.pos = p).map (K.count θ))

private theorem rank_stored {K : Call D Θ} {ws r : Nat} {files : List (File D)} {map : ScanMap} {at_ : Nat → Nat} {θ : Θ}
    (hn : 0 < K.threads) {x : CountingReader.State D Θ} {ls : List CountingReader.Label}
    (hrun : Run (CountingReader.Step (constCall K ws r θ) files map (endPosition K.positions ws r))
      (CountingReader.init (constCall K ws r θ) (firstPosition K.positions ws r) at_) ls (cut (share K ws r) x))
    (hub : x.counting.main = .join → x.counting.ub = false) (hf : Frozen x) : ∃ S, StoredOn K ws r files map θ x S := by
  rcases hf with ⟨d, hd⟩ | ⟨hm, hex⟩
  · obtain ⟨h1, _, h2, S, h3, h4, h5, h6, h7⟩ := C82_stored (constCall K ws r θ) hn files map _ _ at_ ⟨_, hrun⟩ hd
    exact ⟨S, h1, h2, h3, h4, h5, h6, h7⟩
  · have hrun' := hrun.snoc (.join (x := cut (share K ws r) x) (hub hm) hm hex)
    obtain ⟨h1, _, h2, S, h3, h4, h5, h6, h7⟩ := C82_stored (constCall K ws r θ) hn files map _ _ at_ ⟨_, hrun'⟩ rfl
    exact ⟨S, h1, h2, h3, h4, h5, h6, h7⟩

private theorem frames_bound {files : List (File D)} {all : List (Block D)} {lo hi : Nat}
    (A : AllBlocks files 0 files.length lo hi all) (hf : ∀ f ∈ files, ∀ r ∈ f.records, r.frameNumber < 2 ^ 32) (p : Nat) :
    (all.filter fun b => b.pos = p).length ≤ 2 ^ 32 := by
  have hnd : ((all.filter fun b => b.pos = p).map fun b => b.frame).Nodup := by
    have h1 : ((all.filter fun b => b.pos = p).map fun b => (b.pos, b.frame)).Nodup :=
      A.once.sublist (List.filter_sublist.map _)
    have h2 : (all.filter fun b => b.pos = p).map (fun b => (b.pos, b.frame)) =
        ((all.filter fun b => b.pos = p).map fun b => b.frame).map fun f => (p, f) := by
      rw [List.map_map]
      apply List.map_congr_left
      intro b hb
      have := (List.mem_filter.1 hb).2
      simp only [decide_eq_true_eq] at this
      simp [this]
    rw [h2] at h1
    exact List.Nodup.of_map _ h1
  have hsub : ((all.filter fun b => b.pos = p).map fun b => b.frame) ⊆ List.range (2 ^ 32) := by
    intro f hf'
    obtain ⟨b, hb, rfl⟩ := List.mem_map.1 hf'
    have hb := (List.mem_filter.1 hb).1
    obtain ⟨_, _, i, j, r, sec, _, _, file, h1, h2, _, h4, _⟩ := (A.iff b.pos b.frame).1 ⟨b, hb, rfl, rfl⟩
    rw [List.mem_range, ← h4]
    exact hf file (List.mem_of_getElem? h1) r (List.mem_of_getElem? h2)
  have := (List.subperm_of_subset hnd hsub).length_le
  rwa [List.length_map, List.length_range] at this

theorem shares_pos {K : Call D Θ} {ws : Nat} (h : ws ≤ K.numBlocks) : ∀ r < ws, 0 < share K ws r := by
  intro r hr
  have hq : 0 < K.numBlocks / ws := Nat.div_pos h (by omega)
  show 0 < Mpi.sampleBlocksPerRank ws r K.numBlocks
  simp only [Mpi.sampleBlocksPerRank]
  split
  · rename_i e
    have h1 : (ws - 1) * (K.numBlocks / ws) + K.numBlocks / ws ≤ K.numBlocks := by
      have h2 := Nat.mul_div_le K.numBlocks ws
      have h3 : ws * (K.numBlocks / ws) = (ws - 1) * (K.numBlocks / ws) + K.numBlocks / ws := by
        rw [← Nat.succ_mul]
        congr 1
        omega
      omega
    rw [e]
    generalize (ws - 1) * (K.numBlocks / ws) = a at *
    omega
  · exact hq

private theorem sendable_rank {K : Call D Θ} {ws r : Nat} {files : List (File D)} {map : ScanMap} {θ : Θ}
    (hidx : IsIndex files 0 files.length map) (hfit : CountFits K files) {x : CountingReader.State D Θ} {S : List (Block D)}
    (h : StoredOn K ws r files map θ x S) : SendableEvents K.positions x.counting.events := by
  obtain ⟨_, h2, _, _, _, _, h7⟩ := h
  have A := allBlocks hidx (firstPosition K.positions ws r) (endPosition K.positions ws r)
  have key : ∀ fs ∈ x.counting.events, ∃ p, fs.Perm
      (((CountingReader.blocks files map (firstPosition K.positions ws r) (endPosition K.positions ws r)).filter
        fun b => b.pos = p).map (K.count θ)) := by
    intro fs hfs
    obtain ⟨p, hp⟩ := List.getElem?_of_mem hfs
    have hlt : p < K.positions := by rw [← h2]; exact (List.getElem?_eq_some_iff.1 hp).1
    obtain ⟨st, e1, e2⟩ := h7 p hlt
    rw [hp] at e1
    obtain rfl := Option.some.inj e1
    exact ⟨p, e2⟩
  refine ⟨h2, hfit.positions, ?_, ?_⟩
  · intro fs hfs
    obtain ⟨p, hp⟩ := key fs hfs
    have := frames_bound A hfit.frames p
    rw [hp.length_eq, List.length_map]
    omega
  · intro fs hfs f hf
    obtain ⟨p, hp⟩ := key fs hfs
    obtain ⟨b, _, rfl⟩ := List.mem_map.1 (hp.subset hf)
    exact hfit.events θ b

/-- **C91** When rank 0 returns, there are `numBlocks` complete frames `S` of the files such that every frame of which there is a record, on whatever
rank, was counted with the thresholds of `S` and stored exactly once at its position, and nothing else was stored; after
that the positions are padded. For all files, numbers of ranks and threads and all schedules of the threads and
messages. This is the statement of `C82_exactly_once`: the result does not tell how many ranks there were. -/
theorem C91_exactly_once_partial (K : Call D Θ) (hn : 0 < K.threads) (ws : Nat) (hws : 0 < ws) (hN : ws ≤ K.numBlocks)
    (files : List (File D)) (maps : Nat → ScanMap) (at_ : Nat → Nat → Nat)
    (hidx : ∀ r < ws, IsIndex files 0 files.length (maps r)) (hfit : CountFits K files) {z : MpiCounting.State D Θ}
    (h : Reach (MpiCounting.Step K ws files maps) (MpiCounting.init K ws at_) z)
    {data : List (List (List Nat))} (hd : z.result = some data) :
    ∃ all, AllBlocks files 0 files.length 0 K.positions all ∧ (∀ b ∈ all, b.pos < K.positions) ∧
      data.length = K.positions ∧
      ∃ S : List (Block D), S.length = K.numBlocks ∧ (∀ b ∈ S, b.complete = true) ∧ S.Subperm all ∧
        ∃ m, ∀ p, p < K.positions → ∃ stored : List (List Nat),
          stored.Perm ((all.filter fun b => b.pos = p).map (K.count (K.threshold S))) ∧ stored.length ≤ m ∧
          data[p]? = some (stored ++ List.replicate (m - stored.length) []) := by
  obtain ⟨ls, h⟩ := h
  have I := inv_run hn (shares_pos hN) h
  obtain ⟨ev, hg, rfl⟩ := I.res data hd
  obtain ⟨g0, g1, g2, g3, _, g5, g6⟩ := I.gath ws ev hg
  have hb : z.broadcast ≠ none := by
    intro hb
    have := I.quiet hb 0 hws
    rw [g1] at this
    cases this
  obtain ⟨θ, hθ⟩ := Option.ne_none_iff_exists'.1 hb
  obtain ⟨lss, hruns, _⟩ := I.runs
  have hfro : ∀ r < ws, Frozen (z.ranks r) := by
    intro r hr
    by_cases h0 : r = 0
    · subst h0; exact .inr ⟨g1, g2⟩
    · exact .inl (g5 r (by omega) hr)
  have hub : ∀ r < ws, (z.ranks r).counting.main = .join → (z.ranks r).counting.ub = false := by
    intro r hr hm
    by_cases h0 : r = 0
    · subst h0; exact g0
    · obtain ⟨d, e⟩ := g5 r (by omega) hr
      rw [hm] at e
      cases e
  have hst : ∀ r : Nat, ∃ S : List (Block D), r < ws → StoredOn K ws r files (maps r) θ (z.ranks r) S := fun r =>
    if hr : r < ws then by
      obtain ⟨S, h1⟩ := rank_stored hn (hruns r hr θ (.inr hθ)) (hub r hr) (hfro r hr)
      exact ⟨S, fun _ => h1⟩
    else ⟨[], fun h => absurd h hr⟩
  obtain ⟨S, hS⟩ := Classical.axiomOfChoice hst
  obtain ⟨_, hθ2⟩ := I.bcast θ hθ
  have hθ3 : θ = K.threshold ((List.range ws).flatMap S) := by
    rw [hθ2]
    have : ((List.range ws).flatMap fun r => (z.ranks r).counting.samples.take (share K ws r)) =
        (List.range ws).flatMap fun r => (S r).map K.tag := flatMap_first _ _ _ fun r hr => (hS r hr).2.2.1
    rw [this]
    simp only [Call.params, untag_ranks]
  have hsend : ∀ o ∈ (List.range' 1 (ws - 1)).map fun r => (z.ranks r).counting.events, SendableEvents K.positions o := by
    intro o ho
    obtain ⟨r, hr, rfl⟩ := List.mem_map.1 ho
    rw [List.mem_range'_1] at hr
    have hr : r < ws := by omega
    exact sendable_rank (hidx r hr) hfit (hS r hr)
  obtain ⟨res, e1, e2, e3⟩ := C35_events K.positions (z.ranks 0).counting.events _ (hS 0 hws).2.1 hsend
  rw [g6] at e1
  obtain rfl : ev = res := by simpa using e1
  refine ⟨rankBlocks files maps K.positions ws, allRanks hws hidx, ?_, ?_, (List.range ws).flatMap S, ?_, ?_, ?_, ?_⟩
  · intro b hb
    obtain ⟨r, hr, hb⟩ := List.mem_flatMap.1 hb
    exact (hS r (List.mem_range.1 hr)).1 b hb
  · simpa [Streaming.padEvents] using e2
  · rw [List.length_flatMap]
    rw [← C34_samples K.numBlocks ws hws]
    congr 1
    exact List.map_congr_left fun r hr => (hS r (List.mem_range.1 hr)).2.2.2.1
  · intro b hb
    obtain ⟨r, hr, hb⟩ := List.mem_flatMap.1 hb
    exact (hS r (List.mem_range.1 hr)).2.2.2.2.1 b hb
  · exact subperm_ranks _ _ _ fun r hr => (hS r hr).2.2.2.2.2.1
  · obtain ⟨m, m1, _, _, _, m5⟩ := C17_uniform ev
    refine ⟨m, fun p hp => ?_⟩
    have hget : ev[p]? = some (ev.getD p []) := by
      rw [List.getElem?_eq_getElem (by omega), List.getD_eq_getElem?_getD, List.getElem?_eq_getElem (by omega)]
      rfl
    refine ⟨ev.getD p [], ?_, m1 _ (List.mem_of_getElem? hget), m5 p _ hget⟩
    have hcat : ev.getD p [] = (List.range ws).flatMap fun r => (z.ranks r).counting.events.getD p [] := by
      obtain ⟨n, rfl⟩ : ∃ n, ws = n + 1 := ⟨ws - 1, by omega⟩
      rw [e3, List.range_eq_range', List.range'_succ, List.flatMap_cons, List.map_map, List.flatMap_def]
      simp only [Nat.add_sub_cancel, Nat.zero_add]
      rfl
    rw [hcat, rankBlocks, List.filter_flatMap, List.map_flatMap, ← hθ3]
    apply perm_ranks
    intro r hr
    obtain ⟨st, f1, f2⟩ := (hS r hr).2.2.2.2.2.2 p hp
    rw [List.getD_eq_getElem?_getD, f1]
    exact f2

/-! ### No failure, progress, termination -/

/-- **C91** The messages with the events can always be read and stored. -/
theorem C91_no_failure (K : Call D Θ) (hn : 0 < K.threads) (ws : Nat) (hN : ws ≤ K.numBlocks)
    (files : List (File D)) (maps : Nat → ScanMap) (at_ : Nat → Nat → Nat)
    (hidx : ∀ r < ws, IsIndex files 0 files.length (maps r)) (hfit : CountFits K files) {z : MpiCounting.State D Θ}
    (h : Reach (MpiCounting.Step K ws files maps) (MpiCounting.init K ws at_) z) : z.failed = false := by
  obtain ⟨ls, h⟩ := h
  generalize hx : MpiCounting.init K ws at_ = z0 at h
  induction h with
  | nil => subst hx; rfl
  | @snoc y z ls l h1 h2 ih =>
    subst hx
    have I := inv_run hn (shares_pos hN) h1
    cases h2 with
    | @recvFail k ev msg hf hg hk hs hrec =>
      exfalso
      obtain ⟨g0, g1, g2, g3, g4, g5, g6⟩ := I.gath k ev hg
      obtain ⟨s1, ⟨d, s2⟩, s3⟩ := I.sent k msg hs
      have hb : y.broadcast ≠ none := by
        intro hb
        have := I.quiet hb 0 (by omega)
        rw [g1] at this
        cases this
      obtain ⟨θ, hθ⟩ := Option.ne_none_iff_exists'.1 hb
      obtain ⟨lss, hruns, _⟩ := I.runs
      have hrank : ∀ r, r ≤ k → ∃ S, StoredOn K ws r files (maps r) θ (y.ranks r) S := by
        intro r hr
        refine rank_stored hn (hruns r (by omega) θ (.inr hθ)) ?_ ?_
        · intro hm
          by_cases h0 : r = 0
          · subst h0; exact g0
          · exfalso
            by_cases hrk : r = k
            · subst hrk
              rw [hm] at s2
              cases s2
            · obtain ⟨d, e⟩ := g5 r (by omega) (by omega)
              rw [hm] at e
              cases e
        · by_cases h0 : r = 0
          · subst h0; exact .inr ⟨g1, g2⟩
          · by_cases hrk : r = k
            · subst hrk; exact .inl ⟨d, s2⟩
            · exact .inl (g5 r (by omega) (by omega))
      obtain ⟨S0, _, h02, _⟩ := hrank 0 (by omega)
      obtain ⟨res, e1, _⟩ := C35_events K.positions (y.ranks 0).counting.events
        ((List.range' 1 k).map fun r => (y.ranks r).counting.events) h02 (by
          intro o ho
          obtain ⟨r, hr, rfl⟩ := List.mem_map.1 ho
          rw [List.mem_range'_1] at hr
          obtain ⟨S, hS⟩ := hrank r (by omega)
          exact sendable_rank (hidx r (by omega)) hfit hS)
      obtain ⟨j, rfl⟩ : ∃ j, k = j + 1 := ⟨k - 1, by omega⟩
      simp only [Nat.add_sub_cancel] at g6
      rw [List.range'_1_concat, List.map_append, Mpi.gatherEvents, List.foldlM_append, ← Mpi.gatherEvents, g6] at e1
      simp only [List.map_cons, List.map_nil, List.foldlM_cons, List.foldlM_nil, Outcome.ok_bind] at e1
      rw [Nat.add_comm 1 j, ← s3] at e1
      cases hr : Mpi.receive ev msg with
      | ok ev' => exact hrec ev' hr
      | throw m => rw [hr] at e1; simp at e1
      | ub => rw [hr] at e1; simp at e1
    | _ => exact ih

/-- **C91** If no two frames have the same position (and the positions are inside of the scan), nothing undefined happens on any rank,
in any schedule. Missing: several frames at a position, for which it is false already on one rank (`C82_race_false`), and fewer
samples than ranks. -/
theorem C91_race_free_partial (K : Call D Θ) (hn : 0 < K.threads) (ws : Nat) (hN : ws ≤ K.numBlocks)
    (files : List (File D)) (maps : Nat → ScanMap) (at_ : Nat → Nat → Nat)
    (hidx : ∀ r < ws, IsIndex files 0 files.length (maps r))
    (hone : ∀ i j r i' j' r' p f f' sec sec', IsRecord files i j r p f sec → IsRecord files i' j' r' p f' sec' → f = f')
    {z : MpiCounting.State D Θ}
    (h : Reach (MpiCounting.Step K ws files maps) (MpiCounting.init K ws at_) z) {r : Nat} (hr : r < ws) :
    (z.ranks r).counting.ub = false := by
  obtain ⟨ls, h⟩ := h
  have I := inv_run hn (shares_pos hN) h
  obtain ⟨θ, lsr, _, hrun⟩ := I.run hr
  have hle := (C34_exactly_one K.positions ws (by omega)).2 r hr
  show (cut (MpiCounting.share K ws r) (z.ranks r)).counting.ub = false
  exact C82_race_free_partial (constCall K ws r θ) hn files (maps r) 0 files.length (firstPosition K.positions ws r)
    (endPosition K.positions ws r) (at_ r) (hidx r hr)
    (fun i j r i' j' r' p f f' sec sec' _ _ _ _ _ _ h1 h2 => hone i j r i' j' r' p f f' sec sec' h1 h2)
    (fun i j r p f sec _ h2 _ _ _ => Nat.lt_of_lt_of_le h2 hle) (shares_pos hN r hr) ⟨_, hrun⟩

/-- **C91** No deadlock: as long as rank 0 has not returned, some thread of some rank can take a step (not counting spurious wake-ups), if
the share of every rank has its number of complete frames. -/
theorem C91_progress (K : Call D Θ) (hn : 0 < K.threads) (ws : Nat) (hws : 0 < ws) (hN : ws ≤ K.numBlocks)
    (files : List (File D)) (maps : Nat → ScanMap) (at_ : Nat → Nat → Nat)
    (hidx : ∀ r < ws, IsIndex files 0 files.length (maps r))
    (hC : ∀ r < ws, HasComplete files 0 files.length (firstPosition K.positions ws r) (endPosition K.positions ws r)
      (Mpi.sampleBlocksPerRank ws r K.numBlocks))
    {z : MpiCounting.State D Θ} (h : Reach (MpiCounting.Step K ws files maps) (MpiCounting.init K ws at_) z)
    (hub : ∀ r < ws, (z.ranks r).counting.ub = false) (hf : z.failed = false) (hd : z.result = none) :
    ∃ l z', MpiCounting.Step K ws files maps z l z' ∧ isSpurious l = false := by
  obtain ⟨ls, h⟩ := h
  have I := inv_run hn (shares_pos hN) h
  by_cases hex : ∃ r < ws, (∀ d, (z.ranks r).counting.main ≠ .done d) ∧ (z.ranks r).counting.main ≠ .holding ∧
      (r = 0 → z.gathering = none)
  · obtain ⟨r, hr, hnd, hnh, h0⟩ := hex
    obtain ⟨θ, lsr, _, hrun⟩ := I.run hr
    obtain ⟨l, y, hs, hl⟩ := C82_progress (constCall K ws r θ) hn files (maps r) 0 files.length
      (firstPosition K.positions ws r) (endPosition K.positions ws r) (at_ r) (hidx r hr) ⟨_, hrun⟩ (hub r hr) (hC r hr) hnd
    obtain ⟨x', hx', e1, e2⟩ := uncut_step hs (I.le r hr)
    by_cases hdone : ∃ d, x'.counting.main = .done d
    · obtain ⟨d, hdone⟩ := hdone
      have key : (z.ranks r).counting.main = .join ∧ ∀ w ∈ (z.ranks r).reader.workers, w = .exited := by
        cases hx' with
        | read => exact absurd hdone (hnd d)
        | deliver => exact absurd hdone (hnd d)
        | finish => exact absurd hdone (hnd d)
        | count g1 g2 => exact absurd hdone (g2.2.2 d)
        | join g0 g1 g2 => exact ⟨g1, g2⟩
      by_cases hr0 : r = 0
      · subst hr0
        exact ⟨_, _, .gather hr (hub 0 hr) key.1 key.2 (h0 rfl), rfl⟩
      · exact ⟨_, _, .send (by omega) hr (hub r hr) key.1 key.2, rfl⟩
    · refine ⟨_, _, .rank hr hx' ⟨fun e => absurd e hnh, fun d e => hdone ⟨d, e⟩⟩, ?_⟩
      cases l with
      | reader => rfl
      | count l =>
        cases l with
        | internal => rfl
        | spurious => exact absurd rfl hl
  · have hall : ∀ r < ws, (∃ d, (z.ranks r).counting.main = .done d) ∨ (z.ranks r).counting.main = .holding ∨
        (r = 0 ∧ z.gathering ≠ none) := by
      intro r hr
      by_contra hcon
      push Not at hcon
      obtain ⟨c1, c2, c3⟩ := hcon
      exact hex ⟨r, hr, c1, c2, c3⟩
    cases hb : z.broadcast with
    | none =>
      have hhold : ∀ r < ws, (z.ranks r).counting.main = .holding := by
        intro r hr
        have he := I.quiet hb r hr
        rcases hall r hr with ⟨d, h1⟩ | h1 | ⟨rfl, h1⟩
        · rw [h1] at he; cases he
        · exact h1
        · obtain ⟨⟨k, ev⟩, hk⟩ := Option.ne_none_iff_exists'.1 h1
          rw [(I.gath k ev hk).2.1] at he
          cases he
      refine ⟨_, _, .compute (fun r hr => ⟨hhold r hr, hub r hr⟩) hws ?_, rfl⟩
      intro he
      rw [gathered, List.flatMap_eq_nil_iff] at he
      have h1 := I.full hn hws (hhold 0 hws)
      rw [he 0 (List.mem_range.2 hws)] at h1
      have := shares_pos hN 0 hws
      simp at h1
      omega
    | some θ =>
      by_cases hrec : ∃ r, 0 < r ∧ r < ws ∧ (z.ranks r).counting.main = .holding
      · obtain ⟨r, h0, hr, hm⟩ := hrec
        refine ⟨_, _, .receive h0 hr hm (hub r hr) hb ?_, rfl⟩
        intro he
        have h1 := I.full hn hr hm
        have := shares_pos hN r hr
        rw [he] at h1
        simp at h1
        omega
      · have hroot := (I.root (by rw [hb]; simp)).2
        obtain ⟨⟨k, ev⟩, hk⟩ : ∃ g, z.gathering = some g := by
          rcases hall 0 hws with ⟨d, h1⟩ | h1 | ⟨_, h1⟩
          · have := (I.done 0 hws d h1).1
            omega
          · rw [h1] at hroot; cases hroot
          · exact Option.ne_none_iff_exists'.1 h1
        obtain ⟨_, _, _, g3, g4, _⟩ := I.gath k ev hk
        by_cases hkw : k = ws
        · subst hkw
          exact ⟨_, _, .finish hf hk hd, rfl⟩
        · obtain ⟨d, hdk⟩ : ∃ d, (z.ranks k).counting.main = .done d := by
            rcases hall k (by omega) with h1 | h1 | ⟨h1, _⟩
            · exact h1
            · exact absurd ⟨k, by omega, by omega, h1⟩ hrec
            · omega
          obtain ⟨msg, hmsg⟩ := Option.isSome_iff_exists.1 (I.done k (by omega) d hdk).2
          by_cases hok : ∃ ev', Mpi.receive ev msg = .ok ev'
          · obtain ⟨ev', hok⟩ := hok
            exact ⟨_, _, .recv hf hk (by omega) hmsg hok, rfl⟩
          · exact ⟨_, _, .recvFail hf hk (by omega) hmsg fun ev' e => hok ⟨ev', e⟩, rfl⟩

/-- The bound of `C82_termination` for a rank. -/
def rankSteps (K : Call D Θ) (ws : Nat) (maps : Nat → ScanMap) (r : Nat) : Nat :=
  (K.threads + 35) * (MultiPass.frames (maps r) (firstPosition K.positions ws r) (endPosition K.positions ws r)).length +
    3 * (endPosition K.positions ws r - firstPosition K.positions ws r) + 4 * K.threads + 21

/-- **C91** Termination: the number of steps of any execution on all ranks together is bounded by the numbers of threads, positions, frames
and ranks and twice the number of spurious wake-ups. -/
theorem C91_termination (K : Call D Θ) (hn : 0 < K.threads) (ws : Nat) (hN : ws ≤ K.numBlocks)
    (files : List (File D)) (maps : Nat → ScanMap) (at_ : Nat → Nat → Nat) {z : MpiCounting.State D Θ} {ls : List MpiCounting.Label}
    (h : Run (MpiCounting.Step K ws files maps) (MpiCounting.init K ws at_) ls z) :
    ls.length ≤ ((List.range ws).map (rankSteps K ws maps)).sum + ws + 2 + 2 * ls.countP isSpurious := by
  have I := inv_run hn (shares_pos hN) h
  obtain ⟨θ, hθ⟩ := I.theta
  obtain ⟨lss, hruns, hlen, hsp⟩ := I.runs
  have hlate : lateSteps z ≤ ws + 2 := by
    cases hg : z.gathering with
    | none =>
      simp only [lateSteps, hg]
      split <;> split <;> omega
    | some g =>
      obtain ⟨k, ev⟩ := g
      have := (I.gath k ev hg).2.2.2.2.1
      simp only [lateSteps, hg]
      split <;> split <;> omega
  have hr : ∀ r < ws, (lss r).length ≤ rankSteps K ws maps r + 2 * (lss r).count (.count .spurious) := by
    intro r hr
    have := C82_termination (constCall K ws r θ) hn files (maps r) _ _ (at_ r) (hruns r hr θ hθ)
    have e : (constCall K ws r θ).threads = K.threads := rfl
    rw [e] at this
    unfold rankSteps
    rw [Nat.add_mul] at this ⊢
    omega
  have hsum : ∀ n, n ≤ ws → ((List.range n).map fun r => (lss r).length).sum ≤
      ((List.range n).map (rankSteps K ws maps)).sum + 2 * ((List.range n).map fun r => (lss r).count (.count .spurious)).sum := by
    intro n
    induction n with
    | zero => simp
    | succ n ih =>
      intro hle
      have h1 := ih (by omega)
      have h2 := hr n (by omega)
      rw [List.range_succ, List.map_append, List.map_append, List.map_append, List.sum_append, List.sum_append,
        List.sum_append]
      simp only [List.map_cons, List.map_nil, List.sum_cons, List.sum_nil]
      omega
  have := hsum ws (Nat.le_refl _)
  omega

/-- **C91** So then there is an execution to the end. -/
theorem C91_exists (K : Call D Θ) (hn : 0 < K.threads) (ws : Nat) (hws : 0 < ws) (hN : ws ≤ K.numBlocks)
    (files : List (File D)) (maps : Nat → ScanMap) (at_ : Nat → Nat → Nat)
    (hidx : ∀ r < ws, IsIndex files 0 files.length (maps r)) (hfit : CountFits K files)
    (hone : ∀ i j r i' j' r' p f f' sec sec', IsRecord files i j r p f sec → IsRecord files i' j' r' p f' sec' → f = f')
    (hC : ∀ r < ws, HasComplete files 0 files.length (firstPosition K.positions ws r) (endPosition K.positions ws r)
      (Mpi.sampleBlocksPerRank ws r K.numBlocks)) :
    ∃ z data, Reach (MpiCounting.Step K ws files maps) (MpiCounting.init K ws at_) z ∧ z.result = some data := by
  let st : MpiCounting.State D Θ → MpiCounting.Label → MpiCounting.State D Θ → Prop :=
    fun x l y => MpiCounting.Step K ws files maps x l y ∧ isSpurious l = false
  have weak : ∀ {ls y}, Run st (MpiCounting.init K ws at_) ls y →
      Run (MpiCounting.Step K ws files maps) (MpiCounting.init K ws at_) ls y ∧ ls.countP isSpurious = 0 := by
    intro ls y h
    induction h with
    | nil => exact ⟨.nil _, rfl⟩
    | snoc _ h2 ih =>
      refine ⟨ih.1.snoc h2.1, ?_⟩
      rw [List.countP_append, ih.2, List.countP_singleton, h2.2]
      rfl
  obtain ⟨t, ⟨ls, ht⟩, hd⟩ := Reach.exists_final (st := st) (s := MpiCounting.init K ws at_)
    (final := fun x => x.result ≠ none)
    (n := ((List.range ws).map (rankSteps K ws maps)).sum + ws + 2)
    (by
      rintro t ⟨ls, ht⟩ hf
      have hr : Reach (MpiCounting.Step K ws files maps) (MpiCounting.init K ws at_) t := ⟨ls, (weak ht).1⟩
      exact C91_progress K hn ws hws hN files maps at_ hidx hC hr
        (fun r hr' => C91_race_free_partial K hn ws hN files maps at_ hidx hone hr hr')
        (C91_no_failure K hn ws hN files maps at_ hidx hfit hr) (by simpa using hf))
    (by
      intro ls t ht
      obtain ⟨h1, h2⟩ := weak ht
      have := C91_termination K hn ws hN files maps at_ h1
      omega)
  obtain ⟨data, hd⟩ := Option.ne_none_iff_exists'.1 hd
  exact ⟨t, data, ⟨ls, (weak ht).1⟩, hd⟩

/-! ### Where it fails -/

/-- **C91** If the share of one rank has fewer complete frames than its share of the samples, rank 0 never returns, however many
complete frames the others have. -/
theorem C91_hang (K : Call D Θ) (hn : 0 < K.threads) (ws : Nat) (hN : ws ≤ K.numBlocks)
    (files : List (File D)) (maps : Nat → ScanMap) (at_ : Nat → Nat → Nat)
    (hidx : ∀ r < ws, IsIndex files 0 files.length (maps r)) {r : Nat} (hr : r < ws)
    (hC : ¬ HasComplete files 0 files.length (firstPosition K.positions ws r) (endPosition K.positions ws r)
      (Mpi.sampleBlocksPerRank ws r K.numBlocks))
    {z : MpiCounting.State D Θ} (h : Reach (MpiCounting.Step K ws files maps) (MpiCounting.init K ws at_) z) :
    z.result = none ∧ ((z.ranks r).counting.main = .start ∨ (z.ranks r).counting.main = .asleep ∨
      (z.ranks r).counting.main = .awake) := by
  obtain ⟨ls, h⟩ := h
  have I := inv_run hn (shares_pos hN) h
  obtain ⟨θ, lsr, _, hrun⟩ := I.run hr
  have hm : (z.ranks r).counting.main = .start ∨ (z.ranks r).counting.main = .asleep ∨ (z.ranks r).counting.main = .awake :=
    C82_hang (x := cut (MpiCounting.share K ws r) (z.ranks r)) (constCall K ws r θ) hn files (maps r) 0 files.length _ _ (at_ r) (hidx r hr) ⟨_, hrun⟩ hC
  refine ⟨?_, hm⟩
  cases hres : z.result with
  | none => rfl
  | some data =>
    exfalso
    obtain ⟨ev, hg, _⟩ := I.res data hres
    obtain ⟨_, g1, _, _, _, g5, _⟩ := I.gath ws ev hg
    by_cases h0 : r = 0
    · subst h0
      rw [g1] at hm
      simp at hm
    · obtain ⟨d, hd⟩ := g5 r (by omega) hr
      rw [hd] at hm
      simp at hm

/-- **C91** In particular rank 0 never returns if the positions of some rank have no frame. -/
theorem C91_empty_share_false (K : Call D Θ) (hn : 0 < K.threads) (ws : Nat) (hN : ws ≤ K.numBlocks)
    (files : List (File D)) (maps : Nat → ScanMap) (at_ : Nat → Nat → Nat)
    (hidx : ∀ r < ws, IsIndex files 0 files.length (maps r)) {r : Nat} (hr : r < ws)
    (hempty : ∀ f ∈ files, ∀ rc ∈ f.records, ¬ (firstPosition K.positions ws r ≤ rc.pos ∧ rc.pos < endPosition K.positions ws r))
    {z : MpiCounting.State D Θ} (h : Reach (MpiCounting.Step K ws files maps) (MpiCounting.init K ws at_) z) :
    z.result = none := by
  refine (C91_hang K hn ws hN files maps at_ hidx hr ?_ h).1
  rintro ⟨L, _, hL, hall⟩
  have hpos : 0 < Mpi.sampleBlocksPerRank ws r K.numBlocks := shares_pos hN r hr
  obtain ⟨x, hx⟩ := List.exists_mem_of_length_pos (l := L) (by omega)
  obtain ⟨h1, h2, h3⟩ := hall x hx
  obtain ⟨i, j, rc, _, _, file, f1, f2, f3, _⟩ := h3 0 (by omega)
  exact hempty file (List.mem_of_getElem? f1) rc (List.mem_of_getElem? f2) (by rw [f3]; exact ⟨h1, h2⟩)

/-- **C91** With at least three ranks and fewer sample blocks than ranks, rank 0 never returns: the ranks between the first and the last take no
sample, and read `sampleBlocks[0]` (electron.cpp:742). For all files, threads and schedules. -/
theorem C91_few_samples_false (K : Call D Θ) (ws : Nat) (hws : 3 ≤ ws) (hN : K.numBlocks < ws)
    (files : List (File D)) (maps : Nat → ScanMap) (at_ : Nat → Nat → Nat)
    {z : MpiCounting.State D Θ} (h : Reach (MpiCounting.Step K ws files maps) (MpiCounting.init K ws at_) z) :
    z.result = none ∧ ∀ θ, (z.ranks 1).counting.main = .holding → (z.ranks 1).counting.ub = false → z.broadcast = some θ →
      ∃ z', MpiCounting.Step K ws files maps z .mpi z' ∧ (z'.ranks 1).counting.ub = true := by
  have h0 : (rankCall K ws 1).numBlocks = 0 := (C34_zero_share K.numBlocks ws 1 hN (by omega)).1
  have key : (z.ranks 1).counting.samples = [] ∧ Streaming.early (z.ranks 1).counting.main = true ∧ z.sent 1 = none ∧
      (∀ k ev, z.gathering = some (k, ev) → k = 1) ∧ z.result = none := by
    refine h.inv (fun z => (z.ranks 1).counting.samples = [] ∧ Streaming.early (z.ranks 1).counting.main = true ∧
      z.sent 1 = none ∧ (∀ k ev, z.gathering = some (k, ev) → k = 1) ∧ z.result = none) ?_ ?_
    · refine ⟨rfl, rfl, rfl, ?_, rfl⟩
      intro k ev hk
      simp [MpiCounting.init] at hk
    · rintro y l y' ⟨i1, i2, i3, i4, i5⟩ hs
      have same : ∀ {r x'}, r ≠ 1 → (MpiCounting.set y r x').ranks 1 = y.ranks 1 := by
        intro r x' hr
        simp only [MpiCounting.set]
        rw [if_neg (by omega)]
      cases hs with
      | @rank r l x' hr hst ha =>
        by_cases h1 : r = 1
        · subst h1
          have e : (MpiCounting.set y 1 x').ranks 1 = x' := by simp [MpiCounting.set]
          rw [e]
          refine ⟨?_, early_keep' hst i2 ha, i3, i4, i5⟩
          have := samples_le' hst (by rw [i1]; simp)
          rw [h0] at this
          exact List.length_eq_zero_iff.1 (by omega)
        · rw [same h1]
          exact ⟨i1, i2, i3, i4, i5⟩
      | compute hall hws hne =>
        refine ⟨?_, ?_, i3, i4, i5⟩
        · simp only [same (show 0 ≠ 1 by omega)]; exact i1
        · simp only [same (show 0 ≠ 1 by omega)]; exact i2
      | computeUb hall hws hne =>
        rw [same (by omega)]
        exact ⟨i1, i2, i3, i4, i5⟩
      | @receive r θ hr0 hr hm hub hb hne =>
        have h1 : r ≠ 1 := by
          rintro rfl
          exact hne i1
        rw [same h1]
        exact ⟨i1, i2, i3, i4, i5⟩
      | @receiveUb r θ hr0 hr hm hub hb hne =>
        by_cases h1 : r = 1
        · subst h1
          refine ⟨?_, ?_, i3, i4, i5⟩
          · simpa [MpiCounting.set] using i1
          · simpa [MpiCounting.set] using i2
        · rw [same h1]
          exact ⟨i1, i2, i3, i4, i5⟩
      | @send r hr0 hr hub hm hex =>
        have h1 : r ≠ 1 := by
          rintro rfl
          rw [hm] at i2
          cases i2
        refine ⟨?_, ?_, ?_, i4, i5⟩
        · simp only [same h1]; exact i1
        · simp only [same h1]; exact i2
        · simp only [if_neg (Ne.symm h1)]; exact i3
      | gather hw hub hm hex hg =>
        refine ⟨i1, i2, i3, ?_, i5⟩
        intro k ev hk
        simp only [Option.some.injEq, Prod.mk.injEq] at hk
        omega
      | @recv k ev msg ev' hf hg hk hs hrec =>
        exfalso
        obtain rfl := i4 k ev hg
        rw [i3] at hs
        cases hs
      | recvFail => exact ⟨i1, i2, i3, i4, i5⟩
      | finish hf hg hres =>
        have := i4 _ _ hg
        omega
  refine ⟨key.2.2.2.2, ?_⟩
  intro θ hm hub hb
  exact ⟨_, .receiveUb (by omega) (by omega) hm hub hb key.1, by simp [MpiCounting.set]⟩

/-! ### From the files on -/

/-- **C91** The same from the files on: every rank indexes its share of the files with its threads, the indexes are gathered, and every rank
counts its share of the positions. The conclusion is that of `C82_files`. -/
theorem C91_files_partial (K : Call D Θ) (hn : 0 < K.threads) (ws : Nat) (hws : 0 < ws) (hN : ws ≤ K.numBlocks)
    (files : List (File D)) (hf : SendableFiles files K.positions) (hdist : DistinctRecords files 0 files.length)
    (hev : ∀ θ b, (K.count θ b).length < 2 ^ 64 ∧ ∀ e ∈ K.count θ b, e < 2 ^ 32)
    (n : Nat) (hn' : 0 < n) (hs : Nat → HState D) (merged : Nat → ScanMap)
    (header : ∀ r < ws, Reach (HStep files K.positions ((Mpi.share files.length ws r).1 + (Mpi.share files.length ws r).2))
      (hinit n (Mpi.share files.length ws r).1) (hs r) ∧ ∀ w ∈ (hs r).workers, w = .exited)
    (gather : ∀ r < ws, Mpi.gatherScanMap ((List.range ws).map fun r => (hs r).map) K.positions r = .ok (merged r))
    (at_ : Nat → Nat → Nat) {z : MpiCounting.State D Θ}
    (h : Reach (MpiCounting.Step K ws files merged) (MpiCounting.init K ws at_) z)
    {data : List (List (List Nat))} (hd : z.result = some data) :
    ∃ all : List (Block D), (all.map fun b => (b.pos, b.frame)).Nodup ∧
      (∀ p f, (∃ b ∈ all, b.pos = p ∧ b.frame = f) ↔ ∃ i j r sec, IsRecord files i j r p f sec) ∧
      (∀ b ∈ all, BlockOk files 0 files.length b) ∧
      data.length = K.positions ∧
      ∃ S : List (Block D), S.length = K.numBlocks ∧ (∀ b ∈ S, b.complete = true) ∧ S.Subperm all ∧
        ∃ m, ∀ p, p < K.positions → ∃ stored : List (List Nat),
          stored.Perm ((all.filter fun b => b.pos = p).map (K.count (K.threshold S))) ∧ stored.length ≤ m ∧
          data[p]? = some (stored ++ List.replicate (m - stored.length) []) := by
  have hidx := C35_merged files K.positions ws n hn' hws hf hdist hs merged header gather
  obtain ⟨all, A, _, hrest⟩ := C91_exactly_once_partial K hn ws hws hN files merged at_ hidx
    ⟨hf.positions, fun f hfm r hr => (hf.inside f hfm r hr).2, hev⟩ h hd
  refine ⟨all, A.once, ?_, A.ok, hrest⟩
  intro p f
  rw [A.iff]
  constructor
  · rintro ⟨_, _, i, j, r, sec, _, _, h⟩
    exact ⟨i, j, r, sec, h⟩
  · rintro ⟨i, j, r, sec, file, h1, h2, h3, h4⟩
    exact ⟨Nat.zero_le _, h3 ▸ (hf.inside file (List.mem_of_getElem? h1) r (List.mem_of_getElem? h2)).1, i, j, r, sec,
      Nat.zero_le _, (List.getElem?_eq_some_iff.1 h1).1, file, h1, h2, h3, h4⟩

/-- **C91** After every execution of the header passes and the gathering, there is an execution of the counting to the end, if no two
frames have the same position and the share of every rank has its number of complete frames. -/
theorem C91_returns (K : Call D Θ) (hn : 0 < K.threads) (ws : Nat) (hws : 0 < ws) (hN : ws ≤ K.numBlocks)
    (files : List (File D)) (hf : SendableFiles files K.positions) (hdist : DistinctRecords files 0 files.length)
    (hev : ∀ θ b, (K.count θ b).length < 2 ^ 64 ∧ ∀ e ∈ K.count θ b, e < 2 ^ 32)
    (hone : ∀ i j r i' j' r' p f f' sec sec', IsRecord files i j r p f sec → IsRecord files i' j' r' p f' sec' → f = f')
    (hC : ∀ r < ws, HasComplete files 0 files.length (firstPosition K.positions ws r) (endPosition K.positions ws r)
      (Mpi.sampleBlocksPerRank ws r K.numBlocks))
    (n : Nat) (hn' : 0 < n) (hs : Nat → HState D) (merged : Nat → ScanMap)
    (header : ∀ r < ws, Reach (HStep files K.positions ((Mpi.share files.length ws r).1 + (Mpi.share files.length ws r).2))
      (hinit n (Mpi.share files.length ws r).1) (hs r) ∧ ∀ w ∈ (hs r).workers, w = .exited)
    (gather : ∀ r < ws, Mpi.gatherScanMap ((List.range ws).map fun r => (hs r).map) K.positions r = .ok (merged r))
    (at_ : Nat → Nat → Nat) :
    ∃ z data, Reach (MpiCounting.Step K ws files merged) (MpiCounting.init K ws at_) z ∧ z.result = some data :=
  C91_exists K hn ws hws hN files merged at_
    (C35_merged files K.positions ws n hn' hws hf hdist hs merged header gather)
    ⟨hf.positions, fun f hfm r hr => (hf.inside f hfm r hr).2, hev⟩ hone hC

/-- **C91** If one rank has too few complete frames, rank 0 never returns. -/
theorem C91_files_hang (K : Call D Θ) (hn : 0 < K.threads) (ws : Nat) (hws : 0 < ws) (hN : ws ≤ K.numBlocks)
    (files : List (File D)) (hf : SendableFiles files K.positions) (hdist : DistinctRecords files 0 files.length)
    {r : Nat} (hr : r < ws)
    (hC : ¬ HasComplete files 0 files.length (firstPosition K.positions ws r) (endPosition K.positions ws r)
      (Mpi.sampleBlocksPerRank ws r K.numBlocks))
    (n : Nat) (hn' : 0 < n) (hs : Nat → HState D) (merged : Nat → ScanMap)
    (header : ∀ r < ws, Reach (HStep files K.positions ((Mpi.share files.length ws r).1 + (Mpi.share files.length ws r).2))
      (hinit n (Mpi.share files.length ws r).1) (hs r) ∧ ∀ w ∈ (hs r).workers, w = .exited)
    (gather : ∀ r < ws, Mpi.gatherScanMap ((List.range ws).map fun r => (hs r).map) K.positions r = .ok (merged r))
    (at_ : Nat → Nat → Nat) {z : MpiCounting.State D Θ}
    (h : Reach (MpiCounting.Step K ws files merged) (MpiCounting.init K ws at_) z) : z.result = none :=
  (C91_hang K hn ws hN files merged at_ (C35_merged files K.positions ws n hn' hws hf hdist hs merged header gather) hr hC h).1

/-- **C91** If no two frames have the same position, rank 0 can return exactly if the share of every rank has its number of complete frames. -/
theorem C91_iff (K : Call D Θ) (hn : 0 < K.threads) (ws : Nat) (hws : 0 < ws) (hN : ws ≤ K.numBlocks)
    (files : List (File D)) (hf : SendableFiles files K.positions) (hdist : DistinctRecords files 0 files.length)
    (hev : ∀ θ b, (K.count θ b).length < 2 ^ 64 ∧ ∀ e ∈ K.count θ b, e < 2 ^ 32)
    (hone : ∀ i j r i' j' r' p f f' sec sec', IsRecord files i j r p f sec → IsRecord files i' j' r' p f' sec' → f = f')
    (n : Nat) (hn' : 0 < n) (hs : Nat → HState D) (merged : Nat → ScanMap)
    (header : ∀ r < ws, Reach (HStep files K.positions ((Mpi.share files.length ws r).1 + (Mpi.share files.length ws r).2))
      (hinit n (Mpi.share files.length ws r).1) (hs r) ∧ ∀ w ∈ (hs r).workers, w = .exited)
    (gather : ∀ r < ws, Mpi.gatherScanMap ((List.range ws).map fun r => (hs r).map) K.positions r = .ok (merged r))
    (at_ : Nat → Nat → Nat) :
    (∃ z data, Reach (MpiCounting.Step K ws files merged) (MpiCounting.init K ws at_) z ∧ z.result = some data) ↔
      ∀ r < ws, HasComplete files 0 files.length (firstPosition K.positions ws r) (endPosition K.positions ws r)
        (Mpi.sampleBlocksPerRank ws r K.numBlocks) := by
  constructor
  · rintro ⟨z, data, h, hd⟩ r hr
    by_contra hC
    have := C91_files_hang K hn ws hws hN files hf hdist hr hC n hn' hs merged header gather at_ h
    rw [this] at hd
    cases hd
  · intro hC
    exact C91_returns K hn ws hws hN files hf hdist hev hone hC n hn' hs merged header gather at_

/-! ### Examples -/

/-- Four sector files of a scan of 2 × 2 positions with two complete frames, at the positions 0 and `q`. -/
def mpiFiles (q : Nat) : List (File Nat) :=
  (List.range 4).map fun s => ⟨s, [⟨1, 5, 2, 2, 0, 0, 100 + s⟩, ⟨1, 6, 2, 2, q % 2, q / 2, 200 + s⟩]⟩

/-- A call with two sample blocks for this scan. -/
def mpiCall : Call Nat Nat := { exampleCall with
  numBlocks := 2
  positions := 4
  count := fun θ b => ((b.items.map Prod.snd).filter fun d => θ < 8 * d ∧ d < 2 ^ 32).take 1000 }

theorem mpiCall_events : ∀ θ b, (mpiCall.count θ b).length < 2 ^ 64 ∧ ∀ e ∈ mpiCall.count θ b, e < 2 ^ 32 := by
  intro θ b
  constructor
  · have : (mpiCall.count θ b).length ≤ 1000 := List.length_take_le _ _
    omega
  · intro e he
    have := (List.mem_filter.1 (List.mem_of_mem_take he)).2
    simp only [decide_eq_true_eq] at this
    exact this.2

private theorem mpi_records {q : Nat} (hq : q < 4) (hq0 : 0 < q) {i j p f sec : Nat} {r : SectorReader.Rec Nat}
    (h : IsRecord (mpiFiles q) i j r p f sec) : i < 4 ∧ i = sec ∧ (j = 0 ∧ f = 5 ∧ p = 0 ∨ j = 1 ∧ f = 6 ∧ p = q) := by
  obtain ⟨file, h1, h2, h3, h4, h5⟩ := h
  rw [mpiFiles, List.getElem?_map, Option.map_eq_some_iff] at h1
  obtain ⟨s, hs, rfl⟩ := h1
  obtain ⟨hlt, e⟩ := List.getElem?_eq_some_iff.1 hs
  simp only [List.getElem_range] at e
  simp only [List.length_range] at hlt
  subst e
  have hq' : (SectorReader.Rec.mk 1 6 2 2 (q % 2) (q / 2) (200 + i)).pos = q := by
    have : q = 1 ∨ q = 2 ∨ q = 3 := by omega
    rcases this with rfl | rfl | rfl <;> rfl
  rcases j with _ | _ | j <;>
    simp only [List.getElem?_cons_zero, List.getElem?_cons_succ, List.getElem?_nil, Option.some.injEq, reduceCtorEq] at h2
  · subst h2
    exact ⟨hlt, h5, .inl ⟨rfl, h4.symm, h3.symm⟩⟩
  · subst h2
    rw [hq'] at h3
    exact ⟨hlt, h5, .inr ⟨rfl, h4.symm, h3.symm⟩⟩

theorem mpi_sendable {q : Nat} (hq : q = 3 ∨ q = 1) : SendableFiles (mpiFiles q) mpiCall.positions := by
  rcases hq with rfl | rfl
  · exact ⟨by decide, by decide, by decide, by decide, by decide⟩
  · exact ⟨by decide, by decide, by decide, by decide, by decide⟩

theorem mpi_distinct {q : Nat} (hq : q < 4) (hq0 : 0 < q) : DistinctRecords (mpiFiles q) 0 (mpiFiles q).length := by
  intro i j r i' j' r' p f sec _ _ _ _ h h'
  have h1 := mpi_records hq hq0 h
  have h2 := mpi_records hq hq0 h'
  omega

theorem mpi_one {q : Nat} (hq : q < 4) (hq0 : 0 < q) : ∀ i j r i' j' r' p f f' sec sec',
    IsRecord (mpiFiles q) i j r p f sec → IsRecord (mpiFiles q) i' j' r' p f' sec' → f = f' := by
  intro i j r i' j' r' p f f' sec sec' h h'
  have h1 := mpi_records hq hq0 h
  have h2 := mpi_records hq hq0 h'
  omega

theorem mpi_five {q : Nat} : ∀ sec < 4, ∃ i j r, 0 ≤ i ∧ i < (mpiFiles q).length ∧ IsRecord (mpiFiles q) i j r 0 5 sec := by
  intro sec hsec
  refine ⟨sec, 0, ⟨1, 5, 2, 2, 0, 0, 100 + sec⟩, Nat.zero_le _, by simpa [mpiFiles] using hsec, ?_⟩
  refine ⟨⟨sec, [⟨1, 5, 2, 2, 0, 0, 100 + sec⟩, ⟨1, 6, 2, 2, q % 2, q / 2, 200 + sec⟩]⟩, ?_, rfl, rfl, rfl, rfl⟩
  rw [mpiFiles, List.getElem?_map, List.getElem?_range hsec]
  rfl

theorem mpi_six {q : Nat} (hq : q < 4) (hq0 : 0 < q) :
    ∀ sec < 4, ∃ i j r, 0 ≤ i ∧ i < (mpiFiles q).length ∧ IsRecord (mpiFiles q) i j r q 6 sec := by
  intro sec hsec
  refine ⟨sec, 1, ⟨1, 6, 2, 2, q % 2, q / 2, 200 + sec⟩, Nat.zero_le _, by simpa [mpiFiles] using hsec, ?_⟩
  refine ⟨⟨sec, [⟨1, 5, 2, 2, 0, 0, 100 + sec⟩, ⟨1, 6, 2, 2, q % 2, q / 2, 200 + sec⟩]⟩, ?_, rfl, ?_, rfl, rfl⟩
  · rw [mpiFiles, List.getElem?_map, List.getElem?_range hsec]
    rfl
  · have : q = 1 ∨ q = 2 ∨ q = 3 := by omega
    rcases this with rfl | rfl | rfl <;> rfl

/-- The hypotheses can be met: on two ranks, with three threads for the headers, with a complete frame in the share of each rank. -/
example : ∃ (hs : Nat → HState Nat) (merged : Nat → ScanMap),
    (∀ r < 2, Reach (HStep (mpiFiles 3) mpiCall.positions ((Mpi.share 4 2 r).1 + (Mpi.share 4 2 r).2))
      (hinit 3 (Mpi.share 4 2 r).1) (hs r) ∧ ∀ w ∈ (hs r).workers, w = .exited) ∧
    (∀ r < 2, Mpi.gatherScanMap ((List.range 2).map fun r => (hs r).map) mpiCall.positions r = .ok (merged r)) ∧
    ∃ z data, Reach (MpiCounting.Step mpiCall 2 (mpiFiles 3) merged) (MpiCounting.init mpiCall 2 fun _ _ => 17) z ∧
      z.result = some data := by
  obtain ⟨hs, ps, merged, h1, h2, _⟩ := C35_exists (mpiFiles 3) mpiCall.positions 2 3 (by decide) (by decide)
    (mpi_sendable (.inl rfl)) (mpi_distinct (by decide) (by decide)) (fun _ _ => 0)
  refine ⟨hs, merged, h1, h2, ?_⟩
  refine C91_returns mpiCall (by decide) 2 (by decide) (by decide) (mpiFiles 3) (mpi_sendable (.inl rfl))
    (mpi_distinct (by decide) (by decide)) mpiCall_events (mpi_one (by decide) (by decide)) ?_ 3 (by decide) hs merged h1 h2 _
  intro r hr
  have : r = 0 ∨ r = 1 := by omega
  rcases this with rfl | rfl
  · refine ⟨[(0, 5)], by simp, by decide, ?_⟩
    intro x hx
    obtain rfl := List.mem_singleton.1 hx
    exact ⟨by decide, by decide, mpi_five⟩
  · refine ⟨[(3, 6)], by simp, by decide, ?_⟩
    intro x hx
    obtain rfl := List.mem_singleton.1 hx
    exact ⟨by decide, by decide, mpi_six (by decide) (by decide)⟩

/-- If the two complete frames are at the positions 0 and 1, one process counts them, and two ranks never return: both are in the share of rank 0. -/
example : (∃ s x data, Reach (HStep (mpiFiles 1) 4 4) (hinit 3 0) s ∧ (∀ w ∈ s.workers, w = .exited) ∧
      Reach (CountingReader.Step mpiCall (mpiFiles 1) s.map 4) (CountingReader.init mpiCall 0 fun _ => 17) x ∧ x.counting.main = .done data) ∧
    ∃ (hs : Nat → HState Nat) (merged : Nat → ScanMap),
      (∀ r < 2, Reach (HStep (mpiFiles 1) mpiCall.positions ((Mpi.share 4 2 r).1 + (Mpi.share 4 2 r).2))
        (hinit 3 (Mpi.share 4 2 r).1) (hs r) ∧ ∀ w ∈ (hs r).workers, w = .exited) ∧
      (∀ r < 2, Mpi.gatherScanMap ((List.range 2).map fun r => (hs r).map) mpiCall.positions r = .ok (merged r)) ∧
      ∀ at_ z, Reach (MpiCounting.Step mpiCall 2 (mpiFiles 1) merged) (MpiCounting.init mpiCall 2 at_) z → z.result = none := by
  have hd := mpi_distinct (q := 1) (by decide) (by decide)
  have hsd := mpi_sendable (q := 1) (.inr rfl)
  constructor
  · have h2 : ∀ f ∈ mpiFiles 1, ∀ r ∈ f.records, r.pos < 4 := fun f hf r hr => (hsd.inside f hf r hr).1
    obtain ⟨s, hs, he⟩ := C28_exists (mpiFiles 1) 4 0 4 3 (by decide) hsd.sectors h2 hd
    have hidx := (C28_index (mpiFiles 1) 4 0 4 3 (by decide) hsd.sectors h2 hd (by decide) hs).2 he
    obtain ⟨x, data, hx, hdone⟩ := C82_exists mpiCall (by decide) (mpiFiles 1) s.map 0 4 0 4 (fun _ => 17) hidx
      (by
        intro i j r i' j' r' p f f' sec sec' _ _ _ _ _ _ h h'
        exact mpi_one (by decide) (by decide) i j r i' j' r' p f f' sec sec' h h')
      (by intro i j r p f sec _ hp _ _ _; exact hp) (by decide)
      ⟨[(0, 5), (1, 6)], by decide, by decide, by
        intro x hx
        rcases List.mem_cons.1 hx with rfl | hx
        · exact ⟨by decide, by decide, mpi_five⟩
        · obtain rfl := List.mem_singleton.1 hx
          exact ⟨by decide, by decide, mpi_six (by decide) (by decide)⟩⟩
    exact ⟨s, x, data, hs, he, hx, hdone⟩
  · obtain ⟨hs, ps, merged, h1, h2, _⟩ := C35_exists (mpiFiles 1) mpiCall.positions 2 3 (by decide) (by decide)
      hsd hd (fun _ _ => 0)
    refine ⟨hs, merged, h1, h2, ?_⟩
    intro at_ z h
    refine C91_empty_share_false mpiCall (by decide) 2 (by decide) (mpiFiles 1) merged at_
      (C35_merged (mpiFiles 1) mpiCall.positions 2 3 (by decide) (by decide) hsd hd hs merged h1 h2) (r := 1) (by decide) ?_ h
    decide

end Stempy.Props
