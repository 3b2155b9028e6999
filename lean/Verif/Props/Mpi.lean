import Verif.Model.Mpi
import Verif.Lemmas.Archive
import Verif.Lemmas.ListSum
import Verif.Lemmas.Loop
import Verif.Props.MultiPass

/-!
C34-C36: MPI.
-/

namespace Stempy.Props
open Stempy.Mpi Stempy.Archive Stempy.MultiPass Stempy.Spec
open Stempy.SectorReader (Rec)

/-! ### C34 -/

private theorem share_bounds {n ws r : Nat} (hr : r < ws) :
    (share n ws r).1 = r * (n / ws) ∧ (share n ws r).1 + (share n ws r).2 = (if r + 1 = ws then n else (r + 1) * (n / ws)) ∧
      (r + 1) * (n / ws) ≤ n := by
  have h0 : ws * (n / ws) ≤ n := Nat.mul_div_le n ws
  have h1 : (r + 1) * (n / ws) ≤ ws * (n / ws) := Nat.mul_le_mul_right _ (by omega)
  have h2 : r * (n / ws) ≤ (r + 1) * (n / ws) := Nat.mul_le_mul_right _ (by omega)
  have h3 : (r + 1) * (n / ws) = r * (n / ws) + n / ws := Nat.succ_mul _ _
  refine ⟨rfl, ?_, by omega⟩
  simp only [share]
  generalize r * (n / ws) = a at *
  by_cases hl : r + 1 = ws
  · rw [if_pos (by omega), if_pos hl]; omega
  · rw [if_neg (by omega), if_neg hl]; omega

/-- **C34** Every item is in the share of exactly one rank; shares lie within the items. -/
theorem C34_exactly_one (n ws : Nat) (hws : 0 < ws) :
    (∀ i < n, ∃! r, r < ws ∧ (share n ws r).1 ≤ i ∧ i < (share n ws r).1 + (share n ws r).2) ∧
    ∀ r < ws, (share n ws r).1 + (share n ws r).2 ≤ n := by
  constructor
  · intro i hi
    by_cases hq : n / ws = 0
    · refine ⟨ws - 1, ⟨by omega, ?_⟩, ?_⟩
      · obtain ⟨h1, h2, _⟩ := share_bounds (n := n) (show ws - 1 < ws by omega)
        rw [h2, h1, hq, if_pos (by omega)]
        exact ⟨by simp, hi⟩
      · rintro r ⟨h1, h2, h3⟩
        obtain ⟨_, h5, _⟩ := share_bounds (n := n) h1
        rw [h5, hq] at h3
        split at h3 <;> omega
    · have hpos : 0 < n / ws := Nat.pos_of_ne_zero hq
      by_cases hin : i / (n / ws) < ws
      · refine ⟨i / (n / ws), ⟨hin, ?_⟩, ?_⟩
        · obtain ⟨h1, h2, h3⟩ := share_bounds (n := n) hin
          rw [h2, h1]
          refine ⟨Nat.div_mul_le_self _ _, ?_⟩
          split
          · exact hi
          · exact Nat.lt_mul_of_div_lt (Nat.lt_succ_self _) hpos
        · rintro r ⟨h1, h2, h3⟩
          obtain ⟨h4, h5, h6⟩ := share_bounds (n := n) h1
          rw [h5] at h3
          rw [h4] at h2
          have ha : r ≤ i / (n / ws) := (Nat.le_div_iff_mul_le hpos).2 h2
          split at h3
          · omega
          · have : i / (n / ws) < r + 1 := (Nat.div_lt_iff_lt_mul hpos).2 h3
            omega
      · refine ⟨ws - 1, ⟨by omega, ?_⟩, ?_⟩
        · obtain ⟨h1, h2, _⟩ := share_bounds (n := n) (show ws - 1 < ws by omega)
          rw [h2, h1, if_pos (by omega)]
          exact ⟨(Nat.le_div_iff_mul_le hpos).1 (by omega), hi⟩
        · rintro r ⟨h1, h2, h3⟩
          obtain ⟨h4, h5, h6⟩ := share_bounds (n := n) h1
          rw [h5] at h3
          split at h3
          · omega
          · have : i / (n / ws) < r + 1 := (Nat.div_lt_iff_lt_mul hpos).2 h3
            omega
  · intro r hr
    obtain ⟨_, h2, h3⟩ := share_bounds (n := n) hr
    rw [h2]
    split <;> omega

/-- **C34** The numbers of sample blocks of the ranks add up to the requested number. -/
theorem C34_samples (n ws : Nat) (hws : 0 < ws) :
    ((List.range ws).map fun r => sampleBlocksPerRank ws r n).sum = n := by
  obtain ⟨k, rfl⟩ : ∃ k, ws = k + 1 := ⟨ws - 1, by omega⟩
  rw [List.range_succ, List.map_append, List.sum_append]
  have h1 : (List.range k).map (fun r => sampleBlocksPerRank (k + 1) r n) = (List.range k).map fun _ => n / (k + 1) := by
    apply List.map_congr_left
    intro r hr
    have := List.mem_range.1 hr
    simp only [sampleBlocksPerRank]
    rw [if_neg (by omega)]
  have h2 : ((List.range k).map fun _ => n / (k + 1)).sum = k * (n / (k + 1)) := by simp
  have h3 : k * (n / (k + 1)) ≤ n := by
    have := Nat.mul_div_le n (k + 1)
    rw [Nat.succ_mul] at this
    generalize n / (k + 1) = q at *
    omega
  rw [h1, h2]
  simp only [sampleBlocksPerRank, List.map_cons, List.map_nil, List.sum_cons, List.sum_nil]
  rw [if_pos (by omega)]
  generalize k * (n / (k + 1)) = q at *
  omega

/-- With fewer blocks than ranks all ranks but the last have none (the thresholds then need `sampleBlocks[0]`,
electron.cpp:695, which does not exist on these ranks). -/
theorem C34_zero_share (n ws r : Nat) (h : n < ws) (hr : r + 1 < ws) :
    sampleBlocksPerRank ws r n = 0 ∧ (share n ws r).2 = 0 := by
  simp only [sampleBlocksPerRank, share]
  rw [if_neg (by omega), Nat.div_eq_of_lt h]
  exact ⟨rfl, rfl⟩

/-- **C34** The share of the scan positions stays the same, however often the index is asked for, if there are at least as
many positions as ranks. -/
theorem C34_stable (n ws r k : Nat) (h : ws ≤ n) (hr : r < ws) :
    (initializeScanMap n ws r)^[k + 1] ⟨0, 0, false⟩ = ⟨(share n ws r).1, (share n ws r).2, true⟩ := by
  have hq : 0 < n / ws := Nat.div_pos h (by omega)
  have hpos : (share n ws r).2 ≠ 0 := by
    obtain ⟨h1, h2, h3⟩ := share_bounds (n := n) hr
    have h4 : (r + 1) * (n / ws) = r * (n / ws) + n / ws := Nat.succ_mul _ _
    rw [h1] at h2
    generalize r * (n / ws) = a at *
    split at h2 <;> omega
  induction k with
  | zero =>
    simp only [Function.iterate_succ, Function.iterate_zero, Function.comp, id, initializeScanMap, readFirstHeader]
    simp; omega
  | succ k ih =>
    rw [Function.iterate_succ_apply', ih]
    simp [initializeScanMap, readFirstHeader, hpos]

/-- **C34** fails if there are fewer positions than ranks: asking for the index twice (`num_frames_per_scan` and then the
counting) gives the whole scan to every rank but the last, so every frame would be counted several times. -/
theorem C34_reinitialized (n ws r : Nat) (h0 : 0 < n) (h : n < ws) (hr : r + 1 < ws) :
    initializeScanMap n ws r (initializeScanMap n ws r ⟨0, 0, false⟩) = ⟨0, n, true⟩ := by
  have hs : share n ws r = (0, 0) := by
    simp only [share]
    rw [if_neg (by omega), Nat.div_eq_of_lt h]
    rfl
  have hn : n ≠ 0 := by omega
  simp [initializeScanMap, readFirstHeader, hs, hn]

/-- 10 items, 4 ranks: 2, 2, 2, 4. -/
example : (List.range 4).map (share 10 4) = [(0, 2), (2, 2), (4, 2), (6, 4)] := by decide

/-! ### C36 -/

/-- The block is one the C++ types can hold, and has as many pixels as its header says. -/
structure Sendable (b : Archive.Block) : Prop where
  scan : b.header.scanDimensions.1 < 2 ^ 32 ∧ b.header.scanDimensions.2 < 2 ^ 32
  frame : b.header.frameDimensions.1 < 2 ^ 32 ∧ b.header.frameDimensions.2 < 2 ^ 32
  images : b.header.imagesInBlock < 2 ^ 32
  number : b.header.frameNumber < 2 ^ 32
  numbers : b.header.imageNumbers.length < 2 ^ 64 ∧ ∀ i ∈ b.header.imageNumbers, i < 2 ^ 32
  size : b.data.length = b.header.frameDimensions.1 * b.header.frameDimensions.2 * b.header.imagesInBlock
  pixels : ∀ v ∈ b.data, v < 2 ^ 16

/-- What arrives. -/
def arrived (b : Archive.Block) : Archive.Block :=
  ⟨{ b.header with version := 0, timestamp := 0, scanNumber := 0, complete := [] }, b.data⟩

theorem rt_header {b : Archive.Block} (hb : Sendable b) :
    RT saveHeader loadHeader b.header (arrived b).header := by
  intro rest
  simp only [saveHeader, loadHeader, List.append_assoc, Option.bind_eq_bind]
  rw [rt_pair (rt_num (by simpa using hb.scan.1)) (rt_num (by simpa using hb.scan.2))]
  simp only [Option.bind_some]
  rw [rt_pair (rt_num (by simpa using hb.frame.1)) (rt_num (by simpa using hb.frame.2))]
  simp only [Option.bind_some]
  rw [rt_num (by simpa using hb.images)]
  simp only [Option.bind_some]
  rw [rt_num (by simpa using hb.number)]
  simp only [Option.bind_some]
  rw [rt_vector_id _ (fun i hi => rt_num (by simpa using hb.numbers.2 i hi)) (by simpa using hb.numbers.1)]
  rfl

theorem rt_block {b : Archive.Block} (hb : Sendable b) (hp : b.data.length < 2 ^ 32) :
    RT saveBlock loadBlock b (arrived b) := by
  intro rest
  simp only [saveBlock, loadBlock, List.append_assoc, Option.bind_eq_bind]
  rw [rt_header hb]
  simp only [Option.bind_some]
  have h1 : (arrived b).header.frameDimensions.1 * (arrived b).header.frameDimensions.2 *
      (arrived b).header.imagesInBlock % 2 ^ 32 = b.data.length := by
    show b.header.frameDimensions.1 * b.header.frameDimensions.2 * b.header.imagesInBlock % 2 ^ 32 = _
    rw [← hb.size, Nat.mod_eq_of_lt hp]
  rw [h1, ← hb.size, List.take_length]
  have := rt_many (f := encodeLE 2) (g := loadNum 2) (h := id) b.data
    (fun v hv => rt_num (by simpa using hb.pixels v hv)) rest
  simp only [List.map_id] at this
  rw [this]
  rfl

/-- **C36** Receiving a block that was sent gives the same dimensions, number of images, frame number, image numbers and
pixels, and uses exactly the bytes of the block. -/
theorem C36_block (b : Archive.Block) (hb : Sendable b) (hp : b.data.length < 2 ^ 32) (rest : Bytes) :
    ∃ b', loadBlock (saveBlock b ++ rest) = some (b', rest) ∧
      b'.header.scanDimensions = b.header.scanDimensions ∧ b'.header.frameDimensions = b.header.frameDimensions ∧
      b'.header.imagesInBlock = b.header.imagesInBlock ∧ b'.header.frameNumber = b.header.frameNumber ∧
      b'.header.imageNumbers = b.header.imageNumbers ∧ b'.data = b.data :=
  ⟨_, rt_block hb hp rest, rfl, rfl, rfl, rfl, rfl, rfl⟩

/-- The other fields of the header are not sent: they have their default values, the flags `complete` are missing. -/
theorem C36_not_sent (b : Archive.Block) (hb : Sendable b) (hp : b.data.length < 2 ^ 32) (rest : Bytes) {b' : Archive.Block}
    {rest' : Bytes} (h : loadBlock (saveBlock b ++ rest) = some (b', rest')) :
    b'.header.version = 0 ∧ b'.header.timestamp = 0 ∧ b'.header.scanNumber = 0 ∧ b'.header.complete = [] := by
  rw [rt_block hb hp rest] at h
  simp only [Option.some.injEq, Prod.mk.injEq] at h
  rw [← h.1]
  exact ⟨rfl, rfl, rfl, rfl⟩

/-- **C36** A message that was cut is not accepted as a block. -/
theorem C36_cut (b : Archive.Block) (hb : Sendable b) (hp : b.data.length < 2 ^ 32) {k : Nat}
    (hk : k < (saveBlock b).length) : loadBlock ((saveBlock b).take k) = none :=
  cut_none (rt_block hb hp) local_block hk

/-- With `2 ^ 32` or more pixels the receiver takes fewer pixels than were sent, because their number is computed with
32 bits. -/
theorem C36_too_large (b : Archive.Block) (hb : Sendable b) (hp : 2 ^ 32 ≤ b.data.length) (rest : Bytes) :
    ∃ b' rest', loadBlock (saveBlock b ++ rest) = some (b', rest') ∧ b'.data.length < 2 ^ 32 ∧ b'.data ≠ b.data ∧
      rest' ≠ rest := by
  simp only [saveBlock, loadBlock, List.append_assoc, Option.bind_eq_bind]
  rw [rt_header hb]
  simp only [Option.bind_some]
  have h1 : (arrived b).header.frameDimensions.1 * (arrived b).header.frameDimensions.2 *
      (arrived b).header.imagesInBlock % 2 ^ 32 = b.data.length % 2 ^ 32 := by
    show b.header.frameDimensions.1 * b.header.frameDimensions.2 * b.header.imagesInBlock % 2 ^ 32 = _
    rw [← hb.size]
  rw [h1, ← hb.size, List.take_length]
  have hm : b.data.length % 2 ^ 32 < 2 ^ 32 := Nat.mod_lt _ (by omega)
  obtain ⟨k, hk⟩ : ∃ k, k = b.data.length % 2 ^ 32 := ⟨_, rfl⟩
  rw [← hk] at hm ⊢
  have hk' : k < b.data.length := by omega
  have hl : (b.data.take k).length = k := by simp; omega
  have := rt_many (f := encodeLE 2) (g := loadNum 2) (h := id) (b.data.take k)
    (fun v hv => rt_num (by simpa using hb.pixels v (List.mem_of_mem_take hv))) ((b.data.drop k).flatMap (encodeLE 2) ++ rest)
  simp only [List.map_id, hl] at this
  rw [← List.append_assoc, ← List.flatMap_append, List.take_append_drop] at this
  rw [this]
  refine ⟨_, _, rfl, by simpa [hl] using hm, ?_, ?_⟩
  · intro h
    have := congrArg List.length h
    simp only at this
    omega
  · intro h
    have := congrArg List.length h
    simp only [List.length_append] at this
    have h0 : ((b.data.drop k).flatMap (encodeLE 2)).length = 0 := by omega
    rw [List.length_eq_zero_iff, List.flatMap_eq_nil_iff] at h0
    cases hd : b.data.drop k with
    | nil => rw [List.drop_eq_nil_iff] at hd; omega
    | cons v l =>
      have := h0 v (by simp [hd])
      have := congrArg List.length this
      rw [encodeLE_length] at this
      simp at this

/-- A block of two images of 2 x 1 pixels. -/
def smallBlock : Archive.Block := ⟨⟨(3, 2), (2, 1), 2, 5, 77, 9, 1, [4, 5], [true, false]⟩, [1, 2, 300, 65535]⟩

theorem smallBlock_sendable : Sendable smallBlock := by
  constructor <;> decide

example : (loadBlock (saveBlock smallBlock ++ [7])).map (fun x => (x.1.data, x.1.header.imageNumbers, x.2)) =
    some ([1, 2, 300, 65535], [4, 5], [7]) := by
  decide


/-! ### C35: events -/

/-- The events of a rank are ones the C++ types can hold, for a scan of `n` positions. -/
structure SendableEvents (n : Nat) (ev : List (List (List Nat))) : Prop where
  size : ev.length = n
  positions : n ≤ 2 ^ 32
  frames : ∀ fs ∈ ev, fs.length < 2 ^ 64
  events : ∀ fs ∈ ev, ∀ f ∈ fs, f.length < 2 ^ 64 ∧ ∀ e ∈ f, e < 2 ^ 32

theorem filterMap_sorted {α : Type} (l : List Nat) (hl : l.Pairwise (· < ·)) (g : Nat → Option α) :
    SMap.Sorted (l.filterMap fun i => (g i).map fun a => (i, a)) := by
  induction l with
  | nil => simp [SMap.Sorted]
  | cons i l ih =>
    have h := List.pairwise_cons.1 hl
    rw [List.filterMap_cons]
    split
    · exact ih h.2
    · rename_i b hb
      refine List.pairwise_cons.2 ⟨?_, ih h.2⟩
      intro x hx
      obtain ⟨j, hj, hx⟩ := List.mem_filterMap.1 hx
      cases hg : g i with
      | none => simp [hg] at hb
      | some a =>
        cases hgj : g j with
        | none => simp [hgj] at hx
        | some c =>
          simp only [hg, hgj, Option.map_some, Option.some.injEq] at hb hx
          rw [← hb, ← hx]
          exact h.1 j hj

theorem get_filterMap {α : Type} (n : Nat) (g : Nat → Option α) (k : Nat) :
    SMap.get ((List.range n).filterMap fun i => (g i).map fun a => (i, a)) k = if k < n then g k else none := by
  have hs := filterMap_sorted (List.range n) List.pairwise_lt_range g
  cases hg : SMap.get ((List.range n).filterMap fun i => (g i).map fun a => (i, a)) k with
  | some a =>
    obtain ⟨j, hj, hx⟩ := List.mem_filterMap.1 (SMap.mem_of_get hg)
    cases hgj : g j with
    | none => simp [hgj] at hx
    | some c =>
      simp only [hgj, Option.map_some, Option.some.injEq, Prod.mk.injEq] at hx
      obtain ⟨rfl, rfl⟩ := hx
      rw [if_pos (List.mem_range.1 hj), hgj]
  | none =>
    split
    · rename_i hk
      cases hgk : g k with
      | none => rfl
      | some c =>
        have : (k, c) ∈ (List.range n).filterMap fun i => (g i).map fun a => (i, a) :=
          List.mem_filterMap.2 ⟨k, List.mem_range.2 hk, by simp [hgk]⟩
        rw [SMap.get_of_mem hs this] at hg
        simp at hg
    · rfl

private def posEvents (ev : List (List (List Nat))) (i : Nat) : Option (List (List Nat)) :=
  if (ev.getD i []).isEmpty then none else some (ev.getD i [])

private theorem partialEvents_eq (ev : List (List (List Nat))) :
    partialEvents ev = (List.range ev.length).filterMap fun i => (posEvents ev i).map fun a => (i, a) := by
  unfold partialEvents posEvents
  congr 1
  funext i
  split <;> rfl

private theorem partialEvents_get (ev : List (List (List Nat))) (p : Nat) :
    ((partialEvents ev).get p).getD [] = ev.getD p [] := by
  rw [partialEvents_eq, get_filterMap]
  split
  · unfold posEvents
    split
    · rename_i h
      simp only [List.isEmpty_iff] at h
      rw [h]
      rfl
    · rfl
  · rename_i h
    simp [List.getD_eq_getElem?_getD, List.getElem?_eq_none (Nat.le_of_not_lt h)]

private theorem rt_events {n : Nat} {ev : List (List (List Nat))} (h : SendableEvents n ev) :
    RT saveEvents loadEvents (partialEvents ev) (partialEvents ev) := by
  have hlen : (partialEvents ev).length ≤ n := by
    rw [partialEvents]
    refine Nat.le_trans (List.length_filterMap_le _ _) ?_
    rw [List.length_range, h.size]
  have hpos := h.positions
  have key : ∀ e ∈ partialEvents ev, e.1 < n ∧ e.2 ∈ ev := by
    intro e he
    rw [partialEvents] at he
    obtain ⟨i, hi, hx⟩ := List.mem_filterMap.1 he
    have hi := List.mem_range.1 hi
    split at hx
    · simp at hx
    · simp only [Option.some.injEq] at hx
      rw [← hx, ← h.size]
      refine ⟨hi, ?_⟩
      simp only [List.getD_eq_getElem?_getD, List.getElem?_eq_getElem hi, Option.getD_some]
      exact List.getElem_mem hi
  refine rt_map _ ?_ ?_ ?_ (by omega)
  · rw [partialEvents_eq]
    exact filterMap_sorted _ List.pairwise_lt_range _
  · intro e he
    have := (key e he).1
    omega
  · intro e he
    refine rt_vector_id _ ?_ (by have := h.frames _ (key e he).2; omega)
    intro f hf
    have := h.events _ (key e he).2 f hf
    refine rt_vector_id _ ?_ (by omega)
    intro x hx
    exact rt_num (by have := this.2 x hx; omega)

private theorem addEvents_ok (m : EventMap) (hs : m.Sorted) (ev : List (List (List Nat)))
    (hk : ∀ e ∈ m, e.1 < ev.length) :
    ∃ res, addEvents ev m = .ok res ∧ res.length = ev.length ∧
      ∀ p, res.getD p [] = ev.getD p [] ++ (m.get p).getD [] := by
  induction m generalizing ev with
  | nil => exact ⟨ev, rfl, rfl, fun p => by simp [SMap.get]⟩
  | cons e m ih =>
    obtain ⟨k, a⟩ := e
    have hp := List.pairwise_cons.1 hs
    have hk0 := hk (k, a) (by simp)
    simp only at hk0
    obtain ⟨res, h1, h2, h3⟩ := ih hp.2 (ev.set k (ev[k] ++ a)) (by
      intro e he
      rw [List.length_set]
      exact hk e (by simp [he]))
    refine ⟨res, ?_, by rw [h2, List.length_set], ?_⟩
    · rw [addEvents, List.foldlM_cons]
      simp only
      rw [readAt_lt hk0, Outcome.ok_bind, writeAt_lt hk0, Outcome.ok_bind]
      exact h1
    · intro p
      rw [h3]
      simp only [SMap.get]
      by_cases hpk : k = p
      · subst hpk
        have hnone : SMap.get m k = none := by
          cases hg : SMap.get m k with
          | none => rfl
          | some b => have := hp.1 _ (SMap.mem_of_get hg); simp at this
        rw [hnone]
        simp [List.getD_eq_getElem?_getD, hk0]
      · simp [List.getD_eq_getElem?_getD, hpk]

/-- **C35** Events: afterwards the frames of rank 0 at a position are its own, followed by those of the other ranks in the
order of the ranks. -/
theorem C35_events (n : Nat) (root : List (List (List Nat))) (others : List (List (List (List Nat))))
    (hr : root.length = n) (ho : ∀ o ∈ others, SendableEvents n o) :
    ∃ res, gatherEvents root others = .ok res ∧ res.length = n ∧
      ∀ p, res.getD p [] = root.getD p [] ++ (others.map fun o => o.getD p []).flatten := by
  induction others generalizing root with
  | nil => exact ⟨root, rfl, hr, fun p => by simp⟩
  | cons o others ih =>
    have h := ho o (by simp)
    obtain ⟨r1, h1, h2, h3⟩ := addEvents_ok (partialEvents o)
      (by rw [partialEvents_eq]; exact filterMap_sorted _ List.pairwise_lt_range _) root (by
        intro e he
        rw [partialEvents] at he
        obtain ⟨i, hi, hx⟩ := List.mem_filterMap.1 he
        have hi := List.mem_range.1 hi
        split at hx
        · simp at hx
        · simp only [Option.some.injEq] at hx
          rw [← hx, hr, ← h.size]
          exact hi)
    obtain ⟨res, h4, h5, h6⟩ := ih r1 (by rw [h2, hr]) (fun o ho' => ho o (by simp [ho']))
    refine ⟨res, ?_, h5, ?_⟩
    · have hload : loadEvents (saveEvents (partialEvents o)) = some (partialEvents o, []) := by
        simpa using rt_events h []
      rw [gatherEvents, List.foldlM_cons, receive, hload]
      simp only
      rw [h1, Outcome.ok_bind]
      exact h4
    · intro p
      rw [h6, h3, partialEvents_get]
      simp

/-- No frame of a rank is lost or duplicated: frames and events are conserved in number. -/
theorem C35_events_count (n : Nat) (root : List (List (List Nat))) (others : List (List (List (List Nat))))
    (hr : root.length = n) (ho : ∀ o ∈ others, SendableEvents n o) {res : List (List (List Nat))}
    (h : gatherEvents root others = .ok res) (p : Nat) (f : List Nat) :
    (res.getD p []).count f = ((root :: others).map fun o => (o.getD p []).count f).sum := by
  obtain ⟨res', h1, _, h3⟩ := C35_events n root others hr ho
  rw [h] at h1
  simp only [Outcome.ok.injEq] at h1
  subst h1
  rw [h3, List.count_append, List.count_flatten]
  simp [Function.comp_def]

/-- If another rank has events at a position that rank 0 does not have, memory is corrupted. -/
theorem C35_events_outside (root o : List (List (List Nat))) (n p : Nat) (ho : SendableEvents n o) (hp : p < n)
    (hroot : root.length ≤ p) (hev : o.getD p [] ≠ []) : gatherEvents root [o] = .ub := by
  have hload : loadEvents (saveEvents (partialEvents o)) = some (partialEvents o, []) := by
    simpa using rt_events ho []
  have key : ∀ (m : EventMap) (ev : List (List (List Nat))), ev.length ≤ p → (∃ a, (p, a) ∈ m) → addEvents ev m = .ub := by
    intro m
    induction m with
    | nil => rintro ev _ ⟨a, ha⟩; simp at ha
    | cons e m ih =>
      rintro ev hl ⟨a, ha⟩
      rw [addEvents, List.foldlM_cons]
      by_cases hk : e.1 < ev.length
      · rw [readAt_lt hk, Outcome.ok_bind, writeAt_lt hk, Outcome.ok_bind]
        rcases List.mem_cons.1 ha with rfl | ha
        · simp only at hk; omega
        · exact ih _ (by rw [List.length_set]; exact hl) ⟨a, ha⟩
      · rw [readAt_ub.2 (by omega)]
        rfl
  have hmem : (p, o.getD p []) ∈ partialEvents o := by
    refine List.mem_filterMap.2 ⟨p, List.mem_range.2 (by rw [ho.size]; exact hp), ?_⟩
    rw [if_neg (by simpa only [List.isEmpty_iff] using hev)]
  rw [gatherEvents, List.foldlM_cons, receive, hload]
  simp only
  rw [key _ _ hroot ⟨_, hmem⟩]
  rfl

/-- Three ranks, four positions. -/
example : ∃ res, gatherEvents [[[1]], [], [], [[2, 3]]] [[[], [[4]], [], [[5], []]], [[[6]], [], [], []]] = .ok res ∧
    res = [[[1], [6]], [[4]], [], [[2, 3], [5], []]] := by
  have h1 : SendableEvents 4 [[], [[4]], [], [[5], []]] := by constructor <;> decide
  have h2 : SendableEvents 4 [[[6]], [], [], []] := by constructor <;> decide
  obtain ⟨res, h, hl, hp⟩ := C35_events 4 [[[1]], [], [], [[2, 3]]] [[[], [[4]], [], [[5], []]], [[[6]], [], [], []]] rfl
    (by simp [h1, h2])
  refine ⟨res, h, ?_⟩
  obtain ⟨a, b, c, d, rfl⟩ : ∃ a b c d, res = [a, b, c, d] := by
    match res, hl with
    | [a, b, c, d], _ => exact ⟨a, b, c, d, rfl⟩
  have e0 := hp 0
  have e1 := hp 1
  have e2 := hp 2
  have e3 := hp 3
  simp at e0 e1 e2 e3
  simp [e0, e1, e2, e3]

end Stempy.Props
