import Verif.Props.Mpi
import Mathlib.Data.List.Perm.Subperm

/-!
C35: gathering blocks and the index of sector locations.
-/

namespace Stempy.Props
open Stempy.Mpi Stempy.Archive Stempy.MultiPass Stempy.Spec
open Stempy.SectorReader (Rec)

/-! ### Blocks -/

private theorem le_sum_of_mem {l : List Nat} {a : Nat} (h : a ∈ l) : a ≤ l.sum := by
  induction l with
  | nil => simp at h
  | cons b l ih =>
    rw [List.sum_cons]
    rcases List.mem_cons.1 h with rfl | h
    · omega
    · have := ih h; omega

private theorem displacements_take (bls : List (List Archive.Block))
    (hb : ∀ bl ∈ bls, bl.length < 2 ^ 64 ∧ ∀ b ∈ bl, Sendable b ∧ b.data.length < 2 ^ 32) (pre : Bytes)
    (hsum : pre.length + ((bls.map fun bl => (saveVector saveBlock bl).length).sum) < 2 ^ 31) :
    ∃ ds, displacements (bls.map fun bl => (saveVector saveBlock bl).length) pre.length = .ok ds ∧
      takeBlocks (pre ++ (bls.map (saveVector saveBlock)).flatten)
        (ds.zip (bls.map fun bl => (saveVector saveBlock bl).length)) = .ok (bls.flatten.map arrived) := by
  induction bls generalizing pre with
  | nil => exact ⟨[], rfl, rfl⟩
  | cons bl bls ih =>
    simp only [List.map_cons, List.sum_cons] at hsum
    have hih := ih (fun bl h => hb bl (by simp [h])) (pre ++ saveVector saveBlock bl) (by
      rw [List.length_append]; omega)
    obtain ⟨ds, h1, h2⟩ := hih
    refine ⟨(pre.length : Int) :: ds, ?_, ?_⟩
    · simp only [List.map_cons, displacements]
      rw [int32_ok (by omega) (by omega), Outcome.ok_bind]
      rw [List.length_append] at h1
      push_cast at h1
      rw [h1]
      rfl
    · simp only [List.map_cons, List.zip_cons_cons, List.flatten_cons, takeBlocks, Int.toNat_natCast]
      have e : ((pre ++ (saveVector saveBlock bl ++ (bls.map (saveVector saveBlock)).flatten)).drop pre.length).take
          (saveVector saveBlock bl).length = saveVector saveBlock bl := by
        rw [List.drop_append, List.drop_of_length_le (Nat.le_refl _)]
        simp
      have hl : loadVector loadBlock (saveVector saveBlock bl) = some (bl.map arrived, []) := by
        have := rt_vector (f := saveBlock) (g := loadBlock) (h := arrived) bl
          (fun b h => rt_block ((hb bl (by simp)).2 b h).1 ((hb bl (by simp)).2 b h).2)
          (by have := (hb bl (by simp)).1; omega) []
        rw [List.append_nil] at this
        exact this
      rw [e, hl]
      simp only
      rw [List.append_assoc] at h2
      rw [h2, Outcome.ok_bind, List.map_append]

private theorem displacements_ub (sizes : List Nat) (d : Nat) (hd : d < 2 ^ 31) (hs : 2 ^ 31 ≤ d + sizes.sum) :
    displacements sizes d = .ub := by
  induction sizes generalizing d with
  | nil => simp at hs; omega
  | cons s ss ih =>
    rw [List.sum_cons] at hs
    simp only [displacements]
    by_cases h : d + s < 2 ^ 31
    · rw [int32_ok (by omega) (by omega), Outcome.ok_bind]
      have := ih (d + s) h (by omega)
      push_cast at this
      rw [this]
      rfl
    · have : int32 ((d : Int) + s) = .ub := by
        simp only [int32]
        rw [if_neg (by omega)]
      rw [this]
      rfl

/-- The fields used for the thresholds. -/
def sentFields (b : Archive.Block) :=
  (b.header.scanDimensions, b.header.frameDimensions, b.header.imagesInBlock, b.header.frameNumber,
    b.header.imageNumbers, b.data)

/-- **C35** Sample blocks: if all messages together have at most `INT_MAX` bytes, rank 0 has afterwards its own blocks
followed by those of the other ranks in the order of the ranks. -/
theorem C35_blocks (root : List Archive.Block) (others : List (List Archive.Block))
    (hb : ∀ bl ∈ root :: others, bl.length < 2 ^ 64 ∧ ∀ b ∈ bl, Sendable b ∧ b.data.length < 2 ^ 32)
    (hsum : ((root :: others).map fun bl => (saveVector saveBlock bl).length).sum < 2 ^ 31) :
    ∃ rest, gatherBlocks root others = .ok (root ++ rest) ∧ rest.map sentFields = others.flatten.map sentFields := by
  refine ⟨others.flatten.map arrived, ?_, by rw [List.map_map]; rfl⟩
  simp only [List.map_cons, List.sum_cons] at hsum
  obtain ⟨ds, h1, h2⟩ := displacements_take others (fun bl h => hb bl (by simp [h])) (saveVector saveBlock root) (by omega)
  have hany : ((((root :: others).map (saveVector saveBlock)).map List.length).any fun s => decide (2 ^ 31 ≤ s)) = false := by
    rw [List.any_eq_false]
    intro s hs
    have hle : s ≤ (((root :: others).map (saveVector saveBlock)).map List.length).sum := le_sum_of_mem hs
    have he : (((root :: others).map (saveVector saveBlock)).map List.length).sum =
        (saveVector saveBlock root).length + (others.map fun bl => (saveVector saveBlock bl).length).sum := by
      simp [Function.comp_def]
    simp only [decide_eq_true_eq]
    omega
  have he : ((others.map (saveVector saveBlock)).map List.length) = others.map fun bl => (saveVector saveBlock bl).length := by
    simp [Function.comp_def]
  simp only [gatherBlocks]
  rw [hany]
  simp only [List.map_cons, List.sum_cons, displacements, he, Bool.false_eq_true, if_false, List.flatten_cons]
  rw [int32_ok (by omega) (by omega)]
  simp only [Outcome.ok_bind]
  have h0 : (0 : Int) + ((saveVector saveBlock root).length : Int) = ((saveVector saveBlock root).length : Int) := by omega
  rw [h0, h1]
  simp only [Outcome.ok_bind]
  rw [if_neg (by omega)]
  simp only [List.zip_cons_cons, List.drop_succ_cons, List.drop_zero]
  rw [h2]
  rfl

/-- The exception for too much data (electron_mpi.cpp:151-153) cannot be reached with messages whose sizes are `int`s (for the others see
C119): when the messages together have more than
`INT_MAX` bytes, the sum of their sizes (line 143) has overflowed before. -/
theorem C35_blocks_overflow (root : List Archive.Block) (others : List (List Archive.Block))
    (hsum : 2 ^ 31 ≤ ((root :: others).map fun bl => (saveVector saveBlock bl).length).sum) :
    gatherBlocks root others = .ub := by
  simp only [gatherBlocks]
  split
  · rfl
  · rw [show (0 : Int) = ((0 : Nat) : Int) from rfl, displacements_ub _ 0 (by omega) (by
      simpa [Function.comp_def] using hsum)]
    rfl

example : ∃ rest, gatherBlocks [smallBlock] [[], [smallBlock, smallBlock]] = .ok (smallBlock :: rest) ∧
    rest.map sentFields = [sentFields smallBlock, sentFields smallBlock] := by
  refine C35_blocks [smallBlock] [[], [smallBlock, smallBlock]] ?_ (by decide)
  intro bl h
  simp only [List.mem_cons, List.not_mem_nil, or_false] at h
  rcases h with rfl | rfl | rfl <;>
    simp [smallBlock_sendable] <;> decide

/-! ### Index -/

/-- The location of a sector of a frame in an index. -/
def locationAt (map : ScanMap) (p f sec : Nat) : Option Loc := ((map p).get f).bind fun a => a sec

private abbrev E := Nat × Nat × Nat × Loc

private def putLoc (map : ScanMap) (e : E) : ScanMap :=
  update map e.1 ((map e.1).put e.2.1 (update (((map e.1).get e.2.1).getD fun _ => none) e.2.2.1 (some e.2.2.2)))

private theorem locationAt_putLoc (map : ScanMap) (e : E) (p f j : Nat) :
    locationAt (putLoc map e) p f j =
      if e.1 = p ∧ e.2.1 = f ∧ e.2.2.1 = j then some e.2.2.2 else locationAt map p f j := by
  obtain ⟨ep, ef, ej, el⟩ := e
  simp only [locationAt, putLoc, update]
  by_cases hp : p = ep
  · subst hp
    simp only [if_true, SMap.get_put, true_and]
    by_cases hf : f = ef
    · subst hf
      simp only [if_true, true_and, Option.bind_some]
      by_cases hj : j = ej
      · simp [hj, update]
      · rw [if_neg (fun h => hj h.symm), update, if_neg hj]
        cases (map p).get f <;> rfl
    · rw [if_neg hf, if_neg (fun h => hf h.1.symm)]
  · rw [if_neg hp, if_neg (fun h => hp h.1.symm)]

private theorem sorted_putLoc {map : ScanMap} (h : ∀ p, (map p).Sorted) (e : E) (p : Nat) : (putLoc map e p).Sorted := by
  simp only [putLoc, update]
  split
  · exact SMap.sorted_put (h _) _ _
  · exact h p

private theorem keys_putLoc (map : ScanMap) (e : E) (p f : Nat) :
    f ∈ (putLoc map e p).keys ↔ (e.1 = p ∧ e.2.1 = f) ∨ f ∈ (map p).keys := by
  obtain ⟨ep, ef, ej, el⟩ := e
  simp only [SMap.mem_keys, putLoc, update]
  by_cases hp : p = ep
  · subst hp
    simp only [if_true, SMap.get_put, true_and]
    by_cases hf : f = ef
    · simp [hf]
    · have hf' : ¬ ef = f := fun h => hf h.symm
      simp [hf, hf']
  · have hp' : ¬ ep = p := fun h => hp h.symm
    simp [hp, hp']

private theorem fold_sorted (es : List E) (map : ScanMap) (h : ∀ p, (map p).Sorted) (p : Nat) :
    (es.foldl putLoc map p).Sorted := by
  induction es generalizing map with
  | nil => exact h p
  | cons e es ih => exact ih _ (sorted_putLoc h e)

private theorem fold_keys (es : List E) (map : ScanMap) (p f : Nat) :
    f ∈ (es.foldl putLoc map p).keys ↔ f ∈ (map p).keys ∨ ∃ j l, (p, f, j, l) ∈ es := by
  induction es generalizing map with
  | nil => simp
  | cons e es ih =>
    obtain ⟨ep, ef, ej, el⟩ := e
    rw [List.foldl_cons, ih, keys_putLoc]
    simp only [List.mem_cons, Prod.mk.injEq]
    constructor
    · rintro ((⟨rfl, rfl⟩ | h) | ⟨j, l, h⟩)
      · exact .inr ⟨ej, el, .inl ⟨rfl, rfl, rfl, rfl⟩⟩
      · exact .inl h
      · exact .inr ⟨j, l, .inr h⟩
    · rintro (h | ⟨j, l, h | h⟩)
      · exact .inl (.inr h)
      · exact .inl (.inl ⟨h.1.symm, h.2.1.symm⟩)
      · exact .inr ⟨j, l, h⟩

private theorem fold_only (es : List E) (map : ScanMap) (p f j : Nat) (l : Loc)
    (h : locationAt (es.foldl putLoc map) p f j = some l) : (p, f, j, l) ∈ es ∨ locationAt map p f j = some l := by
  induction es generalizing map with
  | nil => exact .inr h
  | cons e es ih =>
    rcases ih _ h with h' | h'
    · exact .inl (by simp [h'])
    · clear h
      rename' h' => h
      rw [locationAt_putLoc] at h
      split at h
      · rename_i he
        obtain ⟨ep, ef, ej, el⟩ := e
        simp only [Option.some.injEq] at he h
        obtain ⟨rfl, rfl, rfl⟩ := he
        subst h
        exact .inl (by simp)
      · exact .inr h

private theorem fold_has (es : List E) (map : ScanMap) (p f j : Nat) (l : Loc)
    (hc : ∀ l', (p, f, j, l') ∈ es → l' = l) (h : (p, f, j, l) ∈ es ∨ locationAt map p f j = some l) :
    locationAt (es.foldl putLoc map) p f j = some l := by
  induction es generalizing map with
  | nil => simpa using h
  | cons e es ih =>
    rw [List.foldl_cons]
    refine ih _ (fun l' h => hc l' (by simp [h])) ?_
    rw [locationAt_putLoc]
    obtain ⟨ep, ef, ej, el⟩ := e
    by_cases he : ep = p ∧ ef = f ∧ ej = j
    · obtain ⟨rfl, rfl, rfl⟩ := he
      have := hc el (by simp)
      simp [this]
    · rw [if_neg he]
      rcases h with h | h
      · rcases List.mem_cons.1 h with h | h
        · simp only [Prod.mk.injEq] at h
          exact absurd ⟨h.1.symm, h.2.1.symm, h.2.2.1.symm⟩ he
        · exact .inl h
      · exact .inr h

private def frameEntries (p f : Nat) (ls : List Location) : List E :=
  ls.zipIdx.filterMap fun lj =>
    if lj.1.streamIndex ≠ -1 then some (p, f, lj.2, ⟨lj.1.streamIndex.toNat, lj.1.offset⟩) else none

private def mapEntries (m : SparseScanMap) : List E :=
  m.flatMap fun e => e.2.flatMap fun f => frameEntries e.1 f.1 f.2

private theorem mergeMap_eq (map : ScanMap) (m : SparseScanMap) : mergeMap map m = (mapEntries m).foldl putLoc map := by
  simp only [mergeMap, mapEntries, List.foldl_flatMap]
  congr 1
  funext map e
  congr 1
  funext map f
  simp only [mergeFrame, frameEntries]
  generalize f.2.zipIdx = l
  induction l generalizing map with
  | nil => rfl
  | cons x l ih =>
    rw [List.foldl_cons, List.filterMap_cons]
    by_cases hx : x.1.streamIndex ≠ -1
    · rw [if_pos hx, if_pos hx, List.foldl_cons]
      exact ih _
    · rw [if_neg hx, if_neg hx]
      exact ih _

/-- The index of a rank is one the C++ types can hold, for a scan of `size` positions. -/
structure SendableMap (size : Nat) (map : ScanMap) : Prop where
  positions : size ≤ 2 ^ 32
  outside : ∀ p, size ≤ p → map p = []
  sorted : ∀ p, (map p).Sorted
  frames : ∀ p, ∀ e ∈ map p, e.1 < 2 ^ 32
  streams : ∀ p, ∀ e ∈ map p, ∀ j < 4, ∀ l, e.2 j = some l → l.stream < 2 ^ 31 ∧ l.offset < 2 ^ 63

private theorem sparse_eq (map : ScanMap) (size : Nat) :
    sparse map size = (List.range size).filterMap fun i =>
      (if (map i).isEmpty then none else some ((map i).map fun e => (e.1, locations e.2))).map fun a => (i, a) := by
  unfold sparse
  congr 1
  funext i
  split <;> rfl

private theorem mem_sparse {map : ScanMap} {size : Nat} {e : Nat × SMap (List Location)} :
    e ∈ sparse map size ↔ e.1 < size ∧ map e.1 ≠ [] ∧ e.2 = (map e.1).map fun x => (x.1, locations x.2) := by
  simp only [sparse, List.mem_filterMap, List.mem_range]
  constructor
  · rintro ⟨i, hi, h⟩
    split at h
    · simp at h
    · rename_i hne
      simp only [Option.some.injEq] at h
      subst h
      exact ⟨hi, by simpa using hne, rfl⟩
  · rintro ⟨h1, h2, h3⟩
    refine ⟨e.1, h1, ?_⟩
    rw [if_neg (by simpa using h2), ← h3]

private theorem mem_frameEntries {p f : Nat} {a : Sectors} {e : E} :
    e ∈ frameEntries p f (locations a) ↔ e.1 = p ∧ e.2.1 = f ∧ e.2.2.1 < 4 ∧ a e.2.2.1 = some e.2.2.2 := by
  obtain ⟨ep, ef, ej, el⟩ := e
  simp only [frameEntries, List.mem_filterMap, Prod.exists, List.mem_zipIdx_iff_getElem?, locations, List.getElem?_map]
  constructor
  · rintro ⟨lo, j, h1, h2⟩
    split at h2
    · rename_i hne
      simp only [Option.some.injEq, Prod.mk.injEq] at h2
      obtain ⟨rfl, rfl, rfl, rfl⟩ := h2
      by_cases hj : j < 4
      · rw [List.getElem?_range hj] at h1
        simp only [Option.map_some, Option.some.injEq] at h1
        cases ha : a j with
        | none => rw [ha] at h1; simp only at h1; rw [← h1] at hne; exact absurd rfl hne
        | some loc =>
          rw [ha] at h1
          simp only at h1
          rw [← h1]
          exact ⟨rfl, rfl, hj, by simp⟩
      · rw [List.getElem?_eq_none (by simpa using hj)] at h1
        simp at h1
    · simp at h2
  · rintro ⟨rfl, rfl, hj, ha⟩
    refine ⟨⟨ej, el.stream, el.offset⟩, ej, ?_, ?_⟩
    · rw [List.getElem?_range hj]
      simp [ha]
    · simp only
      rw [if_pos (by omega)]
      rfl

private theorem mem_mapEntries {map : ScanMap} {size : Nat} (hm : SendableMap size map) {p f j : Nat} {l : Loc} :
    (p, f, j, l) ∈ mapEntries (sparse map size) ↔ j < 4 ∧ locationAt map p f j = some l := by
  simp only [mapEntries, List.mem_flatMap, Prod.exists]
  constructor
  · rintro ⟨p', ms, h1, f', ls, h2, h3⟩
    rw [mem_sparse] at h1
    obtain ⟨_, _, h4⟩ := h1
    simp only at h4
    rw [h4, List.mem_map] at h2
    obtain ⟨⟨f2, a⟩, h5, h6⟩ := h2
    simp only [Prod.mk.injEq] at h6
    obtain ⟨rfl, rfl⟩ := h6
    rw [mem_frameEntries] at h3
    obtain ⟨rfl, rfl, hj, ha⟩ := h3
    refine ⟨hj, ?_⟩
    simp only at ha ⊢
    rw [locationAt, SMap.get_of_mem (hm.sorted _) h5]
    exact ha
  · rintro ⟨hj, h⟩
    simp only [locationAt] at h
    cases ha : (map p).get f with
    | none => rw [ha] at h; simp at h
    | some a =>
      rw [ha, Option.bind_some] at h
      have hmem := SMap.mem_of_get ha
      refine ⟨p, _, mem_sparse.2 ⟨?_, ?_, rfl⟩, f, locations a, List.mem_map.2 ⟨_, hmem, rfl⟩,
        mem_frameEntries.2 ⟨rfl, rfl, hj, h⟩⟩
      · by_contra hp
        rw [hm.outside p (by simpa using hp)] at hmem
        simp at hmem
      · intro h0
        simp only at h0
        rw [h0] at hmem
        simp at hmem

private theorem rt_location {l : Location} (h1 : -1 ≤ l.sector ∧ l.sector < 4) (h2 : -1 ≤ l.streamIndex ∧ l.streamIndex < 2 ^ 31)
    (h3 : l.offset < 2 ^ 63) : RT saveLocation loadLocation l l := by
  intro rest
  simp only [saveLocation, loadLocation, List.append_assoc, Option.bind_eq_bind]
  rw [rt_int (by simp; omega) (by simp; omega)]
  simp only [Option.bind_some]
  rw [rt_int (by simp; omega) (by simp; omega)]
  simp only [Option.bind_some]
  rw [rt_num (by omega)]
  rfl

private theorem sorted_length {α : Type} {m : SMap α} (hs : m.Sorted) {n : Nat} (h : ∀ e ∈ m, e.1 < n) : m.length ≤ n := by
  have hk := SMap.sorted_keys hs
  have hnd : m.keys.Nodup := hk.imp fun h => Nat.ne_of_lt h
  have hsub : m.keys ⊆ List.range n := by
    intro k hk
    simp only [SMap.keys, List.mem_map] at hk
    obtain ⟨e, he, rfl⟩ := hk
    exact List.mem_range.2 (h e he)
  have := (List.Nodup.subperm hnd hsub).length_le
  simpa [SMap.keys] using this

theorem rt_scanMap {map : ScanMap} {size : Nat} (hm : SendableMap size map) :
    RT saveScanMap loadScanMap (sparse map size) (sparse map size) := by
  have hs : SMap.Sorted (sparse map size) := by
    rw [sparse_eq]
    exact filterMap_sorted _ List.pairwise_lt_range _
  have hk : ∀ e ∈ sparse map size, e.1 < 2 ^ 32 := by
    intro e he
    have := (mem_sparse.1 he).1
    have := hm.positions
    omega
  refine rt_map _ hs (fun e he => by have := hk e he; omega) ?_ (by have := sorted_length hs hk; omega)
  intro e he
  obtain ⟨_, _, h3⟩ := mem_sparse.1 he
  rw [h3]
  have hs2 : SMap.Sorted ((map e.1).map fun x => (x.1, locations x.2)) := by
    rw [SMap.Sorted, List.pairwise_map]
    exact hm.sorted e.1
  have hk2 : ∀ x ∈ (map e.1).map fun x => (x.1, locations x.2), x.1 < 2 ^ 32 := by
    intro x hx
    obtain ⟨y, hy, rfl⟩ := List.mem_map.1 hx
    exact hm.frames _ y hy
  refine rt_map _ hs2 (fun x hx => by have := hk2 x hx; omega) ?_ (by have := sorted_length hs2 hk2; omega)
  intro x hx
  obtain ⟨y, hy, rfl⟩ := List.mem_map.1 hx
  intro rest
  have hlen : (locations y.2).length = 4 := by simp [locations]
  have := rt_many (f := saveLocation) (g := loadLocation) (h := id) (locations y.2) (by
    intro l hl
    simp only [locations, List.mem_map, List.mem_range] at hl
    obtain ⟨j, hj, rfl⟩ := hl
    cases ha : y.2 j with
    | none => exact rt_location ⟨by simp, by simp⟩ ⟨by simp, by simp⟩ (by simp)
    | some loc =>
      have := hm.streams _ y hy j hj loc ha
      exact rt_location ⟨by simp only; omega, by simp only; omega⟩ ⟨by simp only; omega, by simp only; omega⟩ this.2) rest
  rw [hlen, List.map_id] at this
  exact this

private def others (maps : List ScanMap) (size me : Nat) : List E :=
  maps.zipIdx.flatMap fun r => if r.2 = me then [] else mapEntries (sparse r.1 size)

private theorem gatherScanMap_eq (maps : List ScanMap) (size me : Nat) (hs : ∀ m ∈ maps, SendableMap size m) :
    gatherScanMap maps size me = .ok ((others maps size me).foldl putLoc (maps.getD me fun _ => [])) := by
  rw [gatherScanMap, foldlM_ok _ _ (fun map r => (if r.2 = me then [] else mapEntries (sparse r.1 size)).foldl putLoc map)
    (fun _ => True) _ trivial, others, List.foldl_flatMap]
  intro map _ r hr
  refine ⟨?_, trivial⟩
  by_cases h : r.2 = me
  · simp [h]
  · have hmem : r.1 ∈ maps := by
      have := List.mem_zipIdx_iff_getElem?.1 hr
      exact List.mem_of_getElem? this
    have hload : loadScanMap (saveScanMap (sparse r.1 size)) = some (sparse r.1 size, []) := by
      simpa using rt_scanMap (hs _ hmem) []
    simp only [if_neg h, hload]
    rw [mergeMap_eq]

theorem gatherScanMap_ok (maps : List ScanMap) (size me : Nat) (hs : ∀ m ∈ maps, SendableMap size m) :
    ∃ res, gatherScanMap maps size me = .ok res :=
  ⟨_, gatherScanMap_eq maps size me hs⟩

/-- **C35** Index: afterwards every rank has the locations of all ranks (of the four sectors), and the frames of its own
index and those with a location in another. -/
theorem C35_union (maps : List ScanMap) (size me : Nat) (hme : me < maps.length) (hs : ∀ m ∈ maps, SendableMap size m)
    (hc : ∀ m ∈ maps, ∀ m' ∈ maps, ∀ p f j l l', locationAt m p f j = some l → locationAt m' p f j = some l' → l = l') :
    ∃ res, gatherScanMap maps size me = .ok res ∧ (∀ p, (res p).Sorted) ∧
      (∀ p f j l, j < 4 → (locationAt res p f j = some l ↔ ∃ m ∈ maps, locationAt m p f j = some l)) ∧
      (∀ p f j, 4 ≤ j → locationAt res p f j = locationAt maps[me] p f j) ∧
      (∀ p f, f ∈ (res p).keys ↔ f ∈ (maps[me] p).keys ∨ ∃ m ∈ maps, ∃ j l, j < 4 ∧ locationAt m p f j = some l) := by
  have hget : maps.getD me (fun _ => []) = maps[me] := by
    rw [List.getD_eq_getElem?_getD, List.getElem?_eq_getElem hme, Option.getD_some]
  have hmem : maps[me] ∈ maps := List.getElem_mem hme
  have hoth : ∀ p f j l, (p, f, j, l) ∈ others maps size me ↔
      ∃ r m, r ≠ me ∧ maps[r]? = some m ∧ j < 4 ∧ locationAt m p f j = some l := by
    intro p f j l
    simp only [others, List.mem_flatMap, Prod.exists, List.mem_zipIdx_iff_getElem?]
    constructor
    · rintro ⟨m, r, h1, h2⟩
      by_cases h : r = me
      · simp [h] at h2
      · rw [if_neg h, mem_mapEntries (hs m (List.mem_of_getElem? h1))] at h2
        exact ⟨r, m, h, h1, h2.1, h2.2⟩
    · rintro ⟨r, m, h, h1, h2, h3⟩
      refine ⟨m, r, h1, ?_⟩
      rw [if_neg h, mem_mapEntries (hs m (List.mem_of_getElem? h1))]
      exact ⟨h2, h3⟩
  have hcase : ∀ p f j l m, m ∈ maps → j < 4 → locationAt m p f j = some l →
      (p, f, j, l) ∈ others maps size me ∨ locationAt maps[me] p f j = some l := by
    intro p f j l m hm hj h
    obtain ⟨r, hr⟩ := List.getElem?_of_mem hm
    by_cases h0 : r = me
    · subst h0
      rw [List.getElem?_eq_getElem hme] at hr
      simp only [Option.some.injEq] at hr
      subst hr
      exact .inr h
    · exact .inl ((hoth p f j l).2 ⟨r, m, h0, hr, hj, h⟩)
  refine ⟨_, gatherScanMap_eq maps size me hs, ?_, ?_, ?_, ?_⟩
  · rw [hget]
    exact fold_sorted _ _ (hs _ hmem).sorted
  · intro p f j l hj
    rw [hget]
    constructor
    · intro h
      rcases fold_only _ _ _ _ _ _ h with h | h
      · obtain ⟨r, m, _, h1, _, h2⟩ := (hoth p f j l).1 h
        exact ⟨m, List.mem_of_getElem? h1, h2⟩
      · exact ⟨_, hmem, h⟩
    · rintro ⟨m, hm, h⟩
      refine fold_has _ _ _ _ _ _ ?_ (hcase p f j l m hm hj h)
      intro l' hl'
      obtain ⟨r, m', _, h1, _, h2⟩ := (hoth p f j l').1 hl'
      exact hc m' (List.mem_of_getElem? h1) m hm p f j l' l h2 h
  · intro p f j hj
    rw [hget]
    have hno : ∀ l, (p, f, j, l) ∉ others maps size me := by
      intro l h
      obtain ⟨_, _, _, _, h2, _⟩ := (hoth p f j l).1 h
      omega
    cases hl : locationAt maps[me] p f j with
    | some l => exact fold_has _ _ _ _ _ _ (fun l' h => absurd h (hno l')) (.inr hl)
    | none =>
      cases hr : locationAt ((others maps size me).foldl putLoc maps[me]) p f j with
      | none => rfl
      | some l =>
        rcases fold_only _ _ _ _ _ _ hr with h | h
        · exact absurd h (hno l)
        · rw [hl] at h; simp at h
  · intro p f
    rw [hget, fold_keys]
    constructor
    · rintro (h | ⟨j, l, h⟩)
      · exact .inl h
      · obtain ⟨r, m, _, h1, h2, h3⟩ := (hoth p f j l).1 h
        exact .inr ⟨m, List.mem_of_getElem? h1, j, l, h2, h3⟩
    · rintro (h | ⟨m, hm, j, l, hj, h⟩)
      · exact .inl h
      · rcases hcase p f j l m hm hj h with h | h
        · exact .inr ⟨j, l, h⟩
        · refine .inl (SMap.mem_keys.2 ?_)
          simp only [locationAt] at h
          cases hg : (maps[me] p).get f with
          | none => rw [hg] at h; simp at h
          | some a => rfl

/-- The files are ones whose index can be sent. -/
structure SendableFiles {D : Type} (files : List (File D)) (size : Nat) : Prop where
  positions : size ≤ 2 ^ 32
  sectors : ∀ f ∈ files, f.sector < 4
  inside : ∀ f ∈ files, ∀ r ∈ f.records, r.pos < size ∧ r.frameNumber < 2 ^ 32
  number : files.length ≤ 2 ^ 31
  length : ∀ f ∈ files, f.records.length * recordSize < 2 ^ 63

private theorem isRecord_mem {D : Type} {files : List (File D)} {i j p f sec : Nat} {r : Rec D}
    (h : IsRecord files i j r p f sec) : ∃ file ∈ files, r ∈ file.records ∧ file.sector = sec ∧ r.pos = p ∧
      r.frameNumber = f ∧ i < files.length ∧ j < file.records.length := by
  obtain ⟨file, h1, h2, h3, h4, h5⟩ := h
  exact ⟨file, List.mem_of_getElem? h1, List.mem_of_getElem? h2, h5, h3, h4, (List.getElem?_eq_some_iff.1 h1).1,
    (List.getElem?_eq_some_iff.1 h2).1⟩

private theorem sendable_index {D : Type} {files : List (File D)} {size lo hi : Nat} (hf : SendableFiles files size)
    {map : ScanMap} (h : IsIndex files lo hi map) : SendableMap size map := by
  have key : ∀ p, ∀ e ∈ map p, ∃ i j r sec, IsRecord files i j r p e.1 sec := by
    intro p e he
    obtain ⟨i, j, r, sec, _, _, h3⟩ := (h.keys p e.1).1 (by
      simp only [SMap.keys, List.mem_map]
      exact ⟨e, he, rfl⟩)
    exact ⟨i, j, r, sec, h3⟩
  refine ⟨hf.positions, ?_, h.sorted, ?_, ?_⟩
  · intro p hp
    cases hm : map p with
    | nil => rfl
    | cons e l =>
      obtain ⟨i, j, r, sec, hr⟩ := key p e (by simp [hm])
      obtain ⟨file, h1, h2, _, h3, _⟩ := isRecord_mem hr
      have := (hf.inside file h1 r h2).1
      omega
  · intro p e he
    obtain ⟨i, j, r, sec, hr⟩ := key p e he
    obtain ⟨file, h1, h2, _, _, h3, _⟩ := isRecord_mem hr
    have := (hf.inside file h1 r h2).2
    omega
  · intro p e he sec hsec l hl
    obtain ⟨i, j, r, _, _, h3, rfl⟩ := (h.loc p e.1 sec l).1 ⟨e.2, SMap.get_of_mem (h.sorted p) he, hl⟩
    obtain ⟨file, h1, h2, _, _, _, h4, h5⟩ := isRecord_mem h3
    have := hf.number
    have h6 := hf.length file h1
    have h7 : (j + 1) * recordSize ≤ file.records.length * recordSize := Nat.mul_le_mul_right _ (by omega)
    have h8 : (j + 1) * recordSize = j * recordSize + recordSize := Nat.succ_mul _ _
    have h9 : 16 ≤ recordSize := by decide
    simp only
    generalize j * recordSize = x at *
    omega

/-- **C35** If every rank has indexed its share of the files, then after gathering every rank has the index of all
files. -/
theorem C35_index {D : Type} (files : List (File D)) (size ws me : Nat) (maps : List ScanMap) (hws : maps.length = ws)
    (hme : me < ws) (hf : SendableFiles files size) (hd : DistinctRecords files 0 files.length)
    (hidx : ∀ r m, maps[r]? = some m →
      IsIndex files (share files.length ws r).1 ((share files.length ws r).1 + (share files.length ws r).2) m) :
    ∃ res, gatherScanMap maps size me = .ok res ∧ IsIndex files 0 files.length res := by
  have hpart := C34_exactly_one files.length ws (by omega)
  have hany : ∀ m ∈ maps, ∃ r, r < ws ∧ maps[r]? = some m := by
    intro m hm
    obtain ⟨r, hr⟩ := List.getElem?_of_mem hm
    exact ⟨r, by have := (List.getElem?_eq_some_iff.1 hr).1; omega, hr⟩
  have hloc : ∀ lo hi m, IsIndex files lo hi m → ∀ p f sec l, locationAt m p f sec = some l ↔
      ∃ i j r, lo ≤ i ∧ i < hi ∧ IsRecord files i j r p f sec ∧ l = ⟨i, j * recordSize + 16⟩ := by
    intro lo hi m h p f sec l
    rw [← h.loc p f sec l, locationAt, Option.bind_eq_some_iff]
  obtain ⟨res, h1, h2, h3, h4, h5⟩ := C35_union maps size me (by omega)
    (fun m hm => by
      obtain ⟨r, _, hr⟩ := hany m hm
      exact sendable_index hf (hidx r m hr))
    (by
      intro m hm m' hm' p f j l l' hl hl'
      obtain ⟨r, _, hr⟩ := hany m hm
      obtain ⟨r', _, hr'⟩ := hany m' hm'
      obtain ⟨i, k, rc, _, _, a3, rfl⟩ := (hloc _ _ _ (hidx r m hr) p f j l).1 hl
      obtain ⟨i', k', rc', _, _, b3, rfl⟩ := (hloc _ _ _ (hidx r' m' hr') p f j l').1 hl'
      obtain ⟨_, _, _, _, _, _, hi, _⟩ := isRecord_mem a3
      obtain ⟨_, _, _, _, _, _, hi', _⟩ := isRecord_mem b3
      obtain ⟨rfl, rfl⟩ := hd i k rc i' k' rc' p f j (by omega) hi (by omega) hi' a3 b3
      rfl)
  have hall : ∀ p f sec l, (∃ m ∈ maps, locationAt m p f sec = some l) ↔
      ∃ i j r, i < files.length ∧ IsRecord files i j r p f sec ∧ l = ⟨i, j * recordSize + 16⟩ := by
    intro p f sec l
    constructor
    · rintro ⟨m, hm, h⟩
      obtain ⟨r, hrw, hr⟩ := hany m hm
      obtain ⟨i, j, rc, _, a2, a3, a4⟩ := (hloc _ _ _ (hidx r m hr) p f sec l).1 h
      exact ⟨i, j, rc, by have := hpart.2 r hrw; omega, a3, a4⟩
    · rintro ⟨i, j, rc, hi, a3, a4⟩
      obtain ⟨r, ⟨hrw, b1, b2⟩, _⟩ := hpart.1 i hi
      have hr : maps[r]? = some maps[r] := List.getElem?_eq_getElem (by omega)
      exact ⟨_, List.getElem_mem (by omega), (hloc _ _ _ (hidx r _ hr) p f sec l).2 ⟨i, j, rc, b1, b2, a3, a4⟩⟩
  have hsec : ∀ i j r p f sec, IsRecord files i j r p f sec → sec < 4 := by
    intro i j r p f sec h
    obtain ⟨file, a1, _, a3, _⟩ := isRecord_mem h
    rw [← a3]
    exact hf.sectors file a1
  have hmine : maps[me]? = some maps[me] := List.getElem?_eq_getElem (by omega)
  have hmineI := hidx me _ hmine
  refine ⟨res, h1, h2, ?_, ?_⟩
  · intro p f sec loc
    rw [← Option.bind_eq_some_iff]
    change locationAt res p f sec = some loc ↔ _
    by_cases hs : sec < 4
    · rw [h3 p f sec loc hs, hall]
      constructor
      · rintro ⟨i, j, r, a, b, c⟩; exact ⟨i, j, r, by omega, a, b, c⟩
      · rintro ⟨i, j, r, _, a, b, c⟩; exact ⟨i, j, r, a, b, c⟩
    · rw [h4 p f sec (by omega), hloc _ _ _ hmineI]
      constructor
      · rintro ⟨i, j, r, _, _, c, _⟩
        exact absurd (hsec i j r p f sec c) hs
      · rintro ⟨i, j, r, _, _, c, _⟩
        exact absurd (hsec i j r p f sec c) hs
  · intro p f
    rw [h5]
    constructor
    · rintro (h | ⟨m, hm, j, l, _, h⟩)
      · obtain ⟨i, j, r, sec, _, a2, a3⟩ := (hmineI.keys p f).1 h
        exact ⟨i, j, r, sec, by omega, by have := hpart.2 me hme; omega, a3⟩
      · obtain ⟨i, k, r, a1, a2, _⟩ := (hall p f j l).1 ⟨m, hm, h⟩
        exact ⟨i, k, r, j, by omega, a1, a2⟩
    · rintro ⟨i, j, r, sec, _, a2, a3⟩
      obtain ⟨m, hm, h⟩ := (hall p f sec _).2 ⟨i, j, r, a2, a3, rfl⟩
      exact .inr ⟨m, hm, sec, _, hsec i j r p f sec a3, h⟩

/-- **C35** After the header passes of all ranks and the gathering, every rank has the index of all files. -/
theorem C35_merged {D : Type} (files : List (File D)) (size ws threads : Nat) (hthreads : 0 < threads) (hws : 0 < ws)
    (hf : SendableFiles files size) (hd : DistinctRecords files 0 files.length)
    (hs : Nat → HState D) (merged : Nat → ScanMap)
    (header : ∀ r < ws, Reach (HStep files size ((share files.length ws r).1 + (share files.length ws r).2))
      (hinit threads (share files.length ws r).1) (hs r) ∧ ∀ w ∈ (hs r).workers, w = .exited)
    (gather : ∀ r < ws, gatherScanMap ((List.range ws).map fun r => (hs r).map) size r = .ok (merged r)) :
    ∀ r < ws, IsIndex files 0 files.length (merged r) := by
  have hpart := C34_exactly_one files.length ws hws
  have hdist : ∀ r < ws, DistinctRecords files (share files.length ws r).1
      ((share files.length ws r).1 + (share files.length ws r).2) := by
    intro r hr i j rc i' j' rc' p f sec h1 h2 h3 h4 h5 h6
    have := hpart.2 r hr
    exact hd i j rc i' j' rc' p f sec (by omega) (by omega) (by omega) (by omega) h5 h6
  intro me hme
  obtain ⟨res, h1, h2⟩ := C35_index files size ws me ((List.range ws).map fun r => (hs r).map) (by simp) hme hf hd (by
    intro r m hm
    have hr : r < ws := by
      have := (List.getElem?_eq_some_iff.1 hm).1
      simpa using this
    rw [List.getElem?_map, List.getElem?_range hr] at hm
    simp only [Option.map_some, Option.some.injEq] at hm
    rw [← hm]
    exact (C28_index files size _ _ threads (hpart.2 r hr) hf.sectors (fun f hf' r hr => (hf.inside f hf' r hr).1)
      (hdist r hr) hthreads (header r hr).1).2 (header r hr).2)
  rw [gather me hme] at h1
  simp only [Outcome.ok.injEq] at h1
  rw [h1]
  exact h2

/-- **C34, C35** The whole run over `ws` ranks: every rank indexes its share of the files, the indexes are gathered, and
every rank processes its share of the positions of the merged index. Then every frame of which there is a record is given
to the user function by exactly one rank and exactly once, for any number of ranks and threads and any schedules. -/
theorem C35_exactly_once {D : Type} (files : List (File D)) (size ws threads : Nat) (hthreads : 0 < threads) (hws : 0 < ws)
    (hf : SendableFiles files size) (hd : DistinctRecords files 0 files.length)
    (hs : Nat → HState D) (ps : Nat → PState D) (at_ : Nat → Nat → Nat) (merged : Nat → ScanMap)
    (header : ∀ r < ws, Reach (HStep files size ((share files.length ws r).1 + (share files.length ws r).2))
      (hinit threads (share files.length ws r).1) (hs r) ∧ ∀ w ∈ (hs r).workers, w = .exited)
    (gather : ∀ r < ws, gatherScanMap ((List.range ws).map fun r => (hs r).map) size r = .ok (merged r))
    (process : ∀ r < ws, Reach (PStep files (merged r) ((share size ws r).1 + (share size ws r).2))
      (pinit threads (share size ws r).1 (at_ r)) (ps r) ∧ ∀ w ∈ (ps r).workers, w = .exited) :
    (∀ r < ws, ((ps r).delivered.map fun b => (b.pos, b.frame)).Nodup) ∧
    (∀ r < ws, ∀ b ∈ (ps r).delivered, BlockOk files 0 files.length b) ∧
    ∀ p f, (∃ i j r sec, IsRecord files i j r p f sec) ↔ ∃! r, r < ws ∧ ∃ b ∈ (ps r).delivered, b.pos = p ∧ b.frame = f := by
  have hposp := C34_exactly_one size ws hws
  have hidx := C35_merged files size ws threads hthreads hws hf hd hs merged header gather
  have honce : ∀ r, (hr : r < ws) → _ := fun r hr =>
    C29_exactly_once files (merged r) 0 files.length _ _ threads (at_ r) (hidx r hr) hthreads (process r hr).1
      (process r hr).2
  refine ⟨fun r hr => (honce r hr).1, fun r hr => C29_content files (merged r) 0 files.length _ _ threads (at_ r)
    (hidx r hr) (process r hr).1, ?_⟩
  intro p f
  constructor
  · rintro ⟨i, j, rc, sec, h⟩
    obtain ⟨file, a1, a2, _, a4, _, a6, _⟩ := isRecord_mem h
    have hp : p < size := by rw [← a4]; exact (hf.inside file a1 rc a2).1
    obtain ⟨r, ⟨b1, b2, b3⟩, buniq⟩ := hposp.1 p hp
    refine ⟨r, ⟨b1, ((honce r b1).2 p f).2 ⟨b2, b3, i, j, rc, sec, by omega, a6, h⟩⟩, ?_⟩
    rintro r' ⟨c1, c2⟩
    have := ((honce r' c1).2 p f).1 c2
    exact buniq r' ⟨c1, this.1, this.2.1⟩
  · rintro ⟨r, ⟨h1, h2⟩, _⟩
    obtain ⟨_, _, i, j, rc, sec, _, _, h⟩ := ((honce r h1).2 p f).1 h2
    exact ⟨i, j, rc, sec, h⟩

/-- The hypotheses can be met: such runs exist for all files and all numbers of ranks. -/
theorem C35_exists {D : Type} (files : List (File D)) (size ws threads : Nat) (hthreads : 0 < threads) (hws : 0 < ws)
    (hf : SendableFiles files size) (hd : DistinctRecords files 0 files.length) (at_ : Nat → Nat → Nat) :
    ∃ (hs : Nat → HState D) (ps : Nat → PState D) (merged : Nat → ScanMap),
      (∀ r < ws, Reach (HStep files size ((share files.length ws r).1 + (share files.length ws r).2))
        (hinit threads (share files.length ws r).1) (hs r) ∧ ∀ w ∈ (hs r).workers, w = .exited) ∧
      (∀ r < ws, gatherScanMap ((List.range ws).map fun r => (hs r).map) size r = .ok (merged r)) ∧
      ∀ r < ws, Reach (PStep files (merged r) ((share size ws r).1 + (share size ws r).2))
        (pinit threads (share size ws r).1 (at_ r)) (ps r) ∧ ∀ w ∈ (ps r).workers, w = .exited := by
  have hpart := C34_exactly_one files.length ws hws
  have hpos : ∀ f ∈ files, ∀ r ∈ f.records, r.pos < size := fun f hf' r hr => (hf.inside f hf' r hr).1
  have hdist : ∀ r < ws, DistinctRecords files (share files.length ws r).1
      ((share files.length ws r).1 + (share files.length ws r).2) := by
    intro r hr i j rc i' j' rc' p f sec h1 h2 h3 h4 h5 h6
    have := hpart.2 r hr
    exact hd i j rc i' j' rc' p f sec (by omega) (by omega) (by omega) (by omega) h5 h6
  have hh : ∀ r : Nat, ∃ s : HState D, r < ws → Reach (HStep files size ((share files.length ws r).1 + (share files.length ws r).2))
      (hinit threads (share files.length ws r).1) s ∧ ∀ w ∈ s.workers, w = .exited := by
    intro r
    by_cases hr : r < ws
    · obtain ⟨s, h1, h2⟩ := C28_exists files size (share files.length ws r).1 _ threads (hpart.2 r hr) hf.sectors hpos
        (hdist r hr)
      exact ⟨s, fun _ => ⟨h1, h2⟩⟩
    · exact ⟨hinit threads 0, fun h => absurd h hr⟩
  obtain ⟨hs, hhs⟩ := Classical.axiomOfChoice hh
  have hm : ∀ r : Nat, ∃ m : ScanMap, r < ws → gatherScanMap ((List.range ws).map fun r => (hs r).map) size r = .ok m := by
    intro me
    by_cases hme : me < ws
    · obtain ⟨res, h1, _⟩ := C35_index files size ws me ((List.range ws).map fun r => (hs r).map) (by simp) hme hf hd (by
        intro r m hm
        have hr : r < ws := by
          have := (List.getElem?_eq_some_iff.1 hm).1
          simpa using this
        rw [List.getElem?_map, List.getElem?_range hr] at hm
        simp only [Option.map_some, Option.some.injEq] at hm
        rw [← hm]
        exact (C28_index files size _ _ threads (hpart.2 r hr) hf.sectors hpos
          (hdist r hr) hthreads (hhs r hr).1).2 (hhs r hr).2)
      exact ⟨res, fun _ => h1⟩
    · exact ⟨fun _ => [], fun h => absurd h hme⟩
  obtain ⟨merged, hmerged⟩ := Classical.axiomOfChoice hm
  have hp : ∀ r : Nat, ∃ s : PState D, Reach (PStep files (merged r) ((share size ws r).1 + (share size ws r).2))
      (pinit threads (share size ws r).1 (at_ r)) s ∧ ∀ w ∈ s.workers, w = .exited := fun r =>
    C29_exists files (merged r) _ _ threads (at_ r)
  obtain ⟨ps, hps⟩ := Classical.axiomOfChoice hp
  exact ⟨hs, ps, merged, hhs, hmerged, fun r _ => hps r⟩

/-- `twoFiles` (a scan of 6 positions) meets the hypotheses, e.g. with 4 ranks. -/
example : SendableFiles twoFiles 6 ∧ DistinctRecords twoFiles 0 twoFiles.length :=
  ⟨by constructor <;> decide, twoFiles_distinct⟩

end Stempy.Props
