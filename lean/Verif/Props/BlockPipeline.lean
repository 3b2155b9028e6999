import Verif.Lemmas.BlockPipeline
import Verif.Props.EndToEnd

/-!
C87: block-wise counting of sector files, with the rewind after the blocks for the thresholds.
-/

namespace Stempy.Props
open Stempy.Spec Stempy.BlockPipeline
open Stempy.SectorReader (Rec Layout State Reads read create reset find assemble at' openGroup InvFeed feedAll version4 version5 Cache Sorted)
open Stempy.Electron (CountOptions countFrameClassic electronCountClassic)

/-! ### Specification -/

/-- The layouts of the versions 4 and 5. -/
def layout (v4 : Bool) : Layout (List Nat) (List Nat) := if v4 then version4 else version5

/-- The sector of a pixel: the strips are columns in version 4 and rows in version 5. -/
def sectorAt (v4 : Bool) (c l : Nat) : Nat := if v4 then c / 144 else l / 144

/-- The place of a pixel in the data of its sector. -/
def indexAt (v4 : Bool) (c l : Nat) : Nat := if v4 then 144 * l + c % 144 else 576 * (l % 144) + c

/-- The frame has the pixels of the given records in the strips of their sectors (zeros where a file ended before), and zeros in the other
strips. -/
structure IsFrame (v4 : Bool) (recs : Nat → Rec (List Nat) → Prop) (px : List Nat) : Prop where
  size : px.length = 576 * 576
  pixel : ∀ c l, c < 576 → l < 576 → ∀ r, recs (sectorAt v4 c l) r → px[576 * l + c]? = some (r.data.getD (indexAt v4 c l) 0)
  zero : ∀ c l, c < 576 → l < 576 → (∀ r, ¬ recs (sectorAt v4 c l) r) → px[576 * l + c]? = some 0

/-- Record `r` is in a file of sector `sec`, and of the given column and row. -/
def FileRecord (files : List (SectorReader.Stream (List Nat))) (x y sec : Nat) (r : Rec (List Nat)) : Prop :=
  ∃ file ∈ files, r ∈ file.records ∧ file.sector = sec ∧ r.x = x ∧ r.y = y

/-- Files of a scan of `W` columns and `H` rows, with at most one record of each position in each sector. A record has fewer pixels if the file
ends there. -/
structure BlockFiles (files : List (SectorReader.Stream (List Nat))) (W H : Nat) : Prop where
  good : GoodFiles files
  scan : ∀ f ∈ files, ∀ r ∈ f.records, InScan W H r
  size : ∀ f ∈ files, ∀ r ∈ f.records, r.data.length ≤ 144 * 576
  values : ∀ f ∈ files, ∀ r ∈ f.records, ∀ v ∈ r.data, v < 65536
  once : (files.flatMap fun f => f.records.map fun r => (f.sector, r.x, r.y)).Nodup

/-- No file ends inside of a record. -/
structure WholeFiles (files : List (SectorReader.Stream (List Nat))) (W H : Nat) : Prop extends BlockFiles files W H where
  whole : ∀ f ∈ files, ∀ r ∈ f.records, r.data.length = 144 * 576

/-- The sectors of the records of a position, in the order in which they are read: the first records of all files, then the second ones
and so on. -/
def readOrder (files : List (SectorReader.Stream (List Nat))) (x y : Nat) : List Nat :=
  (List.range (files.map fun f => f.records.length).sum).flatMap fun j => files.filterMap fun f =>
    (f.records[j]?.filter fun r => r.x = x ∧ r.y = y).map fun _ => f.sector.toNat

/-- Number of sectors which the cache holds of a position. -/
def cached (s : State (List Nat) (List Nat)) (p : Nat) : Nat := ((find p s.cache).map fun slot => slot.count).getD 0

/-! ### The cache at the rewind -/

private theorem reads_inv {D F : Type} {L : Layout D F} {arr : List (Nat × Rec D)} {s t : State D F} {fs : List (SectorReader.Frame F)}
    (hr : Reads L s fs t)
    (h : Fine (s.visited ++ s.todo) ∧ ∃ h, InvFeed L h s.cache ∧ (h ++ arrival s.visited s.todo = arr ∨
      (s.visited = [] ∧ s.todo = [] ∧ ∀ p, at' p h <+: at' p arr))) :
    Fine (t.visited ++ t.todo) ∧ ∃ h, InvFeed L h t.cache ∧ (h ++ arrival t.visited t.todo = arr ∨
      (t.visited = [] ∧ t.todo = [] ∧ ∀ p, at' p h <+: at' p arr)) := by
  induction hr with
  | nil => exact h
  | @cons s t u f fs h1 _ ih =>
    refine ih ?_
    obtain ⟨hok, hh, hinv, hcase⟩ := h
    obtain ⟨vs, todo, c⟩ := s
    obtain ⟨g1, g2⟩ := read_arrival L vs todo c hok h1
    refine ⟨g1, ?_⟩
    -- the history without the position of a frame of the cache
    have hdrop : ∀ (h' : List (Nat × Rec D)) (e : Nat × SectorReader.Slot F) (c' : Cache F), InvFeed L h' (e :: c') →
        InvFeed L (h'.filter fun i => i.2.pos ≠ e.1) c' := by
      intro h' e c' hi
      have hs := List.pairwise_cons.1 hi.sorted
      refine ⟨hs.2, ?_⟩
      intro p
      have hat : at' p (h'.filter fun i => decide (i.2.pos ≠ e.1)) = if p = e.1 then [] else at' p h' := by
        unfold at'
        rw [List.filter_filter]
        split
        · rename_i hp
          rw [List.filter_eq_nil_iff]
          intro i _
          simp
          omega
        · rename_i hp
          refine List.filter_congr fun i _ => ?_
          by_cases hi : i.2.pos = p
          · simp [hi, hp]
          · simp [hi]
      have hop : openGroup (h'.filter fun i => decide (i.2.pos ≠ e.1)) p = if p = e.1 then [] else openGroup h' p := by
        unfold openGroup
        rw [hat]
        split <;> simp
      rw [hop]
      by_cases hp : p = e.1
      · rw [if_pos hp, if_pos rfl]
        exact SectorReader.find_none_of_lt (fun x hx => by have := hs.1 x hx; omega)
      · rw [if_neg hp, ← hi.find]
        simp only [find]
        rw [if_neg (fun h => hp h.symm)]
    have hpre : ∀ (h' : List (Nat × Rec D)) (q p : Nat), at' p h' <+: at' p arr → at' p (h'.filter fun i => i.2.pos ≠ q) <+: at' p arr := by
      intro h' q p hh'
      by_cases hp : p = q
      · have : at' p (h'.filter fun i => decide (i.2.pos ≠ q)) = [] := by
          unfold at'
          rw [List.filter_filter, List.filter_eq_nil_iff]
          intro i _
          simp
          omega
        rw [this]
        exact List.nil_prefix
      · have : at' p (h'.filter fun i => decide (i.2.pos ≠ q)) = at' p h' := by
          unfold at'
          rw [List.filter_filter]
          refine List.filter_congr fun i _ => ?_
          by_cases hi : i.2.pos = p
          · simp [hi, hp]
          · simp [hi]
        rw [this]
        exact hh'
    rcases hcase with hcase | ⟨e1, e2, hcase⟩
    · rcases g2 with ⟨pre, a1, a2⟩ | ⟨a1, a2, e, a3⟩
      · have := (feedAll_from pre hinv).1
        rw [← a2] at this
        refine ⟨_, this, .inl ?_⟩
        rw [← hcase, a1]
        simp
      · have := (feedAll_from (arrival vs todo) hinv).1
        rw [a3] at this
        refine ⟨_, hdrop _ _ _ this, .inr ⟨a1, a2, ?_⟩⟩
        intro p
        refine hpre _ _ _ ?_
        rw [← hcase]
    · simp only at e1 e2
      subst e1 e2
      have ha : arrival ([] : List (SectorReader.Stream D)) [] = [] := by rw [arrival]
      rcases g2 with ⟨pre, a1, a2⟩ | ⟨a1, a2, e, a3⟩
      · rw [ha] at a1
        obtain ⟨rfl, b⟩ := List.append_eq_nil_iff.1 a1.symm
        rw [SectorReader.read] at h1
        cases c with
        | nil => simp at h1
        | cons e c =>
          simp only [Prod.mk.injEq] at h1
          obtain ⟨_, rfl⟩ := h1
          exact ⟨_, hdrop _ _ _ hinv, .inr ⟨rfl, rfl, fun p => hpre _ _ _ (hcase p)⟩⟩
      · rw [ha] at a3
        simp only [feedAll] at a3
        rw [a3] at hinv
        exact ⟨_, hdrop _ _ _ hinv, .inr ⟨a1, a2, fun p => hpre _ _ _ (hcase p)⟩⟩

/-- After reads from the beginning the cache holds open groups of records which are the first of their positions. -/
theorem reads_cache {D F : Type} {L : Layout D F} {files : List (SectorReader.Stream D)} (hf : GoodFiles files) {t : State D F}
    {fs : List (SectorReader.Frame F)} (hr : Reads L (create files) fs t) :
    ∃ h, InvFeed L h t.cache ∧ ∀ p, at' p h <+: at' p (arrival [] files) := by
  obtain ⟨_, h, h1, h2⟩ := reads_inv (arr := arrival [] files) hr
    ⟨hf, [], SectorReader.invFeed_nil L, .inl (by simp [create])⟩
  refine ⟨h, h1, ?_⟩
  rcases h2 with h2 | ⟨_, _, h2⟩
  · intro p
    rw [← h2]
    simp [at']
  · exact h2

private theorem sample_reads {D F : Type} {L : Layout D F} {n : Nat} {s t : State D F} {fs : List (SectorReader.Frame F)}
    (h : sample L n s = (.ok fs, t)) : Reads L s fs t := by
  induction n generalizing s fs with
  | zero => simp only [sample, Prod.mk.injEq, Outcome.ok.injEq] at h; obtain ⟨rfl, rfl⟩ := h; exact .nil _
  | succ n ih =>
    unfold sample at h
    split at h
    · rename_i f u hr
      split at h
      · rename_i fs' v hs
        simp only [Prod.mk.injEq, Outcome.ok.injEq] at h
        obtain ⟨rfl, rfl⟩ := h
        exact .cons hr (ih hs)
      · rename_i hne
        exact absurd h (hne _ _)
    · simp at h
    · simp at h
    · simp at h

/-- The last frame of a position after the rewind. -/
theorem last_frame {D F : Type} (L : Layout D F) {files : List (SectorReader.Stream D)} (hf : GoodFiles files) {t : State D F}
    {h : List (Nat × Rec D)} (hi : InvFeed L h t.cache) :
    ∃ gs : List (Nat × List (Nat × Rec D)), readToEnd L (reset files t) = .ok (gs.map fun g => assemble L g.1 g.2) ∧
      (∀ g ∈ gs, g.2 ≠ [] ∧ ∀ i ∈ g.2, i ∈ openGroup h g.1 ++ at' g.1 (arrival [] files)) ∧
      (∀ p, (gs.filter fun g => g.1 = p).getLast? =
        if openGroup h p ++ at' p (arrival [] files) = [] then none
        else some (p, lastGroup (openGroup h p ++ at' p (arrival [] files)))) ∧
      ∀ p, (gs.filter fun g => g.1 = p).length = ((openGroup h p ++ at' p (arrival [] files)).length + 3) / 4 := by
  obtain ⟨h1, gs, h2, h3, h4⟩ := feedAll_from (arrival [] files) hi
  have hmem : ∀ e ∈ (feedAll L t.cache (arrival [] files)).1, openGroup (h ++ arrival [] files) e.1 ≠ [] ∧
      e.2 = ⟨assemble L e.1 (openGroup (h ++ arrival [] files) e.1), (openGroup (h ++ arrival [] files) e.1).length⟩ := by
    intro e he
    have := SectorReader.find_mem h1.sorted he
    rw [h1.find] at this
    split at this
    · simp at this
    · rename_i hne
      simp only [Option.some.injEq] at this
      exact ⟨hne, this.symm⟩
  -- the open groups of the position
  have key : ∀ p, ∀ c : Cache F, Sorted c →
      ((c.map fun e => (e.1, openGroup (h ++ arrival [] files) e.1)).filter fun g => decide (g.1 = p)) =
        if (find p c).isSome then [(p, openGroup (h ++ arrival [] files) p)] else [] := by
    intro p c hs
    induction c with
    | nil => simp [find]
    | cons e c ih =>
      have hs' := List.pairwise_cons.1 hs
      have ih := ih hs'.2
      rw [List.map_cons, List.filter_cons]
      simp only [find]
      by_cases he : e.1 = p
      · have hn : find p c = none := SectorReader.find_none_of_lt (fun x hx => by have := hs'.1 x hx; omega)
        rw [hn] at ih
        simp only [Option.isSome_none, Bool.false_eq_true, if_false] at ih
        simp [he, ih]
      · simp only [he, decide_false, Bool.false_eq_true, if_false]
        exact ih
  have count : ∀ p, ((gs ++ (feedAll L t.cache (arrival [] files)).1.map fun e => (e.1, openGroup (h ++ arrival [] files) e.1)).filter
      fun g => decide (g.1 = p)).length = ((openGroup h p ++ at' p (arrival [] files)).length + 3) / 4 := by
    intro p
    have hlt : (openGroup (h ++ arrival [] files) p).length < 4 := by
      rw [SectorReader.openGroup_length]; omega
    have hlen : ∀ l : List (Nat × List (Nat × Rec D)), (∀ g ∈ l, g.2.length = 4) → (l.flatMap fun g => g.2).length = 4 * l.length := by
      intro l hl
      induction l with
      | nil => rfl
      | cons g l ih =>
        rw [List.flatMap_cons, List.length_append, ih (fun x hx => hl x (by simp [hx])), hl g (by simp), List.length_cons]
        omega
    rw [← h4 p, List.filter_append, key p _ h1.sorted, h1.find, List.length_append, List.length_append,
      hlen _ (fun g hg => h3 g (List.mem_filter.1 hg).1)]
    by_cases ho : openGroup (h ++ arrival [] files) p = []
    · simp only [ho, if_true, Option.isSome_none, Bool.false_eq_true, if_false, List.length_nil]
      omega
    · have := List.length_pos_of_ne_nil ho
      simp only [ho, if_false, Option.isSome_some, if_true, List.length_cons, List.length_nil]
      omega
  refine ⟨gs ++ (feedAll L t.cache (arrival [] files)).1.map fun e => (e.1, openGroup (h ++ arrival [] files) e.1), ?_, ?_, ?_, count⟩
  · rw [reset, readToEnd_eq L [] files t.cache hf, h2, List.map_append, List.map_map]
    congr 2
    apply List.map_congr_left
    intro e he
    simp [(hmem e he).2]
  · intro g hg
    have hall := h4 g.1
    rcases List.mem_append.1 hg with hg | hg
    · refine ⟨List.ne_nil_of_length_pos (by rw [h3 g hg]; omega), ?_⟩
      intro i hi
      rw [← hall]
      exact List.mem_append_left _ (List.mem_flatMap.2 ⟨g, List.mem_filter.2 ⟨hg, by simp⟩, hi⟩)
    · obtain ⟨e, he, rfl⟩ := List.mem_map.1 hg
      refine ⟨(hmem e he).1, ?_⟩
      intro i hi
      simp only at hall
      rw [← hall]
      exact List.mem_append_right _ hi
  · intro p
    have hall := h4 p
    rw [List.filter_append, key p _ h1.sorted, h1.find]
    have hlt : (openGroup (h ++ arrival [] files) p).length < 4 := by
      rw [SectorReader.openGroup_length]; omega
    have hsp := lastGroup_spec (gs.filter fun g => decide (g.1 = p)) (openGroup (h ++ arrival [] files) p) _
      (fun g hg => h3 g (List.mem_filter.1 hg).1) hlt hall
    by_cases ho : openGroup (h ++ arrival [] files) p = []
    · rw [if_pos ho] at hsp
      rw [if_pos ho]
      simp only [Option.isSome_none, Bool.false_eq_true, if_false, List.append_nil]
      cases hg : (gs.filter fun g => decide (g.1 = p)).getLast? with
      | none =>
        rw [List.getLast?_eq_none_iff] at hg
        rw [hg, ho] at hall
        rw [if_pos (by simpa using hall.symm)]
      | some g =>
        have hgm := List.mem_of_getLast? hg
        have hg1 : g.1 = p := by simpa using (List.mem_filter.1 hgm).2
        rw [hg] at hsp
        simp only [Option.map_some, Option.getD_some] at hsp
        rw [if_neg, ← hsp, ← hg1]
        rw [← hall, ho, List.append_nil]
        intro hnil
        have hn := List.flatMap_eq_nil_iff.1 hnil g hgm
        have := h3 g (List.mem_filter.1 hgm).1
        rw [hn] at this
        simp at this
    · rw [if_neg ho] at hsp
      have hne : ¬ openGroup h p ++ at' p (arrival [] files) = [] := by
        rw [← hall]
        simp [ho]
      rw [if_neg ho, if_neg hne, if_pos (by rfl), List.getLast?_append, List.getLast?_singleton, Option.some_or, ← hsp]

/-! ### Frames of records -/

private theorem layout_length (v4 : Bool) (s : Nat) (data f : List Nat) : ((layout v4).place s data f).length = f.length := by
  cases v4
  · rw [layout, if_neg (by simp), version5_place]
    exact writes_length _ _
  · rw [layout, if_pos rfl, version4_place]
    exact writes_length _ _

private theorem layout_place (v4 : Bool) {s c l : Nat} (hs : s < 4) (hc : c < 576) (hl : l < 576) (data f : List Nat)
    (hf : f.length = 576 * 576) : ((layout v4).place s data f)[576 * l + c]? =
      if sectorAt v4 c l = s then (data[indexAt v4 c l]?).or f[576 * l + c]? else f[576 * l + c]? := by
  cases v4
  · rw [layout, if_neg (by simp), version5_place]
    exact C25_place_v5 hs hc hl data f hf
  · rw [layout, if_pos rfl, version4_place]
    exact C25_place_v4 hs hc hl data f hf

private theorem layout_empty (v4 : Bool) : (layout v4).empty.length = 576 * 576 ∧
    ∀ j, j < 576 * 576 → (layout v4).empty[j]? = some 0 := by
  cases v4
  · rw [layout, if_neg (by simp), version5]
    exact ⟨List.length_replicate, fun j hj => List.getElem?_replicate_of_lt hj⟩
  · rw [layout, if_pos rfl, version4]
    exact ⟨List.length_replicate, fun j hj => List.getElem?_replicate_of_lt hj⟩

private theorem fold_length (v4 : Bool) (g : List (Nat × Rec (List Nat))) (f : List Nat) :
    (g.foldl (fun f i => (layout v4).place i.1 i.2.data f) f).length = f.length := by
  induction g generalizing f with
  | nil => rfl
  | cons i g ih => rw [List.foldl_cons, ih, layout_length]

private theorem fold_miss (v4 : Bool) {c l : Nat} (hc : c < 576) (hl : l < 576) (g : List (Nat × Rec (List Nat))) (h4 : ∀ i ∈ g, i.1 < 4)
    (hm : ∀ i ∈ g, i.1 ≠ sectorAt v4 c l) (f : List Nat) (hf : f.length = 576 * 576) :
    (g.foldl (fun f i => (layout v4).place i.1 i.2.data f) f)[576 * l + c]? = f[576 * l + c]? := by
  induction g generalizing f with
  | nil => rfl
  | cons i g ih =>
    rw [List.foldl_cons, ih (fun i hi => h4 i (by simp [hi])) (fun i hi => hm i (by simp [hi])) _ (by rw [layout_length]; exact hf),
      layout_place v4 (h4 i (by simp)) hc hl _ _ hf, if_neg (fun h => hm i (by simp) h.symm)]

private theorem fold_hit (v4 : Bool) {c l : Nat} (hc : c < 576) (hl : l < 576) (g : List (Nat × Rec (List Nat))) (h4 : ∀ i ∈ g, i.1 < 4)
    (hu : ∀ i ∈ g, ∀ j ∈ g, i.1 = j.1 → i = j) {r : Rec (List Nat)}
    (hr : (sectorAt v4 c l, r) ∈ g) (f : List Nat) (hf : f.length = 576 * 576) (h0 : f[576 * l + c]? = some 0) :
    (g.foldl (fun f i => (layout v4).place i.1 i.2.data f) f)[576 * l + c]? = some (r.data.getD (indexAt v4 c l) 0) := by
  have main : ∀ (g : List (Nat × Rec (List Nat))) (f : List Nat), (∀ i ∈ g, i.1 < 4) → (∀ i ∈ g, i.1 = sectorAt v4 c l → i.2 = r) →
      f.length = 576 * 576 → (f[576 * l + c]? = some 0 ∧ (sectorAt v4 c l, r) ∈ g ∨ f[576 * l + c]? = some (r.data.getD (indexAt v4 c l) 0)) →
      (g.foldl (fun f i => (layout v4).place i.1 i.2.data f) f)[576 * l + c]? = some (r.data.getD (indexAt v4 c l) 0) := by
    intro g
    induction g with
    | nil => intro f _ _ _ h; simpa using h
    | cons i g ih =>
      intro f h4 hu hf h
      rw [List.foldl_cons]
      refine ih _ (fun i hi => h4 i (by simp [hi])) (fun i hi => hu i (by simp [hi])) (by rw [layout_length]; exact hf) ?_
      rw [layout_place v4 (h4 i (by simp)) hc hl _ _ hf]
      by_cases hi : sectorAt v4 c l = i.1
      · right
        rw [if_pos hi, hu i (by simp) hi.symm, List.getD_eq_getElem?_getD]
        cases hd : r.data[indexAt v4 c l]? with
        | some v => rfl
        | none =>
          rw [List.getD_eq_getElem?_getD, hd] at h
          simp only [Option.getD_none] at h
          rcases h with ⟨h, _⟩ | h <;> simpa using h
      · rw [if_neg hi]
        rcases h with ⟨h, hm⟩ | h
        · refine .inl ⟨h, ?_⟩
          rcases List.mem_cons.1 hm with hm | hm
          · exact absurd (congrArg Prod.fst hm) hi
          · exact hm
        · exact .inr h
  exact main g f h4 (fun i hi e => congrArg Prod.snd (hu i hi _ hr e)) hf (.inl ⟨h0, hr⟩)

theorem assemble_isFrame (v4 : Bool) (p : Nat) (g : List (Nat × Rec (List Nat))) (h4 : ∀ i ∈ g, i.1 < 4)
    (hu : ∀ i ∈ g, ∀ j ∈ g, i.1 = j.1 → i = j) :
    IsFrame v4 (fun sec r => (sec, r) ∈ g) (assemble (layout v4) p g).data := by
  obtain ⟨e1, e2⟩ := layout_empty v4
  refine ⟨?_, ?_, ?_⟩
  · rw [assemble]
    simp only
    rw [fold_length, e1]
  · intro c l hc hl r hr
    exact fold_hit v4 hc hl g h4 hu hr _ e1 (e2 _ (by omega))
  · intro c l hc hl hn
    rw [← e2 (576 * l + c) (by omega)]
    exact fold_miss v4 hc hl g h4 (fun i hi h => hn i.2 (h ▸ hi)) _ e1

theorem IsFrame.values {v4 : Bool} {recs : Nat → Rec (List Nat) → Prop} {px : List Nat} (h : IsFrame v4 recs px)
    (hv : ∀ sec r, recs sec r → ∀ v ∈ r.data, v < 65536) : ∀ v ∈ px, v < 65536 := by
  intro v hvm
  obtain ⟨j, hj⟩ := List.getElem?_of_mem hvm
  have hjl : j < 576 * 576 := by rw [← h.size]; exact (List.getElem?_eq_some_iff.1 hj).1
  have e : j = 576 * (j / 576) + j % 576 := by omega
  rw [e] at hj
  by_cases hr : ∃ r, recs (sectorAt v4 (j % 576) (j / 576)) r
  · obtain ⟨r, hr⟩ := hr
    rw [h.pixel _ _ (by omega) (by omega) r hr] at hj
    rw [← Option.some.inj hj, List.getD_eq_getElem?_getD]
    cases hd : r.data[indexAt v4 (j % 576) (j / 576)]? with
    | none => decide
    | some w => exact hv _ r hr w (List.mem_of_getElem? hd)
  · rw [h.zero _ _ (by omega) (by omega) (fun r hr' => hr ⟨r, hr'⟩)] at hj
    cases hj
    omega

/-- Two descriptions of the same records. -/
theorem IsFrame.congr {v4 : Bool} {a b : Nat → Rec (List Nat) → Prop} {px : List Nat} (h : IsFrame v4 a px)
    (hab : ∀ sec r, a sec r ↔ b sec r) : IsFrame v4 b px :=
  ⟨h.size, fun c l hc hl r hr => h.pixel c l hc hl r ((hab _ _).2 hr), fun c l hc hl hn => h.zero c l hc hl
    (fun r hr => hn r ((hab _ _).1 hr))⟩

/-! ### Records of the files -/

theorem mem_arrival {files : List (SectorReader.Stream (List Nat))} (i : Nat × Rec (List Nat)) :
    i ∈ arrival [] files ↔ ∃ f ∈ files, i.2 ∈ f.records ∧ i.1 = f.sector.toNat := by
  rw [(arrival_interleave [] files).perm.mem_iff]
  simp only [List.nil_append, List.mem_flatten, List.mem_map]
  constructor
  · rintro ⟨l, ⟨f, hf, rfl⟩, hi⟩
    obtain ⟨r, hr, rfl⟩ := List.mem_map.1 hi
    exact ⟨f, hf, hr, rfl⟩
  · rintro ⟨f, hf, hr, hs⟩
    refine ⟨_, ⟨f, hf, rfl⟩, ?_⟩
    obtain ⟨a, b⟩ := i
    simp only at hr hs
    subst hs
    exact List.mem_map.2 ⟨b, hr, rfl⟩

/-- The records of a position in the order of their arrival. -/
structure Position (files : List (SectorReader.Stream (List Nat))) (x y p : Nat) : Prop where
  mem : ∀ sec r, (sec, r) ∈ at' p (arrival [] files) ↔ FileRecord files x y sec r
  four : ∀ i ∈ at' p (arrival [] files), i.1 < 4
  values : ∀ i ∈ at' p (arrival [] files), ∀ v ∈ i.2.data, v < 65536
  nodup : ((at' p (arrival [] files)).map fun i => i.1).Nodup
  order : (at' p (arrival [] files)).map (fun i => i.1) = readOrder files x y

theorem position {files : List (SectorReader.Stream (List Nat))} {W H : Nat} (hf : BlockFiles files W H) (hsz : W * H ≤ 2 ^ 32)
    {x y : Nat} (hx : x < W) : Position files x y (y * W + x) := by
  have hmem : ∀ i, i ∈ at' (y * W + x) (arrival [] files) ↔ ∃ f ∈ files, i.2 ∈ f.records ∧ i.1 = f.sector.toNat ∧ i.2.x = x ∧ i.2.y = y := by
    intro i
    unfold at'
    rw [List.mem_filter, mem_arrival]
    constructor
    · rintro ⟨⟨f, h1, h2, h3⟩, h4⟩
      refine ⟨f, h1, h2, h3, (pos_coordinates (hf.scan f h1 _ h2) hsz hx).1 (by simpa using h4)⟩
    · rintro ⟨f, h1, h2, h3, h4⟩
      exact ⟨⟨f, h1, h2, h3⟩, by simpa using (pos_coordinates (hf.scan f h1 _ h2) hsz hx).2 h4⟩
  refine ⟨?_, ?_, ?_, ?_, ?_⟩
  · intro sec r
    rw [hmem]
    constructor
    · rintro ⟨f, h1, h2, h3, h4⟩
      have := (hf.good f h1).1
      exact ⟨f, h1, h2, by simp only at h3; omega, h4⟩
    · rintro ⟨f, h1, h2, h3, h4⟩
      exact ⟨f, h1, h2, by simp only; omega, h4⟩
  · intro i hi
    obtain ⟨f, h1, h2, h3, h4⟩ := (hmem i).1 hi
    have := (hf.good f h1).1
    omega
  · intro i hi
    obtain ⟨f, h1, h2, h3, h4⟩ := (hmem i).1 hi
    exact hf.values f h1 _ h2
  · -- sector, column and row of the records of all files differ
    have hn : ((arrival [] files).map fun i => ((i.1 : Int), i.2.x, i.2.y)).Nodup := by
      rw [((arrival_interleave [] files).perm.map _).nodup_iff]
      have e : ((files.map SectorReader.items).flatten.map fun i => ((i.1 : Int), i.2.x, i.2.y)) =
          files.flatMap fun f => f.records.map fun r => (f.sector, r.x, r.y) := by
        rw [List.map_flatten, List.map_map, List.flatMap_def]
        congr 1
        refine List.map_congr_left fun f hfm => ?_
        have := (hf.good f hfm).1
        simp only [Function.comp, SectorReader.items, List.map_map]
        refine List.map_congr_left fun r _ => ?_
        simp only [Function.comp, Prod.mk.injEq, and_true]
        omega
      simp only [List.nil_append]
      rw [e]
      exact hf.once
    have h1 : ((at' (y * W + x) (arrival [] files)).map fun i => ((i.1 : Int), i.2.x, i.2.y)).Nodup :=
      hn.sublist (List.filter_sublist.map _)
    have h2 : (at' (y * W + x) (arrival [] files)).map (fun i => ((i.1 : Int), i.2.x, i.2.y)) =
        ((at' (y * W + x) (arrival [] files)).map fun i => i.1).map fun s : Nat => ((s : Int), x, y) := by
      rw [List.map_map]
      refine List.map_congr_left fun i hi => ?_
      obtain ⟨f, _, _, _, h4, h5⟩ := (hmem i).1 hi
      simp [h4, h5]
    rw [h2] at h1
    exact h1.of_map _
  · unfold at' readOrder
    rw [arrival_rounds (files.map fun f => f.records.length).sum files (fun f hfm => List.le_sum_of_mem (List.mem_map_of_mem hfm))]
    rw [List.filter_flatMap, List.map_flatMap]
    congr 1
    funext j
    have hs := hf.scan
    clear hmem hf
    unfold BlockPipeline.round
    induction files with
    | nil => rfl
    | cons s files ih =>
      have ih := ih (fun f hf => hs f (by simp [hf]))
      rw [List.filterMap_cons, List.filterMap_cons]
      cases hr : s.records[j]? with
      | none => simpa using ih
      | some r =>
        have hp := pos_coordinates (y := y) (hs s (by simp) r (List.mem_of_getElem? hr)) hsz hx
        simp only [Option.map_some, List.filter_cons]
        by_cases hxy : r.x = x ∧ r.y = y
        · simp only [hp.2 hxy, decide_true, if_true, List.map_cons, ih, Option.filter_some, hxy, and_self, Option.map_some]
        · have hne : ¬ r.pos = y * W + x := fun h => hxy (hp.1 h)
          simp only [hne, decide_false, Bool.false_eq_true, if_false, ih, Option.filter_some, hxy, Option.map_none]

/-- The records of the last frame of a position: `k` of them were in the cache. -/
private theorem last_records {α : Type} {A O M : List α} (hM : M <+: A) (hA : A.length ≤ 4) (hO : O = M.drop (4 * (M.length / 4))) :
    O.length < 4 ∧ O.length ≤ A.length ∧ (O.length + A.length ≤ 4 → ∀ a, a ∈ lastGroup (O ++ A) ↔ a ∈ A) ∧
      (4 < O.length + A.length → lastGroup (O ++ A) = A.drop (4 - O.length)) := by
  have hl := hM.length_le
  have hOl : O.length = M.length % 4 := by rw [hO, List.length_drop]; omega
  have hOA : ∀ a ∈ O, a ∈ A := fun a ha => hM.subset (List.mem_of_mem_drop (hO ▸ ha))
  refine ⟨by omega, by omega, ?_, ?_⟩
  · intro h a
    have : lastGroup (O ++ A) = O ++ A := by
      rw [lastGroup, List.length_append, show 4 * ((O.length + A.length - 1) / 4) = 0 by omega]
      rfl
    rw [this, List.mem_append]
    exact ⟨fun h => h.elim (hOA a) id, .inr⟩
  · intro h
    rw [lastGroup, List.length_append, show 4 * ((O.length + A.length - 1) / 4) = 4 by omega, List.drop_append,
      List.drop_eq_nil_of_le (by omega), List.nil_append]

/-- What is stored for a position with records of the sectors `order` (in this order), of which the cache held `k` at the rewind: if there
are not more than four together, the events of the frame with all of them, and else those of a frame without the first `4 - k`. -/
structure Stored (v4 : Bool) (count : List Nat → Outcome (List Nat)) (records : Nat → Rec (List Nat) → Prop) (order : List Nat) (k : Nat)
    (ev : List Nat) : Prop where
  nodup : order.Nodup
  sectors : ∀ sec, sec ∈ order ↔ ∃ r, records sec r
  lt : k < 4
  le : k ≤ order.length
  none : order = [] → ev = []
  all : order ≠ [] → k + order.length ≤ 4 → ∃ px, IsFrame v4 records px ∧ count px = .ok ev
  lost : 4 < k + order.length → ∃ px, IsFrame v4 (fun sec r => sec ∈ order.drop (4 - k) ∧ records sec r) px ∧ count px = .ok ev

/-- **C87** Exactly what the block-wise counting of sector files stores, for any blocks read before the call and any number of blocks for
the thresholds: `k` is the number of sectors of a position in the cache of the reader when it is rewound. -/
theorem C87_exact (v4 : Bool) (o : BlockPipeline.Setup) (files : List (SectorReader.Stream (List Nat))) (W H : Nat) (hf : BlockFiles files W H)
    (hsz : W * H < 2 ^ 32) (hpos : 0 < W * H) (hscan : o.scan = (W, H) ∨ o.scan.1 = 0 ∨ o.scan.2 = 0)
    {before blocks : List (SectorReader.Frame (List Nat))} {s t : State (List Nat) (List Nat)} (hb : Reads (layout v4) (create files) before s)
    (hs : sample (layout v4) o.numBlocks s = (.ok blocks, t)) {options : CountOptions} (ho : o.options (blocks.map toBlock) = .ok options)
    (hcount : ∀ px : List Nat, px.length = 576 * 576 → (∀ v ∈ px, v < 65536) →
      ∃ ev, countFrameClassic options (576, 576) (pixels px) = .ok ev)
    (hne : ∃ f ∈ files, f.records ≠ []) :
    ∃ events, BlockPipeline.electronCount (layout v4) o files s = .ok ((W, H), events) ∧ events.length = W * H ∧
      ∀ x y, x < W → y < H → ∃ ev, events[y * W + x]? = some [ev] ∧
        Stored v4 (fun px => countFrameClassic options (576, 576) (pixels px)) (FileRecord files x y) (readOrder files x y)
          (cached t (y * W + x)) ev := by
  obtain ⟨h, hinv, hpre⟩ := reads_cache hf.good (hb.append (sample_reads hs))
  obtain ⟨gs, g1, g2, g3, g4⟩ := last_frame (layout v4) hf.good hinv
  have hfine : ∀ p, ∀ i ∈ openGroup h p ++ at' p (arrival [] files), i ∈ at' p (arrival [] files) := by
    intro p i hi
    rcases List.mem_append.1 hi with hi | hi
    · exact (hpre p).subset (List.mem_of_mem_drop hi)
    · exact hi
  -- the frames have the scan of the headers, and are in it
  have hscanDim : ∀ g ∈ gs, (assemble (layout v4) g.1 g.2).scanDimensions = (W, H) ∧ g.1 < W * H ∧
      (assemble (layout v4) g.1 g.2).data.length = 576 * 576 ∧ ∀ v ∈ (assemble (layout v4) g.1 g.2).data, v < 65536 := by
    intro g hg
    obtain ⟨hne, hall⟩ := g2 g hg
    obtain ⟨i, l, hil⟩ := List.exists_cons_of_ne_nil hne
    have hi := hfine g.1 i (hall i (by simp [hil]))
    obtain ⟨hi1, hi2⟩ := List.mem_filter.1 hi
    obtain ⟨f, hfm, hr, _⟩ := (mem_arrival i).1 hi1
    have hin := hf.scan f hfm _ hr
    refine ⟨?_, ?_, ?_⟩
    · simp [assemble, hil, hin.1, hin.2.1]
    · have := (pos_coordinates (y := i.2.y) hin (Nat.le_of_lt hsz) hin.2.2.1).2 ⟨rfl, rfl⟩
      rw [← show i.2.pos = g.1 by simpa using hi2, this]
      exact flat_lt hin.2.2.1 hin.2.2.2
    · have hxy : i.2.y * W + i.2.x = g.1 := by
        rw [← show i.2.pos = g.1 by simpa using hi2]
        exact ((pos_coordinates (y := i.2.y) hin (Nat.le_of_lt hsz) hin.2.2.1).2 ⟨rfl, rfl⟩).symm
      have P := position hf (Nat.le_of_lt hsz) (y := i.2.y) hin.2.2.1
      rw [hxy] at P
      have hg' : ∀ j ∈ g.2, j ∈ at' g.1 (arrival [] files) := fun j hj => hfine g.1 j (hall j hj)
      have hfr := assemble_isFrame v4 g.1 g.2 (fun j hj => P.four j (hg' j hj))
        (fun a ha b hb e => List.inj_on_of_nodup_map P.nodup (hg' a ha) (hg' b hb) e)
      exact ⟨hfr.size, hfr.values (fun sec r hr => P.values _ (hg' _ hr))⟩
  let cf : List Nat → List Nat := fun px =>
    match countFrameClassic options (576, 576) (pixels px) with
    | .ok ev => ev
    | _ => []
  have hcf : ∀ px : List Nat, px.length = 576 * 576 → (∀ v ∈ px, v < 65536) →
      countFrameClassic options (576, 576) (pixels px) = .ok (cf px) := by
    intro px hpx hpv
    obtain ⟨ev, e⟩ := hcount px hpx hpv
    simp only [cf, e]
  let bs : List (List Spec.Frame) := gs.map fun g => [(g.1, (assemble (layout v4) g.1 g.2).data)]
  have hbs : (gs.map fun g => assemble (layout v4) g.1 g.2).map toBlock = bs.map (mkBlock (W, H) (576, 576)) := by
    simp only [bs, List.map_map]
    refine List.map_congr_left fun g hg => ?_
    have := (hscanDim g hg).1
    simp only [Function.comp, toBlock, mkBlock, this]
    simp [assemble]
  have hflat : bs.flatten = gs.map fun g => (g.1, (assemble (layout v4) g.1 g.2).data) := by
    simp only [bs]
    clear_value cf
    clear hscanDim g1 g2 g3 g4 hbs
    induction gs with
    | nil => rfl
    | cons g gs ih => simp [ih]
  have hgs : gs ≠ [] := by
    obtain ⟨f, hfm, hfr⟩ := hne
    obtain ⟨r, rs, hr⟩ := List.exists_cons_of_ne_nil hfr
    have hi : (f.sector.toNat, r) ∈ at' r.pos (arrival [] files) := by
      refine List.mem_filter.2 ⟨(mem_arrival _).2 ⟨f, hfm, by simp [hr], rfl⟩, by simp⟩
    have hl := g3 r.pos
    rw [if_neg (by
      intro hnil
      rw [(List.append_eq_nil_iff.1 hnil).2] at hi
      simp at hi)] at hl
    intro hnil
    rw [hnil] at hl
    simp at hl
  have hW : 0 < W := Nat.pos_of_mul_pos_right hpos
  have hH : 0 < H := Nat.pos_of_mul_pos_left hpos
  have cok : ClassicOK 576 576 W H bs (countFrameClassic options) cf := by
    refine ⟨⟨?_, by norm_num, ?_, ?_⟩, by norm_num, hW, hH, hsz, ?_, ?_⟩
    · simpa [bs] using hgs
    · intro fs hfs f hfm
      obtain ⟨g, hg, rfl⟩ := List.mem_map.1 hfs
      simp only [List.mem_cons, List.not_mem_nil, or_false] at hfm
      rw [hfm]
      exact (hscanDim g hg).2.2.1
    · intro fs hfs
      obtain ⟨g, hg, rfl⟩ := List.mem_map.1 hfs
      simp
    · intro f hfm
      rw [hflat] at hfm
      obtain ⟨g, hg, rfl⟩ := List.mem_map.1 hfm
      exact (hscanDim g hg).2.1
    · intro f hfm
      rw [hflat] at hfm
      obtain ⟨g, hg, rfl⟩ := List.mem_map.1 hfm
      exact hcf _ (hscanDim g hg).2.2.1 (hscanDim g hg).2.2.2
  have hclassic : electronCountClassic (countFrameClassic options) (bs.map (mkBlock (W, H) (576, 576))) o.scan =
      .ok ((W, H), (List.range (W * H)).map fun p => [lastEvents cf bs.flatten p]) := by
    rcases hscan with h1 | h1
    · rw [h1]
      exact C13_classic (W, H) cok
    · rw [← C13_classic (W, H) cok]
      obtain ⟨b, bs', hb'⟩ := List.exists_cons_of_ne_nil cok.blocks
      have c0 : ¬ (W = 0 ∨ H = 0) := by omega
      rw [hb', List.map_cons]
      unfold electronCountClassic
      simp only [if_pos h1, mkBlock, if_neg c0]
  refine ⟨(List.range (W * H)).map fun p => [lastEvents cf bs.flatten p], ?_, by simp, ?_⟩
  · unfold BlockPipeline.electronCount
    rw [hs]
    simp only [ho, Outcome.ok_bind, g1]
    rw [hbs]
    exact hclassic
  intro x y hx hy
  have hp := flat_lt hx hy
  refine ⟨lastEvents cf bs.flatten (y * W + x), by simp [hp], ?_⟩
  have P := position hf (Nat.le_of_lt hsz) (y := y) hx
  generalize y * W + x = p at *
  have hA4 : (at' p (arrival [] files)).length ≤ 4 := by
    have := (List.subperm_of_subset P.nodup (l₂ := List.range 4) (by
      intro sec hsec
      obtain ⟨i, hi, rfl⟩ := List.mem_map.1 hsec
      exact List.mem_range.2 (P.four i hi))).length_le
    simpa using this
  obtain ⟨L1, L2, L3, L4⟩ := last_records (hpre p) hA4 (O := openGroup h p) rfl
  have hk : cached t p = (openGroup h p).length := by
    unfold cached
    rw [hinv.find]
    split
    · rename_i hnil; simp [hnil]
    · rfl
  have hu : ∀ i ∈ at' p (arrival [] files), ∀ j ∈ at' p (arrival [] files), i.1 = j.1 → i = j :=
    fun i hi j hj e => List.inj_on_of_nodup_map P.nodup hi hj e
  have hlast : lastEvents cf bs.flatten p = if openGroup h p ++ at' p (arrival [] files) = [] then []
      else cf (assemble (layout v4) p (lastGroup (openGroup h p ++ at' p (arrival [] files)))).data := by
    unfold lastEvents
    rw [hflat, List.filter_map, List.getLast?_map]
    have := g3 p
    have e : (gs.filter ((fun f : Spec.Frame => decide (f.1 = p)) ∘ fun g => (g.1, (assemble (layout v4) g.1 g.2).data))) =
        gs.filter fun g => decide (g.1 = p) := rfl
    rw [e, this]
    by_cases h0 : openGroup h p ++ at' p (arrival [] files) = []
    · rw [if_pos h0, if_pos h0]; rfl
    · rw [if_neg h0, if_neg h0]; rfl
  have hframe : ∀ g : List (Nat × Rec (List Nat)), (∀ i ∈ g, i ∈ at' p (arrival [] files)) →
      IsFrame v4 (fun sec r => (sec, r) ∈ g) (assemble (layout v4) p g).data := fun g hg =>
    assemble_isFrame v4 p g (fun i hi => P.four i (hg i hi))
      (fun i hi j hj => hu i (hg i hi) j (hg j hj))
  have hfv : ∀ g : List (Nat × Rec (List Nat)), (∀ i ∈ g, i ∈ at' p (arrival [] files)) →
      ∀ v ∈ (assemble (layout v4) p g).data, v < 65536 := fun g hg =>
    (hframe g hg).values (fun sec r hr => P.values _ (hg _ hr))
  have hn : (at' p (arrival [] files)).length = (readOrder files x y).length := by rw [← P.order, List.length_map]
  rw [hk]
  refine ⟨P.order ▸ P.nodup, ?_, L1, by omega, ?_, ?_, ?_⟩
  · intro sec
    rw [← P.order]
    constructor
    · intro hsec
      obtain ⟨i, hi, rfl⟩ := List.mem_map.1 hsec
      exact ⟨i.2, (P.mem _ _).1 hi⟩
    · rintro ⟨r, hr⟩
      exact List.mem_map.2 ⟨_, (P.mem _ _).2 hr, rfl⟩
  · intro h0
    rw [h0] at hn
    rw [hlast, if_pos]
    have h1 : at' p (arrival [] files) = [] := List.eq_nil_of_length_eq_zero (by simpa using hn)
    have h2 : openGroup h p = [] := List.eq_nil_of_length_eq_zero (by rw [h1] at L2; simpa using L2)
    rw [h1, h2]
    rfl
  · intro h0 h4
    have h0 := List.length_pos_of_ne_nil h0
    have hmem := L3 (by omega)
    have hfr := hframe _ (fun i hi => (hmem i).1 hi)
    have hv := hfv _ (fun i hi => (hmem i).1 hi)
    refine ⟨_, hfr.congr (fun sec r => (hmem _).trans (P.mem sec r)), ?_⟩
    rw [hlast, if_neg (by
      intro hnil
      have h1 := congrArg List.length hnil
      rw [List.length_append, List.length_nil] at h1
      omega)]
    exact hcf _ hfr.size hv
  · intro h4
    have hl := L4 (by omega)
    have hsub : ∀ i ∈ lastGroup (openGroup h p ++ at' p (arrival [] files)), i ∈ at' p (arrival [] files) := by
      rw [hl]; exact fun i hi => List.mem_of_mem_drop hi
    have hfr := hframe _ hsub
    have hv := hfv _ hsub
    refine ⟨_, hfr.congr ?_, ?_⟩
    · intro sec r
      rw [← P.order, ← List.map_drop, ← hl]
      constructor
      · intro hm
        exact ⟨List.mem_map.2 ⟨_, hm, rfl⟩, (P.mem _ _).1 (hsub _ hm)⟩
      · rintro ⟨hm, hr⟩
        obtain ⟨i, hi, e⟩ := List.mem_map.1 hm
        have := hu i (hsub i hi) (sec, r) ((P.mem _ _).2 hr) e
        exact this ▸ hi
    · rw [hlast, if_neg (by
        intro hnil
        have h1 := congrArg List.length hnil
        rw [List.length_append, List.length_nil] at h1
        omega)]
      exact hcf _ hfr.size hv

/-! ### The whole pipeline -/

/-- The frames of the files: one for every position of which there is a record, with the pixels of all records of the position. -/
structure IsPositions (v4 : Bool) (files : List (SectorReader.Stream (List Nat))) (all : List ScanFrame) : Prop where
  once : (all.map fun f => (f.x, f.y)).Nodup
  iff : ∀ x y, (∃ f ∈ all, f.x = x ∧ f.y = y) ↔ ∃ sec r, FileRecord files x y sec r
  frame : ∀ f ∈ all, IsFrame v4 (FileRecord files f.x f.y) f.pixels

theorem filter_range (N q : Nat) (hq : q < N) (c : Nat → Bool) :
    (List.range N).filter (fun p => decide (p = q) && c p) = if c q then [q] else [] := by
  have h1 : (List.range N).filter (fun p => decide (p = q) && c p) = ((List.range N).filter (fun p => decide (p = q))).filter c := by
    rw [List.filter_filter]
    refine List.filter_congr fun p _ => ?_
    rw [Bool.and_comm]
  have h2 : (List.range N).filter (fun p => decide (p = q)) = [q] := by
    rw [List.filter_eq, List.count_eq_one_of_mem List.nodup_range (List.mem_range.2 hq)]
    rfl
  rw [h1, h2, List.filter_cons]
  rfl

private theorem images (v4 : Bool) (o : BlockPipeline.Setup) (files : List (SectorReader.Stream (List Nat))) (W H : Nat) (hf : BlockFiles files W H)
    (hsz : W * H < 2 ^ 32) (hpos : 0 < W * H) (hscan : o.scan = (W, H) ∨ o.scan.1 = 0 ∨ o.scan.2 = 0)
    {before blocks : List (SectorReader.Frame (List Nat))} {s t : State (List Nat) (List Nat)} (hb : Reads (layout v4) (create files) before s)
    (hs : sample (layout v4) o.numBlocks s = (.ok blocks, t)) {options : CountOptions} (ho : o.options (blocks.map toBlock) = .ok options)
    (value : List Nat → Nat → Rat)
    (hcount : ∀ px : List Nat, px.length = 576 * 576 → (∀ v ∈ px, v < 65536) →
      ∃ ev, countFrameClassic options (576, 576) (pixels px) = .ok ev ∧ IsEventList options.bg options.xr 576 576 (value px) ev)
    (hne : ∃ f ∈ files, f.records ≠ [])
    (hcache : ∀ x y, x < W → y < H → cached t (y * W + x) + (readOrder files x y).length ≤ 4) :
    ∃ events all ev, BlockPipeline.electronCount (layout v4) o files s = .ok ((W, H), events) ∧ IsPositions v4 files all ∧
      (∀ f ∈ all, countFrameClassic options (576, 576) (pixels f.pixels) = .ok (ev f) ∧
        IsEventList options.bg options.xr 576 576 (value f.pixels) (ev f)) ∧
      Results W H ⟨events, (W, H), (576, 576)⟩ all ev := by
  have hcount' : ∀ px : List Nat, px.length = 576 * 576 → (∀ v ∈ px, v < 65536) →
      ∃ ev, countFrameClassic options (576, 576) (pixels px) = .ok ev := by
    intro px h1 h2
    obtain ⟨ev, e, _⟩ := hcount px h1 h2
    exact ⟨ev, e⟩
  obtain ⟨events, h1, h2, h3⟩ := C87_exact v4 o files W H hf hsz hpos hscan hb hs ho hcount' hne
  have hW : 0 < W := Nat.pos_of_mul_pos_right hpos
  have hpx : ∀ p, ∃ px, p < W * H → readOrder files (p % W) (p / W) ≠ [] →
      IsFrame v4 (FileRecord files (p % W) (p / W)) px ∧ ∃ ev, countFrameClassic options (576, 576) (pixels px) = .ok ev ∧
        events[p]? = some [ev] := by
    intro p
    by_cases hp : p < W * H ∧ readOrder files (p % W) (p / W) ≠ []
    · obtain ⟨hp, hr⟩ := hp
      have hx := Nat.mod_lt p hW
      have hy := Nat.div_lt_of_lt_mul hp
      obtain ⟨ev, e1, e2⟩ := h3 _ _ hx hy
      obtain ⟨px, e3, e4⟩ := e2.all hr (hcache _ _ hx hy)
      rw [Nat.mul_comm, Nat.div_add_mod] at e1
      exact ⟨px, fun _ _ => ⟨e3, ev, e4, e1⟩⟩
    · exact ⟨[], fun a b => absurd ⟨a, b⟩ hp⟩
  choose px hpx using hpx
  let mk : Nat → ScanFrame := fun p => ⟨p % W, p / W, 0, px p⟩
  let all : List ScanFrame := ((List.range (W * H)).filter fun p => readOrder files (p % W) (p / W) ≠ []).map mk
  let ev : ScanFrame → List Nat := fun f =>
    match countFrameClassic options (576, 576) (pixels f.pixels) with
    | .ok ev => ev
    | _ => []
  have hall : ∀ f ∈ all, ∃ p, p < W * H ∧ readOrder files (p % W) (p / W) ≠ [] ∧ f = mk p := by
    intro f hfm
    obtain ⟨p, hp, rfl⟩ := List.mem_map.1 hfm
    obtain ⟨hp1, hp2⟩ := List.mem_filter.1 hp
    exact ⟨p, List.mem_range.1 hp1, by simpa using hp2, rfl⟩
  have horder : ∀ x y, x < W → y < H → (readOrder files x y ≠ [] ↔ ∃ sec r, FileRecord files x y sec r) := by
    intro x y hx hy
    obtain ⟨_, _, e2⟩ := h3 x y hx hy
    constructor
    · intro hne
      obtain ⟨sec, l, hl⟩ := List.exists_cons_of_ne_nil hne
      exact ⟨sec, (e2.sectors sec).1 (by simp [hl])⟩
    · rintro ⟨sec, hr⟩ hnil
      have := (e2.sectors sec).2 hr
      rw [hnil] at this
      simp at this
  have hpos' : IsPositions v4 files all := by
    refine ⟨?_, ?_, ?_⟩
    · simp only [all, List.map_map]
      refine List.Nodup.map_on ?_ (List.nodup_range.filter _)
      intro a _ b _ e
      simp only [Function.comp, mk, Prod.mk.injEq] at e
      rw [← Nat.div_add_mod a W, ← Nat.div_add_mod b W, e.1, e.2]
    · intro x y
      constructor
      · rintro ⟨f, hfm, rfl, rfl⟩
        obtain ⟨p, hp, hr, rfl⟩ := hall f hfm
        exact (horder _ _ (Nat.mod_lt p hW) (Nat.div_lt_of_lt_mul hp)).1 hr
      · rintro ⟨sec, r, hr⟩
        obtain ⟨file, h4, h5, h6, h7, h8⟩ := id hr
        have hin := hf.scan file h4 r h5
        have hx : x < W := h7 ▸ hin.2.2.1
        have hy : y < H := h8 ▸ hin.2.2.2
        refine ⟨mk (y * W + x), List.mem_map.2 ⟨y * W + x, List.mem_filter.2 ⟨List.mem_range.2 (flat_lt hx hy), ?_⟩, rfl⟩, ?_⟩
        · rw [flat_mod y hx, flat_div y hx]
          simpa using (horder x y hx hy).2 ⟨sec, r, hr⟩
        · exact ⟨flat_mod y hx, flat_div y hx⟩
    · intro f hfm
      obtain ⟨p, hp, hr, rfl⟩ := hall f hfm
      exact (hpx p hp hr).1
  have hev : ∀ f ∈ all, countFrameClassic options (576, 576) (pixels f.pixels) = .ok (ev f) ∧
        IsEventList options.bg options.xr 576 576 (value f.pixels) (ev f) := by
    intro f hfm
    have hfr := hpos'.frame f hfm
    obtain ⟨e, e1, e2⟩ := hcount f.pixels hfr.size (hfr.values (by
      rintro sec r ⟨file, h4, h5, _⟩
      exact hf.values file h4 r h5))
    have : ev f = e := by simp only [ev, e1]
    rw [this]
    exact ⟨e1, e2⟩
  refine ⟨events, all, ev, h1, hpos', hev, ?_⟩
  refine results_of_rows (m := 1) (by decide) h2 hpos hsz ?_ (fun f hfm => ⟨(hev f hfm).2.onDetector, (hev f hfm).2.sorted.imp (fun h => Nat.ne_of_lt h)⟩)
  intro X Y hX hY
  have hq := flat_lt hX hY
  have hfil : (all.filter fun f => f.x = X ∧ f.y = Y) = if readOrder files X Y ≠ [] then [mk (Y * W + X)] else [] := by
    simp only [all]
    rw [List.filter_map, List.filter_filter]
    have := filter_range (W * H) (Y * W + X) hq (fun p => decide (readOrder files (p % W) (p / W) ≠ []))
    rw [flat_mod Y hX, flat_div Y hX] at this
    have e : (List.range (W * H)).filter (fun p => ((fun f : ScanFrame => decide (f.x = X ∧ f.y = Y)) ∘ mk) p &&
        decide (readOrder files (p % W) (p / W) ≠ [])) =
        (List.range (W * H)).filter (fun p => decide (p = Y * W + X) && decide (readOrder files (p % W) (p / W) ≠ [])) := by
      refine List.filter_congr fun p _ => ?_
      congr 1
      simp only [Function.comp, mk]
      refine decide_eq_decide.2 ⟨?_, ?_⟩
      · rintro ⟨rfl, rfl⟩
        rw [Nat.mul_comm, Nat.div_add_mod]
      · rintro rfl
        exact ⟨flat_mod Y hX, flat_div Y hX⟩
    rw [e, this]
    by_cases hr : readOrder files X Y = []
    · simp [hr]
    · simp [hr]
  rw [hfil]
  by_cases hr : readOrder files X Y = []
  · obtain ⟨ev0, e1, e2⟩ := h3 X Y hX hY
    rw [e2.none hr] at e1
    refine ⟨[], ?_, by simp, ?_⟩
    · simp [hr]
    · rw [e1]; rfl
  · have := hpx (Y * W + X) hq (by rw [flat_mod Y hX, flat_div Y hX]; exact hr)
    obtain ⟨_, e, e1, e2⟩ := this
    refine ⟨[e], ?_, by simp, ?_⟩
    · have : ev (mk (Y * W + X)) = e := by simp only [ev, mk, e1]
      simp [hr, this]
    · rw [e2]; rfl

/-- **C87** With gain and dark reference: if at the rewind the cache holds of no position so many sectors that with the records of the
position they are more than four (for example, if it is empty), then every position of which there is a record has exactly the
events of the frame of its records, and so have the array, the file and the images. Missing for the full statement: other
contents of the cache, for which it is false (`C87_exact`, `C87_lost`, `C87_false`). -/
theorem C87_images_partial (v4 : Bool) (o : BlockPipeline.Setup) (files : List (SectorReader.Stream (List Nat))) (W H : Nat)
    (hf : BlockFiles files W H) (hsz : W * H < 2 ^ 32) (hpos : 0 < W * H) (hscan : o.scan = (W, H) ∨ o.scan.1 = 0 ∨ o.scan.2 = 0)
    {before blocks : List (SectorReader.Frame (List Nat))} {s t : State (List Nat) (List Nat)} (hb : Reads (layout v4) (create files) before s)
    (hs : sample (layout v4) o.numBlocks s = (.ok blocks, t)) {options : CountOptions} (ho : o.options (blocks.map toBlock) = .ok options)
    (hbg : 0 ≤ options.bg) (hrd : options.rowDark = none) (hft : options.ft = .f32) {dark gain : List Rat} (hg : options.gain = some gain)
    (hgl : gain.length = 576 * 576) (hd : options.dark = some dark) (hdl : dark.length = 576 * 576)
    (hne : ∃ f ∈ files, f.records ≠ [])
    (hcache : ∀ x y, x < W → y < H → cached t (y * W + x) + (readOrder files x y).length ≤ 4) :
    ∃ events all ev, BlockPipeline.electronCount (layout v4) o files s = .ok ((W, H), events) ∧ IsPositions v4 files all ∧
      (∀ f ∈ all, IsEventList options.bg options.xr 576 576 (floatValue options.dark gain f.pixels) (ev f)) ∧
      Results W H ⟨events, (W, H), (576, 576)⟩ all ev := by
  obtain ⟨events, all, ev, h1, h2, h3, h4⟩ := images v4 o files W H hf hsz hpos hscan hb hs ho (floatValue options.dark gain) (fun px hpx _ =>
    C12_classic_gain ⟨by norm_num, by norm_num, by norm_num, by norm_num, hpx, hbg⟩ hrd hft hg hgl hd hdl) hne hcache
  exact ⟨events, all, ev, h1, h2, fun f hfm => (h3 f hfm).2, h4⟩

/-- **C87** The same without gain, for a dark reference between -1 and 1. -/
theorem C87_images_u16_partial (v4 : Bool) (o : BlockPipeline.Setup) (files : List (SectorReader.Stream (List Nat))) (W H : Nat)
    (hf : BlockFiles files W H) (hsz : W * H < 2 ^ 32) (hpos : 0 < W * H) (hscan : o.scan = (W, H) ∨ o.scan.1 = 0 ∨ o.scan.2 = 0)
    {before blocks : List (SectorReader.Frame (List Nat))} {s t : State (List Nat) (List Nat)} (hb : Reads (layout v4) (create files) before s)
    (hs : sample (layout v4) o.numBlocks s = (.ok blocks, t)) {options : CountOptions} (ho : o.options (blocks.map toBlock) = .ok options)
    (hbg : 0 ≤ options.bg) (hrd : options.rowDark = none) (hft : options.ft = .u16) {dark : List Rat}
    (hd : options.dark = some dark) (hdl : dark.length = 576 * 576) (hdv : ∀ r ∈ dark, -1 < r ∧ r < 1)
    (hne : ∃ f ∈ files, f.records ≠ [])
    (hcache : ∀ x y, x < W → y < H → cached t (y * W + x) + (readOrder files x y).length ≤ 4) :
    ∃ events all ev, BlockPipeline.electronCount (layout v4) o files s = .ok ((W, H), events) ∧ IsPositions v4 files all ∧
      (∀ f ∈ all, IsEventList options.bg options.xr 576 576 (u16ClassicValue dark f.pixels) (ev f)) ∧
      Results W H ⟨events, (W, H), (576, 576)⟩ all ev := by
  obtain ⟨events, all, ev, h1, h2, h3, h4⟩ := images v4 o files W H hf hsz hpos hscan hb hs ho (u16ClassicValue dark) (fun px hpx hpv =>
    C12_classic_u16 ⟨by norm_num, by norm_num, by norm_num, by norm_num, hpx, hbg⟩ hrd hft hd hdl (by
      intro j hj
      have hj1 : j < dark.length := by omega
      have hj2 : j < px.length := by omega
      have e1 : dark.getD j 0 = dark[j] := by simp [hj1]
      have e2 : px.getD j 0 = px[j] := by simp [hj2]
      rw [e1, e2]
      have b1 := hdv _ (List.getElem_mem hj1)
      have b2 : ((px[j] : Nat) : Rat) ≤ 65535 := by
        have := hpv _ (List.getElem_mem hj2)
        exact_mod_cast (by omega : px[j] ≤ 65535)
      have b3 : (0 : Rat) ≤ ((px[j] : Nat) : Rat) := Nat.cast_nonneg _
      constructor <;> linarith [b1.1, b1.2])) hne hcache
  exact ⟨events, all, ev, h1, h2, fun f hfm => (h3 f hfm).2, h4⟩

/-- **C87** is false: at a position of which the cache held too many sectors at the rewind, there are no events in the strips of the
`4 - k` sectors which are read first, whatever their pixels are (for a gain and a dark reference which are not negative). -/
theorem C87_lost (v4 : Bool) (o : BlockPipeline.Setup) (files : List (SectorReader.Stream (List Nat))) (W H : Nat)
    (hf : BlockFiles files W H) (hsz : W * H < 2 ^ 32) (hscan : o.scan = (W, H) ∨ o.scan.1 = 0 ∨ o.scan.2 = 0)
    {before blocks : List (SectorReader.Frame (List Nat))} {s t : State (List Nat) (List Nat)} (hb : Reads (layout v4) (create files) before s)
    (hs : sample (layout v4) o.numBlocks s = (.ok blocks, t)) {options : CountOptions} (ho : o.options (blocks.map toBlock) = .ok options)
    (hbg : 0 ≤ options.bg) (hrd : options.rowDark = none) (hft : options.ft = .f32) {dark gain : List Rat} (hg : options.gain = some gain)
    (hgl : gain.length = 576 * 576) (hd : options.dark = some dark) (hdl : dark.length = 576 * 576)
    (hg0 : ∀ r ∈ gain, 0 ≤ r) (hd0 : ∀ r ∈ dark, 0 ≤ r) {x y : Nat} (hx : x < W) (hy : y < H)
    (hcache : 4 < cached t (y * W + x) + (readOrder files x y).length) :
    ∃ events ev, BlockPipeline.electronCount (layout v4) o files s = .ok ((W, H), events) ∧ events[y * W + x]? = some [ev] ∧
      ∀ c l, c < 576 → l < 576 → sectorAt v4 c l ∈ (readOrder files x y).take (4 - cached t (y * W + x)) → l * 576 + c ∉ ev := by
  have hcount : ∀ px : List Nat, px.length = 576 * 576 → (∀ v ∈ px, v < 65536) →
      ∃ ev, countFrameClassic options (576, 576) (pixels px) = .ok ev ∧
        IsEventList options.bg options.xr 576 576 (floatValue options.dark gain px) ev := fun px hpx _ =>
    C12_classic_gain ⟨by norm_num, by norm_num, by norm_num, by norm_num, hpx, hbg⟩ hrd hft hg hgl hd hdl
  have hpos : 0 < W * H := Nat.mul_pos (by omega) (by omega)
  have hne : ∃ f ∈ files, f.records ≠ [] := by
    have P := position hf (Nat.le_of_lt hsz) (y := y) hx
    obtain ⟨sec, l, hl⟩ := List.exists_cons_of_ne_nil (l := readOrder files x y) (by
      rintro hnil
      obtain ⟨h, hinv, hpre⟩ := reads_cache hf.good (hb.append (sample_reads hs))
      have hk : cached t (y * W + x) < 4 := by
        unfold cached
        rw [hinv.find]
        split
        · simp
        · have := SectorReader.openGroup_length h (y * W + x)
          simp only [Option.map_some, Option.getD_some]
          omega
      rw [hnil] at hcache
      simp at hcache
      omega)
    have hm : sec ∈ (at' (y * W + x) (arrival [] files)).map fun i => i.1 := by rw [P.order, hl]; simp
    obtain ⟨i, hi, _⟩ := List.mem_map.1 hm
    obtain ⟨f, hfm, hr, _⟩ := (mem_arrival i).1 (List.mem_filter.1 hi).1
    exact ⟨f, hfm, List.ne_nil_of_mem hr⟩
  obtain ⟨events, h1, _, h3⟩ := C87_exact v4 o files W H hf hsz hpos hscan hb hs ho
    (fun px a b => by obtain ⟨ev, e, _⟩ := hcount px a b; exact ⟨ev, e⟩) hne
  obtain ⟨ev, e1, e2⟩ := h3 x y hx hy
  refine ⟨events, ev, h1, e1, ?_⟩
  obtain ⟨px, e3, e4⟩ := e2.lost hcache
  have hv := e3.values (by
    rintro sec r ⟨_, file, h4, h5, _⟩
    exact hf.values file h4 r h5)
  obtain ⟨ev', e5, e6⟩ := hcount px e3.size hv
  have : ev' = ev := by
    rw [e5] at e4
    exact Outcome.ok.inj e4
  subst this
  intro c l hc hl hsec hmem
  have hz : px[576 * l + c]? = some 0 := by
    refine e3.zero c l hc hl ?_
    rintro r ⟨hk, _⟩
    exact List.disjoint_take_drop e2.nodup (Nat.le_refl _) hsec hk
  have hv := ((e6.mem c l hc hl).1 hmem).1.1
  have hj : l * 576 + c < 576 * 576 := by omega
  have hz' : px.getD (l * 576 + c) 0 = 0 := by
    rw [List.getD_eq_getElem?_getD, Nat.mul_comm, hz]; rfl
  unfold floatValue at hv
  rw [hz', hd] at hv
  have g0 : 0 ≤ gain.getD (l * 576 + c) 0 := by
    have hj' : l * 576 + c < gain.length := by omega
    rw [show gain.getD (l * 576 + c) 0 = gain[l * 576 + c] by simp [hj']]
    exact hg0 _ (List.getElem_mem _)
  have d0 : 0 ≤ dark.getD (l * 576 + c) 0 := by
    have hj' : l * 576 + c < dark.length := by omega
    rw [show dark.getD (l * 576 + c) 0 = dark[l * 576 + c] by simp [hj']]
    exact hd0 _ (List.getElem_mem _)
  have : ((0 : Nat) - dark.getD (l * 576 + c) 0) * gain.getD (l * 576 + c) 0 ≤ 0 := by
    refine mul_nonpos_of_nonpos_of_nonneg ?_ g0
    simpa using d0
  exact absurd (lt_of_lt_of_le hv this) (not_lt.2 hbg)

/-! ### Files in step -/

/-- Four files whose records have the same positions in the same order. -/
def InStep {D : Type} (files : List (SectorReader.Stream D)) : Prop :=
  files.length = 4 ∧ ∃ ps : List Nat, ∀ f ∈ files, f.records.map Rec.pos = ps

private theorem inStep_read {D F : Type} (L : Layout D F) {files : List (SectorReader.Stream D)} (hf : GoodFiles files) (hs : InStep files)
    {f : SectorReader.Frame F} {t : State D F} (h : SectorReader.read L ⟨[], files, []⟩ = (.ok (some f), t)) :
    t.cache = [] ∧ t.todo = [] ∧ GoodFiles t.visited ∧ InStep t.visited := by
  obtain ⟨hl, ps, hps⟩ := hs
  match files, hl with
  | [a, b, c, d], _ =>
    simp only [List.mem_cons, List.not_mem_nil, or_false, forall_eq_or_imp, forall_eq] at hps
    obtain ⟨ha, hb, hc, hd⟩ := hps
    have ga := hf a (by simp)
    have gb := hf b (by simp)
    have gc := hf c (by simp)
    have gd := hf d (by simp)
    cases ps with
    | nil =>
      rw [List.map_eq_nil_iff] at ha hb hc hd
      rw [SectorReader.read_erase L _ _ _ _ ha ga.2, SectorReader.read_erase L _ _ _ _ hb gb.2, SectorReader.read_erase L _ _ _ _ hc gc.2,
        SectorReader.read_erase L _ _ _ _ hd gd.2, SectorReader.read] at h
      simp at h
    | cons q ps =>
      obtain ⟨ra, la, ea, rfl, ta⟩ := List.map_eq_cons_iff.1 ha
      obtain ⟨rb, lb, eb, pb, tb⟩ := List.map_eq_cons_iff.1 hb
      obtain ⟨rc, lc, ec, pc, tc⟩ := List.map_eq_cons_iff.1 hc
      obtain ⟨rd, ld, ed, pd, td⟩ := List.map_eq_cons_iff.1 hd
      rw [SectorReader.read_record L _ _ _ _ _ _ ea ga.1] at h
      simp only [SectorReader.feed, find, SectorReader.addSector, SectorReader.insert, Nat.reduceEqDiff, if_false] at h
      rw [SectorReader.read_record L _ _ _ _ _ _ eb gb.1] at h
      simp only [SectorReader.feed, find, SectorReader.addSector, SectorReader.insert, pb, if_true, Nat.reduceAdd, Nat.reduceEqDiff, if_false,
        Nat.lt_irrefl] at h
      rw [SectorReader.read_record L _ _ _ _ _ _ ec gc.1] at h
      simp only [SectorReader.feed, find, SectorReader.addSector, SectorReader.insert, pc, if_true, Nat.reduceAdd, Nat.reduceEqDiff, if_false,
        Nat.lt_irrefl] at h
      rw [SectorReader.read_record L _ _ _ _ _ _ ed gd.1] at h
      simp only [SectorReader.feed, find, SectorReader.addSector, SectorReader.erase, pd, if_true, Nat.reduceAdd, Prod.mk.injEq] at h
      obtain ⟨_, rfl⟩ := h
      refine ⟨rfl, rfl, ?_, rfl, ps, ?_⟩
      · simp only [GoodFiles, List.nil_append, List.cons_append, List.mem_cons, List.not_mem_nil, or_false, forall_eq_or_imp, forall_eq]
        exact ⟨ga, gb, gc, gd⟩
      · simp only [List.nil_append, List.cons_append, List.mem_cons, List.not_mem_nil, or_false, forall_eq_or_imp, forall_eq]
        exact ⟨ta, tb, tc, td⟩

private theorem inStep_reads {D F : Type} {L : Layout D F} {s t : State D F} {fs : List (SectorReader.Frame F)} (hr : Reads L s fs t)
    (h : s.cache = [] ∧ (s.visited = [] ∧ GoodFiles s.todo ∧ InStep s.todo ∨ s.todo = [] ∧ GoodFiles s.visited ∧ InStep s.visited)) :
    t.cache = [] := by
  induction hr with
  | nil => exact h.1
  | @cons s t u f fs h1 _ ih =>
    refine ih ?_
    obtain ⟨vs, todo, c⟩ := s
    obtain ⟨rfl, h⟩ := h
    have key : ∀ files, GoodFiles files → InStep files → SectorReader.read L ⟨[], files, []⟩ = (.ok (some f), t) →
        t.cache = [] ∧ (t.visited = [] ∧ GoodFiles t.todo ∧ InStep t.todo ∨ t.todo = [] ∧ GoodFiles t.visited ∧ InStep t.visited) := by
      intro files g1 g2 g3
      obtain ⟨a, b, d, e⟩ := inStep_read L g1 g2 g3
      exact ⟨a, .inr ⟨b, d, e⟩⟩
    rcases h with ⟨rfl, g1, g2⟩ | ⟨rfl, g1, g2⟩
    · exact key _ g1 g2 h1
    · rw [SectorReader.read_wrap L _ _ (by
        intro hnil
        have := g2.1
        rw [show vs = [] from hnil] at this
        simp at this)] at h1
      exact key _ g1 g2 h1

/-- With files in step the cache is empty at the rewind, and there are at most four records of a position. -/
theorem inStep_cached {v4 : Bool} {files : List (SectorReader.Stream (List Nat))} {W H : Nat} (hf : BlockFiles files W H) (hst : InStep files)
    (hsz : W * H ≤ 2 ^ 32) {before blocks : List (SectorReader.Frame (List Nat))} {s t : State (List Nat) (List Nat)}
    (hb : Reads (layout v4) (create files) before s) {n : Nat} (hs : sample (layout v4) n s = (.ok blocks, t)) :
    ∀ x y, x < W → y < H → cached t (y * W + x) + (readOrder files x y).length ≤ 4 := by
  have hc : t.cache = [] := inStep_reads (hb.append (sample_reads hs)) ⟨rfl, .inl ⟨rfl, hf.good, hst⟩⟩
  intro x y hx hy
  have hk : cached t (y * W + x) = 0 := by
    unfold cached
    rw [hc]
    rfl
  have P := position hf hsz (y := y) hx
  rw [hk, Nat.zero_add, ← P.order]
  have hsub : ((at' (y * W + x) (arrival [] files)).map fun i => i.1) ⊆ List.range 4 := by
    intro sec hsec
    obtain ⟨i, hi, rfl⟩ := List.mem_map.1 hsec
    exact List.mem_range.2 (P.four i hi)
  simpa using (List.subperm_of_subset P.nodup hsub).length_le

/-- **C87** If the four files have the same positions in the same order, no frame is ever left in the cache, and the results are right for
any number of blocks for the thresholds, and if blocks were read before the call. -/
theorem C87_in_step (v4 : Bool) (o : BlockPipeline.Setup) (files : List (SectorReader.Stream (List Nat))) (W H : Nat)
    (hf : BlockFiles files W H) (hst : InStep files) (hsz : W * H < 2 ^ 32) (hpos : 0 < W * H)
    (hscan : o.scan = (W, H) ∨ o.scan.1 = 0 ∨ o.scan.2 = 0)
    {before blocks : List (SectorReader.Frame (List Nat))} {s t : State (List Nat) (List Nat)} (hb : Reads (layout v4) (create files) before s)
    (hs : sample (layout v4) o.numBlocks s = (.ok blocks, t)) {options : CountOptions} (ho : o.options (blocks.map toBlock) = .ok options)
    (hbg : 0 ≤ options.bg) (hrd : options.rowDark = none) (hft : options.ft = .f32) {dark gain : List Rat} (hg : options.gain = some gain)
    (hgl : gain.length = 576 * 576) (hd : options.dark = some dark) (hdl : dark.length = 576 * 576)
    (hne : ∃ f ∈ files, f.records ≠ []) :
    ∃ events all ev, BlockPipeline.electronCount (layout v4) o files s = .ok ((W, H), events) ∧ IsPositions v4 files all ∧
      (∀ f ∈ all, IsEventList options.bg options.xr 576 576 (floatValue options.dark gain f.pixels) (ev f)) ∧
      Results W H ⟨events, (W, H), (576, 576)⟩ all ev := by
  refine C87_images_partial v4 o files W H hf hsz hpos hscan hb hs ho hbg hrd hft hg hgl hd hdl hne
    (inStep_cached hf hst (Nat.le_of_lt hsz) hb hs)

/-! ### Too few frames for the thresholds -/

theorem readToEnd_reads {D F : Type} {L : Layout D F} (fs : List (SectorReader.Frame F)) (s : State D F) (h : readToEnd L s = .ok fs) :
    ∃ t u, Reads L s fs t ∧ SectorReader.read L t = (.ok none, u) := by
  induction fs generalizing s with
  | nil =>
    rw [readToEnd] at h
    split at h
    · rename_i t hr; exact ⟨s, t, .nil _, hr⟩
    · rename_i f t hr
      cases h' : readToEnd L t <;> rw [h'] at h <;> simp at h
    · simp at h
    · simp at h
  | cons f fs ih =>
    rw [readToEnd] at h
    split at h
    · simp at h
    · rename_i g t hr
      cases h' : readToEnd L t with
      | ok gs =>
        rw [h'] at h
        simp at h
        obtain ⟨rfl, rfl⟩ := h
        obtain ⟨u, v, h1, h2⟩ := ih t h'
        exact ⟨u, v, .cons hr h1, h2⟩
      | throw m => rw [h'] at h; simp at h
      | ub => rw [h'] at h; simp at h
    · simp at h
    · simp at h

private theorem sample_few {D F : Type} {L : Layout D F} {s t u : State D F} {fs : List (SectorReader.Frame F)} (hr : Reads L s fs t)
    (he : SectorReader.read L t = (.ok none, u)) (n : Nat) (hn : fs.length < n) : sample L n s = (.throw "StopIteration", u) := by
  induction hr generalizing n with
  | nil s =>
    obtain ⟨n, rfl⟩ := Nat.exists_eq_succ_of_ne_zero (Nat.ne_of_gt (Nat.lt_of_le_of_lt (Nat.zero_le _) hn))
    simp [sample, he]
  | cons h1 _ ih =>
    obtain ⟨n, rfl⟩ := Nat.exists_eq_succ_of_ne_zero (Nat.ne_of_gt (Nat.lt_of_le_of_lt (Nat.zero_le _) hn))
    simp only [List.length_cons] at hn
    simp [sample, h1, ih he n (by omega)]

private theorem sample_enough {D F : Type} {L : Layout D F} {s t : State D F} {fs : List (SectorReader.Frame F)} (hr : Reads L s fs t)
    (n : Nat) (hn : n ≤ fs.length) : ∃ u, sample L n s = (.ok (fs.take n), u) := by
  induction hr generalizing n with
  | nil s => simp only [List.length_nil, Nat.le_zero] at hn; subst hn; exact ⟨_, rfl⟩
  | cons h1 _ ih =>
    cases n with
    | zero => exact ⟨_, rfl⟩
    | succ n =>
      obtain ⟨u, hu⟩ := ih n (by simpa using hn)
      exact ⟨u, by simp [sample, h1, hu]⟩

/-- **C87** If the reader has fewer frames left than are wanted for the thresholds, the counting raises `StopIteration`, and else
exactly the first of them are the sample. -/
theorem C87_sample (L : Layout (List Nat) (List Nat)) (o : BlockPipeline.Setup) (files : List (SectorReader.Stream (List Nat)))
    (s : State (List Nat) (List Nat)) {fs : List (SectorReader.Frame (List Nat))} (h : readToEnd L s = .ok fs) :
    (fs.length < o.numBlocks → BlockPipeline.electronCount L o files s = .throw "StopIteration") ∧
    (o.numBlocks ≤ fs.length → ∃ t, sample L o.numBlocks s = (.ok (fs.take o.numBlocks), t)) := by
  obtain ⟨t, u, h1, h2⟩ := readToEnd_reads fs s h
  refine ⟨fun hn => ?_, fun hn => sample_enough h1 _ hn⟩
  unfold BlockPipeline.electronCount
  rw [sample_few h1 h2 _ hn]

/-! ### Counterexample -/

/-- The options of the counterexample: one threshold of 10 and one of 1000, a dark reference of zeros and a gain of ones. -/
def plainOptions : CountOptions :=
  ⟨.f32, 10, 1000, some (List.replicate (576 * 576) 0), some (List.replicate (576 * 576) 1), none, 0⟩

def plainSetup (n : Nat) : BlockPipeline.Setup := ⟨n, (2, 1), fun _ => .ok plainOptions⟩

/-- Files with a bright pixel in all sectors of position 1. The record of position 1 is the first of the file of sector 0, and the second of the others. -/
def brightDemo : List (SectorReader.Stream (List Nat)) := demoFiles (brightSector 100) (brightSector 0)

theorem brightDemo_whole : WholeFiles brightDemo 2 1 := by
  have hlen : ∀ v, (brightSector v).length = 144 * 576 := by
    intro v
    rw [brightSector, List.length_append, List.length_cons, List.length_replicate, List.length_replicate]
  have hval : ∀ v, v < 65536 → ∀ w ∈ brightSector v, w < 65536 := by
    intro v hv w hw
    rw [brightSector, List.mem_append, List.mem_cons, List.mem_replicate, List.mem_replicate] at hw
    omega
  have hall : ∀ f ∈ brightDemo, (0 ≤ f.sector ∧ f.sector < 4) ∧ f.cut = false ∧
      ∀ r ∈ f.records, r = mkRec 1 (brightSector 100) ∨ r = mkRec 0 (brightSector 0) := by
    intro f hf
    simp only [brightDemo, demoFiles, List.mem_cons, List.not_mem_nil, or_false] at hf
    rcases hf with rfl | rfl | rfl | rfl <;> simp [or_comm]
  refine ⟨⟨fun f hf => ⟨(hall f hf).1, (hall f hf).2.1⟩, ?_, ?_, ?_, ?_⟩, ?_⟩
  · intro f hf r hr
    rcases (hall f hf).2.2 r hr with rfl | rfl <;> simp [InScan, mkRec]
  · intro f hf r hr
    rcases (hall f hf).2.2 r hr with rfl | rfl <;> exact Nat.le_of_eq (hlen _)
  · intro f hf r hr
    rcases (hall f hf).2.2 r hr with rfl | rfl <;> exact hval _ (by decide)
  · simp [brightDemo, demoFiles, mkRec]
  · intro f hf r hr
    rcases (hall f hf).2.2 r hr with rfl | rfl <;> exact hlen _

theorem brightDemo_ok : BlockFiles brightDemo 2 1 := brightDemo_whole.toBlockFiles

theorem brightDemo_order : readOrder brightDemo 1 0 = [0, 1, 2, 3] := by
  simp [readOrder, brightDemo, demoFiles, mkRec, List.range_succ]

theorem bright_at (v i : Nat) (hi : i < 82944) : (brightSector v)[i]? = some (if i = 1000 then v else 0) := by
  unfold brightSector
  rw [List.getElem?_append, List.length_replicate]
  split
  · rw [List.getElem?_replicate, if_pos (by omega), if_neg (by omega)]
  · by_cases h : i = 1000
    · subst h; rw [Nat.sub_self, List.getElem?_cons_zero, if_pos rfl]
    · obtain ⟨j, rfl⟩ : ∃ j, i = 1000 + (j + 1) := ⟨i - 1001, by omega⟩
      rw [Nat.add_sub_cancel_left, List.getElem?_cons_succ, List.getElem?_replicate, if_pos (by omega), if_neg (by omega)]

theorem demo_sample (L : Layout (List Nat) (List Nat)) (a b : List Nat) :
    ∃ bl t, sample L 1 (create (demoFiles a b)) = (.ok bl, t) ∧ cached t 1 = 1 := by
  simp [sample, create, demoFiles, mkRec, SectorReader.read, SectorReader.feed, SectorReader.addSector, find, SectorReader.insert,
    SectorReader.erase, Rec.pos, cached]

/-- **C87** is false: with no block for the thresholds the bright pixel of sector 0 of position 1 is counted, with one block (and the same
thresholds) it is not: after the first block sector 0 of position 1 is in the cache. -/
theorem C87_false :
    ∃ e0 e1 ev0 ev1, BlockPipeline.electronCount version5 (plainSetup 0) brightDemo (create brightDemo) = .ok ((2, 1), e0) ∧
      BlockPipeline.electronCount version5 (plainSetup 1) brightDemo (create brightDemo) = .ok ((2, 1), e1) ∧
      e0[1]? = some [ev0] ∧ e1[1]? = some [ev1] ∧ 1000 ∈ ev0 ∧ 1000 ∉ ev1 := by
  have hne : ∃ f ∈ brightDemo, f.records ≠ [] := ⟨_, List.mem_cons_self .., by simp⟩
  have hfr : ∀ px, IsFrame false (FileRecord brightDemo 1 0) px → ∀ c l, c < 576 → l < 3 → px[576 * l + c]? = some (if 576 * l + c = 1000 then 100 else 0) := by
    intro px hp c l hc hl
    rw [hp.pixel c l hc (by omega) (mkRec 1 (brightSector 100)) ⟨_, List.mem_cons_self .., List.mem_cons_self .., by
      rw [show sectorAt false c l = l / 144 from rfl, Nat.div_eq_of_lt (by omega)]; rfl, rfl, rfl⟩]
    rw [show indexAt false c l = 576 * (l % 144) + c from rfl, Nat.mod_eq_of_lt (by omega), List.getD_eq_getElem?_getD]
    rw [show (mkRec 1 (brightSector 100)).data[576 * l + c]? = _ from bright_at 100 (576 * l + c) (by omega)]
    rfl
  obtain ⟨b, t, hs1, hk⟩ := demo_sample version5 (brightSector 100) (brightSector 0)
  obtain ⟨e1, ev1, a1, a2, a3⟩ := C87_lost false (plainSetup 1) brightDemo 2 1 brightDemo_ok (by decide) (.inl rfl) (.nil _) hs1 (options := plainOptions)
    rfl (by norm_num [plainOptions]) rfl rfl rfl (by rw [List.length_replicate]) rfl (by rw [List.length_replicate])
    (by intro r hr; rw [List.eq_of_mem_replicate hr]; norm_num) (by intro r hr; rw [List.eq_of_mem_replicate hr])
    (x := 1) (y := 0) (by decide) (by decide) (by
      rw [brightDemo_order, show 0 * 2 + 1 = 1 from rfl, hk]; decide)
  have hcount : ∀ px : List Nat, px.length = 576 * 576 → ∃ ev, countFrameClassic plainOptions (576, 576) (pixels px) = .ok ev ∧
      IsEventList plainOptions.bg plainOptions.xr 576 576 (floatValue plainOptions.dark (List.replicate (576 * 576) 1) px) ev := fun px hpx =>
    C12_classic_gain ⟨by norm_num, by norm_num, by norm_num, by norm_num, hpx, by norm_num [plainOptions]⟩ rfl rfl rfl
      (by rw [List.length_replicate]) rfl (by rw [List.length_replicate])
  obtain ⟨e0, b1, _, b3⟩ := C87_exact false (plainSetup 0) brightDemo 2 1 brightDemo_ok (by decide) (by decide) (.inl rfl) (.nil _)
    (blocks := []) rfl (options := plainOptions) rfl (fun px a _ => by obtain ⟨ev, e, _⟩ := hcount px a; exact ⟨ev, e⟩) hne
  obtain ⟨ev0, b4, b5⟩ := b3 1 0 (by decide) (by decide)
  refine ⟨e0, e1, ev0, ev1, b1, a1, b4, a2, ?_, ?_⟩
  · obtain ⟨px, p1, p2⟩ := b5.all (by rw [brightDemo_order]; simp) (by rw [brightDemo_order]; decide)
    obtain ⟨ev, p3, p4⟩ := hcount px p1.size
    rw [p2, Outcome.ok.injEq] at p3
    subst p3
    have hval : ∀ c l, c < 576 → l < 3 → floatValue plainOptions.dark (List.replicate (576 * 576) 1) px (l * 576 + c) =
        if 576 * l + c = 1000 then 100 else 0 := by
      intro c l hc hl
      have h1 : ∀ r : Rat, (List.replicate (576 * 576) r).getD (l * 576 + c) 0 = r := by
        intro r
        rw [List.getD_eq_getElem?_getD, List.getElem?_replicate, if_pos (by omega)]
        rfl
      have h2 : px.getD (l * 576 + c) 0 = if 576 * l + c = 1000 then 100 else 0 := by
        rw [List.getD_eq_getElem?_getD, Nat.mul_comm l, hfr px p1 c l hc hl]
        rfl
      unfold floatValue
      simp only [plainOptions]
      rw [h1, h1, h2]
      split <;> norm_num
    refine (p4.mem 424 1 (by decide) (by decide)).2 ⟨?_, ?_⟩
    · rw [hval 424 1 (by decide) (by decide)]
      norm_num [plainOptions]
    · intro x' y' hx' hy' hn
      obtain ⟨n1, n2, n3, n4, n5⟩ := hn
      rw [hval 424 1 (by decide) (by decide), hval x' y' hx' (by omega), if_neg (by omega), if_pos rfl]
      norm_num [eligible, plainOptions]
  · refine a3 424 1 (by decide) (by decide) ?_
    rw [brightDemo_order, show 0 * 2 + 1 = 1 from rfl, hk]
    decide

/-- The hypotheses of `C87_exact` and of `C87_images_partial` can be met, without blocks for the thresholds. -/
example : ∃ events all ev, BlockPipeline.electronCount version5 (plainSetup 0) brightDemo (create brightDemo) = .ok ((2, 1), events) ∧
    IsPositions false brightDemo all ∧
    (∀ f ∈ all, IsEventList 10 1000 576 576 (floatValue plainOptions.dark (List.replicate (576 * 576) 1) f.pixels) (ev f)) ∧
    Results 2 1 ⟨events, (2, 1), (576, 576)⟩ all ev :=
  C87_images_partial false (plainSetup 0) brightDemo 2 1 brightDemo_ok (by decide) (by decide) (.inl rfl) (.nil _) (blocks := []) rfl
    (options := plainOptions) rfl (by norm_num [plainOptions]) rfl rfl rfl (by rw [List.length_replicate]) rfl (by rw [List.length_replicate])
    ⟨_, List.mem_cons_self .., by simp⟩ (by
      intro x y hx hy
      have h0 : cached (create brightDemo : State (List Nat) (List Nat)) (y * 2 + x) = 0 := rfl
      rw [h0]
      obtain ⟨rfl, rfl | rfl⟩ : y = 0 ∧ (x = 0 ∨ x = 1) := by omega
      · simp [readOrder, brightDemo, demoFiles, mkRec, List.range_succ]
      · rw [brightDemo_order]; decide)

/-- Files in step: position 0, then position 1. -/
def stepDemo : List (SectorReader.Stream (List Nat)) :=
  [2, 0, 3, 1].map fun s : Nat => ⟨(s : Int), [mkRec 0 (brightSector 20), mkRec 1 (brightSector 30)], false⟩

theorem stepDemo_ok : WholeFiles stepDemo 2 1 ∧ InStep stepDemo ∧ (∃ f ∈ stepDemo, f.records ≠ []) ∧
    ∃ blocks t, sample version5 (plainSetup 1).numBlocks (create stepDemo) = (.ok blocks, t) ∧ blocks.length = 1 := by
  have hlen : ∀ v, (brightSector v).length = 144 * 576 := by
    intro v
    rw [brightSector, List.length_append, List.length_cons, List.length_replicate, List.length_replicate]
  have hval : ∀ v, v < 65536 → ∀ w ∈ brightSector v, w < 65536 := by
    intro v hv w hw
    rw [brightSector, List.mem_append, List.mem_cons, List.mem_replicate, List.mem_replicate] at hw
    omega
  have hall : ∀ f ∈ stepDemo, (0 ≤ f.sector ∧ f.sector < 4) ∧ f.cut = false ∧
      ∀ r ∈ f.records, r = mkRec 0 (brightSector 20) ∨ r = mkRec 1 (brightSector 30) := by
    intro f hf
    simp only [stepDemo, List.map_cons, List.map_nil, List.mem_cons, List.not_mem_nil, or_false] at hf
    rcases hf with rfl | rfl | rfl | rfl <;> simp
  refine ⟨⟨⟨fun f hf => ⟨(hall f hf).1, (hall f hf).2.1⟩, ?_, ?_, ?_, ?_⟩, ?_⟩, ⟨rfl, [0, 1], ?_⟩, ⟨_, List.mem_cons_self .., by simp⟩, ?_⟩
  · intro f hf r hr
    rcases (hall f hf).2.2 r hr with rfl | rfl <;> simp [InScan, mkRec]
  · intro f hf r hr
    rcases (hall f hf).2.2 r hr with rfl | rfl <;> exact Nat.le_of_eq (hlen _)
  · intro f hf r hr
    rcases (hall f hf).2.2 r hr with rfl | rfl <;> exact hval _ (by decide)
  · simp [stepDemo, mkRec]
  · intro f hf r hr
    rcases (hall f hf).2.2 r hr with rfl | rfl <;> exact hlen _
  · intro f hf
    simp only [stepDemo, List.map_cons, List.map_nil, List.mem_cons, List.not_mem_nil, or_false] at hf
    rcases hf with rfl | rfl | rfl | rfl <;> simp [mkRec, Rec.pos]
  · generalize version5 = L
    unfold stepDemo
    generalize brightSector 20 = a
    generalize brightSector 30 = b
    simp [plainSetup, sample, create, mkRec, SectorReader.read, SectorReader.feed, SectorReader.addSector, find, SectorReader.insert,
      SectorReader.erase, Rec.pos]

/-- The hypotheses of `C87_in_step` can be met, with one block for the thresholds. -/
example : ∃ events all ev, BlockPipeline.electronCount version5 (plainSetup 1) stepDemo (create stepDemo) = .ok ((2, 1), events) ∧
    IsPositions false stepDemo all ∧
    (∀ f ∈ all, IsEventList 10 1000 576 576 (floatValue plainOptions.dark (List.replicate (576 * 576) 1) f.pixels) (ev f)) ∧
    Results 2 1 ⟨events, (2, 1), (576, 576)⟩ all ev := by
  obtain ⟨h1, h2, h3, blocks, t, h4, _⟩ := stepDemo_ok
  exact C87_in_step false (plainSetup 1) stepDemo 2 1 h1.toBlockFiles h2 (by decide) (by decide) (.inl rfl) (.nil _) h4
    (options := plainOptions) rfl (by norm_num [plainOptions]) rfl rfl rfl (by rw [List.length_replicate]) rfl (by rw [List.length_replicate]) h3

end Stempy.Props
