import Verif.Model.SectorReader
import Verif.Spec.Interleave
import Mathlib.Data.List.Basic
import Mathlib.Data.List.Pairwise

/-!
Facts on the sector reader: the cache, feeding records, and the reads of a state.
-/

namespace Stempy.SectorReader

variable {D F : Type}

theorem Interleave.insert_nil {α : Type} {ts : List (List α)} {tr : List α} (h : Interleave ts tr) :
    ∀ pre post, ts = pre ++ post → Interleave (pre ++ [] :: post) tr := by
  induction h with
  | done h =>
    rintro pre post rfl
    refine .done ?_
    intro t ht
    simp only [List.mem_append, List.mem_cons] at ht
    rcases ht with ht | ht | ht
    · exact h t (by simp [ht])
    · exact ht
    · exact h t (by simp [ht])
  | @step p q a t tr h ih =>
    intro pre post e
    rw [List.append_eq_append_iff] at e
    rcases e with ⟨l, rfl, e⟩ | ⟨l, rfl, rfl⟩
    · cases l with
      | nil =>
        simp only [List.nil_append] at e
        subst e
        have := ih p (t :: q) (by simp)
        have h2 := Interleave.step (pre := p ++ [[]]) (post := q) (a := a) (t := t) (by simpa using this)
        simpa using h2
      | cons x l =>
        simp only [List.cons_append, List.cons.injEq] at e
        obtain ⟨rfl, rfl⟩ := e
        have := ih (p ++ t :: l) post (by simp)
        have h2 := Interleave.step (pre := p) (post := l ++ [] :: post) (a := a) (t := t) (by simpa using this)
        simpa using h2
    · have := ih pre (l ++ t :: q) (by simp)
      have h2 := Interleave.step (pre := pre ++ [] :: l) (post := q) (a := a) (t := t) (by simpa using this)
      simpa using h2

/-- The records of a file with its sector. -/
def items (s : Stream D) : List (Nat × Rec D) := s.records.map fun r => (s.sector.toNat, r)

/-- Feeding records one after the other: the final cache and the frames that were completed. -/
def feedAll (L : Layout D F) : Cache F → List (Nat × Rec D) → Cache F × List (Frame F)
  | c, [] => (c, [])
  | c, (s, r) :: rs =>
    ((feedAll L (feed L c s r).1 rs).1, (feed L c s r).2.toList ++ (feedAll L (feed L c s r).1 rs).2)

/-- Reads of a state. -/
inductive Reads (L : Layout D F) : State D F → List (Frame F) → State D F → Prop where
  | nil (s : State D F) : Reads L s [] s
  | cons {s t u : State D F} {f : Frame F} {fs : List (Frame F)} :
      read L s = (.ok (some f), t) → Reads L t fs u → Reads L s (f :: fs) u

theorem Reads.append {L : Layout D F} {s t u : State D F} {as bs : List (Frame F)} (h1 : Reads L s as t)
    (h2 : Reads L t bs u) : Reads L s (as ++ bs) u := by
  induction h1 with
  | nil => exact h2
  | cons h _ ih => exact .cons h (ih h2)

/-- A state that reads as another one. -/
theorem reads_congr {L : Layout D F} {s s' : State D F} {fs : List (Frame F)} (h : read L s = read L s')
    (hr : ∃ t, Reads L s' fs t ∧ (read L t).1 = .ok none) :
    ∃ t, Reads L s fs t ∧ (read L t).1 = .ok none := by
  obtain ⟨t, hr, ht⟩ := hr
  cases hr with
  | nil => exact ⟨s, .nil _, by rw [h]; exact ht⟩
  | cons h1 h2 => exact ⟨t, .cons (by rw [h]; exact h1) h2, ht⟩

theorem read_wrap (L : Layout D F) (vs : List (Stream D)) (c : Cache F) (h : vs ≠ []) :
    read L ⟨vs, [], c⟩ = read L ⟨[], vs, c⟩ := by
  obtain ⟨v, vs, rfl⟩ := List.exists_cons_of_ne_nil h
  rw [read]

theorem read_erase (L : Layout D F) (vs rest : List (Stream D)) (st : Stream D) (c : Cache F)
    (h : st.records = []) (hc : st.cut = false) : read L ⟨vs, st :: rest, c⟩ = read L ⟨vs, rest, c⟩ := by
  obtain ⟨a, b, d⟩ := st
  simp only at h hc
  subst h hc
  rw [read]
  simp

theorem read_record (L : Layout D F) (vs rest : List (Stream D)) (st : Stream D) (c : Cache F) (r : Rec D)
    (rs : List (Rec D)) (h : st.records = r :: rs) (hs : 0 ≤ st.sector ∧ st.sector < 4) :
    read L ⟨vs, st :: rest, c⟩ =
      match feed L c st.sector.toNat r with
      | (c', some f) => (.ok (some f), ⟨vs ++ [{ st with records := rs }], rest, c'⟩)
      | (c', none) => read L ⟨vs ++ [{ st with records := rs }], rest, c'⟩ := by
  obtain ⟨a, b, d⟩ := st
  simp only at h hs
  subst h
  rw [read]
  simp [hs]
  rfl

theorem read_cache (L : Layout D F) (c : Cache F) :
    ∃ t, Reads L ⟨[], [], c⟩ (c.map fun e => e.2.frame) t ∧ (read L t).1 = .ok none := by
  induction c with
  | nil => exact ⟨_, .nil _, by rw [read]⟩
  | cons e c ih =>
    obtain ⟨t, h1, h2⟩ := ih
    exact ⟨t, .cons (by rw [read]) h1, h2⟩

/-- Reading until the end feeds the records in some interleaved order, then the cache is returned. -/
theorem read_all (L : Layout D F) (s : State D F)
    (hok : ∀ st ∈ s.visited ++ s.todo, (0 ≤ st.sector ∧ st.sector < 4) ∧ st.cut = false) :
    ∃ arr, Interleave ((s.visited ++ s.todo).map items) arr ∧
      ∃ t, Reads L s ((feedAll L s.cache arr).2 ++ (feedAll L s.cache arr).1.map fun e => e.2.frame) t ∧
        (read L t).1 = .ok none := by
  obtain ⟨vs, todo, c⟩ := s
  simp only at hok
  generalize hn : 2 * (work vs + work todo) + (if todo = [] then 1 else 0) = n
  induction n using Nat.strongRecOn generalizing vs todo c with
  | _ n ih =>
    subst hn
    cases todo with
    | nil =>
      by_cases hv : vs = []
      · subst hv
        exact ⟨[], .done (by simp), by simpa [feedAll] using read_cache L c⟩
      · obtain ⟨arr, h1, h2⟩ := ih (2 * (work [] + work vs) + (if vs = [] then 1 else 0))
          (by simp [hv, work]) [] vs c (by simpa using hok) rfl
        refine ⟨arr, by simpa using h1, ?_⟩
        exact reads_congr (read_wrap L vs c hv) h2
    | cons st rest =>
      have hst := hok st (by simp)
      cases hr : st.records with
      | nil =>
        have hlt : 2 * (work vs + work rest) + (if rest = [] then 1 else 0) <
            2 * (work vs + work (st :: rest)) + (if st :: rest = [] then 1 else 0) := by
          simp only [work, List.map_cons, List.sum_cons]
          split <;> simp <;> omega
        obtain ⟨arr, h1, h2⟩ := ih _ hlt vs rest c (by
          intro x hx
          apply hok
          simp only [List.mem_append, List.mem_cons] at hx ⊢
          tauto) rfl
        refine ⟨arr, ?_, reads_congr (read_erase L vs rest st c hr hst.2) h2⟩
        have := Interleave.insert_nil h1 (vs.map items) (rest.map items) (by simp)
        simpa [items, hr] using this
      | cons r rs =>
        have hlt : 2 * (work (vs ++ [{ st with records := rs }]) + work rest) + (if rest = [] then 1 else 0) <
            2 * (work vs + work (st :: rest)) + (if st :: rest = [] then 1 else 0) := by
          simp only [work, List.map_cons, List.sum_cons, List.map_append, List.sum_append, List.map_nil,
            List.sum_nil, hr, List.length_cons]
          split <;> simp <;> omega
        obtain ⟨arr, h1, h2⟩ := ih _ hlt (vs ++ [{ st with records := rs }]) rest
          (feed L c st.sector.toNat r).1 (by
          intro x hx
          simp only [List.mem_append, List.mem_cons, List.not_mem_nil, or_false] at hx
          rcases hx with (hx | rfl) | hx
          · exact hok x (by simp [hx])
          · exact hst
          · exact hok x (by simp [hx])) rfl
        refine ⟨(st.sector.toNat, r) :: arr, ?_, ?_⟩
        · have e : ((vs ++ [{ st with records := rs }]) ++ rest).map items =
              vs.map items ++ (rs.map fun r => (st.sector.toNat, r)) :: rest.map items := by
            simp [items]
          rw [e] at h1
          have := Interleave.step (a := (st.sector.toNat, r)) h1
          simpa [items, hr] using this
        · have hread := read_record L vs rest st c r rs hr hst.1
          simp only [feedAll]
          cases hf : feed L c st.sector.toNat r with
          | mk c' o =>
            rw [hf] at hread h2
            cases o with
            | none => exact reads_congr hread (by simpa [hf] using h2)
            | some f =>
              obtain ⟨t, h2, h3⟩ := h2
              exact ⟨t, .cons hread (by simpa [hf] using h2), h3⟩

/-! ### The cache -/

/-- The keys are in strictly increasing order. -/
def Sorted (c : Cache F) : Prop := c.Pairwise fun a b => a.1 < b.1

theorem find_none_of_lt {c : Cache F} {p : Nat} (h : ∀ e ∈ c, p < e.1) : find p c = none := by
  induction c with
  | nil => rfl
  | cons e c ih =>
    have h1 := h e (by simp)
    simp only [find]
    rw [if_neg (by omega)]
    exact ih (fun e he => h e (by simp [he]))

theorem mem_insert {c : Cache F} {p : Nat} {s : Slot F} {e : Nat × Slot F} (h : e ∈ insert p s c) :
    e = (p, s) ∨ e ∈ c := by
  induction c with
  | nil => simp [insert] at h; exact .inl h
  | cons a c ih =>
    simp only [insert] at h
    split at h
    · simpa using h
    · split at h
      · simp only [List.mem_cons] at h ⊢; tauto
      · simp only [List.mem_cons] at h ⊢
        rcases h with h | h
        · tauto
        · rcases ih h with h | h <;> tauto

theorem sorted_insert {c : Cache F} (h : Sorted c) (p : Nat) (s : Slot F) : Sorted (insert p s c) := by
  induction c with
  | nil => simp [insert, Sorted]
  | cons a c ih =>
    have h' := List.pairwise_cons.1 h
    simp only [insert]
    split
    · rename_i hlt
      refine List.pairwise_cons.2 ⟨?_, h⟩
      intro e he
      rcases List.mem_cons.1 he with rfl | he
      · exact hlt
      · exact Nat.lt_trans hlt (h'.1 e he)
    · split
      · rename_i heq
        refine List.pairwise_cons.2 ⟨?_, h'.2⟩
        intro e he
        simp only
        rw [heq]; exact h'.1 e he
      · rename_i h1 h2
        refine List.pairwise_cons.2 ⟨?_, ih h'.2⟩
        intro e he
        rcases mem_insert he with rfl | he
        · simp only; omega
        · exact h'.1 e he

theorem find_insert {c : Cache F} (h : Sorted c) (p q : Nat) (s : Slot F) :
    find q (insert p s c) = if p = q then some s else find q c := by
  induction c with
  | nil => simp [insert, find]
  | cons a c ih =>
    have h' := List.pairwise_cons.1 h
    simp only [insert]
    split
    · simp [find]
    · split
      · rename_i heq
        simp only [find]
        by_cases hpq : p = q
        · simp [hpq]
        · rw [if_neg hpq, if_neg hpq, if_neg (by omega)]
      · rename_i h1 h2
        simp only [find]
        rw [ih h'.2]
        by_cases hpq : p = q
        · rw [if_pos hpq, if_pos hpq, if_neg (by omega)]
        · rw [if_neg hpq, if_neg hpq]

theorem mem_erase {c : Cache F} {p : Nat} {e : Nat × Slot F} (h : e ∈ erase p c) : e ∈ c := by
  induction c with
  | nil => simp [erase] at h
  | cons a c ih =>
    simp only [erase] at h
    split at h
    · simp [h]
    · simp only [List.mem_cons] at h ⊢
      rcases h with h | h
      · exact .inl h
      · exact .inr (ih h)

theorem sorted_erase {c : Cache F} (h : Sorted c) (p : Nat) : Sorted (erase p c) := by
  induction c with
  | nil => simp [erase, Sorted]
  | cons a c ih =>
    have h' := List.pairwise_cons.1 h
    simp only [erase]
    split
    · exact h'.2
    · exact List.pairwise_cons.2 ⟨fun e he => h'.1 e (mem_erase he), ih h'.2⟩

theorem find_erase {c : Cache F} (h : Sorted c) (p q : Nat) :
    find q (erase p c) = if p = q then none else find q c := by
  induction c with
  | nil => simp [erase, find]
  | cons a c ih =>
    have h' := List.pairwise_cons.1 h
    simp only [erase]
    split
    · rename_i hap
      by_cases hpq : p = q
      · rw [if_pos hpq]
        exact find_none_of_lt (fun e he => by have := h'.1 e he; omega)
      · rw [if_neg hpq]
        simp only [find]
        rw [if_neg (by omega)]
    · rename_i hap
      simp only [find]
      rw [ih h'.2]
      by_cases hpq : p = q
      · rw [if_pos hpq, if_pos hpq, if_neg (by omega)]
      · rw [if_neg hpq, if_neg hpq]

theorem find_mem {c : Cache F} (h : Sorted c) {e : Nat × Slot F} (he : e ∈ c) : find e.1 c = some e.2 := by
  induction c with
  | nil => simp at he
  | cons a c ih =>
    have h' := List.pairwise_cons.1 h
    simp only [find]
    rcases List.mem_cons.1 he with rfl | he
    · simp
    · have := h'.1 e he
      rw [if_neg (by omega)]
      exact ih h'.2 he

theorem mem_of_find {c : Cache F} {p : Nat} {s : Slot F} (h : find p c = some s) : (p, s) ∈ c := by
  induction c with
  | nil => simp [find] at h
  | cons a c ih =>
    simp only [find] at h
    split at h
    · rename_i hap
      simp only [Option.some.injEq] at h
      subst hap h
      simp
    · exact List.mem_cons_of_mem _ (ih h)

/-! ### Groups of records -/

/-- The frame of a group of records of a position: header of the first record, the sectors written over
zeros. -/
def assemble (L : Layout D F) (p : Nat) (g : List (Nat × Rec D)) : Frame F where
  scanNumber := (g.head?.map fun i => i.2.scanNumber).getD 0
  scanDimensions := (g.head?.map fun i => (i.2.width, i.2.height)).getD (0, 0)
  pos := p
  data := g.foldl (fun f i => L.place i.1 i.2.data f) L.empty

/-- Records of a position. -/
def at' (p : Nat) (arr : List (Nat × Rec D)) : List (Nat × Rec D) := arr.filter fun i => i.2.pos = p

/-- The records of the last, incomplete group of a position. -/
def openGroup (arr : List (Nat × Rec D)) (p : Nat) : List (Nat × Rec D) :=
  (at' p arr).drop (4 * ((at' p arr).length / 4))

/-- The cache after the records `arr`. -/
structure InvFeed (L : Layout D F) (arr : List (Nat × Rec D)) (c : Cache F) : Prop where
  sorted : Sorted c
  find : ∀ p, find p c = if openGroup arr p = [] then none
    else some ⟨assemble L p (openGroup arr p), (openGroup arr p).length⟩

theorem openGroup_length (arr : List (Nat × Rec D)) (p : Nat) :
    (openGroup arr p).length = (at' p arr).length % 4 := by
  simp only [openGroup, List.length_drop]
  omega

theorem openGroup_other (arr : List (Nat × Rec D)) (i : Nat × Rec D) (p : Nat) (h : i.2.pos ≠ p) :
    openGroup (arr ++ [i]) p = openGroup arr p := by
  simp [openGroup, at', h]

theorem openGroup_add (arr : List (Nat × Rec D)) (i : Nat × Rec D) (h : (openGroup arr i.2.pos).length ≠ 3) :
    openGroup (arr ++ [i]) i.2.pos = openGroup arr i.2.pos ++ [i] := by
  rw [openGroup_length] at h
  have e : at' i.2.pos (arr ++ [i]) = at' i.2.pos arr ++ [i] := by simp [at']
  simp only [openGroup, e, List.length_append, List.length_cons, List.length_nil]
  have : 4 * (((at' i.2.pos arr).length + (0 + 1)) / 4) = 4 * ((at' i.2.pos arr).length / 4) := by omega
  rw [this, List.drop_append_of_le_length (by omega)]

theorem openGroup_full (arr : List (Nat × Rec D)) (i : Nat × Rec D) (h : (openGroup arr i.2.pos).length = 3) :
    openGroup (arr ++ [i]) i.2.pos = [] := by
  rw [openGroup_length] at h
  have e : at' i.2.pos (arr ++ [i]) = at' i.2.pos arr ++ [i] := by simp [at']
  simp only [openGroup, e, List.length_append, List.length_cons, List.length_nil]
  rw [List.drop_eq_nil_of_le]
  simp only [List.length_append, List.length_cons, List.length_nil]
  omega

theorem assemble_snoc (L : Layout D F) (p : Nat) (g : List (Nat × Rec D)) (i : Nat × Rec D) (hg : g ≠ []) :
    assemble L p (g ++ [i]) =
      { assemble L p g with data := L.place i.1 i.2.data (assemble L p g).data } := by
  obtain ⟨a, g, rfl⟩ := List.exists_cons_of_ne_nil hg
  simp [assemble]

theorem addSector_spec {L : Layout D F} {arr : List (Nat × Rec D)} {c : Cache F} (h : InvFeed L arr c)
    (i : Nat × Rec D) :
    addSector L i.1 i.2 (SectorReader.find i.2.pos c) =
      ⟨assemble L i.2.pos (openGroup arr i.2.pos ++ [i]), (openGroup arr i.2.pos).length + 1⟩ := by
  rw [h.find]
  by_cases hg : openGroup arr i.2.pos = []
  · rw [if_pos hg, hg]
    simp [addSector, assemble]
  · rw [if_neg hg, assemble_snoc L _ _ _ hg]
    rfl

theorem invFeed_feed {L : Layout D F} {arr : List (Nat × Rec D)} {c : Cache F} (h : InvFeed L arr c)
    (i : Nat × Rec D) : InvFeed L (arr ++ [i]) (feed L c i.1 i.2).1 ∧
      (feed L c i.1 i.2).2 = if (openGroup arr i.2.pos).length = 3
        then some (assemble L i.2.pos (openGroup arr i.2.pos ++ [i])) else none := by
  have hs := addSector_spec h i
  by_cases h3 : (openGroup arr i.2.pos).length = 3
  · have e : feed L c i.1 i.2 =
        (erase i.2.pos c, some (assemble L i.2.pos (openGroup arr i.2.pos ++ [i]))) := by
      simp only [feed, hs]
      rw [if_pos (by omega)]
    rw [e]
    refine ⟨⟨sorted_erase h.sorted _, ?_⟩, by simp [h3]⟩
    intro p
    simp only
    rw [find_erase h.sorted]
    by_cases hp : i.2.pos = p
    · subst hp
      simp [openGroup_full arr i h3]
    · rw [if_neg hp, openGroup_other arr i p hp, h.find]
  · have e : feed L c i.1 i.2 = (insert i.2.pos
        ⟨assemble L i.2.pos (openGroup arr i.2.pos ++ [i]), (openGroup arr i.2.pos).length + 1⟩ c, none) := by
      simp only [feed, hs]
      rw [if_neg (by omega)]
    rw [e]
    refine ⟨⟨sorted_insert h.sorted _ _, ?_⟩, by simp [h3]⟩
    intro p
    simp only
    rw [find_insert h.sorted]
    by_cases hp : i.2.pos = p
    · subst hp
      simp [openGroup_add arr i h3]
    · rw [if_neg hp, openGroup_other arr i p hp, h.find]

/-- The completed groups: four records of a position each; together with the open groups they hold all
records. -/
structure Groups (L : Layout D F) (arr : List (Nat × Rec D)) (outs : List (Frame F))
    (gs : List (Nat × List (Nat × Rec D))) : Prop where
  outs : outs = gs.map fun g => assemble L g.1 g.2
  four : ∀ g ∈ gs, g.2.length = 4
  all : ∀ p, ((gs.filter fun g => g.1 = p).flatMap fun g => g.2) ++ openGroup arr p = at' p arr

theorem feedAll_spec {L : Layout D F} (arr : List (Nat × Rec D)) {arr0 : List (Nat × Rec D)} {c : Cache F}
    {outs0 : List (Frame F)} {gs0 : List (Nat × List (Nat × Rec D))} (h : InvFeed L arr0 c)
    (hg : Groups L arr0 outs0 gs0) :
    InvFeed L (arr0 ++ arr) (feedAll L c arr).1 ∧
      ∃ gs, Groups L (arr0 ++ arr) (outs0 ++ (feedAll L c arr).2) gs := by
  induction arr generalizing arr0 c outs0 gs0 with
  | nil => simpa [feedAll] using ⟨h, gs0, hg⟩
  | cons i arr ih =>
    obtain ⟨h1, h2⟩ := invFeed_feed h i
    have hg1 : ∃ gs1, Groups L (arr0 ++ [i]) (outs0 ++ (feed L c i.1 i.2).2.toList) gs1 := by
      rw [h2]
      by_cases h3 : (openGroup arr0 i.2.pos).length = 3
      · refine ⟨gs0 ++ [(i.2.pos, openGroup arr0 i.2.pos ++ [i])], ?_, ?_, ?_⟩
        · simp [h3, hg.outs]
        · intro g hgm
          rcases List.mem_append.1 hgm with hgm | hgm
          · exact hg.four g hgm
          · simp only [List.mem_cons, List.not_mem_nil, or_false] at hgm
            rw [hgm]; simp [h3]
        · intro p
          by_cases hp : i.2.pos = p
          · subst hp
            rw [openGroup_full arr0 i h3]
            have := hg.all i.2.pos
            simp only [at', List.filter_append, List.flatMap_append] at this ⊢
            simp only [List.append_nil]
            rw [← this]
            simp
          · rw [openGroup_other arr0 i p hp]
            have := hg.all p
            simp only [at', List.filter_append, List.flatMap_append] at this ⊢
            rw [← this]
            simp [hp]
      · refine ⟨gs0, ?_, hg.four, ?_⟩
        · simp [h3, hg.outs]
        · intro p
          have := hg.all p
          by_cases hp : i.2.pos = p
          · subst hp
            rw [openGroup_add arr0 i h3, ← List.append_assoc, this]
            simp [at']
          · rw [openGroup_other arr0 i p hp, this]
            simp [at', hp]
    obtain ⟨gs1, hg1⟩ := hg1
    obtain ⟨i1, gs, i2⟩ := ih h1 hg1
    refine ⟨by simpa [feedAll] using i1, gs, by simpa [feedAll] using i2⟩

theorem invFeed_nil (L : Layout D F) : InvFeed L [] ([] : Cache F) :=
  ⟨List.Pairwise.nil, by intro p; simp [openGroup, at', find]⟩

theorem groups_nil (L : Layout D F) : Groups L ([] : List (Nat × Rec D)) [] [] :=
  ⟨rfl, by simp, by intro p; simp [openGroup, at']⟩

end Stempy.SectorReader
