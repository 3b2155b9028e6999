import Verif.Model.BlockPipeline

/-!
Facts on the reading of sector files: the order in which the records arrive does not depend on the cache.
-/

namespace Stempy.BlockPipeline
open Stempy.SectorReader

variable {D F : Type}

/-- The records in the order in which they are read. -/
def arrival : List (Stream D) → List (Stream D) → List (Nat × Rec D)
  | [], [] => []
  | v :: vs, [] => arrival [] (v :: vs)
  | vs, st :: rest =>
    match h : st.records with
    | [] => arrival vs rest
    | r :: rs => (st.sector.toNat, r) :: arrival (vs ++ [{ st with records := rs }]) rest
termination_by vs todo => 2 * (work vs + work todo) + if todo = [] then 1 else 0
decreasing_by
  · simp [work]
  · simp only [work, List.map_cons, List.sum_cons]
    split <;> simp <;> omega
  · simp only [h, work, List.map_cons, List.sum_cons, List.map_append, List.sum_append, List.map_nil,
      List.sum_nil, List.length_cons]
    split <;> simp <;> omega

theorem arrival_wrap (vs : List (Stream D)) (h : vs ≠ []) : arrival vs [] = arrival [] vs := by
  obtain ⟨v, vs, rfl⟩ := List.exists_cons_of_ne_nil h
  rw [arrival]

theorem arrival_erase (vs rest : List (Stream D)) (st : Stream D) (h : st.records = []) :
    arrival vs (st :: rest) = arrival vs rest := by
  obtain ⟨a, b, d⟩ := st
  simp only at h
  subst h
  rw [arrival]

theorem arrival_record (vs rest : List (Stream D)) (st : Stream D) (r : Rec D) (rs : List (Rec D)) (h : st.records = r :: rs) :
    arrival vs (st :: rest) = (st.sector.toNat, r) :: arrival (vs ++ [{ st with records := rs }]) rest := by
  obtain ⟨a, b, d⟩ := st
  simp only at h
  subst h
  rw [arrival]

/-- Files of a detector. -/
def Fine (l : List (Stream D)) : Prop := ∀ st ∈ l, (0 ≤ st.sector ∧ st.sector < 4) ∧ st.cut = false

theorem fine_step {vs rest : List (Stream D)} {st : Stream D} (rs : List (Rec D)) (h : Fine (vs ++ st :: rest)) :
    Fine ((vs ++ [{ st with records := rs }]) ++ rest) := by
  intro x hx
  simp only [List.mem_append, List.mem_cons, List.not_mem_nil, or_false] at hx
  rcases hx with (hx | rfl) | hx
  · exact h x (by simp [hx])
  · exact h st (by simp)
  · exact h x (by simp [hx])

theorem fine_erase {vs rest : List (Stream D)} {st : Stream D} (h : Fine (vs ++ st :: rest)) : Fine (vs ++ rest) := by
  intro x hx
  refine h x ?_
  simp only [List.mem_append, List.mem_cons] at hx ⊢
  tauto

theorem work_step (vs rest : List (Stream D)) (st : Stream D) {r : Rec D} {rs : List (Rec D)} (h : st.records = r :: rs) :
    2 * (work (vs ++ [{ st with records := rs }]) + work rest) + (if rest = [] then 1 else 0) <
      2 * (work vs + work (st :: rest)) + (if st :: rest = [] then 1 else 0) := by
  simp only [work, List.map_cons, List.sum_cons, List.map_append, List.sum_append, List.map_nil,
    List.sum_nil, h, List.length_cons]
  split <;> simp <;> omega

theorem work_erase (vs rest : List (Stream D)) (st : Stream D) :
    2 * (work vs + work rest) + (if rest = [] then 1 else 0) <
      2 * (work vs + work (st :: rest)) + (if st :: rest = [] then 1 else 0) := by
  simp only [work, List.map_cons, List.sum_cons]
  split <;> simp <;> omega

/-- The records of each file arrive in their order. -/
theorem arrival_interleave (vs todo : List (Stream D)) : Interleave ((vs ++ todo).map items) (arrival vs todo) := by
  generalize hn : 2 * (work vs + work todo) + (if todo = [] then 1 else 0) = n
  induction n using Nat.strongRecOn generalizing vs todo with
  | _ n ih =>
    subst hn
    cases todo with
    | nil =>
      by_cases hv : vs = []
      · subst hv
        rw [arrival]
        exact .done (by simp)
      · rw [arrival_wrap vs hv]
        simpa using ih _ (by simp [hv, work]) [] vs rfl
    | cons st rest =>
      cases hr : st.records with
      | nil =>
        rw [arrival_erase vs rest st hr]
        have := Interleave.insert_nil (ih _ (work_erase vs rest st) vs rest rfl) (vs.map items) (rest.map items) (by simp)
        simpa [items, hr] using this
      | cons r rs =>
        rw [arrival_record vs rest st r rs hr]
        have h1 := ih _ (work_step vs rest st hr) (vs ++ [{ st with records := rs }]) rest rfl
        have e : ((vs ++ [{ st with records := rs }]) ++ rest).map items =
            vs.map items ++ (rs.map fun r => (st.sector.toNat, r)) :: rest.map items := by
          simp [items]
        rw [e] at h1
        have := Interleave.step (a := (st.sector.toNat, r)) h1
        simpa [items, hr] using this

/-- The frames from a state on. -/
theorem readToEnd_eq (L : Layout D F) (vs todo : List (Stream D)) (c : Cache F) (hok : Fine (vs ++ todo)) :
    readToEnd L ⟨vs, todo, c⟩ =
      .ok ((feedAll L c (arrival vs todo)).2 ++ (feedAll L c (arrival vs todo)).1.map fun e => e.2.frame) := by
  have congr : ∀ s s' : State D F, read L s = read L s' → readToEnd L s = readToEnd L s' := by
    intro s s' h
    rw [readToEnd, readToEnd]
    split <;> rename_i h1 <;> split <;> rename_i h2 <;> rw [h, h2] at h1 <;> simp at h1 <;> try rfl
    · obtain ⟨rfl, rfl⟩ := h1; rfl
    · obtain ⟨rfl, rfl⟩ := h1; rfl
  generalize hn : 2 * (work vs + work todo) + (if todo = [] then 1 else 0) = n
  induction n using Nat.strongRecOn generalizing vs todo c with
  | _ n ih =>
    subst hn
    cases todo with
    | nil =>
      by_cases hv : vs = []
      · subst hv
        rw [arrival]
        simp only [feedAll, List.nil_append]
        induction c with
        | nil =>
          have hr : read L (⟨[], [], []⟩ : State D F) = (.ok none, ⟨[], [], []⟩) := by rw [SectorReader.read]
          rw [readToEnd]
          split <;> rename_i h1 <;> rw [hr] at h1 <;> simp at h1
          rfl
        | cons e c ih' =>
          have hr : read L (⟨[], [], e :: c⟩ : State D F) = (.ok (some e.2.frame), ⟨[], [], c⟩) := by rw [SectorReader.read]
          rw [readToEnd]
          split <;> rename_i h1 <;> rw [hr] at h1 <;> simp at h1
          obtain ⟨rfl, rfl⟩ := h1
          rw [ih']
          rfl
      · rw [congr _ _ (read_wrap L vs c hv), arrival_wrap vs hv]
        exact ih _ (by simp [hv, work]) [] vs c (by simpa using hok) rfl
    | cons st rest =>
      have hst := hok st (by simp)
      cases hr : st.records with
      | nil =>
        rw [congr _ _ (read_erase L vs rest st c hr hst.2), arrival_erase vs rest st hr]
        exact ih _ (work_erase vs rest st) vs rest c (fine_erase hok) rfl
      | cons r rs =>
        rw [arrival_record vs rest st r rs hr]
        have hread := read_record L vs rest st c r rs hr hst.1
        have ih := ih _ (work_step vs rest st hr) (vs ++ [{ st with records := rs }]) rest
          (feed L c st.sector.toNat r).1 (fine_step rs hok) rfl
        simp only [feedAll]
        cases hf : feed L c st.sector.toNat r with
        | mk c' o =>
          rw [hf] at hread ih
          cases o with
          | none =>
            rw [congr _ _ hread, ih]
            simp
          | some f =>
            rw [readToEnd]
            split <;> rename_i h1 <;> rw [hread] at h1 <;> simp at h1
            obtain ⟨rfl, rfl⟩ := h1
            rw [ih]
            simp [Outcome.pure_eq]

/-- A read returns when the records `pre` have been fed, or it returns a frame of the cache at the end. -/
theorem read_arrival (L : Layout D F) (vs todo : List (Stream D)) (c : Cache F) (hok : Fine (vs ++ todo)) {f : Frame F} {t : State D F}
    (h : read L ⟨vs, todo, c⟩ = (.ok (some f), t)) :
    Fine (t.visited ++ t.todo) ∧
    ((∃ pre, arrival vs todo = pre ++ arrival t.visited t.todo ∧ t.cache = (feedAll L c pre).1) ∨
      (t.visited = [] ∧ t.todo = [] ∧ ∃ e, (feedAll L c (arrival vs todo)).1 = e :: t.cache)) := by
  generalize hn : 2 * (work vs + work todo) + (if todo = [] then 1 else 0) = n
  induction n using Nat.strongRecOn generalizing vs todo c with
  | _ n ih =>
    subst hn
    cases todo with
    | nil =>
      by_cases hv : vs = []
      · subst hv
        rw [SectorReader.read] at h
        cases c with
        | nil => simp at h
        | cons e c =>
          simp only [Prod.mk.injEq] at h
          obtain ⟨_, rfl⟩ := h
          exact ⟨by simp [Fine], .inr ⟨rfl, rfl, e, by rw [arrival]; rfl⟩⟩
      · rw [read_wrap L vs c hv] at h
        rw [arrival_wrap vs hv]
        exact ih _ (by simp [hv, work]) [] vs c (by simpa using hok) h rfl
    | cons st rest =>
      have hst := hok st (by simp)
      cases hr : st.records with
      | nil =>
        rw [read_erase L vs rest st c hr hst.2] at h
        rw [arrival_erase vs rest st hr]
        exact ih _ (work_erase vs rest st) vs rest c (fine_erase hok) h rfl
      | cons r rs =>
        rw [read_record L vs rest st c r rs hr hst.1] at h
        rw [arrival_record vs rest st r rs hr]
        cases hf : feed L c st.sector.toNat r with
        | mk c' o =>
          rw [hf] at h
          cases o with
          | none =>
            obtain ⟨h1, h2⟩ := ih _ (work_step vs rest st hr) _ rest c' (fine_step rs hok) h rfl
            refine ⟨h1, ?_⟩
            rcases h2 with ⟨pre, h2, h3⟩ | ⟨h2, h3, e, h4⟩
            · refine .inl ⟨(st.sector.toNat, r) :: pre, by rw [h2]; rfl, ?_⟩
              simp only [feedAll, hf]
              exact h3
            · refine .inr ⟨h2, h3, e, ?_⟩
              simp only [feedAll, hf]
              exact h4
          | some g =>
            simp only [Prod.mk.injEq] at h
            obtain ⟨_, rfl⟩ := h
            exact ⟨fine_step rs hok, .inl ⟨[(st.sector.toNat, r)], rfl, by simp [feedAll, hf]⟩⟩

/-! ### Rounds -/

/-- Round `j`: the records number `j` of the files which have one. -/
def round (files : List (Stream D)) (j : Nat) : List (Nat × Rec D) :=
  files.filterMap fun f => f.records[j]?.map fun r => (f.sector.toNat, r)

/-- A file without its first record. -/
def tail (f : Stream D) : Stream D := { f with records := f.records.drop 1 }

theorem arrival_round (vs todo : List (Stream D)) :
    arrival vs todo = round todo 0 ++ arrival (vs ++ (todo.filter fun f => f.records ≠ []).map tail) [] := by
  induction todo generalizing vs with
  | nil => simp [round]
  | cons st rest ih =>
    cases hr : st.records with
    | nil =>
      rw [arrival_erase vs rest st hr, ih]
      simp [round, hr]
    | cons r rs =>
      rw [arrival_record vs rest st r rs hr, ih]
      simp [round, hr, tail]

theorem arrival_empty (files : List (Stream D)) (h : ∀ f ∈ files, f.records = []) : arrival [] files = [] := by
  rw [arrival_round]
  have h1 : (files.filter fun f => decide (f.records ≠ [])) = [] := by
    rw [List.filter_eq_nil_iff]
    intro f hf
    simp [h f hf]
  have h2 : round files 0 = [] := by
    unfold round
    rw [List.filterMap_eq_nil_iff]
    intro f hf
    simp [h f hf]
  rw [h1, h2]
  simp only [List.map_nil, List.append_nil, List.nil_append]
  rw [arrival]

theorem round_tail (files : List (Stream D)) (j : Nat) :
    round ((files.filter fun f => f.records ≠ []).map tail) j = round files (j + 1) := by
  induction files with
  | nil => rfl
  | cons f files ih =>
    cases hr : f.records with
    | nil => simpa [round, hr] using ih
    | cons r rs =>
      simp only [round, List.filter_cons, hr, ne_eq, reduceCtorEq, not_false_eq_true, decide_true, if_true, List.map_cons,
        List.filterMap_cons, tail, List.drop_succ_cons, List.drop_zero, List.getElem?_cons_succ] at ih ⊢
      rw [ih]

/-- The records arrive in rounds. -/
theorem arrival_rounds (n : Nat) (files : List (Stream D)) (h : ∀ f ∈ files, f.records.length ≤ n) :
    arrival [] files = (List.range n).flatMap (round files) := by
  induction n generalizing files with
  | zero => exact arrival_empty files (fun f hf => List.eq_nil_of_length_eq_zero (by have := h f hf; omega))
  | succ n ih =>
    rw [arrival_round, List.range_succ_eq_map, List.flatMap_cons, List.flatMap_map]
    congr 1
    have e : arrival ([] ++ (files.filter fun f => decide (f.records ≠ [])).map tail) [] =
        arrival [] ((files.filter fun f => decide (f.records ≠ [])).map tail) := by
      rw [List.nil_append]
      by_cases hv : (files.filter fun f => decide (f.records ≠ [])).map tail = []
      · rw [hv]
      · exact arrival_wrap _ hv
    rw [e, ih]
    · congr 1
      funext j
      exact round_tail files j
    · intro f hf
      obtain ⟨g, hg, rfl⟩ := List.mem_map.1 hf
      have := h g (List.mem_filter.1 hg).1
      simp only [tail, List.length_drop]
      omega

/-! ### Groups -/

/-- Feeding from a cache with the open groups of earlier records: the completed groups begin with the records of the open ones. -/
theorem feedAll_from {L : Layout D F} (arr : List (Nat × Rec D)) {h0 : List (Nat × Rec D)} {c : Cache F} (h : InvFeed L h0 c) :
    InvFeed L (h0 ++ arr) (feedAll L c arr).1 ∧
      ∃ gs : List (Nat × List (Nat × Rec D)), (feedAll L c arr).2 = gs.map (fun g => assemble L g.1 g.2) ∧ (∀ g ∈ gs, g.2.length = 4) ∧
        ∀ p, ((gs.filter fun g => g.1 = p).flatMap fun g => g.2) ++ openGroup (h0 ++ arr) p = openGroup h0 p ++ at' p arr := by
  induction arr generalizing h0 c with
  | nil => exact ⟨by simpa [feedAll] using h, [], by simp [feedAll], by simp, by simp [at']⟩
  | cons i arr ih =>
    obtain ⟨h1, h2⟩ := invFeed_feed h i
    obtain ⟨i1, gs, i2, i3, i4⟩ := ih h1
    refine ⟨by simpa [feedAll] using i1, ?_⟩
    have e : h0 ++ i :: arr = (h0 ++ [i]) ++ arr := by simp
    rw [e]
    by_cases h3 : (openGroup h0 i.2.pos).length = 3
    · refine ⟨(i.2.pos, openGroup h0 i.2.pos ++ [i]) :: gs, ?_, ?_, ?_⟩
      · simp [feedAll, h2, h3, i2]
      · intro g hg
        rcases List.mem_cons.1 hg with rfl | hg
        · simp [h3]
        · exact i3 g hg
      · intro p
        have := i4 p
        rw [List.filter_cons]
        by_cases hp : i.2.pos = p
        · subst hp
          rw [openGroup_full h0 i h3] at this
          simp only [decide_true, if_true, List.flatMap_cons]
          rw [List.append_assoc, this]
          simp [at']
        · simp only [hp, decide_false, Bool.false_eq_true, if_false]
          rw [this, openGroup_other h0 i p hp]
          simp [at', hp]
    · refine ⟨gs, by simp [feedAll, h2, h3, i2], i3, ?_⟩
      intro p
      rw [i4 p]
      by_cases hp : i.2.pos = p
      · subst hp
        rw [openGroup_add h0 i h3]
        simp [at']
      · rw [openGroup_other h0 i p hp]
        simp [at', hp]

/-- The last group of four or fewer records. -/
def lastGroup {α : Type} (l : List α) : List α := l.drop (4 * ((l.length - 1) / 4))

theorem lastGroup_spec {α β : Type} (gs : List (β × List α)) (o X : List α) (h4 : ∀ g ∈ gs, g.2.length = 4) (ho : o.length < 4)
    (hX : (gs.flatMap fun g => g.2) ++ o = X) :
    if o = [] then (gs.getLast?.map fun g => g.2).getD [] = lastGroup X else o = lastGroup X := by
  have hlen : ∀ l : List (β × List α), (∀ g ∈ l, g.2.length = 4) → (l.flatMap fun g => g.2).length = 4 * l.length := by
    intro l hl
    induction l with
    | nil => rfl
    | cons g l ih =>
      rw [List.flatMap_cons, List.length_append, ih (fun g hg => hl g (by simp [hg])), hl g (by simp), List.length_cons]
      omega
  have hl := hlen gs h4
  subst hX
  split
  · rename_i h0
    subst h0
    rcases List.eq_nil_or_concat gs with rfl | ⟨gs', g, rfl⟩
    · simp [lastGroup]
    · have h5 := hlen gs' (fun x hx => h4 x (by simp [hx]))
      have h6 := h4 g (by simp)
      simp only [List.concat_eq_append, List.getLast?_append, List.getLast?_singleton, Option.some_or, Option.map_some,
        Option.getD_some, List.append_nil, List.flatMap_append, List.flatMap_cons, List.flatMap_nil, lastGroup, List.length_append]
      rw [List.drop_append, h5, h6, List.drop_eq_nil_of_le (by rw [h5]; omega),
        show 4 * ((4 * gs'.length + 4 - 1) / 4) - 4 * gs'.length = 0 by omega]
      rfl
  · rename_i h0
    have h1 := List.length_pos_of_ne_nil h0
    rw [lastGroup, List.length_append, hl, List.drop_append, hl, List.drop_eq_nil_of_le (by rw [hl]; omega),
      show 4 * ((4 * gs.length + o.length - 1) / 4) - 4 * gs.length = 0 by omega]
    rfl

end Stempy.BlockPipeline
