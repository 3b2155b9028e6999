import Verif.Lemmas.BlockPipeline
import Verif.Props.SectorReader

/-!
C26, exactly: what a sector reader returns after a rewind, for every history of reads and rewinds.
-/

namespace Stempy.Props
open Stempy.BlockPipeline
open Stempy.SectorReader (Rec Layout State read create reset find assemble at' openGroup InvFeed feedAll Cache
  Sorted items)

variable {D F : Type}

/-- Number of sectors of a position in the cache. -/
def heldSectors (s : State D F) (p : Nat) : Nat := ((find p s.cache).map fun slot => slot.count).getD 0

/-- Number of records of a position in the files. -/
def recordsAt (files : List (SectorReader.Stream D)) (p : Nat) : Nat :=
  (files.map fun s => s.records.countP fun r => r.pos = p).sum

/-- Number of frames of a position. -/
def framesAt (fs : List (SectorReader.Frame F)) (p : Nat) : Nat := fs.countP fun f => f.pos = p

/-- The cache without its first entry, which was returned as partial frame. -/
private theorem invFeed_tail {L : Layout D F} {h : List (Nat × Rec D)} {e : Nat × SectorReader.Slot F} {c : Cache F}
    (hi : InvFeed L h (e :: c)) : InvFeed L (h.filter fun i => i.2.pos ≠ e.1) c := by
  have hs := List.pairwise_cons.1 hi.sorted
  refine ⟨hs.2, ?_⟩
  intro p
  have hat : at' p (h.filter fun i => decide (i.2.pos ≠ e.1)) = if p = e.1 then [] else at' p h := by
    unfold at'
    rw [List.filter_filter]
    split
    · rw [List.filter_eq_nil_iff]
      intro i _
      simp
      omega
    · rename_i hp
      refine List.filter_congr fun i _ => ?_
      by_cases hi : i.2.pos = p
      · simp [hi, hp]
      · simp [hi]
  have hop : openGroup (h.filter fun i => decide (i.2.pos ≠ e.1)) p = if p = e.1 then [] else openGroup h p := by
    unfold openGroup
    rw [hat]
    split <;> simp
  rw [hop]
  by_cases hp : p = e.1
  · rw [if_pos hp, if_pos rfl]
    exact SectorReader.find_none_of_lt (fun x hx => by have := hs.1 x hx; omega)
  · rw [if_neg hp, ← hi.find]
    simp only [find]
    rw [if_neg (fun h => hp h.symm)]

/-- A read of good files gives a frame, or the end. -/
private theorem read_result (L : Layout D F) (vs todo : List (SectorReader.Stream D)) (c : Cache F)
    (hok : Fine (vs ++ todo)) :
    (∃ f t, read L ⟨vs, todo, c⟩ = (.ok (some f), t)) ∨ read L ⟨vs, todo, c⟩ = (.ok none, ⟨[], [], []⟩) := by
  generalize hn : 2 * (SectorReader.work vs + SectorReader.work todo) + (if todo = [] then 1 else 0) = n
  induction n using Nat.strongRecOn generalizing vs todo c with
  | _ n ih =>
    subst hn
    cases todo with
    | nil =>
      by_cases hv : vs = []
      · subst hv
        rw [SectorReader.read]
        cases c with
        | nil => exact .inr rfl
        | cons e c => exact .inl ⟨_, _, rfl⟩
      · rw [SectorReader.read_wrap L vs c hv]
        exact ih _ (by simp [hv, SectorReader.work]) [] vs c (by simpa using hok) rfl
    | cons st rest =>
      have hst := hok st (by simp)
      cases hr : st.records with
      | nil =>
        rw [SectorReader.read_erase L vs rest st c hr hst.2]
        exact ih _ (work_erase vs rest st) vs rest c (fine_erase hok) rfl
      | cons r rs =>
        rw [SectorReader.read_record L vs rest st c r rs hr hst.1]
        cases hf : SectorReader.feed L c st.sector.toNat r with
        | mk c' o =>
          cases o with
          | none => exact ih _ (work_step vs rest st hr) _ rest c' (fine_step rs hok) rfl
          | some g => exact .inl ⟨_, _, rfl⟩

/-- After every history the cache holds, for each position, the last records of it without a complete frame. -/
private theorem history_inv {L : Layout D F} {files : List (SectorReader.Stream D)} (hf : GoodFiles files)
    (ops : List SectorOp) (s : State D F) (h : Fine (s.visited ++ s.todo) ∧ ∃ h, InvFeed L h s.cache) :
    Fine ((runSector L files s ops).2.visited ++ (runSector L files s ops).2.todo) ∧
      ∃ h, InvFeed L h (runSector L files s ops).2.cache := by
  induction ops generalizing s with
  | nil => exact h
  | cons op ops ih =>
    obtain ⟨hok, hh, hinv⟩ := h
    cases op with
    | reset =>
      simp only [runSector]
      exact ih _ ⟨by simpa [reset, Fine, GoodFiles] using hf, hh, hinv⟩
    | read =>
      simp only [runSector]
      refine ih _ ?_
      obtain ⟨vs, todo, c⟩ := s
      rcases read_result L vs todo c hok with ⟨f, t, h1⟩ | h1
      · rw [h1]
        obtain ⟨g1, g2⟩ := read_arrival L vs todo c hok h1
        refine ⟨g1, ?_⟩
        rcases g2 with ⟨pre, _, a2⟩ | ⟨_, _, e, a3⟩
        · have := (feedAll_from pre hinv).1
          rw [← a2] at this
          exact ⟨_, this⟩
        · have := (feedAll_from (arrival vs todo) hinv).1
          rw [a3] at this
          exact ⟨_, invFeed_tail this⟩
      · rw [h1]
        exact ⟨by simp [Fine], [], SectorReader.invFeed_nil L⟩

private theorem count_four (l : List (Nat × List (Nat × Rec D))) (p : Nat) (h : ∀ g ∈ l, g.2.length = 4) :
    ((l.filter fun g => g.1 = p).flatMap fun g => g.2).length = 4 * l.countP fun g => g.1 = p := by
  induction l with
  | nil => rfl
  | cons g l ih =>
    have ih := ih (fun g hg => h g (by simp [hg]))
    have h4 := h g (by simp)
    rw [List.filter_cons, List.countP_cons]
    by_cases hp : g.1 = p
    · simp only [hp, decide_true, if_true, List.flatMap_cons, List.length_append, ih, h4]
      omega
    · simp only [hp, decide_false, Bool.false_eq_true, if_false, ih]
      omega

private theorem count_cache (c : Cache F) (hs : Sorted c) (p : Nat) (g : Nat × SectorReader.Slot F → SectorReader.Frame F)
    (hg : ∀ e ∈ c, (g e).pos = e.1) :
    (c.map g).countP (fun f => f.pos = p) = if (find p c).isSome then 1 else 0 := by
  induction c with
  | nil => rfl
  | cons e c ih =>
    have hs' := List.pairwise_cons.1 hs
    have ih := ih hs'.2 (fun e he => hg e (by simp [he]))
    have he := hg e (by simp)
    rw [List.map_cons, List.countP_cons, ih]
    simp only [find, he]
    by_cases hp : e.1 = p
    · have hn : find p c = none := SectorReader.find_none_of_lt (fun x hx => by have := hs'.1 x hx; omega)
      simp [hp, hn]
    · simp [hp]

private theorem arrival_count (files : List (SectorReader.Stream D)) (p : Nat) :
    (at' p (arrival [] files)).length = recordsAt files p := by
  have h := arrival_interleave [] files
  rw [List.nil_append] at h
  unfold at' recordsAt
  rw [← List.countP_eq_length_filter, h.perm.countP_eq]
  clear h
  induction files with
  | nil => simp
  | cons s files ih =>
    simp only [List.map_cons, List.sum_cons, List.flatten_cons, List.countP_append, ih]
    congr 1
    simp only [items, List.countP_map]
    rfl

/-- **C26** What is read after a rewind, for every history of reads and rewinds: a position with `k` sectors in the
cache and `n` records in the files gives `(k + n) / 4` frames, rounded up; from a new reader it is `n / 4`, rounded up
(`C24_count`). -/
theorem C26_rewind_exact (L : Layout D F) (files : List (SectorReader.Stream D)) (hf : GoodFiles files)
    (history : List SectorOp) :
    ∃ fs, readToEnd L (reset files (runSector L files (create files) history).2) = .ok fs ∧
      ∀ p, heldSectors (runSector L files (create files) history).2 p ≤ 3 ∧
        framesAt fs p = (heldSectors (runSector L files (create files) history).2 p + recordsAt files p + 3) / 4 := by
  obtain ⟨_, h, hinv⟩ := history_inv hf history (create files)
    ⟨by simpa [create, Fine, GoodFiles] using hf, [], SectorReader.invFeed_nil L⟩
  generalize (runSector L files (create files) history).2 = s at *
  obtain ⟨h1, gs, h2, h3, h4⟩ := feedAll_from (arrival [] files) hinv
  refine ⟨_, readToEnd_eq L [] files s.cache hf, ?_⟩
  intro p
  have hk : heldSectors s p = (openGroup h p).length := by
    unfold heldSectors
    rw [hinv.find]
    split
    · rename_i he; rw [he]; rfl
    · rfl
  have hk3 := SectorReader.openGroup_length h p
  have ho3 := SectorReader.openGroup_length (h ++ arrival [] files) p
  refine ⟨by omega, ?_⟩
  have hlen := congrArg List.length (h4 p)
  rw [List.length_append, List.length_append, count_four gs p h3, arrival_count] at hlen
  unfold framesAt
  rw [List.countP_append, h2, count_cache _ h1.sorted p _ (by
    intro e he
    have := SectorReader.find_mem h1.sorted he
    rw [h1.find] at this
    split at this
    · simp at this
    · rw [← Option.some.inj this]
      rfl), List.countP_map, h1.find]
  have e1 : (gs.countP ((fun f : SectorReader.Frame F => decide (f.pos = p)) ∘ fun g => assemble L g.1 g.2)) =
      gs.countP fun g => decide (g.1 = p) := rfl
  rw [e1, hk]
  split
  · rename_i he
    rw [he] at hlen
    simp only [List.length_nil, Option.isSome_none, Bool.false_eq_true, if_false] at hlen ⊢
    omega
  · rename_i he
    have : 0 < (openGroup (h ++ arrival [] files) p).length := List.length_pos_of_ne_nil he
    simp only [Option.isSome_some, if_true]
    omega

private theorem find_isSome_of_ne {c : Cache F} (hs : Sorted c) (h : c ≠ []) : ∃ p s, find p c = some s := by
  obtain ⟨e, c, rfl⟩ := List.exists_cons_of_ne_nil h
  exact ⟨e.1, e.2, SectorReader.find_mem hs (by simp)⟩

/-- **C26** For files with all four sectors of every position, a rewind makes the reader return what a new one
returns if and only if there is no incomplete frame in the cache, for every history. If there is one, its position is
returned once more than by a new reader. -/
theorem C26_rewind_iff (L : Layout D F) (files : List (SectorReader.Stream D)) (hf : GoodFiles files)
    (hfour : ∀ p, recordsAt files p % 4 = 0) (history : List SectorOp) :
    (readToEnd L (reset files (runSector L files (create files) history).2) = readToEnd L (create files) ↔
      (runSector L files (create files) history).2.cache = []) ∧
    ∃ new again, readToEnd L (create files) = .ok new ∧
      readToEnd L (reset files (runSector L files (create files) history).2) = .ok again ∧
      ∀ p, framesAt again p = framesAt new p +
        if (find p (runSector L files (create files) history).2.cache).isSome then 1 else 0 := by
  obtain ⟨new, n1, n2⟩ := C26_rewind_exact L files hf []
  obtain ⟨again, a1, a2⟩ := C26_rewind_exact L files hf history
  have hnew : readToEnd L (create files) = .ok new := n1
  obtain ⟨_, h, hinv⟩ := history_inv hf history (create files)
    ⟨by simpa [create, Fine, GoodFiles] using hf, [], SectorReader.invFeed_nil L⟩
  have hcount : ∀ p, framesAt again p = framesAt new p +
        if (find p (runSector L files (create files) history).2.cache).isSome then 1 else 0 := by
    intro p
    have x := a2 p
    have y := n2 p
    have z := hfour p
    have hn0 : heldSectors (runSector L files (create files) [] : _ × State D F).2 p = 0 := rfl
    rw [hn0] at y
    rw [x.2, y.2]
    have hpos : (if (find p (runSector L files (create files) history).2.cache).isSome then 1 else 0) =
        if heldSectors (runSector L files (create files) history).2 p = 0 then 0 else 1 := by
      unfold heldSectors
      rw [hinv.find]
      split
      · rfl
      · rename_i he
        have : (openGroup h p).length ≠ 0 := by simpa using he
        simp [this]
    rw [hpos]
    split <;> omega
  refine ⟨⟨?_, ?_⟩, new, again, hnew, a1, hcount⟩
  · intro heq
    by_contra hne
    obtain ⟨p, slot, hp⟩ := find_isSome_of_ne hinv.sorted hne
    rw [hnew, a1] at heq
    have := hcount p
    rw [Outcome.ok.inj heq, hp] at this
    simp at this
  · intro he
    rw [reset, he]
    rfl

/-- A history and files with an incomplete frame in the cache at the rewind, and all four sectors of each position. -/
example (L : Layout Nat F) : GoodFiles (demoFiles (5 : Nat) 6) ∧ (∀ p, recordsAt (demoFiles (5 : Nat) 6) p % 4 = 0) ∧
    (runSector L (demoFiles 5 6) (create (demoFiles 5 6)) [.read]).2.cache ≠ [] := by
  refine ⟨?_, ?_, ?_⟩
  · intro st hst
    simp [demoFiles] at hst
    rcases hst with rfl | rfl | rfl | rfl <;> simp
  · intro p
    by_cases h0 : p = 0
    · subst h0; decide
    · by_cases h1 : p = 1
      · subst h1; decide
      · simp [recordsAt, demoFiles, mkRec, Rec.pos, Ne.symm h0, Ne.symm h1]
  · simp [runSector, create, demoFiles, mkRec, SectorReader.read, SectorReader.feed, SectorReader.addSector, find,
      SectorReader.insert, SectorReader.erase, Rec.pos]

end Stempy.Props
