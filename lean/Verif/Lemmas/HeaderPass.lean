import Verif.Model.MultiPass
import Mathlib.Data.List.Nodup
import Mathlib.Data.List.Perm.Basic

/-!
Invariant of the header pass of the multi-pass reader.
-/

namespace Stempy.MultiPass
open Stempy.SectorReader (Rec)

variable {D : Type}

/-- An entry of the index: position, frame number, sector, location. -/
structure Entry where
  pos : Nat
  frame : Nat
  sector : Nat
  loc : Loc

def Entry.key (e : Entry) : Nat × Nat × Nat := (e.pos, e.frame, e.sector)

/-- Entries of the records from a byte of a file on. -/
def entriesFrom (i sector : Nat) : Nat → List (Rec D) → List Entry
  | _, [] => []
  | at_, r :: rs => ⟨r.pos, r.frameNumber, sector, ⟨i, at_ + 16⟩⟩ :: entriesFrom i sector (at_ + recordSize) rs

def fileEntries (files : List (File D)) (i : Nat) : List Entry :=
  match files[i]? with
  | some f => entriesFrom i f.sector 0 f.records
  | none => []

/-- Entries of files `lo`, ..., `hi - 1`. -/
def entries (files : List (File D)) (lo hi : Nat) : List Entry :=
  (List.range' lo (hi - lo)).flatMap (fileEntries files)

def hheld : HWorker D → List Entry
  | .test | .fetch | .exited => []
  | .reading i sector rest at_ => entriesFrom i sector at_ rest
  | .store i sector r rest at_ =>
    ⟨r.pos, r.frameNumber, sector, ⟨i, at_⟩⟩ :: entriesFrom i sector (at_ + 2 * (576 * 144)) rest

/-- The entry that the worker is about to write. -/
def storing : HWorker D → Option Entry
  | .store i sector r _ at_ => some ⟨r.pos, r.frameNumber, sector, ⟨i, at_⟩⟩
  | _ => none

/-- The files are in range. -/
structure HGood (files : List (File D)) (size hi : Nat) : Prop where
  len : hi ≤ files.length
  sector : ∀ f ∈ files, f.sector < 4
  pos : ∀ f ∈ files, ∀ r ∈ f.records, r.pos < size

/-- `ws` are the entries written so far. -/
structure HInv (files : List (File D)) (size lo hi : Nat) (ws : List Entry) (s : HState D) : Prop where
  safe : s.ub = false
  perm : (ws ++ s.workers.flatMap hheld ++ entries files s.processed hi).Perm (entries files lo hi)
  sorted : ∀ p, (s.map p).Sorted
  written : ∀ e ∈ ws, ∃ a, (s.map e.pos).get e.frame = some a ∧ a e.sector = some e.loc
  only : ∀ p f a sec loc, (s.map p).get f = some a → a sec = some loc → (⟨p, f, sec, loc⟩ : Entry) ∈ ws
  keys : ∀ p f a, (s.map p).get f = some a →
    (∃ e ∈ ws, e.pos = p ∧ e.frame = f) ∨ ∃ w ∈ s.workers, ∃ e, storing w = some e ∧ e.pos = p ∧ e.frame = f
  stored : ∀ w ∈ s.workers, ∀ e, storing w = some e → ∃ a, (s.map e.pos).get e.frame = some a
  range : ∀ w ∈ s.workers, ∀ i sec at_ rest, (w = .reading i sec rest at_ → (sec < 4 ∧ ∀ r ∈ rest, r.pos < size)) ∧
    ∀ r, (w = .store i sec r rest at_ → (sec < 4 ∧ ∀ r ∈ rest, r.pos < size))
  exited : .exited ∈ s.workers → hi ≤ s.processed

theorem hinv_init (files : List (File D)) (size threads lo hi : Nat) :
    HInv files size lo hi [] (hinit threads lo) := by
  have hall : ∀ w ∈ (hinit threads lo : HState D).workers, w = .test := by
    intro w hw
    exact List.eq_of_mem_replicate hw
  have hh : (hinit threads lo : HState D).workers.flatMap hheld = [] := by
    rw [List.flatMap_eq_nil_iff]
    intro w hw
    rw [hall w hw]
    rfl
  refine ⟨rfl, ?_, fun _ => List.Pairwise.nil, by simp, ?_, ?_, ?_, ?_, ?_⟩
  · rw [hh]; exact List.Perm.refl _
  · intro p f a sec loc h; simp [hinit, SMap.get] at h
  · intro p f a h; simp [hinit, SMap.get] at h
  · intro w hw e he; rw [hall w hw] at he; simp [storing] at he
  · intro w hw i sec at_ rest; rw [hall w hw]; simp
  · intro h; have := hall _ h; simp at this

theorem perm_remove {α β : Type} (f : α → List β) (pre post : List α) (a : α) :
    ((pre ++ a :: post).flatMap f).Perm (f a ++ (pre ++ post).flatMap f) := by
  simp only [List.flatMap_append, List.flatMap_cons]
  rw [← List.append_assoc, ← List.append_assoc]
  exact List.perm_append_comm.append_right _

/-- A step which does not touch the map. -/
theorem HInv.quiet {files : List (File D)} {size lo hi : Nat} {ws : List Entry} {s s' : HState D}
    (I : HInv files size lo hi ws s) {pre post : List (HWorker D)} {w w' : HWorker D}
    (hw : s.workers = pre ++ w :: post) (hw' : s'.workers = pre ++ w' :: post) (hmap : s'.map = s.map)
    (hub : s'.ub = s.ub) (hle : s.processed ≤ s'.processed)
    (hperm : (hheld w' ++ entries files s'.processed hi).Perm (hheld w ++ entries files s.processed hi))
    (hst : storing w = none) (hst' : storing w' = none)
    (hrange : ∀ i sec at_ rest, w' = .reading i sec rest at_ → (sec < 4 ∧ ∀ r ∈ rest, r.pos < size))
    (hex : w' = .exited → hi ≤ s'.processed) : HInv files size lo hi ws s' := by
  have old : ∀ x, x ∈ pre ∨ x ∈ post → x ∈ s.workers := by
    intro x hx
    rw [hw]
    rcases hx with h | h <;> simp [h]
  have mem : ∀ x, x ∈ s'.workers → x = w' ∨ x ∈ pre ∨ x ∈ post := by
    intro x hx
    rw [hw'] at hx
    simp only [List.mem_append, List.mem_cons] at hx
    rcases hx with h | h | h
    · exact .inr (.inl h)
    · exact .inl h
    · exact .inr (.inr h)
  refine ⟨hub.trans I.safe, ?_, by rw [hmap]; exact I.sorted, by rw [hmap]; exact I.written,
    by rw [hmap]; exact I.only, ?_, ?_, ?_, ?_⟩
  · refine List.Perm.trans ?_ I.perm
    rw [List.append_assoc, List.append_assoc]
    refine List.Perm.append_left _ ?_
    rw [hw, hw']
    refine ((perm_remove hheld pre post w').append_right _).trans ?_
    refine List.Perm.trans ?_ ((perm_remove hheld pre post w).append_right _).symm
    have c : ∀ (a b c : List Entry), (a ++ b ++ c).Perm (b ++ (a ++ c)) := by
      intro a b c
      rw [← List.append_assoc]
      exact List.perm_append_comm.append_right _
    exact (c _ _ _).trans ((List.Perm.append_left _ hperm).trans (c _ _ _).symm)
  · intro p f a h
    rw [hmap] at h
    rcases I.keys p f a h with h | ⟨x, hx, e, he, h⟩
    · exact .inl h
    · right
      rw [hw] at hx
      simp only [List.mem_append, List.mem_cons] at hx
      refine ⟨x, ?_, e, he, h⟩
      rw [hw']
      rcases hx with hx | rfl | hx
      · simp [hx]
      · rw [hst] at he; simp at he
      · simp [hx]
  · intro x hx e he
    rw [hmap]
    rcases mem x hx with rfl | hx
    · rw [hst'] at he; simp at he
    · exact I.stored x (old x hx) e he
  · intro x hx i sec at_ rest
    rcases mem x hx with rfl | hx
    · refine ⟨hrange i sec at_ rest, ?_⟩
      rintro r rfl
      simp [storing] at hst'
    · exact I.range x (old x hx) i sec at_ rest
  · intro h
    rcases mem _ h with h | h
    · exact hex h.symm
    · exact Nat.le_trans (I.exited (old _ h)) hle

theorem entries_ge (files : List (File D)) {p hi : Nat} (h : hi ≤ p) : entries files p hi = [] := by
  have : hi - p = 0 := by omega
  simp [entries, this]

theorem entries_lt (files : List (File D)) {p hi : Nat} (h : p < hi) :
    entries files p hi = fileEntries files p ++ entries files (p + 1) hi := by
  obtain ⟨n, hn⟩ : ∃ n, hi - p = n + 1 := ⟨hi - p - 1, by omega⟩
  have h2 : hi - (p + 1) = n := by omega
  simp only [entries, hn, h2, List.range'_succ, List.flatMap_cons]

theorem hinv_step {files : List (File D)} {size lo hi : Nat} (hg : HGood files size hi)
    (hd : ((entries files lo hi).map Entry.key).Nodup) {ws : List Entry} {s s' : HState D} {l : Unit}
    (I : HInv files size lo hi ws s) (h : HStep files size hi s l s') :
    ∃ ws', HInv files size lo hi ws' s' := by
  cases h with
  | @done pre post hw hp =>
    exact ⟨ws, I.quiet hw rfl rfl rfl (Nat.le_refl _) (by simp [hheld]) rfl rfl (by simp) (fun _ => hp)⟩
  | @more pre post hw hp =>
    exact ⟨ws, I.quiet hw rfl rfl rfl (Nat.le_refl _) (by simp [hheld]) rfl rfl (by simp) (by simp)⟩
  | @overrun pre post hw hp =>
    exact ⟨ws, I.quiet hw rfl rfl rfl (Nat.le_succ _)
      (by simp [hheld, entries_ge files hp, entries_ge files (Nat.le_succ_of_le hp)]) rfl rfl (by simp)
      (fun _ => Nat.le_succ_of_le hp)⟩
  | @fetch pre post f hw hp hf =>
    refine ⟨ws, I.quiet hw rfl rfl rfl (Nat.le_succ _) ?_ rfl rfl ?_ (by simp)⟩
    · rw [entries_lt files hp]
      simp [hheld, fileEntries, hf]
    · intro i sec at_ rest h
      simp only [HWorker.reading.injEq] at h
      obtain ⟨_, rfl, rfl, _⟩ := h
      have hm := List.mem_of_getElem? hf
      exact ⟨hg.sector f hm, hg.pos f hm⟩
  | @badStream pre post hw hp hf =>
    exfalso
    rw [List.getElem?_eq_none_iff] at hf
    have := hg.len
    omega
  | @eof pre post i sector at_ hw =>
    exact ⟨ws, I.quiet hw rfl rfl rfl (Nat.le_refl _) (by simp [hheld, entriesFrom]) rfl rfl (by simp) (by simp)⟩
  | @lookup pre post i sector r rest at_ hw hr =>
    have hrange := (I.range (.reading i sector (r :: rest) at_) (by rw [hw]; simp) i sector at_ (r :: rest)).1 rfl
    refine ⟨ws, I.safe, ?_, ?_, ?_, ?_, ?_, ?_, ?_, ?_⟩
    · have := I.perm
      rw [hw] at this
      simpa [List.flatMap_append, List.flatMap_cons, hheld, entriesFrom, recordSize, Nat.add_assoc] using this
    · intro p
      simp only [update]
      split
      · rename_i hp; subst hp; exact SMap.sorted_put (I.sorted _) _ _
      · exact I.sorted p
    · intro e he
      obtain ⟨a, h1, h2⟩ := I.written e he
      simp only [update]
      split
      · rename_i hp
        rw [SMap.get_put]
        split
        · rename_i hf
          rw [hp, hf] at h1
          exact ⟨a, by simp [h1], h2⟩
        · rw [← hp]; exact ⟨a, h1, h2⟩
      · exact ⟨a, h1, h2⟩
    · intro p f a sec loc h1 h2
      simp only [update] at h1
      split at h1
      · rename_i hp
        subst hp
        rw [SMap.get_put] at h1
        split at h1
        · rename_i hf
          subst hf
          simp only [Option.some.injEq] at h1
          cases hg : (s.map r.pos).get r.frameNumber with
          | none => rw [hg] at h1; simp at h1; rw [← h1] at h2; simp at h2
          | some b => rw [hg] at h1; simp at h1; subst h1; exact I.only _ _ _ _ _ hg h2
        · exact I.only _ _ _ _ _ h1 h2
      · exact I.only _ _ _ _ _ h1 h2
    · intro p f a h1
      have old : ∀ a, (s.map p).get f = some a → (∃ e ∈ ws, e.pos = p ∧ e.frame = f) ∨
          ∃ w ∈ pre ++ HWorker.store i sector r rest (at_ + 16) :: post, ∃ e, storing w = some e ∧ e.pos = p ∧
            e.frame = f := by
        intro a ha
        rcases I.keys p f a ha with h | ⟨x, hx, e, he, h⟩
        · exact .inl h
        · right
          rw [hw] at hx
          simp only [List.mem_append, List.mem_cons] at hx
          rcases hx with hx | rfl | hx
          · exact ⟨x, by simp [hx], e, he, h⟩
          · simp [storing] at he
          · exact ⟨x, by simp [hx], e, he, h⟩
      simp only [update] at h1
      split at h1
      · rename_i hp
        rw [SMap.get_put] at h1
        split at h1
        · rename_i hf
          exact .inr ⟨.store i sector r rest (at_ + 16), by simp, ⟨r.pos, r.frameNumber, sector, ⟨i, at_ + 16⟩⟩, rfl,
            hp.symm, hf.symm⟩
        · rw [← hp] at h1; exact old a h1
      · exact old a h1
    · intro x hx e he
      simp only [List.mem_append, List.mem_cons] at hx
      have key : (x = .store i sector r rest (at_ + 16)) ∨ x ∈ s.workers := by
        rcases hx with hx | rfl | hx
        · right; rw [hw]; simp [hx]
        · left; rfl
        · right; rw [hw]; simp [hx]
      rcases key with rfl | hx
      · simp only [storing, Option.some.injEq] at he
        subst he
        simp [update, SMap.get_put]
      · obtain ⟨a, ha⟩ := I.stored x hx e he
        simp only [update]
        split
        · rename_i hp
          rw [SMap.get_put]
          split
          · exact ⟨_, rfl⟩
          · rw [← hp]; exact ⟨a, ha⟩
        · exact ⟨a, ha⟩
    · intro x hx i' sec' at' rest'
      simp only [List.mem_append, List.mem_cons] at hx
      rcases hx with hx | rfl | hx
      · exact I.range x (by rw [hw]; simp [hx]) i' sec' at' rest'
      · simp only [reduceCtorEq, false_implies, true_and]
        intro r' h
        simp only [HWorker.store.injEq] at h
        obtain ⟨_, rfl, _, rfl, _⟩ := h
        exact ⟨hrange.1, fun r h => hrange.2 r (by simp [h])⟩
      · exact I.range x (by rw [hw]; simp [hx]) i' sec' at' rest'
    · intro h
      simp only [List.mem_append, List.mem_cons, reduceCtorEq, false_or] at h
      exact I.exited (by rw [hw]; simpa using h)
  | @badPosition pre post i sector r rest at_ hw hr =>
    exfalso
    have := (I.range (.reading i sector (r :: rest) at_) (by rw [hw]; simp) i sector at_ (r :: rest)).1 rfl
    have := this.2 r (by simp)
    omega
  | @badSector pre post i sector r rest at_ hw hr =>
    exfalso
    have := (I.range (.store i sector r rest at_) (by rw [hw]; simp) i sector at_ rest).2 r rfl
    omega
  | @store pre post i sector r rest at_ a hw hsec ha =>
    have hrange := (I.range (.store i sector r rest at_) (by rw [hw]; simp) i sector at_ rest).2 r rfl
    let e : Entry := ⟨r.pos, r.frameNumber, sector, ⟨i, at_⟩⟩
    -- the triple has not been written before
    have hnew : ∀ x ∈ ws, x.key ≠ e.key := by
      intro x hx hk
      have hp := I.perm
      rw [hw] at hp
      have hp2 : ((ws ++ (e :: (entriesFrom i sector (at_ + 2 * (576 * 144)) rest ++ (pre ++ post).flatMap hheld)) ++
          entries files s.processed hi)).Perm (entries files lo hi) := by
        refine List.Perm.trans ?_ hp
        refine List.Perm.append_right _ (List.Perm.append_left _ ?_)
        exact (perm_remove hheld pre post (.store i sector r rest at_)).symm
      have hn := ((hp2.map Entry.key).nodup_iff).2 hd
      rw [List.append_assoc, List.map_append] at hn
      have := (List.nodup_append.1 hn).2.2 x.key (List.mem_map.2 ⟨x, hx, rfl⟩) e.key (by simp)
      exact this hk
    refine ⟨ws ++ [e], I.safe, ?_, ?_, ?_, ?_, ?_, ?_, ?_, ?_⟩
    · have hp := I.perm
      rw [hw] at hp
      refine List.Perm.trans ?_ hp
      refine List.Perm.append_right _ ?_
      rw [List.append_assoc]
      refine List.Perm.append_left _ ?_
      refine ((List.Perm.append_left _ (perm_remove hheld pre post _))).trans ?_
      exact (perm_remove hheld pre post (.store i sector r rest at_)).symm
    · intro p
      simp only [update]
      split
      · rename_i hp; subst hp; exact SMap.sorted_put (I.sorted _) _ _
      · exact I.sorted p
    · intro x hx
      simp only [List.mem_append, List.mem_singleton] at hx
      rcases hx with hx | rfl
      · obtain ⟨b, h1, h2⟩ := I.written x hx
        have hk := hnew x hx
        simp only [update]
        split
        · rename_i hp
          rw [SMap.get_put]
          split
          · rename_i hf
            rw [hp, hf, ha] at h1
            obtain rfl := Option.some.inj h1
            refine ⟨_, rfl, ?_⟩
            have : x.sector ≠ sector := by
              intro hs
              apply hk
              simp [Entry.key, e, hp, hf, hs]
            simp [update, this, h2]
          · rw [← hp]; exact ⟨b, h1, h2⟩
        · exact ⟨b, h1, h2⟩
      · exact ⟨update a sector (some ⟨i, at_⟩), by simp [update, SMap.get_put, e], by simp [update, e]⟩
    · intro p f b sec loc h1 h2
      simp only [update] at h1
      split at h1
      · rename_i hp
        subst hp
        rw [SMap.get_put] at h1
        split at h1
        · rename_i hf
          subst hf
          simp only [Option.some.injEq] at h1
          subst h1
          simp only [update] at h2
          split at h2
          · rename_i hs
            simp only [Option.some.injEq] at h2
            subst hs h2
            simp [e]
          · simp [I.only _ _ _ _ _ ha h2]
        · simp [I.only _ _ _ _ _ h1 h2]
      · simp [I.only _ _ _ _ _ h1 h2]
    · intro p f b h1
      have old : ∀ a, (s.map p).get f = some a → (∃ x ∈ ws ++ [e], x.pos = p ∧ x.frame = f) ∨
          ∃ w ∈ pre ++ HWorker.reading i sector rest (at_ + 2 * (576 * 144)) :: post, ∃ e, storing w = some e ∧
            e.pos = p ∧ e.frame = f := by
        intro a ha
        rcases I.keys p f a ha with ⟨x, hx, h⟩ | ⟨x, hx, x', he, h⟩
        · exact .inl ⟨x, by simp [hx], h⟩
        · rw [hw] at hx
          simp only [List.mem_append, List.mem_cons] at hx
          rcases hx with hx | rfl | hx
          · exact .inr ⟨x, by simp [hx], x', he, h⟩
          · simp only [storing, Option.some.injEq] at he
            subst he
            exact .inl ⟨e, by simp, h⟩
          · exact .inr ⟨x, by simp [hx], x', he, h⟩
      simp only [update] at h1
      split at h1
      · rename_i hp
        rw [SMap.get_put] at h1
        split at h1
        · rename_i hf
          exact .inl ⟨e, by simp, hp.symm, hf.symm⟩
        · rw [← hp] at h1; exact old b h1
      · exact old b h1
    · intro x hx x' he
      have hx' : x ∈ s.workers := by
        simp only [List.mem_append, List.mem_cons] at hx
        rcases hx with hx | rfl | hx
        · rw [hw]; simp [hx]
        · simp [storing] at he
        · rw [hw]; simp [hx]
      obtain ⟨b, hb⟩ := I.stored x hx' x' he
      simp only [update]
      split
      · rename_i hp
        rw [SMap.get_put]
        split
        · exact ⟨_, rfl⟩
        · rw [← hp]; exact ⟨b, hb⟩
      · exact ⟨b, hb⟩
    · intro x hx i' sec' at' rest'
      simp only [List.mem_append, List.mem_cons] at hx
      rcases hx with hx | rfl | hx
      · exact I.range x (by rw [hw]; simp [hx]) i' sec' at' rest'
      · refine ⟨?_, by simp⟩
        intro h
        simp only [HWorker.reading.injEq] at h
        obtain ⟨_, rfl, rfl, _⟩ := h
        exact hrange
      · exact I.range x (by rw [hw]; simp [hx]) i' sec' at' rest'
    · intro h
      simp only [List.mem_append, List.mem_cons, reduceCtorEq, false_or] at h
      exact I.exited (by rw [hw]; simpa using h)

/-- The entries of a file are those of its records. -/
theorem mem_entriesFrom {i sector : Nat} {at_ : Nat} {rs : List (Rec D)} {e : Entry} :
    e ∈ entriesFrom i sector at_ rs ↔
      ∃ j r, rs[j]? = some r ∧ e = ⟨r.pos, r.frameNumber, sector, ⟨i, at_ + j * recordSize + 16⟩⟩ := by
  induction rs generalizing at_ with
  | nil => simp [entriesFrom]
  | cons r rs ih =>
    simp only [entriesFrom, List.mem_cons, ih]
    constructor
    · rintro (rfl | ⟨j, r', h, rfl⟩)
      · exact ⟨0, r, rfl, by simp⟩
      · refine ⟨j + 1, r', by simpa using h, ?_⟩
        have : at_ + recordSize + j * recordSize = at_ + (j + 1) * recordSize := by
          rw [Nat.add_mul]; omega
        rw [this]
    · rintro ⟨j, r', h, rfl⟩
      cases j with
      | zero =>
        simp only [List.getElem?_cons_zero, Option.some.injEq] at h
        subst h
        left; simp
      | succ j =>
        right
        refine ⟨j, r', by simpa using h, ?_⟩
        have : at_ + recordSize + j * recordSize = at_ + (j + 1) * recordSize := by
          rw [Nat.add_mul]; omega
        rw [this]

end Stempy.MultiPass
