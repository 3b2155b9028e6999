import Verif.Model.Handles
import Mathlib.Data.List.Perm.Basic

/-!
# C78: HDF5 identifiers are closed exactly once

`Owns own m`: a function which has to close the identifiers `own`, and does so with the right functions, on every path and
whatever the library answers.
-/

namespace Stempy.Handles

/-- The identifiers in use are distinct, positive and not used again, and error messages are on. -/
structure Good (s : Lib) : Prop where
  nodup : s.opened.Nodup
  below : ∀ x ∈ s.opened, 0 < x.1 ∧ x.1 < s.next
  pos : 0 < s.next
  on : s.handlingOff = false

/-- What a successful call gives to close. -/
def val (k : Kind) (id : Int) : List (Int × Kind) := if 0 < id then [(id, k)] else []

/-- Nothing was closed wrongly, and what does not belong to a call is as before. -/
structure Same (s s' : Lib) : Prop where
  wrong : s'.wrong = s.wrong
  handler : s'.handler = s.handler
  fileId : s'.fileId = s.fileId
  oracle : s'.oracle = s.oracle

theorem Same.refl (s : Lib) : Same s s := ⟨rfl, rfl, rfl, rfl⟩

theorem Same.trans {s s' s'' : Lib} (h : Same s s') (h' : Same s' s'') : Same s s'' :=
  ⟨h'.1.trans h.1, h'.2.trans h.2, h'.3.trans h.3, h'.4.trans h.4⟩

def Owns {α : Type} (own : List (Int × Kind)) (m : M α) : Prop :=
  ∀ s rest, Good s → s.opened.Perm (own ++ rest) → (m s).2.opened.Perm rest ∧ Same s (m s).2 ∧ Good (m s).2

theorem owns_pure {α : Type} (a : α) : Owns [] (pure a : M α) :=
  fun s _ hs hp => ⟨hp, .refl s, hs⟩

theorem owns_bind {α β : Type} {own : List (Int × Kind)} {m : M α} {f : α → M β} (hm : Owns [] m) (hf : ∀ a, Owns own (f a)) :
    Owns own (m >>= f) := by
  intro s rest hs hp
  obtain ⟨a1, a2, a3⟩ := hm s s.opened hs (List.Perm.refl _)
  obtain ⟨b1, b2, b3⟩ := hf (m s).1 (m s).2 rest a3 (a1.trans hp)
  exact ⟨b1, a2.trans b2, b3⟩

theorem owns_perm {α : Type} {o o' : List (Int × Kind)} {m : M α} (h : o.Perm o') (hm : Owns o m) : Owns o' m :=
  fun s rest hs hp => hm s rest hs (hp.trans (h.symm.append_right rest))

theorem owns_call {ids : List Int} : Owns [] (call ids) :=
  fun _ _ hs hp => ⟨hp, ⟨rfl, rfl, rfl, rfl⟩, ⟨hs.nodup, hs.below, hs.pos, hs.on⟩⟩

theorem owns_fileId : Owns [] fileId := fun s _ hs hp => ⟨hp, .refl s, hs⟩

theorem owns_fileIsValid : Owns [] fileIsValid := fun s _ hs hp => ⟨hp, .refl s, hs⟩

/-- The state after a call which made an identifier. -/
def made (k : Kind) (s : Lib) : Lib :=
  { s with calls := s.calls + 1, next := s.next + 1, opened := (s.next, k) :: s.opened }

theorem good_made {k : Kind} {s : Lib} (hs : Good s) : Good (made k s) := by
  have hpos := hs.pos
  refine ⟨?_, ?_, ?_, hs.on⟩
  · refine List.nodup_cons.2 ⟨fun hm => ?_, hs.nodup⟩
    have := (hs.below _ hm).2
    simp at this
  · intro x hx
    rcases List.mem_cons.1 hx with rfl | hx
    · exact ⟨hpos, by dsimp only [made]; omega⟩
    · have := hs.below x hx
      exact ⟨this.1, by dsimp only [made]; omega⟩
  · show 0 < s.next + 1
    omega

theorem make_bind {β : Type} (k : Kind) (ids : List Int) (f : Int → M β) (s : Lib) :
    (make k ids >>= f) s =
      if s.oracle s.calls < 0 ∨ valid ids = false then f (-1) { s with calls := s.calls + 1 } else f s.next (made k s) := by
  show f (make k ids s).1 (make k ids s).2 = _
  unfold make
  split <;> rfl

theorem owns_make {β : Type} {own : List (Int × Kind)} {k : Kind} {ids : List Int} {f : Int → M β}
    (hf : ∀ id, id ≠ 0 → Owns (val k id ++ own) (f id)) : Owns own (make k ids >>= f) := by
  intro s rest hs hp
  rw [make_bind]
  have hpos := hs.pos
  split
  · obtain ⟨a, b, c⟩ := hf (-1) (by decide) { s with calls := s.calls + 1 } rest ⟨hs.nodup, hs.below, hs.pos, hs.on⟩
      (by simpa [val] using hp)
    exact ⟨a, ⟨b.1, b.2, b.3, b.4⟩, c⟩
  · obtain ⟨a, b, c⟩ := hf s.next (by omega) (made k s) rest (good_made hs) (by
      rw [val, if_pos hpos]
      exact hp.cons _)
    exact ⟨a, ⟨b.1, b.2, b.3, b.4⟩, c⟩

theorem owns_within {α : Type} {own : List (Int × Kind)} {k : Kind} {id : Int} {body : M α} (h0 : id ≠ 0)
    (hb : Owns own body) : Owns (val k id ++ own) (within k id body) := by
  intro s rest hs hp
  obtain ⟨b1, b2, b5⟩ := hb s (val k id ++ rest) hs (hp.trans (by
    rw [← List.append_assoc]
    exact (List.perm_append_comm).append_right rest))
  by_cases hpos : 0 < id
  · have h1 : (within k id body s).2 = { (body s).2 with opened := (body s).2.opened.erase (id, k) } := by
      have hm : (id, k) ∈ (body s).2.opened := b1.mem_iff.2 (by simp [val, hpos])
      show (closeValid k id (body s).2).2 = _
      unfold closeValid close
      rw [if_pos (by omega)]
      simp [h0, hm]
    rw [h1]
    refine ⟨?_, ⟨b2.1, b2.2, b2.3, b2.4⟩, ⟨b5.nodup.erase _, fun x hx => b5.below x (List.mem_of_mem_erase hx), b5.pos, b5.on⟩⟩
    have := b1.erase (id, k)
    simpa [val, hpos] using this
  · have h1 : (within k id body s).2 = (body s).2 := by
      show (closeValid k id (body s).2).2 = _
      unfold closeValid
      rw [if_neg (by omega)]
      rfl
    rw [h1]
    exact ⟨by simpa [val, hpos] using b1, b2, b5⟩

theorem owns_within_none {α : Type} {own : List (Int × Kind)} {k : Kind} {body : M α} (hb : Owns own body) :
    Owns own (within k (-1) body) := by
  simpa [val] using owns_within (k := k) (id := -1) (by decide) hb

theorem owns_within_default {α : Type} {own : List (Int × Kind)} {body : M α} (hb : Owns own body) :
    Owns own (within .plist 0 body) := by
  intro s rest hs hp
  have h1 : (within .plist 0 body s).2 = (body s).2 := by
    show (closeValid .plist 0 (body s).2).2 = _
    simp [closeValid, close]
  rw [h1]
  exact hb s rest hs hp

/-- An early return if the call failed. -/
theorem owns_failed {α : Type} {own : List (Int × Kind)} {k : Kind} {id : Int} {a b : M α} (ha : Owns own a)
    (hb : Owns (val k id ++ own) b) : Owns (val k id ++ own) (if id < 0 then a else b) := by
  split
  · rename_i h
    have : val k id = [] := if_neg (by omega)
    rw [this]; exact ha
  · exact hb

theorem owns_ite {α : Type} {own : List (Int × Kind)} {c : Prop} [Decidable c] {a b : M α} (ha : Owns own a)
    (hb : Owns own b) : Owns own (if c then a else b) := by
  split
  · exact ha
  · exact hb

theorem owns_attributeExists : Owns [] attributeExists :=
  owns_bind owns_fileIsValid fun _ => owns_ite (owns_bind owns_call fun _ => owns_pure _) (owns_pure _)

theorem owns_getInfoByName : Owns [] getInfoByName :=
  owns_bind owns_fileIsValid fun _ => owns_ite (owns_bind owns_call fun _ => owns_pure _) (owns_pure _)

theorem owns_hasAttribute : Owns [] hasAttribute :=
  owns_bind owns_getInfoByName fun _ => owns_ite (owns_bind owns_call fun _ => owns_pure _) (owns_pure _)

theorem owns_isDataSet : Owns [] isDataSet := by
  intro s rest hs hp
  have h : (isDataSet s).2.opened = s.opened ∧ (isDataSet s).2.wrong = s.wrong ∧ (isDataSet s).2.handler = s.handler ∧
      (isDataSet s).2.fileId = s.fileId ∧ (isDataSet s).2.oracle = s.oracle ∧ (isDataSet s).2.next = s.next ∧ (isDataSet s).2.handlingOff = false := by
    have hon := hs.on
    by_cases hv : 0 ≤ s.fileId <;> by_cases hc : 0 ≤ s.oracle s.calls <;>
      simp [isDataSet, turnOffErrors, turnOnErrors, getInfoByName, fileIsValid, call, valid, bind, StateT.bind, pure, StateT.pure, hon,
        hv, hc]
  obtain ⟨h1, h2, h3, h4, h7, h5, h6⟩ := h
  refine ⟨h1 ▸ hp, ⟨h2, h3, h4, h7⟩, ⟨h1 ▸ hs.nodup, ?_, h5 ▸ hs.pos, h6⟩⟩
  rw [h1, h5]; exact hs.below

/-- Two identifiers, closed in the order of the constructors. -/
theorem owns_two {α : Type} {own : List (Int × Kind)} {k₁ k₂ : Kind} {i₁ i₂ : Int} {body : M α} (h₁ : i₁ ≠ 0) (h₂ : i₂ ≠ 0)
    (hb : Owns own body) : Owns (val k₂ i₂ ++ (val k₁ i₁ ++ own)) (within k₁ i₁ (within k₂ i₂ body)) := by
  refine owns_perm ?_ (owns_within h₁ (owns_within h₂ hb))
  rw [← List.append_assoc, ← List.append_assoc]
  exact List.perm_append_comm.append_right own

/-- Three identifiers. -/
theorem owns_three {α : Type} {own : List (Int × Kind)} {k₁ k₂ k₃ : Kind} {i₁ i₂ i₃ : Int} {body : M α} (h₁ : i₁ ≠ 0)
    (h₂ : i₂ ≠ 0) (h₃ : i₃ ≠ 0) (hb : Owns own body) :
    Owns (val k₃ i₃ ++ (val k₂ i₂ ++ (val k₁ i₁ ++ own))) (within k₁ i₁ (within k₂ i₂ (within k₃ i₃ body))) := by
  refine owns_perm ?_ (owns_within h₁ (owns_two h₂ h₃ hb))
  refine (List.perm_append_comm).trans ?_
  rw [List.append_assoc, List.append_assoc]
  exact (List.perm_append_comm.append_left _).append_left _

theorem owns_result {ids : List Int} {b : Int → Bool} : Owns [] (call ids >>= fun r => (pure (b r) : M Bool)) :=
  owns_bind owns_call fun _ => owns_pure _

theorem owns_compareTypes {i j l : List Int} {b : Int → Bool} :
    Owns [] (do
      let e ← call i
      if e = 0 then return false
      else
        let e ← call j
        if e < 0 then return false
        else
          let r ← call l
          return b r : M Bool) :=
  owns_bind owns_call fun _ => owns_ite (owns_pure _) (owns_bind owns_call fun _ => owns_ite (owns_pure _) owns_result)

theorem owns_attributeValue : Owns [] attributeValue :=
  owns_bind owns_attributeExists fun _ => owns_ite
    (owns_make fun _ h1 => owns_make fun _ h2 => owns_two h1 h2 owns_compareTypes) (owns_pure _)

theorem owns_setAttribute : Owns [] setAttribute :=
  owns_bind owns_fileIsValid fun _ => owns_ite
    (owns_bind owns_isDataSet fun _ => owns_make fun _ h1 => owns_within h1 <|
      owns_make fun _ h2 => owns_make fun _ h3 => owns_two h2 h3 owns_result) (owns_pure _)

theorem owns_writeData : Owns [] writeData :=
  owns_bind owns_fileIsValid fun _ => owns_ite
    (owns_make fun _ h1 => owns_make fun _ h2 => owns_make fun _ h3 => owns_three h1 h2 h3 owns_result) (owns_pure _)

theorem owns_createDataSet (chunked : Bool) : Owns [] (createDataSet chunked) := by
  refine owns_bind owns_fileIsValid fun _ => owns_ite (owns_make fun _ h1 => ?_) (owns_pure _)
  cases chunked <;> simp only [Bool.false_eq_true, if_false, if_true, pure_bind]
  · exact owns_within_default (owns_make fun _ h2 => owns_make fun _ h3 => owns_three h1 h2 h3 (owns_pure _))
  · exact owns_make fun _ h4 => owns_bind owns_call fun _ => owns_within h4
      (owns_make fun _ h2 => owns_make fun _ h3 => owns_three h1 h2 h3 (owns_pure _))

theorem owns_updateData : Owns [] updateData :=
  owns_bind owns_fileIsValid fun _ => owns_ite
    (owns_make fun _ h1 => owns_failed (owns_pure _) <| owns_within h1 <|
      owns_make fun _ h2 => owns_failed (owns_pure _) <| owns_within h2 <|
        owns_bind owns_call fun _ => owns_ite (owns_pure _) <|
          owns_make fun _ h3 => owns_failed (owns_pure _) <| owns_within h3 owns_result) (owns_pure _)

theorem owns_getDimensions : Owns [] getDimensions :=
  owns_bind owns_isDataSet fun _ => owns_ite
    (owns_make fun _ h1 => owns_failed (owns_pure _) <| owns_within h1 <|
      owns_make fun _ h2 => owns_failed (owns_pure _) <| owns_within h2 <|
        owns_bind owns_call fun _ => owns_ite (owns_pure _) owns_result) (owns_pure _)

theorem owns_readData (select : Bool) : Owns [] (readData select) := by
  refine owns_bind owns_fileId fun _ => owns_make fun _ h1 => owns_failed (owns_pure _) <| owns_within h1 <|
    owns_make fun _ h2 => owns_failed (owns_pure _) <| owns_within h2 ?_
  cases select <;> simp only [Bool.false_eq_true, if_false, if_true, pure_bind]
  · exact owns_within_none (owns_make fun _ h3 => owns_within h3 owns_compareTypes)
  · exact owns_bind owns_getDimensions fun _ => owns_bind owns_call fun _ =>
      owns_make fun _ h4 => owns_within h4 (owns_make fun _ h3 => owns_within h3 owns_compareTypes)

theorem owns_allDataSets (root : Bool) : Owns [] (allDataSets root) := by
  refine owns_bind owns_fileIsValid fun _ => owns_ite ?_ (owns_pure _)
  cases root <;> simp only [Bool.false_eq_true, if_false, if_true, pure_bind]
  · exact owns_make fun _ h1 => owns_within h1 owns_result
  · exact owns_within_none owns_result

theorem owns_repeat {ids : List Int} (l : List Nat) {β : Type} {own : List (Int × Kind)} {m : M β} (h : Owns own m) :
    Owns own (do
      for _ in l do
        let _ ← call ids
      m : M β) := by
  refine owns_bind ?_ fun _ => h
  induction l with
  | nil => exact owns_pure _
  | cons a l ih =>
    simp only [List.forIn_cons, bind_assoc, pure_bind]
    exact owns_bind owns_call fun _ => ih

theorem owns_children : Owns [] children :=
  owns_bind owns_fileIsValid fun _ => owns_ite
    (owns_make fun _ h1 => owns_failed (owns_pure _) <| owns_within h1 <| owns_bind owns_call fun _ => owns_repeat _ (owns_pure _)) (owns_pure _)

theorem owns_attributeString : Owns [] attributeString :=
  owns_bind owns_attributeExists fun _ => owns_ite
    (owns_make fun _ h1 => owns_make fun _ h2 => owns_two h1 h2 <|
      owns_bind owns_call fun _ => owns_ite (owns_pure _) <| owns_bind owns_call fun _ => owns_ite owns_result <|
        owns_ite (owns_bind owns_call fun _ => owns_ite (owns_pure _) owns_result) (owns_pure _)) (owns_pure _)

theorem owns_findType {type : Int} (n : Nat) : Owns [] (attributeType.findType type n) := by
  induction n with
  | zero => exact owns_pure _
  | succ n ih => exact owns_bind owns_call fun _ => owns_ite (owns_pure _) ih

theorem owns_attributeType : Owns [] attributeType :=
  owns_bind owns_attributeExists fun _ => owns_ite
    (owns_make fun _ h1 => owns_make fun _ h2 => owns_two h1 h2 <|
      owns_bind owns_call fun _ => owns_ite (owns_pure _) (owns_findType 10)) (owns_pure _)

theorem owns_dataType : Owns [] dataType :=
  owns_bind owns_isDataSet fun _ => owns_ite
    (owns_make fun _ h1 => owns_failed (owns_pure _) <| owns_make fun _ h2 => owns_two h1 h2 (owns_findType 10)) (owns_pure _)

theorem owns_createGroup : Owns [] createGroup := by
  refine owns_bind owns_fileIsValid fun _ => owns_ite (owns_make fun id h1 => ?_) (owns_pure _)
  by_cases h : id < 0
  · rw [if_pos h, val, if_neg (by omega)]
    exact owns_pure _
  · rw [if_neg h]
    intro s rest hs hp
    have h2 := (owns_within (own := []) (k := .group) h1 (owns_pure true)) s rest hs hp
    have h3 : (within .group id (pure true) s).2 = ((close .group id >>= fun _ => (pure true : M Bool)) s).2 := by
      show (closeValid .group id s).2 = (close .group id s).2
      rw [closeValid, if_pos (by omega)]
    rw [h3] at h2
    exact h2

/-- Every call succeeds, and the file is open. -/
def AllOk (s : Lib) : Prop := (∀ n, 0 ≤ s.oracle n) ∧ 0 ≤ s.fileId

theorem AllOk.same {s s' : Lib} (h : Same s s') (hs : AllOk s) : AllOk s' := by
  unfold AllOk
  rw [h.oracle, h.fileId]; exact hs

/-- `setAttribute<const char*>` keeps a type: as `Owns`, but at most one identifier, of a type, is left, and one if the calls
succeed. -/
def Leaks {α : Type} (own : List (Int × Kind)) (m : M α) : Prop :=
  ∀ s rest, Good s → s.opened.Perm (own ++ rest) →
    ∃ leak, (m s).2.opened.Perm (leak ++ rest) ∧ leak.length ≤ 1 ∧ (∀ x ∈ leak, x.2 = .type) ∧ (AllOk s → leak.length = 1) ∧
      Same s (m s).2 ∧ Good (m s).2

theorem leaks_type {α : Type} {own : List (Int × Kind)} {f : Int → M α} (h : ∀ id, Owns own (f id)) :
    Leaks own (make .type [] >>= f) := by
  intro s rest hs hp
  rw [make_bind]
  split
  · rename_i hf
    obtain ⟨a, b, c⟩ := h (-1) { s with calls := s.calls + 1 } rest ⟨hs.nodup, hs.below, hs.pos, hs.on⟩ hp
    exact ⟨[], a, by simp, by simp, fun ha => absurd (ha.1 s.calls) (by simpa [valid] using hf), ⟨b.1, b.2, b.3, b.4⟩, c⟩
  · obtain ⟨a, b, c⟩ := h s.next (made .type s) ((s.next, .type) :: rest) (good_made hs)
      ((hp.cons _).trans (List.perm_middle (a := (s.next, Kind.type)) (l₁ := own) (l₂ := rest)).symm)
    exact ⟨[(s.next, .type)], a, by simp, by simp, fun _ => rfl, ⟨b.1, b.2, b.3, b.4⟩, c⟩

theorem leaks_bind {α β : Type} {own : List (Int × Kind)} {m : M α} {f : α → M β} (hm : Owns [] m) (hf : ∀ a, Leaks own (f a)) :
    Leaks own (m >>= f) := by
  intro s rest hs hp
  obtain ⟨a1, a2, a3⟩ := hm s s.opened hs (List.Perm.refl _)
  obtain ⟨l, b1, b2, b3, b4, b5, b6⟩ := hf (m s).1 (m s).2 rest a3 (a1.trans hp)
  exact ⟨l, b1, b2, b3, fun h => b4 (h.same a2), a2.trans b5, b6⟩

theorem leaks_make {β : Type} {own : List (Int × Kind)} {k : Kind} {ids : List Int} {f : Int → M β}
    (hf : ∀ id, id ≠ 0 → Leaks (val k id ++ own) (f id)) : Leaks own (make k ids >>= f) := by
  intro s rest hs hp
  rw [make_bind]
  have hpos := hs.pos
  split
  · obtain ⟨l, a, a', a'', a3, b, c⟩ := hf (-1) (by decide) { s with calls := s.calls + 1 } rest
      ⟨hs.nodup, hs.below, hs.pos, hs.on⟩ (by simpa [val] using hp)
    exact ⟨l, a, a', a'', a3, ⟨b.1, b.2, b.3, b.4⟩, c⟩
  · obtain ⟨l, a, a', a'', a3, b, c⟩ := hf s.next (by omega) (made k s) rest (good_made hs) (by
      rw [val, if_pos hpos]
      exact hp.cons _)
    exact ⟨l, a, a', a'', a3, ⟨b.1, b.2, b.3, b.4⟩, c⟩

theorem leaks_within {α : Type} {own : List (Int × Kind)} {k : Kind} {id : Int} {body : M α} (h0 : id ≠ 0)
    (hb : Leaks own body) : Leaks (val k id ++ own) (within k id body) := by
  intro s rest hs hp
  obtain ⟨l, b1, b2, b3, b4, b5, b6⟩ := hb s (val k id ++ rest) hs (hp.trans (by
    rw [← List.append_assoc]
    exact (List.perm_append_comm).append_right rest))
  obtain ⟨a1, a2, a3⟩ := owns_within (own := []) (k := k) h0 (owns_pure ()) (body s).2 (l ++ rest) b6 (b1.trans (by
    rw [List.append_nil, ← List.append_assoc, ← List.append_assoc]
    exact (List.perm_append_comm).append_right rest))
  exact ⟨l, a1, b2, b3, b4, b5.trans a2, a3⟩

theorem leaks_setAttributeString : Leaks [] setAttributeString := by
  have h : Leaks [] (do
      let onData ← isDataSet
      let k := if onData then Kind.dataset else Kind.group
      let parent ← make k []
      within k parent do
        let space ← make .space []
        within .space space do
          let type ← make .type []
          let status ← call [type]
          if status < 0 then return false
          else
            let attr ← make .attr [parent, type, space]
            if attr < 0 then return false
            else within .attr attr do
              let r ← call [attr, type]
              return decide (0 ≤ r) : M Bool) :=
    leaks_bind owns_isDataSet fun _ => leaks_make fun _ h1 => leaks_within h1 <| leaks_make fun _ h2 => leaks_within h2 <|
      leaks_type fun _ => owns_bind owns_call fun _ => owns_ite (owns_pure _) <|
        owns_make fun _ h3 => owns_failed (owns_pure _) <| owns_within h3 owns_result
  intro s rest hs hp
  by_cases hv : 0 ≤ s.fileId
  · have h1 := h s rest hs hp
    show ∃ leak, ((if decide (0 ≤ s.fileId) = true then _ else _ : M Bool) s).2.opened.Perm (leak ++ rest) ∧ _
    unfold setAttributeString
    simpa only [fileIsValid, bind, StateT.bind, hv, decide_true, if_true] using h1
  · have e : setAttributeString s = (false, s) := by
      show (if decide (0 ≤ s.fileId) = true then _ else _ : M Bool) s = _
      rw [if_neg (by simpa using hv)]
      rfl
    rw [e]
    exact ⟨[], hp, by simp, by simp, fun ha => absurd ha.2 hv, .refl s, hs⟩

/-- The calls other than `setAttribute` with a string and `close`. -/
theorem owns_run (c : Call) (h : c ≠ .setAttributeString) (h' : c ≠ .close) : Owns [] c.run := by
  cases c with
  | attributeExists => exact owns_attributeExists
  | hasAttribute => exact owns_hasAttribute
  | isDataSet => exact owns_isDataSet
  | isGroup => exact owns_isDataSet
  | «attribute» => exact owns_attributeValue
  | attributeString => exact owns_attributeString
  | attributeType => exact owns_attributeType
  | setAttribute => exact owns_setAttribute
  | setAttributeString => exact absurd rfl h
  | writeData => exact owns_writeData
  | createDataSet ch => exact owns_createDataSet ch
  | updateData => exact owns_updateData
  | getDimensions => exact owns_getDimensions
  | readData se => exact owns_readData se
  | allDataSets r => exact owns_allDataSets r
  | children => exact owns_children
  | dataType => exact owns_dataType
  | createGroup => exact owns_createGroup
  | close => exact absurd rfl h'

theorem run_leaks (c : Call) (h' : c ≠ .close) (s : Lib) (hs : Good s) :
    ∃ leak, (c.run s).2.opened.Perm (leak ++ s.opened) ∧ (∀ x ∈ leak, x.2 = .type) ∧
      leak.length ≤ [c].count .setAttributeString ∧ (AllOk s → leak.length = [c].count .setAttributeString) ∧
      Same s (c.run s).2 ∧ Good (c.run s).2 := by
  by_cases h : c = .setAttributeString
  · subst h
    obtain ⟨l, a, b, c, d, e⟩ := leaks_setAttributeString s s.opened hs (by simp)
    exact ⟨l, a, c, by simpa using b, by simpa using d, e⟩
  · obtain ⟨a, b⟩ := owns_run c h h' s s.opened hs (by simp)
    exact ⟨[], by simpa using a, by simp, by simp, by simp [h], b⟩

/-- C78: whatever the library answers, a call leaves open what was open before, closes nothing else, and leaves the error
handler as it was. -/
theorem C78_call_partial (c : Call) (h : c ≠ .setAttributeString) (h' : c ≠ .close) (s : Lib) (hs : Good s) :
    (c.run s).2.opened.Perm s.opened ∧ (c.run s).2.wrong = s.wrong ∧ (c.run s).2.handler = s.handler ∧
      (c.run s).2.fileId = s.fileId ∧ Good (c.run s).2 := by
  obtain ⟨a, b, d⟩ := owns_run c h h' s s.opened hs (by simp)
  exact ⟨a, b.wrong, b.handler, b.fileId, d⟩

/-- The state between the calls of an object: `rest` is what others have opened, `leak` what was not closed. -/
structure Between (s : Lib) (rest leak : List (Int × Kind)) : Prop where
  good : Good s
  opened : s.opened.Perm (val .file s.fileId ++ (leak ++ rest))
  file : s.fileId ≠ 0

theorem clear_wrong {s : Lib} {rest leak : List (Int × Kind)} (h : Between s rest leak) :
    (clear s).2.wrong = s.wrong ∧ (clear s).2.handler = s.handler ∧ (clear s).2.fileId < 0 ∧ Between (clear s).2 rest leak := by
  by_cases hv : 0 ≤ s.fileId
  · have hpos : 0 < s.fileId := by have := h.file; omega
    have hm : (s.fileId, Kind.file) ∈ s.opened := h.opened.mem_iff.2 (by simp [val, hpos])
    have e : (clear s).2 = { s with opened := s.opened.erase (s.fileId, .file), fileId := -1 } := by
      simp [clear, fileIsValid, hv, close, hm, bind, StateT.bind, get, getThe, MonadStateOf.get, StateT.get, pure, modify, modifyGet,
        MonadStateOf.modifyGet, StateT.modifyGet]
    rw [e]
    refine ⟨rfl, rfl, by dsimp only; omega, ⟨h.good.nodup.erase _, fun x hx => h.good.below x (List.mem_of_mem_erase hx),
      h.good.pos, h.good.on⟩, ?_, by dsimp only; omega⟩
    have := h.opened.erase (s.fileId, .file)
    simpa [val, hpos] using this
  · have e : (clear s).2 = s := by
      simp [clear, fileIsValid, hv, bind, StateT.bind, pure, StateT.pure]
    rw [e]
    exact ⟨rfl, rfl, by omega, h⟩

theorem run_between (c : Call) {s : Lib} {rest leak : List (Int × Kind)} (h : Between s rest leak)
    (ht : ∀ x ∈ leak, x.2 = .type) :
    ∃ leak', Between (c.run s).2 rest leak' ∧ (∀ x ∈ leak', x.2 = .type) ∧
      leak'.length ≤ leak.length + [c].count .setAttributeString ∧
      (AllOk s → c ≠ .close → leak'.length = leak.length + [c].count .setAttributeString ∧ AllOk (c.run s).2) ∧
      (c.run s).2.wrong = s.wrong ∧ (c.run s).2.handler = s.handler := by
  by_cases hc : c = .close
  · subst hc
    obtain ⟨a, b, _, d⟩ := clear_wrong h
    exact ⟨leak, d, ht, by simp, by simp, a, b⟩
  · obtain ⟨l, a, b, c1, c2, d, e⟩ := run_leaks c hc s h.good
    refine ⟨l ++ leak, ⟨e, ?_, d.fileId ▸ h.file⟩, ?_, ?_, ?_, d.wrong, d.handler⟩
    · rw [d.fileId]
      refine a.trans ((h.opened.append_left l).trans ?_)
      have := (List.perm_append_comm (l₁ := l) (l₂ := val .file s.fileId)).append_right (leak ++ rest)
      simpa only [List.append_assoc] using this
    · intro x hx
      rcases List.mem_append.1 hx with hx | hx
      · exact b x hx
      · exact ht x hx
    · rw [List.length_append]; omega
    · intro ha _
      rw [List.length_append, c2 ha]
      exact ⟨by omega, ha.same d⟩

theorem calls_between (calls : List Call) {s : Lib} {rest leak : List (Int × Kind)} (h : Between s rest leak)
    (ht : ∀ x ∈ leak, x.2 = .type) :
    ∃ leak', Between ((calls.forM fun c => discard c.run) s).2 rest leak' ∧ (∀ x ∈ leak', x.2 = .type) ∧
      leak'.length ≤ leak.length + calls.count .setAttributeString ∧
      (AllOk s → .close ∉ calls → leak'.length = leak.length + calls.count .setAttributeString) ∧
      ((calls.forM fun c => discard c.run) s).2.wrong = s.wrong ∧
      ((calls.forM fun c => discard c.run) s).2.handler = s.handler := by
  induction calls generalizing s leak with
  | nil => exact ⟨leak, h, ht, by simp, by simp, rfl, rfl⟩
  | cons c calls ih =>
    obtain ⟨l, a, b, c1, c2, c3, c4⟩ := run_between c h ht
    obtain ⟨l', a', b', c1', c2', c3', c4'⟩ := ih a b
    refine ⟨l', a', b', ?_, ?_, c3'.trans c3, c4'.trans c4⟩
    · have : (c :: calls).count .setAttributeString = [c].count .setAttributeString + calls.count .setAttributeString := by
        rw [← List.count_append]; rfl
      omega
    · intro ha hn
      have hcc : c ≠ .close := fun e => hn (by simp [e])
      obtain ⟨d1, d2⟩ := c2 ha hcc
      have := c2' d2 (fun e => hn (by simp [e]))
      have : (c :: calls).count .setAttributeString = [c].count .setAttributeString + calls.count .setAttributeString := by
        rw [← List.count_append]; rfl
      omega

theorem life_leaks (calls : List Call) (s : Lib) (hs : Good s) :
    ∃ leak, (life calls s).2.opened.Perm (leak ++ s.opened) ∧ (∀ x ∈ leak, x.2 = .type) ∧
      leak.length ≤ calls.count .setAttributeString ∧
      (life calls s).2.wrong = s.wrong ∧ (life calls s).2.handler = s.handler ∧ (life calls s).2.fileId < 0 ∧
      ((∀ n, 0 ≤ s.oracle n) → .close ∉ calls → leak.length = calls.count .setAttributeString) := by
  have h0 : ∃ s', (openFile s).2 = s' ∧ Between s' s.opened [] ∧ s'.wrong = s.wrong ∧ s'.handler = s.handler ∧
      ((∀ n, 0 ≤ s.oracle n) → AllOk s') := by
    refine ⟨_, rfl, ?_⟩
    have e : (openFile s).2 = { (make .file [] s).2 with fileId := (make .file [] s).1 } := rfl
    rw [e]
    have hpos := hs.pos
    unfold make
    split
    · rename_i hf
      exact ⟨⟨⟨hs.nodup, hs.below, hs.pos, hs.on⟩, by simp [val], by dsimp only; omega⟩, rfl, rfl,
        fun h => absurd (h s.calls) (by simpa [valid] using hf)⟩
    · have g := good_made (k := .file) hs
      exact ⟨⟨⟨g.nodup, g.below, g.pos, g.on⟩, by simp [val, hpos], by dsimp only; omega⟩, rfl, rfl,
        fun h => ⟨h, by dsimp only; omega⟩⟩
  obtain ⟨s', e, b, w, hh, hok⟩ := h0
  obtain ⟨l, a1, a2, a3, a6, a4, a5⟩ := calls_between calls b (by simp)
  obtain ⟨c1, c2, c3, c4⟩ := clear_wrong a1
  have e2 : (life calls s).2 = (clear ((calls.forM fun c => discard c.run) s').2).2 := by
    rw [← e]; rfl
  rw [e2]
  refine ⟨l, ?_, a2, by simpa using a3, by rw [c1, a4, w], by rw [c2, a5, hh], c3, fun h hc => by simpa using a6 (hok h) hc⟩
  have := c4.opened
  rwa [val, if_neg (by omega)] at this

/-- C78: after the life of an object what others have opened is still open, nothing was closed twice or by the wrong function, and
the error handler is the one from before. The only identifiers left over are types, at most one for each string attribute. -/
theorem C78_life_partial (calls : List Call) (s : Lib) (hs : Good s) :
    ∃ leak, (life calls s).2.opened.Perm (leak ++ s.opened) ∧ (∀ x ∈ leak, x.2 = .type) ∧
      leak.length ≤ calls.count .setAttributeString ∧
      (life calls s).2.wrong = s.wrong ∧ (life calls s).2.handler = s.handler ∧ (life calls s).2.fileId < 0 := by
  obtain ⟨l, a, b, c, d, e, f, -⟩ := life_leaks calls s hs
  exact ⟨l, a, b, c, d, e, f⟩

/-- With no string attributes nothing is left over. -/
theorem C78_no_strings (calls : List Call) (hc : .setAttributeString ∉ calls) (s : Lib) (hs : Good s) :
    (life calls s).2.opened.Perm s.opened := by
  obtain ⟨l, a, -, b, -⟩ := C78_life_partial calls s hs
  rw [List.count_eq_zero_of_not_mem hc] at b
  have : l = [] := List.eq_nil_of_length_eq_zero (by omega)
  simpa [this] using a

/-- With a library which does not fail, every string attribute leaves one identifier open for ever. -/
theorem C78_string_false (calls : List Call) (hc : .close ∉ calls) (s : Lib) (hs : Good s) (hok : ∀ n, 0 ≤ s.oracle n) :
    (life calls s).2.opened.length = s.opened.length + calls.count .setAttributeString := by
  obtain ⟨l, a, -, -, -, -, -, b⟩ := life_leaks calls s hs
  rw [a.length_eq, List.length_append, b hok hc]
  omega

/-- C78: `reset` closes the old identifier and keeps the new one, and the destructor closes that. -/
theorem C78_reset (k : Kind) (id v : Int) (hv : 0 < v) (h : 0 < id) (hne : id ≠ v) (s : Lib) (hs : Good s)
    (hi : (id, k) ∈ s.opened) (hj : (v, k) ∈ s.opened) :
    let r := (do
      let c ← (HIDCloser.mk id (some k)).reset v
      c.close : M HIDCloser) s
    r.2.wrong = s.wrong ∧ r.2.opened = (s.opened.erase (id, k)).erase (v, k) ∧ (id, k) ∉ r.2.opened ∧ (v, k) ∉ r.2.opened := by
  have hj' : (v, k) ∈ s.opened.erase (id, k) := (List.mem_erase_of_ne (by simp [Ne.symm hne])).2 hj
  have e : ((do
      let c ← (HIDCloser.mk id (some k)).reset v
      c.close : M HIDCloser) s).2 = { s with opened := (s.opened.erase (id, k)).erase (v, k) } := by
    have h1 : ¬ id = 0 := by omega
    have h2 : ¬ v = 0 := by omega
    simp [HIDCloser.reset, HIDCloser.close, close, bind, StateT.bind, pure, StateT.pure, show 0 ≤ id by omega, show 0 ≤ v by omega, h1, h2, hi, hj']
  intro r
  have e' : r.2 = _ := e
  rw [e']
  refine ⟨rfl, rfl, fun hm => ?_, fun hm => ?_⟩
  · exact (hs.nodup.mem_erase_iff.1 (List.mem_of_mem_erase hm)).1 rfl
  · exact ((hs.nodup.erase _).mem_erase_iff.1 hm).1 rfl

/-- A moved `HIDCloser` (nothing in this code moves one) never closes its identifier: the closer is not moved. -/
theorem C78_move_false (k : Kind) (id : Int) (s : Lib) (hi : (id, k) ∈ s.opened) :
    let r := (do
      let (new, old) ← HIDCloser.moveNew ⟨id, some k⟩
      let _ ← new.close
      old.close : M HIDCloser) s
    (id, k) ∈ r.2.opened ∧ r.2.opened = s.opened := by
  refine ⟨?_, ?_⟩ <;>
  simp [HIDCloser.moveNew, HIDCloser.moveAssign, HIDCloser.close, bind, StateT.bind, pure, StateT.pure, hi]

/-- An object with two string attributes leaves two identifiers of types; one whose seventh call fails leaves nothing. -/
example :
    let s : Lib := { oracle := fun _ => 1, opened := [(1, .file)], next := 2, handler := 7 }
    Good s ∧ (∀ n, 0 ≤ s.oracle n) ∧
    (life [.readData true, .setAttributeString, .updateData, .setAttributeString, .children] s).2.opened.map (·.2) =
      [.type, .type, .file] ∧
    (life [.readData true, .createDataSet true, .createDataSet false, .updateData, .close, .isDataSet]
      { s with oracle := fun n => if n = 6 then -1 else 1 }).2.opened = [(1, .file)] :=
  ⟨⟨by decide, by decide, by decide, rfl⟩, fun _ => by dsimp only; omega, by decide +kernel, by decide +kernel⟩

end Stempy.Handles
