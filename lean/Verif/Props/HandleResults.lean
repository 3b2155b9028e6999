import Verif.Props.Handles

/-!
# C103: the results of the calls of h5cpp

`s.oracle (s.calls + i)` is the result of call number `i` of a function.
-/

set_option linter.unusedSimpArgs false

namespace Stempy.Handles

/-- The result and the number of calls to the library so far. -/
def ev {α : Type} (m : M α) (s : Lib) : α × Nat := ((m s).1, (m s).2.calls)

theorem ev_pure {α : Type} (a : α) (s : Lib) : ev (pure a : M α) s = (a, s.calls) := rfl

theorem ev_call {α : Type} (ids : List Int) (f : Int → M α) (s : Lib) :
    ev (call ids >>= f) s = ev (f (if valid ids then s.oracle s.calls else -1)) { s with calls := s.calls + 1 } := rfl

theorem ev_make {α : Type} (k : Kind) (ids : List Int) (f : Int → M α) (s : Lib) :
    ev (make k ids >>= f) s =
      if 0 ≤ s.oracle s.calls ∧ valid ids = true then ev (f s.next) { s with calls := s.calls + 1, next := s.next + 1, opened := (s.next, k) :: s.opened }
      else ev (f (-1)) { s with calls := s.calls + 1 } := by
  unfold ev
  rw [make_bind]
  by_cases h : s.oracle s.calls < 0 ∨ valid ids = false
  · rw [if_pos h, if_neg]
    rintro ⟨h1, h2⟩
    rcases h with h | h
    · omega
    · rw [h] at h2; cases h2
  · rw [if_neg h, if_pos]
    · rfl
    · exact ⟨by omega, by simpa using fun e => h (Or.inr e)⟩

theorem ev_within {α : Type} (k : Kind) (id : Int) (m : M α) (s : Lib) : ev (within k id m) s = ev m s := by
  show ((m s).1, (closeValid k id (m s).2).2.calls) = _
  unfold ev
  congr 1
  unfold closeValid
  split
  · show (close k id (m s).2).2.calls = _
    unfold close
    split
    · rfl
    · split <;> rfl
  · rfl

theorem ev_fileIsValid {α : Type} (f : Bool → M α) (s : Lib) : ev (fileIsValid >>= f) s = ev (f (decide (0 ≤ s.fileId))) s := rfl

theorem ev_fileId {α : Type} (f : Int → M α) (s : Lib) : ev (fileId >>= f) s = ev (f s.fileId) s := rfl

theorem ev_ite {α : Type} {c : Prop} [Decidable c] (a b : M α) (s : Lib) : ev (if c then a else b) s = if c then ev a s else ev b s := by
  split <;> rfl

theorem ev_bind_ite {α β : Type} {c : Prop} [Decidable c] (a b : M α) (f : α → M β) (s : Lib) :
    ev ((if c then a else b) >>= f) s = if c then ev (a >>= f) s else ev (b >>= f) s := by
  split <;> rfl

theorem ev_close {α : Type} (k : Kind) (id : Int) (a : α) (s : Lib) : ev (close k id >>= fun _ => pure a) s = (a, s.calls) := by
  show (a, (close k id s).2.calls) = _
  unfold close
  split
  · rfl
  · split <;> rfl

/-- The state after `isDataSet`, but for the number of calls. -/
theorem ev_isDataSet {α : Type} (f : Bool → M α) (s : Lib) (hs : s.handlingOff = false) :
    ev (isDataSet >>= f) s = if 0 ≤ s.fileId then
        if 0 ≤ s.oracle s.calls then ev (f (decide (s.oracle (s.calls + 1) = 0))) { s with calls := s.calls + 2, saved := 0 }
        else ev (f false) { s with calls := s.calls + 1, saved := 0 }
      else ev (f false) { s with saved := 0 } := by
  show ev (f (isDataSet s).1) (isDataSet s).2 = _
  by_cases hv : 0 ≤ s.fileId <;> by_cases hc : 0 ≤ s.oracle s.calls <;>
    simp [isDataSet, turnOffErrors, turnOnErrors, getInfoByName, fileIsValid, call, valid, bind, StateT.bind, pure, StateT.pure, hs,
        hv, hc]

/-- Call number `i` of a function succeeds. -/
def Ok (s : Lib) (i : Nat) : Prop := 0 ≤ s.oracle (s.calls + i)

instance (s : Lib) (i : Nat) : Decidable (Ok s i) := inferInstanceAs (Decidable (0 ≤ _))

/-- A function which returns `true` has made `k` calls. -/
def Made (m : M Bool) (s : Lib) (k : Nat) : Prop := (m s).1 = true → (m s).2.calls = s.calls + k

/-- Evaluates a function in a state with the next identifier above zero. -/
macro "evaluate" h:ident : tactic => `(tactic|
  (have e0 := Int.le_of_lt $h
   have e1 := Int.le_add_one e0
   have e2 := Int.le_add_one e1
   have e3 := Int.le_add_one e2
   have e4 := Int.le_add_one e3
   simp only [bind_assoc, pure_bind, ev_bind_ite, ev_fileIsValid, ev_fileId, ev_ite, ev_make, ev_call, ev_within, ev_close, ev_pure, valid, List.all_cons, List.all_nil, Bool.and_true,
     Nat.add_assoc, Nat.reduceAdd, e0, e1, e2, e3, e4, decide_true, Bool.and_self, if_true, and_true, Bool.and_eq_true, decide_eq_true_eq, Int.reduceLE, decide_false, Bool.false_and, Bool.false_eq_true,
     Bool.and_false, and_false, if_false, ite_self, Int.reduceNeg, Int.reduceLT]))

theorem writeData_results (s : Lib) (hn : 0 < s.next) :
    (((writeData) s).1 = true ↔ 0 ≤ s.fileId ∧ Ok s 0 ∧ Ok s 1 ∧ Ok s 2 ∧ Ok s 3) ∧ Made (writeData) s 4 := by
  show ((ev (writeData) s).1 = true ↔ _) ∧ ((ev (writeData) s).1 = true → (ev (writeData) s).2 = _)
  simp only [writeData, Ok]
  evaluate hn
  repeat' split
  all_goals (simp only [decide_eq_true_eq, Bool.false_eq_true, Nat.add_zero, false_implies, and_true, implies_true, false_iff, true_iff]; try omega)

theorem attributeExists_results (s : Lib) (hn : 0 < s.next) :
    (((attributeExists) s).1 = true ↔ 0 ≤ s.fileId ∧ 0 < s.oracle (s.calls + 0)) ∧ Made (attributeExists) s 1 := by
  show ((ev (attributeExists) s).1 = true ↔ _) ∧ ((ev (attributeExists) s).1 = true → (ev (attributeExists) s).2 = _)
  simp only [attributeExists]
  evaluate hn
  repeat' split
  all_goals (simp only [decide_eq_true_eq, Bool.false_eq_true, Nat.add_zero, false_implies, and_true, implies_true, false_iff, true_iff]; try omega)

theorem hasAttribute_results (s : Lib) (hn : 0 < s.next) :
    (((hasAttribute) s).1 = true ↔ 0 ≤ s.fileId ∧ Ok s 0 ∧ 0 < s.oracle (s.calls + 1)) ∧ Made (hasAttribute) s 2 := by
  show ((ev (hasAttribute) s).1 = true ↔ _) ∧ ((ev (hasAttribute) s).1 = true → (ev (hasAttribute) s).2 = _)
  simp only [hasAttribute, getInfoByName, Ok]
  evaluate hn
  repeat' split
  all_goals (simp only [decide_eq_true_eq, Bool.false_eq_true, Nat.add_zero, false_implies, and_true, implies_true, false_iff, true_iff]; try omega)

theorem isDataSet_results (s : Lib) (hn : 0 < s.next) (hs : s.handlingOff = false) :
    (((isDataSet >>= pure) s).1 = true ↔ 0 ≤ s.fileId ∧ Ok s 0 ∧ s.oracle (s.calls + 1) = 0) ∧ Made (isDataSet >>= pure) s 2 := by
  show ((ev (isDataSet >>= pure) s).1 = true ↔ _) ∧ ((ev (isDataSet >>= pure) s).1 = true → (ev (isDataSet >>= pure) s).2 = _)
  simp only [Ok]
  rw [ev_isDataSet _ _ hs]
  evaluate hn
  repeat' split
  all_goals (simp only [decide_eq_true_eq, Bool.false_eq_true, Nat.add_zero, false_implies, and_true, implies_true, false_iff, true_iff]; try omega)

theorem attributeValue_results (s : Lib) (hn : 0 < s.next) :
    (((attributeValue) s).1 = true ↔ 0 ≤ s.fileId ∧ 0 < s.oracle (s.calls + 0) ∧ Ok s 1 ∧ Ok s 2 ∧ s.oracle (s.calls + 3) ≠ 0 ∧ Ok s 4 ∧ Ok s 5) ∧ Made (attributeValue) s 6 := by
  show ((ev (attributeValue) s).1 = true ↔ _) ∧ ((ev (attributeValue) s).1 = true → (ev (attributeValue) s).2 = _)
  simp only [attributeValue, attributeExists, Ok]
  evaluate hn
  repeat' split
  all_goals (simp only [decide_eq_true_eq, Bool.false_eq_true, Nat.add_zero, false_implies, and_true, implies_true, false_iff, true_iff]; try omega)

theorem attributeString_results (s : Lib) (hn : 0 < s.next) :
    (((attributeString) s).1 = true ↔ 0 ≤ s.fileId ∧ 0 < s.oracle (s.calls + 0) ∧ Ok s 1 ∧ Ok s 2 ∧ s.oracle (s.calls + 3) = 3 ∧ (0 < s.oracle (s.calls + 4) ∧ Ok s 5 ∨ s.oracle (s.calls + 4) = 0 ∧ s.oracle (s.calls + 5) ≠ 0 ∧ Ok s 6)) ∧ Made (attributeString) s (if 0 < s.oracle (s.calls + 4) then 6 else 7) := by
  show ((ev (attributeString) s).1 = true ↔ _) ∧ ((ev (attributeString) s).1 = true → (ev (attributeString) s).2 = _)
  simp only [attributeString, attributeExists, Ok]
  evaluate hn
  repeat' split
  all_goals (simp only [decide_eq_true_eq, Bool.false_eq_true, Nat.add_zero, false_implies, and_true, implies_true, false_iff, true_iff]; try omega)

theorem createDataSet_results (s : Lib) (hn : 0 < s.next) :
    (((createDataSet false) s).1 = true ↔ 0 ≤ s.fileId ∧ Ok s 0 ∧ Ok s 1 ∧ Ok s 2) ∧ Made (createDataSet false) s 3 := by
  show ((ev (createDataSet false) s).1 = true ↔ _) ∧ ((ev (createDataSet false) s).1 = true → (ev (createDataSet false) s).2 = _)
  simp only [createDataSet, Ok]
  evaluate hn
  repeat' split
  all_goals (simp only [decide_eq_true_eq, Bool.false_eq_true, Nat.add_zero, false_implies, and_true, implies_true, false_iff, true_iff]; try omega)

theorem createChunked_results (s : Lib) (hn : 0 < s.next) :
    (((createDataSet true) s).1 = true ↔ 0 ≤ s.fileId ∧ Ok s 0 ∧ Ok s 1 ∧ Ok s 3 ∧ Ok s 4) ∧ Made (createDataSet true) s 5 := by
  show ((ev (createDataSet true) s).1 = true ↔ _) ∧ ((ev (createDataSet true) s).1 = true → (ev (createDataSet true) s).2 = _)
  simp only [createDataSet, Ok]
  evaluate hn
  repeat' split
  all_goals (simp only [decide_eq_true_eq, Bool.false_eq_true, Nat.add_zero, false_implies, and_true, implies_true, false_iff, true_iff]; try omega)

theorem updateData_results (s : Lib) (hn : 0 < s.next) :
    (((updateData) s).1 = true ↔ 0 ≤ s.fileId ∧ Ok s 0 ∧ Ok s 1 ∧ Ok s 2 ∧ Ok s 3 ∧ Ok s 4) ∧ Made (updateData) s 5 := by
  show ((ev (updateData) s).1 = true ↔ _) ∧ ((ev (updateData) s).1 = true → (ev (updateData) s).2 = _)
  simp only [updateData, Ok]
  evaluate hn
  repeat' split
  all_goals (simp only [decide_eq_true_eq, Bool.false_eq_true, Nat.add_zero, false_implies, and_true, implies_true, false_iff, true_iff]; try omega)

theorem getDimensions_results (s : Lib) (hn : 0 < s.next) (hs : s.handlingOff = false) :
    (((getDimensions) s).1 = true ↔ 0 ≤ s.fileId ∧ Ok s 0 ∧ s.oracle (s.calls + 1) = 0 ∧ Ok s 2 ∧ Ok s 3 ∧ 0 < s.oracle (s.calls + 4) ∧ s.oracle (s.calls + 4) = s.oracle (s.calls + 5)) ∧ Made (getDimensions) s 6 := by
  show ((ev (getDimensions) s).1 = true ↔ _) ∧ ((ev (getDimensions) s).1 = true → (ev (getDimensions) s).2 = _)
  simp only [getDimensions, Ok]
  rw [ev_isDataSet _ _ hs]
  evaluate hn
  repeat' split
  all_goals (simp only [decide_eq_true_eq, Bool.false_eq_true, Nat.add_zero, false_implies, and_true, implies_true, false_iff, true_iff]; try omega)

theorem readData_results (s : Lib) (hn : 0 < s.next) :
    (((readData false) s).1 = true ↔ 0 ≤ s.fileId ∧ Ok s 0 ∧ Ok s 1 ∧ Ok s 2 ∧ s.oracle (s.calls + 3) ≠ 0 ∧ Ok s 4 ∧ Ok s 5) ∧ Made (readData false) s 6 := by
  show ((ev (readData false) s).1 = true ↔ _) ∧ ((ev (readData false) s).1 = true → (ev (readData false) s).2 = _)
  simp only [readData, Ok]
  evaluate hn
  repeat' split
  all_goals (simp only [decide_eq_true_eq, Bool.false_eq_true, Nat.add_zero, false_implies, and_true, implies_true, false_iff, true_iff]; try omega)

theorem allDataSets_results (s : Lib) (hn : 0 < s.next) :
    (((allDataSets false) s).1 = true ↔ 0 ≤ s.fileId ∧ Ok s 0 ∧ Ok s 1) ∧ Made (allDataSets false) s 2 := by
  show ((ev (allDataSets false) s).1 = true ↔ _) ∧ ((ev (allDataSets false) s).1 = true → (ev (allDataSets false) s).2 = _)
  simp only [allDataSets, Ok]
  evaluate hn
  repeat' split
  all_goals (simp only [decide_eq_true_eq, Bool.false_eq_true, Nat.add_zero, false_implies, and_true, implies_true, false_iff, true_iff]; try omega)

theorem allDataSetsRoot_results (s : Lib) (hn : 0 < s.next) :
    (((allDataSets true) s).1 = true ↔ 0 ≤ s.fileId ∧ Ok s 0) ∧ Made (allDataSets true) s 1 := by
  show ((ev (allDataSets true) s).1 = true ↔ _) ∧ ((ev (allDataSets true) s).1 = true → (ev (allDataSets true) s).2 = _)
  simp only [allDataSets, Ok]
  evaluate hn
  repeat' split
  all_goals (simp only [decide_eq_true_eq, Bool.false_eq_true, Nat.add_zero, false_implies, and_true, implies_true, false_iff, true_iff]; try omega)

theorem createGroup_results (s : Lib) (hn : 0 < s.next) :
    (((createGroup) s).1 = true ↔ 0 ≤ s.fileId ∧ Ok s 0) ∧ Made (createGroup) s 1 := by
  show ((ev (createGroup) s).1 = true ↔ _) ∧ ((ev (createGroup) s).1 = true → (ev (createGroup) s).2 = _)
  simp only [createGroup, Ok]
  evaluate hn
  repeat' split
  all_goals (simp only [decide_eq_true_eq, Bool.false_eq_true, Nat.add_zero, false_implies, and_true, implies_true, false_iff, true_iff]; try omega)

theorem setAttribute_results (s : Lib) (hn : 0 < s.next) (hs : s.handlingOff = false) :
    ((setAttribute s).1 = true ↔ 0 ≤ s.fileId ∧
      ((Ok s 0 ∧ Ok s 2 ∧ Ok s 3 ∧ Ok s 4 ∧ Ok s 5) ∨ (¬ Ok s 0 ∧ Ok s 1 ∧ Ok s 2 ∧ Ok s 3 ∧ Ok s 4))) ∧
      Made setAttribute s (if 0 ≤ s.oracle s.calls then 6 else 5) := by
  show ((ev setAttribute s).1 = true ↔ _) ∧ ((ev setAttribute s).1 = true → (ev setAttribute s).2 = _)
  simp only [setAttribute, Ok, ev_fileIsValid, ev_ite, ev_isDataSet _ _ hs]
  evaluate hn
  repeat' split
  all_goals (simp only [decide_eq_true_eq, Bool.false_eq_true, Nat.add_zero, false_implies, and_true, implies_true, false_iff, true_iff]; try omega)

theorem setAttributeString_results (s : Lib) (hn : 0 < s.next) (hs : s.handlingOff = false) :
    ((setAttributeString s).1 = true ↔ 0 ≤ s.fileId ∧
      ((Ok s 0 ∧ Ok s 2 ∧ Ok s 3 ∧ Ok s 4 ∧ Ok s 5 ∧ Ok s 6 ∧ Ok s 7) ∨
        (¬ Ok s 0 ∧ Ok s 1 ∧ Ok s 2 ∧ Ok s 3 ∧ Ok s 4 ∧ Ok s 5 ∧ Ok s 6))) ∧
      Made setAttributeString s (if 0 ≤ s.oracle s.calls then 8 else 7) := by
  show ((ev setAttributeString s).1 = true ↔ _) ∧ ((ev setAttributeString s).1 = true → (ev setAttributeString s).2 = _)
  simp only [setAttributeString, Ok, ev_fileIsValid, ev_ite, ev_isDataSet _ _ hs]
  evaluate hn
  repeat' split
  all_goals (simp only [decide_eq_true_eq, Bool.false_eq_true, Nat.add_zero, false_implies, and_true, implies_true, false_iff, true_iff]; try omega)

theorem ev_findType (type : Int) (n : Nat) (s : Lib) :
    (ev (attributeType.findType type n) s).1 = true ↔ if 0 ≤ type then ∃ i < n, s.oracle (s.calls + i) ≠ 0 else 0 < n := by
  induction n generalizing s with
  | zero => simp [attributeType.findType, ev_pure]
  | succ n ih =>
    rw [attributeType.findType, ev_call, ev_ite]
    by_cases h : 0 ≤ type
    · simp only [valid, List.all_cons, List.all_nil, h, decide_true, Bool.and_self, if_true]
      by_cases h0 : s.oracle s.calls = 0
      · rw [if_neg (by simpa using h0), ih]
        simp only [h, if_true]
        constructor
        · rintro ⟨i, hi, h⟩
          exact ⟨i + 1, by omega, by rwa [show s.calls + (i + 1) = s.calls + 1 + i by omega]⟩
        · rintro ⟨i, hi, h⟩
          cases i with
          | zero => exact absurd h0 h
          | succ i => exact ⟨i, by omega, by rwa [show s.calls + 1 + i = s.calls + (i + 1) by omega]⟩
      · rw [if_pos h0]
        exact iff_of_true rfl ⟨0, by omega, h0⟩
    · simp [valid, h, ev_pure]

theorem attributeType_results (s : Lib) (hn : 0 < s.next) :
    (attributeType s).1 = true ↔ 0 ≤ s.fileId ∧ 0 < s.oracle (s.calls + 0) ∧
      (Ok s 1 → Ok s 2 → s.oracle (s.calls + 3) = 3 ∨ ∃ i < 10, s.oracle (s.calls + (4 + i)) ≠ 0) := by
  show (ev attributeType s).1 = true ↔ _
  simp only [attributeType, attributeExists, Ok]
  evaluate hn
  repeat' split
  all_goals (simp only [ev_findType, Nat.add_zero, ev_pure, Nat.add_assoc, Bool.false_eq_true] at *)
  all_goals (try simp [*])

theorem dataType_results (s : Lib) (hn : 0 < s.next) (hs : s.handlingOff = false) :
    (dataType s).1 = true ↔ 0 ≤ s.fileId ∧ Ok s 0 ∧ s.oracle (s.calls + 1) = 0 ∧ Ok s 2 ∧
      (Ok s 3 → ∃ i < 10, s.oracle (s.calls + (4 + i)) ≠ 0) := by
  show (ev dataType s).1 = true ↔ _
  simp only [dataType, Ok, ev_isDataSet _ _ hs]
  evaluate hn
  repeat' split
  all_goals (simp only [ev_findType, Nat.add_zero, ev_pure, Nat.add_assoc, Bool.false_eq_true] at *)
  all_goals (try simp [*]) <;> try omega

theorem ev_repeat {α : Type} (ids : List Int) (l : List Nat) (a : α) (s : Lib) :
    ev (do
      for _ in l do
        let _ ← call ids
      pure a : M α) s = (a, s.calls + l.length) := by
  induction l generalizing s with
  | nil => rfl
  | cons x l ih =>
    simp only [List.forIn_cons, bind_assoc, pure_bind]
    rw [ev_call, ih]
    simp only [List.length_cons]
    rw [show s.calls + 1 + l.length = s.calls + (l.length + 1) by omega]

theorem children_results (s : Lib) (hn : 0 < s.next) :
    ((children s).1 = true ↔ 0 ≤ s.fileId ∧ Ok s 0) ∧
      Made children s (2 + (s.oracle (s.calls + 1)).toNat) := by
  show ((ev children s).1 = true ↔ _) ∧ ((ev children s).1 = true → (ev children s).2 = _)
  simp only [children, Ok]
  evaluate hn
  simp only [ev_repeat]
  repeat' split
  all_goals simp_all
  all_goals omega

/-- The number of calls in `getDimensions` if the first one has number `i`. -/
def dimensionCalls (s : Lib) (i : Nat) : Nat :=
  if ¬ Ok s i then 1 else if s.oracle (s.calls + (i + 1)) ≠ 0 then 2 else if ¬ Ok s (i + 2) then 3 else if ¬ Ok s (i + 3) then 4
  else if s.oracle (s.calls + (i + 4)) < 1 then 5 else 6

theorem getDimensions_calls (s : Lib) (hn : 0 < s.next) (hs : s.handlingOff = false) (hf : 0 ≤ s.fileId) :
    (getDimensions s).2.calls = s.calls + dimensionCalls s 0 := by
  show (ev getDimensions s).2 = _
  simp only [getDimensions, dimensionCalls, Ok]
  rw [ev_isDataSet _ _ hs]
  evaluate hn
  have n0 : ¬ s.next < 0 := by omega
  have n1 : ¬ s.next + 1 < 0 := by omega
  simp only [Nat.add_zero, ne_eq, hf, if_true, n0, n1, if_false]
  by_cases h0 : 0 ≤ s.oracle s.calls <;> by_cases h1 : s.oracle (s.calls + 1) = 0 <;> by_cases h2 : 0 ≤ s.oracle (s.calls + 2) <;>
    by_cases h3 : 0 ≤ s.oracle (s.calls + 3) <;> by_cases h4 : s.oracle (s.calls + 4) < 1 <;> simp [h0, h1, h2, h3, h4]

theorem ev_bind {α β : Type} (m : M α) (f : α → M β) (s : Lib) : ev (m >>= f) s = ev (f (m s).1) (m s).2 := rfl

theorem readSelected_results (s : Lib) (h : Good s) :
    let c := 2 + dimensionCalls s 2
    (((readData true) s).1 = true ↔ 0 ≤ s.fileId ∧ Ok s 0 ∧ Ok s 1 ∧ Ok s (c + 1) ∧ Ok s (c + 2) ∧
      s.oracle (s.calls + (c + 3)) ≠ 0 ∧ Ok s (c + 4) ∧ Ok s (c + 5)) ∧ Made (readData true) s (c + 6) := by
  intro c
  show ((ev (readData true) s).1 = true ↔ _) ∧ ((ev (readData true) s).1 = true → (ev (readData true) s).2 = _)
  have hn := h.pos
  have e0 := Int.le_of_lt hn
  have e1 := Int.le_add_one e0
  simp only [readData, ev_fileId, ev_make, valid, List.all_cons, List.all_nil, Bool.and_true, decide_eq_true_eq, ev_within, ev_pure, e0,
    decide_true, and_true, if_neg (Int.not_lt.2 e0), if_neg (Int.not_lt.2 e1), if_true, Int.reduceNeg, Int.reduceLT]
  by_cases hf : 0 ≤ s.fileId
  swap
  · simp [hf]
  by_cases h0 : 0 ≤ s.oracle s.calls
  swap
  · simp [hf, h0, Ok]
  by_cases h1 : 0 ≤ s.oracle (s.calls + 1)
  swap
  · simp [hf, h0, h1, Ok]
  simp only [hf, h0, h1, Ok, and_true, true_and, if_true, Nat.add_zero]
  have g2 := good_made (k := .space) (good_made (k := .dataset) h)
  have hm : made .space (made .dataset s) = { s with
      calls := s.calls + 1 + 1, next := s.next + 1 + 1, opened := (s.next + 1, .space) :: (s.next, .dataset) :: s.opened } := rfl
  rw [ev_bind getDimensions]
  obtain ⟨-, same, good⟩ := owns_getDimensions _ _ g2 (List.Perm.refl _)
  have hc := getDimensions_calls _ g2.pos g2.on (by exact hf)
  rw [hm] at same good hc
  have hd : dimensionCalls { s with
      calls := s.calls + 1 + 1, next := s.next + 1 + 1, opened := (s.next + 1, .space) :: (s.next, .dataset) :: s.opened } 0 =
      dimensionCalls s 2 := rfl
  rw [hd] at hc
  generalize hg : (getDimensions _).2 = s' at same good hc ⊢
  have ho := same.oracle
  have hp := good.pos
  simp only at hc ho
  have hc' : s'.calls = s.calls + c := by rw [hc]; simp only [c]; omega
  evaluate hp
  simp only [ho, hc', Nat.add_assoc, e1, if_true, and_true, e0]
  repeat' split
  all_goals (simp only [decide_eq_true_eq, Bool.false_eq_true, Nat.add_zero, false_implies, and_true, implies_true, false_iff, true_iff]; try omega)

/-- The results of the library with which a function reports success, if the file is open. `close` reports nothing. -/
def Call.Succeeds (s : Lib) : Call → Prop
  | .attributeExists => 0 < s.oracle s.calls
  | .hasAttribute => Ok s 0 ∧ 0 < s.oracle (s.calls + 1)
  | .isDataSet => Ok s 0 ∧ s.oracle (s.calls + 1) = 0
  | .isGroup => Ok s 0 ∧ s.oracle (s.calls + 1) = 0
  | .attribute => 0 < s.oracle s.calls ∧ Ok s 1 ∧ Ok s 2 ∧ s.oracle (s.calls + 3) ≠ 0 ∧ Ok s 4 ∧ Ok s 5
  | .attributeString => 0 < s.oracle s.calls ∧ Ok s 1 ∧ Ok s 2 ∧ s.oracle (s.calls + 3) = 3 ∧
      (0 < s.oracle (s.calls + 4) ∧ Ok s 5 ∨ s.oracle (s.calls + 4) = 0 ∧ s.oracle (s.calls + 5) ≠ 0 ∧ Ok s 6)
  | .attributeType => 0 < s.oracle s.calls ∧
      (Ok s 1 → Ok s 2 → s.oracle (s.calls + 3) = 3 ∨ ∃ i < 10, s.oracle (s.calls + (4 + i)) ≠ 0)
  | .setAttribute => (Ok s 0 ∧ Ok s 2 ∧ Ok s 3 ∧ Ok s 4 ∧ Ok s 5) ∨ (¬ Ok s 0 ∧ Ok s 1 ∧ Ok s 2 ∧ Ok s 3 ∧ Ok s 4)
  | .setAttributeString => (Ok s 0 ∧ Ok s 2 ∧ Ok s 3 ∧ Ok s 4 ∧ Ok s 5 ∧ Ok s 6 ∧ Ok s 7) ∨
      (¬ Ok s 0 ∧ Ok s 1 ∧ Ok s 2 ∧ Ok s 3 ∧ Ok s 4 ∧ Ok s 5 ∧ Ok s 6)
  | .writeData => Ok s 0 ∧ Ok s 1 ∧ Ok s 2 ∧ Ok s 3
  | .createDataSet false => Ok s 0 ∧ Ok s 1 ∧ Ok s 2
  | .createDataSet true => Ok s 0 ∧ Ok s 1 ∧ Ok s 3 ∧ Ok s 4
  | .updateData => Ok s 0 ∧ Ok s 1 ∧ Ok s 2 ∧ Ok s 3 ∧ Ok s 4
  | .getDimensions => Ok s 0 ∧ s.oracle (s.calls + 1) = 0 ∧ Ok s 2 ∧ Ok s 3 ∧ 0 < s.oracle (s.calls + 4) ∧
      s.oracle (s.calls + 4) = s.oracle (s.calls + 5)
  | .readData false => Ok s 0 ∧ Ok s 1 ∧ Ok s 2 ∧ s.oracle (s.calls + 3) ≠ 0 ∧ Ok s 4 ∧ Ok s 5
  | .readData true => Ok s 0 ∧ Ok s 1 ∧ Ok s (2 + dimensionCalls s 2 + 1) ∧ Ok s (2 + dimensionCalls s 2 + 2) ∧
      s.oracle (s.calls + (2 + dimensionCalls s 2 + 3)) ≠ 0 ∧ Ok s (2 + dimensionCalls s 2 + 4) ∧ Ok s (2 + dimensionCalls s 2 + 5)
  | .allDataSets false => Ok s 0 ∧ Ok s 1
  | .allDataSets true => Ok s 0
  | .children => Ok s 0
  | .dataType => Ok s 0 ∧ s.oracle (s.calls + 1) = 0 ∧ Ok s 2 ∧ (Ok s 3 → ∃ i < 10, s.oracle (s.calls + (4 + i)) ≠ 0)
  | .createGroup => Ok s 0
  | .close => True

/-- C103: when exactly a function reports success, whatever the library answers. -/
theorem C103_exact (c : Call) (hc : c ≠ .close) (s : Lib) (h : Good s) :
    (c.run s).1 = true ↔ 0 ≤ s.fileId ∧ c.Succeeds s := by
  have hn := h.pos
  have hs := h.on
  cases c with
  | attributeExists => exact (attributeExists_results s hn).1
  | hasAttribute => exact (hasAttribute_results s hn).1
  | isDataSet => exact (isDataSet_results s hn hs).1
  | isGroup => exact (isDataSet_results s hn hs).1
  | «attribute» => exact (attributeValue_results s hn).1
  | attributeString => exact (attributeString_results s hn).1
  | attributeType => exact attributeType_results s hn
  | setAttribute => exact (setAttribute_results s hn hs).1
  | setAttributeString => exact (setAttributeString_results s hn hs).1
  | writeData => exact (writeData_results s hn).1
  | createDataSet ch => cases ch with
    | false => exact (createDataSet_results s hn).1
    | true => exact (createChunked_results s hn).1
  | updateData => exact (updateData_results s hn).1
  | getDimensions => exact (getDimensions_results s hn hs).1
  | readData se => cases se with
    | false => exact (readData_results s hn).1
    | true => exact (readSelected_results s h).1
  | allDataSets r => cases r with
    | false => exact (allDataSets_results s hn).1
    | true => exact (allDataSetsRoot_results s hn).1
  | children => exact (children_results s hn).1
  | dataType => exact dataType_results s hn hs
  | createGroup => exact (createGroup_results s hn).1
  | close => exact absurd rfl hc

/-- The functions which look at the results of all their calls. -/
def Call.checks : Call → Bool
  | .attributeType | .dataType | .children | .createDataSet true | .readData true | .setAttribute | .setAttributeString | .close => false
  | _ => true

theorem range_ok {s : Lib} {k n : Nat} (hn : n < s.calls + k) (hl : s.calls ≤ n) (P : Nat → Prop) (h : ∀ i < k, P (s.calls + i)) :
    P n := by
  have := h (n - s.calls) (by omega)
  rwa [show s.calls + (n - s.calls) = n by omega] at this

/-- C103: these functions report success only if every call they made succeeded. `attribute` and `readData` ask twice whether the
types are equal; if the answers agree, the second test finds the failure of both.
The size of a string is unsigned. -/
theorem C103_true_partial (c : Call) (hc : c.checks = true) (s : Lib) (h : Good s)
    (ha : c = .attribute ∨ c = .readData false → s.oracle (s.calls + 3) < 0 → s.oracle (s.calls + 4) < 0)
    (hz : c = .attributeString → s.oracle (s.calls + 4) = 0 → 0 ≤ s.oracle (s.calls + 5))
    (ht : (c.run s).1 = true) : 0 ≤ s.fileId ∧ ∀ n, s.calls ≤ n → n < (c.run s).2.calls → 0 ≤ s.oracle n := by
  have hne : c ≠ .close := by rintro rfl; simp [Call.checks] at hc
  have hx := (C103_exact c hne s h).1 ht
  refine ⟨hx.1, fun n hl hu => ?_⟩
  have hk := hx.2
  have hn := h.pos
  have hs := h.on
  cases c with
  | attributeExists =>
    rw [show (Call.attributeExists.run s).2.calls = _ from (attributeExists_results s hn).2 ht] at hu
    simp only [Call.Succeeds, Ok] at hk
    have : n = s.calls := by omega
    subst this; omega
  | hasAttribute =>
    rw [show (Call.hasAttribute.run s).2.calls = _ from (hasAttribute_results s hn).2 ht] at hu
    simp only [Call.Succeeds, Ok] at hk
    refine range_ok hu hl (0 ≤ s.oracle ·) fun i hi => ?_
    have : i = 0 ∨ i = 1 := by omega
    rcases this with rfl | rfl <;> (try simp only [Nat.add_zero, true_or, true_and] at *) <;> omega
  | isDataSet =>
    rw [show (Call.isDataSet.run s).2.calls = _ from (isDataSet_results s hn hs).2 ht] at hu
    simp only [Call.Succeeds, Ok] at hk
    refine range_ok hu hl (0 ≤ s.oracle ·) fun i hi => ?_
    have : i = 0 ∨ i = 1 := by omega
    rcases this with rfl | rfl <;> (try simp only [Nat.add_zero, true_or, true_and] at *) <;> omega
  | isGroup =>
    rw [show (Call.isGroup.run s).2.calls = _ from (isDataSet_results s hn hs).2 ht] at hu
    simp only [Call.Succeeds, Ok] at hk
    refine range_ok hu hl (0 ≤ s.oracle ·) fun i hi => ?_
    have : i = 0 ∨ i = 1 := by omega
    rcases this with rfl | rfl <;> (try simp only [Nat.add_zero, true_or, true_and] at *) <;> omega
  | «attribute» =>
    rw [show (Call.attribute.run s).2.calls = _ from (attributeValue_results s hn).2 ht] at hu
    simp only [Call.Succeeds, Ok] at hk
    have ha' := ha (Or.inl rfl)
    refine range_ok hu hl (0 ≤ s.oracle ·) fun i hi => ?_
    have : i = 0 ∨ i = 1 ∨ i = 2 ∨ i = 3 ∨ i = 4 ∨ i = 5 := by omega
    rcases this with rfl | rfl | rfl | rfl | rfl | rfl <;> (try simp only [Nat.add_zero, true_or, true_and] at *) <;> omega
  | attributeString =>
    rw [show (Call.attributeString.run s).2.calls = _ from (attributeString_results s hn).2 ht] at hu
    simp only [Call.Succeeds, Ok] at hk
    refine range_ok hu hl (0 ≤ s.oracle ·) fun i hi => ?_
    have h7 : i < 7 := by split at hi <;> (try simp only [Nat.add_zero, true_or, true_and] at *) <;> omega
    have h6 : ¬ (i = 6 ∧ 0 < s.oracle (s.calls + 4)) := by
      rintro ⟨rfl, h4⟩
      rw [if_pos h4] at hi
      omega
    have h5 : 0 ≤ s.oracle (s.calls + 5) := by
      have := hz rfl
      omega
    have : i = 0 ∨ i = 1 ∨ i = 2 ∨ i = 3 ∨ i = 4 ∨ i = 5 ∨ i = 6 := by omega
    rcases this with rfl | rfl | rfl | rfl | rfl | rfl | rfl <;> (try simp only [Nat.add_zero, true_or, true_and] at *) <;> omega
  | writeData =>
    rw [show (Call.writeData.run s).2.calls = _ from (writeData_results s hn).2 ht] at hu
    simp only [Call.Succeeds, Ok] at hk
    refine range_ok hu hl (0 ≤ s.oracle ·) fun i hi => ?_
    have : i = 0 ∨ i = 1 ∨ i = 2 ∨ i = 3 := by omega
    rcases this with rfl | rfl | rfl | rfl <;> (try simp only [Nat.add_zero, true_or, true_and] at *) <;> omega
  | createDataSet ch =>
    cases ch with
    | true => simp [Call.checks] at hc
    | false =>
      rw [show ((Call.createDataSet false).run s).2.calls = _ from (createDataSet_results s hn).2 ht] at hu
      simp only [Call.Succeeds, Ok] at hk
      refine range_ok hu hl (0 ≤ s.oracle ·) fun i hi => ?_
      have : i = 0 ∨ i = 1 ∨ i = 2 := by omega
      rcases this with rfl | rfl | rfl <;> (try simp only [Nat.add_zero, true_or, true_and] at *) <;> omega
  | updateData =>
    rw [show (Call.updateData.run s).2.calls = _ from (updateData_results s hn).2 ht] at hu
    simp only [Call.Succeeds, Ok] at hk
    refine range_ok hu hl (0 ≤ s.oracle ·) fun i hi => ?_
    have : i = 0 ∨ i = 1 ∨ i = 2 ∨ i = 3 ∨ i = 4 := by omega
    rcases this with rfl | rfl | rfl | rfl | rfl <;> (try simp only [Nat.add_zero, true_or, true_and] at *) <;> omega
  | getDimensions =>
    rw [show (Call.getDimensions.run s).2.calls = _ from (getDimensions_results s hn hs).2 ht] at hu
    simp only [Call.Succeeds, Ok] at hk
    refine range_ok hu hl (0 ≤ s.oracle ·) fun i hi => ?_
    have : i = 0 ∨ i = 1 ∨ i = 2 ∨ i = 3 ∨ i = 4 ∨ i = 5 := by omega
    rcases this with rfl | rfl | rfl | rfl | rfl | rfl <;> (try simp only [Nat.add_zero, true_or, true_and] at *) <;> omega
  | readData se =>
    cases se with
    | true => simp [Call.checks] at hc
    | false =>
      rw [show ((Call.readData false).run s).2.calls = _ from (readData_results s hn).2 ht] at hu
      simp only [Call.Succeeds, Ok] at hk
      have ha' := ha (Or.inr rfl)
      refine range_ok hu hl (0 ≤ s.oracle ·) fun i hi => ?_
      have : i = 0 ∨ i = 1 ∨ i = 2 ∨ i = 3 ∨ i = 4 ∨ i = 5 := by omega
      rcases this with rfl | rfl | rfl | rfl | rfl | rfl <;> (try simp only [Nat.add_zero, true_or, true_and] at *) <;> omega
  | allDataSets r =>
    cases r with
    | true =>
      rw [show ((Call.allDataSets true).run s).2.calls = _ from (allDataSetsRoot_results s hn).2 ht] at hu
      simp only [Call.Succeeds, Ok] at hk
      refine range_ok hu hl (0 ≤ s.oracle ·) fun i hi => ?_
      have : i = 0 := by omega
      subst this; omega
    | false =>
      rw [show ((Call.allDataSets false).run s).2.calls = _ from (allDataSets_results s hn).2 ht] at hu
      simp only [Call.Succeeds, Ok] at hk
      refine range_ok hu hl (0 ≤ s.oracle ·) fun i hi => ?_
      have : i = 0 ∨ i = 1 := by omega
      rcases this with rfl | rfl <;> (try simp only [Nat.add_zero, true_or, true_and] at *) <;> omega
  | createGroup =>
    rw [show (Call.createGroup.run s).2.calls = _ from (createGroup_results s hn).2 ht] at hu
    simp only [Call.Succeeds, Ok] at hk
    refine range_ok hu hl (0 ≤ s.oracle ·) fun i hi => ?_
    have : i = 0 := by omega
    subst this; omega
  | attributeType => simp [Call.checks] at hc
  | dataType => simp [Call.checks] at hc
  | children => simp [Call.checks] at hc
  | setAttribute => simp [Call.checks] at hc
  | setAttributeString => simp [Call.checks] at hc
  | close => simp [Call.checks] at hc

/-- `setAttribute` reports success only if every call succeeded but the first, which asks whether the path is a data set: where it
fails the path is opened as a group. -/
theorem C103_setAttribute (s : Lib) (h : Good s) (str : Bool)
    (ht : ((if str then Call.setAttributeString else .setAttribute).run s).1 = true) :
    0 ≤ s.fileId ∧ ∀ n, s.calls ≤ n → n < ((if str then Call.setAttributeString else .setAttribute).run s).2.calls →
      n = s.calls ∨ n = s.calls + 1 ∧ 0 ≤ s.oracle s.calls ∨ 0 ≤ s.oracle n := by
  have hn := h.pos
  have hs := h.on
  cases str with
  | false =>
    simp only [Bool.false_eq_true, if_false] at ht ⊢
    have r := setAttribute_results s hn hs
    obtain ⟨h0, hk⟩ := r.1.1 ht
    refine ⟨h0, fun n hl hu => ?_⟩
    rw [show (Call.setAttribute.run s).2.calls = _ from r.2 ht] at hu
    simp only [Ok] at hk
    refine range_ok hu hl (fun n => n = s.calls ∨ n = s.calls + 1 ∧ 0 ≤ s.oracle s.calls ∨ 0 ≤ s.oracle n) fun i hi => ?_
    have : i = 0 ∨ i = 1 ∨ i = 2 ∨ i = 3 ∨ i = 4 ∨ i = 5 ∧ 0 ≤ s.oracle s.calls := by split at hi <;> (try simp only [Nat.add_zero, true_or, true_and] at *) <;> omega
    rcases this with rfl | rfl | rfl | rfl | rfl | ⟨rfl, _⟩ <;> (try simp only [Nat.add_zero, true_or, true_and] at *) <;> omega
  | true =>
    simp only [if_true] at ht ⊢
    have r := setAttributeString_results s hn hs
    obtain ⟨h0, hk⟩ := r.1.1 ht
    refine ⟨h0, fun n hl hu => ?_⟩
    rw [show (Call.setAttributeString.run s).2.calls = _ from r.2 ht] at hu
    simp only [Ok] at hk
    refine range_ok hu hl (fun n => n = s.calls ∨ n = s.calls + 1 ∧ 0 ≤ s.oracle s.calls ∨ 0 ≤ s.oracle n) fun i hi => ?_
    have : i = 0 ∨ i = 1 ∨ i = 2 ∨ i = 3 ∨ i = 4 ∨ i = 5 ∨ i = 6 ∨ i = 7 ∧ 0 ≤ s.oracle s.calls := by split at hi <;> (try simp only [Nat.add_zero, true_or, true_and] at *) <;> omega
    rcases this with rfl | rfl | rfl | rfl | rfl | rfl | rfl | ⟨rfl, _⟩ <;> (try simp only [Nat.add_zero, true_or, true_and] at *) <;> omega

/-- The functions which write. -/
def Call.writes : Call → Bool
  | .setAttribute | .setAttributeString | .writeData | .createDataSet _ | .updateData | .createGroup => true
  | _ => false

/-- A function which writes reports a failure only if a call failed. -/
theorem C103_writes (c : Call) (hc : c.writes = true) (s : Lib) (h : Good s) (hf : 0 ≤ s.fileId)
    (hok : ∀ n, s.calls ≤ n → 0 ≤ s.oracle n) : (c.run s).1 = true := by
  have ho : ∀ i, Ok s i := fun i => hok _ (by omega)
  refine (C103_exact c (by rintro rfl; simp [Call.writes] at hc) s h).2 ⟨hf, ?_⟩
  cases c with
  | createDataSet ch => cases ch <;> simp [Call.Succeeds, ho]
  | setAttribute => simp [Call.Succeeds, ho]
  | setAttributeString => simp [Call.Succeeds, ho]
  | writeData => simp [Call.Succeeds, ho]
  | updateData => simp [Call.Succeeds, ho]
  | createGroup => simp [Call.Succeeds, ho]
  | _ => simp [Call.writes] at hc

/-- C103 is false for data sets with chunks: if `H5Pset_chunk` fails (call 2), success is reported, and the data set has no chunks. -/
theorem C103_chunks_false (s : Lib) (h : Good s) (hf : 0 ≤ s.fileId) (h0 : Ok s 0) (h1 : Ok s 1) (h2 : ¬ Ok s 2) (h3 : Ok s 3)
    (h4 : Ok s 4) : ((Call.createDataSet true).run s).1 = true ∧
      ∃ n, s.calls ≤ n ∧ n < ((Call.createDataSet true).run s).2.calls ∧ s.oracle n < 0 := by
  have r := createChunked_results s h.pos
  have ht := r.1.2 ⟨hf, h0, h1, h3, h4⟩
  refine ⟨ht, s.calls + 2, by omega, ?_, Int.not_le.1 h2⟩
  rw [show ((Call.createDataSet true).run s).2.calls = _ from r.2 ht]
  omega

/-- It is false for `readData` with a part of a data set: the failure of `H5Sselect_hyperslab` is ignored, and then the whole data
set is selected in the file. -/
theorem C103_select_false (s : Lib) (h : Good s) (hf : 0 ≤ s.fileId) (hs : ¬ Ok s (2 + dimensionCalls s 2))
    (ho : ∀ i, i ≠ 2 + dimensionCalls s 2 → Ok s i) (he : s.oracle (s.calls + (2 + dimensionCalls s 2 + 3)) ≠ 0) :
    ((Call.readData true).run s).1 = true ∧
      ∃ n, s.calls ≤ n ∧ n < ((Call.readData true).run s).2.calls ∧ s.oracle n < 0 := by
  have r := readSelected_results s h
  have ht := r.1.2 ⟨hf, ho _ (by omega), ho _ (by omega), ho _ (by omega), ho _ (by omega), he, ho _ (by omega), ho _ (by omega)⟩
  refine ⟨ht, s.calls + (2 + dimensionCalls s 2), by omega, ?_, Int.not_le.1 hs⟩
  rw [show ((Call.readData true).run s).2.calls = _ from r.2 ht]
  omega

/-- It is false for `attributeType` and `dataType`: if the type cannot be read (or the attribute not be opened), `H5Tequal` fails, the
failure counts as equal, and a type is reported. -/
theorem C103_type_false (s : Lib) (h : Good s) (hf : 0 ≤ s.fileId) :
    (0 < s.oracle s.calls → ¬ (Ok s 1 ∧ Ok s 2) → (Call.attributeType.run s).1 = true) ∧
    (Ok s 0 → s.oracle (s.calls + 1) = 0 → Ok s 2 → ¬ Ok s 3 → (Call.dataType.run s).1 = true) :=
  ⟨fun h0 h1 => (C103_exact .attributeType (by simp) s h).2 ⟨hf, h0, fun a b => absurd ⟨a, b⟩ h1⟩,
    fun h0 h1 h2 h3 => (C103_exact .dataType (by simp) s h).2 ⟨hf, h0, h1, h2, fun a => absurd a h3⟩⟩

/-- It is false for `children`: after the group was opened no failure is noticed; if the number of objects cannot be read, an empty
list is reported as success. -/
theorem C103_children_false (s : Lib) (h : Good s) (hf : 0 ≤ s.fileId) (h0 : Ok s 0) :
    (Call.children.run s).1 = true ∧ (¬ Ok s 1 → (Call.children.run s).2.calls = s.calls + 2) := by
  have r := children_results s h.pos
  have ht := r.1.2 ⟨hf, h0⟩
  refine ⟨ht, fun h1 => ?_⟩
  rw [show (Call.children.run s).2.calls = _ from r.2 ht, Int.toNat_of_nonpos]
  simp only [Ok] at h1
  omega

/-- Every call gives 1 but the third, which fails. -/
example : let s : Lib := { oracle := fun n => if n = 2 then -1 else 1, fileId := 1, next := 2 }
    Good s ∧ 0 ≤ s.fileId ∧ Ok s 0 ∧ Ok s 1 ∧ ¬ Ok s 2 ∧ Ok s 3 ∧ Ok s 4 ∧
      ((Call.createDataSet true).run s).1 = true ∧ (Call.writeData.run s).1 = false ∧ (Call.createGroup.run s).1 = true ∧
      (Call.attributeType.run s).1 = true ∧ Call.createGroup.checks = true ∧ (Call.setAttribute.run s).1 = false :=
  ⟨⟨by decide, by decide, by decide, rfl⟩, by decide, by decide, by decide, by decide, by decide, by decide, by decide +kernel,
    by decide +kernel, by decide +kernel, by decide +kernel, rfl, by decide +kernel⟩

/-- A part of a data set with the call numbers of `C103_select_false`. -/
example : let s : Lib := { oracle := fun n => if n = 3 then 0 else if n = 8 then -1 else 1, fileId := 1, next := 2 }
    Good s ∧ dimensionCalls s 2 = 6 ∧ ¬ Ok s 8 ∧ ((Call.readData true).run s).1 = true :=
  ⟨⟨by decide, by decide, by decide, rfl⟩, by decide, by decide, by decide +kernel⟩

end Stempy.Handles
