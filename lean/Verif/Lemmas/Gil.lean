import Verif.Model.Gil
import Verif.Spec.Transition
import Mathlib.Data.List.Count

/-!
Invariant of the holders of Python references.
-/

namespace Stempy.Gil
open Spec

@[simp] theorem update_same {β : Type} (f : Nat → β) (t : Nat) (b : β) : update f t b t = b := by simp [update]

theorem update_of_ne {β : Type} (f : Nat → β) {t u : Nat} (b : β) (h : u ≠ t) : update f t b u = f u := by
  simp [update, h]

theorem update_apply {β : Type} (f : Nat → β) (t u : Nat) (b : β) :
    update f t b u = if u = t then b else f u := rfl

/-- Whether an operation changes or reads reference counts, or may lead to that. -/
def Op.needsLock : Op → Prop
  | .acquire => False
  | .copyNew _ => False
  | .moveNew _ => False
  | .release => True
  | _ => True

/-- Sequences of operations without halves of changes, in which all operations which need the lock have it; `d` is the
number of acquisitions before. -/
def Clean : Nat → List Op → Prop
  | d, [] => d = 0
  | d, .acquire :: r => Clean (d + 1) r
  | d, .release :: r => 0 < d ∧ Clean (d - 1) r
  | d, .copyNew _ :: r => Clean d r
  | d, .moveNew _ :: r => Clean d r
  | _, .load _ :: _ => False
  | _, .store _ _ :: _ => False
  | d, _ :: r => 0 < d ∧ Clean d r

theorem Call.clean (c : Call) : Clean 0 c.ops := by
  cases c <;> simp only [Call.ops] <;> (try split) <;> simp [Clean]

/-- What must hold for a change of a reference count which is about to happen. -/
def Ready (s : State) (a : Nat) : Change → Prop
  | .incPy => 0 < s.cpp a + s.py a
  | .decPy => 0 < s.py a
  | .decCpp => s.cpp a = 1 ∧ s.strong a = 0

/-- What thread `t` is in the middle of. -/
def Good (s : State) (t : Tid) : Prop :=
  Clean (s.depth t) (s.todo t) ∨
    0 < s.depth t ∧ ∃ a c rest, Ready s a c ∧ Clean (s.depth t) rest ∧
      (s.todo t = .load a :: .store a c :: rest ∨ s.todo t = .store a c :: rest ∧ s.reg t = s.refs a)

structure Inv (s : State) : Prop where
  lock : ∀ t, 0 < s.depth t ↔ s.gil = some t
  count : ∀ a, s.strong a = s.holders.count (some a)
  exact : ∀ a, s.refs a = s.cpp a + s.py a
  fresh : ∀ a, s.next ≤ a → s.strong a = 0 ∧ s.cpp a = 0 ∧ s.py a = 0
  one : ∀ a, s.cpp a ≤ 1
  own : ∀ a, 0 < s.strong a → s.cpp a = 1
  pend : ∀ a, s.cpp a = 1 → 0 < s.strong a ∨ ∃ t, .store a .decCpp ∈ s.todo t
  good : ∀ t, Good s t

theorem inv_init : Inv {} where
  lock := by simp
  count := by simp
  exact := by simp
  fresh := by simp
  one := by simp
  own := by simp
  pend := by simp
  good := fun t => .inl rfl

/-- Only one thread is in the middle of a change. -/
theorem Inv.other_clean {s : State} (h : Inv s) {t u : Tid} (ht : 0 < s.depth t) (hu : u ≠ t) :
    Clean (s.depth u) (s.todo u) := by
  rcases h.good u with h1 | ⟨h1, _⟩
  · exact h1
  · have e1 := (h.lock u).1 h1
    have e2 := (h.lock t).1 ht
    rw [e1] at e2
    exact absurd (Option.some.inj e2) hu

theorem Inv.depth_of_gil {s : State} (h : Inv s) {t u : Tid} (ht : 0 < s.depth t) (hu : u ≠ t) : s.depth u = 0 := by
  rcases Nat.eq_zero_or_pos (s.depth u) with h0 | h1
  · exact h0
  · have e1 := (h.lock u).1 h1
    rw [(h.lock t).1 ht] at e1
    exact absurd (Option.some.inj e1).symm hu

theorem not_mem_clean {d : Nat} {l : List Op} (h : Clean d l) (a : Nat) (c : Change) : Op.store a c ∉ l := by
  induction l generalizing d with
  | nil => simp
  | cons o r ih =>
    cases o <;> simp only [Clean] at h <;> simp <;> first | exact ih h | exact ih h.2

theorem inv_begin {s : State} (h : Inv s) {t : Tid} {ops : List Op} (h0 : s.todo t = []) (hc : Clean 0 ops) :
    Inv { s with todo := update s.todo t ops } := by
  have hd : s.depth t = 0 := by
    rcases h.good t with h1 | ⟨_, a, c, rest, _, _, h1 | ⟨h1, _⟩⟩
    · rw [h0] at h1; exact h1
    · rw [h0] at h1; cases h1
    · rw [h0] at h1; cases h1
  refine ⟨h.lock, h.count, h.exact, h.fresh, h.one, h.own, ?_, ?_⟩
  · intro a ha
    rcases h.pend a ha with h1 | ⟨u, hu⟩
    · exact .inl h1
    · right
      refine ⟨u, ?_⟩
      have : u ≠ t := by rintro rfl; rw [h0] at hu; cases hu
      simpa [update_of_ne _ _ this] using hu
  · intro u
    by_cases e : u = t
    · subst e
      left
      simpa [hd] using hc
    · have := h.good u
      unfold Good at this ⊢
      simpa [update_of_ne _ _ e, Ready] using this

theorem count_none_set (l : List (Option Nat)) (d : Nat) (x : Option Nat) (a : Nat) (hd : d < l.length) :
    (l.set d x).count (some a) + (if l.getD d none = some a then 1 else 0)
      = l.count (some a) + (if x = some a then 1 else 0) := by
  induction l generalizing d with
  | nil => simp at hd
  | cons y r ih =>
    cases d with
    | zero => simp [List.count_cons]; omega
    | succ d =>
      have := ih d (by simpa using hd)
      simp only [List.set_cons_succ, List.count_cons, List.getD_cons_succ]
      omega

theorem count_set_none (l : List (Option Nat)) (d : Nat) (a : Nat) :
    (l.set d none).count (some a) + (if l.getD d none = some a then 1 else 0) = l.count (some a) := by
  by_cases hd : d < l.length
  · simpa using count_none_set l d none a hd
  · rw [List.set_eq_of_length_le (by omega)]
    have : l.getD d none = none := by
      rw [List.getD_eq_getElem?_getD, List.getElem?_eq_none (by omega)]; rfl
    rw [this]; simp

theorem holds_set {s : State} {d : Nat} {x : Option Nat} (a : Nat) (hd : d < s.holders.length) :
    (s.holders.set d x).count (some a) + (if s.holds d = some a then 1 else 0)
      = s.holders.count (some a) + (if x = some a then 1 else 0) := count_none_set s.holders d x a hd

theorem holds_set_none (s : State) (d a : Nat) :
    (s.holders.set d none).count (some a) + (if s.holds d = some a then 1 else 0) = s.holders.count (some a) :=
  count_set_none s.holders d a

theorem inc_apply (f : Nat → Nat) (x : Option Nat) (a : Nat) : inc f x a = f a + if x = some a then 1 else 0 := by
  cases x with
  | none => simp [inc]
  | some b =>
    by_cases e : a = b
    · subst e; simp [inc]
    · have : ¬ b = a := fun h => e h.symm
      simp [inc, update_apply, e, this]

theorem dec_apply (f : Nat → Nat) (x : Option Nat) (a : Nat) : dec f x a = f a - if x = some a then 1 else 0 := by
  cases x with
  | none => simp [dec]
  | some b =>
    by_cases e : a = b
    · subst e; simp [dec]
    · have : ¬ b = a := fun h => e h.symm
      simp [dec, update_apply, e, this]

/-- The pending operations after a step of thread `t` whose operation is not half of a change. -/
theorem pend_step {s : State} (h : Inv s) {t : Tid} {op : Op} {rest more : List Op} (h0 : s.todo t = op :: rest)
    (hop : ∀ a c, op ≠ .store a c) {a : Nat} (ha : s.cpp a = 1) (hs : s.strong a = 0) :
    ∃ u, .store a .decCpp ∈ update s.todo t (more ++ rest) u := by
  rcases h.pend a ha with h1 | ⟨u, hu⟩
  · omega
  · refine ⟨u, ?_⟩
    by_cases e : u = t
    · subst e
      rw [h0] at hu
      rcases List.mem_cons.1 hu with h2 | h2
      · exact absurd h2.symm (hop _ _)
      · simp [h2]
    · simpa [update_of_ne _ _ e] using hu

/-- An owner goes, with the lock held. -/
theorem inv_drop {s : State} (h : Inv s) {t : Tid} {op : Op} {rest : List Op} (h0 : s.todo t = op :: rest)
    (hop : ∀ a c, op ≠ .store a c) (hd : 0 < s.depth t) (hc : Clean (s.depth t) rest)
    {hs : List (Option Nat)} {st : Nat → Nat} {x : Option Nat} (h1 : ∀ a, st a = hs.count (some a))
    (h2 : ∀ a, 0 < st a → 0 < s.strong a) (h3 : ∀ a, 0 < s.strong a → st a = 0 → x = some a)
    (h4 : ∀ a, x = some a → 0 < s.strong a) :
    Inv { s with holders := hs, strong := st, todo := update s.todo t (gone st x ++ rest) } := by
  refine ⟨h.lock, h1, h.exact, ?_, h.one, fun a ha => h.own a (h2 a ha), ?_, ?_⟩
  · intro a ha
    have := h.fresh a ha
    refine ⟨?_, this.2⟩
    have := h2 a
    show st a = 0
    omega
  · intro a ha
    have ha : s.cpp a = 1 := ha
    rcases Nat.eq_zero_or_pos (st a) with e | e
    · right
      rcases Nat.eq_zero_or_pos (s.strong a) with e2 | e2
      · exact pend_step h h0 hop ha e2
      · refine ⟨t, ?_⟩
        simp [h3 a e2 e, gone, e]
    · exact .inl e
  · intro u
    by_cases e : u = t
    · subst e
      cases x with
      | none => left; simpa [gone] using hc
      | some a =>
        by_cases e : st a = 0
        · right
          refine ⟨hd, a, .decCpp, rest, ⟨h.own a (h4 a rfl), e⟩, hc, .inl ?_⟩
          simp [gone, e]
        · left
          simpa [gone, e] using hc
    · left
      simpa [update_of_ne _ _ e] using h.other_clean hd e

/-- A holder is constructed without the lock. -/
theorem inv_new {s : State} (h : Inv s) {t : Tid} {op : Op} {rest : List Op} (h0 : s.todo t = op :: rest)
    (hop : ∀ a c, op ≠ .store a c) (hc : Clean (s.depth t) rest)
    {hs : List (Option Nat)} {st : Nat → Nat} (h1 : ∀ a, st a = hs.count (some a))
    (h2 : ∀ a, 0 < st a ↔ 0 < s.strong a) :
    Inv { s with holders := hs, strong := st, todo := update s.todo t rest } := by
  have hz : ∀ a, st a = 0 ↔ s.strong a = 0 := fun a => by have := h2 a; omega
  refine ⟨h.lock, h1, h.exact, ?_, h.one, fun a ha => h.own a ((h2 a).1 ha), ?_, ?_⟩
  · intro a ha
    have := h.fresh a ha
    exact ⟨(hz a).2 this.1, this.2⟩
  · intro a ha
    have ha : s.cpp a = 1 := ha
    rcases Nat.eq_zero_or_pos (st a) with e | e
    · exact .inr (pend_step (more := []) h h0 hop ha ((hz a).1 e))
    · exact .inl e
  · intro u
    by_cases e : u = t
    · subst e
      left
      simpa using hc
    · have := h.good u
      unfold Good at this ⊢
      simp only [update_of_ne _ _ e]
      rcases this with h5 | ⟨h5, a, c, r, h6, h7⟩
      · exact .inl h5
      · refine .inr ⟨h5, a, c, r, ?_, h7⟩
        cases c with
        | incPy => exact h6
        | decPy => exact h6
        | decCpp => exact ⟨h6.1, (hz a).2 h6.2⟩

/-- A reference count is loaded or changes, or a change is prepared. -/
theorem inv_counts {s s' : State} (h : Inv s) {t : Tid} (hd : 0 < s.depth t)
    (h1 : s'.gil = s.gil) (h2 : s'.depth = s.depth) (h3 : s'.holders = s.holders) (h4 : s'.strong = s.strong)
    (h5 : s'.next = s.next) (h6 : ∀ a, s'.refs a = s'.cpp a + s'.py a) (h7 : ∀ a, s'.cpp a ≤ s.cpp a)
    (h8 : ∀ a, s.next ≤ a → s'.py a = 0) (h9 : ∀ a, 0 < s.strong a → s'.cpp a = 1)
    (h10 : ∀ a, s'.cpp a = 1 → s.strong a = 0 → ∃ u, .store a .decCpp ∈ s'.todo u)
    (h11 : ∀ u, u ≠ t → s'.todo u = s.todo u) (h12 : Good s' t) : Inv s' := by
  refine ⟨?_, ?_, h6, ?_, ?_, ?_, ?_, ?_⟩
  · intro u; rw [h1, h2]; exact h.lock u
  · intro a; rw [h3, h4]; exact h.count a
  · intro a ha
    rw [h5] at ha
    have := h.fresh a ha
    have := h7 a
    exact ⟨by rw [h4]; omega, by omega, h8 a ha⟩
  · intro a
    have := h.one a
    have := h7 a
    omega
  · intro a ha
    rw [h4] at ha
    exact h9 a ha
  · intro a ha
    rcases Nat.eq_zero_or_pos (s.strong a) with e | e
    · exact .inr (h10 a ha e)
    · left; rw [h4]; exact e
  · intro u
    by_cases e : u = t
    · subst e; exact h12
    · left
      rw [h2, h11 u e]
      exact h.other_clean hd e

theorem holds_pos {s : State} (h : Inv s) {d a : Nat} (hd : s.holds d = some a) : 0 < s.strong a := by
  have := count_set_none s.holders d a
  have hd : s.holders.getD d none = some a := hd
  rw [if_pos hd] at this
  have := h.count a
  omega

theorem run_clean {s s' : State} (h : Inv s) {t : Tid} {op : Op} {rest more : List Op} (h0 : s.todo t = op :: rest)
    (hc : Clean (s.depth t) (op :: rest)) (he : exec t s op = some (s', more)) :
    Inv { s' with todo := update s.todo t (more ++ rest) } := by
  cases op with
  | acquire =>
    simp only [exec] at he
    split at he
    · next hg =>
      cases he
      have hno : ∀ u, u ≠ t → s.depth u = 0 := by
        intro u hu
        rcases Nat.eq_zero_or_pos (s.depth u) with e | e
        · exact e
        · have := (h.lock u).1 e
          rcases hg with hg | hg
          · rw [hg] at this; cases this
          · rw [hg] at this; exact absurd (Option.some.inj this).symm hu
      refine ⟨?_, h.count, h.exact, h.fresh, h.one, h.own, ?_, ?_⟩
      · intro u
        by_cases e : u = t
        · subst e; simp
        · have : ¬ t = u := fun x => e x.symm
          simp [update_of_ne _ _ e, hno u e, this]
      · intro a ha
        rcases Nat.eq_zero_or_pos (s.strong a) with e | e
        · exact .inr (pend_step (more := []) h h0 (by simp) ha e)
        · exact .inl e
      · intro u
        left
        by_cases e : u = t
        · subst e
          simpa [Clean] using hc
        · rcases h.good u with h1 | ⟨h1, _⟩
          · simpa [update_of_ne _ _ e] using h1
          · have := hno u e
            omega
    · cases he
  | release =>
    simp only [exec, Option.some.injEq, Prod.mk.injEq] at he
    obtain ⟨rfl, rfl⟩ := he
    obtain ⟨hd, hc⟩ := hc
    refine ⟨?_, h.count, h.exact, h.fresh, h.one, h.own, ?_, ?_⟩
    · intro u
      have hg := (h.lock t).1 hd
      by_cases e : u = t
      · subst e
        simp only [update_same, hg]
        by_cases e1 : s.depth u = 1
        · simp [e1]
        · simp only [e1, if_false, iff_true]; omega
      · have e2 : ¬ t = u := fun x => e x.symm
        have := h.depth_of_gil hd e
        simp only [update_of_ne _ _ e, this, hg]
        split <;> simp [e2]
    · intro a ha
      rcases Nat.eq_zero_or_pos (s.strong a) with e | e
      · exact .inr (pend_step (more := []) h h0 (by simp) ha e)
      · exact .inl e
    · intro u
      left
      by_cases e : u = t
      · subst e
        simpa using hc
      · simpa [update_of_ne _ _ e] using h.other_clean hd e
  | create =>
    simp only [exec, Option.some.injEq, Prod.mk.injEq] at he
    obtain ⟨rfl, rfl⟩ := he
    obtain ⟨hd, hc⟩ := hc
    obtain ⟨f1, f2, f3⟩ := h.fresh s.next (Nat.le_refl _)
    refine ⟨h.lock, ?_, ?_, ?_, ?_, ?_, ?_, ?_⟩
    · intro a
      have := h.count a
      simp only [update_apply, List.count_append, List.count_singleton]
      by_cases e : a = s.next
      · subst e
        simp; omega
      · have : ¬ s.next = a := fun x => e x.symm
        simp [e, this, h.count a]
    · intro a
      simp only [update_apply]
      by_cases e : a = s.next
      · subst e
        simp [f3]
      · simp [e, h.exact a]
    · intro a ha
      have ha : s.next + 1 ≤ a := ha
      have e : ¬ a = s.next := by omega
      simp only [update_apply, e, if_false]
      exact h.fresh a (by omega)
    · intro a
      have := h.one a
      simp only [update_apply]
      split <;> omega
    · intro a ha
      simp only [update_apply] at ha ⊢
      split
      · rfl
      · next e => rw [if_neg e] at ha; exact h.own a ha
    · intro a ha
      simp only [update_apply] at ha ⊢
      by_cases e : a = s.next
      · simp [e]
      · simp only [e, if_false] at ha ⊢
        rcases Nat.eq_zero_or_pos (s.strong a) with e2 | e2
        · exact .inr (pend_step (more := []) h h0 (by simp) ha e2)
        · exact .inl e2
    · intro u
      left
      by_cases e : u = t
      · subst e
        simpa using hc
      · simpa [update_of_ne _ _ e] using h.other_clean hd e
  | copyNew d =>
    simp only [exec, Option.some.injEq, Prod.mk.injEq] at he
    obtain ⟨rfl, rfl⟩ := he
    refine inv_new h h0 (by simp) hc ?_ ?_
    · intro a
      dsimp only
      rw [inc_apply, List.count_append, List.count_singleton, h.count a]
      simp
    · intro a
      dsimp only
      rw [inc_apply]
      split
      · next e => have := holds_pos h e; omega
      · simp
  | moveNew d =>
    simp only [exec, Option.some.injEq, Prod.mk.injEq] at he
    obtain ⟨rfl, rfl⟩ := he
    refine inv_new h h0 (by simp) hc ?_ ?_
    · intro a
      have h1 := count_set_none s.holders d a
      rw [List.count_append, List.count_singleton, h.count a, ← h1]
      simp [State.holds]
    · intro a; rfl
  | assign d x =>
    obtain ⟨hd, hc⟩ := hc
    simp only [exec] at he
    split at he
    · next hl =>
      cases he
      refine inv_drop h h0 (by simp) hd hc ?_ ?_ ?_ ?_
      · intro a
        have h1 := holds_set (x := s.holds x) a hl
        have h2 := h.count a
        dsimp only
        rw [dec_apply, inc_apply]
        omega
      · intro a
        dsimp only
        rw [dec_apply, inc_apply]
        by_cases e : s.holds x = some a
        · intro _; exact holds_pos h e
        · rw [if_neg e]; omega
      · intro a ha hz
        dsimp only at hz
        rw [dec_apply, inc_apply] at hz
        refine Classical.byContradiction fun e => ?_
        rw [if_neg e] at hz
        omega
      · intro a ha
        exact holds_pos h ha
    · cases he
      exact inv_new (hs := s.holders) (st := s.strong) h h0 (by simp) hc h.count (fun _ => Iff.rfl)
  | moveAssign d x =>
    obtain ⟨hd, hc⟩ := hc
    simp only [exec] at he
    split at he
    · next hl =>
      cases he
      refine inv_drop h h0 (by simp) hd hc ?_ ?_ ?_ ?_
      · intro a
        have h1 := count_none_set (s.holders.set x none) d (s.holds x) a (by simpa using hl.1)
        have h3 := holds_set_none s x a
        have h2 := h.count a
        have h5 : (s.holders.set x none).getD d none = s.holders.getD d none → (if (s.holders.set x none).getD d none
            = some a then 1 else 0) = if s.holds d = some a then 1 else 0 := fun e => by rw [e]; rfl
        have h4 : (s.holders.set x none).getD d none = s.holders.getD d none := by
          rw [List.getD_eq_getElem?_getD, List.getD_eq_getElem?_getD, List.getElem?_set_ne (fun e => hl.2 e.symm)]
        rw [h5 h4] at h1
        dsimp only
        rw [dec_apply]
        omega
      · intro a
        dsimp only
        rw [dec_apply]; omega
      · intro a ha hz
        dsimp only at hz
        rw [dec_apply] at hz
        refine Classical.byContradiction fun e => ?_
        rw [if_neg e] at hz
        omega
      · intro a ha
        exact holds_pos h ha
    · cases he
      exact inv_new (hs := s.holders) (st := s.strong) h h0 (by simp) hc h.count (fun _ => Iff.rfl)
  | reset d =>
    obtain ⟨hd, hc⟩ := hc
    simp only [exec, Option.some.injEq, Prod.mk.injEq] at he
    obtain ⟨rfl, rfl⟩ := he
    refine inv_drop h h0 (by simp) hd hc ?_ ?_ ?_ ?_
    · intro a
      have h3 := holds_set_none s d a
      have h2 := h.count a
      dsimp only
      rw [dec_apply]
      omega
    · intro a
      dsimp only
      rw [dec_apply]; omega
    · intro a ha hz
      dsimp only at hz
      rw [dec_apply] at hz
      refine Classical.byContradiction fun e => ?_
      rw [if_neg e] at hz
      omega
    · intro a ha
      exact holds_pos h ha
  | pyCopy a =>
    obtain ⟨hd, hc⟩ := hc
    simp only [exec, Option.some.injEq, Prod.mk.injEq] at he
    obtain ⟨rfl, rfl⟩ := he
    refine inv_counts h hd rfl rfl rfl rfl rfl h.exact (fun _ => Nat.le_refl _) (fun b hb => (h.fresh b hb).2.2) h.own
      (fun b hb hz => pend_step h h0 (by simp) hb hz) (fun u hu => update_of_ne _ _ hu) ?_
    split
    · next hp => exact .inr ⟨hd, a, .incPy, rest, hp, hc, .inl (by simp)⟩
    · left; simpa using hc
  | pyDrop a =>
    obtain ⟨hd, hc⟩ := hc
    simp only [exec, Option.some.injEq, Prod.mk.injEq] at he
    obtain ⟨rfl, rfl⟩ := he
    refine inv_counts h hd rfl rfl rfl rfl rfl h.exact (fun _ => Nat.le_refl _) (fun b hb => (h.fresh b hb).2.2) h.own
      (fun b hb hz => pend_step h h0 (by simp) hb hz) (fun u hu => update_of_ne _ _ hu) ?_
    split
    · next hp => exact .inr ⟨hd, a, .decPy, rest, hp, hc, .inl (by simp)⟩
    · left; simpa using hc
  | load a => exact hc.elim
  | store a c => exact hc.elim

theorem run_store {s s' : State} (h : Inv s) {t : Tid} {a : Nat} {c : Change} {rest more : List Op}
    (h0 : s.todo t = .store a c :: rest) (hd : 0 < s.depth t) (hr : Ready s a c) (hc : Clean (s.depth t) rest)
    (hv : s.reg t = s.refs a) (he : exec t s (.store a c) = some (s', more)) :
    Inv { s' with todo := update s.todo t (more ++ rest) } := by
  have hx := h.exact a
  cases c with
  | incPy =>
    simp only [exec, Option.some.injEq, Prod.mk.injEq] at he
    obtain ⟨rfl, rfl⟩ := he
    have hr : 0 < s.cpp a + s.py a := hr
    refine inv_counts h hd rfl rfl rfl rfl rfl ?_ (fun _ => Nat.le_refl _) ?_ h.own ?_ (fun u hu => update_of_ne _ _ hu)
      (.inl (by simpa using hc))
    · intro b
      simp only [update_apply]
      split
      · next e => subst e; omega
      · exact h.exact b
    · intro b hb
      have hf := h.fresh b hb
      simp only [update_apply]
      split
      · next e => subst e; omega
      · exact hf.2.2
    · intro b hb hz
      rcases h.pend b hb with h1 | ⟨u, hu⟩
      · omega
      · refine ⟨u, ?_⟩
        by_cases e : u = t
        · subst e
          rw [h0] at hu
          simpa using hu
        · simpa [update_of_ne _ _ e] using hu
  | decPy =>
    simp only [exec, Option.some.injEq, Prod.mk.injEq] at he
    obtain ⟨rfl, rfl⟩ := he
    have hr : 0 < s.py a := hr
    refine inv_counts h hd rfl rfl rfl rfl rfl ?_ (fun _ => Nat.le_refl _) ?_ h.own ?_ (fun u hu => update_of_ne _ _ hu)
      (.inl (by simpa using hc))
    · intro b
      simp only [update_apply]
      split
      · next e => subst e; omega
      · exact h.exact b
    · intro b hb
      have hf := h.fresh b hb
      simp only [update_apply]
      split
      · next e => subst e; omega
      · exact hf.2.2
    · intro b hb hz
      rcases h.pend b hb with h1 | ⟨u, hu⟩
      · omega
      · refine ⟨u, ?_⟩
        by_cases e : u = t
        · subst e
          rw [h0] at hu
          simpa using hu
        · simpa [update_of_ne _ _ e] using hu
  | decCpp =>
    simp only [exec, Option.some.injEq, Prod.mk.injEq] at he
    obtain ⟨rfl, rfl⟩ := he
    obtain ⟨hr1, hr2⟩ := hr
    refine inv_counts h hd rfl rfl rfl rfl rfl ?_ ?_ (fun b hb => (h.fresh b hb).2.2) ?_ ?_
      (fun u hu => update_of_ne _ _ hu) (.inl (by simpa using hc))
    · intro b
      simp only [update_apply]
      split
      · next e => subst e; omega
      · exact h.exact b
    · intro b
      simp only [update_apply]
      split
      · next e => subst e; omega
      · exact Nat.le_refl _
    · intro b hb
      have : ¬ b = a := by rintro rfl; omega
      simp only [update_apply, this, if_false]
      exact h.own b hb
    · intro b hb hz
      simp only [update_apply] at hb
      split at hb
      · omega
      · next e =>
        rcases h.pend b hb with h1 | ⟨u, hu⟩
        · omega
        · refine ⟨u, ?_⟩
          by_cases e2 : u = t
          · subst e2
            rw [h0] at hu
            simpa [e] using hu
          · simpa [update_of_ne _ _ e2] using hu

theorem inv_run {s s' : State} (h : Inv s) {t : Tid} {op : Op} {rest more : List Op} (h0 : s.todo t = op :: rest)
    (he : exec t s op = some (s', more)) : Inv { s' with todo := update s.todo t (more ++ rest) } := by
  rcases h.good t with h1 | ⟨hd, a, c, r, hr, hc, h1 | ⟨h1, hv⟩⟩
  · rw [h0] at h1
    exact run_clean h h0 h1 he
  · rw [h0] at h1
    cases h1
    simp only [exec, Option.some.injEq, Prod.mk.injEq] at he
    obtain ⟨rfl, rfl⟩ := he
    refine inv_counts h hd rfl rfl rfl rfl rfl h.exact (fun _ => Nat.le_refl _) (fun b hb => (h.fresh b hb).2.2) h.own
      (fun b hb hz => pend_step (more := []) h h0 (by simp) hb hz) (fun u hu => update_of_ne _ _ hu) ?_
    exact .inr ⟨hd, a, c, r, hr, hc, .inr ⟨by simp, by simp⟩⟩
  · rw [h0] at h1
    cases h1
    exact run_store h h0 hd hr hc hv he

theorem inv_reach {s : State} (h : Reach (Step memberCalls) {} s) : Inv s := by
  refine h.inv Inv inv_init ?_
  intro a b c hi hst
  cases hst with
  | begin h0 hc =>
    obtain ⟨c, rfl⟩ := hc
    exact inv_begin hi h0 c.clean
  | run h0 he => exact inv_run hi h0 he

end Stempy.Gil
