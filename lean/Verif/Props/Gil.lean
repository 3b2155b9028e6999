import Verif.Lemmas.Gil

/-!
C76: Python reference counts are changed under the lock only, and a block keeps its array alive.
-/

namespace Stempy.Gil
open Spec

/-- A run of a thread: its first operation is executed. -/
theorem run_iff {calls : List Op → Prop} {s s' : State} {t : Tid} (h : Step calls s (.run t) s') :
    ∃ op rest s1 more, s.todo t = op :: rest ∧ exec t s op = some (s1, more) ∧
      s' = { s1 with todo := update s.todo t (more ++ rest) } := by
  cases h with
  | run h0 he => exact ⟨_, _, _, _, h0, he, rfl⟩

/-- C76: whatever holders any number of threads copy, move, assign and destroy while blocks are read and Python runs,
in any schedule, a step which reads or changes a reference count is one of the thread which has the lock. -/
theorem C76_lock_partial {s s' : State} {t : Tid} (h : Reach (Step memberCalls) {} s)
    (hst : Step memberCalls s (.run t) s') (hr : s'.refs ≠ s.refs ∨ s'.reg ≠ s.reg) : s.gil = some t := by
  have hi := inv_reach h
  obtain ⟨op, rest, s1, more, h0, he, rfl⟩ := run_iff hst
  rcases hi.good t with h1 | ⟨hd, _⟩
  · rw [h0] at h1
    cases op with
    | create => exact (hi.lock t).1 h1.1
    | load a => exact h1.elim
    | store a c => exact h1.elim
    | acquire =>
      simp only [exec] at he
      split at he
      · cases he; simp at hr
      · cases he
    | assign d x =>
      simp only [exec] at he
      split at he <;> · cases he; simp at hr
    | moveAssign d x =>
      simp only [exec] at he
      split at he <;> · cases he; simp at hr
    | _ =>
      simp only [exec] at he
      cases he
      simp at hr
  · exact (hi.lock t).1 hd

/-- C76: the lock excludes. -/
theorem C76_exclusive {s : State} {t u : Tid} (h : Reach (Step memberCalls) {} s) (ht : 0 < s.depth t)
    (hu : 0 < s.depth u) : t = u := by
  have hi := inv_reach h
  have h1 := (hi.lock t).1 ht
  rw [(hi.lock u).1 hu] at h1
  exact (Option.some.inj h1).symm

/-- C76: an array a block refers to is alive: its reference count exceeds the references Python has. -/
theorem C76_alive_partial {s : State} {a : Nat} (h : Reach (Step memberCalls) {} s) (ha : some a ∈ s.holders) :
    s.refs a = s.py a + 1 := by
  have hi := inv_reach h
  have h1 := hi.count a
  have h2 := List.count_pos_iff.2 ha
  have := hi.own a (by omega)
  have := hi.exact a
  omega

/-- C76: when no call is in progress the count is the number of references Python has, and one more exactly if blocks
refer to the array, however many do: the reference of C++ is dropped once, after the last block. -/
theorem C76_counts_partial {s : State} (h : Reach (Step memberCalls) {} s) (hq : ∀ t, s.todo t = []) (a : Nat) :
    s.refs a = s.py a + if some a ∈ s.holders then 1 else 0 := by
  have hi := inv_reach h
  split
  · next ha => exact C76_alive_partial h ha
  · next ha =>
    have h1 := hi.count a
    rw [List.count_eq_zero_of_not_mem ha] at h1
    have h2 : s.cpp a ≠ 1 := by
      intro h2
      rcases hi.pend a h2 with h3 | ⟨t, ht⟩
      · omega
      · rw [hq t] at ht; cases ht
    have := hi.one a
    have := hi.exact a
    omega

/-- C76: no deadlock: while a call is in progress some thread can go on. -/
theorem C76_progress {s : State} {t : Tid} (h : Reach (Step memberCalls) {} s) (ht : s.todo t ≠ []) :
    ∃ u s', Step memberCalls s (.run u) s' := by
  have hi := inv_reach h
  have key : ∀ u op rest, s.todo u = op :: rest → (op = .acquire → s.gil = none ∨ s.gil = some u) →
      ∃ s', Step memberCalls s (.run u) s' := by
    intro u op rest h0 hg
    have : ∃ s1 more, exec u s op = some (s1, more) := by
      cases op with
      | acquire => simp only [exec, if_pos (hg rfl)]; exact ⟨_, _, rfl⟩
      | assign d x => simp only [exec]; split <;> exact ⟨_, _, rfl⟩
      | moveAssign d x => simp only [exec]; split <;> exact ⟨_, _, rfl⟩
      | store a c => cases c <;> exact ⟨_, _, rfl⟩
      | _ => exact ⟨_, _, rfl⟩
    obtain ⟨s1, more, he⟩ := this
    exact ⟨_, .run h0 he⟩
  cases hg : s.gil with
  | none =>
    cases h0 : s.todo t with
    | nil => exact absurd h0 ht
    | cons op rest => exact ⟨t, key t op rest h0 fun _ => .inl hg⟩
  | some u =>
    cases h0 : s.todo u with
    | nil =>
      have hd := (hi.lock u).2 hg
      rcases hi.good u with h1 | ⟨_, a, c, rest, _, _, h1 | ⟨h1, _⟩⟩
      · rw [h0] at h1
        have h1 : s.depth u = 0 := h1
        omega
      · rw [h0] at h1; cases h1
      · rw [h0] at h1; cases h1
    | cons op rest => exact ⟨u, key u op rest h0 fun _ => .inr hg⟩

def Op.weight : Op → Nat
  | .assign _ _ => 3
  | .moveAssign _ _ => 3
  | .reset _ => 3
  | .pyCopy _ => 3
  | .pyDrop _ => 3
  | _ => 1

def weight (l : List Op) : Nat := (l.map Op.weight).sum

theorem gone_weight (st : Nat → Nat) (x : Option Nat) : weight (gone st x) ≤ 2 := by
  cases x with
  | none => simp [gone, weight]
  | some a =>
    by_cases e : st a = 0
    · simp [gone, e, weight, Op.weight]
    · simp [gone, e, weight]

theorem exec_weight {t : Tid} {s s1 : State} {op : Op} {more : List Op} (h : exec t s op = some (s1, more)) :
    weight more + 1 ≤ op.weight ∧ s1.todo = s.todo := by
  cases op with
  | acquire =>
    simp only [exec] at h
    split at h
    · cases h; exact ⟨Nat.le_refl _, rfl⟩
    · cases h
  | assign d x =>
    simp only [exec] at h
    split at h
    · cases h
      have := gone_weight (dec (inc s.strong (s.holds x)) (s.holds d)) (s.holds d)
      exact ⟨by simp only [Op.weight]; omega, rfl⟩
    · cases h; exact ⟨by simp [weight, Op.weight], rfl⟩
  | moveAssign d x =>
    simp only [exec] at h
    split at h
    · cases h
      have := gone_weight (dec s.strong (s.holds d)) (s.holds d)
      exact ⟨by simp only [Op.weight]; omega, rfl⟩
    · cases h; exact ⟨by simp [weight, Op.weight], rfl⟩
  | reset d =>
    cases h
    have := gone_weight (dec s.strong (s.holds d)) (s.holds d)
    exact ⟨by simp only [Op.weight]; omega, rfl⟩
  | pyCopy a =>
    cases h
    refine ⟨?_, rfl⟩
    split <;> simp [weight, Op.weight]
  | pyDrop a =>
    cases h
    refine ⟨?_, rfl⟩
    split <;> simp [weight, Op.weight]
  | store a c => cases c <;> · cases h; exact ⟨Nat.le_refl _, rfl⟩
  | _ => cases h; exact ⟨Nat.le_refl _, rfl⟩

/-- C76: every call ends: a thread makes at most five steps for each call it starts. -/
theorem C76_bound {s : State} {ls : List Label} (h : Run (Step memberCalls) {} ls s) (t : Tid) :
    ls.count (.run t) + weight (s.todo t) ≤ 5 * ls.count (.begin t) := by
  induction h with
  | nil => simp [weight]
  | snoc h1 h2 ih =>
    cases h2 with
    | @begin u ops h0 hc =>
      obtain ⟨c, rfl⟩ := hc
      rw [List.count_append, List.count_append]
      by_cases e : t = u
      · subst e
        have : weight c.ops ≤ 5 := by
          cases c <;> simp only [Call.ops] <;> (try split) <;> simp [weight, Op.weight]
        simp
        omega
      · have e2 : ¬ u = t := fun x => e x.symm
        simp [update_of_ne _ _ e, e2]
        omega
    | @run s1 u op rest more h0 he =>
      have hw := exec_weight he
      rw [List.count_append, List.count_append]
      by_cases e : t = u
      · subst e
        rw [h0] at ih
        have e1 : weight (op :: rest) = op.weight + weight rest := by simp [weight]
        have e2 : weight (more ++ rest) = weight more + weight rest := by simp [weight]
        simp [e2]
        omega
      · have e2 : ¬ u = t := fun x => e x.symm
        simp [update_of_ne _ _ e, e2]
        omega

theorem run_head {σ l : Type} {st : σ → l → σ → Prop} {s u : σ} {ls : List l} (h : Run st s ls u) :
    (ls = [] ∧ u = s) ∨ ∃ a rest t, ls = a :: rest ∧ st s a t ∧ Run st t rest u := by
  induction h with
  | nil => exact .inl ⟨rfl, rfl⟩
  | @snoc v w ls a h1 h2 ih =>
    rcases ih with ⟨rfl, rfl⟩ | ⟨b, rest, t, rfl, h3, h4⟩
    · exact .inr ⟨a, [], w, rfl, h2, .nil _⟩
    · exact .inr ⟨b, rest ++ [a], t, rfl, h3, h4.snoc h2⟩

/-- What a thread does on its own until it has nothing left to do, and what is between the steps of other threads left out. -/
theorem alone {calls : List Op → Prop} {t : Tid} {P : State → Prop} (I : State → Prop)
    (stop : ∀ s, I s → s.todo t = [] → P s) (step : ∀ s s', I s → Step calls s (.run t) s' → I s')
    {n : Nat} {s s' : State} (h0 : I s) (h : Run (Step calls) s (List.replicate n (.run t)) s') (he : s'.todo t = []) : P s' := by
  induction n generalizing s with
  | zero =>
    rcases run_head h with ⟨_, rfl⟩ | ⟨a, rest, u, h1, _⟩
    · exact stop _ h0 he
    · cases h1
  | succ n ih =>
    rcases run_head h with ⟨h1, _⟩ | ⟨a, rest, u, h1, h2, h3⟩
    · cases h1
    · rw [List.replicate_succ] at h1
      cases h1
      exact ih (step _ _ h0 h2) h3

theorem set_holds (s : State) {d : Nat} (hd : d < s.holders.length) (x : Option Nat) (e : Nat) :
    (s.holders.set d x).getD e none = if e = d then x else s.holds e := by
  unfold State.holds
  simp only [List.getD_eq_getElem?_getD, List.getElem?_set]
  by_cases h : d = e
  · subst h; simp [hd]
  · rw [if_neg h, if_neg (Ne.symm h)]

/-- Operations which do not change holders. -/
def Quiet : Op → Prop
  | .load _ => True
  | .store _ _ => True
  | .acquire => True
  | .release => True
  | _ => False

theorem quiet_exec {t : Tid} {s s1 : State} {op : Op} {more : List Op} (hq : Quiet op) (h : exec t s op = some (s1, more)) :
    s1.holders = s.holders ∧ more = [] := by
  cases op with
  | acquire =>
    simp only [exec] at h
    split at h
    · cases h; exact ⟨rfl, rfl⟩
    · cases h
  | release => cases h; exact ⟨rfl, rfl⟩
  | load a => cases h; exact ⟨rfl, rfl⟩
  | store a c => cases c <;> (cases h; exact ⟨rfl, rfl⟩)
  | _ => exact hq.elim

theorem gone_quiet (st : Nat → Nat) (x : Option Nat) : ∀ op ∈ gone st x, Quiet op := by
  intro op ho
  cases x with
  | none => simp [gone] at ho
  | some a =>
    by_cases e : st a = 0
    · simp only [gone, if_pos e, List.mem_cons, List.not_mem_nil, or_false] at ho
      rcases ho with rfl | rfl <;> trivial
    · simp [gone, if_neg e] at ho

/-- A call with one operation that changes the holders, by a thread that is not interrupted. -/
theorem alone_call {s s' : State} {t : Tid} {n : Nat} {op : Op} {H : List (Option Nat)}
    (hx : ∀ x x' more, x.holders = s.holders → exec t x op = some (x', more) → x'.holders = H ∧ ∀ o ∈ more, Quiet o)
    (hr : Run (Step (· = [.acquire, op, .release])) s (.begin t :: List.replicate n (.run t)) s') (he : s'.todo t = []) :
    s'.holders = H := by
  rcases run_head hr with ⟨h1, _⟩ | ⟨a, rest, u, h1, h2, h3⟩
  · cases h1
  · cases h1
    cases h2 with
    | begin _ hc =>
      refine alone (P := fun x => x.holders = H)
        (fun x => (x.holders = s.holders ∧ (x.todo t = [.acquire, op, .release] ∨ x.todo t = [op, .release])) ∨
          x.holders = H ∧ ∀ o ∈ x.todo t, Quiet o) ?_ ?_ ?_ h3 he
      · rintro x (⟨_, h | h⟩ | ⟨h, _⟩) h0
        · rw [h] at h0; cases h0
        · rw [h] at h0; cases h0
        · exact h
      · intro x x' hI hst
        obtain ⟨o, r, x1, more, h0, hexec, rfl⟩ := run_iff hst
        rcases hI with ⟨h4, h5 | h5⟩ | ⟨h4, h5⟩
        · rw [h0] at h5
          cases h5
          obtain ⟨h6, rfl⟩ := quiet_exec (op := .acquire) trivial hexec
          exact .inl ⟨h6.trans h4, .inr (by simp)⟩
        · rw [h0] at h5
          cases h5
          obtain ⟨h6, h7⟩ := hx _ _ _ h4 hexec
          refine .inr ⟨h6, ?_⟩
          simp only [update_same]
          intro o ho
          rcases List.mem_append.1 ho with ho | ho
          · exact h7 o ho
          · simp only [List.mem_cons, List.not_mem_nil, or_false] at ho
            subst ho
            trivial
        · rw [h0] at h5
          obtain ⟨h6, rfl⟩ := quiet_exec (h5 o (by simp)) hexec
          refine .inr ⟨h6.trans h4, ?_⟩
          simp only [update_same, List.nil_append]
          exact fun o ho => h5 o (by simp [ho])
      · exact .inl ⟨rfl, .inl (by simp [hc])⟩

/-- Assignment of a holder by a thread that is not interrupted: afterwards both holders refer to the same array, and the others are
as before (also if a holder is assigned to itself). -/
theorem C76_copy_assign {s s' : State} {t : Tid} {d h n : Nat} (hd : d < s.holders.length)
    (hr : Run (Step (· = (Call.copyAssign d h).ops)) s (.begin t :: List.replicate n (.run t)) s') (he : s'.todo t = []) :
    ∀ e, s'.holds e = if e = d then s.holds h else s.holds e := by
  by_cases e : d = h
  · subst e
    have : s'.holders = s.holders := by
      simp only [Call.ops, if_true] at hr
      rcases run_head hr with ⟨h1, _⟩ | ⟨a, rest, u, h1, h2, h3⟩
      · cases h1
      · cases h1
        cases h2 with
        | begin _ hc =>
          refine alone (P := fun x => x.holders = s.holders) (fun x => x.holders = s.holders ∧ x.todo t = []) (fun x hx _ => hx.1) ?_ ?_ h3 he
          · intro x x' hI hst
            obtain ⟨o, r, x1, more, h0, _⟩ := run_iff hst
            rw [hI.2] at h0
            cases h0
          · exact ⟨rfl, by simp [hc]⟩
    intro e
    unfold State.holds
    rw [this]
    split
    · next h => rw [h]
    · rfl
  · simp only [Call.ops, if_neg e] at hr
    have : s'.holders = s.holders.set d (s.holds h) := by
      refine alone_call (op := .assign d h) ?_ hr he
      intro x x' more h1 h2
      simp only [exec, h1, if_pos hd] at h2
      cases h2
      refine ⟨?_, gone_quiet _ _⟩
      simp [State.holds, h1]
    intro e
    rw [show s'.holds e = (s.holders.set d (s.holds h)).getD e none by unfold State.holds; rw [this]; rfl]
    exact set_holds s hd _ e

/-- Move assignment: the other holder is empty afterwards (except if it is the same one). -/
theorem C76_move_assign {s s' : State} {t : Tid} {d h n : Nat} (hd : d < s.holders.length) (hne : d ≠ h)
    (hr : Run (Step (· = (Call.moveAssign d h).ops)) s (.begin t :: List.replicate n (.run t)) s') (he : s'.todo t = []) :
    ∀ e, s'.holds e = if e = d then s.holds h else if e = h then none else s.holds e := by
  simp only [Call.ops, if_neg hne] at hr
  have : s'.holders = (s.holders.set h none).set d (s.holds h) := by
    refine alone_call (op := .moveAssign d h) ?_ hr he
    intro x x' more h1 h2
    simp only [exec, h1] at h2
    rw [if_pos ⟨hd, hne⟩] at h2
    cases h2
    refine ⟨?_, gone_quiet _ _⟩
    simp [State.holds, h1]
  intro e
  unfold State.holds
  rw [this]
  simp only [List.getD_eq_getElem?_getD, List.getElem?_set, List.length_set]
  by_cases h1 : d = e
  · subst h1; simp [hd, State.holds]
  · rw [if_neg h1, if_neg (Ne.symm h1)]
    by_cases h2 : h = e
    · subst h2
      simp
      split <;> rfl
    · rw [if_neg h2, if_neg (Ne.symm h2)]

/-- `reset`, and the destructor: the holder is empty afterwards. -/
theorem C76_reset {s s' : State} {t : Tid} {d n : Nat}
    (hr : Run (Step (· = (Call.reset d).ops)) s (.begin t :: List.replicate n (.run t)) s') (he : s'.todo t = []) :
    ∀ e, s'.holds e = if e = d then none else s.holds e := by
  have : s'.holders = s.holders.set d none := by
    refine alone_call (op := .reset d) ?_ hr he
    intro x x' more h1 h2
    simp only [exec, h1] at h2
    cases h2
    exact ⟨rfl, gone_quiet _ _⟩
  intro e
  unfold State.holds
  rw [this]
  simp only [List.getD_eq_getElem?_getD, List.getElem?_set]
  by_cases h1 : d = e
  · subst h1
    simp
    split <;> rfl
  · rw [if_neg h1, if_neg (Ne.symm h1)]

/-- Such an execution: the last reference to array 0 is dropped by the assignment. -/
example : ∃ s' : State, Run (Step (· = (Call.copyAssign 0 1).ops))
    { holders := [some 0, some 1], next := 2, strong := fun _ => 1, refs := fun _ => 1, cpp := fun _ => 1 }
    (.begin 3 :: List.replicate 5 (.run 3)) s' ∧ s'.todo 3 = [] ∧ s'.holders = [some 1, some 1] ∧ s'.refs 0 = 0 :=
  ⟨_, .cons (.begin rfl rfl) (.cons (.run rfl rfl) (.cons (.run rfl rfl) (.cons (.run rfl rfl) (.cons (.run rfl rfl)
    (.cons (.run rfl rfl) (.nil _)))))), rfl, rfl, rfl⟩

/-- Schedules: start a member call, start `calculate_thresholds`, or go on. -/
inductive Item where
  | call (t : Tid) (c : Call)
  | thresholds (t : Tid) (as : List Nat)
  | run (t : Tid)

def simulate (s : State) : List Item → Option State
  | [] => some s
  | .call t c :: r => if s.todo t = [] then simulate { s with todo := update s.todo t c.ops } r else none
  | .thresholds t as :: r =>
    if s.todo t = [] then simulate { s with todo := update s.todo t (thresholdsCall as) } r else none
  | .run t :: r =>
    match s.todo t with
    | [] => none
    | op :: rest =>
      match exec t s op with
      | none => none
      | some (s', more) => simulate { s' with todo := update s.todo t (more ++ rest) } r

theorem simulate_reach {items : List Item} {s s' : State} (h : simulate s items = some s') :
    Reach (Step allCalls) s s' := by
  induction items generalizing s with
  | nil => cases h; exact .refl _
  | cons i r ih =>
    cases i with
    | call t c =>
      simp only [simulate] at h
      split at h
      · next h0 => exact .head (.begin h0 (.inl ⟨c, rfl⟩)) (ih h)
      · cases h
    | thresholds t as =>
      simp only [simulate] at h
      split at h
      · next h0 => exact .head (.begin h0 (.inr ⟨as, rfl⟩)) (ih h)
      · cases h
    | run t =>
      simp only [simulate] at h
      split at h
      · cases h
      · next op rest h0 =>
        split at h
        · cases h
        · next he => exact .head (.run h0 he) (ih h)

/-- An array is read and Python takes a reference; thread 0 calls `calculate_thresholds` with it; while it destroys the
parameter, thread 1 runs Python code which takes another reference. -/
def badSchedule : List Item :=
  [.call 0 .read, .run 0, .run 0, .run 0,
   .call 0 (.pyCopy 0), .run 0, .run 0, .run 0, .run 0, .run 0,
   .thresholds 0 [0], .run 0, .run 0, .run 0, .run 0, .run 0,
   .run 0, .run 0,
   .call 1 (.pyCopy 0), .run 1, .run 1, .run 1, .run 1, .run 1,
   .run 0]

/-- C76 is false for the array arguments of `calculate_thresholds`: the reference is dropped without the lock, ... -/
theorem C76_arguments_unlocked :
    ∃ s s' t, Reach (Step allCalls) {} s ∧ Step allCalls s (.run t) s' ∧ s'.refs 0 ≠ s.refs 0 ∧ s.gil = none := by
  obtain ⟨s, hs, h0, hg, hr⟩ : ∃ s, simulate {} (badSchedule.take 24) = some s ∧
      s.todo 0 = [.store 0 .decPy] ∧ s.gil = none ∧ (s.reg 0 - 1 ≠ s.refs 0) := by
    refine ⟨_, rfl, rfl, rfl, ?_⟩
    decide
  refine ⟨s, _, 0, simulate_reach hs, .run h0 rfl, ?_, hg⟩
  simpa using hr

/-- ... a concurrent change is lost, and the array can be freed while Python has a reference to it: at the end no call
is in progress, the count is zero, and there is a reference left. -/
theorem C76_arguments_false :
    ∃ s, Reach (Step allCalls) {} s ∧ s.todo 0 = [] ∧ s.todo 1 = [] ∧ s.refs 0 = 0 ∧ s.py 0 = 1 := by
  obtain ⟨s, hs, h⟩ : ∃ s, simulate {} (badSchedule ++
      [.call 0 (.reset 0), .run 0, .run 0, .run 0, .run 0, .run 0,
       .call 1 (.pyDrop 0), .run 1, .run 1, .run 1, .run 1, .run 1]) = some s ∧
      s.todo 0 = [] ∧ s.todo 1 = [] ∧ s.refs 0 = 0 ∧ s.py 0 = 1 :=
    ⟨_, rfl, rfl, rfl, rfl, rfl⟩
  exact ⟨s, simulate_reach hs, h⟩

/-! ### Only the drop of a parameter is without the lock -/

/-- With `d` acquisitions: every acquisition is released, and all that changes a count or a holder's pointee has the lock, other than
the drop of a reference of Python. -/
private def Guarded : Nat → List Op → Prop
  | d, [] => d = 0
  | d, .acquire :: r => Guarded (d + 1) r
  | d, .release :: r => 0 < d ∧ Guarded (d - 1) r
  | d, .create :: r => 0 < d ∧ Guarded d r
  | d, .assign _ _ :: r => 0 < d ∧ Guarded d r
  | d, .moveAssign _ _ :: r => 0 < d ∧ Guarded d r
  | d, .reset _ :: r => 0 < d ∧ Guarded d r
  | d, .pyCopy _ :: r => 0 < d ∧ Guarded d r
  | d, .store _ .incPy :: r => 0 < d ∧ Guarded d r
  | d, .store _ .decCpp :: r => 0 < d ∧ Guarded d r
  | d, .store _ .decPy :: r => Guarded d r
  | d, .pyDrop _ :: r => Guarded d r
  | d, .load _ :: r => Guarded d r
  | d, .copyNew _ :: r => Guarded d r
  | d, .moveNew _ :: r => Guarded d r

private theorem guarded_gone {d : Nat} (hd : 0 < d) {r : List Op} (h : Guarded d r) (st : Nat → Nat) (x : Option Nat) :
    Guarded d (gone st x ++ r) := by
  cases x with
  | none => exact h
  | some a =>
    simp only [gone]
    split
    · exact ⟨hd, h⟩
    · exact h

private theorem guarded_drops (as : List Nat) : Guarded 0 (as.map .pyDrop) := by
  induction as with
  | nil => rfl
  | cons a as ih => exact ih

private theorem guarded_copies (as : List Nat) {r : List Op} (h : Guarded 1 r) : Guarded 1 (as.map .pyCopy ++ r) := by
  induction as with
  | nil => exact h
  | cons a as ih => exact ⟨Nat.one_pos, ih⟩

private theorem guarded_calls {ops : List Op} (h : allCalls ops) : Guarded 0 ops := by
  rcases h with ⟨c, rfl⟩ | ⟨as, rfl⟩
  · cases c <;> simp only [Call.ops]
    case copyAssign d h => split <;> simp [Guarded]
    case moveAssign d h => split <;> simp [Guarded]
    all_goals simp [Guarded]
  · exact guarded_copies as ⟨Nat.one_pos, guarded_drops as⟩

private structure Locks (s : State) : Prop where
  guarded : ∀ t, Guarded (s.depth t) (s.todo t)
  owner : ∀ t, 0 < s.depth t → s.gil = some t

private theorem locks_reach {s : State} (h : Reach (Step allCalls) {} s) : Locks s := by
  refine h.inv Locks ⟨fun t => rfl, fun t ht => absurd ht (Nat.lt_irrefl 0)⟩ ?_
  intro s₀ _ _ ih hst
  cases hst with
  | begin h0 hc =>
    rename_i t ops
    refine ⟨fun u => ?_, ih.owner⟩
    show Guarded _ (update _ t ops u)
    unfold update
    split
    · next e =>
      subst e
      have := ih.guarded u
      rw [h0] at this
      rw [show _ = 0 from this]
      exact guarded_calls hc
    · exact ih.guarded u
  | run h0 he =>
    rename_i s₁ t op rest more
    have hg := ih.guarded t
    rw [h0] at hg
    have key : Guarded (s₁.depth t) (more ++ rest) ∧ (∀ u, u ≠ t → s₁.depth u = s₀.depth u) ∧
        (∀ u, 0 < s₁.depth u → s₁.gil = some u) := by
      have ho := ih.owner
      cases op with
      | acquire =>
        simp only [exec] at he
        split at he
        · next hfree =>
          cases he
          refine ⟨by simpa [update, Guarded] using hg, fun u hu => by simp [update, hu], fun u hu => ?_⟩
          by_cases e : u = t
          · rw [e]
          · simp only [update, if_neg e] at hu
            rcases hfree with hf | hf
            · rw [ho u hu] at hf; cases hf
            · rw [ho u hu] at hf; cases hf; exact absurd rfl e
        · cases he
      | release =>
        cases he
        refine ⟨by simpa [update] using hg.2, fun u hu => by simp [update, hu], fun u hu => ?_⟩
        by_cases e : u = t
        · subst e
          simp only [update, if_true] at hu
          rw [if_neg (by omega)]
          exact ho u hg.1
        · simp only [update, if_neg e] at hu
          have h1 := ho u hu
          rw [ho t hg.1] at h1
          cases h1; exact absurd rfl e
      | create => cases he; exact ⟨hg.2, fun _ _ => rfl, ho⟩
      | copyNew h => cases he; exact ⟨hg, fun _ _ => rfl, ho⟩
      | moveNew h => cases he; exact ⟨hg, fun _ _ => rfl, ho⟩
      | assign d h =>
        simp only [exec] at he
        split at he
        · cases he; exact ⟨guarded_gone hg.1 hg.2 _ _, fun _ _ => rfl, ho⟩
        · cases he; exact ⟨hg.2, fun _ _ => rfl, ho⟩
      | moveAssign d h =>
        simp only [exec] at he
        split at he
        · cases he; exact ⟨guarded_gone hg.1 hg.2 _ _, fun _ _ => rfl, ho⟩
        · cases he; exact ⟨hg.2, fun _ _ => rfl, ho⟩
      | reset d => cases he; exact ⟨guarded_gone hg.1 hg.2 _ _, fun _ _ => rfl, ho⟩
      | pyCopy a =>
        simp only [exec] at he
        cases he
        refine ⟨?_, fun _ _ => rfl, ho⟩
        split
        · exact ⟨hg.1, hg.2⟩
        · exact hg.2
      | pyDrop a =>
        simp only [exec] at he
        cases he
        refine ⟨?_, fun _ _ => rfl, ho⟩
        split
        · exact hg
        · exact hg
      | load a => cases he; exact ⟨hg, fun _ _ => rfl, ho⟩
      | store a c =>
        cases c with
        | incPy => cases he; exact ⟨hg.2, fun _ _ => rfl, ho⟩
        | decPy => cases he; exact ⟨hg, fun _ _ => rfl, ho⟩
        | decCpp => cases he; exact ⟨hg.2, fun _ _ => rfl, ho⟩
    refine ⟨fun u => ?_, key.2.2⟩
    show Guarded (s₁.depth u) (update s₀.todo t (more ++ rest) u)
    unfold update
    split
    · next e => subst e; exact key.1
    · next e => rw [key.2.1 u e]; exact ih.guarded u

/-- C76 with `calculate_thresholds` too: a thread which changes a reference count without the lock is dropping a reference of Python
(a parameter). All references are taken, and all arrays are created, with the lock held. -/
theorem C76_arguments_partial {s s' : State} {t : Tid} {a : Nat} (h : Reach (Step allCalls) {} s) (hs : Step allCalls s (.run t) s')
    (hr : s'.refs a ≠ s.refs a) : s.gil = some t ∨ ∃ rest, s.todo t = .store a .decPy :: rest := by
  have hl := locks_reach h
  cases hs with
  | run h0 he =>
    rename_i s₁ op rest more
    have hg := hl.guarded t
    rw [h0] at hg
    cases op with
    | acquire =>
      simp only [exec] at he
      split at he
      · cases he; exact absurd rfl hr
      · cases he
    | release => cases he; exact absurd rfl hr
    | create => exact .inl (hl.owner t hg.1)
    | copyNew h => cases he; exact absurd rfl hr
    | moveNew h => cases he; exact absurd rfl hr
    | assign d h => exact .inl (hl.owner t hg.1)
    | moveAssign d h => exact .inl (hl.owner t hg.1)
    | reset d => exact .inl (hl.owner t hg.1)
    | pyCopy b => exact .inl (hl.owner t hg.1)
    | pyDrop b => cases he; exact absurd rfl hr
    | load b => cases he; exact absurd rfl hr
    | store b c =>
      cases c with
      | incPy => exact .inl (hl.owner t hg.1)
      | decCpp => exact .inl (hl.owner t hg.1)
      | decPy =>
        cases he
        refine .inr ⟨rest, ?_⟩
        by_cases e : a = b
        · rw [h0, e]
        · simp [update, e] at hr

/-- Two blocks refer to one array, one is destroyed by another thread. -/
example : ∃ s, simulate {} [.call 0 .read, .run 0, .run 0, .run 0, .call 0 (.copyCtor 0), .run 0,
    .call 1 (.reset 1), .run 1, .run 1, .run 1] = some s ∧ s.refs 0 = 1 ∧ s.holders = [some 0, none] :=
  ⟨_, rfl, rfl, rfl⟩

end Stempy.Gil
