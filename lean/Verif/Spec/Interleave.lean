/-!
Interleavings of thread programs, each program being the list of its atomic steps.
-/

namespace Stempy

/-- `Interleave ts tr`: the trace `tr` is a complete interleaving of the thread programs `ts`: at
every step some thread executes its next operation, until all are finished. -/
inductive Interleave {α : Type} : List (List α) → List α → Prop where
  | done {ts : List (List α)} (h : ∀ t ∈ ts, t = []) : Interleave ts []
  | step {pre post : List (List α)} {a : α} {t tr : List α}
      (h : Interleave (pre ++ t :: post) tr) : Interleave (pre ++ (a :: t) :: post) (a :: tr)

namespace Interleave

/-- An interleaving is a rearrangement of all operations. -/
theorem perm {α : Type} {ts : List (List α)} {tr : List α} (h : Interleave ts tr) :
    tr.Perm ts.flatten := by
  induction h with
  | done h =>
    rename_i ts
    have : ts.flatten = [] := by simpa using h
    rw [this]
  | step _ ih =>
    rename_i pre post a t tr _
    have e : (pre ++ (a :: t) :: post).flatten = pre.flatten ++ a :: (t ++ post.flatten) := by
      simp
    rw [e]
    refine (List.Perm.cons a ih).trans ?_
    have e2 : (pre ++ t :: post).flatten = pre.flatten ++ (t ++ post.flatten) := by simp
    rw [e2]
    exact List.perm_middle.symm

/-- An interleaving keeps the order of the operations of each thread. -/
theorem sublist {α : Type} {ts : List (List α)} {tr : List α} (h : Interleave ts tr) :
    ∀ t ∈ ts, t.Sublist tr := by
  induction h with
  | done h => intro t ht; rw [h t ht]; exact List.Sublist.refl _
  | step _ ih =>
    rename_i pre post a t tr _
    intro u hu
    simp only [List.mem_append, List.mem_cons] at hu
    rcases hu with hu | hu | hu
    · exact (ih u (by simp [hu])).cons a
    · subst hu; exact (ih t (by simp)).cons_cons a
    · exact (ih u (by simp [hu])).cons a

/-- Executing the threads one after the other is an interleaving. -/
theorem sequential {α : Type} (ts : List (List α)) : Interleave ts ts.flatten := by
  suffices h : ∀ pre : List (List α), (∀ t ∈ pre, t = []) → Interleave (pre ++ ts) ts.flatten by
    simpa using h [] (by simp)
  induction ts with
  | nil => intro pre hp; exact .done (by simpa using hp)
  | cons t ts ih =>
    intro pre hp
    induction t with
    | nil =>
      have := ih (pre ++ [[]]) (by
        intro t ht
        simp only [List.mem_append, List.mem_singleton] at ht
        rcases ht with h | h
        · exact hp t h
        · exact h)
      simpa using this
    | cons a t iht => exact .step iht

end Interleave
end Stempy
