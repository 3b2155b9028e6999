/-!
Executions of a labelled transition system.
-/

namespace Stempy.Spec

/-- A finite execution: the sequence of labels of its steps. -/
inductive Run {σ l : Type} (step : σ → l → σ → Prop) : σ → List l → σ → Prop where
  | nil (s : σ) : Run step s [] s
  | snoc {s t u : σ} {ls : List l} {a : l} : Run step s ls t → step t a u → Run step s (ls ++ [a]) u

/-- States reachable from `s`. -/
def Reach {σ l : Type} (step : σ → l → σ → Prop) (s t : σ) : Prop := ∃ ls, Run step s ls t

namespace Run
variable {σ l : Type} {step : σ → l → σ → Prop}

theorem inv {s t : σ} {ls : List l} (h : Run step s ls t) (I : σ → Prop) (h0 : I s)
    (hs : ∀ a b c, I a → step a b c → I c) : I t := by
  induction h with
  | nil => exact h0
  | snoc _ h2 ih => exact hs _ _ _ ih h2

theorem cons {s t u : σ} {a : l} {ls : List l} (h1 : step s a t) (h2 : Run step t ls u) :
    Run step s (a :: ls) u := by
  induction h2 with
  | nil => exact (Run.snoc (Run.nil s) h1)
  | snoc _ h ih => exact Run.snoc ih h

theorem trans {s t u : σ} {as bs : List l} (h1 : Run step s as t) (h2 : Run step t bs u) :
    Run step s (as ++ bs) u := by
  induction h2 with
  | nil => simpa using h1
  | snoc _ h ih => rw [← List.append_assoc]; exact Run.snoc ih h

/-- Bound on the length of an execution from a measure: every step of kind `a` changes the measure by at
most `gain a - 1`. -/
theorem length_le {s t : σ} {ls : List l} (h : Run step s ls t) (I : σ → Prop) (μ : σ → Nat)
    (gain : l → Nat) (h0 : I s) (hI : ∀ a b c, I a → step a b c → I c)
    (hμ : ∀ a b c, I a → step a b c → μ c + 1 ≤ μ a + gain b) :
    ls.length + μ t ≤ μ s + (ls.map gain).sum := by
  induction h with
  | nil => simp
  | snoc h1 h2 ih =>
    have := hμ _ _ _ (h1.inv I h0 hI) h2
    have := ih
    simp only [List.length_append, List.length_cons, List.length_nil, List.map_append, List.map_cons,
      List.map_nil, List.sum_append, List.sum_cons, List.sum_nil]
    omega

end Run

namespace Reach
variable {σ l : Type} {st : σ → l → σ → Prop}

theorem refl (s : σ) : Reach st s s := ⟨[], .nil s⟩

theorem inv {s t : σ} (h : Reach st s t) (I : σ → Prop) (h0 : I s)
    (hs : ∀ a b c, I a → st a b c → I c) : I t := by
  obtain ⟨ls, h⟩ := h
  exact h.inv I h0 hs

theorem step {s t u : σ} {a : l} (h : Reach st s t) (h2 : st t a u) :
    Reach st s u := by
  obtain ⟨ls, h⟩ := h
  exact ⟨_, h.snoc h2⟩

theorem head {s t u : σ} {a : l} (h2 : st s a t) (h : Reach st t u) :
    Reach st s u := by
  obtain ⟨ls, h⟩ := h
  exact ⟨_, h.cons h2⟩

theorem trans {s t u : σ} (h : Reach st s t) (h2 : Reach st t u) :
    Reach st s u := by
  obtain ⟨_, h⟩ := h
  obtain ⟨_, h2⟩ := h2
  exact ⟨_, h.trans h2⟩

/-- If every state which is not final has a step, and executions are bounded, then there is a final state. -/
theorem exists_final {s : σ} {final : σ → Prop} {n : Nat}
    (progress : ∀ t, Reach st s t → ¬ final t → ∃ a u, st t a u)
    (bound : ∀ ls t, Run st s ls t → ls.length ≤ n) : ∃ t, Reach st s t ∧ final t := by
  have key : ∀ k, (∃ t, Reach st s t ∧ final t) ∨ ∃ ls t, Run st s ls t ∧ ls.length = k := by
    intro k
    induction k with
    | zero => exact .inr ⟨[], s, .nil s, rfl⟩
    | succ k ih =>
      rcases ih with h | ⟨ls, t, h, hl⟩
      · exact .inl h
      · by_cases hf : final t
        · exact .inl ⟨t, ⟨ls, h⟩, hf⟩
        · obtain ⟨a, u, hu⟩ := progress t ⟨ls, h⟩ hf
          exact .inr ⟨_, u, h.snoc hu, by simp [hl]⟩
  rcases key (n + 1) with h | ⟨ls, t, h, hl⟩
  · exact h
  · have := bound ls t h
    omega

end Reach

end Stempy.Spec
