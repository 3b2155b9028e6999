import Verif.Basic

/-!
Loop rules: invariants for monadic folds.
-/

namespace Stempy

/-- Invariant rule for a loop over a list; the invariant speaks about the processed prefix. -/
theorem foldlM_list_inv {α σ : Type} (l : List α) (f : σ → α → Outcome σ)
    (I : List α → σ → Prop) (s0 : σ) (h0 : I [] s0)
    (step : ∀ pre a post s, l = pre ++ a :: post → I pre s →
      ∃ s', f s a = .ok s' ∧ I (pre ++ [a]) s') :
    ∃ s', l.foldlM f s0 = .ok s' ∧ I l s' := by
  suffices H : ∀ (rest pre : List α) (s : σ), l = pre ++ rest → I pre s →
      ∃ s', rest.foldlM f s = .ok s' ∧ I l s' from H l [] s0 rfl h0
  intro rest
  induction rest with
  | nil => intro pre s hl hI; exact ⟨s, rfl, by simpa [hl] using hI⟩
  | cons a rest ih =>
    intro pre s hl hI
    obtain ⟨s1, h1, h2⟩ := step pre a rest s hl hI
    obtain ⟨s2, h3, h4⟩ := ih (pre ++ [a]) s1 (by simp [hl]) h2
    exact ⟨s2, by rw [List.foldlM_cons, h1]; exact h3, h4⟩

/-- Invariant rule for a counting loop. -/
theorem foldlM_range_inv {σ : Type} (n : Nat) (f : σ → Nat → Outcome σ)
    (I : Nat → σ → Prop) (s0 : σ) (h0 : I 0 s0)
    (step : ∀ k, k < n → ∀ s, I k s → ∃ s', f s k = .ok s' ∧ I (k + 1) s') :
    ∃ s', (List.range n).foldlM f s0 = .ok s' ∧ I n s' := by
  have := foldlM_list_inv (List.range n) f (fun pre s => I pre.length s) s0 h0 (by
    intro pre a post s hl hI
    have ha : a = pre.length := by
      have h1 : (List.range n)[pre.length]? = some a := by rw [hl]; simp
      have h2 := (List.getElem?_eq_some_iff.1 h1)
      obtain ⟨_, h2⟩ := h2
      simpa using h2.symm
    have hlt : pre.length < n := by
      have : (List.range n).length = pre.length + (post.length + 1) := by rw [hl]; simp
      simp at this; omega
    subst ha
    obtain ⟨s', h1, h2⟩ := step pre.length hlt s hI
    exact ⟨s', h1, by simpa using h2⟩)
  simpa using this

/-- Invariant rule for a pure loop over a list. -/
theorem foldl_list_inv {α σ : Type} (l : List α) (f : σ → α → σ)
    (I : List α → σ → Prop) (s0 : σ) (h0 : I [] s0)
    (step : ∀ pre a post s, l = pre ++ a :: post → I pre s → I (pre ++ [a]) (f s a)) :
    I l (l.foldl f s0) := by
  suffices H : ∀ (rest pre : List α) (s : σ), l = pre ++ rest → I pre s → I l (rest.foldl f s) from
    H l [] s0 rfl h0
  intro rest
  induction rest with
  | nil => intro pre s hl hI; simpa [hl] using hI
  | cons a rest ih =>
    intro pre s hl hI
    exact ih (pre ++ [a]) _ (by simp [hl]) (step pre a rest s hl hI)

end Stempy
