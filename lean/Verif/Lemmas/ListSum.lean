import Verif.Basic
import Mathlib.Tactic.Ring
import Mathlib.Tactic.Linarith
import Mathlib.Algebra.BigOperators.Group.List.Basic

/-!
Helper lemmas on sums over ranges, uniform concatenations and modular accumulation.
-/

namespace Stempy

theorem sum_map_add' {α : Type} (l : List α) (f g : α → Nat) :
    (l.map fun a => f a + g a).sum = (l.map f).sum + (l.map g).sum := by
  induction l with
  | nil => rfl
  | cons a l ih => simp only [List.map_cons, List.sum_cons, ih]; omega

theorem sum_map_flatten {α : Type} (ls : List (List α)) (f : α → Nat) :
    (ls.map fun l => (l.map f).sum).sum = (ls.flatten.map f).sum := by
  induction ls with
  | nil => rfl
  | cons l ls ih =>
    rw [List.map_cons, List.sum_cons, ih, List.flatten_cons, List.map_append, List.sum_append]

theorem sum_map_le {α : Type} (l : List α) (f : α → Nat) (c : Nat) (h : ∀ a ∈ l, f a ≤ c) :
    (l.map f).sum ≤ l.length * c := by
  induction l with
  | nil => simp
  | cons a l ih =>
    have h1 := h a (by simp)
    have h2 := ih (fun b hb => h b (by simp [hb]))
    simp only [List.map_cons, List.sum_cons, List.length_cons]
    have : (l.length + 1) * c = l.length * c + c := by ring
    omega

/-- Accumulating modulo `M` gives the sum modulo `M`. -/
theorem foldl_add_mod {α : Type} (l : List α) (f : α → Nat) (M a : Nat) (ha : a < M) :
    l.foldl (fun acc x => (acc + f x) % M) a = (a + (l.map f).sum) % M := by
  induction l generalizing a with
  | nil => simp [Nat.mod_eq_of_lt ha]
  | cons x l ih =>
    simp only [List.foldl_cons, List.map_cons, List.sum_cons]
    rw [ih _ (Nat.mod_lt _ (by omega)), Nat.mod_add_mod]
    congr 1; omega

/-- Summing over a flat row-major index is summing over rows and columns. -/
theorem sum_range_mul (w h : Nat) (f : Nat → Nat) :
    ((List.range (w * h)).map f).sum =
      ((List.range h).map fun y => ((List.range w).map fun x => f (y * w + x)).sum).sum := by
  induction h with
  | zero => simp
  | succ h ih =>
    have e : w * (h + 1) = w * h + w := by ring
    rw [e, List.range_add, List.map_append, List.sum_append, ih, List.range_succ,
      List.map_append, List.sum_append]
    simp only [List.map_map, List.map_cons, List.map_nil, List.sum_cons, List.sum_nil, Nat.add_zero]
    congr 2
    apply List.map_congr_left
    intro x _
    simp only [Function.comp]
    congr 1; ring

/-- Element of a concatenation of lists of one length. -/
theorem flatten_uniform_getElem? {α : Type} (ls : List (List α)) (n : Nat)
    (h : ∀ l ∈ ls, l.length = n) (i j : Nat) (hj : j < n) :
    ls.flatten[i * n + j]? = (ls[i]?).bind (fun l => l[j]?) := by
  induction ls generalizing i with
  | nil => simp
  | cons l ls ih =>
    have hl : l.length = n := h l (by simp)
    cases i with
    | zero =>
      simp only [List.flatten_cons, Nat.zero_mul, Nat.zero_add, List.getElem?_cons_zero,
        Option.bind_some]
      rw [List.getElem?_append_left (by omega)]
    | succ i =>
      simp only [List.flatten_cons, List.getElem?_cons_succ]
      rw [List.getElem?_append_right (by rw [hl]; nlinarith), hl]
      have : (i + 1) * n + j - n = i * n + j := by
        have : (i + 1) * n = i * n + n := by ring
        omega
      rw [this]
      exact ih (fun l hl => h l (by simp [hl])) i

theorem flatten_uniform_length {α : Type} (ls : List (List α)) (n : Nat)
    (h : ∀ l ∈ ls, l.length = n) : ls.flatten.length = ls.length * n := by
  induction ls with
  | nil => simp
  | cons l ls ih =>
    rw [List.flatten_cons, List.length_append, h l (by simp),
      ih (fun l hl => h l (by simp [hl])), List.length_cons]
    ring

theorem divmod_lt {w h i : Nat} (hi : i < w * h) : i % w < w ∧ i / w < h := by
  have hw0 : 0 < w := by
    rcases Nat.eq_zero_or_pos w with h0 | h0
    · subst h0; simp at hi
    · exact h0
  exact ⟨Nat.mod_lt _ hw0, Nat.div_lt_of_lt_mul hi⟩

theorem flat_lt {w h x y : Nat} (hx : x < w) (hy : y < h) : y * w + x < w * h := by
  calc y * w + x < y * w + w := by omega
    _ = (y + 1) * w := by ring
    _ ≤ h * w := Nat.mul_le_mul_right _ hy
    _ = w * h := by ring

theorem flat_mod {w x : Nat} (y : Nat) (hx : x < w) : (y * w + x) % w = x := by
  rw [Nat.add_comm, Nat.add_mul_mod_self_right, Nat.mod_eq_of_lt hx]

theorem flat_div {w x : Nat} (y : Nat) (hx : x < w) : (y * w + x) / w = y := by
  rw [Nat.add_comm, Nat.add_mul_div_right _ _ (by omega), Nat.div_eq_of_lt hx]; omega

end Stempy
