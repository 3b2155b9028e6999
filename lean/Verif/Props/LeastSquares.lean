import Verif.Model.LeastSquares
import Mathlib.Algebra.Order.Archimedean.Basic
import Mathlib.Algebra.Order.BigOperators.Ring.Finset
import Mathlib.Logic.Function.Iterate
import Mathlib.Tactic.Linarith
import Mathlib.Tactic.Ring
import Mathlib.Tactic.FieldSimp
import Mathlib.Tactic.NormNum
import Mathlib.Tactic.Positivity

/-! # C100: the line searches of least-squares-cpp -/

set_option linter.unusedSectionVars false

namespace Stempy.Props.LeastSquares
open Stempy.LeastSquares

variable {K : Type} [Field K] [LinearOrder K] [IsStrictOrderedRing K] {n m : Nat}

/-- Half of the sum of the squares of the errors. -/
def cost (e : ErrorFunction K n m) (x : Fin n → K) : K := (∑ i, e.value x i ^ 2) / 2

theorem errorAt_eq (e : ErrorFunction K n m) (x : Fin n → K) : e.errorAt x = cost e x := by
  simp only [ErrorFunction.errorAt, ErrorFunction.evaluate, squaredError, cost, dotProduct, ← pow_two]
  ring

theorem cost_nonneg (e : ErrorFunction K n m) (x : Fin n → K) : 0 ≤ cost e x := by
  unfold cost
  have := Finset.sum_nonneg (fun i (_ : i ∈ Finset.univ) => sq_nonneg (e.value x i))
  linarith

/-- A loop whose body is a function ends where the condition does not hold for the first time. -/
theorem while_iff {S : Type} {c : S → Prop} {b : S → S → Prop} (f : S → S) (hb : ∀ s t, b s t ↔ t = f s) (s t : S) :
    While c b s t ↔ ∃ k, t = f^[k] s ∧ (∀ j < k, c (f^[j] s)) ∧ ¬ c (f^[k] s) := by
  constructor
  · intro h
    induction h with
    | stop h => exact ⟨0, rfl, fun _ h => absurd h (Nat.not_lt_zero _), h⟩
    | @step s t u h hst _ ih =>
      obtain ⟨k, hk, hj, hn⟩ := ih
      rw [(hb s t).1 hst] at hk hj hn
      refine ⟨k + 1, hk, ?_, hn⟩
      rintro (_ | j) hlt
      · exact h
      · exact hj j (by omega)
  · rintro ⟨k, rfl, hj, hn⟩
    induction k generalizing s with
    | zero => exact .stop hn
    | succ k ih =>
      refine .step (hj 0 (by omega)) ((hb _ _).2 rfl) (ih (f s) (fun j hlt => hj (j + 1) (by omega)) hn)

/-- Two ends of such a loop are the same. -/
theorem while_det {S : Type} {c : S → Prop} {b : S → S → Prop} (f : S → S) (hb : ∀ s t, b s t ↔ t = f s) {s t u : S}
    (h1 : While c b s t) (h2 : While c b s u) : t = u := by
  obtain ⟨k, rfl, hk, hk'⟩ := (while_iff f hb _ _).1 h1
  obtain ⟨j, rfl, hj, hj'⟩ := (while_iff f hb _ _).1 h2
  rcases Nat.lt_trichotomy k j with h | rfl | h
  · exact absurd (hj k h) hk'
  · rfl
  · exact absurd (hk j h) hj'

/-- Such a loop ends if the condition does not always hold. -/
theorem while_exists {S : Type} {c : S → Prop} {b : S → S → Prop} (f : S → S) (hb : ∀ s t, b s t ↔ t = f s) (s : S)
    (h : ∃ k, ¬ c (f^[k] s)) : ∃ t, While c b s t := by
  classical
  refine ⟨_, (while_iff f hb _ _).2 ⟨Nat.find h, rfl, fun j hj => ?_, Nat.find_spec h⟩⟩
  exact not_not.1 (Nat.find_min h hj)

/-! ## Armijo backtracking -/

/-- The error at step length `len` is small enough: below the line from the error at `x` with the slope `γ` times that of the error. -/
def Sufficient (e : ErrorFunction K n m) (x d g : Fin n → K) (γ len : K) : Prop :=
  cost e (x + len • d) ≤ cost e x + γ * len * ∑ i, g i * d i

section armijo
variable (a : Armijo K) (e : ErrorFunction K n m) (x d : Fin n → K)

def Armijo.next (s : ArmijoState K) : ArmijoState K :=
  { result := s.result * a.beta
    currVal := e.errorAt (x + (s.result * a.beta) • d)
    iterations := s.iterations + 1 }

def Armijo.start : ArmijoState K := { result := a.maxStepLen, currVal := e.errorAt (x + a.maxStepLen • d), iterations := 0 }

theorem Armijo.iterate (k : Nat) : (Armijo.next a e x d)^[k] (Armijo.start a e x d) =
    { result := a.maxStepLen * a.beta ^ k, currVal := e.errorAt (x + (a.maxStepLen * a.beta ^ k) • d), iterations := k } := by
  induction k with
  | zero => simp [Armijo.start]
  | succ k ih =>
    rw [Function.iterate_succ_apply', ih]
    simp only [Armijo.next, pow_succ, mul_assoc]

theorem Armijo.search_iff (len : K) : a.Search e x d len ↔
    ∃ k, len = max (a.maxStepLen * a.beta ^ k) a.minStepLen ∧
      (∀ j < k, ¬ Sufficient e x d (e.gradient x) a.gamma (a.maxStepLen * a.beta ^ j) ∧ Goes a.maxIt j ∧ a.minStepLen < a.maxStepLen * a.beta ^ j) ∧
      ¬ (¬ Sufficient e x d (e.gradient x) a.gamma (a.maxStepLen * a.beta ^ k) ∧ Goes a.maxIt k ∧ a.minStepLen < a.maxStepLen * a.beta ^ k) := by
  have hb : ∀ s t, a.body e x d s t ↔ t = Armijo.next a e x d s := fun s t => Iff.rfl
  have hc : ∀ k, a.cond e x d ((Armijo.next a e x d)^[k] (Armijo.start a e x d)) ↔
      (¬ Sufficient e x d (e.gradient x) a.gamma (a.maxStepLen * a.beta ^ k) ∧ Goes a.maxIt k ∧ a.minStepLen < a.maxStepLen * a.beta ^ k) := by
    intro k
    rw [Armijo.iterate]
    simp only [Armijo.cond, armijoCondition, Sufficient, errorAt_eq, dotProduct]
  unfold Armijo.Search
  constructor
  · rintro ⟨t, ht, rfl⟩
    obtain ⟨k, rfl, h1, h2⟩ := (while_iff _ hb _ _).1 ht
    refine ⟨k, ?_, fun j hj => (hc j).1 (h1 j hj), fun h => h2 ((hc k).2 h)⟩
    exact congrArg (fun s => max s.result a.minStepLen) (Armijo.iterate a e x d k)
  · rintro ⟨k, rfl, h1, h2⟩
    refine ⟨_, (while_iff _ hb _ _).2 ⟨k, rfl, fun j hj => (hc j).2 (h1 j hj), fun h => h2 ((hc k).1 h)⟩, ?_⟩
    exact (congrArg (fun s => max s.result a.minStepLen) (Armijo.iterate a e x d k)).symm

theorem Armijo.search_unique {l l' : K} (h : a.Search e x d l) (h' : a.Search e x d l') : l = l' := by
  obtain ⟨t, ht, rfl⟩ := h
  obtain ⟨u, hu, rfl⟩ := h'
  rw [while_det (Armijo.next a e x d) (fun s t => Iff.rfl) ht hu]

/-- With bounds `0 < min ≤ max` and a factor in (0, 1) the search returns, one length only, and this is in the bounds. -/
theorem C100_armijo [Archimedean K] (hβ : 0 < a.beta) (hβ1 : a.beta < 1) (hmin : 0 < a.minStepLen) (hmax : a.minStepLen ≤ a.maxStepLen) :
    (∃! len, a.Search e x d len) ∧ ∀ len, a.Search e x d len → a.minStepLen ≤ len ∧ len ≤ a.maxStepLen := by
  have hM : 0 < a.maxStepLen := lt_of_lt_of_le hmin hmax
  constructor
  · obtain ⟨k, hk⟩ := exists_pow_lt_of_lt_one (div_pos hmin hM) hβ1
    rw [lt_div_iff₀ hM, mul_comm] at hk
    have hend : ∃ t, While (a.cond e x d) (a.body e x d) (Armijo.start a e x d) t := by
      apply while_exists (Armijo.next a e x d) (fun s t => Iff.rfl)
      refine ⟨k, fun hc => ?_⟩
      rw [Armijo.iterate] at hc
      exact absurd hc.2.2 (not_lt.2 hk.le)
    obtain ⟨t, ht⟩ := hend
    exact ⟨_, ⟨t, ht, rfl⟩, fun l hl => Armijo.search_unique a e x d hl ⟨t, ht, rfl⟩⟩
  · intro len h
    obtain ⟨k, rfl, -, -⟩ := (Armijo.search_iff a e x d len).1 h
    refine ⟨le_max_right _ _, max_le ?_ hmax⟩
    exact mul_le_of_le_one_right hM.le (pow_le_one₀ hβ.le hβ1.le)

/-- What the search returns: the first of the lengths `max`, `max β`, `max β²`, ... with a sufficient decrease; unless the limit of the iterations
is reached, or a length is at most `min`, which is then returned. The gradient is that of the Jacobian which `evaluate` gives. -/
theorem C100_armijo_result (len : K) (h : a.Search e x d len) :
    ∃ k, (a.maxIt = 0 ∨ k ≤ a.maxIt) ∧ (∀ j < k, ¬ Sufficient e x d (e.gradient x) a.gamma (a.maxStepLen * a.beta ^ j)) ∧
      ((len = a.maxStepLen * a.beta ^ k ∧ Sufficient e x d (e.gradient x) a.gamma len) ∨
        (k = a.maxIt ∧ 0 < k ∧ len = a.maxStepLen * a.beta ^ k) ∨
        (len = a.minStepLen ∧ a.maxStepLen * a.beta ^ k ≤ a.minStepLen)) := by
  obtain ⟨k, hl, h1, h2⟩ := (Armijo.search_iff a e x d len).1 h
  refine ⟨k, ?_, fun j hj => (h1 j hj).1, ?_⟩
  · rcases k with _ | k
    · exact Or.inr (Nat.zero_le _)
    · rcases (h1 k (by omega)).2.1 with h | h
      · exact Or.inl h
      · exact Or.inr h
  · by_cases hle : a.maxStepLen * a.beta ^ k ≤ a.minStepLen
    · exact Or.inr (Or.inr ⟨by rw [hl, max_eq_right hle], hle⟩)
    · have hlen : len = a.maxStepLen * a.beta ^ k := by rw [hl, max_eq_left (not_le.1 hle).le]
      by_cases hs : Sufficient e x d (e.gradient x) a.gamma (a.maxStepLen * a.beta ^ k)
      · exact Or.inl ⟨hlen, hlen ▸ hs⟩
      · have hg : ¬ Goes a.maxIt k := fun hg => h2 ⟨hs, hg, not_le.1 hle⟩
        unfold Goes at hg
        push Not at hg
        have hk : k ≤ a.maxIt := by
          rcases k with _ | k
          · omega
          · rcases (h1 k (by omega)).2.1 with h | h
            · exact absurd h hg.1
            · exact h
        exact Or.inr (Or.inl ⟨by omega, by omega, hlen⟩)

/-- What is missing of "the step does not increase the error": for a direction of descent it holds if the result is not `min` and the limit of the
iterations is not reached. -/
theorem C100_armijo_partial (hβ : 0 < a.beta) (hγ : 0 ≤ a.gamma) (hmax : 0 ≤ a.maxStepLen) (len : K) (h : a.Search e x d len) (hlen : len ≠ a.minStepLen)
    (hit : a.maxIt = 0 ∨ a.maxStepLen * a.beta ^ a.maxIt < len) (hd : (∑ i, e.gradient x i * d i) ≤ 0) : cost e (x + len • d) ≤ cost e x := by
  obtain ⟨k, -, -, ⟨h1, h2⟩ | ⟨h1, h2, h3⟩ | ⟨h1, -⟩⟩ := C100_armijo_result a e x d len h
  · have h0 : 0 ≤ len := h1 ▸ mul_nonneg hmax (pow_nonneg hβ.le k)
    have h3 := mul_nonpos_of_nonneg_of_nonpos (mul_nonneg hγ h0) hd
    unfold Sufficient at h2
    linarith
  · rcases hit with hit | hit
    · omega
    · rw [h3, h1] at hit
      exact absurd hit (lt_irrefl _)
  · exact absurd h1 hlen

/-- Without limits of the iterations and lengths the search returns exactly if one of the lengths has a sufficient decrease. -/
theorem C100_armijo_returns_iff (hβ : 0 < a.beta) (hmax : 0 < a.maxStepLen) (hmin : a.minStepLen ≤ 0) (hit : a.maxIt = 0) :
    (∃ len, a.Search e x d len) ↔ ∃ k : Nat, Sufficient e x d (e.gradient x) a.gamma (a.maxStepLen * a.beta ^ k) := by
  have hpos : ∀ k, a.minStepLen < a.maxStepLen * a.beta ^ k := fun k => lt_of_le_of_lt hmin (mul_pos hmax (pow_pos hβ k))
  constructor
  · rintro ⟨len, h⟩
    obtain ⟨k, -, -, h2⟩ := (Armijo.search_iff a e x d len).1 h
    refine ⟨k, by_contra fun hs => h2 ⟨hs, Or.inl hit, hpos k⟩⟩
  · rintro ⟨k, hk⟩
    classical
    have hex : ∃ k : Nat, Sufficient e x d (e.gradient x) a.gamma (a.maxStepLen * a.beta ^ k) := ⟨k, hk⟩
    exact ⟨_, (Armijo.search_iff a e x d _).2 ⟨Nat.find hex, rfl, fun j hj => ⟨Nat.find_min hex hj, Or.inl hit, hpos j⟩,
      fun h => h.1 (Nat.find_spec hex)⟩⟩

end armijo

/-- `value x = x` in one dimension, with its Jacobian -/
def identity (K : Type) [Field K] : ErrorFunction K 1 1 := ⟨fun x => x, fun _ => some 1, 1⟩

theorem cost_identity (x : Fin 1 → K) : cost (identity K) x = x 0 ^ 2 / 2 := by simp [cost, identity]

theorem gradient_identity (x : Fin 1 → K) : (identity K).gradient x = x := by
  simp [ErrorFunction.gradient, ErrorFunction.evaluate, identity]

/-- The smallest length is returned without a look at its error: whatever the bounds and factors are, there is a direction of descent for which the
search returns a length whose error is four times the error without a step. -/
theorem C100_armijo_min_false [Archimedean K] (a : Armijo K) (hβ : 0 < a.beta) (hβ1 : a.beta < 1) (hγ : 0 ≤ a.gamma) (hmin : 0 < a.minStepLen)
    (hmax : a.minStepLen < a.maxStepLen) (hit : a.maxIt = 0) :
    ∃ x d : Fin 1 → K, (∑ i, (identity K).gradient x i * d i) < 0 ∧ ∃ len, a.Search (identity K) x d len ∧ len = a.minStepLen ∧
      cost (identity K) (x + len • d) = 4 * cost (identity K) x ∧ 0 < cost (identity K) x := by
  have hM : 0 < a.maxStepLen := lt_trans hmin hmax
  refine ⟨fun _ => 1, fun _ => -3 / a.minStepLen, ?_, ?_⟩
  · rw [gradient_identity]
    simp only [Finset.univ_unique, Finset.sum_const, Finset.card_singleton, one_smul, one_mul]
    exact div_neg_of_neg_of_pos (by norm_num) hmin
  · obtain ⟨len, hl, -⟩ := (C100_armijo a (identity K) (fun _ => 1) (fun _ => -3 / a.minStepLen) hβ hβ1 hmin hmax.le).1
    have hlen : len = a.minStepLen := by
      obtain ⟨k, -, hj, hk⟩ := C100_armijo_result a (identity K) _ _ len hl
      have key : ∀ l, a.minStepLen < l → ¬ Sufficient (identity K) (fun _ => 1) (fun _ => -3 / a.minStepLen) ((identity K).gradient fun _ => 1) a.gamma l := by
        intro l hlt hs
        rw [Sufficient, gradient_identity, cost_identity, cost_identity] at hs
        simp only [Finset.univ_unique, Finset.sum_const, Finset.card_singleton, one_smul, one_mul, Pi.add_apply, Pi.smul_apply, smul_eq_mul, one_pow] at hs
        have h1 : l * (-3 / a.minStepLen) ≤ -3 := by
          rw [mul_div_assoc', div_le_iff₀ hmin]
          linarith
        have h2 : a.gamma * l * (-3 / a.minStepLen) ≤ 0 := by
          apply mul_nonpos_of_nonneg_of_nonpos (mul_nonneg hγ (by linarith))
          exact (div_neg_of_neg_of_pos (by norm_num) hmin).le
        nlinarith [mul_self_nonneg (1 + l * (-3 / a.minStepLen) + 2)]
      rcases hk with ⟨h1, h2⟩ | ⟨h1, h2, -⟩ | ⟨h1, -⟩
      · rcases eq_or_lt_of_le (((C100_armijo a (identity K) _ _ hβ hβ1 hmin hmax.le).2 len hl).1) with h | h
        · exact h.symm
        · exact absurd h2 (key len h)
      · omega
      · exact h1
    refine ⟨len, hl, hlen, ?_, ?_⟩
    · rw [hlen, cost_identity, cost_identity]
      simp only [Pi.add_apply, Pi.smul_apply, smul_eq_mul]
      rw [mul_div_cancel₀ _ hmin.ne']
      norm_num
    · rw [cost_identity]
      norm_num

/-- With `setBounds(0, max)` and a direction of ascent the search does not return. -/
theorem C100_armijo_forever_false (a : Armijo K) (hβ : 0 < a.beta) (hγ : a.gamma < 1) (hmax : 0 < a.maxStepLen) (hmin : a.minStepLen = 0)
    (hit : a.maxIt = 0) : ∃ x d : Fin 1 → K, ∀ len, ¬ a.Search (identity K) x d len := by
  refine ⟨fun _ => 1, fun _ => 1, fun len h => ?_⟩
  obtain ⟨k, hk⟩ := (C100_armijo_returns_iff a (identity K) _ _ hβ hmax hmin.le hit).1 ⟨len, h⟩
  have hp : 0 < a.maxStepLen * a.beta ^ k := mul_pos hmax (pow_pos hβ k)
  rw [Sufficient, gradient_identity, cost_identity, cost_identity] at hk
  simp only [Finset.univ_unique, Finset.sum_const, Finset.card_singleton, one_smul, Pi.add_apply, Pi.smul_apply, smul_eq_mul, one_pow, mul_one] at hk
  nlinarith [mul_pos hp hp]

/-! ## Increasing line search -/

section increasing
variable (a : Increasing K) (e : ErrorFunction K n m) (x d : Fin n → K)

def Increasing.next (s : IncreasingState K) : IncreasingState K :=
  { currLen := s.currLen * a.beta
    lastLen := s.currLen
    lastErr := s.currErr
    currErr := e.errorAt (x + (s.currLen * a.beta) • d)
    iterations := s.iterations }

theorem Increasing.iterate (k : Nat) : (Increasing.next a e x d)^[k + 1] (a.init e x d) =
    { currLen := a.minStepLen * a.beta ^ (k + 1), lastLen := a.minStepLen * a.beta ^ k, lastErr := e.errorAt (x + (a.minStepLen * a.beta ^ k) • d),
      currErr := e.errorAt (x + (a.minStepLen * a.beta ^ (k + 1)) • d), iterations := 0 } := by
  induction k with
  | zero => simp [Increasing.init, Increasing.next]
  | succ k ih =>
    rw [Function.iterate_succ_apply', ih]
    simp only [Increasing.next, pow_succ, mul_assoc]

theorem goes_zero (N : Nat) : Goes N 0 := by unfold Goes; omega

/-- The error after the steps of length `min`, `min β`, ... is less than the error before; `k` times. -/
def Improves (e : ErrorFunction K n m) (x d : Fin n → K) (l β : K) : Nat → Prop
  | 0 => cost e (x + l • d) < cost e x
  | k + 1 => cost e (x + (l * β ^ (k + 1)) • d) < cost e (x + (l * β ^ k) • d)

theorem Increasing.cond_iff (k : Nat) : a.cond ((Increasing.next a e x d)^[k] (a.init e x d)) ↔
    Improves e x d a.minStepLen a.beta k ∧ a.minStepLen * a.beta ^ (k - 1) < a.maxStepLen := by
  rcases k with _ | k
  · simp [Increasing.cond, Increasing.init, goes_zero, Improves, errorAt_eq]
  · rw [Increasing.iterate]
    simp [Increasing.cond, goes_zero, Improves, errorAt_eq]

theorem Increasing.search_iff (len : K) : a.Search e x d len ↔
    ∃ k, len = min (a.minStepLen * a.beta ^ (k - 1)) a.maxStepLen ∧
      (∀ j < k, Improves e x d a.minStepLen a.beta j ∧ a.minStepLen * a.beta ^ (j - 1) < a.maxStepLen) ∧
      ¬ (Improves e x d a.minStepLen a.beta k ∧ a.minStepLen * a.beta ^ (k - 1) < a.maxStepLen) := by
  have hb : ∀ s t, a.body e x d s t ↔ t = Increasing.next a e x d s := fun s t => Iff.rfl
  have hl : ∀ k, ((Increasing.next a e x d)^[k] (a.init e x d)).lastLen = a.minStepLen * a.beta ^ (k - 1) := by
    rintro (_ | k)
    · simp [Increasing.init]
    · rw [Increasing.iterate]; rfl
  unfold Increasing.Search
  constructor
  · rintro ⟨t, ht, rfl⟩
    obtain ⟨k, rfl, h1, h2⟩ := (while_iff _ hb _ _).1 ht
    exact ⟨k, by rw [hl], fun j hj => (Increasing.cond_iff a e x d j).1 (h1 j hj), fun h => h2 ((Increasing.cond_iff a e x d k).2 h)⟩
  · rintro ⟨k, rfl, h1, h2⟩
    exact ⟨_, (while_iff _ hb _ _).2 ⟨k, rfl, fun j hj => (Increasing.cond_iff a e x d j).2 (h1 j hj), fun h => h2 ((Increasing.cond_iff a e x d k).1 h)⟩,
      by rw [hl]⟩

theorem Increasing.search_unique {l l' : K} (h : a.Search e x d l) (h' : a.Search e x d l') : l = l' := by
  obtain ⟨t, ht, rfl⟩ := h
  obtain ⟨u, hu, rfl⟩ := h'
  rw [while_det (Increasing.next a e x d) (fun s t => Iff.rfl) ht hu]

/-- With bounds `0 < min ≤ max` and a factor above 1 the search returns, one length only, and this is in the bounds. -/
theorem C100_increasing [Archimedean K] (hβ : 1 < a.beta) (hmin : 0 < a.minStepLen) (hmax : a.minStepLen ≤ a.maxStepLen) :
    (∃! len, a.Search e x d len) ∧ ∀ len, a.Search e x d len → a.minStepLen ≤ len ∧ len ≤ a.maxStepLen := by
  constructor
  · obtain ⟨k, hk⟩ := pow_unbounded_of_one_lt (a.maxStepLen / a.minStepLen) hβ
    rw [div_lt_iff₀ hmin, mul_comm] at hk
    obtain ⟨t, ht⟩ := while_exists (c := a.cond) (b := a.body e x d) (Increasing.next a e x d) (fun s t => Iff.rfl) (a.init e x d)
      ⟨k + 1, fun hc => absurd ((Increasing.cond_iff a e x d (k + 1)).1 hc).2 (not_lt.2 hk.le)⟩
    exact ⟨_, ⟨t, ht, rfl⟩, fun l hl => Increasing.search_unique a e x d hl ⟨t, ht, rfl⟩⟩
  · intro len h
    obtain ⟨k, rfl, -, -⟩ := (Increasing.search_iff a e x d len).1 h
    exact ⟨le_min (le_mul_of_one_le_right hmin.le (one_le_pow₀ hβ.le)) hmax, min_le_right _ _⟩

/-- What is missing of "the length does not increase the error": if the shortest step makes the error smaller and the result is less than `max`,
then the step makes the error smaller, it is the best of all the lengths `min β ^ j` up to the result, and the next one is not better. -/
theorem C100_increasing_partial (len : K) (h : a.Search e x d len) (hlen : len < a.maxStepLen)
    (h0 : cost e (x + a.minStepLen • d) < cost e x) :
    ∃ k : Nat, len = a.minStepLen * a.beta ^ k ∧ cost e (x + len • d) < cost e x ∧
      (∀ j < k, cost e (x + len • d) < cost e (x + (a.minStepLen * a.beta ^ j) • d)) ∧
      cost e (x + len • d) ≤ cost e (x + (len * a.beta) • d) := by
  obtain ⟨k, hl, h1, h2⟩ := (Increasing.search_iff a e x d len).1 h
  have hll : len = a.minStepLen * a.beta ^ (k - 1) := by
    rw [hl] at hlen ⊢
    exact min_eq_left ((min_lt_iff.1 hlen).resolve_right (lt_irrefl _)).le
  have h3 : ¬ Improves e x d a.minStepLen a.beta k := fun hi => h2 ⟨hi, hll ▸ hlen⟩
  rcases k with _ | k
  · exact absurd h0 h3
  · simp only [Nat.add_sub_cancel] at hll
    have hdec : ∀ i, i ≤ k → cost e (x + (a.minStepLen * a.beta ^ i) • d) < cost e x ∧
        ∀ j < i, cost e (x + (a.minStepLen * a.beta ^ i) • d) < cost e (x + (a.minStepLen * a.beta ^ j) • d) := by
      intro i
      induction i with
      | zero => intro _; exact ⟨by simpa using h0, fun _ h => absurd h (Nat.not_lt_zero _)⟩
      | succ i ih =>
        intro hi
        have hs : cost e (x + (a.minStepLen * a.beta ^ (i + 1)) • d) < cost e (x + (a.minStepLen * a.beta ^ i) • d) := (h1 (i + 1) (by omega)).1
        obtain ⟨h4, h5⟩ := ih (by omega)
        refine ⟨lt_trans hs h4, fun j hj => ?_⟩
        rcases Nat.lt_succ_iff_lt_or_eq.1 hj with h | rfl
        · exact lt_trans hs (h5 j h)
        · exact hs
    refine ⟨k, hll, hll ▸ (hdec k le_rfl).1, hll ▸ (hdec k le_rfl).2, ?_⟩
    have h6 : cost e (x + (a.minStepLen * a.beta ^ k) • d) ≤ cost e (x + (a.minStepLen * a.beta ^ (k + 1)) • d) := not_lt.1 h3
    rw [hll, mul_assoc, ← pow_succ]
    exact h6

/-- The limit of the iterations is not respected: it has no influence. -/
theorem C100_iterations (N : Nat) (len : K) : { a with maxIt := N }.Search e x d len ↔ a.Search e x d len := by
  rw [Increasing.search_iff, Increasing.search_iff]

end increasing

/-- Whatever the limit of the iterations is, there are searches which make more of them: `k` passes of the loop make the length `min β ^ (k - 1)`. -/
theorem C100_iterations_false (N k : Nat) (β l : K) (hβ : 1 < β) (hl : 0 < l) :
    ∃ (M : K) (x d : Fin 1 → K), l < M ∧ ({ maxIt := N, maxStepLen := M, minStepLen := l, beta := β } : Increasing K).Search (identity K) x d (l * β ^ k) := by
  have hp : ∀ j : Nat, 0 < l * β ^ j := fun j => mul_pos hl (pow_pos (by linarith) j)
  have hmono : ∀ i j : Nat, i ≤ j → l * β ^ i ≤ l * β ^ j := fun i j h => mul_le_mul_of_nonneg_left (pow_le_pow_right₀ hβ.le h) hl.le
  refine ⟨l * β ^ k + 1 + l, fun _ => l * β ^ k, fun _ => -1, by linarith [hp k], (Increasing.search_iff _ _ _ _ _).2 ⟨k + 1, ?_, ?_, ?_⟩⟩
  · simp only [Nat.add_sub_cancel]
    exact (min_eq_left (by linarith)).symm
  · intro j hj
    refine ⟨?_, ?_⟩
    · rcases j with _ | j
      · simp only [Improves, cost_identity, Pi.add_apply, Pi.smul_apply, smul_eq_mul]
        have h1 := hmono 0 k (by omega)
        have h2 := hp k
        simp only [pow_zero, mul_one] at h1
        nlinarith
      · simp only [Improves, cost_identity, Pi.add_apply, Pi.smul_apply, smul_eq_mul]
        have h1 := hmono (j + 1) k (by omega)
        have h2 : l * β ^ j < l * β ^ (j + 1) := by
          rw [pow_succ, ← mul_assoc]
          exact lt_mul_of_one_lt_right (hp j) hβ
        nlinarith
    · have := hmono (j - 1) k (by omega)
      change l * β ^ (j - 1) < l * β ^ k + 1 + l
      linarith
  · rintro ⟨h, -⟩
    simp only [Improves, cost_identity, Pi.add_apply, Pi.smul_apply, smul_eq_mul] at h
    nlinarith [sq_nonneg (l * β ^ k + l * β ^ (k + 1) * -1)]

/-- The shortest step is returned though it makes the error larger: whatever the parameters are, for a direction of descent. -/
theorem C100_increasing_min_false (a : Increasing K) (hmin : 0 < a.minStepLen) (hmax : a.minStepLen < a.maxStepLen) :
    ∃ x d : Fin 1 → K, (∑ i, (identity K).gradient x i * d i) < 0 ∧ a.Search (identity K) x d a.minStepLen ∧
      cost (identity K) (x + a.minStepLen • d) = 4 * cost (identity K) x ∧ 0 < cost (identity K) x := by
  have hcost : cost (identity K) ((fun _ => 1) + a.minStepLen • fun _ => -3 / a.minStepLen) = 4 * cost (identity K) (fun _ => 1) := by
    rw [cost_identity, cost_identity]
    simp only [Pi.add_apply, Pi.smul_apply, smul_eq_mul]
    rw [mul_div_cancel₀ _ hmin.ne']
    norm_num
  have hpos : 0 < cost (identity K) (fun _ => 1) := by rw [cost_identity]; norm_num
  refine ⟨fun _ => 1, fun _ => -3 / a.minStepLen, ?_, (Increasing.search_iff _ _ _ _ _).2 ⟨0, ?_, fun _ h => absurd h (Nat.not_lt_zero _), ?_⟩, hcost, hpos⟩
  · rw [gradient_identity]
    simp only [Finset.univ_unique, Finset.sum_const, Finset.card_singleton, one_smul, one_mul]
    exact div_neg_of_neg_of_pos (by norm_num) hmin
  · simp only [Nat.zero_sub, pow_zero, mul_one]
    exact (min_eq_left hmax.le).symm
  · rintro ⟨h, -⟩
    simp only [Improves] at h
    rw [hcost] at h
    linarith

/-- The longest step is returned without a look at its error: this can be as large as one likes though all errors which were seen decrease. -/
theorem C100_increasing_max_false [Archimedean K] (a : Increasing K) (hβ : 1 < a.beta) (hmin : 0 < a.minStepLen) (hmax : a.minStepLen < a.maxStepLen)
    (hne : ∀ k : Nat, a.minStepLen * a.beta ^ k ≠ a.maxStepLen) (c : K) :
    ∃ (e : ErrorFunction K 1 1) (x d : Fin 1 → K), a.Search e x d a.maxStepLen ∧ cost e (x + a.maxStepLen • d) = c ^ 2 * cost e x ∧ 0 < cost e x := by
  classical
  let e : ErrorFunction K 1 1 := ⟨fun y _ => if y 0 = a.maxStepLen then c else 1 / (1 + y 0), fun _ => none, 1⟩
  have hM : 0 < a.maxStepLen := lt_trans hmin hmax
  have hce : ∀ y : Fin 1 → K, cost e y = (if y 0 = a.maxStepLen then c else 1 / (1 + y 0)) ^ 2 / 2 := by
    intro y
    simp [cost, e]
  have h0 : cost e (fun _ => 0) = 1 / 2 := by
    rw [hce, if_neg hM.ne]
    norm_num
  have hk : ∀ k : Nat, cost e ((fun _ => 0) + (a.minStepLen * a.beta ^ k) • fun _ => 1) = (1 / (1 + a.minStepLen * a.beta ^ k)) ^ 2 / 2 := by
    intro k
    rw [hce]
    simp only [Pi.add_apply, Pi.smul_apply, smul_eq_mul, mul_one, zero_add]
    rw [if_neg (hne k)]
  have hp : ∀ j : Nat, 0 < a.minStepLen * a.beta ^ j := fun j => mul_pos hmin (pow_pos (by linarith) j)
  have himp : ∀ k, Improves e (fun _ => 0) (fun _ => 1) a.minStepLen a.beta k := by
    rintro (_ | k)
    · have h1 := hk 0
      simp only [pow_zero, mul_one] at h1
      simp only [Improves]
      rw [h0, h1]
      have h2 : 1 / (1 + a.minStepLen) < 1 := by rw [div_lt_one (by linarith)]; linarith
      have h3 : 0 < 1 / (1 + a.minStepLen) := by positivity
      nlinarith
    · simp only [Improves]
      rw [hk, hk]
      have h1 : a.minStepLen * a.beta ^ k < a.minStepLen * a.beta ^ (k + 1) := by
        rw [pow_succ, ← mul_assoc]
        exact lt_mul_of_one_lt_right (hp k) hβ
      have h2 : 1 / (1 + a.minStepLen * a.beta ^ (k + 1)) < 1 / (1 + a.minStepLen * a.beta ^ k) :=
        one_div_lt_one_div_of_lt (by linarith [hp k]) (by linarith)
      have h3 : 0 < 1 / (1 + a.minStepLen * a.beta ^ (k + 1)) := one_div_pos.2 (by linarith [hp (k + 1)])
      nlinarith
  refine ⟨e, fun _ => 0, fun _ => 1, ?_, ?_, ?_⟩
  · obtain ⟨len, hl, -⟩ := (C100_increasing a e (fun _ => 0) (fun _ => 1) hβ hmin hmax.le).1
    obtain ⟨k, h1, h2, h3⟩ := (Increasing.search_iff a e _ _ len).1 hl
    have h4 : a.maxStepLen ≤ a.minStepLen * a.beta ^ (k - 1) := not_lt.1 fun h => h3 ⟨himp k, h⟩
    rw [min_eq_right h4] at h1
    exact h1 ▸ hl
  · rw [h0, hce]
    simp only [Pi.add_apply, Pi.smul_apply, smul_eq_mul, mul_one, zero_add, if_true]
    ring
  · rw [h0]; norm_num

/-- `setBeta` looks at the old factor: the first call accepts any factor, and after a factor of at most 1 the next call fails whatever its factor is. -/
theorem C100_beta_false (a : Increasing K) (ha : 1 < a.beta) (β γ : K) (hβ : β ≤ 1) :
    a.setBeta β = some { a with beta := β } ∧ ({ a with beta := β } : Increasing K).setBeta γ = none := by
  simp [Increasing.setBeta, ha, not_lt.2 hβ]

/-- With such a factor a search returns a length which is less than the smallest one. -/
theorem C100_beta_bounds_false (a : Increasing K) (hβ : 0 < a.beta) (hβ1 : a.beta < 1) (hmin : 0 < a.minStepLen) (hmax : a.minStepLen < a.maxStepLen) :
    ∃ x d : Fin 1 → K, a.Search (identity K) x d (a.minStepLen * a.beta) ∧ a.minStepLen * a.beta < a.minStepLen := by
  have hlt : a.minStepLen * a.beta < a.minStepLen := mul_lt_of_lt_one_right hmin hβ1
  have hlb : 0 < a.minStepLen * a.beta := mul_pos hmin hβ
  refine ⟨fun _ => (a.minStepLen + a.minStepLen * a.beta * a.beta) / 2, fun _ => -1, (Increasing.search_iff _ _ _ _ _).2 ⟨2, ?_, ?_, ?_⟩, hlt⟩
  · rw [show 2 - 1 = 1 from rfl, pow_one]
    exact (min_eq_left (hlt.trans hmax).le).symm
  · intro j hj
    have hj' : j = 0 ∨ j = 1 := by omega
    rcases hj' with rfl | rfl
    · refine ⟨?_, by simpa using hmax⟩
      simp only [Improves, cost_identity, Pi.add_apply, Pi.smul_apply, smul_eq_mul]
      nlinarith [mul_pos hlb hβ]
    · refine ⟨?_, by simpa using hmax⟩
      simp only [Improves, cost_identity, Pi.add_apply, Pi.smul_apply, smul_eq_mul, zero_add, pow_one, pow_zero, mul_one]
      have h1 : a.minStepLen * a.beta * a.beta < a.minStepLen * a.beta := mul_lt_of_lt_one_right hlb hβ1
      nlinarith
  · rintro ⟨h, -⟩
    simp only [Improves, cost_identity, Pi.add_apply, Pi.smul_apply, smul_eq_mul, pow_succ, pow_zero, one_mul] at h
    have h1 : a.minStepLen * a.beta * a.beta < a.minStepLen * a.beta := mul_lt_of_lt_one_right hlb hβ1
    rw [← mul_assoc] at h
    nlinarith

/-- The parameters of a new object, increasing_line_search.h:24-26 and line_search_algorithm.h:25-27 -/
example : ∃ len : Rat, ({ maxIt := 0, maxStepLen := 1, minStepLen := 1 / 10 ^ 6, beta := 2 } : Increasing Rat).Search (identity Rat) (fun _ => 1) (fun _ => -1) len ∧
    1 / 10 ^ 6 ≤ len ∧ len ≤ 1 := by
  have h := C100_increasing ({ maxIt := 0, maxStepLen := 1, minStepLen := 1 / 10 ^ 6, beta := 2 } : Increasing Rat) (identity Rat) (fun _ => 1) (fun _ => -1)
    (by norm_num) (by norm_num) (by norm_num)
  obtain ⟨len, hl, -⟩ := h.1
  exact ⟨len, hl, h.2 len hl⟩

/-- The parameters of a new object, armijo_backtracking.h:44-46 -/
example : ∃ len : Rat, ({ maxIt := 0, maxStepLen := 1, minStepLen := 1 / 10 ^ 6, beta := 4 / 5, gamma := 1 / 10 } : Armijo Rat).Search (identity Rat)
    (fun _ => 1) (fun _ => -1) len ∧ 1 / 10 ^ 6 ≤ len ∧ len ≤ 1 := by
  have h := C100_armijo ({ maxIt := 0, maxStepLen := 1, minStepLen := 1 / 10 ^ 6, beta := 4 / 5, gamma := 1 / 10 } : Armijo Rat) (identity Rat)
    (fun _ => 1) (fun _ => -1) (by norm_num) (by norm_num) (by norm_num) (by norm_num)
  obtain ⟨len, hl, -⟩ := h.1
  exact ⟨len, hl, h.2 len hl⟩

end Stempy.Props.LeastSquares
