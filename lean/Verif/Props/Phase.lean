import Mathlib.Analysis.SpecialFunctions.Trigonometric.Deriv
import Verif.Model.Phase
import Mathlib.Tactic.Ring
import Mathlib.Tactic.FieldSimp
import Mathlib.Tactic.Linarith
import Mathlib.Algebra.Field.GeomSum
import Mathlib.Algebra.BigOperators.Field

/-!
C69: the phase from the center of mass.
-/

namespace Stempy.Phase
open Complex Finset

/-- The wave with `p` periods along the rows axis and `q` along the columns axis. -/
private noncomputable def wave (ny nx : ℕ) (p q : ℤ) (y x : ℕ) : ℂ :=
  exp (2 * Real.pi * I * (p * y / ny + q * x / nx))

private theorem orth (n : ℕ) (hn : 0 < n) (m : ℤ) :
    ∑ x ∈ range n, exp (2 * Real.pi * I * (m * x / n)) = if (n : ℤ) ∣ m then (n : ℂ) else 0 := by
  have hn0 : (n : ℂ) ≠ 0 := by exact_mod_cast hn.ne'
  have hpow : ∀ x : ℕ, exp (2 * Real.pi * I * (m * x / n)) = exp (2 * Real.pi * I * (m / n)) ^ x := by
    intro x
    rw [← exp_nat_mul]
    congr 1
    ring
  simp only [hpow]
  have hpi : (2 * Real.pi * I : ℂ) ≠ 0 := two_pi_I_ne_zero
  by_cases h : (n : ℤ) ∣ m
  · rw [if_pos h]
    obtain ⟨c, rfl⟩ := h
    have : exp (2 * Real.pi * I * (((n * c : ℤ) : ℂ) / n)) = 1 := by
      rw [exp_eq_one_iff]
      refine ⟨c, ?_⟩
      push_cast
      field_simp
    rw [this]
    simp
  · rw [if_neg h]
    have h1 : exp (2 * Real.pi * I * ((m : ℂ) / n)) ≠ 1 := by
      intro e
      rw [exp_eq_one_iff] at e
      obtain ⟨c, hc⟩ := e
      apply h
      refine ⟨c, ?_⟩
      have : (m : ℂ) / n = c := by
        have := mul_left_cancel₀ hpi (hc.trans (mul_comm _ _))
        exact this
      rw [div_eq_iff hn0] at this
      have : (m : ℂ) = ((n * c : ℤ) : ℂ) := by rw [this]; push_cast; ring
      exact_mod_cast this
    rw [geom_sum_eq h1]
    have : exp (2 * Real.pi * I * ((m : ℂ) / n)) ^ n = 1 := by
      rw [← exp_nat_mul, exp_eq_one_iff]
      exact ⟨m, by field_simp⟩
    rw [this]
    simp

private theorem fft2_wave (ny nx : ℕ) (hy : 0 < ny) (hx : 0 < nx) (p q : ℤ) (k l : ℕ) :
    fft2 ny nx (wave ny nx p q) k l = if (ny : ℤ) ∣ p - k ∧ (nx : ℤ) ∣ q - l then (ny : ℂ) * nx else 0 := by
  have e : ∀ y x : ℕ, wave ny nx p q y x * exp (-(2 * Real.pi * I * (k * y / ny + l * x / nx))) =
      exp (2 * Real.pi * I * (((p - k : ℤ) : ℂ) * y / ny)) * exp (2 * Real.pi * I * (((q - l : ℤ) : ℂ) * x / nx)) := by
    intro y x
    unfold wave
    rw [← exp_add, ← exp_add]
    congr 1
    push_cast
    ring
  unfold fft2
  simp only [e]
  simp only [← mul_sum]
  rw [← sum_mul, orth ny hy, orth nx hx]
  by_cases h1 : (ny : ℤ) ∣ p - k <;> by_cases h2 : (nx : ℤ) ∣ q - l <;> simp [h1, h2]

/-- The frequency of the number that is `p` modulo `n`. -/
private theorem fftfreq_of (n k : ℕ) (hn : 0 < n) (hk : k < n) (p : ℤ) (hp : 2 * |p| < n) (h : (n : ℤ) ∣ p - k) :
    fftfreq n k = (p : ℝ) / n := by
  obtain ⟨c, hc⟩ := h
  have habs := abs_lt.1 (show |p| < n by omega)
  have h2 : -(n : ℤ) < 2 * p ∧ 2 * p < n := by
    constructor
    · have := neg_abs_le p; omega
    · have := le_abs_self p; omega
  have hc' : c = 0 ∨ c = -1 := by
    have h1 : (n : ℤ) * c < n := by omega
    have h3 : -(2 * n : ℤ) < n * c := by omega
    have h4 : c < 1 := by
      by_contra hge
      have : (n : ℤ) * 1 ≤ n * c := Int.mul_le_mul_of_nonneg_left (by omega) (by omega)
      omega
    have h5 : -2 < c := by
      by_contra hle
      have : (n : ℤ) * c ≤ n * (-2) := Int.mul_le_mul_of_nonneg_left (by omega) (by omega)
      omega
    omega
  unfold fftfreq
  rcases hc' with rfl | rfl
  · have hpk : p = k := by omega
    rw [if_pos (by omega), hpk]
    simp
  · have hpk : p = k - n := by omega
    rw [if_neg (by omega), hpk]
    push_cast
    rfl

/-- The number that is `p` modulo `n`. -/
private theorem exists_index (n : ℕ) (hn : 0 < n) (p : ℤ) : ∃ k, k < n ∧ (n : ℤ) ∣ p - k ∧
    ∀ k', k' < n → (n : ℤ) ∣ p - k' → k' = k := by
  refine ⟨(p % n).toNat, ?_, ?_, ?_⟩
  · have := Int.emod_lt_of_pos p (show (0 : ℤ) < n by omega)
    have := Int.emod_nonneg p (show (n : ℤ) ≠ 0 by omega)
    omega
  · have := Int.emod_nonneg p (show (n : ℤ) ≠ 0 by omega)
    rw [Int.toNat_of_nonneg this]
    exact Int.dvd_self_sub_emod
  · intro k' hk' hd
    have h2 : p % n = (k' : ℤ) % n :=
      Int.emod_eq_emod_iff_emod_sub_eq_zero.2 (Int.emod_eq_zero_of_dvd hd)
    rw [h2, Int.emod_eq_of_lt (by omega) (by omega)]
    simp

/-- The complex result for complex arrays. -/
private noncomputable def solve (ny nx : ℕ) (reg : ℝ) (a b : ℕ → ℕ → ℂ) (y x : ℕ) : ℂ :=
  ifft2 ny nx (fun k l => numerator ny nx a b k l / denominator ny nx reg k l) y x

private theorem fft2_add (ny nx : ℕ) (a b : ℕ → ℕ → ℂ) (k l : ℕ) :
    fft2 ny nx (fun y x => a y x + b y x) k l = fft2 ny nx a k l + fft2 ny nx b k l := by
  unfold fft2
  simp only [add_mul, sum_add_distrib]

private theorem fft2_smul (ny nx : ℕ) (c : ℂ) (a : ℕ → ℕ → ℂ) (k l : ℕ) :
    fft2 ny nx (fun y x => c * a y x) k l = c * fft2 ny nx a k l := by
  unfold fft2
  simp only [mul_assoc, mul_sum]

private theorem solve_add (ny nx : ℕ) (reg : ℝ) (a b a' b' : ℕ → ℕ → ℂ) (y x : ℕ) :
    solve ny nx reg (fun y x => a y x + a' y x) (fun y x => b y x + b' y x) y x =
      solve ny nx reg a b y x + solve ny nx reg a' b' y x := by
  unfold solve ifft2
  rw [← add_div]
  congr 1
  rw [← sum_add_distrib]
  apply sum_congr rfl
  intro k _
  rw [← sum_add_distrib]
  apply sum_congr rfl
  intro l _
  rw [← add_mul, ← add_div]
  congr 1
  show _ / _ = _
  congr 1
  unfold numerator
  split
  · simp
  · rw [fft2_add, fft2_add]; ring

private theorem wave_index (ny nx : ℕ) (hy : 0 < ny) (hx : 0 < nx) (p q : ℤ) (k l : ℕ) (h1 : (ny : ℤ) ∣ p - k)
    (h2 : (nx : ℤ) ∣ q - l) (y x : ℕ) :
    exp (2 * Real.pi * I * (k * y / ny + l * x / nx)) = wave ny nx p q y x := by
  have hy0 : (ny : ℂ) ≠ 0 := by exact_mod_cast hy.ne'
  have hx0 : (nx : ℂ) ≠ 0 := by exact_mod_cast hx.ne'
  obtain ⟨c, hc⟩ := h1
  obtain ⟨d, hd⟩ := h2
  unfold wave
  rw [exp_eq_exp_iff_exists_int]
  refine ⟨-(c * y + d * x), ?_⟩
  have hp : (p : ℂ) = k + ny * c := by
    have : p = k + ny * c := by omega
    rw [this]; push_cast; ring
  have hq : (q : ℂ) = l + nx * d := by
    have : q = l + nx * d := by omega
    rw [this]; push_cast; ring
  rw [hp, hq]
  push_cast
  field_simp
  ring

/-- The factor for a wave. -/
private noncomputable def gamma (ny nx : ℕ) (reg : ℝ) (p q : ℤ) (α β : ℂ) : ℂ :=
  if p = 0 ∧ q = 0 then 0
  else ((p : ℂ) / ny * α + (q : ℂ) / nx * β) /
    (2 * Real.pi * I * (((q : ℂ) / nx) ^ 2 + ((p : ℂ) / ny) ^ 2) + reg)

private theorem solve_wave (ny nx : ℕ) (hy : 0 < ny) (hx : 0 < nx) (reg : ℝ) (p q : ℤ) (hp : 2 * |p| < ny)
    (hq : 2 * |q| < nx) (α β : ℂ) (y x : ℕ) :
    solve ny nx reg (fun y x => α * wave ny nx p q y x) (fun y x => β * wave ny nx p q y x) y x =
      gamma ny nx reg p q α β * wave ny nx p q y x := by
  have hy0 : (ny : ℂ) ≠ 0 := by exact_mod_cast hy.ne'
  have hx0 : (nx : ℂ) ≠ 0 := by exact_mod_cast hx.ne'
  obtain ⟨k, hk, hkd, hku⟩ := exists_index ny hy p
  obtain ⟨l, hl, hld, hlu⟩ := exists_index nx hx q
  have hzero : (k = 0 ∧ l = 0) ↔ (p = 0 ∧ q = 0) := by
    have key : ∀ (n k : ℕ) (p : ℤ), k < n → 2 * |p| < n → (n : ℤ) ∣ p - k → (k = 0 ↔ p = 0) := by
      intro n k p hk hp hd
      constructor
      · intro h0
        subst h0
        have := Int.eq_zero_of_abs_lt_dvd (m := (n : ℤ)) (x := p) (by simpa using hd) (by
          have := abs_nonneg p; omega)
        exact this
      · intro h0
        subst h0
        have := Int.eq_zero_of_abs_lt_dvd (m := (n : ℤ)) (x := -(k : ℤ)) (by simpa using hd) (by
          rw [abs_neg]; simpa using hk)
        omega
    rw [key ny k p hk hp hkd, key nx l q hl hq hld]
  unfold solve ifft2
  rw [sum_eq_single k, sum_eq_single l]
  · rw [wave_index ny nx hy hx p q k l hkd hld]
    beta_reduce
    rw [numerator, denominator, gamma]
    by_cases h0 : p = 0 ∧ q = 0
    · rw [if_pos h0, if_pos (hzero.2 h0), if_pos (hzero.2 h0)]; simp
    · rw [if_neg h0, if_neg (fun h => h0 (hzero.1 h)), if_neg (fun h => h0 (hzero.1 h)), fft2_smul, fft2_smul,
        fft2_wave ny nx hy hx, if_pos ⟨hkd, hld⟩, fftfreq_of ny k hy hk p hp hkd, fftfreq_of nx l hx hl q hq hld]
      push_cast
      rw [div_eq_iff (mul_ne_zero hy0 hx0)]
      ring
  · intro l' hl' hne
    have : ¬ ((nx : ℤ) ∣ q - l') := fun h => hne (hlu l' (mem_range.1 hl') h)
    beta_reduce
    rw [numerator, fft2_smul, fft2_smul, fft2_wave ny nx hy hx, if_neg (fun h : _ ∧ (nx : ℤ) ∣ _ => this h.2)]
    simp
  · intro h; exact absurd (mem_range.2 hl) h
  · intro k' hk' hne
    have : ¬ ((ny : ℤ) ∣ p - k') := fun h => hne (hku k' (mem_range.1 hk') h)
    apply sum_eq_zero
    intro l' _
    beta_reduce
    rw [numerator, fft2_smul, fft2_smul, fft2_wave ny nx hy hx, if_neg (fun h : (ny : ℤ) ∣ _ ∧ _ => this h.1)]
    simp
  · intro h; exact absurd (mem_range.2 hk) h

/-! ### The property -/

/-- A term `a * cos t + b * sin t` of a phase with `p` and `q` periods in the image along the rows and the columns axis. -/
structure Mode where
  p : ℤ
  q : ℤ
  a : ℝ
  b : ℝ

variable (ny nx : ℕ)

/-- The angle at a position, which need not be a pixel. -/
noncomputable def Mode.angle (m : Mode) (y x : ℝ) : ℝ := 2 * Real.pi * (m.p * y / ny + m.q * x / nx)

/-- The term at a position. -/
noncomputable def Mode.value (m : Mode) (y x : ℝ) : ℝ := m.a * Real.cos (m.angle ny nx y x) + m.b * Real.sin (m.angle ny nx y x)

/-- Less than half a period per pixel, and not constant. -/
structure Mode.OK (m : Mode) : Prop where
  p : 2 * |m.p| < ny
  q : 2 * |m.q| < nx
  ne : ¬ (m.p = 0 ∧ m.q = 0)

/-- The phase: a constant and terms. -/
noncomputable def phase (c : ℝ) (ms : List Mode) (y x : ℝ) : ℝ := c + (ms.map fun m => m.value ny nx y x).sum

/-- Its derivatives along the rows axis (`y`) and the columns axis (`x`). -/
noncomputable def gradY (c : ℝ) (ms : List Mode) (y x : ℝ) : ℝ := deriv (fun t => phase ny nx c ms t x) y
noncomputable def gradX (c : ℝ) (ms : List Mode) (y x : ℝ) : ℝ := deriv (fun t => phase ny nx c ms y t) x

/-- How much of a term is left by the regularization: 1 without it. -/
noncomputable def kept (reg : ℝ) (m : Mode) : ℝ :=
  (2 * Real.pi * ((m.p / ny) ^ 2 + (m.q / nx) ^ 2)) ^ 2 /
    ((2 * Real.pi * ((m.p / ny) ^ 2 + (m.q / nx) ^ 2)) ^ 2 + reg ^ 2)

private noncomputable def Mode.slope (m : Mode) (y x : ℝ) : ℝ :=
  2 * Real.pi * (m.b * Real.cos (m.angle ny nx y x) - m.a * Real.sin (m.angle ny nx y x))

private theorem hasDeriv_y (c : ℝ) (ms : List Mode) (y x : ℝ) :
    HasDerivAt (fun t => phase ny nx c ms t x) ((ms.map fun m => (m.p / ny * m.slope ny nx y x : ℝ)).sum) y := by
  unfold phase
  induction ms with
  | nil => simpa using hasDerivAt_const y c
  | cons m ms ih =>
    have h1 : HasDerivAt (fun t => m.angle ny nx t x) (2 * Real.pi * (m.p / ny)) y := by
      have : (fun t => m.angle ny nx t x) = fun t => (2 * Real.pi * (m.p / ny)) * t + 2 * Real.pi * (m.q * x / nx) := by
        funext t; unfold Mode.angle; ring
      rw [this]
      simpa using ((hasDerivAt_id y).const_mul (2 * Real.pi * (m.p / ny : ℝ))).add_const (2 * Real.pi * (m.q * x / nx))
    have h2 := (h1.cos.const_mul m.a).add (h1.sin.const_mul m.b)
    have h3 := h2.add ih
    have e : (fun t => c + (List.map (fun m => m.value ny nx t x) (m :: ms)).sum) =
        fun t => (m.a * Real.cos (m.angle ny nx t x) + m.b * Real.sin (m.angle ny nx t x)) +
          (c + (List.map (fun m => m.value ny nx t x) ms).sum) := by
      funext t
      simp only [List.map_cons, List.sum_cons, Mode.value]
      ring
    rw [e]
    have hd : (List.map (fun m => (m.p / ny * m.slope ny nx y x : ℝ)) (m :: ms)).sum =
        m.a * (-Real.sin (m.angle ny nx y x) * (2 * Real.pi * (m.p / ny))) +
          m.b * (Real.cos (m.angle ny nx y x) * (2 * Real.pi * (m.p / ny))) +
          (List.map (fun m => (m.p / ny * m.slope ny nx y x : ℝ)) ms).sum := by
      simp only [List.map_cons, List.sum_cons, Mode.slope]
      ring
    rw [hd]
    exact h3

private theorem hasDeriv_x (c : ℝ) (ms : List Mode) (y x : ℝ) :
    HasDerivAt (fun t => phase ny nx c ms y t) ((ms.map fun m => (m.q / nx * m.slope ny nx y x : ℝ)).sum) x := by
  unfold phase
  induction ms with
  | nil => simpa using hasDerivAt_const x c
  | cons m ms ih =>
    have h1 : HasDerivAt (fun t => m.angle ny nx y t) (2 * Real.pi * (m.q / nx)) x := by
      have : (fun t => m.angle ny nx y t) = fun t => (2 * Real.pi * (m.q / nx)) * t + 2 * Real.pi * (m.p * y / ny) := by
        funext t; unfold Mode.angle; ring
      rw [this]
      simpa using ((hasDerivAt_id x).const_mul (2 * Real.pi * (m.q / nx : ℝ))).add_const (2 * Real.pi * (m.p * y / ny))
    have h2 := (h1.cos.const_mul m.a).add (h1.sin.const_mul m.b)
    have h3 := h2.add ih
    have e : (fun t => c + (List.map (fun m => m.value ny nx y t) (m :: ms)).sum) =
        fun t => (m.a * Real.cos (m.angle ny nx y t) + m.b * Real.sin (m.angle ny nx y t)) +
          (c + (List.map (fun m => m.value ny nx y t) ms).sum) := by
      funext t
      simp only [List.map_cons, List.sum_cons, Mode.value]
      ring
    rw [e]
    have hd : (List.map (fun m => (m.q / nx * m.slope ny nx y x : ℝ)) (m :: ms)).sum =
        m.a * (-Real.sin (m.angle ny nx y x) * (2 * Real.pi * (m.q / nx))) +
          m.b * (Real.cos (m.angle ny nx y x) * (2 * Real.pi * (m.q / nx))) +
          (List.map (fun m => (m.q / nx * m.slope ny nx y x : ℝ)) ms).sum := by
      simp only [List.map_cons, List.sum_cons, Mode.slope]
      ring
    rw [hd]
    exact h3

private theorem wave_re (p q : ℤ) (m : Mode) (hp : m.p = p) (hq : m.q = q) (y x : ℕ) :
    wave ny nx p q y x = Real.cos (m.angle ny nx y x) + Real.sin (m.angle ny nx y x) * I := by
  unfold wave Mode.angle
  rw [hp, hq]
  rw [show (2 * Real.pi * I * (p * y / ny + q * x / nx) : ℂ) =
    ((2 * Real.pi * (p * y / ny + q * x / nx) : ℝ) : ℂ) * I by push_cast; ring, exp_mul_I]
  push_cast
  rfl

private theorem wave_re_neg (p q : ℤ) (m : Mode) (hp : m.p = p) (hq : m.q = q) (y x : ℕ) :
    wave ny nx (-p) (-q) y x = Real.cos (m.angle ny nx y x) - Real.sin (m.angle ny nx y x) * I := by
  unfold wave Mode.angle
  rw [hp, hq]
  rw [show (2 * Real.pi * I * (((-p : ℤ) : ℂ) * y / ny + ((-q : ℤ) : ℂ) * x / nx) : ℂ) =
    ((-(2 * Real.pi * (p * y / ny + q * x / nx)) : ℝ) : ℂ) * I by push_cast; ring, exp_mul_I]
  push_cast
  rw [Complex.cos_neg, Complex.sin_neg]
  ring

/-- One term. -/
private theorem solve_mode (hy : 0 < ny) (hx : 0 < nx) (reg : ℝ) (m : Mode) (ok : m.OK ny nx) (y x : ℕ) :
    (solve ny nx reg (fun y x => ((m.p / ny * m.slope ny nx y x : ℝ) : ℂ))
      (fun y x => ((m.q / nx * m.slope ny nx y x : ℝ) : ℂ)) y x).re = kept ny nx reg m * m.value ny nx y x := by
  obtain ⟨w, hw⟩ : ∃ w : ℂ, w = (2 * Real.pi * I) * (m.a - m.b * I) / 2 := ⟨_, rfl⟩
  obtain ⟨v, hv⟩ : ∃ v : ℂ, v = -((2 * Real.pi * I) * (m.a + m.b * I) / 2) := ⟨_, rfl⟩
  have hs : ∀ y x : ℕ, ((m.slope ny nx y x : ℝ) : ℂ) = w * wave ny nx m.p m.q y x + v * wave ny nx (-m.p) (-m.q) y x := by
    intro y x
    rw [wave_re ny nx m.p m.q m rfl rfl, wave_re_neg ny nx m.p m.q m rfl rfl, hw, hv]
    unfold Mode.slope
    push_cast
    have hI := I_sq
    ring_nf
    rw [hI]
    ring
  have e1 : ∀ c : ℝ, (fun y x : ℕ => ((c * m.slope ny nx y x : ℝ) : ℂ)) =
      fun y x => c * w * wave ny nx m.p m.q y x + c * v * wave ny nx (-m.p) (-m.q) y x := by
    intro c
    funext y x
    rw [ofReal_mul, hs]
    ring
  rw [e1, e1, solve_add, solve_wave ny nx hy hx reg m.p m.q ok.p ok.q,
    solve_wave ny nx hy hx reg (-m.p) (-m.q) (by rw [abs_neg]; exact ok.p) (by rw [abs_neg]; exact ok.q)]
  unfold gamma
  rw [if_neg ok.ne, if_neg (by simpa using ok.ne)]
  obtain ⟨K, hK⟩ : ∃ K : ℝ, K = 2 * Real.pi * ((m.p / ny) ^ 2 + (m.q / nx) ^ 2) := ⟨_, rfl⟩
  have hKpos : 0 < K := by
    rw [hK]
    have : 0 < (m.p / ny : ℝ) ^ 2 + (m.q / nx) ^ 2 := by
      have hny : (0 : ℝ) < ny := by exact_mod_cast hy
      have hnx : (0 : ℝ) < nx := by exact_mod_cast hx
      by_cases h0 : m.p = 0
      · have : m.q ≠ 0 := fun h => ok.ne ⟨h0, h⟩
        have : (m.q : ℝ) / nx ≠ 0 := div_ne_zero (by exact_mod_cast this) hnx.ne'
        positivity
      · have : (m.p : ℝ) / ny ≠ 0 := div_ne_zero (by exact_mod_cast h0) hny.ne'
        positivity
    have := Real.pi_pos
    positivity
  have hden : (K * I + reg : ℂ) ≠ 0 := by
    intro h
    have := congrArg Complex.im h
    simp at this
    exact hKpos.ne' this
  have d1 : (2 * Real.pi * I * (((m.q : ℂ) / nx) ^ 2 + ((m.p : ℂ) / ny) ^ 2) + reg : ℂ) = K * I + reg := by
    rw [hK]; push_cast; ring
  have d2 : (2 * Real.pi * I * ((((-m.q : ℤ) : ℂ) / nx) ^ 2 + (((-m.p : ℤ) : ℂ) / ny) ^ 2) + reg : ℂ) = K * I + reg := by
    rw [hK]; push_cast; ring
  rw [d1, d2]
  have main : (((m.p : ℂ) / ny * (((m.p / ny : ℝ) : ℂ) * w) + (m.q : ℂ) / nx * (((m.q / nx : ℝ) : ℂ) * w)) / (K * I + reg)) *
      wave ny nx m.p m.q y x +
      ((((-m.p : ℤ) : ℂ) / ny * (((m.p / ny : ℝ) : ℂ) * v) + ((-m.q : ℤ) : ℂ) / nx * (((m.q / nx : ℝ) : ℂ) * v)) /
        (K * I + reg)) * wave ny nx (-m.p) (-m.q) y x =
      (K * I / (K * I + reg)) * (m.value ny nx y x : ℝ) := by
    rw [wave_re ny nx m.p m.q m rfl rfl, wave_re_neg ny nx m.p m.q m rfl rfl]
    rw [div_mul_eq_mul_div _ (K * I + reg : ℂ), div_mul_eq_mul_div _ (K * I + reg : ℂ), div_mul_eq_mul_div _ (K * I + reg : ℂ),
      ← add_div]
    congr 1
    rw [hw, hv, hK]
    unfold Mode.value
    push_cast
    have hI := I_sq
    have hI3 : I ^ 3 = -I := by rw [pow_succ, I_sq]; ring
    ring_nf
    rw [hI3]
    ring
  rw [main, re_mul_ofReal]
  congr 1
  unfold kept
  rw [← hK, div_re]
  have : normSq (K * I + reg) = K ^ 2 + reg ^ 2 := by
    rw [normSq_apply]; simp; ring
  rw [this]
  simp
  ring

/-- The arrays of the code for a rotated and mirrored center of mass. -/
private theorem solve_modes (hy : 0 < ny) (hx : 0 < nx) (reg : ℝ) (ms : List Mode) (ok : ∀ m ∈ ms, m.OK ny nx) (y x : ℕ) :
    (solve ny nx reg (fun y x => (((ms.map fun m => (m.p / ny * m.slope ny nx y x : ℝ)).sum : ℝ) : ℂ))
      (fun y x => (((ms.map fun m => (m.q / nx * m.slope ny nx y x : ℝ)).sum : ℝ) : ℂ)) y x).re =
      (ms.map fun m => kept ny nx reg m * m.value ny nx y x).sum := by
  induction ms with
  | nil =>
    have : solve ny nx reg (fun _ _ => 0) (fun _ _ => 0) y x = 0 := by
      unfold solve ifft2 numerator fft2
      simp
    simp [this]
  | cons m ms ih =>
    simp only [List.map_cons, List.sum_cons]
    simp only [ofReal_add]
    rw [solve_add, add_re, solve_mode ny nx hy hx reg m (ok m (by simp)), ih (fun m' hm' => ok m' (by simp [hm']))]

/-- The result does not change when constants are added to the arrays. -/
private theorem solve_const (hy : 0 < ny) (hx : 0 < nx) (reg : ℝ) (a b : ℂ) (y x : ℕ) :
    solve ny nx reg (fun _ _ => a) (fun _ _ => b) y x = 0 := by
  have h := solve_wave ny nx hy hx reg 0 0 (by simpa using hy) (by simpa using hx) a b y x
  have e : ∀ y x : ℕ, wave ny nx 0 0 y x = 1 := by intro y x; simp [wave]
  simp only [e, mul_one] at h
  rw [h]
  simp [gamma]

/-- **C69** Let the center of mass be the gradient of a phase that is a sum of terms of less than half a period per pixel,
seen in axes which are rotated by `theta` and, if `flip`, mirrored, with any offset. The result at every pixel is the
phase without its constant, every term being multiplied by the factor `kept`, which is 1 without regularization. -/
theorem C69_phase (hy : 0 < ny) (hx : 0 < nx) (c : ℝ) (ms : List Mode) (ok : ∀ m ∈ ms, m.OK ny nx) (theta : ℝ) (flip : Bool)
    (reg : ℝ) (o0 o1 : ℝ) (c0 c1 : ℕ → ℕ → ℝ)
    (h0 : ∀ y x : ℕ, c0 y x = o0 + (Real.cos theta * gradY ny nx c ms y x + Real.sin theta * gradX ny nx c ms y x))
    (h1 : ∀ y x : ℕ, c1 y x = o1 + (if flip then
      Real.sin theta * gradY ny nx c ms y x - Real.cos theta * gradX ny nx c ms y x else
      Real.cos theta * gradX ny nx c ms y x - Real.sin theta * gradY ny nx c ms y x)) (y x : ℕ) :
    phaseFromCom ny nx c0 c1 theta flip reg y x = (ms.map fun m => kept ny nx reg m * m.value ny nx y x).sum := by
  have gy : ∀ y x : ℕ, gradY ny nx c ms y x = (ms.map fun m => (m.p / ny * m.slope ny nx y x : ℝ)).sum :=
    fun y x => (hasDeriv_y ny nx c ms y x).deriv
  have gx : ∀ y x : ℕ, gradX ny nx c ms y x = (ms.map fun m => (m.q / nx * m.slope ny nx y x : ℝ)).sum :=
    fun y x => (hasDeriv_x ny nx c ms y x).deriv
  obtain ⟨a, b, hab⟩ : ∃ a b : ℝ, rotate theta flip c0 c1 =
      (fun y x : ℕ => a + gradY ny nx c ms y x, fun y x : ℕ => b + gradX ny nx c ms y x) := by
    have hcs := Real.cos_sq_add_sin_sq theta
    cases flip with
    | true =>
      refine ⟨o0 * Real.cos theta + o1 * Real.sin theta, o0 * Real.sin theta - o1 * Real.cos theta, ?_⟩
      simp only [rotate, if_true]
      congr 1
      · funext y x
        rw [h0, h1, if_pos rfl]
        linear_combination (gradY ny nx c ms y x) * hcs
      · funext y x
        rw [h0, h1, if_pos rfl]
        linear_combination (gradX ny nx c ms y x) * hcs
    | false =>
      refine ⟨o0 * Real.cos theta - o1 * Real.sin theta, o0 * Real.sin theta + o1 * Real.cos theta, ?_⟩
      simp only [rotate, Bool.false_eq_true, if_false]
      congr 1
      · funext y x
        rw [h0, h1, if_neg (by simp)]
        linear_combination (gradY ny nx c ms y x) * hcs
      · funext y x
        rw [h0, h1, if_neg (by simp)]
        linear_combination (gradX ny nx c ms y x) * hcs
  have e : phaseFromCom ny nx c0 c1 theta flip reg y x =
      (solve ny nx reg (fun y x => (((rotate theta flip c0 c1).1 y x : ℝ) : ℂ))
        (fun y x => (((rotate theta flip c0 c1).2 y x : ℝ) : ℂ)) y x).re := rfl
  rw [e, hab]
  simp only [ofReal_add]
  rw [solve_add, solve_const ny nx hy hx, zero_add]
  simp only [gy, gx]
  exact solve_modes ny nx hy hx reg ms ok y x

/-- Non-vacuity: two terms in an image of 4 rows and 3 columns. -/
example : ∀ m ∈ [(⟨1, -1, 2, 3⟩ : Mode), ⟨0, 1, 1, 0⟩], m.OK 4 3 := by
  intro m hm
  simp only [List.mem_cons, List.not_mem_nil, or_false] at hm
  rcases hm with rfl | rfl <;> constructor <;> simp

/-- Without regularization the result is the phase without its constant. -/
theorem C69_exact (hy : 0 < ny) (hx : 0 < nx) (c : ℝ) (ms : List Mode) (ok : ∀ m ∈ ms, m.OK ny nx) (theta : ℝ) (flip : Bool)
    (o0 o1 : ℝ) (c0 c1 : ℕ → ℕ → ℝ)
    (h0 : ∀ y x : ℕ, c0 y x = o0 + (Real.cos theta * gradY ny nx c ms y x + Real.sin theta * gradX ny nx c ms y x))
    (h1 : ∀ y x : ℕ, c1 y x = o1 + (if flip then
      Real.sin theta * gradY ny nx c ms y x - Real.cos theta * gradX ny nx c ms y x else
      Real.cos theta * gradX ny nx c ms y x - Real.sin theta * gradY ny nx c ms y x)) (y x : ℕ) :
    phaseFromCom ny nx c0 c1 theta flip 0 y x = phase ny nx c ms y x - c := by
  rw [C69_phase ny nx hy hx c ms ok theta flip 0 o0 o1 c0 c1 h0 h1, phase, add_sub_cancel_left]
  congr 1
  apply List.map_congr_left
  intro m hm
  have hne : (2 * Real.pi * ((m.p / ny : ℝ) ^ 2 + (m.q / nx) ^ 2)) ^ 2 ≠ 0 := by
    have hny : (0 : ℝ) < ny := by exact_mod_cast hy
    have hnx : (0 : ℝ) < nx := by exact_mod_cast hx
    have hpi := Real.pi_pos
    have : 0 < (m.p / ny : ℝ) ^ 2 + (m.q / nx) ^ 2 := by
      by_cases hp : m.p = 0
      · have : m.q ≠ 0 := fun h => (ok m hm).ne ⟨hp, h⟩
        have : (m.q : ℝ) / nx ≠ 0 := div_ne_zero (by exact_mod_cast this) hnx.ne'
        positivity
      · have : (m.p : ℝ) / ny ≠ 0 := div_ne_zero (by exact_mod_cast hp) hny.ne'
        positivity
    positivity
  rw [kept, zero_pow (by decide), add_zero, div_self hne, one_mul]

/-- For every center of mass the mean of the result is 0. -/
theorem C69_mean (hy : 0 < ny) (hx : 0 < nx) (c0 c1 : ℕ → ℕ → ℝ) (theta : ℝ) (flip : Bool) (reg : ℝ) :
    ∑ y ∈ range ny, ∑ x ∈ range nx, phaseFromCom ny nx c0 c1 theta flip reg y x = 0 := by
  have key : ∀ M : ℕ → ℕ → ℂ, M 0 0 = 0 → ∑ y ∈ range ny, ∑ x ∈ range nx, ifft2 ny nx M y x = 0 := by
    intro M hM
    unfold ifft2
    simp only [← sum_div]
    have : ∑ y ∈ range ny, ∑ x ∈ range nx, ∑ k ∈ range ny, ∑ l ∈ range nx,
        M k l * exp (2 * Real.pi * I * (k * y / ny + l * x / nx)) = 0 := by
      have e : ∀ y x k l : ℕ, M k l * exp (2 * Real.pi * I * (k * y / ny + l * x / nx)) =
          M k l * (exp (2 * Real.pi * I * ((k : ℤ) * y / ny)) * exp (2 * Real.pi * I * ((l : ℤ) * x / nx))) := by
        intro y x k l
        rw [← exp_add]
        congr 2
        push_cast
        ring
      simp only [e]
      rw [sum_congr rfl fun y _ => sum_comm, sum_comm]
      apply sum_eq_zero
      intro k hk
      rw [sum_congr rfl fun y _ => sum_comm, sum_comm]
      apply sum_eq_zero
      intro l hl
      simp only [← mul_sum]
      rw [← sum_mul, orth ny hy, orth nx hx]
      by_cases h : k = 0 ∧ l = 0
      · rw [h.1, h.2, hM]; simp
      · have : ¬ ((ny : ℤ) ∣ k) ∨ ¬ ((nx : ℤ) ∣ l) := by
          rw [Int.natCast_dvd_natCast, Int.natCast_dvd_natCast]
          by_contra hc
          push Not at hc
          exact h ⟨Nat.eq_zero_of_dvd_of_lt hc.1 (mem_range.1 hk), Nat.eq_zero_of_dvd_of_lt hc.2 (mem_range.1 hl)⟩
        rcases this with h' | h'
        · rw [if_neg h']; simp
        · rw [if_neg h']; simp
    rw [this, zero_div]
  unfold phaseFromCom
  simp only [← re_sum]
  rw [key]
  · simp
  · simp [numerator]

/-- Constants added to the center of mass do not change the result. -/
theorem C69_offset (hy : 0 < ny) (hx : 0 < nx) (c0 c1 : ℕ → ℕ → ℝ) (o0 o1 theta : ℝ) (flip : Bool) (reg : ℝ) (y x : ℕ) :
    phaseFromCom ny nx (fun y x => o0 + c0 y x) (fun y x => o1 + c1 y x) theta flip reg y x =
      phaseFromCom ny nx c0 c1 theta flip reg y x := by
  obtain ⟨a, b, h⟩ : ∃ a b : ℝ, rotate theta flip (fun y x => o0 + c0 y x) (fun y x => o1 + c1 y x) =
      (fun y x : ℕ => a + (rotate theta flip c0 c1).1 y x, fun y x : ℕ => b + (rotate theta flip c0 c1).2 y x) := by
    cases flip with
    | true =>
      refine ⟨o0 * Real.cos theta + o1 * Real.sin theta, o0 * Real.sin theta - o1 * Real.cos theta, ?_⟩
      simp only [rotate, if_true]
      congr 1 <;> (funext y x; ring)
    | false =>
      refine ⟨o0 * Real.cos theta - o1 * Real.sin theta, o0 * Real.sin theta + o1 * Real.cos theta, ?_⟩
      simp only [rotate, Bool.false_eq_true, if_false]
      congr 1 <;> (funext y x; ring)
  have e : ∀ c0 c1, phaseFromCom ny nx c0 c1 theta flip reg y x =
      (solve ny nx reg (fun y x => (((rotate theta flip c0 c1).1 y x : ℝ) : ℂ))
        (fun y x => (((rotate theta flip c0 c1).2 y x : ℝ) : ℂ)) y x).re := fun _ _ => rfl
  rw [e, e, h]
  simp only [ofReal_add]
  rw [solve_add, solve_const ny nx hy hx, zero_add]

/-- The order of the two arrays matters. `com_sparse` and `com_dense` give the columns first (C50): with the default rotation
a phase which changes only along the columns axis is then lost. With `flip` and a rotation by a quarter turn the result is
right. -/
theorem C69_order (hy : 0 < ny) (hx : 0 < nx) (c : ℝ) (ms : List Mode) (ok : ∀ m ∈ ms, m.OK ny nx) (reg : ℝ)
    (c0 c1 : ℕ → ℕ → ℝ) (h0 : ∀ y x : ℕ, c0 y x = gradX ny nx c ms y x) (h1 : ∀ y x : ℕ, c1 y x = gradY ny nx c ms y x)
    (y x : ℕ) :
    phaseFromCom ny nx c0 c1 (Real.pi / 2) true reg y x = (ms.map fun m => kept ny nx reg m * m.value ny nx y x).sum ∧
      ((∀ m ∈ ms, m.p = 0) → phaseFromCom ny nx c0 c1 0 false reg y x = 0) := by
  constructor
  · refine C69_phase ny nx hy hx c ms ok (Real.pi / 2) true reg 0 0 c0 c1 ?_ ?_ y x
    · intro y x; rw [h0]; simp
    · intro y x; rw [h1]; simp
  · intro hp
    have gy : ∀ y x : ℕ, gradY ny nx c ms y x = 0 := by
      intro y x
      rw [gradY, (hasDeriv_y ny nx c ms y x).deriv]
      apply List.sum_eq_zero
      intro v hv
      rw [List.mem_map] at hv
      obtain ⟨m, hm, rfl⟩ := hv
      rw [hp m hm]; simp
    have gx : ∀ y x : ℕ, gradX ny nx c ms y x = (ms.map fun m => (m.q / nx * m.slope ny nx y x : ℝ)).sum :=
      fun y x => (hasDeriv_x ny nx c ms y x).deriv
    have e : phaseFromCom ny nx c0 c1 0 false reg y x =
        (solve ny nx reg (fun y x => (((ms.map fun m => (m.q / nx * m.slope ny nx y x : ℝ)).sum : ℝ) : ℂ))
          (fun _ _ => 0) y x).re := by
      show (solve ny nx reg (fun y x => (((rotate 0 false c0 c1).1 y x : ℝ) : ℂ))
        (fun y x => (((rotate 0 false c0 c1).2 y x : ℝ) : ℂ)) y x).re = _
      simp [rotate, h0, h1, gy, gx]
    rw [e]
    clear e gx h0 h1 gy
    induction ms with
    | nil =>
      have : solve ny nx reg (fun _ _ => 0) (fun _ _ => 0) y x = 0 := by
        unfold solve ifft2 numerator fft2
        simp
      simp [this]
    | cons m ms ih =>
      simp only [List.map_cons, List.sum_cons, ofReal_add]
      have hz : (fun _ _ : ℕ => (0 : ℂ)) = fun _ _ => 0 + 0 := by simp
      rw [hz, solve_add, add_re, ih (fun m' hm' => ok m' (by simp [hm'])) (fun m' hm' => hp m' (by simp [hm'])), add_zero]
      have okm := ok m (by simp)
      have hpm := hp m (by simp)
      have hs : (fun y x : ℕ => ((m.q / nx * m.slope ny nx y x : ℝ) : ℂ)) = fun y x : ℕ =>
          (m.q / nx : ℂ) * ((2 * Real.pi * I) * (m.a - m.b * I) / 2) * wave ny nx m.p m.q y x +
          (m.q / nx : ℂ) * (-((2 * Real.pi * I) * (m.a + m.b * I) / 2)) * wave ny nx (-m.p) (-m.q) y x := by
        funext y x
        rw [wave_re ny nx m.p m.q m rfl rfl, wave_re_neg ny nx m.p m.q m rfl rfl]
        unfold Mode.slope
        push_cast
        have hI := I_sq
        ring_nf
        rw [hI]
        ring
      have hz' : (fun _ _ : ℕ => (0 : ℂ)) = fun y x => 0 * wave ny nx m.p m.q y x + 0 * wave ny nx (-m.p) (-m.q) y x := by simp
      rw [hs, hz', solve_add, solve_wave ny nx hy hx reg m.p m.q okm.p okm.q,
        solve_wave ny nx hy hx reg (-m.p) (-m.q) (by rw [abs_neg]; exact okm.p) (by rw [abs_neg]; exact okm.q)]
      simp [gamma, hpm]

/-- Non-vacuity: a phase along the columns axis which is not constant. -/
example : (∀ m ∈ [(⟨0, 1, 1, 0⟩ : Mode)], m.OK 4 3 ∧ m.p = 0) ∧ phase 4 3 0 [⟨0, 1, 1, 0⟩] 0 0 = 1 := by
  constructor
  · intro m hm
    simp only [List.mem_cons, List.not_mem_nil, or_false] at hm
    subst hm
    refine ⟨by constructor <;> simp, rfl⟩
  · simp [phase, Mode.value, Mode.angle]

end Stempy.Phase
