import Verif.Props.RoundedSamples
import Verif.Lemmas.Loop
import Verif.Model.Thresholds

/-!
C97: the histogram of the samples, whose limits are computed in double precision, in any rounding mode.
-/

namespace Stempy.Props
open Stempy.FloatPixels (Fl)
open Stempy.SafeCast (float64)
open Stempy.IeeeRound Stempy.RoundedThresholds
open Stempy.RoundedImages (rd_nat has_nat53 toInt)
open Stempy.RoundedCom (fine64 rootApprox rootApprox_dyadic)

variable {rp rd : Rat → Fl}

/-- The smallest and the largest sample. -/
structure SampleRange (l : List Nat) (m M : Nat) : Prop where
  small : ∀ v ∈ l, v < 2 ^ 16
  min_mem : m ∈ l
  max_mem : M ∈ l
  min_le : ∀ v ∈ l, m ≤ v
  le_max : ∀ v ∈ l, v ≤ M

theorem foldl_min_mem (l : List Nat) : ∀ v, l.foldl min v ∈ v :: l ∧ ∀ u ∈ v :: l, l.foldl min v ≤ u := by
  induction l with
  | nil => intro v; simp
  | cons a l ih =>
    intro v
    obtain ⟨h1, h2⟩ := ih (min v a)
    rw [List.foldl_cons]
    constructor
    · rcases List.mem_cons.1 h1 with h | h
      · rw [h]
        rcases Nat.le_total v a with c | c
        · rw [Nat.min_eq_left c]; simp
        · rw [Nat.min_eq_right c]; simp
      · simp [h]
    · intro u hu
      have hmin := h2 (min v a) (by simp)
      rcases List.mem_cons.1 hu with rfl | hu
      · omega
      · rcases List.mem_cons.1 hu with rfl | hu
        · omega
        · exact h2 u (by simp [hu])

theorem foldl_max_mem (l : List Nat) : ∀ v, l.foldl max v ∈ v :: l ∧ ∀ u ∈ v :: l, u ≤ l.foldl max v := by
  induction l with
  | nil => intro v; simp
  | cons a l ih =>
    intro v
    obtain ⟨h1, h2⟩ := ih (max v a)
    rw [List.foldl_cons]
    constructor
    · rcases List.mem_cons.1 h1 with h | h
      · rw [h]
        rcases Nat.le_total v a with c | c
        · rw [Nat.max_eq_right c]; simp
        · rw [Nat.max_eq_left c]; simp
      · simp [h]
    · intro u hu
      have hmax := h2 (max v a) (by simp)
      rcases List.mem_cons.1 hu with rfl | hu
      · omega
      · rcases List.mem_cons.1 hu with rfl | hu
        · omega
        · exact h2 u (by simp [hu])

theorem histogram_eq {l : List Nat} {m M : Nat} (hr : SampleRange l m M) {nSigma : Fl} {hi lo : Int}
    (hhi : toInt (upper rp rd l nSigma) = .ok hi) (hlo : toInt (lower rp rd l nSigma) = .ok lo) :
    buildHistogram rp rd l nSigma = (int32 (min (M : Int) hi - max (m : Int) lo)).bind fun bins =>
      if bins < 0 then .throw "cannot create std::vector larger than max_size()"
      else (l.foldlM (binStep (max (m : Int) lo) bins) (List.replicate bins.toNat 0)).bind fun hist => .ok (max (m : Int) lo, hist) := by
  cases l with
  | nil => exact absurd hr.min_mem (by simp)
  | cons v vs =>
    have e1 : vs.foldl max v = M := by
      obtain ⟨a, b⟩ := foldl_max_mem vs v
      exact Nat.le_antisymm (hr.le_max _ a) (b _ hr.max_mem)
    have e2 : vs.foldl min v = m := by
      obtain ⟨a, b⟩ := foldl_min_mem vs v
      exact Nat.le_antisymm (b _ hr.min_mem) (hr.min_le _ a)
    unfold buildHistogram
    simp only
    rw [hhi, hlo, e1, e2]
    rfl

theorem binStep_eq {minBin bins : Int} {v : Nat} (hv : v < 2 ^ 16) (h1 : -(2 ^ 30) ≤ minBin) (h2 : minBin ≤ 2 ^ 30) (hist : List Nat) :
    binStep minBin bins hist v = if (v : Int) - minBin ≥ bins then .ok hist else if (v : Int) - minBin < 0 then .ub
      else (readAt hist ((v : Int) - minBin).toNat).bind fun c => writeAt hist ((v : Int) - minBin).toNat (c + 1) := by
  unfold binStep
  rw [int32_ok (by omega) (by omega)]
  rfl

/-- **C97**. If the lower limit is not above the smallest sample the histogram is built within bounds, and bin `k` counts the samples equal to
`m + k`. Missing for the full statement: a smallest sample below the lower limit, where the claim is false (`C97_out_of_bounds`, `C97_false`). -/
theorem C97_histogram_partial {l : List Nat} {m M : Nat} (hr : SampleRange l m M) {nSigma : Fl} {hi lo : Int}
    (hhi : toInt (upper rp rd l nSigma) = .ok hi) (hlo : toInt (lower rp rd l nSigma) = .ok lo) (h1 : lo ≤ m) (h2 : (m : Int) ≤ hi) :
    ∃ hist : List Nat, buildHistogram rp rd l nSigma = .ok ((m : Int), hist) ∧ hist.length = (min (M : Int) hi - m).toNat ∧
      ∀ k, k < hist.length → hist[k]? = some (l.countP fun v => v = m + k) := by
  have hmM : m ≤ M := hr.min_le _ hr.max_mem
  have hm := hr.small _ hr.min_mem
  have hM := hr.small _ hr.max_mem
  rw [histogram_eq hr hhi hlo, max_eq_left h1]
  obtain ⟨nb, hnb⟩ : ∃ nb, nb = min (M : Int) hi - m := ⟨_, rfl⟩
  have hnb0 : 0 ≤ nb := by omega
  have hnb1 : nb < 2 ^ 16 := by omega
  rw [← hnb, int32_ok (by omega) (by omega)]
  obtain ⟨hist, f1, f2, f3⟩ := foldlM_list_inv l (binStep m nb)
    (fun pre hist => hist.length = nb.toNat ∧ ∀ k, k < nb.toNat → hist[k]? = some (pre.countP fun v => v = m + k))
    (List.replicate nb.toNat 0) ⟨by simp, by intro k hk; simp [hk]⟩
    (by
      rintro pre v post hist hl ⟨i1, i2⟩
      have hv : v ∈ l := by rw [hl]; simp
      have hsm := hr.small v hv
      have hmv := hr.min_le v hv
      rw [binStep_eq hsm (by omega) (by omega)]
      by_cases hc : (v : Int) - m ≥ nb
      · rw [if_pos hc]
        refine ⟨_, rfl, i1, ?_⟩
        intro k hk
        rw [i2 k hk, List.countP_append]
        have : ¬ v = m + k := by omega
        simp [this]
      · rw [if_neg hc, if_neg (by omega)]
        have hidx : ((v : Int) - m).toNat = v - m := by omega
        rw [hidx]
        have hlt : v - m < nb.toNat := by omega
        rw [readAt_eq_ok.2 (i2 (v - m) hlt)]
        refine ⟨_, writeAt_lt (by omega), by simpa using i1, ?_⟩
        intro k hk
        rw [List.countP_append]
        by_cases hkv : k = v - m
        · subst hkv
          rw [List.getElem?_set_self (by omega)]
          have : m + (v - m) = v := by omega
          simp [this]
        · rw [List.getElem?_set_ne (fun h => hkv h.symm), i2 k hk]
          have : ¬ v = m + k := by omega
          simp [this])
  refine ⟨hist, ?_, f2, fun k hk => f3 k (by omega)⟩
  show (if nb < 0 then _ else ((l.foldlM (binStep (m : Int) nb) (List.replicate nb.toNat 0)).bind fun hist => Outcome.ok ((m : Int), hist))) = _
  rw [if_neg (by omega), f1]
  rfl

/-- **C97**. If the smallest sample is below the lower limit the histogram is written out of bounds. -/
theorem C97_out_of_bounds {l : List Nat} {m M : Nat} (hr : SampleRange l m M) {nSigma : Fl} {hi lo : Int}
    (hhi : toInt (upper rp rd l nSigma) = .ok hi) (hlo : toInt (lower rp rd l nSigma) = .ok lo) (h1 : (m : Int) < lo) (h2 : lo ≤ min (M : Int) hi) :
    buildHistogram rp rd l nSigma = .ub := by
  have hm := hr.small _ hr.min_mem
  have hM := hr.small _ hr.max_mem
  rw [histogram_eq hr hhi hlo, max_eq_right h1.le]
  obtain ⟨nb, hnb⟩ : ∃ nb, nb = min (M : Int) hi - lo := ⟨_, rfl⟩
  rw [← hnb, int32_ok (by omega) (by omega)]
  have key : ∀ (l : List Nat) (hist : List Nat), (∀ v ∈ l, v < 2 ^ 16) → hist.length = nb.toNat → (∃ v ∈ l, (v : Int) < lo) →
      l.foldlM (binStep lo nb) hist = .ub := by
    intro l
    induction l with
    | nil => intro hist _ _ h; simp at h
    | cons v l ih =>
      intro hist hsm hl hex
      rw [List.foldlM_cons, binStep_eq (hsm v (by simp)) (by omega) (by omega)]
      by_cases hc : (v : Int) - lo ≥ nb
      · rw [if_pos hc]
        refine ih hist (fun u hu => hsm u (by simp [hu])) hl ?_
        obtain ⟨u, hu, hlt⟩ := hex
        rcases List.mem_cons.1 hu with rfl | hu
        · omega
        · exact ⟨u, hu, hlt⟩
      · rw [if_neg hc]
        by_cases hneg : (v : Int) - lo < 0
        · rw [if_pos hneg]
          rfl
        · rw [if_neg hneg]
          have hlt : ((v : Int) - lo).toNat < hist.length := by omega
          rw [readAt_lt hlt]
          show ((writeAt hist ((v : Int) - lo).toNat _) >>= fun s => l.foldlM (binStep lo nb) s) = _
          rw [writeAt_lt hlt, Outcome.ok_bind]
          refine ih _ (fun u hu => hsm u (by simp [hu])) (by simpa using hl) ?_
          obtain ⟨u, hu, hlt⟩ := hex
          rcases List.mem_cons.1 hu with rfl | hu
          · omega
          · exact ⟨u, hu, hlt⟩
  show (if nb < 0 then _ else ((l.foldlM (binStep lo nb) (List.replicate nb.toNat 0)).bind fun hist => Outcome.ok (lo, hist))) = _
  rw [if_neg (by omega), key l _ hr.small (by simp) ⟨m, hr.min_mem, h1⟩]
  rfl

/-! ### A deviation of at least one -/

/-- Rounding up to the infinity. -/
theorem round_up (hd : Rounds float64 rd) {a b : Rat} (ha : float64.Has a) (hab : a ≤ b) :
    rd b = .pinf ∨ ∃ r, rd b = .fin r ∧ a ≤ r ∧ float64.Has r := by
  cases hr : rd b with
  | fin r => exact Or.inr ⟨r, rfl, hd.mono _ _ _ _ hab (hd.fix _ ha) hr, hd.has _ _ hr⟩
  | pinf => exact Or.inl rfl
  | ninf => have := hd.ninf _ _ hab hr; rw [hd.fix _ ha] at this; cases this
  | nan => exact absurd hr (hd.number b)

theorem pinf_mul {s : Rat} (hs : 1 ≤ s) : Fl.pinf.mul (.fin s) = .pinf := by
  show Fl.signInf s = _
  exact if_pos (by linarith)

/-- **C97**. With a standard deviation of at least one and a factor that is not negative, the histogram is built within bounds, and bin `k` counts
the samples equal to `m + k`; the upper limit must be in the range of `int`. -/
theorem C97_deviation (hd : Rounds float64 rd) {l : List Nat} {m M : Nat} (hr : SampleRange l m M) (hn : l.length < 2 ^ 31)
    {s n : Rat} (hs : deviation rp rd l = .fin s) (h1 : 1 ≤ s) (h0 : 0 ≤ n) {hi : Int} (hhi : toInt (upper rp rd l (.fin n)) = .ok hi) :
    ∃ hist : List Nat, buildHistogram rp rd l (.fin n) = .ok ((m : Int), hist) ∧ hist.length = (min (M : Int) hi - m).toNat ∧
      ∀ k, k < hist.length → hist[k]? = some (l.countP fun v => v = m + k) := by
  have hne : l ≠ [] := List.ne_nil_of_mem hr.min_mem
  obtain ⟨q, eq, hq, _, hbd⟩ := C97_mean hd hr.small hne hn
  obtain ⟨q0, _⟩ := hbd m M fun v hv => ⟨hr.min_le v hv, hr.le_max v hv⟩
  have qz : (0 : Rat) ≤ q := le_trans (Nat.cast_nonneg m) q0
  have qhas : float64.Has q := hd.has _ _ hq
  have zero : float64.Has 0 := by simpa using has_nat53 (n := 0) (by norm_num)
  have no : ∀ x, upper rp rd l (.fin n) = x → x = .pinf → False := by
    intro x e1 e2
    rw [e1, e2] at hhi
    cases hhi
  have eU : upper rp rd l (.fin n) = rnd rd ((Fl.fin q).add (rnd rd ((xrayThreshold rp rd l (.fin n)).mul (.fin s)))) := by
    unfold upper
    rw [eq, hs]
  have eL : lower rp rd l (.fin n) = rnd rd ((Fl.fin q).sub (rnd rd ((xrayThreshold rp rd l (.fin n)).mul (.fin s)))) := by
    unfold lower
    rw [eq, hs]
  have eX : xrayThreshold rp rd l (.fin n) = rnd rd ((Fl.fin q).add (rd (n * s))) := by
    unfold xrayThreshold
    rw [eq, hs]
    rfl
  have xray : ∃ x : Rat, xrayThreshold rp rd l (.fin n) = .fin x ∧ q ≤ x ∧ float64.Has x := by
    rcases round_up hd (b := n * s) zero (mul_nonneg h0 (by linarith)) with e | ⟨a, e, a0, _⟩
    · rw [e] at eX
      have : xrayThreshold rp rd l (.fin n) = .pinf := eX
      rw [this, pinf_mul h1] at eU
      exact (no _ eU rfl).elim
    · rw [e] at eX
      rcases round_up hd (b := q + a) qhas (by linarith) with e' | ⟨x, e', x0, xh⟩
      · have : xrayThreshold rp rd l (.fin n) = .pinf := by rw [eX]; exact e'
        rw [this, pinf_mul h1] at eU
        exact (no _ eU rfl).elim
      · exact ⟨x, by rw [eX]; exact e', x0, xh⟩
  obtain ⟨x, ex, x0, xh⟩ := xray
  rw [ex] at eU eL
  have hprod : ∃ p : Rat, rnd rd ((Fl.fin x).mul (.fin s)) = .fin p ∧ q ≤ p ∧ float64.Has p := by
    rcases round_up hd (b := x * s) xh (by nlinarith) with e | ⟨p, e, p0, ph⟩
    · have e' : rnd rd ((Fl.fin x).mul (.fin s)) = .pinf := e
      rw [e'] at eU
      exact (no _ eU rfl).elim
    · exact ⟨p, e, by linarith, ph⟩
  obtain ⟨p, ep, p0, ph⟩ := hprod
  rw [ep] at eU eL
  have hup : ∃ u : Rat, upper rp rd l (.fin n) = .fin u ∧ q ≤ u ∧ p ≤ u := by
    rcases round_up hd (b := q + p) ph (by linarith) with e | ⟨u, e, u0, _⟩
    · have : upper rp rd l (.fin n) = .pinf := by rw [eU]; exact e
      exact (no _ this rfl).elim
    · exact ⟨u, by rw [eU]; exact e, by linarith, u0⟩
  obtain ⟨u, eu, u0, u1⟩ := hup
  rw [eu] at hhi
  have hhi' : int32 ⌊u⌋ = .ok hi := by
    have : toInt (.fin u) = int32 (if u < 0 then ⌈u⌉ else ⌊u⌋) := rfl
    rw [this, if_neg (by linarith)] at hhi
    exact hhi
  obtain ⟨c1, _, c2⟩ := RoundedImages.int32_inv hhi'
  have hu31 : u < 2 ^ 31 := by
    have := Int.floor_lt.1 c2
    exact_mod_cast this
  obtain ⟨L, e1, _, L0, L1⟩ := hd.between (q := q - p) (has_neg ph) zero (by linarith) (by linarith)
  have el : lower rp rd l (.fin n) = .fin L := by
    rw [eL, fl_sub]
    exact e1
  have hlo : ∃ lo : Int, toInt (lower rp rd l (.fin n)) = .ok lo ∧ lo ≤ 0 := by
    rw [el]
    have : toInt (.fin L) = int32 (if L < 0 then ⌈L⌉ else ⌊L⌋) := rfl
    rw [this]
    have g1 : -(2 ^ 31) ≤ ⌈L⌉ := by
      have : ((-(2 ^ 31) : Int) : Rat) ≤ (⌈L⌉ : Rat) := by
        refine le_trans ?_ (Int.le_ceil L)
        push_cast
        linarith
      exact_mod_cast this
    have g2 : ⌈L⌉ ≤ 0 := Int.ceil_le.2 (by simpa using L1)
    split
    · exact ⟨_, int32_ok g1 (by omega), g2⟩
    · have : L = 0 := by linarith
      rw [this]
      exact ⟨0, by simpa using int32_ok (x := 0) (by norm_num) (by norm_num), le_rfl⟩
  obtain ⟨lo, hlo, hlo0⟩ := hlo
  have hmhi : (m : Int) ≤ hi := by
    rw [c1, Int.le_floor]
    have : (((m : Nat) : Int) : Rat) = (m : Rat) := by simp
    rw [this]
    linarith
  exact C97_histogram_partial hr (by rw [eu]; exact hhi) hlo (by omega) hmhi

/-! ### A smaller deviation -/

theorem dy {z : Int} (hz : |z| < 2 ^ 24) {j : Nat} (hj : j ≤ 149) (hd : Rounds float64 rd) : rd ((z : Rat) / 2 ^ j) = .fin ((z : Rat) / 2 ^ j) :=
  hd.fix _ (fine64.dyadic hz hj)

/-- One sample 0 and 255 samples 2: the deviation is 1/8. -/
def lowSamples : List Nat := 0 :: List.replicate 255 2

theorem lowSamples_mean (hd : Rounds float64 rd) : calculateMean rd lowSamples = .fin (255 / 128) := by
  have hl : ∀ v ∈ lowSamples, v < 2 ^ 16 := by decide +kernel
  obtain ⟨q, e, e', _⟩ := C97_mean hd hl (by decide +kernel) (by decide +kernel)
  have h1 : ((lowSamples.sum : Nat) : Rat) / (lowSamples.length : Nat) = ((255 : Int) : Rat) / 2 ^ 7 := by
    rw [show lowSamples.sum = 510 by decide +kernel, show lowSamples.length = 256 by decide +kernel]
    norm_num
  rw [h1, dy (by norm_num) (by norm_num) hd] at e'
  have e2 : ((255 : Int) : Rat) / 2 ^ 7 = q := Fl.fin.inj e'
  rw [e, ← e2]
  norm_num

theorem variance_cons (v : Nat) (vs : List Nat) (mean : Fl) : calculateVariance rp rd (v :: vs) mean =
    rnd rd ((vs.foldl (fun a (v : Nat) => rnd rd (a.add (squareOf rp (rnd rd ((Fl.fin v).sub mean)))))
      (rnd rd ((Fl.fin 0).add (squareOf rp (rnd rd ((Fl.fin v).sub mean)))))).div (rnd rd ((rd ((v :: vs).length : Nat)).sub (.fin 1)))) := rfl

theorem lowSamples_deviation (hp : Rounds float64 rp) (hd : Rounds float64 rd) : deviation rp rd lowSamples = .fin (1 / 8) := by
  have t0 : squareOf rp (rnd rd ((Fl.fin ((0 : Nat) : Rat)).sub (.fin (255 / 128)))) = .fin (65025 / 2 ^ 14) := by
    rw [fl_sub]
    have e1 : ((0 : Nat) : Rat) - 255 / 128 = ((-255 : Int) : Rat) / 2 ^ 7 := by norm_num
    have e2 : rnd rd (.fin (((0 : Nat) : Rat) - 255 / 128)) = .fin (((-255 : Int) : Rat) / 2 ^ 7) := by
      rw [e1]; exact dy (by norm_num) (by norm_num) hd
    rw [e2]
    show rp _ = _
    have e3 : ((-255 : Int) : Rat) / 2 ^ 7 * (((-255 : Int) : Rat) / 2 ^ 7) = ((65025 : Int) : Rat) / 2 ^ 14 := by norm_num
    rw [e3, dy (by norm_num) (by norm_num) hp]
    norm_num
  have t2 : squareOf rp (rnd rd ((Fl.fin ((2 : Nat) : Rat)).sub (.fin (255 / 128)))) = .fin (1 / 2 ^ 14) := by
    rw [fl_sub]
    have e1 : ((2 : Nat) : Rat) - 255 / 128 = ((1 : Int) : Rat) / 2 ^ 7 := by norm_num
    have e2 : rnd rd (.fin (((2 : Nat) : Rat) - 255 / 128)) = .fin (((1 : Int) : Rat) / 2 ^ 7) := by
      rw [e1]; exact dy (by norm_num) (by norm_num) hd
    rw [e2]
    show rp _ = _
    have e3 : ((1 : Int) : Rat) / 2 ^ 7 * (((1 : Int) : Rat) / 2 ^ 7) = ((1 : Int) : Rat) / 2 ^ 14 := by norm_num
    rw [e3, dy (by norm_num) (by norm_num) hp]
    norm_num
  have fold : ∀ k : Nat, ∀ z : Nat, z + k < 2 ^ 24 →
      (List.replicate k 2).foldl (fun a (v : Nat) => rnd rd (a.add (squareOf rp (rnd rd ((Fl.fin v).sub (.fin (255 / 128))))))) (.fin ((z : Rat) / 2 ^ 14)) =
        .fin (((z + k : Nat) : Rat) / 2 ^ 14) := by
    intro k
    induction k with
    | zero => intro z _; rfl
    | succ k ih =>
      intro z hz
      rw [List.replicate_succ, List.foldl_cons, t2]
      have e : rnd rd ((Fl.fin ((z : Rat) / 2 ^ 14)).add (.fin (1 / 2 ^ 14))) = .fin (((z + 1 : Nat) : Rat) / 2 ^ 14) := by
        show rd _ = _
        have e1 : (z : Rat) / 2 ^ 14 + 1 / 2 ^ 14 = (((z + 1 : Nat) : Int) : Rat) / 2 ^ 14 := by
          rw [← add_div]
          push_cast
          rfl
        rw [e1, dy (by rw [abs_of_nonneg (Int.natCast_nonneg _)]; omega) (by norm_num) hd]
        rfl
      rw [e, ih (z + 1) (by omega)]
      congr 3
      omega
  have hv : calculateVariance rp rd lowSamples (.fin (255 / 128)) = .fin (1 / 64) := by
    unfold lowSamples
    rw [variance_cons, t0]
    have e : rnd rd ((Fl.fin 0).add (.fin (65025 / 2 ^ 14))) = .fin (((65025 : Nat) : Rat) / 2 ^ 14) := by
      show rd _ = _
      have e1 : (0 : Rat) + 65025 / 2 ^ 14 = ((65025 : Int) : Rat) / 2 ^ 14 := by norm_num
      rw [e1, dy (by norm_num) (by norm_num) hd]
      norm_num
    rw [e, fold 255 65025 (by norm_num), List.length_cons, List.length_replicate, rd_nat hd (by norm_num), fl_sub]
    have e2 : rnd rd (.fin (((255 + 1 : Nat) : Rat) - 1)) = .fin ((255 : Nat) : Rat) := by
      show rd _ = _
      rw [show ((255 + 1 : Nat) : Rat) - 1 = ((255 : Nat) : Rat) by norm_num, rd_nat hd (by norm_num)]
    rw [e2]
    have e3 : (Fl.fin (((65025 + 255 : Nat) : Rat) / 2 ^ 14)).div (.fin ((255 : Nat) : Rat)) = .fin (((1 : Int) : Rat) / 2 ^ 6) := by
      show (if ((255 : Nat) : Rat) = 0 then Fl.signInf (((65025 + 255 : Nat) : Rat) / 2 ^ 14) else .fin (((65025 + 255 : Nat) : Rat) / 2 ^ 14 / ((255 : Nat) : Rat))) = _
      rw [if_neg (by norm_num)]
      norm_num
    rw [e3]
    show rd _ = _
    rw [dy (by norm_num) (by norm_num) hd]
    norm_num
  unfold deviation
  rw [lowSamples_mean hd, hv]
  show (if (1 / 64 : Rat) < 0 then Fl.nan else rd (rootApprox (1 / 64))) = _
  have e4 : rootApprox (1 / 64 : Rat) = ((1 : Int) : Rat) / 2 ^ 3 := by
    have := rootApprox_dyadic 1 3 (by norm_num)
    rw [show (((1 : Nat) : Rat) / 2 ^ 3) * (((1 : Nat) : Rat) / 2 ^ 3) = 1 / 64 by norm_num] at this
    rw [this]
    norm_num
  rw [if_neg (by norm_num), e4, dy (by norm_num) (by norm_num) hd]
  norm_num

/-- **C97** is false: in every rounding mode, with the default `xRayThresholdNSigma = 10`, one pixel of value 0 among 255 of value 2 is counted at the
index -1. -/
theorem C97_false (hp : Rounds float64 rp) (hd : Rounds float64 rd) : buildHistogram rp rd (0 :: List.replicate 255 2) (.fin 10) = .ub := by
  have hX : xrayThreshold rp rd lowSamples (.fin 10) = .fin (415 / 128) := by
    unfold xrayThreshold
    rw [lowSamples_mean hd, lowSamples_deviation hp hd]
    have e1 : rnd rd ((Fl.fin 10).mul (.fin (1 / 8))) = .fin (5 / 4) := by
      show rd _ = _
      rw [show (10 : Rat) * (1 / 8) = ((5 : Int) : Rat) / 2 ^ 2 by norm_num, dy (by norm_num) (by norm_num) hd]
      norm_num
    rw [e1]
    show rd _ = _
    rw [show (255 / 128 : Rat) + 5 / 4 = ((415 : Int) : Rat) / 2 ^ 7 by norm_num, dy (by norm_num) (by norm_num) hd]
    norm_num
  have hP : rnd rd ((Fl.fin (415 / 128)).mul (.fin (1 / 8))) = .fin (415 / 1024) := by
    show rd _ = _
    rw [show (415 / 128 : Rat) * (1 / 8) = ((415 : Int) : Rat) / 2 ^ 10 by norm_num, dy (by norm_num) (by norm_num) hd]
    norm_num
  have hU : upper rp rd lowSamples (.fin 10) = .fin (2455 / 1024) := by
    unfold upper
    rw [lowSamples_mean hd, lowSamples_deviation hp hd, hX, hP]
    show rd _ = _
    rw [show (255 / 128 : Rat) + 415 / 1024 = ((2455 : Int) : Rat) / 2 ^ 10 by norm_num, dy (by norm_num) (by norm_num) hd]
    norm_num
  have hL : lower rp rd lowSamples (.fin 10) = .fin (1625 / 1024) := by
    unfold lower
    rw [lowSamples_mean hd, lowSamples_deviation hp hd, hX, hP, fl_sub]
    show rd _ = _
    rw [show (255 / 128 : Rat) - 415 / 1024 = ((1625 : Int) : Rat) / 2 ^ 10 by norm_num, dy (by norm_num) (by norm_num) hd]
    norm_num
  have hr : SampleRange lowSamples 0 2 := ⟨by decide +kernel, by decide +kernel, by decide +kernel, by decide +kernel, by decide +kernel⟩
  refine C97_out_of_bounds hr (hi := 2) (lo := 1) ?_ ?_ (by norm_num) (by norm_num)
  · rw [hU]
    show int32 (if (2455 / 1024 : Rat) < 0 then ⌈(2455 / 1024 : Rat)⌉ else ⌊(2455 / 1024 : Rat)⌋) = _
    rw [if_neg (by norm_num), show ⌊(2455 / 1024 : Rat)⌋ = 2 by norm_num]
    rfl
  · rw [hL]
    show int32 (if (1625 / 1024 : Rat) < 0 then ⌈(1625 / 1024 : Rat)⌉ else ⌊(1625 / 1024 : Rat)⌋) = _
    rw [if_neg (by norm_num), show ⌊(1625 / 1024 : Rat)⌋ = 1 by norm_num]
    rfl

/-- **C97**. Equal samples have the deviation 0, and the histogram no bin; its largest element is then read out of bounds
(electronthresholds.cpp:159-161, `Thresholds.peakHeight`). -/
theorem C97_constant (hp : Rounds float64 rp) (hd : Rounds float64 rd) {l : List Nat} {v : Nat} (hv : v < 2 ^ 16) (hl : ∀ u ∈ l, u = v) (h2 : 2 ≤ l.length)
    (hn : l.length < 2 ^ 31) (n : Rat) :
    deviation rp rd l = .fin 0 ∧ buildHistogram rp rd l (.fin n) = .ok ((v : Int), []) ∧ Thresholds.peakHeight [] = .ub := by
  have hsm : ∀ u ∈ l, u < 2 ^ 16 := fun u hu => by rw [hl u hu]; exact hv
  have hne : l ≠ [] := by intro h; rw [h] at h2; simp at h2
  obtain ⟨u, hu⟩ := List.exists_mem_of_ne_nil l hne
  have hvl : v ∈ l := by rw [← hl u hu]; exact hu
  obtain ⟨q, eq, _, _, hbd⟩ := C97_mean hd hsm hne hn
  obtain ⟨q0, q1⟩ := hbd v v fun w hw => by rw [hl w hw]; exact ⟨le_rfl, le_rfl⟩
  have hq : q = (v : Rat) := le_antisymm q1 q0
  subst hq
  obtain ⟨t, et, _, tz⟩ := C97_variance hp hd hsm h2 hn
  have t0 : t = 0 := tz.2 fun a ha b hb => by rw [hl a ha, hl b hb]
  subst t0
  have zero : rd 0 = .fin 0 := by simpa using rd_nat hd (n := 0) (by norm_num)
  have hdev : deviation rp rd l = .fin 0 := by
    unfold deviation
    rw [et]
    show (if (0 : Rat) < 0 then Fl.nan else rd (rootApprox 0)) = _
    have := rootApprox_dyadic 0 0 (by norm_num)
    rw [if_neg (by norm_num), show (0 : Rat) = (((0 : Nat) : Rat) / 2 ^ 0) * (((0 : Nat) : Rat) / 2 ^ 0) by norm_num, this]
    norm_num
    exact zero
  have hX : xrayThreshold rp rd l (.fin n) = .fin v := by
    unfold xrayThreshold
    rw [eq, hdev]
    show rnd rd ((Fl.fin (v : Rat)).add (rd (n * 0))) = _
    rw [mul_zero, zero]
    show rd ((v : Rat) + 0) = _
    rw [add_zero, rd_nat hd (by omega)]
  have hP : rnd rd ((Fl.fin (v : Rat)).mul (.fin 0)) = .fin 0 := by
    show rd ((v : Rat) * 0) = _
    rw [mul_zero, zero]
  have hU : upper rp rd l (.fin n) = .fin v := by
    unfold upper
    rw [eq, hX, hdev, hP]
    show rd ((v : Rat) + 0) = _
    rw [add_zero, rd_nat hd (by omega)]
  have hL : lower rp rd l (.fin n) = .fin v := by
    unfold lower
    rw [eq, hX, hdev, hP, fl_sub]
    show rd ((v : Rat) - 0) = _
    rw [sub_zero, rd_nat hd (by omega)]
  have hi : toInt (.fin (v : Rat)) = .ok (v : Int) := by
    have := RoundedImages.toInt_int (v : Int)
    rw [int32_ok (by omega) (by omega)] at this
    simpa using this
  have hr : SampleRange l v v := ⟨hsm, hvl, hvl, fun u hu => (hl u hu).ge, fun u hu => (hl u hu).le⟩
  obtain ⟨hist, e1, e2, _⟩ := C97_histogram_partial hr (by rw [hU]; exact hi) (by rw [hL]; exact hi) le_rfl le_rfl
  refine ⟨hdev, ?_, rfl⟩
  have : hist = [] := List.length_eq_zero_iff.1 (by rw [e2]; simp)
  rw [e1, this]

/-- **C97** is false: with a single sample the deviation is not a number, and its conversion to an integer undefined. -/
theorem C97_single_false (hp : Rounds float64 rp) (hd : Rounds float64 rd) {v : Nat} (hv : v < 2 ^ 16) (n : Fl) :
    buildHistogram rp rd [v] n = .ub := by
  have hdev : deviation rp rd [v] = .nan := by
    unfold deviation
    rw [C97_variance_single hp hd hv]
    rfl
  obtain ⟨m, em, _⟩ := C97_mean hd (l := [v]) (by simpa using hv) (by simp) (by simp)
  have hX : xrayThreshold rp rd [v] n = .nan := by
    unfold xrayThreshold
    rw [hdev, em]
    cases n <;> rfl
  have hU : upper rp rd [v] n = .nan := by
    unfold upper
    rw [hdev, hX, em]
    rfl
  unfold buildHistogram
  simp only
  rw [hU]
  rfl

/-! ### Examples: the hypotheses can be met -/

/-- The samples 0, 4, 8 have the deviation 4; the upper limit is 180. -/
example (hp : Rounds float64 rp) (hd : Rounds float64 rd) : SampleRange [0, 4, 8] 0 8 ∧ deviation rp rd [0, 4, 8] = .fin 4 ∧
    toInt (upper rp rd [0, 4, 8] (.fin 10)) = .ok 180 ∧
    ∃ hist : List Nat, buildHistogram rp rd [0, 4, 8] (.fin 10) = .ok (0, hist) ∧ hist.length = 8 := by
  have hr : SampleRange [0, 4, 8] 0 8 := ⟨by decide, by decide, by decide, by decide, by decide⟩
  have nat (n : Nat) (h : n ≤ 2 ^ 53) : rd (n : Rat) = .fin (n : Rat) := rd_nat hd h
  have natp (n : Nat) (h : n ≤ 2 ^ 53) : rp (n : Rat) = .fin (n : Rat) := rd_nat hp h
  have hm : calculateMean rd [0, 4, 8] = .fin 4 := by
    obtain ⟨q, e, e', _⟩ := C97_mean hd hr.small (by simp) (by simp)
    have h1 : (([0, 4, 8].sum : Nat) : Rat) / ([0, 4, 8].length : Nat) = ((4 : Nat) : Rat) := by norm_num
    rw [h1, nat 4 (by norm_num)] at e'
    rw [e, ← Fl.fin.inj e']
    norm_num
  have t (v d : Nat) (h : ((v : Rat) - 4) * ((v : Rat) - 4) = (d : Rat)) (hd' : d ≤ 2 ^ 20) (hv : rd ((v : Rat) - 4) = .fin ((v : Rat) - 4)) :
      squareOf rp (rnd rd ((Fl.fin (v : Rat)).sub (.fin 4))) = .fin (d : Rat) := by
    rw [fl_sub]
    show squareOf rp (rd _) = _
    rw [hv]
    show rp _ = _
    rw [h, natp d (by omega)]
  have neg4 : rd (((0 : Nat) : Rat) - 4) = .fin (((0 : Nat) : Rat) - 4) := by
    have := dy (rd := rd) (z := -4) (by norm_num) (j := 0) (by norm_num) hd
    norm_num at this ⊢
    exact this
  have t0 := t 0 16 (by norm_num) (by norm_num) neg4
  have t4 := t 4 0 (by norm_num) (by norm_num) (by simpa using nat 0 (by norm_num))
  have t8 := t 8 16 (by norm_num) (by norm_num) (by have := nat 4 (by norm_num); norm_num at this ⊢; exact this)
  have add (a b : Nat) (h : a + b ≤ 2 ^ 20) : rnd rd ((Fl.fin (a : Rat)).add (.fin (b : Rat))) = .fin ((a + b : Nat) : Rat) := by
    show rd _ = _
    rw [← Nat.cast_add, nat _ (by omega)]
  have hv : calculateVariance rp rd [0, 4, 8] (.fin 4) = .fin ((16 : Nat) : Rat) := by
    rw [variance_cons, List.foldl_cons, List.foldl_cons, List.foldl_nil, t0, t4, t8]
    have e0 : (Fl.fin 0) = .fin ((0 : Nat) : Rat) := by norm_num
    rw [e0, add 0 16 (by norm_num), add _ 0 (by norm_num), add _ 16 (by norm_num), nat _ (by simp), fl_sub]
    have e2 : rnd rd (.fin ((([0, 4, 8].length : Nat) : Rat) - 1)) = .fin ((2 : Nat) : Rat) := by
      show rd _ = _
      rw [show (([0, 4, 8].length : Nat) : Rat) - 1 = ((2 : Nat) : Rat) by norm_num, nat 2 (by norm_num)]
    rw [e2]
    show rnd rd (if ((2 : Nat) : Rat) = 0 then Fl.signInf ((0 + 16 + 0 + 16 : Nat) : Rat) else .fin (((0 + 16 + 0 + 16 : Nat) : Rat) / ((2 : Nat) : Rat))) = _
    rw [if_neg (by norm_num)]
    show rd _ = _
    rw [show ((0 + 16 + 0 + 16 : Nat) : Rat) / ((2 : Nat) : Rat) = ((16 : Nat) : Rat) by norm_num, nat 16 (by norm_num)]
  have hdev : deviation rp rd [0, 4, 8] = .fin 4 := by
    unfold deviation
    rw [hm, hv]
    show (if ((16 : Nat) : Rat) < 0 then Fl.nan else rd (rootApprox ((16 : Nat) : Rat))) = _
    have := rootApprox_dyadic 4 0 (by norm_num)
    rw [if_neg (by norm_num), show ((16 : Nat) : Rat) = (((4 : Nat) : Rat) / 2 ^ 0) * (((4 : Nat) : Rat) / 2 ^ 0) by norm_num, this]
    have h4 := nat 4 (by norm_num)
    norm_num at h4 ⊢
    exact h4
  have hX : xrayThreshold rp rd [0, 4, 8] (.fin 10) = .fin 44 := by
    unfold xrayThreshold
    rw [hm, hdev]
    have h40 := nat 40 (by norm_num)
    have h44 := nat 44 (by norm_num)
    norm_num at h40 h44
    have e1 : rnd rd ((Fl.fin 10).mul (.fin 4)) = .fin 40 := by
      show rd _ = _
      norm_num
      exact h40
    rw [e1]
    show rd _ = _
    norm_num
    exact h44
  have hU : upper rp rd [0, 4, 8] (.fin 10) = .fin ((180 : Int) : Rat) := by
    unfold upper
    rw [hm, hdev, hX]
    have h1 := nat 176 (by norm_num)
    have h2 := nat 180 (by norm_num)
    norm_num at h1 h2
    have e1 : rnd rd ((Fl.fin 44).mul (.fin 4)) = .fin 176 := by
      show rd _ = _
      norm_num
      exact h1
    rw [e1]
    show rd _ = _
    norm_num
    exact h2
  have hi : toInt (upper rp rd [0, 4, 8] (.fin 10)) = .ok 180 := by
    rw [hU]
    exact (RoundedImages.toInt_int 180).trans (int32_ok (by norm_num) (by norm_num))
  refine ⟨hr, hdev, hi, ?_⟩
  obtain ⟨hist, a, b, _⟩ := C97_deviation hd hr (by simp) hdev (by norm_num) (by norm_num) hi
  exact ⟨hist, by simpa using a, by simpa using b⟩

example (hp : Rounds float64 rp) (hd : Rounds float64 rd) : buildHistogram rp rd (List.replicate 100 7) (.fin 10) = .ok (7, []) := by
  have := (C97_constant hp hd (l := List.replicate 100 7) (v := 7) (by norm_num) (fun u hu => List.eq_of_mem_replicate hu) (by simp) (by simp) 10).2.1
  simpa using this

/-- Without samples the begin of an empty vector is read (electronthresholds.cpp:127-128). -/
theorem C97_empty_false (nSigma : Fl) : buildHistogram rp rd [] nSigma = .ub := rfl

end Stempy.Props
