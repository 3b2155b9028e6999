import Verif.Model.Thresholds
import Verif.Lemmas.Counting
import Verif.Lemmas.Loop
import Verif.Props.Counting
import Mathlib.Tactic.FieldSimp

/-!
C57: histogram and thresholds for electron counting.
-/

namespace Stempy.Props
open Stempy.Thresholds Stempy.Electron Stempy.Spec Stempy.Image

theorem toInt_intCast {z : Int} (h1 : -(2 ^ 31) ≤ z) (h2 : z < 2 ^ 31) :
    toInt ((z : Int) : Rat) = .ok z := by
  unfold toInt
  simp only [Int.ceil_intCast, Int.floor_intCast, ite_self]
  exact int32_ok h1 h2

private theorem foldl_min_nat (l : List Nat) (a : Nat) :
    (l.map fun v : Nat => (v : Rat)).foldl min (a : Rat) = ((l.foldl min a : Nat) : Rat) := by
  induction l generalizing a with
  | nil => rfl
  | cons b l ih =>
    simp only [List.map_cons, List.foldl_cons]
    rw [← ih, Nat.cast_min]

private theorem foldl_max_nat (l : List Nat) (a : Nat) :
    (l.map fun v : Nat => (v : Rat)).foldl max (a : Rat) = ((l.foldl max a : Nat) : Rat) := by
  induction l generalizing a with
  | nil => rfl
  | cons b l ih =>
    simp only [List.map_cons, List.foldl_cons]
    rw [← ih, Nat.cast_max]

private theorem foldl_min_list (l : List Nat) (a : Nat) :
    l.foldl min a ∈ a :: l ∧ ∀ v ∈ a :: l, l.foldl min a ≤ v := by
  induction l generalizing a with
  | nil => simp
  | cons b l ih =>
    obtain ⟨h1, h2⟩ := ih (min a b)
    simp only [List.foldl_cons]
    refine ⟨?_, ?_⟩
    · rcases List.mem_cons.1 h1 with h | h
      · rw [h]; rcases Nat.le_total a b with h | h
        · simp [Nat.min_eq_left h]
        · simp [Nat.min_eq_right h]
      · simp [h]
    · intro v hv
      have h3 := h2 (min a b) (by simp)
      simp only [List.mem_cons] at hv
      rcases hv with rfl | rfl | hv
      · omega
      · omega
      · exact h2 v (by simp [hv])

private theorem foldl_max_list (l : List Nat) (a : Nat) :
    l.foldl max a ∈ a :: l ∧ ∀ v ∈ a :: l, v ≤ l.foldl max a := by
  induction l generalizing a with
  | nil => simp
  | cons b l ih =>
    obtain ⟨h1, h2⟩ := ih (max a b)
    simp only [List.foldl_cons]
    refine ⟨?_, ?_⟩
    · rcases List.mem_cons.1 h1 with h | h
      · rw [h]; rcases Nat.le_total a b with h | h
        · simp [Nat.max_eq_right h]
        · simp [Nat.max_eq_left h]
      · simp [h]
    · intro v hv
      have h3 := h2 (max a b) (by simp)
      simp only [List.mem_cons] at hv
      rcases hv with rfl | rfl | hv
      · omega
      · omega
      · exact h2 v (by simp [hv])

/-- samples as used by the code: 16 bit values -/
def sampleList (vals : List Nat) : List Rat := vals.map fun v : Nat => (v : Rat)

/-- The range computed for the histogram: `m`, `M` are the smallest and largest sample and `lo`, `hi` the
truncated limits `mean ∓ xrayThreshold * stdDev`. -/
structure HistRange (vals : List Nat) (stdDev n : Rat) (m M : Nat) (lo hi : Int) : Prop where
  small : ∀ v ∈ vals, v < 65536
  min_mem : m ∈ vals
  min_le : ∀ v ∈ vals, m ≤ v
  max_mem : M ∈ vals
  le_max : ∀ v ∈ vals, v ≤ M
  lo_eq : toInt (calculateMean (sampleList vals) -
    (calculateMean (sampleList vals) + n * stdDev) * stdDev) = .ok lo
  hi_eq : toInt (calculateMean (sampleList vals) +
    (calculateMean (sampleList vals) + n * stdDev) * stdDev) = .ok hi
  lo_ge : -(2 ^ 30) ≤ lo

private theorem toInt_range {r : Rat} {z : Int} (h : toInt r = .ok z) : -(2 ^ 31) ≤ z ∧ z < 2 ^ 31 := by
  unfold toInt at h
  simp only at h
  generalize (if r < 0 then ⌈r⌉ else ⌊r⌋) = t at h
  unfold int32 at h
  split at h
  · rename_i hc
    cases h
    omega
  · cases h

private def binStep (minBin nb : Int) (hist : List Nat) (v : Rat) : Outcome (List Nat) := do
  let binIndex ← toInt (v - minBin)
  if binIndex ≥ nb then pure hist
  else if binIndex < 0 then .ub
  else do
    let c ← readAt hist binIndex.toNat
    writeAt hist binIndex.toNat (c + 1)

private theorem buildHistogram_eq {vals : List Nat} {stdDev n : Rat} {m M : Nat} {lo hi : Int}
    (hr : HistRange vals stdDev n m M lo hi) :
    buildHistogram (sampleList vals) stdDev n =
      (if min (M : Int) hi - max (m : Int) lo < 0 then
        .throw "cannot create std::vector larger than max_size()"
      else do
        let hist ← (sampleList vals).foldlM
          (binStep (max (m : Int) lo) (min (M : Int) hi - max (m : Int) lo))
          (List.replicate (min (M : Int) hi - max (m : Int) lo).toNat 0)
        pure (max (m : Int) lo, hist)) := by
  have hmv := hr.small _ hr.min_mem
  have hMv := hr.small _ hr.max_mem
  have hmn : minSample (sampleList vals) = .ok ((m : Nat) : Rat) := by
    cases vals with
    | nil => exact absurd hr.min_mem (by simp)
    | cons v vs =>
      unfold sampleList minSample
      simp only [List.map_cons]
      rw [foldl_min_nat]
      obtain ⟨a, b⟩ := foldl_min_list vs v
      have : vs.foldl min v = m := by
        have h1 := hr.min_le _ a
        have h2 := b m hr.min_mem
        omega
      rw [this]
  have hmx : maxSample (sampleList vals) = .ok ((M : Nat) : Rat) := by
    cases vals with
    | nil => exact absurd hr.min_mem (by simp)
    | cons v vs =>
      unfold sampleList maxSample
      simp only [List.map_cons]
      rw [foldl_max_nat]
      obtain ⟨a, b⟩ := foldl_max_list vs v
      have : vs.foldl max v = M := by
        have h1 := hr.le_max _ a
        have h2 := b M hr.max_mem
        omega
      rw [this]
  have e1 : toInt (((⌈((M : Nat) : Rat)⌉ : Int)) : Rat) = .ok (M : Int) := by
    rw [Int.ceil_natCast]
    exact toInt_intCast (by omega) (by omega)
  have e2 : toInt ((m : Nat) : Rat) = .ok (m : Int) := by
    have := toInt_intCast (z := (m : Int)) (by omega) (by omega)
    simpa using this
  unfold buildHistogram
  simp only [hmn, hmx, Outcome.ok_bind, e1, e2, hr.lo_eq, hr.hi_eq]
  rfl

private theorem binStep_nat {v : Nat} (hv : v < 65536) {minBin nb : Int} (h1 : -(2 ^ 30) ≤ minBin)
    (h2 : minBin < 2 ^ 31) (hist : List Nat) :
    binStep minBin nb hist (v : Rat) =
      if (v : Int) - minBin ≥ nb then .ok hist
      else if (v : Int) - minBin < 0 then .ub
      else (do
        let c ← readAt hist ((v : Int) - minBin).toNat
        writeAt hist ((v : Int) - minBin).toNat (c + 1)) := by
  unfold binStep
  have : toInt ((v : Rat) - (minBin : Rat)) = .ok ((v : Int) - minBin) := by
    have := toInt_intCast (z := (v : Int) - minBin) (by omega) (by omega)
    simpa using this
  rw [this]
  rfl

/-- **C57** As long as the lower limit of the histogram is not above the smallest sample, the histogram is
built in bounds, and bin `k` counts the samples equal to `minBin + k`. Missing for the full statement: samples
below the lower limit, for which the claim is false (`C57_out_of_bounds`, `C57_out_of_bounds_reachable`). -/
theorem C57_histogram_partial {vals : List Nat} {stdDev n : Rat} {m M : Nat} {lo hi : Int}
    (hr : HistRange vals stdDev n m M lo hi) (hlo : lo ≤ m) (hhi : (m : Int) ≤ hi) :
    ∃ hist : List Nat, buildHistogram (sampleList vals) stdDev n = .ok ((m : Int), hist) ∧
      hist.length = (min (M : Int) hi - m).toNat ∧
      ∀ k, k < hist.length → hist[k]? = some (vals.countP fun v => v = m + k) := by
  rw [buildHistogram_eq hr]
  have hmM : m ≤ M := hr.min_le _ hr.max_mem
  have hmv := hr.small _ hr.min_mem
  rw [max_eq_left hlo, if_neg (by omega)]
  set nb := min (M : Int) hi - m with hnb
  have hnb0 : 0 ≤ nb := by omega
  unfold sampleList
  obtain ⟨hist, h1, h2, h3⟩ := foldlM_list_inv (vals.map fun v : Nat => (v : Rat)) (binStep m nb)
    (fun pre hist => hist.length = nb.toNat ∧ ∀ k, k < nb.toNat →
      hist[k]? = some (pre.countP fun v => v = ((m + k : Nat) : Rat)))
    (List.replicate nb.toNat 0) ⟨by simp, by intro k hk; simp [hk]⟩
    (by
      rintro pre a post hist hl ⟨i1, i2⟩
      obtain ⟨v, hv, rfl⟩ : ∃ v ∈ vals, (v : Rat) = a := by
        have : a ∈ vals.map fun v : Nat => (v : Rat) := by rw [hl]; simp
        simpa using this
      have hsm := hr.small v hv
      have hmv2 := hr.min_le v hv
      rw [binStep_nat hsm (by omega) (by omega)]
      by_cases hc : (v : Int) - m ≥ nb
      · rw [if_pos hc]
        refine ⟨_, rfl, i1, ?_⟩
        intro k hk
        rw [i2 k hk, List.countP_append]
        have : ¬ ((v : Rat) = ((m + k : Nat) : Rat)) := by
          intro h
          have : v = m + k := by exact_mod_cast h
          omega
        simp only [List.countP_singleton, this, decide_false]
        simp
      · rw [if_neg hc, if_neg (by omega)]
        have hidx : ((v : Int) - m).toNat = v - m := by omega
        rw [hidx]
        have hlt : v - m < nb.toNat := by omega
        rw [readAt_eq_ok.2 (i2 (v - m) hlt), Outcome.ok_bind, writeAt_lt (by omega)]
        refine ⟨_, rfl, by simpa using i1, ?_⟩
        intro k hk
        rw [List.countP_append]
        by_cases hkv : k = v - m
        · subst hkv
          rw [List.getElem?_set_self (by omega)]
          have : (v : Rat) = ((m + (v - m) : Nat) : Rat) := by
            have : m + (v - m) = v := by omega
            rw [this]
          simp only [List.countP_singleton, ← this, decide_true]
          simp
        · rw [List.getElem?_set_ne (fun h => hkv h.symm), i2 k hk]
          have : ¬ ((v : Rat) = ((m + k : Nat) : Rat)) := by
            intro h
            have : v = m + k := by exact_mod_cast h
            omega
          simp only [List.countP_singleton, this, decide_false]
          simp)
  refine ⟨hist, by rw [h1]; rfl, h2, ?_⟩
  intro k hk
  rw [h3 k (by omega)]
  congr 1
  rw [List.countP_map]
  apply List.countP_congr
  intro v _
  simp only [Function.comp, decide_eq_true_eq]
  constructor
  · intro h; exact_mod_cast h
  · intro h; exact_mod_cast h

/-- **C57** When some sample is below the lower limit `mean - xrayThreshold * stdDev`, the histogram is written
out of bounds. -/
theorem C57_out_of_bounds {vals : List Nat} {stdDev n : Rat} {m M : Nat} {lo hi : Int}
    (hr : HistRange vals stdDev n m M lo hi) (hlo : (m : Int) < lo)
    (hbins : lo ≤ min (M : Int) hi) : buildHistogram (sampleList vals) stdDev n = .ub := by
  rw [buildHistogram_eq hr]
  rw [max_eq_right (le_of_lt hlo), if_neg (by omega)]
  set nb := min (M : Int) hi - lo with hnb
  have hlo2 := (toInt_range hr.lo_eq)
  have key : ∀ (l : List Nat) (hist : List Nat), (∀ v ∈ l, v < 65536) →
      hist.length = nb.toNat → (∃ v ∈ l, (v : Int) < lo) →
      (sampleList l).foldlM (binStep lo nb) hist = .ub := by
    intro l
    induction l with
    | nil => intro hist _ _ h; simp at h
    | cons v l ih =>
      intro hist hsm hl hex
      have hv := hsm v (by simp)
      have e : sampleList (v :: l) = (v : Rat) :: sampleList l := rfl
      rw [e, List.foldlM_cons, binStep_nat hv hr.lo_ge hlo2.2]
      by_cases hvl : (v : Int) < lo
      · rw [if_neg (by omega), if_pos (by omega)]; rfl
      · have hex' : ∃ u ∈ l, (u : Int) < lo := by
          obtain ⟨u, hu, hu2⟩ := hex
          rcases List.mem_cons.1 hu with rfl | hu
          · exact absurd hu2 hvl
          · exact ⟨u, hu, hu2⟩
        by_cases hc : (v : Int) - lo ≥ nb
        · rw [if_pos hc]
          exact ih hist (fun u hu => hsm u (by simp [hu])) hl hex'
        · have hidx : ((v : Int) - lo).toNat < hist.length := by omega
          rw [if_neg hc, if_neg (by omega), readAt_lt hidx, Outcome.ok_bind,
            writeAt_lt hidx, Outcome.ok_bind]
          exact ih _ (fun u hu => hsm u (by simp [hu])) (by simpa using hl) hex'
  rw [key vals _ hr.small (by simp) ⟨m, hr.min_mem, hlo⟩]
  rfl

/-- **C57** is false: 99 pixels of value 2 and one of value 0, with the default `xRayThresholdNSigma = 10`. The
standard deviation is exactly 0.2 and the sample 0 is counted at index -1. -/
theorem C57_out_of_bounds_reachable :
    let vals := 0 :: List.replicate 99 2
    calculateVariance (sampleList vals) (calculateMean (sampleList vals)) = (1 / 5) ^ 2 ∧
    buildHistogram (sampleList vals) (1 / 5) 10 = .ub := by
  decide +kernel

/-- **C57** A constant sample has no bins and the largest bin is read out of bounds. -/
theorem C57_constant_sample :
    let vals := List.replicate 100 7
    calculateVariance (sampleList vals) (calculateMean (sampleList vals)) = 0 ∧
    buildHistogram (sampleList vals) 0 10 = .ok (7, []) ∧ peakHeight [] = .ub := by
  decide +kernel

/-- **C57** the statistics: the mean balances the sample, the variance is the unbiased one. -/
theorem C57_statistics (samples : List Rat) (h : 2 ≤ samples.length) :
    (samples.map fun v => v - calculateMean samples).sum = 0 ∧
    calculateVariance samples (calculateMean samples) * ((samples.length : Rat) - 1) =
      (samples.map fun v => (v - calculateMean samples) ^ 2).sum := by
  have hl : (samples.length : Rat) ≠ 0 := by
    have : samples.length ≠ 0 := by omega
    exact_mod_cast this
  constructor
  · have e : ∀ (l : List Rat) (c : Rat), (l.map fun v => v - c).sum = l.sum - l.length * c := by
      intro l c
      induction l with
      | nil => simp
      | cons a l ih =>
        simp only [List.map_cons, List.sum_cons, ih, List.length_cons]
        push_cast
        ring
    rw [e]
    unfold calculateMean
    field_simp
    ring
  · unfold calculateVariance
    have h1 : (samples.length : Rat) - 1 ≠ 0 := by
      have : (2 : Rat) ≤ samples.length := by exact_mod_cast h
      intro h0; linarith
    rw [div_mul_cancel₀ _ h1]

/-- **C57** the thresholds: with non-negative factors the x-ray threshold is the given number of standard
deviations above the mean, and the background threshold lies above the optimized mean by the given number of
optimized sigmas, whatever sign the fit returned for sigma. -/
theorem C57_thresholds (samples : List Rat) {stdDev nx nb om os : Rat} (hs : 0 ≤ stdDev)
    (hx : 0 ≤ nx) (hb : 0 ≤ nb) :
    let t := thresholds samples stdDev nx nb (om, os)
    t.1 - samples.sum / samples.length = nx * stdDev ∧ t.2 - om = nb * |os| ∧
      samples.sum / samples.length ≤ t.1 ∧ om ≤ t.2 ∧
      t = thresholds samples stdDev nx nb (om, -os) := by
  simp only [thresholds, calculateMean, abs_neg, and_true]
  have h1 := mul_nonneg hx hs
  have h2 := mul_nonneg (abs_nonneg os) hb
  refine ⟨by ring, by ring, by linarith, by linarith⟩

/-- **C57** Sampling: for every random choice of frames inside of the blocks, the samples are the corrected
pixels of the chosen frames. -/
theorem C57_sampling {w h : Nat} {bs : List (List Frame)} (hs : Nat × Nat)
    (ok : StackBlocksOK w h bs) (ft : FT) (dark gain : Option (List Rat))
    (picks : List (Nat × Nat)) (chosen : List Frame)
    (hpick : List.Forall₂ (fun p f => ∃ fs, bs[p.1]? = some fs ∧ fs[p.2]? = some f) picks chosen)
    (val : Nat → Nat → Rat)
    (hval : ∀ f ∈ chosen, ∀ j, j < w * h → sampleValue ft dark gain j (f.2.getD j 0) =
      .ok (val j (f.2.getD j 0))) :
    gatherSamples ft dark gain (bs.map (mkBlock hs (w, h))) picks =
      .ok (chosen.map fun f => (List.range (w * h)).map fun j => val j (f.2.getD j 0)).flatten := by
  obtain ⟨fs0, bs', rfl⟩ := List.exists_cons_of_ne_nil ok.blocks
  have hn : (w * h) % 2 ^ 32 = w * h := Nat.mod_eq_of_lt ok.size
  have key : picks.mapM (fun p => do
      let b ← readAt ((fs0 :: bs').map (mkBlock hs (w, h))) p.1
      (List.range (w * h)).mapM fun j => do
        let v ← readAt b.data ((p.2 * (w * h) + j) % 2 ^ 32)
        sampleValue ft dark gain j v) =
      .ok (chosen.map fun f => (List.range (w * h)).map fun j => val j (f.2.getD j 0)) := by
    induction hpick with
    | nil => rfl
    | cons hp hrest ih =>
      rename_i p f ps cs
      obtain ⟨fs, h1, h2⟩ := hp
      have hfm : f ∈ fs := List.mem_of_getElem? h2
      have hfs : fs ∈ fs0 :: bs' := List.mem_of_getElem? h1
      have hlen := ok.len fs hfs
      have hi : p.2 < fs.length := (List.getElem?_eq_some_iff.1 h2).1
      rw [List.mapM_cons]
      have r1 : readAt ((fs0 :: bs').map (mkBlock hs (w, h))) p.1 = .ok (mkBlock hs (w, h) fs) := by
        rw [readAt_eq_ok, List.getElem?_map, h1]; rfl
      rw [r1, Outcome.ok_bind]
      rw [mapM_ok (List.range (w * h)) _ (fun j => val j (f.2.getD j 0)) (by
        intro j hj
        have hj : j < w * h := by simpa using hj
        have hlt : p.2 * (w * h) + j < 2 ^ 32 := by
          have a := ok.blockSize fs hfs
          have b : (p.2 + 1) * (w * h) ≤ fs.length * (w * h) := Nat.mul_le_mul_right _ hi
          have e : (p.2 + 1) * (w * h) = p.2 * (w * h) + w * h := by ring
          omega
        have r2 : readAt (mkBlock hs (w, h) fs).data ((p.2 * (w * h) + j) % 2 ^ 32) =
            .ok (f.2.getD j 0) := by
          rw [Nat.mod_eq_of_lt hlt, readAt_eq_ok]
          simp only [mkBlock]
          rw [flatten_uniform_getElem? _ _ (List.forall_mem_map.2 hlen) _ _ hj]
          have hjl : j < f.2.length := by rw [hlen f hfm]; exact hj
          simp [h2, hjl]
        simp only [r2, Outcome.ok_bind]
        exact hval f (by simp) j hj)]
      rw [Outcome.ok_bind, ih (fun g hg => hval g (by simp [hg]))]
      rfl
  unfold gatherSamples
  simp only [List.map_cons] at *
  simp only [mkBlock] at *
  simp only [hn]
  rw [key]
  rfl

/-- **C57** A sample without gain: the pixel less the integral part of the dark value, both truncated, as long as this is not
negative. -/
theorem C57_sample_dark {d : List Rat} {j v : Nat} {x : Rat} (gain : Option (List Rat)) (hd : d[j]? = some x) (h0 : 0 ≤ x)
    (h1 : x < 32768) (hv : v < 65536) (hle : x ≤ v) :
    sampleValue .u16 none gain j v = .ok (v : Rat) ∧
    ∃ y : Nat, (y : Rat) ≤ v - x + 1 ∧ (v : Rat) - x ≤ y ∧ ((v : Rat) - x + 1 = y → False) ∧
      sampleValue .u16 (some d) gain j v = .ok (y : Rat) := by
  refine ⟨rfl, ?_⟩
  have f0 : 0 ≤ ⌊x⌋ := Int.floor_nonneg.2 h0
  have f1 : ⌊x⌋ < 32768 := Int.floor_lt.2 (by exact_mod_cast h1)
  have f2 : ⌊x⌋ ≤ v := by
    have : ((⌊x⌋ : Int) : Rat) ≤ ((v : Int) : Rat) := le_trans (Int.floor_le x) (by exact_mod_cast hle)
    exact_mod_cast this
  have f3 := Int.floor_le x
  have f4 := Int.lt_floor_add_one x
  have e : (((v : Int) - ⌊x⌋).toNat : Int) = (v : Int) - ⌊x⌋ := by omega
  have er : ((((v : Int) - ⌊x⌋).toNat : Nat) : Rat) = (v : Rat) - (⌊x⌋ : Rat) := by
    have := congrArg (fun z : Int => (z : Rat)) e
    push_cast at this
    exact_mod_cast this
  refine ⟨((v : Int) - ⌊x⌋).toNat, by rw [er]; linarith, by rw [er]; linarith, by rw [er]; intro h; linarith, ?_⟩
  unfold sampleValue
  simp only [readPtr, readAt_eq_ok.2 hd, Outcome.ok_bind]
  rw [if_neg (not_lt.2 h0), if_pos ⟨by omega, by omega⟩, er, Int.emod_eq_of_lt (by omega) (by omega)]
  push_cast
  rfl

/-- **C57** A sample with gain: the truncated difference times the gain of this pixel, truncated. -/
theorem C57_sample_gain {d g : List Rat} {j v : Nat} {x y : Rat} (hd : d[j]? = some x) (hg : g[j]? = some y) (hx : x ≤ v)
    (hy : 0 ≤ y) (hsmall : (v : Rat) - x < 65536) (hprod : ((v : Rat) - x) * y < 65536) :
    sampleValue .f32 (some d) (some g) j v = .ok (⌊(⌊(v : Rat) - x⌋ : Rat) * y⌋ : Int) ∧
    ((v : Rat) * y < 65536 → sampleValue .f32 none (some g) j v = .ok (⌊(v : Rat) * y⌋ : Int)) := by
  have h0 : 0 ≤ (v : Rat) - x := by linarith
  have hfl : ((⌊(v : Rat) - x⌋ : Int) : Rat) ≤ (v : Rat) - x := Int.floor_le _
  have hf0 : (0 : Rat) ≤ ((⌊(v : Rat) - x⌋ : Int) : Rat) := by exact_mod_cast Int.floor_nonneg.2 h0
  have hp0 : (0 : Rat) ≤ ((⌊(v : Rat) - x⌋ : Int) : Rat) * y := mul_nonneg hf0 hy
  have hp1 : ((⌊(v : Rat) - x⌋ : Int) : Rat) * y < 65536 := lt_of_le_of_lt (mul_le_mul_of_nonneg_right hfl hy) hprod
  have hto : ∀ r : Rat, 0 ≤ r → r < 65536 → toU16 r = .ok ((⌊r⌋ : Int) : Rat) := by
    intro r h1 h2
    unfold toU16
    rw [if_neg (by rintro (h | h) <;> linarith), if_neg (not_lt.2 h1)]
  refine ⟨?_, ?_⟩
  · unfold sampleValue
    simp only [readPtr, readAt_eq_ok.2 hd, readAt_eq_ok.2 hg, Outcome.ok_bind, hto _ h0 hsmall]
    exact hto _ hp0 hp1
  · intro h
    unfold sampleValue
    simp only [readPtr, readAt_eq_ok.2 hg, Outcome.ok_bind, Outcome.pure_eq]
    exact hto _ (mul_nonneg (Nat.cast_nonneg v) hy) h

/-- **C57** The fit starts with the height of the highest bin. -/
theorem C57_peak {hist : List Nat} (h : hist ≠ []) :
    ∃ p ∈ hist, (∀ c ∈ hist, c ≤ p) ∧ peakHeight hist = .ok p := by
  obtain ⟨a, l, rfl⟩ := List.exists_cons_of_ne_nil h
  have e : (a :: l).foldl max 0 = l.foldl max a := by simp
  obtain ⟨h1, h2⟩ := foldl_max_list l a
  refine ⟨_, h1, h2, ?_⟩
  unfold peakHeight
  rw [e, readAt_eq_ok]
  have hlt := List.idxOf_lt_length_iff.2 h1
  rw [List.getElem?_eq_getElem hlt, List.getElem_idxOf hlt]

example : sampleValue .u16 (some [3, 5 / 2]) none 1 7 = .ok 5 ∧
    sampleValue .f32 (some [3, 5 / 2]) (some [1, 3 / 2]) 1 7 = .ok 6 ∧ peakHeight [1, 4, 2, 4] = .ok 4 := by
  decide +kernel

example : HistRange [2, 5, 9, 2] (7 / 2) 10 2 9 (-133) 142 := by
  constructor
  all_goals decide +kernel
example : buildHistogram (sampleList [2, 5, 9, 2]) (7 / 2) 10 = .ok (2, [2, 0, 0, 1, 0, 0, 0]) := by
  decide +kernel
example : HistRange (0 :: List.replicate 99 2) (1 / 5) 10 0 2 1 2 := by
  constructor
  all_goals decide +kernel

end Stempy.Props
