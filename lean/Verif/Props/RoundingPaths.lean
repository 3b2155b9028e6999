import Verif.Props.Rounding

/-!
C92 and C15 without gain: the two counting paths in single precision.
-/

namespace Stempy.RoundedCounting
open Stempy.Spec Stempy.Props
open Stempy.FloatPixels (Fl threshold forRange forRange_ok ofPixels ofPixels_get ofPixels_length Between IsPeak NextToNan events_of)
open Stempy.Float32 (Rounds f32)
open Stempy.SafeCast (float32)

/-! ### Frames of finite values -/

/-- The events of a preprocessing loop whose results are finite. -/
theorem count_of_values {f : Nat → Fl → Outcome Fl} {bg xr : Rat} {w h : Nat} {frame : List Nat} {C : Nat → Rat}
    (ok : FrameOK w h frame bg)
    (hf : ∀ j, j < w * h → f j (.fin (frame.getD j 0 : Nat)) = .ok (threshold (.fin bg) (.fin xr) (.fin (C j)))) :
    ∃ events, (forRange 0 ((w * h) % 2 ^ 32) f (ofPixels frame)).bind (fun fr => Electron.maximalPoints Fl.gt fr (w, h)) = .ok events ∧
      IsEventList bg xr w h C events := by
  have hn : (w * h) % 2 ^ 32 = w * h := Nat.mod_eq_of_lt ok.size
  have hl := ok.len
  rw [hn]
  obtain ⟨out, h1, h2, h3⟩ := forRange_ok (f := f) (start := 0) (len := w * h) (frame := ofPixels frame)
    (fun j _ => threshold (.fin bg) (.fin xr) (.fin (C j))) (by rw [ofPixels_length, hl]; omega) (by
      intro j hj _ b
      have e := ofPixels_get (frame := frame) (j := j) (by omega)
      rw [List.getElem?_eq_getElem hj] at e
      rw [Option.some.inj e]
      exact hf j (by omega))
  rw [h1]
  obtain ⟨ev, e1, e2, e3, e4⟩ := events_of (xr := xr) ok.bg0 ok.wlt ok.hlt ok.size ok.two (fun j => .fin (C j))
    (out := out) (by rw [h2, ofPixels_length, hl]) (by
      intro j hj
      rw [h3 j, if_pos (by omega), ofPixels_get (by omega)]
      rfl)
  refine ⟨ev, e1, e2, e3, ?_⟩
  intro x y hx hy
  rw [e4 x y hx hy]
  constructor
  · rintro ⟨⟨q, p1, p2, p3, p4⟩, _⟩
    cases p1
    refine ⟨⟨p2, p3⟩, ?_⟩
    intro x' y' a1 a2 a3
    unfold eligible
    split
    · rename_i hel
      exact p4 x' y' a1 a2 a3 _ rfl hel.1 hel.2
    · exact lt_of_le_of_lt ok.bg0 p2
  · rintro ⟨p1, p2⟩
    refine ⟨⟨_, rfl, p1.1, p1.2, ?_⟩, ?_⟩
    · intro x' y' a1 a2 a3 q' b1 b2 b3
      cases b1
      have := p2 x' y' a1 a2 a3
      unfold eligible at this
      rwa [if_pos ⟨b2, b3⟩] at this
    · rintro ⟨x', y', a1, a2, a3, a4⟩
      cases a4

/-- The options of counting without gain. -/
def plainOptions (bg xr : Rat) (dark : Option (List Rat)) : Options := ⟨.u16, bg, xr, dark.map (·.map .fin), none, none, .fin 0⟩

theorem toU16_fin {q : Rat} (h1 : -1 < q) (h2 : q < 65536) : toU16 (.fin q) = .ok (.fin (truncZero q)) := by
  unfold truncZero
  show (if q ≤ -1 ∨ 65536 ≤ q then Outcome.ub else if q < 0 then .ok (Fl.fin 0) else .ok (Fl.fin (⌊q⌋ : Int))) = _
  rw [if_neg (show ¬ (q ≤ -1 ∨ 65536 ≤ q) by rintro (h | h) <;> linarith)]
  by_cases h : q < 0
  · rw [if_pos h, if_pos h]
    have : ⌈q⌉ = 0 := by
      rw [Int.ceil_eq_iff]
      constructor
      · simpa using h1
      · simpa using le_of_lt h
    rw [this]
    simp
  · rw [if_neg h, if_neg h]

/-- **C92** without gain in the streaming path: there is no rounding, and the events are those of exact arithmetic. -/
theorem C92_stream_u16 (rd : Rat → Fl) {bg xr : Rat} {dark : Option (List Rat)} {w h : Nat} {frame : List Nat}
    (ok : FrameOK w h frame bg) (hd : ∀ d, dark = some d → d.length = w * h ∧ ∀ r ∈ d, -1 < r ∧ r < 65536) :
    ∃ events, countStream rd (plainOptions bg xr dark) (w, h) (ofPixels frame) = .ok events ∧
      IsEventList bg xr w h (u16StreamValue dark frame) events := by
  refine count_of_values (f := streamPixel rd (plainOptions bg xr dark)) ok ?_
  intro j hj
  replace hj : j < w * h := hj
  unfold streamPixel plainOptions u16StreamValue
  cases hdk : dark with
  | none => simp
  | some d =>
    obtain ⟨h1, h2⟩ := hd d hdk
    have hm : d.getD j 0 ∈ d := by
      have : j < d.length := by omega
      simp [this]
    have h3 := h2 _ hm
    have h4 : readAt (d.map Fl.fin) j = .ok (.fin (d.getD j 0)) := readAt_fin (by omega)
    simp only [Option.map_some, h4, Outcome.ok_bind, Outcome.pure_eq, toU16_fin h3.1 h3.2, subU16]
    have : (((frame.getD j 0 : Nat) : Rat) - (truncZero (d.getD j 0) : Rat)) =
        ((((frame.getD j 0 : Nat) : Int) - truncZero (d.getD j 0) : Int) : Rat) := by
      push_cast; rfl
    rw [this, Int.floor_intCast]

/-- Block-wise counting without gain: the differences are rounded, then truncated. -/
theorem C92_classic_u16_values {rd : Rat → Fl} {bg xr : Rat} {dark : List Rat} {w h : Nat} {frame : List Nat} {r : Nat → Rat}
    (ok : FrameOK w h frame bg) (hdl : dark.length = w * h)
    (hr : ∀ j, j < w * h → rd ((frame.getD j 0 : Nat) - dark.getD j 0) = .fin (r j) ∧ -1 < r j ∧ r j < 65536) :
    ∃ events, countClassic rd (plainOptions bg xr (some dark)) (w, h) (ofPixels frame) = .ok events ∧
      IsEventList bg xr w h (fun j => truncZero (r j)) events := by
  refine count_of_values (f := classicPixel rd (plainOptions bg xr (some dark))) ok ?_
  intro j hj
  replace hj : j < w * h := hj
  obtain ⟨h1, h2, h3⟩ := hr j hj
  have h4 : readAt (dark.map Fl.fin) j = .ok (.fin (dark.getD j 0)) := readAt_fin (by omega)
  unfold classicPixel plainOptions
  simp only [Option.map_some, readPtr, h4, Outcome.ok_bind]
  have : rnd rd ((Fl.fin (frame.getD j 0 : Nat)).sub (.fin (dark.getD j 0))) = .fin (r j) := by
    rw [← h1]
    simp [Fl.sub, Fl.add, Fl.neg, rnd, sub_eq_add_neg]
  rw [this, toU16_fin h2 h3]
  rfl

/-- **C92** without gain in the block-wise path, in every rounding mode: the events are those of exact arithmetic if the differences are
numbers of the format, as with integral dark values. Missing: other differences (`C92_classic_false`). -/
theorem C92_classic_u16_partial {rd : Rat → Fl} (R : Rounds rd) {bg xr : Rat} {dark : List Rat} {w h : Nat} {frame : List Nat}
    (ok : FrameOK w h frame bg) (hdl : dark.length = w * h)
    (hr : ∀ j, j < w * h → -1 < ((frame.getD j 0 : Nat) : Rat) - dark.getD j 0 ∧
      ((frame.getD j 0 : Nat) : Rat) - dark.getD j 0 < 65536)
    (he : ∀ j, j < w * h → ExactDifference (some dark) frame j) :
    ∃ events, countClassic rd (plainOptions bg xr (some dark)) (w, h) (ofPixels frame) = .ok events ∧
      IsEventList bg xr w h (u16ClassicValue dark frame) events :=
  C92_classic_u16_values ok hdl fun j hj => ⟨R.fix _ (he j hj dark rfl), hr j hj⟩

/-! ### Differences in single precision -/

/-- Numbers of the format which are at least `2^(k+23)` are multiples of `2^k`. -/
theorem has_multiple {r : Rat} (h : float32.Has r) {k : Int} (hr : 2 ^ 23 * (2 : Rat) ^ k ≤ |r|) : ∃ n : Int, r = n * (2 : Rat) ^ k := by
  have e1 := Float32.lt_expo r
  have e2 : (2 : Rat) ^ k < 2 ^ (Float32.expo r + 1) := by
    rw [zpow_add_one₀ (by norm_num)]
    linarith
  have e3 := Float32.of_zpow_lt e2
  rcases Float32.has_expo h r with ⟨n, hn⟩ | ⟨a, b⟩
  · refine ⟨n * 2 ^ (Float32.expo r - k).toNat, ?_⟩
    push_cast
    conv_lhs => rw [hn]
    rw [mul_assoc, ← zpow_natCast, ← zpow_add₀ (by norm_num)]
    congr 2
    omega
  · exact absurd (Float32.expo_le a) (not_le.2 b)

theorem has_neg {r : Rat} (h : float32.Has r) : float32.Has (-r) := by
  obtain ⟨m, e, h1, h2, h3, rfl⟩ := h
  exact ⟨-m, e, by rwa [abs_neg], h2, h3, by push_cast; ring⟩

/-- The difference of a natural number and a dark value is not rounded if it is below one. -/
theorem has_diff {d : Rat} (hd : float32.Has d) {v : Nat} (h1 : 1 ≤ d) (h2 : |(v : Rat) - d| ≤ 1) : float32.Has ((v : Rat) - d) := by
  obtain ⟨n, hn⟩ := has_multiple hd (k := -23) (by rw [abs_of_pos (by linarith)]; norm_num; exact h1)
  refine ⟨(v : Int) * 2 ^ 23 - n, -23, ?_, by decide, by decide, ?_⟩
  · have e : (2 : Rat) ^ (-23 : Int) = 1 / 2 ^ 23 := by norm_num
    rw [hn, e] at h2
    have : |(((v : Int) * 2 ^ 23 - n : Int) : Rat)| ≤ 2 ^ 23 := by
      push_cast
      rw [abs_le] at h2 ⊢
      constructor <;> linarith [h2.1, h2.2]
    have : |(v : Int) * 2 ^ 23 - n| ≤ 2 ^ 23 := by exact_mod_cast this
    show |(v : Int) * 2 ^ 23 - n| < 2 ^ 24
    omega
  · rw [hn]
    push_cast
    have e : (2 : Rat) ^ (-23 : Int) = 1 / 2 ^ 23 := by norm_num
    rw [e]
    ring

/-- A tie, which is rounded to the even number. -/
theorem f32_tie : f32 (33554431 / 33554432) = .fin 1 := by
  have hp : (0 : Rat) < 33554431 / 33554432 := by norm_num
  have hex : Float32.expo (33554431 / 33554432) = -24 := by
    have e1 := Float32.lt_expo (33554431 / 33554432)
    rw [abs_of_pos hp] at e1
    have hm : -149 < Float32.expo (33554431 / 33554432) := by
      by_contra hc
      rw [le_antisymm (not_lt.1 hc) (Float32.le_expo _)] at e1
      norm_num at e1
    have e2 := Float32.expo_le hm
    rw [abs_of_pos hp] at e2
    have c1 : (2 : Rat) ^ Float32.expo (33554431 / 33554432) < 2 ^ (-23 : Int) := by
      have : (2 : Rat) ^ (-23 : Int) = 1 / 2 ^ 23 := by norm_num
      rw [this]
      linarith
    have c2 : (2 : Rat) ^ (-25 : Int) < 2 ^ Float32.expo (33554431 / 33554432) := by
      have : (2 : Rat) ^ (-25 : Int) = 1 / 2 ^ 25 := by norm_num
      rw [this]
      linarith
    have := Float32.of_zpow_lt c1
    have := Float32.of_zpow_lt c2
    omega
  rw [Float32.f32_fin (by rw [abs_of_pos hp]; norm_num), hex]
  have hx : (33554431 / 33554432 : Rat) / 2 ^ (-24 : Int) = 16777215 + 1 / 2 := by norm_num
  have hfl : ⌊(16777215 + 1 / 2 : Rat)⌋ = 16777215 := by
    rw [Int.floor_eq_iff]; constructor <;> norm_num
  have hre : Float32.roundEven (16777215 + 1 / 2) = 16777216 := by
    unfold Float32.roundEven
    rw [hfl, if_neg (by norm_num), if_neg (by norm_num), if_neg (by omega)]
    norm_num
  rw [hx, hre]
  norm_num

theorem no_int_between {n N : Int} {v : Nat} (h1 : (n : Rat) < v * N) (h2 : (v : Rat) * N - 1 < n) : False := by
  have h1 : n < v * N := by exact_mod_cast h1
  have h2 : (v : Int) * N - 1 < n := by exact_mod_cast h2
  omega

/-- A dark value which is rounded away. -/
theorem f32_tiny {d : Rat} (h0 : 0 ≤ d) (h1 : d ≤ 2 ^ (-25 : Int)) {v : Nat} (hv : 1 ≤ v) (hb : v < 65536) :
    f32 ((v : Rat) - d) = .fin v := by
  have hv1 : (1 : Rat) ≤ v := by exact_mod_cast hv
  have hvb : (v : Rat) < 65536 := by exact_mod_cast hb
  have e25 : (2 : Rat) ^ (-25 : Int) = 1 / 33554432 := by norm_num
  rw [e25] at h1
  have hhv : float32.Has (v : Rat) := by
    have := has_int (z := (v : Int)) (by rw [abs_lt]; constructor <;> omega)
    exact_mod_cast this
  have hh0 : float32.Has 0 := by simpa using has_int (z := 0) (by norm_num)
  obtain ⟨r, hr, r1, r2⟩ := rd_fin Float32.f32_rounds (q := (v : Rat) - d) hh0 hhv (by linarith) (by linarith)
  rw [hr]
  congr 1
  by_contra hne
  have hlt : r < v := lt_of_le_of_ne r2 hne
  have hn := Float32.f32_nearest hr hhv
  have hn' : (v : Rat) - 2 * d ≤ r := by
    rw [abs_of_nonneg (a := (v : Rat) - _) (by linarith)] at hn
    rw [abs_le] at hn
    linarith [hn.1]
  by_cases hv2 : 2 ≤ v
  · have hv2 : (2 : Rat) ≤ v := by exact_mod_cast hv2
    obtain ⟨n, hn2⟩ := has_multiple (Float32.f32_has hr) (k := -23) (by rw [abs_of_nonneg r1]; norm_num; linarith)
    have e : (2 : Rat) ^ (-23 : Int) = 1 / 8388608 := by norm_num
    rw [e] at hn2
    have c1 : (n : Rat) < v * 8388608 := by linarith
    have c2 : (v : Rat) * 8388608 - 1 < n := by linarith
    exact no_int_between (N := 8388608) (by push_cast; exact c1) (by push_cast; exact c2)
  · have hv' : v = 1 := by omega
    subst hv'
    push_cast at *
    obtain ⟨n, hn2⟩ := has_multiple (Float32.f32_has hr) (k := -24) (by rw [abs_of_nonneg r1]; norm_num; linarith)
    have e : (2 : Rat) ^ (-24 : Int) = 1 / 16777216 := by norm_num
    rw [e] at hn2
    have c1 : (n : Rat) < 16777216 := by linarith
    have c2 : (16777215 : Rat) ≤ n := by linarith
    have c1 : n < 16777216 := by exact_mod_cast c1
    have c2 : 16777215 ≤ n := by exact_mod_cast c2
    have c3 : n = 16777215 := by omega
    rw [c3] at hn2
    have hd : d = 1 / 33554432 := by
      push_cast at hn2
      linarith
    rw [hd, show (1 : Rat) - 1 / 33554432 = 33554431 / 33554432 by norm_num, f32_tie] at hr
    cases hr
    exact lt_irrefl _ hlt

/-- Larger dark values below one are not rounded away from one. -/
theorem f32_below_one {d : Rat} (h0 : 2 ^ (-25 : Int) < d) (h1 : d < 1) : ∃ r, f32 ((1 : Nat) - d) = .fin r ∧ 0 ≤ r ∧ r < 1 := by
  have e25 : (2 : Rat) ^ (-25 : Int) = 1 / 33554432 := by norm_num
  rw [e25] at h0
  have hh0 : float32.Has 0 := by simpa using has_int (z := 0) (by norm_num)
  have hh1 : float32.Has 1 := by simpa using has_int (z := 1) (by norm_num)
  have hs : float32.Has (16777215 / 16777216) := ⟨16777215, -24, by decide, by decide, by decide, by norm_num⟩
  obtain ⟨r, hr, r1, r2⟩ := rd_fin Float32.f32_rounds (q := (1 : Nat) - d) hh0 hh1 (by push_cast; linarith) (by push_cast; linarith)
  refine ⟨r, hr, r1, lt_of_le_of_ne r2 ?_⟩
  intro e
  subst e
  by_cases hd : d ≤ 1 / 16777216
  · have := Float32.f32_nearest hr hs
    push_cast at this
    rw [abs_of_nonneg (by linarith), abs_of_nonpos (by linarith)] at this
    linarith
  · have := rd_le Float32.f32_rounds hr hs (by push_cast; linarith)
    norm_num at this

theorem truncZero_small {r : Rat} (h1 : -1 < r) (h2 : r < 1) : truncZero r = 0 := by
  unfold truncZero
  split
  · rename_i h
    rw [Int.ceil_eq_iff]
    constructor
    · push_cast; linarith
    · push_cast; linarith
  · rename_i h
    rw [Int.floor_eq_iff]
    constructor
    · push_cast; linarith
    · push_cast; linarith

theorem truncZero_int (z : Int) : truncZero (z : Rat) = z := by
  unfold truncZero
  split
  · exact Int.ceil_intCast z
  · exact Int.floor_intCast z

/-- The rounded difference of a pixel and a dark value which is integral or tiny, truncated. -/
theorem classic_same {d : Rat} (hh : float32.Has d) (h0 : 0 ≤ d) (hs : Integral d ∨ d ≤ 2 ^ (-25 : Int)) {v : Nat} (hv : v < 65536)
    (h1 : d < v + 1) :
    ∃ r, f32 ((v : Rat) - d) = .fin r ∧ -1 < r ∧ r < 65536 ∧ ((v : Int) - truncZero d) % 65536 = truncZero r := by
  have hvb : (v : Rat) < 65536 := by exact_mod_cast hv
  have hv0 : (0 : Rat) ≤ v := Nat.cast_nonneg v
  rcases hs with ⟨n, rfl⟩ | hs
  · have n0 : 0 ≤ n := by exact_mod_cast h0
    have n1 : n < v + 1 := by exact_mod_cast h1
    have e : (v : Rat) - n = (((v : Int) - n : Int) : Rat) := by push_cast; rfl
    refine ⟨(v : Rat) - n, ?_, by linarith, by linarith, ?_⟩
    · rw [e]
      exact Float32.f32_fix (has_int (by rw [abs_lt]; constructor <;> omega))
    · rw [e, truncZero_int, truncZero_int]
      omega
  · have e25 : (2 : Rat) ^ (-25 : Int) = 1 / 33554432 := by norm_num
    have hd1 : d < 1 := by
      rw [e25] at hs
      linarith
    have ht : truncZero d = 0 := truncZero_small (by linarith) hd1
    rcases Nat.eq_zero_or_pos v with rfl | hpos
    · refine ⟨-d, ?_, by linarith, by linarith, ?_⟩
      · rw [Nat.cast_zero, zero_sub]
        exact Float32.f32_fix (has_neg hh)
      · rw [ht, truncZero_small (by linarith) (by linarith)]
        rfl
    · refine ⟨v, f32_tiny h0 hs hpos hv, by linarith, hvb, ?_⟩
      have : truncZero (v : Rat) = v := truncZero_int (v : Int)
      rw [ht, this]
      omega

theorem getD_mem {dark : List Rat} {j n : Nat} (hdl : dark.length = n) (hj : j < n) : dark.getD j 0 ∈ dark := by
  have : j < dark.length := by omega
  simp [this]

theorem getD_lt {frame : List Nat} {j n : Nat} (hl : frame.length = n) (hv : ∀ v ∈ frame, v < 65536) (hj : j < n) :
    frame.getD j 0 < 65536 := by
  have : j < frame.length := by omega
  exact hv _ (by simp [this])

/-- **C92** (and C15 in single precision): with rounding to nearest the two paths agree without gain on all frames which the dark values do
not exceed by one or more, for all thresholds, if and only if every dark value is integral or at most 2^-25. -/
theorem C92_paths_iff {w h : Nat} {dark : List Rat} (hw : w < 65536) (hh : h < 65536)
    (hsz : w * h < 2 ^ 32) (h2 : 1 < w * h) (hdl : dark.length = w * h)
    (hd : ∀ d ∈ dark, float32.Has d ∧ 0 ≤ d ∧ d < 65535) :
    (∀ (frame : List Nat) (bg xr : Rat), frame.length = w * h → (∀ v ∈ frame, v < 65536) → 0 ≤ bg →
      (∀ i, i < w * h → dark.getD i 0 < frame.getD i 0 + 1) →
      countClassic f32 (plainOptions bg xr (some dark)) (w, h) (ofPixels frame) =
        countStream f32 (plainOptions bg xr (some dark)) (w, h) (ofPixels frame)) ↔
    ∀ d ∈ dark, Integral d ∨ d ≤ 2 ^ (-25 : Int) := by
  have hdu : ∀ d', some dark = some d' → d'.length = w * h ∧ ∀ r ∈ d', -1 < r ∧ r < 65536 := by
    intro d' e
    cases e
    refine ⟨hdl, fun r hr => ?_⟩
    have := hd r hr
    exact ⟨by linarith [this.2.1], by linarith [this.2.2]⟩
  constructor
  · intro H d hdm
    by_contra hcon
    push Not at hcon
    obtain ⟨c1, c2⟩ := hcon
    obtain ⟨j, hj, rfl⟩ := List.getElem_of_mem hdm
    have hjw : j < w * h := by omega
    let F : Nat → Nat := fun i => ⌊dark.getD i 0⌋.toNat + (if i = j then 1 else 0)
    have hfr : ∀ i, i < w * h → ((List.range (w * h)).map F).getD i 0 = F i := by
      intro i hi
      simp [hi]
    have hF : ∀ i, (i = j ∧ (F i : Rat) = (⌊dark.getD i 0⌋.toNat : Nat) + 1) ∨ (i ≠ j ∧ (F i : Rat) = (⌊dark.getD i 0⌋.toNat : Nat)) := by
      intro i
      by_cases hij : i = j
      · left
        refine ⟨hij, ?_⟩
        show ((⌊dark.getD i 0⌋.toNat + (if i = j then 1 else 0) : Nat) : Rat) = _
        rw [if_pos hij]
        push_cast
        rfl
      · right
        refine ⟨hij, ?_⟩
        show ((⌊dark.getD i 0⌋.toNat + (if i = j then 1 else 0) : Nat) : Rat) = _
        rw [if_neg hij]
        rfl
    have hfl : ((List.range (w * h)).map F).length = w * h := by simp
    have dget : dark.getD j 0 = dark[j] := by simp [hj]
    have fl : ∀ i, i < w * h → ((⌊dark.getD i 0⌋.toNat : Nat) : Rat) ≤ dark.getD i 0 ∧
        dark.getD i 0 < ((⌊dark.getD i 0⌋.toNat : Nat) : Rat) + 1 ∧ ⌊dark.getD i 0⌋.toNat < 65535 ∧
        truncZero (dark.getD i 0) = (⌊dark.getD i 0⌋.toNat : Nat) := by
      intro i hi
      obtain ⟨_, d0, d1⟩ := hd _ (getD_mem hdl hi)
      have f0 : 0 ≤ ⌊dark.getD i 0⌋ := Int.floor_nonneg.2 d0
      have fc : ((⌊dark.getD i 0⌋.toNat : Nat) : Int) = ⌊dark.getD i 0⌋ := Int.toNat_of_nonneg f0
      have fq : ((⌊dark.getD i 0⌋.toNat : Nat) : Rat) = ((⌊dark.getD i 0⌋ : Int) : Rat) := by
        rw [← fc]; push_cast; rfl
      refine ⟨by rw [fq]; exact Int.floor_le _, by rw [fq]; exact Int.lt_floor_add_one _, ?_, ?_⟩
      · have : ⌊dark.getD i 0⌋ < 65535 := Int.floor_lt.2 (by exact_mod_cast d1)
        omega
      · rw [fc]
        unfold truncZero
        rw [if_neg (not_lt.2 d0)]
    have hvlt : ∀ v ∈ (List.range (w * h)).map F, v < 65536 := by
      intro v hv
      simp only [List.mem_map, List.mem_range] at hv
      obtain ⟨i, hi, rfl⟩ := hv
      have := (fl i hi).2.2.1
      simp only [F]
      split <;> omega
    have ok : FrameOK w h ((List.range (w * h)).map F) 0 := ⟨hw, hh, hsz, h2, hfl, le_refl _⟩
    have hH := H _ 0 2 hfl hvlt (le_refl _) (by
      intro i hi
      rw [hfr i hi]
      have := (fl i hi).2.1
      rcases hF i with ⟨_, e⟩ | ⟨_, e⟩ <;> rw [e] <;> linarith)
    -- the differences are below one
    have hsmall : ∀ i, i < w * h → ∃ r, f32 ((((List.range (w * h)).map F).getD i 0 : Nat) - dark.getD i 0) = .fin r ∧ -1 < r ∧ r < 1 := by
      intro i hi
      obtain ⟨g1, g2, g3, _⟩ := fl i hi
      obtain ⟨hhas, d0, d1⟩ := hd _ (getD_mem hdl hi)
      rw [hfr i hi]
      by_cases h1 : 1 ≤ dark.getD i 0
      · refine ⟨(F i : Rat) - dark.getD i 0, Float32.f32_fix (has_diff hhas h1 ?_), ?_, ?_⟩
        · rw [abs_le]
          rcases hF i with ⟨_, e⟩ | ⟨_, e⟩ <;> rw [e] <;> constructor <;> linarith
        · rcases hF i with ⟨_, e⟩ | ⟨_, e⟩ <;> rw [e] <;> linarith
        · rcases hF i with ⟨hij, e⟩ | ⟨_, e⟩
          · rw [e]
            have : (⌊dark.getD i 0⌋.toNat : Rat) ≠ dark.getD i 0 := by
              intro e'
              apply c1
              refine ⟨(⌊dark.getD i 0⌋.toNat : Nat), ?_⟩
              rw [← dget, ← hij]
              exact_mod_cast e'.symm
            have := lt_of_le_of_ne g1 this
            linarith
          · rw [e]
            linarith
      · have z : ⌊dark.getD i 0⌋.toNat = 0 := by
          have : ⌊dark.getD i 0⌋ = 0 := by
            rw [Int.floor_eq_iff]
            push_cast
            exact ⟨d0, by linarith [not_le.1 h1]⟩
          rw [this]; rfl
        by_cases hij : i = j
        · have hF : F i = 1 := by simp only [F]; rw [z, if_pos hij]
          rw [hF]
          obtain ⟨r, r1, r2, r3⟩ := f32_below_one (d := dark.getD i 0) (by rw [hij, dget]; exact c2) (not_le.1 h1)
          exact ⟨r, r1, by linarith, r3⟩
        · have hF : F i = 0 := by simp only [F]; rw [z, if_neg hij]
          rw [hF, Nat.cast_zero, zero_sub]
          exact ⟨_, Float32.f32_fix (has_neg hhas), by linarith [not_le.1 h1], by linarith⟩
    choose! r hr1 hr2 hr3 using hsmall
    obtain ⟨e1, a1, b1⟩ := C92_classic_u16_values (rd := f32) (xr := 2) (r := r) ok hdl fun i hi =>
      ⟨hr1 i hi, hr2 i hi, by linarith [hr3 i hi]⟩
    obtain ⟨e2, a2, b2⟩ := C92_stream_u16 f32 (xr := 2) (dark := some dark) ok hdu
    rw [a1, a2] at hH
    cases hH
    have hw0 : 0 < w := (pos_of_mul h2).1
    have hx : j % w < w := Nat.mod_lt _ hw0
    have hy : j / w < h := Nat.div_lt_of_lt_mul hjw
    have ej : j / w * w + j % w = j := by rw [Nat.mul_comm]; exact Nat.div_add_mod j w
    have hsv : ∀ i, i < w * h → u16StreamValue (some dark) ((List.range (w * h)).map F) i = if i = j then 1 else 0 := by
      intro i hi
      obtain ⟨_, _, _, g4⟩ := fl i hi
      unfold u16StreamValue
      simp only [hfr i hi, g4, F]
      split
      · push_cast
        rw [show ((⌊dark.getD i 0⌋.toNat : Int) + 1 - (⌊dark.getD i 0⌋.toNat : Int)) = 1 by omega]
        rfl
      · push_cast
        rw [show ((⌊dark.getD i 0⌋.toNat : Int) + 0 - (⌊dark.getD i 0⌋.toNat : Int)) = 0 by omega]
        rfl
    have m2 : j ∈ e1 := by
      rw [← ej, b2.mem _ _ hx hy, ej, hsv j hjw, if_pos rfl]
      refine ⟨by norm_num, ?_⟩
      intro x' y' a1 a2 a3
      have hne : y' * w + x' ≠ j := by
        intro e
        have d1 := congrArg (· / w) e
        have d2 := congrArg (· % w) e
        simp only [flat_div _ a1, flat_mod _ a1] at d1 d2
        unfold Neighbour at a3
        omega
      rw [hsv _ (flat_lt a1 a2), if_neg hne]
      unfold eligible
      norm_num
    rw [← ej, b1.mem _ _ hx hy, ej] at m2
    rw [truncZero_small (hr2 j hjw) (hr3 j hjw)] at m2
    simp at m2
  · intro hs frame bg xr hl hv hbg hle
    have ok : FrameOK w h frame bg := ⟨hw, hh, hsz, h2, hl, hbg⟩
    have key : ∀ j, j < w * h → ∃ r, f32 ((frame.getD j 0 : Nat) - dark.getD j 0) = .fin r ∧ -1 < r ∧ r < 65536 ∧
        ((frame.getD j 0 : Int) - truncZero (dark.getD j 0)) % 65536 = truncZero r := by
      intro j hj
      obtain ⟨a, b, _⟩ := hd _ (getD_mem hdl hj)
      exact classic_same a b (hs _ (getD_mem hdl hj)) (getD_lt hl hv hj) (hle j hj)
    choose! r hr1 hr2 hr3 hr4 using key
    obtain ⟨e1, a1, b1⟩ := C92_classic_u16_values (rd := f32) (xr := xr) (r := r) ok hdl fun j hj => ⟨hr1 j hj, hr2 j hj, hr3 j hj⟩
    obtain ⟨e2, a2, b2⟩ := C92_stream_u16 f32 (xr := xr) (dark := some dark) ok hdu
    rw [a1, a2]
    congr 1
    refine events_unique ?_ b1 b2
    intro j hj
    unfold u16StreamValue
    simp only
    rw [hr4 j hj]

/-- **C92** is false for the block-wise path without gain: a dark value of 2^-25 is rounded away, so that a pixel is counted whose exact
value is truncated to zero. -/
theorem C92_classic_false {w h : Nat} (hw : w < 65536) (hh : h < 65536) (hs : w * h < 2 ^ 32) (h2 : 1 < w * h) :
    ∃ (frame : List Nat) (dark : List Rat) (events : List Nat), frame.length = w * h ∧ (∀ v ∈ frame, v < 65536) ∧ dark.length = w * h ∧
      (∀ d ∈ dark, float32.Has d ∧ 0 ≤ d ∧ d < 1) ∧
      countClassic f32 (plainOptions 0 2 (some dark)) (w, h) (ofPixels frame) = .ok events ∧
      ¬ IsEventList 0 2 w h (u16ClassicValue dark frame) events := by
  obtain ⟨hw0, hh0⟩ := pos_of_mul h2
  have e25 : (2 : Rat) ^ (-25 : Int) = 1 / 33554432 := by norm_num
  have hd : float32.Has (1 / 33554432) := ⟨1, -25, by decide, by decide, by decide, by norm_num⟩
  have hfl : (1 :: List.replicate (w * h - 1) 0 : List Nat).length = w * h := by
    simp only [List.length_cons, List.length_replicate]; omega
  have hfv : ∀ j, j < w * h → (1 :: List.replicate (w * h - 1) 0 : List Nat).getD j 0 = if j = 0 then 1 else 0 := by
    intro j hj
    rcases j with _ | j
    · simp
    · simp only [List.getD_cons_succ]
      rw [List.getD_eq_getElem?_getD, List.getElem?_replicate, if_pos (by omega), if_neg (by omega)]
      rfl
  have hdv : ∀ j, j < w * h → (List.replicate (w * h) (1 / 33554432 : Rat)).getD j 0 = 1 / 33554432 := by
    intro j hj
    rw [List.getD_eq_getElem?_getD, List.getElem?_replicate, if_pos hj]
    rfl
  have ok : FrameOK w h (1 :: List.replicate (w * h - 1) 0) 0 := ⟨hw, hh, hs, h2, hfl, le_refl _⟩
  obtain ⟨ev, e1, e2⟩ := C92_classic_u16_values (rd := f32) (xr := 2) (dark := List.replicate (w * h) (1 / 33554432))
    (r := fun j => if j = 0 then 1 else -(1 / 33554432)) ok (by simp) (by
      intro j hj
      rw [hfv j hj, hdv j hj]
      split
      · refine ⟨?_, by norm_num, by norm_num⟩
        have := f32_tiny (d := 1 / 33554432) (by norm_num) (by rw [e25]) (v := 1) (by omega) (by omega)
        push_cast at this ⊢
        exact this
      · refine ⟨?_, by norm_num, by norm_num⟩
        rw [Nat.cast_zero, zero_sub]
        exact Float32.f32_fix (has_neg hd))
  refine ⟨_, _, ev, hfl, ?_, by simp, ?_, e1, ?_⟩
  · intro v hv
    simp only [List.mem_cons, List.mem_replicate] at hv
    omega
  · intro d h
    obtain ⟨_, rfl⟩ := List.mem_replicate.1 h
    exact ⟨hd, by norm_num, by norm_num⟩
  · intro hE
    have t1 : truncZero (1 : Rat) = 1 := truncZero_int 1
    have m2 : 0 * w + 0 ∈ ev := by
      rw [e2.mem 0 0 hw0 hh0]
      simp only [Nat.zero_mul, Nat.add_zero, if_true, t1]
      refine ⟨by norm_num, ?_⟩
      intro x' y' a1 a2 a3
      rw [truncZero_small (r := if y' * w + x' = 0 then 1 else _)]
      · unfold eligible; norm_num
      · split <;> norm_num
      · have hne : y' * w + x' ≠ 0 := by
          intro e
          have e1 : x' = 0 := by omega
          have e2 : y' * w = 0 := by omega
          have e3 : y' = 0 := by
            rcases Nat.mul_eq_zero.1 e2 with e | e <;> omega
          unfold Neighbour at a3
          omega
        rw [if_neg hne]
        norm_num
    have m1 := ((hE.mem 0 0 hw0 hh0).1 m2).1.1
    simp only [Nat.zero_mul, Nat.add_zero] at m1
    unfold u16ClassicValue at m1
    rw [hfv 0 (by omega), hdv 0 (by omega), if_pos rfl, truncZero_small (by norm_num) (by norm_num)] at m1
    norm_num at m1

/-- **C92** is false with a dark reference whose differences are rounded: the order of two pixels is exchanged, and the wrong one is
counted. -/
theorem C92_dark_false :
    ∃ (frame : List Nat) (dark gain : List Rat), (∀ v ∈ frame, v < 65536) ∧ (∀ d ∈ dark, float32.Has d) ∧ (∀ g ∈ gain, float32.Has g) ∧
      countStream f32 (gainOptions 0 100 (some dark) gain) (2, 1) (ofPixels frame) = .ok [0] ∧
      IsEventList 0 100 2 1 (floatValue (some dark) gain frame) [1] := by
  have hd : float32.Has (-5 / 33554432) := ⟨-5, -25, by decide, by decide, by decide, by norm_num⟩
  have h0 : float32.Has 0 := by simpa using has_int (z := 0) (by norm_num)
  have g1 : float32.Has (8388617 / 8388608) := ⟨8388617, -23, by decide, by decide, by decide, by norm_num⟩
  have g2 : float32.Has (10066341 / 16777216) := ⟨10066341, -24, by decide, by decide, by decide, by norm_num⟩
  have e22 : (2 : Rat) ^ (-22 : Int) = 1 / 4194304 := by norm_num
  have r1 : f32 (3 - -5 / 33554432) = .fin (12582913 / 4194304) := by
    rw [Float32.f32_at (e := -22) (m := 12582913) (by decide) (by decide) (by rw [e22, abs_of_pos] <;> norm_num)
      (by rw [e22, abs_of_pos] <;> norm_num) (by rw [e22, abs_lt]; norm_num), e22]
    norm_num
  have r2 : f32 (12582913 / 4194304 * (8388617 / 8388608)) = .fin (12582927 / 4194304) := by
    rw [Float32.f32_at (e := -22) (m := 12582927) (by decide) (by decide) (by rw [e22, abs_of_pos] <;> norm_num)
      (by rw [e22, abs_of_pos] <;> norm_num) (by rw [e22, abs_lt]; norm_num), e22]
    norm_num
  have r3 : f32 (5 - 0) = .fin 5 := by
    have := Float32.f32_fix (has_int (z := 5) (by norm_num))
    simpa using this
  have r4 : f32 (5 * (10066341 / 16777216)) = .fin (12582926 / 4194304) := by
    rw [Float32.f32_at (e := -22) (m := 12582926) (by decide) (by decide) (by rw [e22, abs_of_pos] <;> norm_num)
      (by rw [e22, abs_of_pos] <;> norm_num) (by rw [e22, abs_lt]; norm_num), e22]
    norm_num
  have ok : FrameOK 2 1 [3, 5] 0 := ⟨by decide, by decide, by decide, by decide, rfl, le_refl _⟩
  obtain ⟨ev, e1, e2, e3, e4⟩ := C92_gain_values (rd := f32) (xr := 100) (dark := some [-5 / 33554432, 0])
    (gain := [8388617 / 8388608, 10066341 / 16777216]) ok rfl (by intro d h; cases h; rfl)
  have v0 : roundedValue f32 (some [-5 / 33554432, 0]) [8388617 / 8388608, 10066341 / 16777216] [3, 5] 0 = .fin (12582927 / 4194304) := by
    have : roundedValue f32 (some [-5 / 33554432, 0]) [8388617 / 8388608, 10066341 / 16777216] [3, 5] 0 =
      rnd f32 ((f32 (3 - -5 / 33554432)).mul (.fin (8388617 / 8388608))) := rfl
    rw [this, r1]
    exact r2
  have v1 : roundedValue f32 (some [-5 / 33554432, 0]) [8388617 / 8388608, 10066341 / 16777216] [3, 5] 1 = .fin (12582926 / 4194304) := by
    have : roundedValue f32 (some [-5 / 33554432, 0]) [8388617 / 8388608, 10066341 / 16777216] [3, 5] 1 =
      rnd f32 ((f32 (5 - 0)).mul (.fin (10066341 / 16777216))) := rfl
    rw [this, r3]
    exact r4
  have f0 : floatValue (some [-5 / 33554432, 0]) [8388617 / 8388608, 10066341 / 16777216] [3, 5] 0 =
      (3 - -5 / 33554432) * (8388617 / 8388608) := rfl
  have f1 : floatValue (some [-5 / 33554432, 0]) [8388617 / 8388608, 10066341 / 16777216] [3, 5] 1 =
      (5 - 0) * (10066341 / 16777216) := rfl
  have nb : ∀ x' y' : Nat, x' < 2 → y' < 1 → (x' = 0 ∨ x' = 1) ∧ y' = 0 := by intro x' y' _ _; omega
  refine ⟨[3, 5], [-5 / 33554432, 0], [8388617 / 8388608, 10066341 / 16777216], by decide, ?_, ?_, ?_, ?_⟩
  · intro d h
    simp only [List.mem_cons, List.not_mem_nil, or_false] at h
    rcases h with rfl | rfl
    · exact hd
    · exact h0
  · intro g h
    simp only [List.mem_cons, List.not_mem_nil, or_false] at h
    rcases h with rfl | rfl
    · exact g1
    · exact g2
  · rw [e1]
    congr 1
    have m0 : 0 ∈ ev := by
      have := (e4 0 0 (by decide) (by decide)).2 ⟨⟨_, v0, by norm_num, by norm_num, ?_⟩, ?_⟩
      · simpa using this
      · intro x' y' a1 a2 a3 q' b1 _ _
        obtain ⟨rfl | rfl, rfl⟩ := nb x' y' a1 a2
        · exact absurd a3 (by unfold Neighbour; omega)
        · simp only [Nat.zero_mul, Nat.zero_add] at b1
          rw [v1] at b1
          cases b1
          norm_num
      · rintro ⟨x', y', a1, a2, a3, b1⟩
        obtain ⟨rfl | rfl, rfl⟩ := nb x' y' a1 a2
        · exact absurd a3 (by unfold Neighbour; omega)
        · simp only [Nat.zero_mul, Nat.zero_add] at b1
          rw [v1] at b1
          cases b1
    have m1 : 1 ∉ ev := by
      intro h
      obtain ⟨⟨q, p1, p2, p3, p4⟩, _⟩ := (e4 1 0 (by decide) (by decide)).1 (by simpa using h)
      simp only [Nat.zero_mul, Nat.zero_add] at p1
      rw [v1] at p1
      cases p1
      have := p4 0 0 (by decide) (by decide) (by unfold Neighbour; omega) _ v0 (by norm_num) (by norm_num)
      norm_num at this
    have hall : ∀ e ∈ ev, e = 0 := by
      intro e he
      have := e3 e he
      have : e ≠ 1 := by rintro rfl; exact m1 he
      omega
    rcases ev with _ | ⟨a, _ | ⟨b, t⟩⟩
    · simp at m0
    · rw [hall a (by simp)]
    · exfalso
      have ha := hall a (by simp)
      have hb := hall b (by simp)
      rw [List.pairwise_cons] at e2
      have := e2.1 b (by simp)
      omega
  · refine ⟨by simp, by simp, ?_⟩
    intro x y hx hy
    obtain ⟨rfl | rfl, rfl⟩ := nb x y hx hy
    · simp only [Nat.zero_mul, Nat.zero_add]
      rw [f0]
      constructor
      · intro h; simp at h
      · rintro ⟨_, h⟩
        have := h 1 0 (by decide) (by decide) (by unfold Neighbour; omega)
        simp only [Nat.zero_mul, Nat.zero_add] at this
        rw [f1] at this
        unfold eligible at this
        rw [if_pos (by norm_num)] at this
        norm_num at this
    · simp only [Nat.zero_mul, Nat.zero_add]
      rw [f1]
      constructor
      · intro _
        refine ⟨by norm_num, ?_⟩
        intro x' y' a1 a2 a3
        obtain ⟨rfl | rfl, rfl⟩ := nb x' y' a1 a2
        · simp only [Nat.zero_mul, Nat.zero_add]
          rw [f0]
          unfold eligible
          rw [if_pos (by norm_num)]
          norm_num
        · exact absurd a3 (by unfold Neighbour; omega)
      · intro _; simp

end Stempy.RoundedCounting
