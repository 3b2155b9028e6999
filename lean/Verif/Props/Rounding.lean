import Verif.Lemmas.Float32
import Verif.Model.RoundedCounting
import Verif.Props.FloatPixels
import Verif.Props.CountPaths
import Verif.Props.SafeCast

/-!
C92: counting in single precision.
-/

namespace Stempy.RoundedCounting
open Stempy.Spec Stempy.Props
open Stempy.FloatPixels (Fl threshold forRange forRange_ok ofPixels ofPixels_get ofPixels_length Between IsPeak NextToNan events_of)
open Stempy.Float32 (Rounds f32)
open Stempy.SafeCast (float32)

/-! ### Rounding and order -/

theorem rd_le {rd : Rat → Fl} (R : Rounds rd) {q r s : Rat} (h : rd q = .fin r) (hs : float32.Has s) (hq : q ≤ s) : r ≤ s :=
  R.mono q s r s hq h (R.fix s hs)

theorem le_rd {rd : Rat → Fl} (R : Rounds rd) {q r s : Rat} (h : rd q = .fin r) (hs : float32.Has s) (hq : s ≤ q) : s ≤ r :=
  R.mono s q s r hq (R.fix s hs) h

theorem rd_fin {rd : Rat → Fl} (R : Rounds rd) {q s t : Rat} (hs : float32.Has s) (ht : float32.Has t) (h1 : s ≤ q) (h2 : q ≤ t) :
    ∃ r, rd q = .fin r ∧ s ≤ r ∧ r ≤ t := by
  cases h : rd q with
  | fin r => exact ⟨r, rfl, le_rd R h hs h1, rd_le R h ht h2⟩
  | pinf =>
    have := R.pinf q t h2 h
    rw [R.fix t ht] at this
    cases this
  | ninf =>
    have := R.ninf s q h1 h
    rw [R.fix s hs] at this
    cases this
  | nan => exact absurd h (R.number q)

/-- Two numbers of the format fit between numbers which differ by a part in 2^22. -/
theorem two_between {a b : Rat} (h1 : (2 : Rat) ^ (-126 : Int) ≤ b) (h2 : b < 2 ^ 128) (hab : a ≤ b * (1 - 2 ^ (-22 : Int))) :
    ∃ s t, float32.Has s ∧ float32.Has t ∧ a ≤ s ∧ s < t ∧ t ≤ b := by
  have hb : 0 < b := lt_of_lt_of_le (Float32.two_zpow_pos _) h1
  have hp := Float32.two_zpow_pos (Float32.expo b)
  have e1 := Float32.lt_expo b
  have e2 : 2 ^ 23 * (2 : Rat) ^ Float32.expo b ≤ b := by
    by_cases h : -149 < Float32.expo b
    · have := Float32.expo_le h
      rwa [abs_of_pos hb] at this
    · have e : Float32.expo b = -149 := le_antisymm (not_lt.1 h) (Float32.le_expo b)
      rw [e]
      refine le_trans ?_ h1
      norm_num
  have e3 : Float32.expo b ≤ 104 := Float32.expo_le_of_lt (by rw [abs_of_pos hb]; exact h2)
  rw [abs_of_pos hb] at e1
  have hlow := Float32.le_expo b
  generalize Float32.expo b = e at *
  have f1 : ((⌊b / 2 ^ e⌋ : Int) : Rat) ≤ b / 2 ^ e := Int.floor_le _
  have f2 : b / 2 ^ e < ((⌊b / 2 ^ e⌋ : Int) : Rat) + 1 := Int.lt_floor_add_one _
  have g1 : 2 ^ 23 ≤ ⌊b / 2 ^ e⌋ := Int.le_floor.2 (by push_cast; rw [le_div_iff₀ hp]; linarith)
  have g2 : ⌊b / 2 ^ e⌋ < 2 ^ 24 := Int.floor_lt.2 (by push_cast; rw [div_lt_iff₀ hp]; linarith)
  generalize ⌊b / 2 ^ e⌋ = m at *
  rw [le_div_iff₀ hp] at f1
  rw [div_lt_iff₀ hp] at f2
  refine ⟨((m - 1 : Int) : Rat) * 2 ^ e, (m : Rat) * 2 ^ e, ⟨m - 1, e, ?_, hlow, e3, rfl⟩, ⟨m, e, ?_, hlow, e3, rfl⟩, ?_, ?_, f1⟩
  · show |m - 1| < 2 ^ 24
    rw [abs_lt]; constructor <;> omega
  · show |m| < 2 ^ 24
    rw [abs_lt]; constructor <;> omega
  · push_cast
    have : b * 2 ^ (-22 : Int) ≥ 2 * 2 ^ e := by
      have : (2 : Rat) ^ (-22 : Int) = 1 / 2 ^ 22 := by norm_num
      rw [this]
      linarith
    linarith
  · push_cast
    linarith

/-- Numbers which differ by a part in 2^22 keep their order in every rounding mode. -/
theorem rd_lt {rd : Rat → Fl} (R : Rounds rd) {a b r s : Rat} (h1 : (2 : Rat) ^ (-126 : Int) ≤ b) (h2 : b < 2 ^ 128)
    (hab : a ≤ b * (1 - 2 ^ (-22 : Int))) (ha : rd a = .fin r) (hb : rd b = .fin s) : r < s := by
  obtain ⟨x, y, hx, hy, c1, c2, c3⟩ := two_between h1 h2 hab
  exact lt_of_le_of_lt (rd_le R ha hx c1) (lt_of_lt_of_le c2 (le_rd R hb hy c3))

/-! ### Specification -/

/-- The value of a pixel in single precision: every operation is rounded. -/
def roundedValue (rd : Rat → Fl) (dark : Option (List Rat)) (gain : List Rat) (frame : List Nat) (j : Nat) : Fl :=
  rnd rd ((match dark with
    | none => Fl.fin (frame.getD j 0 : Nat)
    | some d => rd ((frame.getD j 0 : Nat) - d.getD j 0)).mul (.fin (gain.getD j 0)))

/-- Rounding does not move the value over a threshold. -/
def Clear (rd : Rat → Fl) (bg xr q : Rat) : Prop := Between bg xr (rd q) ↔ bg < q ∧ q < xr

/-- Neighbouring values between the thresholds are equal or differ by a part in 2^22. -/
def Apart (bg xr : Rat) (w h : Nat) (c : Nat → Rat) : Prop :=
  ∀ x y x' y', x < w → y < h → x' < w → y' < h → Neighbour x y x' y' → bg < c (y' * w + x') →
    c (y' * w + x') < c (y * w + x) → c (y * w + x) < xr → c (y' * w + x') ≤ c (y * w + x) * (1 - 2 ^ (-22 : Int))

/-- The options of counting with gain. -/
def gainOptions (bg xr : Rat) (dark : Option (List Rat)) (gain : List Rat) : Options :=
  ⟨.f32, bg, xr, dark.map (·.map .fin), some (gain.map .fin), none, .fin 0⟩

/-! ### The loops -/

theorem readAt_fin {l : List Rat} {j : Nat} (h : j < l.length) : readAt (l.map Fl.fin) j = .ok (.fin (l.getD j 0)) := by
  rw [readAt_lt (by simpa using h)]
  simp [h]

theorem streamPixel_gain {rd : Rat → Fl} {bg xr : Rat} {dark : Option (List Rat)} {gain : List Rat} {n j : Nat} (hj : j < n)
    (hg : gain.length = n) (hd : ∀ d, dark = some d → d.length = n) (frame : List Nat) :
    streamPixel rd (gainOptions bg xr dark gain) j (.fin (frame.getD j 0 : Nat)) =
      .ok (threshold (.fin bg) (.fin xr) (roundedValue rd dark gain frame j)) := by
  have h1 : readAt (gain.map Fl.fin) j = .ok (.fin (gain.getD j 0)) := readAt_fin (by omega)
  unfold streamPixel roundedValue gainOptions
  cases hdk : dark with
  | none => simp [readPtr, h1]
  | some d =>
    have h2 : readAt (d.map Fl.fin) j = .ok (.fin (d.getD j 0)) := readAt_fin (by rw [hd d hdk]; exact hj)
    simp only [Option.map_some, readPtr, h1, h2, Outcome.ok_bind, Outcome.pure_eq]
    simp [Fl.sub, Fl.add, Fl.neg, rnd, sub_eq_add_neg]

/-- **C92**, what the code does with gain: the events are the peaks of the rounded values which have no neighbour without value. -/
theorem C92_gain_values {rd : Rat → Fl} {bg xr : Rat} {dark : Option (List Rat)} {gain : List Rat} {w h : Nat} {frame : List Nat}
    (ok : FrameOK w h frame bg) (hg : gain.length = w * h) (hd : ∀ d, dark = some d → d.length = w * h) :
    ∃ events, countStream rd (gainOptions bg xr dark gain) (w, h) (ofPixels frame) = .ok events ∧ events.Pairwise (· < ·) ∧
      (∀ e ∈ events, e < w * h) ∧ ∀ x y, x < w → y < h → (y * w + x ∈ events ↔
        IsPeak bg xr w h (roundedValue rd dark gain frame) x y ∧ ¬ NextToNan w h (roundedValue rd dark gain frame) x y) := by
  unfold countStream
  have hr : (gainOptions bg xr dark gain).rowDark = none := rfl
  rw [hr]
  have hn : (w * h) % 2 ^ 32 = w * h := Nat.mod_eq_of_lt ok.size
  simp only [hn]
  have hl := ok.len
  obtain ⟨out, h1, h2, h3⟩ := forRange_ok (f := streamPixel rd (gainOptions bg xr dark gain)) (start := 0) (len := w * h)
    (frame := ofPixels frame)
    (fun j _ => threshold (.fin bg) (.fin xr) (roundedValue rd dark gain frame j)) (by rw [ofPixels_length, hl]; omega) (by
      intro j hj _ b
      have e := ofPixels_get (frame := frame) (j := j) (by omega)
      rw [List.getElem?_eq_getElem hj] at e
      rw [Option.some.inj e]
      exact streamPixel_gain (by omega) hg hd frame)
  rw [h1, Outcome.ok_bind]
  refine events_of ok.bg0 ok.wlt ok.hlt ok.size ok.two _ (by rw [h2, ofPixels_length, hl]) ?_
  intro j hj
  rw [h3 j, if_pos (by omega), ofPixels_get (by omega)]
  rfl

/-- With a gain the block-wise path computes the same in every rounding mode. -/
theorem C92_paths_partial (rd : Rat → Fl) (o : Options) (dims : Nat × Nat) (frame : List Fl) (hd : o.dark ≠ none)
    (h : o.ft = .f32 ∨ o.rowDark ≠ none) : countClassic rd o dims frame = countStream rd o dims frame := by
  unfold countClassic countStream
  cases hr : o.rowDark with
  | some f => rfl
  | none =>
    have hft : o.ft = .f32 := by
      rcases h with h | h
      · exact h
      · exact absurd hr h
    have : classicPixel rd o = streamPixel rd o := by
      funext j v
      unfold classicPixel streamPixel
      cases hdk : o.dark with
      | none => exact absurd hdk hd
      | some d =>
        rw [hft]
        simp only [readPtr]
        cases readAt d j <;> rfl
    rw [this]

/-! ### When rounding does not matter -/

/-- A difference without rounding: there is no dark reference, or the difference is a number of the format. -/
def ExactDifference (dark : Option (List Rat)) (frame : List Nat) (j : Nat) : Prop :=
  ∀ d, dark = some d → float32.Has ((frame.getD j 0 : Nat) - d.getD j 0)

theorem roundedValue_eq {rd : Rat → Fl} (R : Rounds rd) {dark : Option (List Rat)} {gain : List Rat} {frame : List Nat} {j : Nat}
    (h : ExactDifference dark frame j) : roundedValue rd dark gain frame j = rd (floatValue dark gain frame j) := by
  unfold roundedValue floatValue
  cases hd : dark with
  | none => simp [Fl.mul, rnd]
  | some d =>
    simp only [R.fix _ (h d hd)]
    rfl

/-- Peaks of rounded values are peaks of the exact values. -/
theorem peak_exact {rd : Rat → Fl} (R : Rounds rd) {bg xr : Rat} {w h : Nat} {c : Nat → Rat} {x y : Nat} (hx : x < w) (hy : y < h)
    (hbg : 0 ≤ bg) (hc : ∀ j, j < w * h → Clear rd bg xr (c j)) (hp : IsPeak bg xr w h (fun j => rd (c j)) x y) :
    (bg < c (y * w + x) ∧ c (y * w + x) < xr) ∧ ∀ x' y', x' < w → y' < h → Neighbour x y x' y' →
      eligible bg xr (c (y' * w + x')) < c (y * w + x) := by
  obtain ⟨q, h1, h2, h3, h4⟩ := hp
  have e := (hc _ (flat_lt hx hy)).1 ⟨q, h1, h2, h3⟩
  refine ⟨e, ?_⟩
  intro x' y' a1 a2 a3
  unfold eligible
  split
  · rename_i he
    obtain ⟨q', b1, b2, b3⟩ := (hc _ (flat_lt a1 a2)).2 he
    have := h4 x' y' a1 a2 a3 q' b1 b2 b3
    by_contra hcon
    exact absurd (R.mono _ _ _ _ (not_lt.1 hcon) h1 b1) (not_le.2 this)
  · exact lt_of_le_of_lt hbg e.1

/-- **C92**, no electron too many: without rounding of differences, and if no value is moved over a threshold, every pixel which is counted
is an event of exact arithmetic, in every rounding mode. Missing: that all events are counted, which is false (`C92_lost_false`). -/
theorem C92_sound_partial {rd : Rat → Fl} (R : Rounds rd) {bg xr : Rat} {dark : Option (List Rat)} {gain : List Rat} {w h : Nat}
    {frame : List Nat} (ok : FrameOK w h frame bg) (hg : gain.length = w * h) (hd : ∀ d, dark = some d → d.length = w * h)
    (he : ∀ j, j < w * h → ExactDifference dark frame j)
    (hc : ∀ j, j < w * h → Clear rd bg xr (floatValue dark gain frame j)) :
    ∃ events, countStream rd (gainOptions bg xr dark gain) (w, h) (ofPixels frame) = .ok events ∧ events.Pairwise (· < ·) ∧
      (∀ e ∈ events, e < w * h) ∧ ∀ x y, x < w → y < h → y * w + x ∈ events →
        (bg < floatValue dark gain frame (y * w + x) ∧ floatValue dark gain frame (y * w + x) < xr) ∧
        ∀ x' y', x' < w → y' < h → Neighbour x y x' y' →
          eligible bg xr (floatValue dark gain frame (y' * w + x')) < floatValue dark gain frame (y * w + x) := by
  obtain ⟨ev, e1, e2, e3, e4⟩ := C92_gain_values (rd := rd) (xr := xr) ok hg hd
  refine ⟨ev, e1, e2, e3, ?_⟩
  intro x y hx hy hm
  obtain ⟨⟨q, p1, p2, p3, p4⟩, _⟩ := (e4 x y hx hy).1 hm
  refine peak_exact R hx hy ok.bg0 hc ⟨q, ?_, p2, p3, ?_⟩
  · exact (roundedValue_eq R (he _ (flat_lt hx hy))).symm.trans p1
  · intro x' y' a1 a2 a3 q' b1
    refine p4 x' y' a1 a2 a3 q' ?_
    rw [roundedValue_eq R (he _ (flat_lt a1 a2))]; exact b1

/-- **C92** with gain: the events are those of exact arithmetic in every rounding mode, if differences are not rounded, no value is moved
over a threshold, and neighbouring values are equal or differ by a part in 2^22. Missing: values which are closer (`C92_lost_false`),
rounded differences (`C92_dark_false`) and values at the thresholds (`C92_threshold_false`). -/
theorem C92_gain_partial {rd : Rat → Fl} (R : Rounds rd) {bg xr : Rat} {dark : Option (List Rat)} {gain : List Rat} {w h : Nat}
    {frame : List Nat} (ok : FrameOK w h frame bg) (hg : gain.length = w * h) (hd : ∀ d, dark = some d → d.length = w * h)
    (he : ∀ j, j < w * h → ExactDifference dark frame j)
    (hc : ∀ j, j < w * h → Clear rd bg xr (floatValue dark gain frame j))
    (ha : Apart bg xr w h (floatValue dark gain frame)) (hxr : xr ≤ 2 ^ 128)
    (hlo : ∀ j, j < w * h → bg < floatValue dark gain frame j → (2 : Rat) ^ (-126 : Int) ≤ floatValue dark gain frame j) :
    ∃ events, countStream rd (gainOptions bg xr dark gain) (w, h) (ofPixels frame) = .ok events ∧
      IsEventList bg xr w h (floatValue dark gain frame) events := by
  obtain ⟨ev, e1, e2, e3, e4⟩ := C92_gain_values (rd := rd) (xr := xr) ok hg hd
  have hR : ∀ x y, x < w → y < h → roundedValue rd dark gain frame (y * w + x) = rd (floatValue dark gain frame (y * w + x)) :=
    fun x y hx hy => roundedValue_eq R (he _ (flat_lt hx hy))
  refine ⟨ev, e1, e2, e3, ?_⟩
  intro x y hx hy
  rw [e4 x y hx hy]
  constructor
  · rintro ⟨⟨q, p1, p2, p3, p4⟩, _⟩
    refine peak_exact R hx hy ok.bg0 hc ⟨q, ?_, p2, p3, ?_⟩
    · exact (hR x y hx hy).symm.trans p1
    · intro x' y' a1 a2 a3 q' b1
      refine p4 x' y' a1 a2 a3 q' ?_
      rw [hR x' y' a1 a2]; exact b1
  · rintro ⟨p1, p2⟩
    obtain ⟨q, c1, c2, c3⟩ := (hc _ (flat_lt hx hy)).2 p1
    refine ⟨⟨q, by rw [hR x y hx hy]; exact c1, c2, c3, ?_⟩, ?_⟩
    · intro x' y' a1 a2 a3 q' b1 b2 b3
      rw [hR x' y' a1 a2] at b1
      have el := (hc _ (flat_lt a1 a2)).1 ⟨q', b1, b2, b3⟩
      have := p2 x' y' a1 a2 a3
      unfold eligible at this
      rw [if_pos el] at this
      exact rd_lt R (hlo _ (flat_lt hx hy) p1.1) (lt_of_lt_of_le p1.2 hxr) (ha x y x' y' hx hy a1 a2 a3 el.1 this p1.2) b1 c1
    · rintro ⟨x', y', a1, a2, a3, a4⟩
      rw [hR x' y' a1 a2] at a4
      exact R.number _ a4

theorem has_int {z : Int} (h : |z| < 2 ^ 24) : float32.Has z :=
  SafeCast.has_int float32 (by decide) (by decide) h

theorem exactDifference_nat {dark : Option (List Rat)} {frame : List Nat} {j : Nat} (hv : frame.getD j 0 < 65536)
    (hd : ∀ d, dark = some d → ∃ n : Nat, n < 65536 ∧ d.getD j 0 = n) : ExactDifference dark frame j := by
  intro d h
  obtain ⟨n, hn, e⟩ := hd d h
  rw [e]
  have := has_int (z := (frame.getD j 0 : Int) - n) (by rw [abs_lt]; constructor <;> omega)
  push_cast at this
  exact this

/-- **C92** for a uniform gain and integral dark values: the events are those of exact arithmetic in every rounding mode, if no value is
moved over a threshold. -/
theorem C92_uniform_partial {rd : Rat → Fl} (R : Rounds rd) {bg xr g : Rat} {dark : Option (List Rat)} {gain : List Rat} {w h : Nat}
    {frame : List Nat} (ok : FrameOK w h frame bg) (hv : ∀ v ∈ frame, v < 65536) (hg : gain.length = w * h) (hu : ∀ x ∈ gain, x = g)
    (hg0 : (2 : Rat) ^ (-126 : Int) ≤ |g|) (hd : ∀ d, dark = some d → d.length = w * h ∧ ∀ x ∈ d, ∃ n : Nat, n < 65536 ∧ x = n)
    (hc : ∀ j, j < w * h → Clear rd bg xr (floatValue dark gain frame j)) (hxr : xr ≤ 2 ^ 128) :
    ∃ events, countStream rd (gainOptions bg xr dark gain) (w, h) (ofPixels frame) = .ok events ∧
      IsEventList bg xr w h (floatValue dark gain frame) events := by
  have hget : ∀ j, j < w * h → frame.getD j 0 < 65536 := by
    intro j hj
    have : j < frame.length := by rw [ok.len]; exact hj
    simp only [List.getD_eq_getElem?_getD, List.getElem?_eq_getElem this, Option.getD_some]
    exact hv _ (List.getElem_mem this)
  have hdget : ∀ d, dark = some d → ∀ j, j < w * h → ∃ n : Nat, n < 65536 ∧ d.getD j 0 = n := by
    intro d h j hj
    have : j < d.length := by rw [(hd d h).1]; exact hj
    simp only [List.getD_eq_getElem?_getD, List.getElem?_eq_getElem this, Option.getD_some]
    exact (hd d h).2 _ (List.getElem_mem this)
  have hgget : ∀ j, j < w * h → gain.getD j 0 = g := by
    intro j hj
    have : j < gain.length := by rw [hg]; exact hj
    simp only [List.getD_eq_getElem?_getD, List.getElem?_eq_getElem this, Option.getD_some]
    exact hu _ (List.getElem_mem this)
  -- every value is a multiple of the gain
  have hval : ∀ j, j < w * h → ∃ z : Int, |z| < 65536 ∧ floatValue dark gain frame j = z * |g| := by
    intro j hj
    have key : ∃ z : Int, |z| < 65536 ∧ floatValue dark gain frame j = z * g := by
      unfold floatValue
      rw [hgget j hj]
      have hb := hget j hj
      cases hdk : dark with
      | none => exact ⟨(frame.getD j 0 : Nat), by rw [abs_lt]; constructor <;> omega, by simp⟩
      | some d =>
        obtain ⟨n, hn, e⟩ := hdget d hdk j hj
        refine ⟨(frame.getD j 0 : Int) - n, by rw [abs_lt]; constructor <;> omega, ?_⟩
        simp only [e]
        push_cast
        ring
    obtain ⟨z, hz, e⟩ := key
    rcases abs_cases g with ⟨a, _⟩ | ⟨a, _⟩
    · exact ⟨z, hz, by rw [a]; exact e⟩
    · exact ⟨-z, by rwa [abs_neg], by rw [a, e]; push_cast; ring⟩
  have hgp : 0 < |g| := lt_of_lt_of_le (Float32.two_zpow_pos _) hg0
  have hpos : ∀ j, j < w * h → ∀ z : Int, floatValue dark gain frame j = z * |g| → 0 < floatValue dark gain frame j → 1 ≤ z := by
    intro j hj z e h
    rw [e] at h
    have : (0 : Rat) < z := by
      by_contra hz
      exact absurd h (not_lt.2 (mul_nonpos_of_nonpos_of_nonneg (not_lt.1 hz) (le_of_lt hgp)))
    have : 0 < z := by exact_mod_cast this
    omega
  refine C92_gain_partial R ok hg (fun d h => (hd d h).1) ?_ hc ?_ hxr ?_
  · intro j hj
    exact exactDifference_nat (hget j hj) fun d h => hdget d h j hj
  · intro x y x' y' hx hy hx' hy' _ h1 h2 h3
    obtain ⟨z, hz, e⟩ := hval _ (flat_lt hx hy)
    obtain ⟨z', hz', e'⟩ := hval _ (flat_lt hx' hy')
    have p' := hpos _ (flat_lt hx' hy') z' e' (lt_of_le_of_lt ok.bg0 h1)
    rw [e, e'] at h2 ⊢
    have hlt : (z' : Rat) < z := lt_of_mul_lt_mul_right h2 (le_of_lt hgp)
    have hlt : z' < z := by exact_mod_cast hlt
    have c1 : (z' : Rat) ≤ z - 1 := by exact_mod_cast (by omega : z' ≤ z - 1)
    have c2 : (z : Rat) ≤ 65536 := by
      rw [abs_lt] at hz
      exact_mod_cast (by omega : z ≤ 65536)
    have c3 : (z' : Rat) ≤ z * (1 - 2 ^ (-22 : Int)) := by
      have : (2 : Rat) ^ (-22 : Int) = 1 / 2 ^ 22 := by norm_num
      rw [this]
      linarith
    calc (z' : Rat) * |g| ≤ z * (1 - 2 ^ (-22 : Int)) * |g| := mul_le_mul_of_nonneg_right c3 (le_of_lt hgp)
      _ = z * |g| * (1 - 2 ^ (-22 : Int)) := by ring
  · intro j hj h1
    obtain ⟨z, hz, e⟩ := hval j hj
    have p := hpos j hj z e (lt_of_le_of_lt ok.bg0 h1)
    rw [e]
    have : (1 : Rat) ≤ z := by exact_mod_cast p
    nlinarith

/-- Rounding does not move a value over a threshold if a number of the format is between them. -/
theorem clear_of {rd : Rat → Fl} (R : Rounds rd) {bg xr q s t : Rat} (hs : float32.Has s) (ht : float32.Has t)
    (h1 : q ≤ s ∧ s ≤ bg ∨ bg < s ∧ s ≤ q) (h2 : q ≤ t ∧ t < xr ∨ xr ≤ t ∧ t ≤ q) : Clear rd bg xr q := by
  constructor
  · rintro ⟨r, hr, r1, r2⟩
    constructor
    · rcases h1 with ⟨a, b⟩ | ⟨a, b⟩
      · exact absurd (rd_le R hr hs a) (not_le.2 (lt_of_le_of_lt b r1))
      · exact lt_of_lt_of_le a b
    · rcases h2 with ⟨a, b⟩ | ⟨a, b⟩
      · exact lt_of_le_of_lt a b
      · exact absurd (le_rd R hr ht b) (not_le.2 (lt_of_lt_of_le r2 a))
  · rintro ⟨q1, q2⟩
    have h1' : bg < s ∧ s ≤ q := by
      rcases h1 with ⟨a, b⟩ | h
      · exact absurd (le_trans a b) (not_le.2 q1)
      · exact h
    have h2' : q ≤ t ∧ t < xr := by
      rcases h2 with h | ⟨a, b⟩
      · exact h
      · exact absurd (le_trans a b) (not_le.2 q2)
    obtain ⟨r, hr, r1, r2⟩ := rd_fin R hs ht h1'.2 h2'.1
    exact ⟨r, hr, lt_of_lt_of_le h1'.1 r1, lt_of_le_of_lt r2 h2'.2⟩

/-- Numbers of the format are not moved. -/
theorem clear_has {rd : Rat → Fl} (R : Rounds rd) {bg xr q : Rat} (h : float32.Has q) : Clear rd bg xr q := by
  unfold Clear
  rw [R.fix q h]
  constructor
  · rintro ⟨r, hr, r1, r2⟩
    cases hr
    exact ⟨r1, r2⟩
  · rintro ⟨r1, r2⟩
    exact ⟨q, rfl, r1, r2⟩

/-- **C92** if all results are numbers of the format: the events are those of exact arithmetic, whatever the gains. -/
theorem C92_exact_partial {rd : Rat → Fl} (R : Rounds rd) {bg xr : Rat} {dark : Option (List Rat)} {gain : List Rat} {w h : Nat}
    {frame : List Nat} (ok : FrameOK w h frame bg) (hg : gain.length = w * h) (hd : ∀ d, dark = some d → d.length = w * h)
    (he : ∀ j, j < w * h → ExactDifference dark frame j) (hh : ∀ j, j < w * h → float32.Has (floatValue dark gain frame j)) :
    ∃ events, countStream rd (gainOptions bg xr dark gain) (w, h) (ofPixels frame) = .ok events ∧
      IsEventList bg xr w h (floatValue dark gain frame) events := by
  obtain ⟨ev, e1, e2, e3, e4⟩ := C92_gain_values (rd := rd) (xr := xr) ok hg hd
  have hR : ∀ x y, x < w → y < h → roundedValue rd dark gain frame (y * w + x) = .fin (floatValue dark gain frame (y * w + x)) :=
    fun x y hx hy => (roundedValue_eq R (he _ (flat_lt hx hy))).trans (R.fix _ (hh _ (flat_lt hx hy)))
  refine ⟨ev, e1, e2, e3, ?_⟩
  intro x y hx hy
  rw [e4 x y hx hy]
  constructor
  · rintro ⟨⟨q, p1, p2, p3, p4⟩, _⟩
    rw [hR x y hx hy] at p1
    cases p1
    refine ⟨⟨p2, p3⟩, ?_⟩
    intro x' y' a1 a2 a3
    unfold eligible
    split
    · rename_i hel
      exact p4 x' y' a1 a2 a3 _ (hR x' y' a1 a2) hel.1 hel.2
    · exact lt_of_le_of_lt ok.bg0 p2
  · rintro ⟨p1, p2⟩
    refine ⟨⟨_, hR x y hx hy, p1.1, p1.2, ?_⟩, ?_⟩
    · intro x' y' a1 a2 a3 q' b1 b2 b3
      rw [hR x' y' a1 a2] at b1
      cases b1
      have := p2 x' y' a1 a2 a3
      unfold eligible at this
      rwa [if_pos ⟨b2, b3⟩] at this
    · rintro ⟨x', y', a1, a2, a3, a4⟩
      rw [hR x' y' a1 a2] at a4
      cases a4

/-! ### When it does -/

/-- An event of exact arithmetic. -/
def ExactEvent (bg xr : Rat) (w h : Nat) (c : Nat → Rat) (x y : Nat) : Prop :=
  (bg < c (y * w + x) ∧ c (y * w + x) < xr) ∧
    ∀ x' y', x' < w → y' < h → Neighbour x y x' y' → eligible bg xr (c (y' * w + x')) < c (y * w + x)

/-- Two values at the first two pixels, and zero elsewhere. -/
def twoPixels (a b : Rat) (j : Nat) : Rat := if j = 0 then a else if j = 1 then b else 0

theorem twoPixels_list {n : Nat} (hn : 1 < n) (va vb : Nat) (ga gb : Rat) (j : Nat) (hj : j < n) :
    floatValue none (ga :: gb :: List.replicate (n - 2) 1) (va :: vb :: List.replicate (n - 2) 0) j =
      twoPixels (va * ga) (vb * gb) j := by
  unfold floatValue twoPixels
  rcases j with _ | _ | j
  · simp
  · simp
  · simp only [List.getD_cons_succ, sub_zero]
    rw [List.getD_eq_getElem?_getD, List.getElem?_replicate, if_pos (by omega)]
    simp

/-- The first two pixels are neighbours, whatever the width. -/
theorem first_two {w h : Nat} (h2 : 1 < w * h) : ∃ x y, x < w ∧ y < h ∧ y * w + x = 1 ∧ Neighbour 0 0 x y ∧ Neighbour x y 0 0 := by
  rcases Nat.lt_or_ge 1 w with hw | hw
  · have : 0 < h := by
      rcases Nat.eq_zero_or_pos h with e | e
      · rw [e, Nat.mul_zero] at h2; omega
      · exact e
    exact ⟨1, 0, hw, this, by simp, by unfold Neighbour; omega, by unfold Neighbour; omega⟩
  · have : w = 1 := by
      rcases Nat.eq_zero_or_pos w with e | e
      · rw [e, Nat.zero_mul] at h2; omega
      · omega
    subst this
    exact ⟨0, 1, by omega, by omega, by simp, by unfold Neighbour; omega, by unfold Neighbour; omega⟩

theorem pos_of_mul {w h : Nat} (h2 : 1 < w * h) : 0 < w ∧ 0 < h := by
  constructor
  · rcases Nat.eq_zero_or_pos w with e | e
    · rw [e, Nat.zero_mul] at h2; omega
    · exact e
  · rcases Nat.eq_zero_or_pos h with e | e
    · rw [e, Nat.mul_zero] at h2; omega
    · exact e

/-- The larger one of two values is an event. -/
theorem twoPixels_event {w h : Nat} (h2 : 1 < w * h) {a b xr : Rat} (hab : a ≠ b) (ha : 0 < a) (hb : 0 < b) (hax : a < xr) (hbx : b < xr) :
    ∃ x y, x < w ∧ y < h ∧ ExactEvent 0 xr w h (twoPixels a b) x y := by
  obtain ⟨hw, hh⟩ := pos_of_mul h2
  obtain ⟨x1, y1, hx1, hy1, e1, n1, n2⟩ := first_two h2
  rcases lt_or_gt_of_ne hab with hlt | hlt
  · refine ⟨x1, y1, hx1, hy1, ?_, ?_⟩
    · rw [e1]; exact ⟨hb, hbx⟩
    · intro x' y' a1 a2 a3
      rw [e1]
      have hne : y' * w + x' ≠ 1 := by
        intro e
        have e' : y' * w + x' = y1 * w + x1 := by omega
        have d1 := congrArg (· / w) e'
        have d2 := congrArg (· % w) e'
        simp only [flat_div _ a1, flat_div _ hx1, flat_mod _ a1, flat_mod _ hx1] at d1 d2
        unfold Neighbour at a3
        omega
      show eligible 0 xr (twoPixels a b (y' * w + x')) < b
      unfold eligible twoPixels
      rw [if_neg hne]
      split_ifs <;> linarith
  · refine ⟨0, 0, hw, hh, ?_, ?_⟩
    · simp only [Nat.zero_mul, Nat.add_zero]
      exact ⟨ha, hax⟩
    · intro x' y' a1 a2 a3
      have hne : y' * w + x' ≠ 0 := by
        intro e
        have : x' = 0 := by omega
        have : y' * w = 0 := by omega
        have : y' = 0 := by
          rcases Nat.mul_eq_zero.1 this with e | e <;> omega
        unfold Neighbour at a3
        omega
      show eligible 0 xr (twoPixels a b (y' * w + x')) < twoPixels a b (0 * w + 0)
      have e0 : twoPixels a b (0 * w + 0) = a := by simp [twoPixels]
      rw [e0]
      unfold eligible twoPixels
      rw [if_neg hne]
      split_ifs <;> linarith

/-- Two neighbouring values which are rounded to the same one are not counted. -/
theorem twoPixels_lost {rd : Rat → Fl} (R : Rounds rd) {w h : Nat} {frame : List Nat} {gain : List Rat} {xr a b r : Rat}
    (ok : FrameOK w h frame 0) (hg : gain.length = w * h)
    (hv : ∀ j, j < w * h → floatValue none gain frame j = twoPixels a b j) (ha : rd a = .fin r) (hb : rd b = .fin r) :
    countStream rd (gainOptions 0 xr none gain) (w, h) (ofPixels frame) = .ok [] := by
  obtain ⟨ev, e1, e2, e3, e4⟩ := C92_gain_values (rd := rd) (xr := xr) (dark := none) ok hg (by intro d h; cases h)
  rw [e1]
  congr 1
  by_contra hne
  obtain ⟨e, he⟩ := List.exists_mem_of_ne_nil _ hne
  have hlt := e3 e he
  obtain ⟨hw, hh⟩ := pos_of_mul ok.two
  have hval : ∀ j, j < w * h → roundedValue rd none gain frame j = rd (twoPixels a b j) := by
    intro j hj
    rw [roundedValue_eq R (by intro d h; cases h), hv j hj]
  have hsplit : e = (e / w) * w + e % w := by rw [Nat.mul_comm]; exact (Nat.div_add_mod e w).symm
  have hx : e % w < w := Nat.mod_lt _ hw
  have hy : e / w < h := Nat.div_lt_of_lt_mul hlt
  rw [hsplit] at he
  obtain ⟨⟨q, p1, p2, p3, p4⟩, _⟩ := (e4 _ _ hx hy).1 he
  rw [← hsplit, hval e hlt] at p1
  obtain ⟨x1, y1, hx1, hy1, f1, n1, n2⟩ := first_two ok.two
  by_cases h0 : e = 0
  · subst h0
    have hq : q = r := by
      simp only [twoPixels, if_true] at p1
      rw [ha] at p1
      cases p1
      rfl
    subst hq
    have := p4 x1 y1 hx1 hy1 (by simpa using n1) q (by rw [f1, hval 1 ok.two]; exact hb) p2 p3
    exact lt_irrefl _ this
  · by_cases h1 : e = 1
    · subst h1
      have hq : q = r := by
        have : twoPixels a b 1 = b := rfl
        rw [this, hb] at p1
        cases p1
        rfl
      subst hq
      have n2' : Neighbour (1 % w) (1 / w) 0 0 := by
        have d1 : 1 / w = y1 := by rw [← f1, flat_div _ hx1]
        have d2 : 1 % w = x1 := by rw [← f1, flat_mod _ hx1]
        rw [d1, d2]; exact n2
      have := p4 0 0 hw hh n2' q (by
        simp only [Nat.zero_mul, Nat.add_zero]
        rw [hval 0 (by omega)]; exact ha) p2 p3
      exact lt_irrefl _ this
    · have : twoPixels a b e = 0 := by unfold twoPixels; rw [if_neg h0, if_neg h1]
      rw [this, R.fix 0 (by simpa using has_int (z := 0) (by norm_num))] at p1
      cases p1
      exact lt_irrefl _ p2

/-- A product between two adjacent numbers of the format. -/
theorem rd_five {rd : Rat → Fl} (R : Rounds rd) :
    ∃ r, rd (5 * (8388609 / 8388608)) = .fin r ∧ (r = 10485761 / 2097152 ∨ r = 10485762 / 2097152) := by
  have hlo : float32.Has (10485761 / 2097152) := ⟨10485761, -21, by decide, by decide, by decide, by norm_num⟩
  have hhi : float32.Has (10485762 / 2097152) := ⟨10485762, -21, by decide, by decide, by decide, by norm_num⟩
  -- there is no number of the format between the two
  obtain ⟨r, hr, r1, r2⟩ := rd_fin R (q := 5 * (8388609 / 8388608)) hlo hhi (by norm_num) (by norm_num)
  refine ⟨r, hr, ?_⟩
  have hcase : r = 10485761 / 2097152 ∨ r = 10485762 / 2097152 := by
    have e5 : Float32.expo 5 = -21 := by
      have e := Float32.lt_expo 5
      have hm : -149 < Float32.expo 5 := by
        by_contra hc
        have : Float32.expo 5 = -149 := le_antisymm (not_lt.1 hc) (Float32.le_expo 5)
        rw [this] at e
        norm_num at e
      have e' := Float32.expo_le hm
      rw [abs_of_pos (by norm_num)] at e e'
      have c1 : (2 : Rat) ^ Float32.expo 5 < 2 ^ (-20 : Int) := by
        norm_num
        linarith
      have c2 : (2 : Rat) ^ (-22 : Int) < 2 ^ Float32.expo 5 := by
        norm_num
        linarith
      have := Float32.of_zpow_lt c1
      have := Float32.of_zpow_lt c2
      omega
    rcases Float32.has_expo (R.has _ _ hr) 5 with ⟨n, hn⟩ | ⟨_, hn⟩
    · rw [e5] at hn
      have e : (2 : Rat) ^ (-21 : Int) = 1 / 2097152 := by norm_num
      rw [e] at hn
      have n1 : (10485761 : Rat) ≤ n := by linarith
      have n2 : (n : Rat) ≤ 10485762 := by linarith
      have n1 : 10485761 ≤ n := by exact_mod_cast n1
      have n2 : n ≤ 10485762 := by exact_mod_cast n2
      rcases (by omega : n = 10485761 ∨ n = 10485762) with e | e
      · left; rw [hn, e]; norm_num
      · right; rw [hn, e]; norm_num
    · rw [e5, abs_of_nonneg (by linarith)] at hn
      exfalso
      norm_num at hn
      linarith
  exact hcase

/-- **C92** is false with a gain in every rounding mode, whatever the size of the frames: there are frames and gains without dark
reference for which a pixel is an event of exact arithmetic, and nothing is counted. -/
theorem C92_lost_false {rd : Rat → Fl} (R : Rounds rd) {w h : Nat} (hw : w < 65536) (hh : h < 65536) (hs : w * h < 2 ^ 32)
    (h2 : 1 < w * h) {xr : Rat} (hxr : 6 ≤ xr) :
    ∃ (frame : List Nat) (gain : List Rat), frame.length = w * h ∧ (∀ v ∈ frame, v < 65536) ∧ gain.length = w * h ∧
      (∀ g ∈ gain, float32.Has g ∧ 1 ≤ g ∧ g < 2) ∧
      countStream rd (gainOptions 0 xr none gain) (w, h) (ofPixels frame) = .ok [] ∧
      ∃ x y, x < w ∧ y < h ∧ ExactEvent 0 xr w h (floatValue none gain frame) x y := by
  have hlo : float32.Has (10485761 / 2097152) := ⟨10485761, -21, by decide, by decide, by decide, by norm_num⟩
  have hhi : float32.Has (10485762 / 2097152) := ⟨10485762, -21, by decide, by decide, by decide, by norm_num⟩
  have g1 : float32.Has (8388609 / 8388608) := ⟨8388609, -23, by decide, by decide, by decide, by norm_num⟩
  have g2 : float32.Has (10485761 / 8388608) := ⟨10485761, -23, by decide, by decide, by decide, by norm_num⟩
  have g3 : float32.Has (10485762 / 8388608) := ⟨10485762, -23, by decide, by decide, by decide, by norm_num⟩
  have g0 : float32.Has 1 := by simpa using has_int (z := 1) (by norm_num)
  obtain ⟨r, hr, hcase⟩ := rd_five R
  have build : ∀ g : Rat, float32.Has g → 1 ≤ g → g < 2 → 4 * g ≠ 5 * (8388609 / 8388608) → 4 * g < 6 →
      rd (4 * g) = .fin r → ∃ (frame : List Nat) (gain : List Rat), frame.length = w * h ∧ (∀ v ∈ frame, v < 65536) ∧
      gain.length = w * h ∧ (∀ g ∈ gain, float32.Has g ∧ 1 ≤ g ∧ g < 2) ∧
      countStream rd (gainOptions 0 xr none gain) (w, h) (ofPixels frame) = .ok [] ∧
      ∃ x y, x < w ∧ y < h ∧ ExactEvent 0 xr w h (floatValue none gain frame) x y := by
    intro g hg gl gu hne h6 hrg
    have hfl : (5 :: 4 :: List.replicate (w * h - 2) 0 : List Nat).length = w * h := by
      simp only [List.length_cons, List.length_replicate]; omega
    have hgl : (8388609 / 8388608 :: g :: List.replicate (w * h - 2) 1 : List Rat).length = w * h := by
      simp only [List.length_cons, List.length_replicate]; omega
    have hval : ∀ j, j < w * h → floatValue none (8388609 / 8388608 :: g :: List.replicate (w * h - 2) 1)
        (5 :: 4 :: List.replicate (w * h - 2) 0) j = twoPixels (5 * (8388609 / 8388608)) (4 * g) j := by
      intro j hj
      have := twoPixels_list h2 5 4 (8388609 / 8388608) g j hj
      push_cast at this
      exact this
    refine ⟨_, _, hfl, ?_, hgl, ?_, twoPixels_lost R ⟨hw, hh, hs, h2, hfl, le_refl _⟩ hgl hval hr hrg, ?_⟩
    · intro v hv
      simp only [List.mem_cons, List.mem_replicate] at hv
      omega
    · intro x hx
      simp only [List.mem_cons, List.mem_replicate] at hx
      rcases hx with rfl | rfl | ⟨_, rfl⟩
      · exact ⟨g1, by norm_num, by norm_num⟩
      · exact ⟨hg, gl, gu⟩
      · exact ⟨g0, by norm_num, by norm_num⟩
    · obtain ⟨x, y, hx, hy, he⟩ := twoPixels_event (xr := xr) h2 (Ne.symm hne) (by norm_num) (by linarith) (by linarith) (by linarith)
      refine ⟨x, y, hx, hy, ?_⟩
      obtain ⟨c1, c2⟩ := he
      refine ⟨by rw [hval _ (flat_lt hx hy)]; exact c1, ?_⟩
      intro x' y' a1 a2 a3
      rw [hval _ (flat_lt hx hy), hval _ (flat_lt a1 a2)]
      exact c2 x' y' a1 a2 a3
  rcases hcase with e | e
  · refine build _ g2 (by norm_num) (by norm_num) (by norm_num) (by norm_num) ?_
    rw [show (4 : Rat) * (10485761 / 8388608) = 10485761 / 2097152 by norm_num, R.fix _ hlo, e]
  · refine build _ g3 (by norm_num) (by norm_num) (by norm_num) (by norm_num) ?_
    rw [show (4 : Rat) * (10485762 / 8388608) = 10485762 / 2097152 by norm_num, R.fix _ hhi, e]

/-- **C92** is false at the thresholds, even for a uniform gain, in every rounding mode: there are a frame and a background threshold such
that an event of exact arithmetic is not counted, or a pixel is counted which is none. -/
theorem C92_threshold_false {rd : Rat → Fl} (R : Rounds rd) {w h : Nat} (hw : w < 65536) (hh : h < 65536) (hs : w * h < 2 ^ 32)
    (h2 : 1 < w * h) {xr : Rat} (hxr : 6 ≤ xr) :
    ∃ (frame : List Nat) (g bg : Rat) (events : List Nat), frame.length = w * h ∧ (∀ v ∈ frame, v < 65536) ∧ float32.Has g ∧ 0 ≤ bg ∧
      countStream rd (gainOptions bg xr none (List.replicate (w * h) g)) (w, h) (ofPixels frame) = .ok events ∧
      ¬ IsEventList bg xr w h (floatValue none (List.replicate (w * h) g) frame) events := by
  obtain ⟨r, hr, hcase⟩ := rd_five R
  obtain ⟨hw0, hh0⟩ := pos_of_mul h2
  have hfl : (5 :: List.replicate (w * h - 1) 0 : List Nat).length = w * h := by
    simp only [List.length_cons, List.length_replicate]; omega
  have hval : ∀ j, j < w * h → floatValue none (List.replicate (w * h) (8388609 / 8388608)) (5 :: List.replicate (w * h - 1) 0) j =
      if j = 0 then 5 * (8388609 / 8388608) else 0 := by
    intro j hj
    unfold floatValue
    rcases j with _ | j
    · simp [List.getD_eq_getElem?_getD, show 0 < w * h by omega]
    · simp only [List.getD_cons_succ]
      rw [List.getD_eq_getElem?_getD, List.getElem?_replicate, if_pos (by omega), if_neg (by omega)]
      simp
  have h0 : float32.Has 0 := by simpa using has_int (z := 0) (by norm_num)
  have hnz : ∀ x' y', x' < w → y' < h → Neighbour 0 0 x' y' → y' * w + x' ≠ 0 := by
    intro x' y' _ _ a3 e
    have e1 : x' = 0 := by omega
    have e2 : y' * w = 0 := by omega
    have e3 : y' = 0 := by
      rcases Nat.mul_eq_zero.1 e2 with e | e <;> omega
    unfold Neighbour at a3
    omega
  have hbgex : ∃ bg : Rat, 0 ≤ bg ∧ (bg < r ↔ ¬ bg < 5 * (8388609 / 8388608)) := by
    rcases hcase with e | e
    · exact ⟨5 + 9 / 16777216, by norm_num, by rw [e]; norm_num⟩
    · exact ⟨5 + 6 / 8388608, by norm_num, by rw [e]; norm_num⟩
  obtain ⟨bg, hbg, hdiff⟩ := hbgex
  have ok : FrameOK w h (5 :: List.replicate (w * h - 1) 0) bg := ⟨hw, hh, hs, h2, hfl, hbg⟩
  obtain ⟨ev, e1, e2, e3, e4⟩ := C92_gain_values (rd := rd) (xr := xr) (dark := none)
    (gain := List.replicate (w * h) (8388609 / 8388608)) ok (by simp) (by intro d h; cases h)
  refine ⟨5 :: List.replicate (w * h - 1) 0, 8388609 / 8388608, bg, ev, hfl, ?_,
    ⟨8388609, -23, by decide, by decide, by decide, by norm_num⟩, hbg, e1, ?_⟩
  · intro v hv
    simp only [List.mem_cons, List.mem_replicate] at hv
    omega
  · intro hE
    have m1 := hE.mem 0 0 hw0 hh0
    have m2 := e4 0 0 hw0 hh0
    have hR : ∀ j, j < w * h → roundedValue rd none (List.replicate (w * h) (8388609 / 8388608)) (5 :: List.replicate (w * h - 1) 0) j =
        if j = 0 then .fin r else .fin 0 := by
      intro j hj
      rw [roundedValue_eq R (by intro d h; cases h), hval j hj]
      split
      · exact hr
      · exact R.fix 0 h0
    simp only [Nat.zero_mul, Nat.add_zero] at m1 m2
    rw [m2, hval 0 (by omega), if_pos rfl] at m1
    have hr6 : r < xr := by rcases hcase with e | e <;> rw [e] <;> norm_num <;> linarith
    by_cases hb : bg < r
    · have : ¬ bg < 5 * (8388609 / 8388608) := hdiff.1 hb
      refine this (m1.1 ⟨⟨r, ?_, hb, hr6, ?_⟩, ?_⟩).1.1
      · simpa using hR 0 (by omega)
      · intro x' y' a1 a2 a3 q' b1 b2
        rw [hR _ (flat_lt a1 a2), if_neg (hnz x' y' a1 a2 a3)] at b1
        cases b1
        exact absurd b2 (not_lt.2 hbg)
      · rintro ⟨x', y', a1, a2, a3, b1⟩
        rw [hR _ (flat_lt a1 a2), if_neg (hnz x' y' a1 a2 a3)] at b1
        cases b1
    · have hlt : bg < 5 * (8388609 / 8388608) := by
        by_contra hc
        exact hb (hdiff.2 hc)
      obtain ⟨⟨q, p1, p2, _⟩, _⟩ := m1.2 ⟨⟨hlt, by norm_num; linarith⟩, by
        intro x' y' a1 a2 a3
        rw [hval _ (flat_lt a1 a2), if_neg (hnz x' y' a1 a2 a3)]
        unfold eligible
        rw [if_neg (by rintro ⟨h, _⟩; linarith)]
        norm_num⟩
      have h00 := hR (0 * w + 0) (by omega)
      rw [p1] at h00
      simp only [Nat.zero_mul, Nat.add_zero, if_true] at h00
      cases h00
      exact hb p2

end Stempy.RoundedCounting
