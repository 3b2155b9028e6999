import Verif.Props.RoundingPaths
import Mathlib.Tactic.IntervalCases

/-!
C92 with row dark correction, in single precision.
-/

namespace Stempy.RoundedCounting
open Stempy.Spec Stempy.Props
open Stempy.FloatPixels (Fl threshold forRange forRange_ok ofPixels ofPixels_get ofPixels_length halfRow_slice events_of)
open Stempy.Float32 (Rounds f32)
open Stempy.SafeCast (float32)

/-! ### The loop over the rows -/

theorem rowRange_ok {rd : Rat → Fl} {o : Options} {statFunc : List Fl → Outcome Fl} {s : Fl} {start len : Nat} {fr : List Fl}
    {frame : List Nat} {V : Nat → Fl} (hb : start + len ≤ fr.length) (hlf : fr.length = frame.length)
    (hs : statFunc ((fr.drop start).take len) = .ok s)
    (ho : ∀ j, start ≤ j → j < start + len → fr[j]? = (ofPixels frame)[j]?)
    (hp : ∀ j, start ≤ j → j < start + len → rowPixel rd o s j (.fin (frame.getD j 0 : Nat)) = .ok (V j)) :
    ∃ out, rowRange rd o statFunc start len fr = .ok out ∧ out.length = fr.length ∧ ∀ j, j < frame.length → out[j]? =
      if start ≤ j ∧ j < start + len then some (V j) else fr[j]? := by
  unfold rowRange
  rw [if_pos hb, hs, Outcome.ok_bind]
  obtain ⟨out, h1, h2, h3⟩ := forRange_ok (f := rowPixel rd o s) (fun j _ => V j) hb (by
      intro j hj a b
      have e := ho j a b
      rw [List.getElem?_eq_getElem hj, ofPixels_get (by omega)] at e
      rw [Option.some.inj e]
      exact hp j a b)
  refine ⟨out, h1, h2, ?_⟩
  intro j hj
  rw [h3 j]
  by_cases c : start ≤ j ∧ j < start + len
  · rw [if_pos c, if_pos c, ho j c.1 c.2, ofPixels_get hj]
    rfl
  · rw [if_neg c, if_neg c]

/-- What the row dark correction stores on a frame of width `w` and height `h`: `w` rows of length `h` are corrected. -/
theorem rowDark_ok {rd : Rat → Fl} {o : Options} {statFunc : List Fl → Outcome Fl} {S : Nat → Nat → Fl} {V : Nat → Fl} {w h : Nat}
    {frame : List Nat} (hh : 2 ≤ h) (hsz : w * h < 2 ^ 32) (hl : frame.length = w * h)
    (hstat : ∀ x y, x < h → y < w → statFunc ((halfRow h (pixels frame) x y).map Fl.fin) = .ok (S x y))
    (hp : ∀ x y, x < h → y < w →
      rowPixel rd o (S x y) (y * h + x) (.fin (frame.getD (y * h + x) 0 : Nat)) = .ok (V (y * h + x))) :
    ∃ out, rowDark rd o statFunc (w, h) (ofPixels frame) = .ok out ∧ out.length = w * h ∧ ∀ j, j < w * h → out[j]? = some (V j) := by
  unfold rowDark
  obtain ⟨out, h1, h2, h3⟩ := foldlM_range_inv w (fun fr row => do
    let i := (row * h) % 2 ^ 32
    let fr ← rowRange rd o statFunc i (h / 2) fr
    rowRange rd o statFunc (i + h / 2) (h - h / 2) fr)
    (fun k fr => fr.length = w * h ∧ ∀ j, j < w * h → fr[j]? = if j < k * h then some (V j) else (ofPixels frame)[j]?)
    (ofPixels frame) ⟨by rw [ofPixels_length, hl], by intro j _; rw [if_neg (by omega)]⟩
    (by
      rintro row hrow fr ⟨e1, e2⟩
      have hrl : row * h + h ≤ w * h := by
        calc row * h + h = (row + 1) * h := by ring
          _ ≤ w * h := Nat.mul_le_mul_right _ hrow
      have hi : (row * h) % 2 ^ 32 = row * h := Nat.mod_eq_of_lt (by omega)
      simp only [hi]
      have hL : 0 < h / 2 := by omega
      have half1 : ∀ x, x < h / 2 → halfRow h (pixels frame) x row = halfRow h (pixels frame) 0 row := by
        intro x hx
        unfold halfRow halfStart halfLen
        simp only [if_pos hx, if_pos hL]
      have half2 : ∀ x, ¬ x < h / 2 → halfRow h (pixels frame) x row = halfRow h (pixels frame) (h / 2) row := by
        intro x hx
        unfold halfRow halfStart halfLen
        simp only [if_neg hx, if_neg (show ¬ h / 2 < h / 2 by omega)]
      have s1 : ∀ x, x < h / 2 → S x row = S 0 row := by
        intro x hx
        have a := hstat x row (by omega) hrow
        rw [half1 x hx, hstat 0 row (by omega) hrow] at a
        exact (Outcome.ok.inj a).symm
      have s2 : ∀ x, x < h → ¬ x < h / 2 → S x row = S (h / 2) row := by
        intro x hx hx2
        have a := hstat x row (by omega) hrow
        rw [half2 x hx2, hstat (h / 2) row (by omega) hrow] at a
        exact (Outcome.ok.inj a).symm
      obtain ⟨f1, a1, a2, a3⟩ := rowRange_ok (rd := rd) (o := o) (statFunc := statFunc) (fr := fr) (frame := frame)
        (start := row * h) (len := h / 2) (s := S 0 row) (V := V) (by omega) (by omega)
        (by
          rw [halfRow_slice (frame := frame) (w := h) (x := 0) (y := row) (by omega) (by omega)
            (by intro j b1 b2; rw [e2 j (by omega), if_neg (by omega)])
            (by simp [halfStart, hL]) (by simp [halfLen, hL])]
          exact hstat 0 row (by omega) hrow)
        (by intro j b1 b2; rw [e2 j (by omega), if_neg (by omega)])
        (by
          intro j b1 b2
          obtain ⟨x, rfl⟩ : ∃ x, j = row * h + x := ⟨j - row * h, by omega⟩
          rw [← s1 x (by omega)]
          exact hp x row (by omega) hrow)
      rw [a1, Outcome.ok_bind]
      have ho : ∀ j, row * h + h / 2 ≤ j → j < row * h + h / 2 + (h - h / 2) → f1[j]? = (ofPixels frame)[j]? := by
        intro j b1 b2
        rw [a3 j (by omega), if_neg (by omega), e2 j (by omega), if_neg (by omega)]
      obtain ⟨f2, b1, b2, b3⟩ := rowRange_ok (rd := rd) (o := o) (statFunc := statFunc) (fr := f1) (frame := frame)
        (start := row * h + h / 2) (len := h - h / 2) (s := S (h / 2) row) (V := V) (by omega) (by omega)
        (by
          rw [halfRow_slice (frame := frame) (w := h) (x := h / 2) (y := row) (by omega) (by omega) ho
            (by simp [halfStart]) (by simp [halfLen])]
          exact hstat _ row (by omega) hrow) ho
        (by
          intro j b1 b2
          obtain ⟨x, rfl⟩ : ∃ x, j = row * h + x := ⟨j - row * h, by omega⟩
          rw [← s2 x (by omega) (by omega)]
          exact hp x row (by omega) hrow)
      refine ⟨f2, b1, by omega, ?_⟩
      intro j hj
      have hsucc : (row + 1) * h = row * h + h := by ring
      rw [hsucc, b3 j (by omega)]
      by_cases c1 : j < row * h
      · rw [if_neg (by omega), a3 j (by omega), if_neg (by omega), e2 j hj, if_pos c1, if_pos (by omega)]
      · by_cases c2 : j < row * h + h
        · rw [if_pos c2]
          by_cases c3 : j < row * h + h / 2
          · rw [if_neg (by omega), a3 _ (by omega), if_pos (by omega)]
          · rw [if_pos (by omega)]
        · rw [if_neg (by omega), a3 j (by omega), if_neg (by omega), e2 j hj, if_neg c1, if_neg (by omega)])
  refine ⟨out, h1, h2, ?_⟩
  intro j hj
  rw [h3 j hj, if_pos hj]

/-- The events when every corrected value is finite. -/
theorem rowDark_events {rd : Rat → Fl} {o : Options} {statFunc : List Fl → Outcome Fl} {S : Nat → Nat → Fl} {C : Nat → Rat}
    {bg xr : Rat} {w h : Nat} {frame : List Nat} (ok : FrameOK w h frame bg) (hh : 2 ≤ h) (hrd : o.rowDark = some statFunc)
    (hstat : ∀ x y, x < h → y < w → statFunc ((halfRow h (pixels frame) x y).map Fl.fin) = .ok (S x y))
    (hp : ∀ x y, x < h → y < w → rowPixel rd o (S x y) (y * h + x) (.fin (frame.getD (y * h + x) 0 : Nat)) =
      .ok (threshold (.fin bg) (.fin xr) (.fin (C (y * h + x))))) :
    ∃ events, countStream rd o (w, h) (ofPixels frame) = .ok events ∧ countClassic rd o (w, h) (ofPixels frame) = .ok events ∧
      IsEventList bg xr w h C events := by
  obtain ⟨out, h1, h2, h3⟩ := rowDark_ok (V := fun j => threshold (.fin bg) (.fin xr) (.fin (C j))) hh ok.size ok.len hstat hp
  obtain ⟨ev, e1, e2, e3, e4⟩ := events_of (xr := xr) ok.bg0 ok.wlt ok.hlt ok.size ok.two (fun j => .fin (C j)) (out := out) h2 h3
  refine ⟨ev, ?_, ?_, e2, e3, ?_⟩
  · unfold countStream
    rw [hrd]
    simp only [h1, Outcome.ok_bind]
    exact e1
  · unfold countClassic
    rw [hrd]
    simp only [h1, Outcome.ok_bind]
    exact e1
  · intro x y hx hy
    rw [e4 x y hx hy]
    constructor
    · rintro ⟨⟨q, p1, p2, p3, p4⟩, _⟩
      cases p1
      refine ⟨⟨p2, p3⟩, ?_⟩
      intro x' y' a1 a2 a3
      unfold eligible
      split
      · rename_i hel
        exact p4 x' y' a1 a2 a3 _ rfl hel.1 hel.2
      · exact lt_of_le_of_lt ok.bg0 p2
    · rintro ⟨p1, p2⟩
      refine ⟨⟨_, rfl, p1.1, p1.2, ?_⟩, ?_⟩
      · intro x' y' a1 a2 a3 q' b1 b2 b3
        cases b1
        have := p2 x' y' a1 a2 a3
        unfold eligible at this
        rwa [if_pos ⟨b2, b3⟩] at this
      · rintro ⟨x', y', a1, a2, a3, a4⟩
        cases a4

theorem two_le {w : Nat} (h : 1 < w * w) : 2 ≤ w := by
  by_contra c
  have c : w ≤ 1 := by omega
  have : w * w ≤ 1 * 1 := Nat.mul_le_mul c c
  omega

/-! ### The steps of a pixel -/

/-- Without gain: `u` is the pixel after the dark reference, `f` the factor of the half row with the statistic `s`, `r` the product before
it is truncated. -/
structure U16Steps (rd : Rat → Fl) (optMean : Rat) (dark : Option (List Rat)) (frame : List Nat) (s : Rat) (j : Nat) (r : Rat) : Prop where
  steps : ∃ u f, (match dark with
      | none => u = (frame.getD j 0 : Nat)
      | some d => ∃ q, rd ((frame.getD j 0 : Nat) - d.getD j 0) = .fin q ∧ -1 < q ∧ q < 65536 ∧ u = (truncZero q : Rat)) ∧
    rd (optMean / s) = .fin f ∧ rd (u * f) = .fin r
  low : -1 < r
  high : r < 65536

/-- With gain: `r` is the result. -/
def FloatSteps (rd : Rat → Fl) (optMean : Rat) (dark : Option (List Rat)) (gain : List Rat) (frame : List Nat) (s : Rat) (j : Nat)
    (r : Rat) : Prop :=
  ∃ u f p, (match dark with
      | none => u = (frame.getD j 0 : Nat)
      | some d => rd ((frame.getD j 0 : Nat) - d.getD j 0) = .fin u) ∧
    rd (optMean / s) = .fin f ∧ rd (u * f) = .fin p ∧ rd (p * gain.getD j 0) = .fin r

/-- Options of the row dark correction. -/
def rowOptions (bg xr : Rat) (dark gain : Option (List Rat)) (statFunc : List Fl → Outcome Fl) (optMean : Rat) : Options :=
  ⟨if gain.isSome then .f32 else .u16, bg, xr, dark.map (·.map .fin), gain.map (·.map .fin), some statFunc, .fin optMean⟩

/-- **C92**, what the code does with row dark correction and without gain: every step is rounded, then truncated. Rows of a frame which is not square are
corrected in pieces of its height, see C14. -/
theorem C92_rowdark_u16 {rd : Rat → Fl} {bg xr optMean : Rat} {dark : Option (List Rat)} {w h : Nat} {frame : List Nat}
    {statFunc : List Fl → Outcome Fl} {S : Nat → Nat → Rat} {C : Nat → Rat} (ok : FrameOK w h frame bg) (hh : 2 ≤ h)
    (hd : ∀ d, dark = some d → d.length = w * h)
    (hstat : ∀ x y, x < h → y < w → statFunc ((halfRow h (pixels frame) x y).map Fl.fin) = .ok (.fin (S x y)) ∧ S x y ≠ 0)
    (hp : ∀ x y, x < h → y < w → U16Steps rd optMean dark frame (S x y) (y * h + x) (C (y * h + x))) :
    ∃ events, countStream rd (rowOptions bg xr dark none statFunc optMean) (w, h) (ofPixels frame) = .ok events ∧
      countClassic rd (rowOptions bg xr dark none statFunc optMean) (w, h) (ofPixels frame) = .ok events ∧
      IsEventList bg xr w h (fun j => truncZero (C j)) events := by
  refine rowDark_events (S := fun x y => .fin (S x y)) ok hh rfl (fun x y hx hy => (hstat x y hx hy).1) ?_
  intro x y hx hy
  have hs := (hstat x y hx hy).2
  obtain ⟨⟨u, f, h1, h2, h3⟩, h4, h5⟩ := hp x y hx hy
  have hj : y * h + x < w * h := by rw [Nat.mul_comm w h]; exact flat_lt hx hy
  have hdiv : Fl.div (.fin optMean) (.fin (S x y)) = .fin (optMean / S x y) := by
    simp [Fl.div, hs]
  unfold rowPixel rowOptions
  cases hdk : dark with
  | none =>
    rw [hdk] at h1
    simp only at h1
    subst h1
    simp only [Option.map_none, Outcome.ok_bind, Outcome.pure_eq, hdiv, rnd, h2, Fl.mul, h3, store, toU16_fin h4 h5, Option.isSome_none,
      Bool.false_eq_true, if_false]
  | some d =>
    rw [hdk] at h1
    obtain ⟨q, q1, q2, q3, rfl⟩ := h1
    have h6 : readAt (d.map Fl.fin) (y * h + x) = .ok (.fin (d.getD (y * h + x) 0)) := readAt_fin (by rw [hd d hdk]; exact hj)
    have hsub : Fl.sub (.fin (frame.getD (y * h + x) 0 : Nat)) (.fin (d.getD (y * h + x) 0)) =
        .fin ((frame.getD (y * h + x) 0 : Nat) - d.getD (y * h + x) 0) := by
      simp [Fl.sub, Fl.add, Fl.neg, sub_eq_add_neg]
    simp only [Option.map_some, h6, Outcome.ok_bind, Outcome.pure_eq, hsub, rnd, q1, toU16_fin q2 q3, hdiv, h2, Fl.mul, h3, store,
      toU16_fin h4 h5, Option.isSome_none, Option.map_none, Bool.false_eq_true, if_false]

/-- **C92**, what the code does with row dark correction and gain. -/
theorem C92_rowdark_gain {rd : Rat → Fl} {bg xr optMean : Rat} {dark : Option (List Rat)} {gain : List Rat} {w h : Nat} {frame : List Nat}
    {statFunc : List Fl → Outcome Fl} {S : Nat → Nat → Rat} {C : Nat → Rat} (ok : FrameOK w h frame bg) (hh : 2 ≤ h) (hg : gain.length = w * h)
    (hd : ∀ d, dark = some d → d.length = w * h)
    (hstat : ∀ x y, x < h → y < w → statFunc ((halfRow h (pixels frame) x y).map Fl.fin) = .ok (.fin (S x y)) ∧ S x y ≠ 0)
    (hp : ∀ x y, x < h → y < w → FloatSteps rd optMean dark gain frame (S x y) (y * h + x) (C (y * h + x))) :
    ∃ events, countStream rd (rowOptions bg xr dark (some gain) statFunc optMean) (w, h) (ofPixels frame) = .ok events ∧
      countClassic rd (rowOptions bg xr dark (some gain) statFunc optMean) (w, h) (ofPixels frame) = .ok events ∧
      IsEventList bg xr w h C events := by
  refine rowDark_events (S := fun x y => .fin (S x y)) ok hh rfl (fun x y hx hy => (hstat x y hx hy).1) ?_
  intro x y hx hy
  have hs := (hstat x y hx hy).2
  obtain ⟨u, f, p, h1, h2, h3, h4⟩ := hp x y hx hy
  have hj : y * h + x < w * h := by rw [Nat.mul_comm w h]; exact flat_lt hx hy
  have hdiv : Fl.div (.fin optMean) (.fin (S x y)) = .fin (optMean / S x y) := by
    simp [Fl.div, hs]
  have h7 : readAt (gain.map Fl.fin) (y * h + x) = .ok (.fin (gain.getD (y * h + x) 0)) := readAt_fin (by omega)
  unfold rowPixel rowOptions
  cases hdk : dark with
  | none =>
    rw [hdk] at h1
    simp only at h1
    subst h1
    simp only [Option.map_none, Option.map_some, Outcome.ok_bind, Outcome.pure_eq, hdiv, rnd, h2, Fl.mul, h3, store, Option.isSome_some,
      if_true, readPtr, h7, h4]
  | some d =>
    rw [hdk] at h1
    have h6 : readAt (d.map Fl.fin) (y * h + x) = .ok (.fin (d.getD (y * h + x) 0)) := readAt_fin (by rw [hd d hdk]; exact hj)
    have hsub : Fl.sub (.fin (frame.getD (y * h + x) 0 : Nat)) (.fin (d.getD (y * h + x) 0)) =
        .fin ((frame.getD (y * h + x) 0 : Nat) - d.getD (y * h + x) 0) := by
      simp [Fl.sub, Fl.add, Fl.neg, sub_eq_add_neg]
    simp only at h1
    simp only [Option.map_some, h6, Outcome.ok_bind, Outcome.pure_eq, hsub, rnd, h1, hdiv, h2, Fl.mul, h3, store, Option.isSome_some,
      if_true, readPtr, h7, h4]

/-! ### The mean -/

theorem has_nat {n : Nat} (h : n ≤ 2 ^ 24) : float32.Has n := by
  by_cases c : n = 2 ^ 24
  · subst c
    exact ⟨1, 24, by decide, by decide, by decide, by norm_num⟩
  · simpa using has_int (z := n) (by rw [abs_of_nonneg (by omega)]; omega)

theorem sum_exact {rd : Rat → Fl} (R : Rounds rd) (l : List Nat) (a : Nat) (h : a + l.sum ≤ 2 ^ 24) :
    (l.map fun v : Nat => Fl.fin v).foldl (fun s v => rnd rd (s.add v)) (.fin a) = .fin ((a + l.sum : Nat) : Rat) := by
  induction l generalizing a with
  | nil => simp
  | cons b t ih =>
    rw [List.sum_cons] at h
    rw [List.map_cons, List.foldl_cons]
    have : rnd rd (Fl.add (.fin (a : Rat)) (.fin (b : Rat))) = .fin ((a + b : Nat) : Rat) := by
      show rd ((a : Rat) + b) = _
      rw [← Nat.cast_add]
      exact R.fix _ (has_nat (by omega))
    rw [this, ih (a + b) (by omega), List.sum_cons, Nat.add_assoc]

/-- **C92** for the mean of a half row: sums up to 2^24 are exact, only the quotient is rounded. -/
theorem C92_mean {rd : Rat → Fl} (R : Rounds rd) {l : List Nat} (h0 : l ≠ []) (hs : l.sum ≤ 2 ^ 24) (hl : l.length ≤ 2 ^ 24) :
    meanStat rd (l.map fun v : Nat => Fl.fin v) = .ok (rd ((l.sum : Rat) / l.length)) := by
  unfold meanStat
  have h1 := sum_exact R l 0 (by omega)
  rw [Nat.cast_zero, Nat.zero_add] at h1
  rw [h1, List.length_map, R.fix _ (has_nat hl)]
  have hp : 0 < l.length := List.length_pos_of_ne_nil h0
  have : (l.length : Rat) ≠ 0 := by exact_mod_cast hp.ne'
  simp [Fl.div, this, rnd]

theorem sum_le_of {l : List Nat} {b : Nat} (h : ∀ v ∈ l, v ≤ b) : l.sum ≤ l.length * b := by
  induction l with
  | nil => simp
  | cons a t ih =>
    have h1 := ih (fun v hv => h v (List.mem_cons_of_mem _ hv))
    have h2 := h a (List.mem_cons_self ..)
    rw [List.sum_cons, List.length_cons, Nat.add_mul]
    omega

/-- **C92** for the mean of 16 bit pixels: exact up to the quotient for half rows of up to 256 pixels. -/
theorem C92_mean_u16 {rd : Rat → Fl} (R : Rounds rd) {l : List Nat} (h0 : l ≠ []) (hv : ∀ v ∈ l, v < 65536) (hl : l.length ≤ 256) :
    meanStat rd (l.map fun v : Nat => Fl.fin v) = .ok (rd ((l.sum : Rat) / l.length)) := by
  have := sum_le_of (l := l) (b := 65535) (fun v h => by have := hv v h; omega)
  exact C92_mean R h0 (by omega) (by omega)

theorem f32_even : f32 (16777216 + 1) = .fin 16777216 := by
  have hex : Float32.expo (16777216 + 1) = 1 := by
    have a1 := Float32.lt_expo (16777216 + 1)
    rw [abs_of_pos (by norm_num)] at a1
    have b1 : (2 : Rat) ^ (0 : Int) < 2 ^ Float32.expo (16777216 + 1) := by
      rw [zpow_zero]
      linarith
    have c1 := Float32.of_zpow_lt b1
    have a2 := Float32.expo_le (q := 16777216 + 1) (by omega)
    rw [abs_of_pos (by norm_num)] at a2
    have b2 : (2 : Rat) ^ Float32.expo (16777216 + 1) < 2 ^ (2 : Int) := by
      have : (2 : Rat) ^ (2 : Int) = 4 := by norm_num
      rw [this]
      linarith
    have c2 := Float32.of_zpow_lt b2
    omega
  rw [Float32.f32_fin (by rw [abs_of_pos (by norm_num)]; norm_num), hex]
  have : Float32.roundEven ((16777216 + 1) / 2 ^ (1 : Int)) = 8388608 := by
    have e : ((16777216 + 1 : Rat) / 2 ^ (1 : Int)) = 16777217 / 2 := by norm_num
    have fl : ⌊(16777217 / 2 : Rat)⌋ = 8388608 := by
      rw [Int.floor_eq_iff]; norm_num
    rw [e]
    unfold Float32.roundEven
    rw [fl]
    norm_num
  rw [this]
  norm_num

theorem sum_stuck (k : Nat) : (List.replicate k (Fl.fin 1)).foldl (fun s v => rnd f32 (s.add v)) (.fin 16777216) = .fin 16777216 := by
  induction k with
  | zero => rfl
  | succ k ih =>
    rw [List.replicate_succ, List.foldl_cons]
    have : rnd f32 (Fl.add (.fin 16777216) (.fin 1)) = .fin 16777216 := f32_even
    rw [this]
    exact ih

/-- **C92** is false for the mean of longer half rows: once the sum has reached 2^24 a further pixel of value one adds nothing, however many
there are. With 512 pixels the mean is 32768 although each rounding of the true one is 127/256 above. -/
theorem C92_mean_false :
    (∀ k : Nat, meanStat f32 ((List.replicate 256 65535 ++ [256] ++ List.replicate k 1).map fun v : Nat => Fl.fin v) =
      .ok (rnd f32 ((Fl.fin 16777216).div (f32 (257 + k : Nat)))) ∧
      (List.replicate 256 65535 ++ [256] ++ List.replicate k 1).sum = 16777216 + k) ∧
    (∃ l : List Nat, (∀ v ∈ l, v < 65536) ∧ l.length = 512 ∧ meanStat f32 (l.map fun v : Nat => Fl.fin v) = .ok (.fin 32768) ∧
      ∀ rd, Rounds rd → ∃ r, rd ((l.sum : Rat) / l.length) = .fin r ∧ 32768 + 127 / 256 ≤ r) := by
  have s0 : (List.replicate 256 65535 ++ [256] : List Nat).sum = 16777216 := by
    rw [List.sum_append, List.sum_replicate]; rfl
  have key : ∀ k : Nat, meanStat f32 ((List.replicate 256 65535 ++ [256] ++ List.replicate k 1).map fun v : Nat => Fl.fin v) =
      .ok (rnd f32 ((Fl.fin 16777216).div (f32 (257 + k : Nat)))) ∧
      (List.replicate 256 65535 ++ [256] ++ List.replicate k 1).sum = 16777216 + k := by
    intro k
    constructor
    · unfold meanStat
      have h1 := sum_exact Float32.f32_rounds (List.replicate 256 65535 ++ [256]) 0 (by rw [s0]; decide)
      rw [Nat.cast_zero, Nat.zero_add, s0] at h1
      have h2 := sum_stuck k
      rw [List.map_append, List.foldl_append, h1, List.map_replicate]
      have h3 : ((16777216 : Nat) : Rat) = 16777216 := by norm_num
      rw [h3, Nat.cast_one, h2]
      simp only [List.length_append, List.length_map, List.length_replicate, List.length_singleton]
    · rw [List.sum_append, s0, List.sum_replicate]
      simp
  refine ⟨key, List.replicate 256 65535 ++ [256] ++ List.replicate 255 1, ?_, ?_, ?_, ?_⟩
  · intro v hv
    simp only [List.mem_append, List.mem_replicate, List.mem_singleton] at hv
    omega
  · simp only [List.length_append, List.length_replicate, List.length_singleton]
  · rw [(key 255).1]
    have h1 : f32 ((257 + 255 : Nat) : Rat) = .fin ((512 : Nat) : Rat) := Float32.f32_fix (has_nat (n := 512) (by decide))
    rw [h1]
    have h2 : Fl.div (.fin 16777216) (.fin ((512 : Nat) : Rat)) = .fin ((32768 : Nat) : Rat) := by
      simp only [Fl.div]
      rw [if_neg (by norm_num)]
      norm_num
    rw [h2]
    have h3 : f32 ((32768 : Nat) : Rat) = .fin ((32768 : Nat) : Rat) := Float32.f32_fix (has_nat (n := 32768) (by decide))
    show Outcome.ok (f32 _) = _
    rw [h3]
    norm_num
  · intro rd R
    rw [(key 255).2]
    simp only [List.length_append, List.length_replicate, List.length_singleton]
    have hs : float32.Has (32768 + 127 / 256) := ⟨8388735, -8, by decide, by decide, by decide, by norm_num⟩
    have ht : float32.Has ((32769 : Nat) : Rat) := has_nat (by decide)
    obtain ⟨r, r1, r2, _⟩ := rd_fin R (q := ((16777216 + 255 : Nat) : Rat) / ((256 + 1 + 255 : Nat) : Rat)) hs ht (by norm_num) (by norm_num)
    exact ⟨r, r1, r2⟩

/-! ### Exact steps -/

/-- **C92** with row dark correction and without gain: where the differences, the statistics, the factors and the products have exact
values in single precision, the events are those of exact arithmetic, in every rounding mode. -/
theorem C92_rowdark_u16_partial {rd : Rat → Fl} (R : Rounds rd) {bg xr optMean : Rat} {dark : Option (List Rat)} {w : Nat}
    {frame : List Nat} {statFunc : List Fl → Outcome Fl} {stat : List Rat → Rat} (ok : FrameOK w w frame bg)
    (hd : ∀ d, dark = some d → d.length = w * w ∧ ∀ j, j < w * w → float32.Has ((frame.getD j 0 : Nat) - d.getD j 0) ∧
      -1 < (frame.getD j 0 : Nat) - d.getD j 0 ∧ (frame.getD j 0 : Nat) - d.getD j 0 < 65536)
    (hstat : ∀ x y, x < w → y < w → statFunc ((halfRow w (pixels frame) x y).map Fl.fin) = .ok (rd (stat (halfRow w (pixels frame) x y))) ∧
      stat (halfRow w (pixels frame) x y) ≠ 0 ∧ float32.Has (stat (halfRow w (pixels frame) x y)) ∧
      float32.Has (optMean / stat (halfRow w (pixels frame) x y)))
    (hp : ∀ x y, x < w → y < w → ∀ c,
      c = darkU16 dark (y * w + x) (frame.getD (y * w + x) 0 : Nat) * (optMean / stat (halfRow w (pixels frame) x y)) →
        float32.Has c ∧ -1 < c ∧ c < 65536) :
    ∃ events, countStream rd (rowOptions bg xr dark none statFunc optMean) (w, w) (ofPixels frame) = .ok events ∧
      countClassic rd (rowOptions bg xr dark none statFunc optMean) (w, w) (ofPixels frame) = .ok events ∧
      IsEventList bg xr w w (fun j => rowDarkU16 optMean dark (stat (halfRow w (pixels frame) (j % w) (j / w))) j (frame.getD j 0 : Nat))
        events := by
  refine C92_rowdark_u16 (S := fun x y => stat (halfRow w (pixels frame) x y))
    (C := fun j => darkU16 dark j (frame.getD j 0 : Nat) * (optMean / stat (halfRow w (pixels frame) (j % w) (j / w)))) ok
    (two_le ok.two) (fun d h => (hd d h).1) ?_ ?_
  · intro x y hx hy
    obtain ⟨h1, h2, h3, _⟩ := hstat x y hx hy
    exact ⟨by rw [h1, R.fix _ h3], h2⟩
  · intro x y hx hy
    obtain ⟨_, _, _, h4⟩ := hstat x y hx hy
    obtain ⟨p1, p2, p3⟩ := hp x y hx hy _ rfl
    have hj : y * w + x < w * w := flat_lt hx hy
    simp only [flat_mod y hx, flat_div y hx]
    refine ⟨⟨darkU16 dark (y * w + x) (frame.getD (y * w + x) 0 : Nat), _, ?_, R.fix _ h4, R.fix _ p1⟩, p2, p3⟩
    cases hdk : dark with
    | none => rfl
    | some d =>
      obtain ⟨q1, q2, q3⟩ := (hd d hdk).2 _ hj
      exact ⟨_, R.fix _ q1, q2, q3, rfl⟩

/-- The dark value of a pixel. -/
def darkAt (dark : Option (List Rat)) (j : Nat) : Rat :=
  match dark with
  | none => 0
  | some d => d.getD j 0

/-- **C92** with row dark correction and gain, likewise. -/
theorem C92_rowdark_gain_partial {rd : Rat → Fl} (R : Rounds rd) {bg xr optMean : Rat} {dark : Option (List Rat)} {gain : List Rat}
    {w : Nat} {frame : List Nat} {statFunc : List Fl → Outcome Fl} {stat : List Rat → Rat} (ok : FrameOK w w frame bg)
    (hg : gain.length = w * w)
    (hd : ∀ d, dark = some d → d.length = w * w)
    (hstat : ∀ x y, x < w → y < w → statFunc ((halfRow w (pixels frame) x y).map Fl.fin) = .ok (rd (stat (halfRow w (pixels frame) x y))) ∧
      stat (halfRow w (pixels frame) x y) ≠ 0 ∧ float32.Has (stat (halfRow w (pixels frame) x y)) ∧
      float32.Has (optMean / stat (halfRow w (pixels frame) x y)))
    (hp : ∀ x y, x < w → y < w → ∀ u, u = ((frame.getD (y * w + x) 0 : Nat) : Rat) - darkAt dark (y * w + x) →
      float32.Has u ∧ float32.Has (u * (optMean / stat (halfRow w (pixels frame) x y))) ∧
      float32.Has (u * (optMean / stat (halfRow w (pixels frame) x y)) * gain.getD (y * w + x) 0)) :
    ∃ events, countStream rd (rowOptions bg xr dark (some gain) statFunc optMean) (w, w) (ofPixels frame) = .ok events ∧
      countClassic rd (rowOptions bg xr dark (some gain) statFunc optMean) (w, w) (ofPixels frame) = .ok events ∧
      IsEventList bg xr w w
        (fun j => rowDarkFloat optMean dark gain (stat (halfRow w (pixels frame) (j % w) (j / w))) j (frame.getD j 0 : Nat)) events := by
  refine C92_rowdark_gain (S := fun x y => stat (halfRow w (pixels frame) x y)) ok (two_le ok.two) hg hd ?_ ?_
  · intro x y hx hy
    obtain ⟨h1, h2, h3, _⟩ := hstat x y hx hy
    exact ⟨by rw [h1, R.fix _ h3], h2⟩
  · intro x y hx hy
    obtain ⟨_, _, _, h4⟩ := hstat x y hx hy
    obtain ⟨p1, p2, p3⟩ := hp x y hx hy _ rfl
    simp only [flat_mod y hx, flat_div y hx]
    have e : rowDarkFloat optMean dark gain (stat (halfRow w (pixels frame) x y)) (y * w + x) (frame.getD (y * w + x) 0 : Nat) =
        (((frame.getD (y * w + x) 0 : Nat) : Rat) - darkAt dark (y * w + x)) * (optMean / stat (halfRow w (pixels frame) x y)) *
          gain.getD (y * w + x) 0 := by
      cases dark <;> rfl
    rw [e]
    refine ⟨_, _, _, ?_, R.fix _ h4, R.fix _ p2, R.fix _ p3⟩
    cases hdk : dark with
    | none => simp [darkAt]
    | some d =>
      rw [hdk] at p1
      exact R.fix _ p1

/-! ### Inexact steps -/

theorem f32_41 : f32 (1 / 41) = .fin (3273603 / 134217728) := by
  have e : (2 : Rat) ^ (-29 : Int) = 1 / 536870912 := by norm_num
  rw [Float32.f32_at (e := -29) (m := 13094412) (by decide) (by decide) (by rw [e, abs_of_pos] <;> norm_num)
    (by rw [e, abs_of_pos] <;> norm_num) (by rw [e, abs_lt]; norm_num), e]
  norm_num

theorem f32_82 : f32 (82 * (3273603 / 134217728)) = .fin (16777215 / 8388608) := by
  have e : (2 : Rat) ^ (-23 : Int) = 1 / 8388608 := by norm_num
  rw [Float32.f32_at (e := -23) (m := 16777215) (by decide) (by decide) (by rw [e, abs_of_pos] <;> norm_num)
    (by rw [e, abs_of_pos] <;> norm_num) (by rw [e, abs_lt]; norm_num), e]
  norm_num

/-- **C92** is false with row dark correction: the half row 82, 0 has the mean 41, so the pixel 82 becomes 82/41 = 2 and is an electron above
the threshold 1; the factor 1/41 is rounded, the product is below 2 and truncated to 1, so the code finds no electron. -/
theorem C92_rowdark_false :
    countStream f32 (rowOptions 1 100 none none (meanStat f32) 1) (4, 4)
      (ofPixels [82, 0, 1, 1, 1, 1, 1, 1, 1, 1, 1, 1, 1, 1, 1, 1]) = .ok [] ∧
    IsEventList 1 100 4 4 (fun j => rowDarkU16 1 none
      (meanOf (halfRow 4 (pixels [82, 0, 1, 1, 1, 1, 1, 1, 1, 1, 1, 1, 1, 1, 1, 1]) (j % 4) (j / 4))) j
      (([82, 0, 1, 1, 1, 1, 1, 1, 1, 1, 1, 1, 1, 1, 1, 1] : List Nat).getD j 0 : Nat)) [0] := by
  have hF : ∀ j, j < 16 → ([82, 0, 1, 1, 1, 1, 1, 1, 1, 1, 1, 1, 1, 1, 1, 1] : List Nat).getD j 0 =
      if j = 0 then 82 else if j = 1 then 0 else 1 := by decide
  have ok : FrameOK 4 4 [82, 0, 1, 1, 1, 1, 1, 1, 1, 1, 1, 1, 1, 1, 1, 1] 1 :=
    ⟨by decide, by decide, by decide, by decide, rfl, by norm_num⟩
  have hH : ∀ x y, x < 4 → y < 4 → halfRow 4 (pixels [82, 0, 1, 1, 1, 1, 1, 1, 1, 1, 1, 1, 1, 1, 1, 1]) x y =
      ((if y = 0 ∧ x < 2 then [82, 0] else [1, 1] : List Nat).map fun v : Nat => (v : Rat)) := by
    intro x y hx hy
    interval_cases x <;> interval_cases y <;> rfl
  have hfl : ∀ x y, x < 4 → y < 4 → (y * 4 + x = 0 ↔ y = 0 ∧ x = 0) ∧ (y * 4 + x = 1 ↔ y = 0 ∧ x = 1) := by
    intro x y _ _; omega
  generalize [82, 0, 1, 1, 1, 1, 1, 1, 1, 1, 1, 1, 1, 1, 1, 1] = frame at *
  have one : f32 (1 / 1) = .fin 1 := by
    have := Float32.f32_fix (has_int (z := 1) (by norm_num))
    simpa using this
  have zero : f32 0 = .fin 0 := by
    have := Float32.f32_fix (has_int (z := 0) (by norm_num))
    simpa using this
  obtain ⟨ev, e1, _, e2⟩ := C92_rowdark_u16 (rd := f32) (xr := 100) (optMean := 1) (dark := none) (statFunc := meanStat f32)
    (S := fun x y => if y = 0 ∧ x < 2 then 41 else 1)
    (C := fun j => if j = 0 then 16777215 / 8388608 else if j = 1 then 0 else 1) ok (by decide) (by intro d h; cases h) (by
      intro x y hx hy
      rw [hH x y hx hy]
      have e := C92_mean_u16 Float32.f32_rounds (l := if y = 0 ∧ x < 2 then [82, 0] else [1, 1]) (by split <;> simp)
        (by split <;> decide) (by split <;> decide)
      rw [List.map_map]
      refine ⟨e.trans ?_, by split <;> norm_num⟩
      congr 1
      split
      · have := Float32.f32_fix (has_int (z := 41) (by norm_num))
        norm_num at this ⊢
        exact this
      · have := Float32.f32_fix (has_int (z := 1) (by norm_num))
        norm_num at this ⊢
        exact this) (by
      intro x y hx hy
      have hj := hF (y * 4 + x) (by omega)
      obtain ⟨c0, c1⟩ := hfl x y hx hy
      by_cases h0 : y * 4 + x = 0
      · obtain ⟨rfl, rfl⟩ := c0.1 h0
        refine ⟨⟨82, 3273603 / 134217728, ?_, ?_, ?_⟩, by norm_num, by norm_num⟩
        · show _ = _
          rw [hj]; norm_num
        · exact f32_41
        · exact f32_82
      · by_cases h1 : y * 4 + x = 1
        · obtain ⟨rfl, rfl⟩ := c1.1 h1
          refine ⟨⟨0, 3273603 / 134217728, ?_, ?_, ?_⟩, by norm_num, by norm_num⟩
          · show _ = _
            rw [hj]; norm_num
          · exact f32_41
          · rw [zero_mul]; exact zero
        · rw [if_neg h0, if_neg h1] at hj
          have hc : ¬ (y = 0 ∧ x < 2) := by omega
          simp only [if_neg h0, if_neg h1, if_neg hc]
          refine ⟨⟨1, 1, ?_, one, ?_⟩, by norm_num, by norm_num⟩
          · show _ = _
            rw [hj]; norm_num
          · simpa using one)
  have tr : ∀ j, (truncZero (if j = 0 then 16777215 / 8388608 else if j = 1 then 0 else 1 : Rat) : Rat) ≤ 1 := by
    intro j
    split
    · unfold truncZero
      rw [if_neg (by norm_num)]
      have : ⌊(16777215 / 8388608 : Rat)⌋ = 1 := by rw [Int.floor_eq_iff]; norm_num
      rw [this]
      norm_num
    · split
      · have := truncZero_int 0
        norm_num at this
        rw [this]
        norm_num
      · have := truncZero_int 1
        norm_num at this
        rw [this]
        norm_num
  constructor
  · rw [e1]
    congr 1
    rcases ev with _ | ⟨a, t⟩
    · rfl
    · exfalso
      have ha := e2.onDetector a (by simp)
      obtain ⟨x, y, hx, hy, rfl⟩ : ∃ x y, x < 4 ∧ y < 4 ∧ a = y * 4 + x := ⟨a % 4, a / 4, by omega, by omega, by omega⟩
      have := ((e2.mem x y hx hy).1 (by simp)).1.1
      have := tr (y * 4 + x)
      linarith
  · have val : ∀ x y, x < 4 → y < 4 → rowDarkU16 1 none (meanOf (halfRow 4 (pixels frame) ((y * 4 + x) % 4) ((y * 4 + x) / 4)))
        (y * 4 + x) (frame.getD (y * 4 + x) 0 : Nat) = if y * 4 + x = 0 then 2 else if y * 4 + x = 1 then 0 else 1 := by
      intro x y hx hy
      rw [flat_mod y hx, flat_div y hx, hH x y hx hy, hF _ (by omega)]
      obtain ⟨c0, c1⟩ := hfl x y hx hy
      unfold rowDarkU16 darkU16 meanOf
      by_cases h0 : y * 4 + x = 0
      · obtain ⟨rfl, rfl⟩ := c0.1 h0
        have := truncZero_int 2
        norm_num at this ⊢
        rw [this]
        norm_num
      · by_cases h1 : y * 4 + x = 1
        · obtain ⟨rfl, rfl⟩ := c1.1 h1
          have := truncZero_int 0
          norm_num at this ⊢
          exact this
        · have hc : ¬ (y = 0 ∧ x < 2) := by omega
          rw [if_neg h0, if_neg h1, if_neg h0, if_neg h1, if_neg hc]
          have := truncZero_int 1
          norm_num at this ⊢
          exact this
    refine ⟨by simp, by simp, ?_⟩
    intro x y hx hy
    rw [val x y hx hy]
    obtain ⟨c0, c1⟩ := hfl x y hx hy
    constructor
    · intro h
      have h0 : y * 4 + x = 0 := by simpa using h
      rw [if_pos h0]
      refine ⟨by norm_num, ?_⟩
      intro x' y' a1 a2 a3
      rw [val x' y' a1 a2]
      unfold eligible
      by_cases h0' : y' * 4 + x' = 0
      · exfalso
        unfold Neighbour at a3
        omega
      · rw [if_neg h0']
        split <;> split <;> norm_num
    · rintro ⟨⟨h, _⟩, _⟩
      by_cases h0 : y * 4 + x = 0
      · rw [h0]; simp
      · rw [if_neg h0] at h
        split at h <;> norm_num at h

/-! ### Examples: the hypotheses are met -/

/-- A uniform gain which makes the products inexact, in every rounding mode. -/
example (rd : Rat → Fl) (R : Rounds rd) :
    ∃ events, countStream rd (gainOptions 10 1000 (some [1, 2, 3, 0]) (List.replicate 4 (8388617 / 8388608))) (2, 2)
        (ofPixels [7, 100, 40, 65535]) = .ok events ∧
      IsEventList 10 1000 2 2 (floatValue (some [1, 2, 3, 0]) (List.replicate 4 (8388617 / 8388608)) [7, 100, 40, 65535]) events := by
  have h10 : ∀ n : Nat, n ≤ 2 ^ 24 → float32.Has n := fun n h => has_nat h
  refine C92_uniform_partial (g := 8388617 / 8388608) R ⟨by decide, by decide, by decide, by decide, rfl, by norm_num⟩ (by decide) rfl ?_ ?_ ?_ ?_
    (by norm_num)
  · intro x hx
    exact (List.mem_replicate.1 hx).2
  · rw [abs_of_pos (by norm_num)]
    refine le_trans (zpow_le_one_of_nonpos₀ (by norm_num) (by norm_num)) (by norm_num)
  · intro d h
    cases h
    refine ⟨rfl, ?_⟩
    intro x hx
    simp only [List.mem_cons, List.not_mem_nil, or_false] at hx
    rcases hx with rfl | rfl | rfl | rfl
    · exact ⟨1, by decide, by norm_num⟩
    · exact ⟨2, by decide, by norm_num⟩
    · exact ⟨3, by decide, by norm_num⟩
    · exact ⟨0, by decide, by norm_num⟩
  · intro j hj
    have : j = 0 ∨ j = 1 ∨ j = 2 ∨ j = 3 := by omega
    rcases this with rfl | rfl | rfl | rfl
    · have e : floatValue (some [1, 2, 3, 0]) (List.replicate 4 (8388617 / 8388608)) [7, 100, 40, 65535] 0 =
          ((7 : Nat) - 1) * (8388617 / 8388608) := rfl
      rw [e]
      refine clear_of R (h10 7 (by decide)) (h10 7 (by decide)) (.inl ⟨?_, ?_⟩) (.inl ⟨?_, ?_⟩) <;> norm_num
    · have e : floatValue (some [1, 2, 3, 0]) (List.replicate 4 (8388617 / 8388608)) [7, 100, 40, 65535] 1 =
          ((100 : Nat) - 2) * (8388617 / 8388608) := rfl
      rw [e]
      refine clear_of R (h10 98 (by decide)) (h10 99 (by decide)) (.inr ⟨?_, ?_⟩) (.inl ⟨?_, ?_⟩) <;> norm_num
    · have e : floatValue (some [1, 2, 3, 0]) (List.replicate 4 (8388617 / 8388608)) [7, 100, 40, 65535] 2 =
          ((40 : Nat) - 3) * (8388617 / 8388608) := rfl
      rw [e]
      refine clear_of R (h10 37 (by decide)) (h10 38 (by decide)) (.inr ⟨?_, ?_⟩) (.inl ⟨?_, ?_⟩) <;> norm_num
    · have e : floatValue (some [1, 2, 3, 0]) (List.replicate 4 (8388617 / 8388608)) [7, 100, 40, 65535] 3 =
          ((65535 : Nat) - 0) * (8388617 / 8388608) := rfl
      rw [e]
      refine clear_of R (h10 65535 (by decide)) (h10 65535 (by decide)) (.inr ⟨?_, ?_⟩) (.inr ⟨?_, ?_⟩) <;> norm_num

/-- A dark reference with fractions and a gain, all results exact. -/
example (rd : Rat → Fl) (R : Rounds rd) :
    ∃ events, countStream rd (gainOptions 2 100 (some [1 / 2, 1 / 4]) [2, 1 / 2]) (2, 1) (ofPixels [3, 5]) = .ok events ∧
      IsEventList 2 100 2 1 (floatValue (some [1 / 2, 1 / 4]) [2, 1 / 2] [3, 5]) events := by
  refine C92_exact_partial R ⟨by decide, by decide, by decide, by decide, rfl, by norm_num⟩ rfl (by intro d h; cases h; rfl) ?_ ?_
  · intro j hj d h
    cases h
    have : j = 0 ∨ j = 1 := by omega
    rcases this with rfl | rfl
    · exact ⟨5, -1, by decide, by decide, by decide, by norm_num⟩
    · exact ⟨19, -2, by decide, by decide, by decide, by norm_num⟩
  · intro j hj
    have : j = 0 ∨ j = 1 := by omega
    rcases this with rfl | rfl
    · exact ⟨5, 0, by decide, by decide, by decide, by norm_num [floatValue]⟩
    · exact ⟨19, -3, by decide, by decide, by decide, by norm_num [floatValue]⟩

/-- The same dark reference without gain in the block-wise path. -/
example (rd : Rat → Fl) (R : Rounds rd) :
    ∃ events, countClassic rd (plainOptions 2 100 (some [1 / 2, 1 / 4])) (2, 1) (ofPixels [3, 5]) = .ok events ∧
      IsEventList 2 100 2 1 (u16ClassicValue [1 / 2, 1 / 4] [3, 5]) events := by
  refine C92_classic_u16_partial R ⟨by decide, by decide, by decide, by decide, rfl, by norm_num⟩ rfl ?_ ?_
  · intro j hj
    have : j = 0 ∨ j = 1 := by omega
    rcases this with rfl | rfl <;> norm_num
  · intro j hj d h
    cases h
    have : j = 0 ∨ j = 1 := by omega
    rcases this with rfl | rfl
    · exact ⟨5, -1, by decide, by decide, by decide, by norm_num⟩
    · exact ⟨19, -2, by decide, by decide, by decide, by norm_num⟩

/-- The two paths agree without gain for the dark reference 3, 2^-30, but not for 3, 1/2. -/
example :
    (∀ (frame : List Nat) (bg xr : Rat), frame.length = 2 * 1 → (∀ v ∈ frame, v < 65536) → 0 ≤ bg →
      (∀ i, i < 2 * 1 → ([3, 1 / 1073741824] : List Rat).getD i 0 < frame.getD i 0 + 1) →
      countClassic f32 (plainOptions bg xr (some [3, 1 / 1073741824])) (2, 1) (ofPixels frame) =
        countStream f32 (plainOptions bg xr (some [3, 1 / 1073741824])) (2, 1) (ofPixels frame)) := by
  refine (C92_paths_iff (by decide) (by decide) (by decide) (by decide) rfl ?_).2 ?_
  · intro d h
    simp only [List.mem_cons, List.not_mem_nil, or_false] at h
    rcases h with rfl | rfl
    · exact ⟨by simpa using has_nat (n := 3) (by decide), by norm_num, by norm_num⟩
    · exact ⟨⟨1, -30, by decide, by decide, by decide, by norm_num⟩, by norm_num, by norm_num⟩
  · intro d h
    simp only [List.mem_cons, List.not_mem_nil, or_false] at h
    rcases h with rfl | rfl
    · exact .inl ⟨3, by norm_num⟩
    · right; norm_num

/-- A frame with row dark correction: the means of the half rows are 8 and 2, the factors 1/2 and 2. -/
example : ∃ events, countStream f32 (rowOptions 3 100 none none (meanStat f32) 4) (4, 4)
      (ofPixels [16, 0, 2, 2, 8, 8, 2, 2, 8, 8, 4, 0, 8, 8, 2, 2]) = .ok events ∧
    countClassic f32 (rowOptions 3 100 none none (meanStat f32) 4) (4, 4)
      (ofPixels [16, 0, 2, 2, 8, 8, 2, 2, 8, 8, 4, 0, 8, 8, 2, 2]) = .ok events ∧
    IsEventList 3 100 4 4 (fun j => rowDarkU16 4 none
      (meanOf (halfRow 4 (pixels [16, 0, 2, 2, 8, 8, 2, 2, 8, 8, 4, 0, 8, 8, 2, 2]) (j % 4) (j / 4))) j
      (([16, 0, 2, 2, 8, 8, 2, 2, 8, 8, 4, 0, 8, 8, 2, 2] : List Nat).getD j 0 : Nat)) events := by
  have hv : ∀ j, j < 16 → ([16, 0, 2, 2, 8, 8, 2, 2, 8, 8, 4, 0, 8, 8, 2, 2] : List Nat).getD j 0 ≤ 16 := by decide
  have hH : ∀ x y, x < 4 → y < 4 → ∃ l : List Nat, l ≠ [] ∧ l.length = 2 ∧ (∀ v ∈ l, v < 65536) ∧ (l.sum = if x < 2 then 16 else 4) ∧
      halfRow 4 (pixels [16, 0, 2, 2, 8, 8, 2, 2, 8, 8, 4, 0, 8, 8, 2, 2]) x y = l.map fun v : Nat => (v : Rat) := by
    intro x y hx hy
    refine ⟨[([16, 0, 2, 2, 8, 8, 2, 2, 8, 8, 4, 0, 8, 8, 2, 2] : List Nat).getD (y * 4 + halfStart 4 x) 0,
      ([16, 0, 2, 2, 8, 8, 2, 2, 8, 8, 4, 0, 8, 8, 2, 2] : List Nat).getD (y * 4 + halfStart 4 x + 1) 0], by simp, rfl, ?_, ?_, ?_⟩
    · interval_cases x <;> interval_cases y <;> decide
    · interval_cases x <;> interval_cases y <;> rfl
    · interval_cases x <;> interval_cases y <;> rfl
  have hm : ∀ x y, x < 4 → y < 4 →
      meanOf (halfRow 4 (pixels [16, 0, 2, 2, 8, 8, 2, 2, 8, 8, 4, 0, 8, 8, 2, 2]) x y) = if x < 2 then 8 else 2 := by
    intro x y hx hy
    obtain ⟨l, _, l2, _, l4, l5⟩ := hH x y hx hy
    have hs : ∀ l : List Nat, (l.map fun v : Nat => (v : Rat)).sum = (l.sum : Nat) := by
      intro l
      induction l with
      | nil => simp
      | cons a t ih => simp [ih]
    rw [l5]
    unfold meanOf
    rw [hs, List.length_map, l2, l4]
    split <;> norm_num
  have hint : ∀ z : Int, |z| < 2 ^ 24 → float32.Has z := fun z h => has_int h
  refine C92_rowdark_u16_partial (stat := meanOf) Float32.f32_rounds ⟨by decide, by decide, by decide, by decide, rfl, by norm_num⟩
    (by intro d h; cases h) ?_ ?_
  · intro x y hx hy
    refine ⟨?_, ?_⟩
    · obtain ⟨l, l1, l2, l3, l4, l5⟩ := hH x y hx hy
      rw [l5, List.map_map]
      have hs : ∀ l : List Nat, (l.map fun v : Nat => (v : Rat)).sum = (l.sum : Nat) := by
        intro l
        induction l with
        | nil => simp
        | cons a t ih => simp [ih]
      have := C92_mean_u16 Float32.f32_rounds l1 l3 (by omega)
      unfold meanOf
      rw [hs, List.length_map]
      exact this
    · rw [hm x y hx hy]
      split
      · refine ⟨by norm_num, by simpa using hint 8 (by norm_num), ⟨1, -1, by decide, by decide, by decide, by norm_num⟩⟩
      · refine ⟨by norm_num, by simpa using hint 2 (by norm_num), ?_⟩
        have := hint 2 (by norm_num)
        norm_num at this ⊢
        exact this
  · intro x y hx hy c hc
    rw [hm x y hx hy] at hc
    have h16 := hv (y * 4 + x) (by omega)
    unfold darkU16 at hc
    simp only at hc
    generalize ([16, 0, 2, 2, 8, 8, 2, 2, 8, 8, 4, 0, 8, 8, 2, 2] : List Nat).getD (y * 4 + x) 0 = v at *
    have hvr : (v : Rat) ≤ 16 := by exact_mod_cast h16
    have hv0 : (0 : Rat) ≤ v := Nat.cast_nonneg v
    split at hc
    · refine ⟨⟨v, -1, ?_, by decide, by decide, by rw [hc]; norm_num⟩, by rw [hc]; linarith, by rw [hc]; linarith⟩
      show |(v : Int)| < 2 ^ 24
      rw [abs_of_nonneg (by omega)]
      omega
    · refine ⟨?_, by rw [hc]; linarith, by rw [hc]; linarith⟩
      have := has_nat (n := v * 2) (by omega)
      rw [hc]
      push_cast at this
      norm_num
      exact this

end Stempy.RoundedCounting
