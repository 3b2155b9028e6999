import Verif.Model.FloatPixels
import Verif.Model.EndToEnd
import Verif.Props.RowDark
import Verif.Props.EndToEnd

/-!
C86: pixels without a value.
-/

namespace Stempy.FloatPixels
open Stempy.Spec Stempy.Props
open Stempy.Electron (maximalPoints)

/-! ### Specification -/

/-- The value of a pixel after dark reference and gain. -/
def plainValue (dark : Option (List Fl)) (gain : List Fl) (frame : List Nat) (j : Nat) : Fl :=
  (match dark with
    | none => Fl.fin (frame.getD j 0 : Nat)
    | some d => (Fl.fin (frame.getD j 0 : Nat)).sub (d.getD j .nan)).mul (gain.getD j .nan)

/-- The value of a pixel after dark reference, row dark correction and gain; `stat` is the statistic of its half row. -/
def rowValue (optMean : Fl) (dark : Option (List Fl)) (gain : List Fl) (stat : Fl) (frame : List Nat) (j : Nat) : Fl :=
  ((match dark with
    | none => Fl.fin (frame.getD j 0 : Nat)
    | some d => (Fl.fin (frame.getD j 0 : Nat)).sub (d.getD j .nan)).mul (optMean.div stat)).mul (gain.getD j .nan)

/-- The value is between the thresholds. -/
def Between (bg xr : Rat) (v : Fl) : Prop := ∃ q, v = .fin q ∧ bg < q ∧ q < xr

/-- What is claimed of a pixel: it is an event iff its value is between the thresholds and greater than the values of those neighbours
which are between the thresholds. -/
def IsPeak (bg xr : Rat) (w h : Nat) (c : Nat → Fl) (x y : Nat) : Prop :=
  ∃ q, c (y * w + x) = .fin q ∧ bg < q ∧ q < xr ∧ ∀ x' y', x' < w → y' < h → Neighbour x y x' y' →
    ∀ q', c (y' * w + x') = .fin q' → bg < q' → q' < xr → q' < q

/-- A neighbour of the pixel is NaN. -/
def NextToNan (w h : Nat) (c : Nat → Fl) (x y : Nat) : Prop :=
  ∃ x' y', x' < w ∧ y' < h ∧ Neighbour x y x' y' ∧ c (y' * w + x') = .nan

/-! ### Thresholds -/

theorem threshold_cases (bg xr : Rat) (v : Fl) :
    (v = .nan ∧ threshold (.fin bg) (.fin xr) v = .nan) ∨
    (∃ q, v = .fin q ∧ bg < q ∧ q < xr ∧ threshold (.fin bg) (.fin xr) v = .fin q) ∨
    (v ≠ .nan ∧ (∀ q, v = .fin q → ¬ (bg < q ∧ q < xr)) ∧ threshold (.fin bg) (.fin xr) v = .fin 0) := by
  cases v with
  | nan => left; exact ⟨rfl, rfl⟩
  | pinf => right; right; exact ⟨nofun, nofun, rfl⟩
  | ninf => right; right; exact ⟨nofun, nofun, rfl⟩
  | fin q =>
    right
    by_cases h1 : bg < q
    · by_cases h2 : q < xr
      · left
        refine ⟨q, rfl, h1, h2, ?_⟩
        simp [threshold, Fl.ge, Fl.gt, h1, h2]
      · right
        refine ⟨nofun, ?_, ?_⟩
        · rintro _ ⟨⟩ ⟨_, h⟩
          exact h2 h
        · simp [threshold, Fl.ge, Fl.gt, h2]
    · right
      refine ⟨nofun, ?_, ?_⟩
      · rintro _ ⟨⟩ ⟨h, _⟩
        exact h1 h
      · simp [threshold, Fl.ge, Fl.gt, h1]

/-- The events of a frame of thresholded values. -/
theorem events_of {bg xr : Rat} (hbg : 0 ≤ bg) {w h : Nat} (hw : w < 65536) (hh : h < 65536) (hs : w * h < 2 ^ 32)
    (h2 : 1 < w * h) (c : Nat → Fl) {out : List Fl} (hl : out.length = w * h)
    (ho : ∀ j, j < w * h → out[j]? = some (threshold (.fin bg) (.fin xr) (c j))) :
    ∃ events, maximalPoints Fl.gt out (w, h) = .ok events ∧ events.Pairwise (· < ·) ∧ (∀ e ∈ events, e < w * h) ∧
      ∀ x y, x < w → y < h → (y * w + x ∈ events ↔ IsPeak bg xr w h c x y ∧ ¬ NextToNan w h c x y) := by
  obtain ⟨ev, e1, e2, e3, e4⟩ := C10_maxima Fl.gt out hw hh hs hl
  refine ⟨ev, e1, e2, e3, ?_⟩
  intro x y hx hy
  rw [e4 x y hx hy]
  unfold StrictLocalMax
  rw [ho _ (flat_lt hx hy)]
  constructor
  · rintro ⟨v, hv, H⟩
    cases hv
    have H' : ∀ x' y', x' < w → y' < h → Neighbour x y x' y' →
        (threshold (.fin bg) (.fin xr) (c (y * w + x))).gt (threshold (.fin bg) (.fin xr) (c (y' * w + x'))) = true :=
      fun x' y' a1 a2 a3 => H x' y' _ a1 a2 a3 (ho _ (flat_lt a1 a2))
    have hnan : ¬ NextToNan w h c x y := by
      rintro ⟨x', y', a1, a2, a3, a4⟩
      have := H' x' y' a1 a2 a3
      rw [a4] at this
      cases hc : threshold (.fin bg) (.fin xr) (c (y * w + x)) <;> rw [hc] at this <;>
        simp [threshold, Fl.ge, Fl.gt] at this
    refine ⟨?_, hnan⟩
    rcases threshold_cases bg xr (c (y * w + x)) with ⟨_, g2⟩ | ⟨q, g1, g2, g3, g4⟩ | ⟨_, _, g3⟩
    · obtain ⟨x', y', a1, a2, a3⟩ := exists_neighbour hx hy h2
      have := H' x' y' a1 a2 a3
      rw [g2] at this
      simp [Fl.gt] at this
    · refine ⟨q, g1, g2, g3, ?_⟩
      intro x' y' a1 a2 a3 q' b1 b2 b3
      have := H' x' y' a1 a2 a3
      rw [g4, b1] at this
      simpa [threshold, Fl.ge, Fl.gt, b2, b3] using this
    · obtain ⟨x', y', a1, a2, a3⟩ := exists_neighbour hx hy h2
      have := H' x' y' a1 a2 a3
      rw [g3] at this
      rcases threshold_cases bg xr (c (y' * w + x')) with ⟨_, k2⟩ | ⟨q', k1, k2, k3, k4⟩ | ⟨_, _, k3⟩
      · rw [k2] at this; simp [Fl.gt] at this
      · rw [k4] at this
        have this : q' < 0 := by simpa [Fl.gt] using this
        exact absurd (lt_trans (lt_of_le_of_lt hbg k2) this) (lt_irrefl _)
      · rw [k3] at this; simp [Fl.gt] at this
  · rintro ⟨⟨q, g1, g2, g3, g4⟩, hn⟩
    refine ⟨_, rfl, ?_⟩
    intro x' y' v' a1 a2 a3 hv
    rw [ho _ (flat_lt a1 a2)] at hv
    cases hv
    have e : threshold (.fin bg) (.fin xr) (c (y * w + x)) = .fin q := by
      rw [g1]; simp [threshold, Fl.ge, Fl.gt, g2, g3]
    rw [e]
    rcases threshold_cases bg xr (c (y' * w + x')) with ⟨k1, _⟩ | ⟨q', k1, k2, k3, k4⟩ | ⟨_, _, k3⟩
    · exact absurd ⟨x', y', a1, a2, a3, k1⟩ hn
    · rw [k4]
      simpa [Fl.gt] using g4 x' y' a1 a2 a3 q' k1 k2 k3
    · rw [k3]
      simpa [Fl.gt] using lt_of_le_of_lt hbg g2

/-! ### The loops -/

theorem forRange_ok {f : Nat → Fl → Outcome Fl} {start len : Nat} {frame : List Fl} (P : Nat → Fl → Fl)
    (hb : start + len ≤ frame.length)
    (hP : ∀ j (hj : j < frame.length), start ≤ j → j < start + len → f j frame[j] = .ok (P j frame[j])) :
    ∃ out, forRange start len f frame = .ok out ∧
      out.length = frame.length ∧ ∀ j, out[j]? =
        if start ≤ j ∧ j < start + len then (frame[j]?).map (P j) else frame[j]? := by
  unfold forRange
  obtain ⟨out, h1, h2, h3⟩ := foldlM_range_inv len (fun fr k => do
      let v ← readAt fr (start + k)
      let v' ← f (start + k) v
      writeAt fr (start + k) v')
    (fun k fr => fr.length = frame.length ∧ ∀ j, fr[j]? =
      if start ≤ j ∧ j < start + k then (frame[j]?).map (P j) else frame[j]?)
    frame ⟨rfl, by intro j; rw [if_neg (by omega)]⟩
    (by
      rintro k hk fr ⟨e1, e2⟩
      have hlt : start + k < frame.length := by omega
      have r1 : readAt fr (start + k) = .ok frame[start + k] := by
        rw [readAt_eq_ok, e2, if_neg (by omega)]
        exact List.getElem?_eq_getElem hlt
      simp only [r1, Outcome.ok_bind, hP (start + k) hlt (by omega) (by omega)]
      rw [writeAt_lt (by omega)]
      refine ⟨_, rfl, by simpa using e1, ?_⟩
      intro j
      by_cases hjk : j = start + k
      · subst hjk
        rw [List.getElem?_set_self (by omega), if_pos (by omega), List.getElem?_eq_getElem hlt]
        rfl
      · rw [List.getElem?_set_ne (fun h => hjk h.symm), e2 j]
        have : (start ≤ j ∧ j < start + k) ↔ (start ≤ j ∧ j < start + (k + 1)) := by omega
        simp only [this])
  exact ⟨out, h1, h2, h3⟩

theorem rowPixel_ok {o : Options} {s : Fl} {n j : Nat} (hj : j < n) (hg : o.gain.length = n)
    (hd : ∀ d, o.dark = some d → d.length = n) (frame : List Nat) :
    rowPixel o s j (.fin (frame.getD j 0 : Nat)) = .ok (threshold o.bg o.xr (rowValue o.optMean o.dark o.gain s frame j)) := by
  have h1 : readAt o.gain j = .ok (o.gain.getD j .nan) := by
    have : j < o.gain.length := by omega
    simp [readAt_lt this, this]
  unfold rowPixel rowValue subDark
  cases hdk : o.dark with
  | none => simp [h1]
  | some d =>
    have h2 : readAt d j = .ok (d.getD j .nan) := by
      have : j < d.length := by rw [hd d hdk]; exact hj
      simp [readAt_lt this, this]
    simp only [h1, h2, Outcome.ok_bind, Outcome.pure_eq]
    rfl

theorem plainPixel_ok {o : Options} {n j : Nat} (hj : j < n) (hg : o.gain.length = n)
    (hd : ∀ d, o.dark = some d → d.length = n) (frame : List Nat) :
    plainPixel o j (.fin (frame.getD j 0 : Nat)) = .ok (threshold o.bg o.xr (plainValue o.dark o.gain frame j)) := by
  have h1 : readAt o.gain j = .ok (o.gain.getD j .nan) := by
    have : j < o.gain.length := by omega
    simp [readAt_lt this, this]
  unfold plainPixel plainValue subDark
  cases hdk : o.dark with
  | none => simp [h1]
  | some d =>
    have h2 : readAt d j = .ok (d.getD j .nan) := by
      have : j < d.length := by rw [hd d hdk]; exact hj
      simp [readAt_lt this, this]
    simp only [h1, h2, Outcome.ok_bind, Outcome.pure_eq]
    rfl

theorem ofPixels_get {frame : List Nat} {j : Nat} (hj : j < frame.length) :
    (ofPixels frame)[j]? = some (.fin (frame.getD j 0 : Nat)) := by
  simp [ofPixels, hj]

theorem ofPixels_length (frame : List Nat) : (ofPixels frame).length = frame.length := by simp [ofPixels]

/-- The half row of a pixel, as values. -/
theorem halfRow_slice {frame : List Nat} {fr : List Fl} {w start len : Nat} (hlen : start + len ≤ fr.length)
    (hlf : fr.length = frame.length)
    (ho : ∀ j, start ≤ j → j < start + len → fr[j]? = (ofPixels frame)[j]?) {x y : Nat} (h1 : y * w + halfStart w x = start)
    (h2 : halfLen w x = len) :
    (fr.drop start).take len = (halfRow w (pixels frame) x y).map Fl.fin := by
  apply List.ext_getElem?
  intro k
  by_cases hk : k < len
  · rw [List.getElem?_take_of_lt hk, List.getElem?_drop, ho _ (by omega) (by omega), ofPixels_get (by omega)]
    unfold halfRow
    rw [h1, h2, List.map_map, List.getElem?_map, List.getElem?_range hk]
    have : start + k < frame.length := by omega
    simp [pixels, this]
  · rw [List.getElem?_eq_none (by rw [List.length_take]; omega)]
    refine (List.getElem?_eq_none ?_).symm
    simp [halfRow, h2]
    omega

theorem rowRange_ok {o : Options} {statFunc : List Fl → Outcome Fl} {s : Fl} {start len : Nat} {fr : List Fl} {frame : List Nat}
    (hb : start + len ≤ fr.length) (hlf : fr.length = frame.length) (hg : o.gain.length = frame.length)
    (hd : ∀ d, o.dark = some d → d.length = frame.length)
    (hs : statFunc ((fr.drop start).take len) = .ok s)
    (ho : ∀ j, start ≤ j → j < start + len → fr[j]? = (ofPixels frame)[j]?) :
    ∃ out, rowRange o statFunc start len fr = .ok out ∧ out.length = fr.length ∧ ∀ j, j < frame.length → out[j]? =
      if start ≤ j ∧ j < start + len then some (threshold o.bg o.xr (rowValue o.optMean o.dark o.gain s frame j)) else fr[j]? := by
  unfold rowRange
  rw [if_pos hb, hs, Outcome.ok_bind]
  obtain ⟨out, h1, h2, h3⟩ := forRange_ok (f := rowPixel o s)
    (fun j _ => threshold o.bg o.xr (rowValue o.optMean o.dark o.gain s frame j)) hb (by
      intro j hj a b
      have e := ho j a b
      rw [List.getElem?_eq_getElem hj, ofPixels_get (by omega)] at e
      rw [Option.some.inj e]
      exact rowPixel_ok (by omega) hg hd frame)
  refine ⟨out, h1, h2, ?_⟩
  intro j hj
  rw [h3 j]
  by_cases c : start ≤ j ∧ j < start + len
  · rw [if_pos c, if_pos c, ho j c.1 c.2, ofPixels_get hj]
    rfl
  · rw [if_neg c, if_neg c]

/-- What the row dark correction computes on a square frame. -/
theorem rowDark_ok {o : Options} {statFunc : List Fl → Outcome Fl} {stat : List Rat → Fl} {w : Nat} {frame : List Nat}
    (hw : 2 ≤ w) (hsz : w * w < 2 ^ 32) (hl : frame.length = w * w)
    (hstat : ∀ l, l ≠ [] → statFunc (l.map Fl.fin) = .ok (stat l))
    (hg : o.gain.length = w * w) (hd : ∀ d, o.dark = some d → d.length = w * w) :
    ∃ out, rowDark o statFunc (w, w) (ofPixels frame) = .ok out ∧ out.length = w * w ∧
      ∀ j, j < w * w → out[j]? = some (threshold o.bg o.xr
        (rowValue o.optMean o.dark o.gain (stat (halfRow w (pixels frame) (j % w) (j / w))) frame j)) := by
  unfold rowDark
  let val : Nat → Fl := fun j => threshold o.bg o.xr
        (rowValue o.optMean o.dark o.gain (stat (halfRow w (pixels frame) (j % w) (j / w))) frame j)
  obtain ⟨out, h1, h2, h3⟩ := foldlM_range_inv w (fun fr row => do
    let i := (row * w) % 2 ^ 32
    let fr ← rowRange o statFunc i (w / 2) fr
    rowRange o statFunc (i + w / 2) (w - w / 2) fr)
    (fun k fr => fr.length = w * w ∧ ∀ j, j < w * w → fr[j]? = if j < k * w then some (val j) else (ofPixels frame)[j]?)
    (ofPixels frame) ⟨by rw [ofPixels_length, hl], by intro j _; rw [if_neg (by omega)]⟩
    (by
      rintro row hrow fr ⟨e1, e2⟩
      have hrl : row * w + w ≤ w * w := by
        calc row * w + w = (row + 1) * w := by ring
          _ ≤ w * w := Nat.mul_le_mul_right _ hrow
      have hi : (row * w) % 2 ^ 32 = row * w := Nat.mod_eq_of_lt (by omega)
      simp only [hi]
      have hL : 0 < w / 2 := by omega
      have half1 : ∀ x, x < w / 2 → halfRow w (pixels frame) x row = halfRow w (pixels frame) 0 row := by
        intro x hx
        unfold halfRow halfStart halfLen
        simp only [if_pos hx, if_pos hL]
      have half2 : ∀ x, ¬ x < w / 2 → halfRow w (pixels frame) x row = halfRow w (pixels frame) (w / 2) row := by
        intro x hx
        unfold halfRow halfStart halfLen
        simp only [if_neg hx, if_neg (show ¬ w / 2 < w / 2 by omega)]
      have ne : ∀ x, halfRow w (pixels frame) x row ≠ [] := by
        intro x h
        have := congrArg List.length h
        simp only [halfRow, halfLen, List.length_map, List.length_range, List.length_nil] at this
        split at this <;> omega
      obtain ⟨f1, a1, a2, a3⟩ := rowRange_ok (o := o) (statFunc := statFunc) (fr := fr) (frame := frame) (start := row * w)
        (len := w / 2) (s := stat (halfRow w (pixels frame) 0 row))
        (by omega) (by omega) (by omega) (by intro d h; rw [hd d h, hl])
        (by
          rw [halfRow_slice (frame := frame) (w := w) (x := 0) (y := row) (by omega) (by omega)
            (by intro j b1 b2; rw [e2 j (by omega), if_neg (by omega)])
            (by simp [halfStart, hL]) (by simp [halfLen, hL])]
          exact hstat _ (ne 0))
        (by intro j b1 b2; rw [e2 j (by omega), if_neg (by omega)])
      rw [a1, Outcome.ok_bind]
      have ho : ∀ j, row * w + w / 2 ≤ j → j < row * w + w / 2 + (w - w / 2) → f1[j]? = (ofPixels frame)[j]? := by
        intro j b1 b2
        rw [a3 j (by omega), if_neg (by omega), e2 j (by omega), if_neg (by omega)]
      obtain ⟨f2, b1, b2, b3⟩ := rowRange_ok (o := o) (statFunc := statFunc) (fr := f1) (frame := frame) (start := row * w + w / 2)
        (len := w - w / 2) (s := stat (halfRow w (pixels frame) (w / 2) row))
        (by omega) (by omega) (by omega) (by intro d h; rw [hd d h, hl])
        (by
          rw [halfRow_slice (frame := frame) (w := w) (x := w / 2) (y := row) (by omega) (by omega) ho
            (by simp [halfStart]) (by simp [halfLen])]
          exact hstat _ (ne _)) ho
      refine ⟨f2, b1, by omega, ?_⟩
      intro j hj
      have hsucc : (row + 1) * w = row * w + w := by ring
      rw [hsucc, b3 j (by omega)]
      by_cases c1 : j < row * w
      · rw [if_neg (by omega), a3 j (by omega), if_neg (by omega), e2 j hj, if_pos c1, if_pos (by omega)]
      · by_cases c2 : j < row * w + w
        · obtain ⟨x, rfl⟩ : ∃ x, j = row * w + x := ⟨j - row * w, by omega⟩
          have hx : x < w := by omega
          rw [if_pos c2]
          simp only [val, flat_mod row hx, flat_div row hx]
          by_cases c3 : x < w / 2
          · rw [if_neg (by omega), a3 _ (by omega), if_pos (by omega), half1 x c3]
          · rw [if_pos (by omega), half2 x c3]
        · rw [if_neg (by omega), a3 j (by omega), if_neg (by omega), e2 j hj, if_neg c1, if_neg (by omega)])
  refine ⟨out, h1, h2, ?_⟩
  intro j hj
  rw [h3 j hj, if_pos hj]

/-! ### C86 -/

/-- **C86**, what the code does without row dark correction: a pixel is an event iff it is a peak and none of its neighbours is NaN. -/
theorem C86_plain {o : Options} {bg xr : Rat} {w h : Nat} {frame : List Nat} (ok : FrameOK w h frame bg)
    (hbg : o.bg = .fin bg) (hxr : o.xr = .fin xr) (hrd : o.rowDark = none) (hg : o.gain.length = w * h)
    (hd : ∀ d, o.dark = some d → d.length = w * h) :
    ∃ events, count o (w, h) (ofPixels frame) = .ok events ∧ events.Pairwise (· < ·) ∧ (∀ e ∈ events, e < w * h) ∧
      ∀ x y, x < w → y < h → (y * w + x ∈ events ↔ IsPeak bg xr w h (plainValue o.dark o.gain frame) x y ∧
        ¬ NextToNan w h (plainValue o.dark o.gain frame) x y) := by
  unfold count
  rw [hrd]
  have hn : (w * h) % 2 ^ 32 = w * h := Nat.mod_eq_of_lt ok.size
  simp only [hn]
  have hl := ok.len
  obtain ⟨out, h1, h2, h3⟩ := forRange_ok (f := plainPixel o) (start := 0) (len := w * h) (frame := ofPixels frame)
    (fun j _ => threshold o.bg o.xr (plainValue o.dark o.gain frame j)) (by rw [ofPixels_length, hl]; omega) (by
      intro j hj _ b
      have e := ofPixels_get (frame := frame) (j := j) (by omega)
      rw [List.getElem?_eq_getElem hj] at e
      rw [Option.some.inj e]
      exact plainPixel_ok (by omega) hg hd frame)
  rw [h1, Outcome.ok_bind]
  refine events_of ok.bg0 ok.wlt ok.hlt ok.size ok.two _ (by rw [h2, ofPixels_length, hl]) ?_
  intro j hj
  rw [h3 j, if_pos (by omega), ofPixels_get (by omega), hbg, hxr]
  rfl

/-- **C86** with an infinite upper threshold (without row dark correction): a pixel is an event iff it is finite, above the lower threshold and greater than
the finite neighbours above it, and none of its neighbours is NaN. -/
theorem C86_infinite {o : Options} {bg : Rat} {w h : Nat} {frame : List Nat} (ok : FrameOK w h frame bg)
    (hbg : o.bg = .fin bg) (hxr : o.xr = .pinf) (hrd : o.rowDark = none) (hg : o.gain.length = w * h)
    (hd : ∀ d, o.dark = some d → d.length = w * h) :
    ∃ events, count o (w, h) (ofPixels frame) = .ok events ∧ events.Pairwise (· < ·) ∧ (∀ e ∈ events, e < w * h) ∧
      ∀ x y, x < w → y < h → (y * w + x ∈ events ↔ (∃ q, plainValue o.dark o.gain frame (y * w + x) = .fin q ∧ bg < q ∧
        ∀ x' y', x' < w → y' < h → Neighbour x y x' y' → ∀ q', plainValue o.dark o.gain frame (y' * w + x') = .fin q' → bg < q' → q' < q) ∧
        ¬ NextToNan w h (plainValue o.dark o.gain frame) x y) := by
  obtain ⟨X, hX⟩ : ∃ X : Rat, ∀ j < w * h, ∀ q, plainValue o.dark o.gain frame j = .fin q → q < X := by
    suffices hs : ∀ n, ∃ X : Rat, ∀ j < n, ∀ q, plainValue o.dark o.gain frame j = .fin q → q < X from hs _
    intro n
    induction n with
    | zero => exact ⟨0, fun j hj => absurd hj (Nat.not_lt_zero _)⟩
    | succ n ih =>
      obtain ⟨X, hX⟩ := ih
      cases hv : plainValue o.dark o.gain frame n with
      | fin q =>
        refine ⟨max X (q + 1), fun j hj q' hq' => ?_⟩
        rcases Nat.lt_succ_iff_lt_or_eq.1 hj with h1 | rfl
        · exact lt_of_lt_of_le (hX j h1 q' hq') (le_max_left _ _)
        · rw [hv] at hq'
          cases hq'
          exact lt_of_lt_of_le (by linarith) (le_max_right _ _)
      | _ =>
        refine ⟨X, fun j hj q' hq' => ?_⟩
        rcases Nat.lt_succ_iff_lt_or_eq.1 hj with h1 | rfl
        · exact hX j h1 q' hq'
        · rw [hv] at hq'
          cases hq'
  have hthr : ∀ j < w * h, threshold (.fin bg) .pinf (plainValue o.dark o.gain frame j) = threshold (.fin bg) (.fin X) (plainValue o.dark o.gain frame j) := by
    intro j hj
    have := hX j hj
    cases hv : plainValue o.dark o.gain frame j with
    | fin q =>
      have hq := this q hv
      simp [threshold, Fl.ge, Fl.gt, hq]
    | _ => simp [threshold, Fl.ge, Fl.gt]
  have main : ∃ events, count o (w, h) (ofPixels frame) = .ok events ∧ events.Pairwise (· < ·) ∧ (∀ e ∈ events, e < w * h) ∧
      ∀ x y, x < w → y < h → (y * w + x ∈ events ↔ IsPeak bg X w h (plainValue o.dark o.gain frame) x y ∧
        ¬ NextToNan w h (plainValue o.dark o.gain frame) x y) := by
    unfold count
    rw [hrd]
    have hn : (w * h) % 2 ^ 32 = w * h := Nat.mod_eq_of_lt ok.size
    simp only [hn]
    have hl := ok.len
    obtain ⟨out, h1, h2, h3⟩ := forRange_ok (f := plainPixel o) (start := 0) (len := w * h) (frame := ofPixels frame)
      (fun j _ => threshold o.bg o.xr (plainValue o.dark o.gain frame j)) (by rw [ofPixels_length, hl]; omega) (by
        intro j hj _ b
        have e := ofPixels_get (frame := frame) (j := j) (by omega)
        rw [List.getElem?_eq_getElem hj] at e
        rw [Option.some.inj e]
        exact plainPixel_ok (by omega) hg hd frame)
    rw [h1, Outcome.ok_bind]
    refine events_of ok.bg0 ok.wlt ok.hlt ok.size ok.two _ (by rw [h2, ofPixels_length, hl]) ?_
    intro j hj
    rw [h3 j, if_pos (by omega), ofPixels_get (by omega), hbg, hxr, Option.map_some, hthr j hj]
  obtain ⟨events, h1, h2, h3, h4⟩ := main
  refine ⟨events, h1, h2, h3, fun x y hx hy => ?_⟩
  rw [h4 x y hx hy]
  have hlt : ∀ x y, x < w → y < h → y * w + x < w * h := by
    intro x y hx hy
    calc y * w + x < y * w + w := by omega
      _ = (y + 1) * w := by ring
      _ ≤ h * w := Nat.mul_le_mul_right _ hy
      _ = w * h := Nat.mul_comm _ _
  refine and_congr_left fun _ => ⟨?_, ?_⟩
  · rintro ⟨q, e1, e2, -, e3⟩
    exact ⟨q, e1, e2, fun x' y' hx' hy' hn q' hq' hb => e3 x' y' hx' hy' hn q' hq' hb (hX _ (hlt x' y' hx' hy') q' hq')⟩
  · rintro ⟨q, e1, e2, e3⟩
    exact ⟨q, e1, e2, hX _ (hlt x y hx hy) q e1, fun x' y' hx' hy' hn q' hq' hb _ => e3 x' y' hx' hy' hn q' hq' hb⟩

/-- **C86**, what the code does with row dark correction (on square frames): the same with the values corrected by the statistic of the half
rows, where the factor of a half row of statistic zero is infinite. -/
theorem C86_rowdark {o : Options} {bg xr : Rat} {w : Nat} {frame : List Nat} (ok : FrameOK w w frame bg)
    (hbg : o.bg = .fin bg) (hxr : o.xr = .fin xr) {statFunc : List Fl → Outcome Fl} {stat : List Rat → Fl}
    (hrd : o.rowDark = some statFunc) (hstat : ∀ l, l ≠ [] → statFunc (l.map Fl.fin) = .ok (stat l))
    (hg : o.gain.length = w * w) (hd : ∀ d, o.dark = some d → d.length = w * w) :
    ∃ events, count o (w, w) (ofPixels frame) = .ok events ∧ events.Pairwise (· < ·) ∧ (∀ e ∈ events, e < w * w) ∧
      ∀ x y, x < w → y < w → (y * w + x ∈ events ↔
        IsPeak bg xr w w (fun j => rowValue o.optMean o.dark o.gain (stat (halfRow w (pixels frame) (j % w) (j / w))) frame j) x y ∧
        ¬ NextToNan w w (fun j => rowValue o.optMean o.dark o.gain (stat (halfRow w (pixels frame) (j % w) (j / w))) frame j) x y) := by
  have hw : 2 ≤ w := by
    have := ok.two
    by_contra h
    have h : w ≤ 1 := by omega
    have : w * w ≤ 1 * 1 := Nat.mul_le_mul h h
    omega
  unfold count
  rw [hrd]
  obtain ⟨out, h1, h2, h3⟩ := rowDark_ok (o := o) hw ok.size ok.len hstat hg hd
  simp only [h1, Outcome.ok_bind]
  refine events_of ok.bg0 ok.wlt ok.hlt ok.size ok.two _ h2 ?_
  intro j hj
  rw [h3 j hj, hbg, hxr]

/-- The values of a list of finite numbers. -/
private theorem getD_fin (l : List Rat) {j : Nat} (hj : j < l.length) : (l.map Fl.fin).getD j .nan = .fin (l.getD j 0) := by
  simp [hj]

private theorem events_eq {w h : Nat} {a b : List Nat} (ha : a.Pairwise (· < ·)) (hb : b.Pairwise (· < ·))
    (ha2 : ∀ e ∈ a, e < w * h) (hb2 : ∀ e ∈ b, e < w * h)
    (hm : ∀ x y, x < w → y < h → (y * w + x ∈ a ↔ y * w + x ∈ b)) : a = b := by
  have hmem : ∀ e, e ∈ a ↔ e ∈ b := by
    intro e
    have key : e < w * h → (e ∈ a ↔ e ∈ b) := by
      intro hlt
      obtain ⟨h1, h2⟩ := divmod_lt hlt
      have := hm _ _ h1 h2
      have e' : e / w * w + e % w = e := by rw [Nat.mul_comm]; exact Nat.div_add_mod e w
      rwa [e'] at this
    constructor
    · intro he; exact (key (ha2 e he)).1 he
    · intro he; exact (key (hb2 e he)).2 he
  have hp : a.Perm b := (List.perm_ext_iff_of_nodup (ha.imp Nat.ne_of_lt) (hb.imp Nat.ne_of_lt)).2 hmem
  exact hp.eq_of_pairwise (fun x y _ _ h1 h2 => absurd h1 (Nat.lt_asymm h2)) ha hb

private theorem peak_iff {bg xr : Rat} (hbg : 0 ≤ bg) {w h : Nat} {c : Nat → Fl} {v : Nat → Rat}
    (hc : ∀ j, j < w * h → c j = .fin (v j)) {x y : Nat} (hx : x < w) (hy : y < h) :
    (IsPeak bg xr w h c x y ∧ ¬ NextToNan w h c x y) ↔ ((bg < v (y * w + x) ∧ v (y * w + x) < xr) ∧
      ∀ x' y', x' < w → y' < h → Neighbour x y x' y' → eligible bg xr (v (y' * w + x')) < v (y * w + x)) := by
  constructor
  · rintro ⟨⟨q, g1, g2, g3, g4⟩, _⟩
    rw [hc _ (flat_lt hx hy)] at g1
    cases g1
    refine ⟨⟨g2, g3⟩, ?_⟩
    intro x' y' a1 a2 a3
    unfold eligible
    split
    · rename_i hin
      exact g4 x' y' a1 a2 a3 _ (hc _ (flat_lt a1 a2)) hin.1 hin.2
    · exact lt_of_le_of_lt hbg g2
  · rintro ⟨⟨g1, g2⟩, g3⟩
    refine ⟨⟨_, hc _ (flat_lt hx hy), g1, g2, ?_⟩, ?_⟩
    · intro x' y' a1 a2 a3 q' b1 b2 b3
      rw [hc _ (flat_lt a1 a2)] at b1
      cases b1
      have := g3 x' y' a1 a2 a3
      unfold eligible at this
      rwa [if_pos ⟨b2, b3⟩] at this
    · rintro ⟨x', y', a1, a2, _, a4⟩
      rw [hc _ (flat_lt a1 a2)] at a4
      cases a4

/-- **C86** for finite dark and gain references without row dark correction: every pixel is judged as claimed, and the result is that of the
model without special values (`Model/Electron`). Missing for the full statement: NaN and infinite values, for which it is false
(`C86_gain_false`). -/
theorem C86_plain_partial {o : Electron.CountOptions} {w h : Nat} {frame : List Nat} {gain : List Rat}
    (ok : FrameOK w h frame o.bg) (hrd : o.rowDark = none) (hft : o.ft = .f32) (hg : o.gain = some gain)
    (hgl : gain.length = w * h) (hd : ∀ d, o.dark = some d → d.length = w * h) :
    ∃ events, count ⟨.fin o.bg, .fin o.xr, o.dark.map (·.map .fin), gain.map .fin, none, .fin o.optMean⟩ (w, h) (ofPixels frame) =
        .ok events ∧ Electron.countFrameStream o (w, h) (pixels frame) = .ok events ∧
      ∀ x y, x < w → y < h → (y * w + x ∈ events ↔
        IsPeak o.bg o.xr w h (plainValue (o.dark.map (·.map .fin)) (gain.map .fin) frame) x y) := by
  obtain ⟨ev, h1, h2, h3, h4⟩ := C86_plain (o := ⟨.fin o.bg, .fin o.xr, o.dark.map (·.map .fin), gain.map .fin, none, .fin o.optMean⟩)
    (xr := o.xr) ok rfl rfl rfl (by simpa using hgl) (by
      intro d h
      obtain ⟨d', hd', rfl⟩ := Option.map_eq_some_iff.1 h
      simpa using hd d' hd')
  obtain ⟨ev', g1, g2⟩ := Props.C12_stream_gain ok hrd hft hg hgl hd
  have hc : ∀ j, j < w * h → plainValue (o.dark.map (·.map .fin)) (gain.map .fin) frame j = .fin (floatValue o.dark gain frame j) := by
    intro j hj
    unfold plainValue floatValue
    rw [getD_fin gain (by omega)]
    cases hdk : o.dark with
    | none => simp [Fl.mul]
    | some d =>
      have := getD_fin d (j := j) (by rw [hd d hdk]; exact hj)
      simp only [Option.map_some, this, Fl.sub, Fl.neg, Fl.add, Fl.mul, sub_eq_add_neg]
  have hmem : ∀ x y, x < w → y < h → (y * w + x ∈ ev ↔ y * w + x ∈ ev') := by
    intro x y hx hy
    rw [h4 x y hx hy, g2.mem x y hx hy]
    exact peak_iff ok.bg0 hc hx hy
  have e := events_eq h2 g2.sorted h3 g2.onDetector hmem
  subst e
  refine ⟨ev, h1, g1, ?_⟩
  intro x y hx hy
  rw [h4 x y hx hy]
  refine and_iff_left ?_
  rintro ⟨x', y', a1, a2, _, a4⟩
  have := hc _ (flat_lt a1 a2)
  simp only at a4
  rw [a4] at this
  cases this

/-- **C86** with row dark correction and finite references, if no half row has the statistic zero: every pixel is judged as claimed, and the
result is that of the model without special values. Missing: half rows of statistic zero (`C86_missing_false`). -/
theorem C86_rowdark_partial {o : Electron.CountOptions} {statR : List Rat → Outcome (Option Rat)} {statF : List Fl → Outcome Fl}
    {stat : List Rat → Rat} {gain : List Rat} {w : Nat} {frame : List Nat}
    (ok : FrameOK w w frame o.bg) (hrd : o.rowDark = some statR) (hft : o.ft = .f32)
    (hsR : ∀ l, l ≠ [] → statR l = .ok (some (stat l))) (hsF : ∀ l, l ≠ [] → statF (l.map Fl.fin) = .ok (.fin (stat l)))
    (hg : o.gain = some gain) (hgl : gain.length = w * w) (hd : ∀ d, o.dark = some d → d.length = w * w)
    (hnz : ∀ x y, x < w → y < w → stat (halfRow w (pixels frame) x y) ≠ 0) :
    ∃ events, count ⟨.fin o.bg, .fin o.xr, o.dark.map (·.map .fin), gain.map .fin, some statF, .fin o.optMean⟩ (w, w) (ofPixels frame) =
        .ok events ∧ Electron.countFrameStream o (w, w) (pixels frame) = .ok events ∧
      ∀ x y, x < w → y < w → (y * w + x ∈ events ↔
        IsPeak o.bg o.xr w w (fun j => rowValue (.fin o.optMean) (o.dark.map (·.map .fin)) (gain.map .fin)
          (.fin (stat (halfRow w (pixels frame) (j % w) (j / w)))) frame j) x y) := by
  obtain ⟨ev, h1, h2, h3, h4⟩ := C86_rowdark
    (o := ⟨.fin o.bg, .fin o.xr, o.dark.map (·.map .fin), gain.map .fin, some statF, .fin o.optMean⟩)
    (xr := o.xr) ok rfl rfl rfl (stat := fun l => .fin (stat l)) hsF (by simpa using hgl) (by
      intro d h
      obtain ⟨d', hd', rfl⟩ := Option.map_eq_some_iff.1 h
      simpa using hd d' hd')
  obtain ⟨ev', g1, _, g2⟩ := Props.C12_rowdark_gain ok hrd hft hsR hg hgl hd hnz
  have hc : ∀ j, j < w * w → rowValue (.fin o.optMean) (o.dark.map (·.map .fin)) (gain.map .fin)
      (.fin (stat (halfRow w (pixels frame) (j % w) (j / w)))) frame j =
      .fin (rowDarkFloat o.optMean o.dark gain (stat (halfRow w (pixels frame) (j % w) (j / w))) j ((pixels frame).getD j 0)) := by
    intro j hj
    obtain ⟨b1, b2⟩ := divmod_lt hj
    have hz := hnz _ _ b1 b2
    have hp : (pixels frame).getD j 0 = (frame.getD j 0 : Nat) := by
      have : j < frame.length := by rw [ok.len]; exact hj
      simp [pixels, this]
    unfold rowValue rowDarkFloat
    rw [getD_fin gain (by omega), hp]
    cases hdk : o.dark with
    | none => simp [Fl.mul, Fl.div, hz]
    | some d =>
      have := getD_fin d (j := j) (by rw [hd d hdk]; exact hj)
      simp only [Option.map_some, this, Fl.sub, Fl.neg, Fl.add, Fl.mul, Fl.div, hz, if_false, sub_eq_add_neg]
  have hmem : ∀ x y, x < w → y < w → (y * w + x ∈ ev ↔ y * w + x ∈ ev') := by
    intro x y hx hy
    rw [h4 x y hx hy, g2.mem x y hx hy]
    exact peak_iff ok.bg0 hc hx hy
  have e := events_eq h2 g2.sorted h3 g2.onDetector hmem
  subst e
  refine ⟨ev, h1, g1, ?_⟩
  intro x y hx hy
  rw [h4 x y hx hy]
  refine and_iff_left ?_
  rintro ⟨x', y', a1, a2, _, a4⟩
  have := hc _ (flat_lt a1 a2)
  simp only at a4
  rw [a4] at this
  cases this

/-- The mean of a list. -/
def meanOf (l : List Rat) : Rat := l.sum / l.length

/-- The mean of a half row. -/
theorem C86_mean (l : List Rat) (h : l ≠ []) : meanStat (l.map Fl.fin) = .ok (.fin (meanOf l)) := by
  have hs : ∀ (l : List Rat) (a : Rat), (l.map Fl.fin).foldl Fl.add (.fin a) = .fin (a + l.sum) := by
    intro l
    induction l with
    | nil => intro a; simp
    | cons b l ih =>
      intro a
      rw [List.map_cons, List.foldl_cons]
      show (l.map Fl.fin).foldl Fl.add (.fin (a + b)) = _
      rw [ih, List.sum_cons, add_assoc]
  have hn : ((l.length : Nat) : Rat) ≠ 0 := by
    have : l.length ≠ 0 := fun e => h (List.length_eq_zero_iff.1 e)
    exact_mod_cast this
  unfold meanStat
  rw [hs, List.length_map]
  simp [Fl.div, hn, meanOf]

/-- The median of a half row. -/
theorem C86_median {nth : List Rat → Nat → List Rat} (hn : NthElement nth) (l : List Rat) (h : l ≠ []) :
    medianStat nth (l.map Fl.fin) = .ok (.fin (sortedMedian l)) := by
  have hf : ∀ l : List Rat, finite (l.map Fl.fin) = some l := by
    intro l
    induction l with
    | nil => rfl
    | cons a l ih => simp [finite, ih]
  unfold medianStat
  rw [hf]
  simp only [Props.C14_median hn l h]
  rfl

/-- **C86** is false with row dark correction: without dark reference, no pixel next to a pixel of value zero in a half row of statistic zero
is an event, whatever its value, because the zero times the infinite factor is NaN. For all frames, gains and thresholds. -/
theorem C86_missing_false {o : Options} {bg xr : Rat} {w : Nat} {frame : List Nat} (ok : FrameOK w w frame bg)
    (hbg : o.bg = .fin bg) (hxr : o.xr = .fin xr) {statFunc : List Fl → Outcome Fl} {stat : List Rat → Fl}
    (hrd : o.rowDark = some statFunc) (hstat : ∀ l, l ≠ [] → statFunc (l.map Fl.fin) = .ok (stat l))
    (hg : o.gain.length = w * w) (hd : o.dark = none) {x' y' : Nat} (hx' : x' < w) (hy' : y' < w)
    (hz : stat (halfRow w (pixels frame) x' y') = .fin 0) (hp : frame.getD (y' * w + x') 0 = 0) :
    ∃ events, count o (w, w) (ofPixels frame) = .ok events ∧ y' * w + x' ∉ events ∧
      ∀ x y, x < w → y < w → Neighbour x y x' y' → y * w + x ∉ events := by
  obtain ⟨ev, h1, _, _, h4⟩ := C86_rowdark ok hbg hxr hrd hstat hg (by intro d h; rw [hd] at h; cases h)
  have hnan : rowValue o.optMean o.dark o.gain
      (stat (halfRow w (pixels frame) ((y' * w + x') % w) ((y' * w + x') / w))) frame (y' * w + x') = .nan := by
    rw [flat_mod y' hx', flat_div y' hx', hz]
    unfold rowValue
    rw [hd, hp]
    cases hm : o.optMean with
    | fin q =>
      simp only [Fl.div, if_true, Fl.signInf]
      split
      · simp [Fl.mul, Fl.signInf]
      · split <;> simp [Fl.mul, Fl.signInf]
    | pinf => simp [Fl.div, Fl.mul, Fl.signInf]
    | ninf => simp [Fl.div, Fl.mul, Fl.signInf]
    | nan => simp [Fl.div, Fl.mul]
  refine ⟨ev, h1, ?_, ?_⟩
  · rw [h4 x' y' hx' hy']
    rintro ⟨⟨q, g1, _⟩, _⟩
    exact absurd (hnan.symm.trans g1) nofun
  · intro x y hx hy hn
    rw [h4 x y hx hy]
    rintro ⟨_, g⟩
    exact g ⟨x', y', hx', hy', hn, hnan⟩

/-- **C86** is false for a gain reference with NaN, or with an infinite gain at a pixel of corrected value zero (for example a dead pixel,
whose gain is the quotient by zero): the neighbours of such a pixel are never events. -/
theorem C86_gain_false {o : Options} {bg xr : Rat} {w h : Nat} {frame : List Nat} (ok : FrameOK w h frame bg)
    (hbg : o.bg = .fin bg) (hxr : o.xr = .fin xr) (hrd : o.rowDark = none) (hg : o.gain.length = w * h)
    (hd : ∀ d, o.dark = some d → d.length = w * h) {x' y' : Nat} (hx' : x' < w) (hy' : y' < h)
    (hnan : o.gain.getD (y' * w + x') .nan = .nan ∨
      (o.gain.getD (y' * w + x') .nan ∈ [Fl.pinf, Fl.ninf] ∧ o.dark = none ∧ frame.getD (y' * w + x') 0 = 0)) :
    ∃ events, count o (w, h) (ofPixels frame) = .ok events ∧ y' * w + x' ∉ events ∧
      ∀ x y, x < w → y < h → Neighbour x y x' y' → y * w + x ∉ events := by
  obtain ⟨ev, h1, _, _, h4⟩ := C86_plain ok hbg hxr hrd hg hd
  have hnan : plainValue o.dark o.gain frame (y' * w + x') = .nan := by
    unfold plainValue
    rcases hnan with e | ⟨e, e2, e3⟩
    · rw [e]
      generalize (match o.dark with
        | none => Fl.fin (frame.getD (y' * w + x') 0 : Nat)
        | some d => (Fl.fin (frame.getD (y' * w + x') 0 : Nat)).sub (d.getD (y' * w + x') .nan)) = v
      cases v <;> rfl
    · rw [e2, e3]
      rcases List.mem_cons.1 e with e | e
      · rw [e]; simp [Fl.mul, Fl.signInf]
      · rw [List.mem_singleton.1 e]; simp [Fl.mul, Fl.signInf]
  refine ⟨ev, h1, ?_, ?_⟩
  · rw [h4 x' y' hx' hy']
    rintro ⟨⟨q, g1, _⟩, _⟩
    rw [hnan] at g1
    cases g1
  · intro x y hx hy hn
    rw [h4 x y hx hy]
    rintro ⟨_, g⟩
    exact g ⟨x', y', hx', hy', hn, hnan⟩

/-- **C86** is false for a dark reference with NaN: the neighbours of such a pixel are never events. -/
theorem C86_dark_false {o : Options} {bg xr : Rat} {w h : Nat} {frame : List Nat} (ok : FrameOK w h frame bg)
    (hbg : o.bg = .fin bg) (hxr : o.xr = .fin xr) (hrd : o.rowDark = none) (hg : o.gain.length = w * h) {dark : List Fl}
    (hd : o.dark = some dark) (hdl : dark.length = w * h) {x' y' : Nat} (hx' : x' < w) (hy' : y' < h)
    (hnan : dark[y' * w + x']? = some .nan) :
    ∃ events, count o (w, h) (ofPixels frame) = .ok events ∧ y' * w + x' ∉ events ∧
      ∀ x y, x < w → y < h → Neighbour x y x' y' → y * w + x ∉ events := by
  obtain ⟨ev, h1, _, _, h4⟩ := C86_plain ok hbg hxr hrd hg (by intro d h; rw [hd] at h; cases h; exact hdl)
  have hnan : plainValue o.dark o.gain frame (y' * w + x') = .nan := by
    unfold plainValue
    have hn : dark.getD (y' * w + x') .nan = .nan := by rw [List.getD_eq_getElem?_getD, hnan, Option.getD_some]
    rw [hd]
    simp only [hn, Fl.sub, Fl.neg, Fl.add]
    cases o.gain.getD (y' * w + x') .nan <;> rfl
  refine ⟨ev, h1, ?_, ?_⟩
  · rw [h4 x' y' hx' hy']
    rintro ⟨⟨q, g1, _⟩, _⟩
    rw [hnan] at g1
    cases g1
  · intro x y hx hy hn
    rw [h4 x y hx hy]
    rintro ⟨_, g⟩
    exact g ⟨x', y', hx', hy', hn, hnan⟩

/-! ### Without gain -/

/-- The outcome is no exception. -/
def NoThrow {α : Type} (x : Outcome α) : Prop := ∀ e, x ≠ .throw e

theorem NoThrow.bind {α β : Type} {x : Outcome α} {f : α → Outcome β} (hx : NoThrow x) (hf : ∀ a, NoThrow (f a)) :
    NoThrow (x >>= f) := by
  cases x with
  | ok a => exact hf a
  | throw e => exact absurd rfl (hx e)
  | ub => exact nofun

theorem noThrow_ok {α : Type} (a : α) : NoThrow (.ok a : Outcome α) := nofun

theorem noThrow_ub {α : Type} : NoThrow (.ub : Outcome α) := nofun

theorem noThrow_readAt {α : Type} (l : List α) (i : Nat) : NoThrow (readAt l i) := by
  unfold readAt
  split
  · exact noThrow_ok _
  · exact noThrow_ub

theorem noThrow_writeAt {α : Type} (l : List α) (i : Nat) (a : α) : NoThrow (writeAt l i a) := by
  unfold writeAt
  split
  · exact noThrow_ok _
  · exact noThrow_ub

theorem noThrow_foldlM {α σ : Type} (f : σ → α → Outcome σ) (hf : ∀ s a, NoThrow (f s a)) (l : List α) (s : σ) :
    NoThrow (l.foldlM f s) := by
  induction l generalizing s with
  | nil => exact noThrow_ok _
  | cons a l ih =>
    rw [List.foldlM_cons]
    exact (hf s a).bind ih

private theorem noThrow_toU16 (r : Rat) : NoThrow (Electron.toU16 r) := by
  unfold Electron.toU16
  split
  · exact noThrow_ub
  · split <;> exact noThrow_ok _

private theorem noThrow_store (ft : Electron.FT) (r : Rat) : NoThrow (Electron.store ft r) := by
  cases ft
  · exact noThrow_toU16 r
  · exact noThrow_ok r

private theorem noThrow_readPtr (d : Option (List Rat)) (j : Nat) : NoThrow (Electron.readPtr d j) := by
  cases d
  · exact noThrow_ub
  · exact noThrow_readAt _ _

private theorem noThrow_pixel (ft : Electron.FT) (optMean bg xr : Rat) (dark gain : Option (List Rat)) (s : Option Rat) (j : Nat)
    (v : Rat) : NoThrow (Electron.rowDarkPixel ft optMean bg xr dark gain s j v) := by
  have key2 : ∀ v, NoThrow (Electron.rowDarkPixel ft optMean bg xr none gain s j v) := by
    intro v
    unfold Electron.rowDarkPixel
    cases s with
    | none => exact noThrow_ub
    | some s =>
      simp only [Outcome.pure_eq, Outcome.ok_bind]
      split
      · exact noThrow_ub
      · refine (noThrow_store _ _).bind fun v => ?_
        cases ft with
        | u16 => exact noThrow_ok _
        | f32 => exact (noThrow_readPtr _ _).bind fun r => noThrow_ok _
  cases dark with
  | none => exact key2 v
  | some d =>
    unfold Electron.rowDarkPixel
    refine (noThrow_readPtr _ _).bind fun r => (noThrow_store _ _).bind fun v => ?_
    exact key2 v

private theorem noThrow_range {statFunc : List Rat → Outcome (Option Rat)} (hs : ∀ l, NoThrow (statFunc l)) (ft : Electron.FT)
    (optMean bg xr : Rat) (dark gain : Option (List Rat)) (start len : Nat) (fr : List Rat) :
    NoThrow (Electron.rowDarkRange statFunc ft optMean bg xr dark gain start len fr) := by
  unfold Electron.rowDarkRange
  split
  · exact (hs _).bind fun s => noThrow_foldlM _ (fun fr k => (noThrow_readAt _ _).bind fun v =>
      (noThrow_pixel _ _ _ _ _ _ _ _ _).bind fun v' => noThrow_writeAt _ _ _) _ _
  · exact noThrow_ub

theorem foldlM_range_ub {σ : Type} (n : Nat) (f : σ → Nat → Outcome σ) (I : Nat → σ → Prop) (s0 : σ) (h0 : I 0 s0)
    (hnt : ∀ s k, NoThrow (f s k)) (step : ∀ k, k < n → ∀ s s', I k s → f s k = .ok s' → I (k + 1) s') {K : Nat} (hK : K < n)
    (hub : ∀ s, I K s → f s K = .ub) : (List.range n).foldlM f s0 = .ub := by
  suffices H : ∀ m k s, k + m = n → k ≤ K → I k s → (List.range' k m).foldlM f s = .ub by
    rw [List.range_eq_range']
    exact H n 0 s0 (Nat.zero_add n) (Nat.zero_le _) h0
  intro m
  induction m with
  | zero => intro k s h1 h2 _; omega
  | succ m ih =>
    intro k s h1 h2 h3
    rw [List.range'_succ, List.foldlM_cons]
    rcases Nat.eq_or_lt_of_le h2 with rfl | h2
    · rw [hub s h3]; rfl
    · cases e : f s k with
      | ub => rfl
      | throw m => exact absurd e (hnt s k m)
      | ok s' => exact ih (k + 1) s' (by omega) h2 (step k (by omega) s s' h3 e)

theorem foldlM_range_ok {σ : Type} (n : Nat) (f : σ → Nat → Outcome σ) (I : Nat → σ → Prop) (s0 : σ) (h0 : I 0 s0)
    (step : ∀ k, k < n → ∀ s s', I k s → f s k = .ok s' → I (k + 1) s') {t : σ} (h : (List.range n).foldlM f s0 = .ok t) : I n t := by
  suffices H : ∀ m k s, k + m = n → I k s → (List.range' k m).foldlM f s = .ok t → I n t by
    rw [List.range_eq_range'] at h
    exact H n 0 s0 (Nat.zero_add n) h0 h
  intro m
  induction m with
  | zero =>
    intro k s h1 h2 h3
    have : k = n := by omega
    subst this
    cases h3
    exact h2
  | succ m ih =>
    intro k s h1 h2 h3
    rw [List.range'_succ, List.foldlM_cons] at h3
    cases e : f s k with
    | ub => rw [e] at h3; cases h3
    | throw m => rw [e] at h3; cases h3
    | ok s' =>
      rw [e] at h3
      exact ih (k + 1) s' (by omega) (step k (by omega) s s' h2 e) h3

/-- A range only changes its own pixels. -/
private theorem range_frame {statFunc : List Rat → Outcome (Option Rat)} {ft : Electron.FT} {optMean bg xr : Rat}
    {dark gain : Option (List Rat)} {start len : Nat} {fr out : List Rat}
    (h : Electron.rowDarkRange statFunc ft optMean bg xr dark gain start len fr = .ok out) :
    out.length = fr.length ∧ ∀ j, ¬ (start ≤ j ∧ j < start + len) → out[j]? = fr[j]? := by
  unfold Electron.rowDarkRange at h
  split at h
  swap
  · cases h
  · cases hs : statFunc ((fr.drop start).take len) with
    | ub => rw [hs] at h; cases h
    | throw m => rw [hs] at h; cases h
    | ok s =>
      rw [hs, Outcome.ok_bind] at h
      refine foldlM_range_ok len _ (fun k g => g.length = fr.length ∧ ∀ j, ¬ (start ≤ j ∧ j < start + k) → g[j]? = fr[j]?) fr
        ⟨rfl, fun _ _ => rfl⟩ ?_ h
      rintro k hk g g' ⟨i1, i2⟩ e
      cases hr : readAt g (start + k) with
      | ub => rw [hr] at e; cases e
      | throw m => rw [hr] at e; cases e
      | ok v =>
        simp only [hr, Outcome.ok_bind] at e
        cases hp : Electron.rowDarkPixel ft optMean bg xr dark gain s (start + k) v with
        | ub => rw [hp] at e; cases e
        | throw m => rw [hp] at e; cases e
        | ok v' =>
          simp only [hp, Outcome.ok_bind] at e
          unfold writeAt at e
          split at e
          · cases e
            refine ⟨by simpa using i1, ?_⟩
            intro j hj
            rw [List.getElem?_set_ne (by omega)]
            exact i2 j (by omega)
          · cases e

/-- A range of statistic zero is undefined, if it has a pixel. -/
private theorem range_ub {statFunc : List Rat → Outcome (Option Rat)} {optMean bg xr : Rat} {ft : Electron.FT}
    {dark gain : Option (List Rat)} {start len : Nat} {fr : List Rat} (hlen : 0 < len) (hb : start + len ≤ fr.length)
    (hs : statFunc ((fr.drop start).take len) = .ok (some 0)) :
    Electron.rowDarkRange statFunc ft optMean bg xr dark gain start len fr = .ub := by
  unfold Electron.rowDarkRange
  rw [if_pos hb, hs, Outcome.ok_bind]
  refine foldlM_range_ub len _ (fun k g => k = 0 → g = fr) fr (fun _ => rfl) ?_ (fun k _ s s' _ _ h => by omega) hlen ?_
  · exact fun fr k => (noThrow_readAt _ _).bind fun v => (noThrow_pixel _ _ _ _ _ _ _ _ _).bind fun v' => noThrow_writeAt _ _ _
  · intro g hg
    have hg := hg rfl
    subst hg
    have hp : ∀ v, Electron.rowDarkPixel ft optMean bg xr dark gain (some 0) (start + 0) v = .ub := by
      intro v
      unfold Electron.rowDarkPixel
      simp only [if_true]
      cases dark with
      | none => rfl
      | some d =>
        simp only
        cases h1 : Electron.readPtr (some d) (start + 0) with
        | ub => rfl
        | throw m => exact absurd h1 (noThrow_readPtr _ _ m)
        | ok r =>
          simp only [Outcome.ok_bind]
          cases h2 : Electron.store ft (v - r) with
          | ub => rfl
          | throw m => exact absurd h2 (noThrow_store _ _ m)
          | ok r => rfl
    rw [readAt_lt (show start + 0 < g.length by omega)]
    simp only [Outcome.ok_bind, hp]
    rfl

/-- **C86** without gain: if a half row of a square frame has the statistic zero, the row dark correction is undefined, because the product
with the infinite factor (infinite or NaN) is converted to `uint16_t`. With and without dark reference. -/
theorem C86_no_gain_undefined {statFunc : List Rat → Outcome (Option Rat)} {stat : List Rat → Rat} (o : Electron.CountOptions) {w : Nat}
    {frame : List Rat} (hrd : o.rowDark = some statFunc) (_hft : o.ft = .u16) (hsz : w * w < 2 ^ 32) (hl : frame.length = w * w)
    (hw : 2 ≤ w) (hstat : ∀ l, l ≠ [] → statFunc l = .ok (some (stat l))) (hnil : ∀ e, statFunc [] ≠ .throw e) {x y : Nat} (hx : x < w)
    (hy : y < w) (hz : stat (halfRow w frame x y) = 0) :
    Electron.countFrameStream o (w, w) frame = .ub := by
  have hnt : ∀ l, NoThrow (statFunc l) := by
    intro l
    by_cases h : l = []
    · subst h; exact hnil
    · rw [hstat l h]; exact noThrow_ok _
  have key : Electron.applyRowDark statFunc o.ft (w, w) o.optMean o.bg o.xr o.dark o.gain frame = .ub := by
    unfold Electron.applyRowDark
    refine foldlM_range_ub w _ (fun k g => g.length = frame.length ∧ ∀ j, k * w ≤ j → g[j]? = frame[j]?) frame
      ⟨rfl, fun _ _ => rfl⟩ ?_ ?_ hy ?_
    · intro g k
      exact (noThrow_range hnt _ _ _ _ _ _ _ _ _).bind fun g => noThrow_range hnt _ _ _ _ _ _ _ _ _
    · rintro k hk g g' ⟨i1, i2⟩ e
      have hrl : k * w + w ≤ w * w := by
        calc k * w + w = (k + 1) * w := by ring
          _ ≤ w * w := Nat.mul_le_mul_right _ hk
      have hi : (k * w) % 2 ^ 32 = k * w := Nat.mod_eq_of_lt (by omega)
      have hsucc : (k + 1) * w = k * w + w := by ring
      simp only [hi] at e
      cases h1 : Electron.rowDarkRange statFunc o.ft o.optMean o.bg o.xr o.dark o.gain (k * w) (w / 2) g with
      | ub => rw [h1] at e; cases e
      | throw m => rw [h1] at e; cases e
      | ok g1 =>
        rw [h1, Outcome.ok_bind] at e
        obtain ⟨a1, a2⟩ := range_frame h1
        obtain ⟨b1, b2⟩ := range_frame e
        refine ⟨by omega, ?_⟩
        intro j hj
        rw [b2 j (by omega), a2 j (by omega), i2 j (by omega)]
    · rintro g ⟨i1, i2⟩
      have hrl : y * w + w ≤ w * w := by
        calc y * w + w = (y + 1) * w := by ring
          _ ≤ w * w := Nat.mul_le_mul_right _ hy
      have hi : (y * w) % 2 ^ 32 = y * w := Nat.mod_eq_of_lt (by omega)
      simp only [hi]
      have slice : ∀ (g : List Rat) start len, g.length = frame.length → start + len ≤ frame.length →
          (∀ j, start ≤ j → j < start + len → g[j]? = frame[j]?) →
          ∀ x, y * w + halfStart w x = start → halfLen w x = len → (g.drop start).take len = halfRow w frame x y := by
        intro g start len e1 e2 e3 x e4 e5
        apply List.ext_getElem?
        intro k
        unfold halfRow
        rw [e4, e5]
        by_cases hk : k < len
        · rw [List.getElem?_take_of_lt hk, List.getElem?_drop, e3 _ (by omega) (by omega), List.getElem?_map, List.getElem?_range hk]
          have : start + k < frame.length := by omega
          simp [this]
        · rw [List.getElem?_eq_none (by rw [List.length_take]; omega), List.getElem?_eq_none (by simp; omega)]
      have hne : ∀ x, halfRow w frame x y ≠ [] := by
        intro x h
        have := congrArg List.length h
        simp only [halfRow, halfLen, List.length_map, List.length_range, List.length_nil] at this
        split at this <;> omega
      by_cases hx2 : x < w / 2
      · rw [range_ub (by omega) (by omega) (by
          rw [slice g _ _ i1 (by omega) (fun j h1 h2 => i2 j h1) x (by simp [halfStart, hx2]) (by simp [halfLen, hx2]), hstat _ (hne x), hz])]
        rfl
      · cases h1 : Electron.rowDarkRange statFunc o.ft o.optMean o.bg o.xr o.dark o.gain (y * w) (w / 2) g with
        | ub => rfl
        | throw m => exact absurd h1 (noThrow_range hnt _ _ _ _ _ _ _ _ _ m)
        | ok g1 =>
          obtain ⟨a1, a2⟩ := range_frame h1
          rw [Outcome.ok_bind]
          refine range_ub (by omega) (by omega) ?_
          rw [slice g1 _ _ (by omega) (by omega) (fun j h1 h2 => by rw [a2 j (by omega)]; exact i2 j (by omega)) x
            (by simp [halfStart, hx2]) (by simp [halfLen, hx2]), hstat _ (hne x), hz]
  unfold Electron.countFrameStream
  rw [hrd]
  simp only [key]
  rfl

/-! ### Frames with missing sectors -/

theorem mean_zeros (n : Nat) : meanOf (List.replicate n 0) = 0 := by
  simp [meanOf]

theorem median_zeros (n : Nat) : sortedMedian (List.replicate n 0) = 0 := by
  have h : (List.replicate n (0 : Rat)).mergeSort (fun a b => decide (a ≤ b)) = List.replicate n 0 :=
    List.mergeSort_of_pairwise (by simp [List.pairwise_replicate])
  have hz : ∀ i, (List.replicate n (0 : Rat)).getD i 0 = 0 := by
    intro i
    by_cases hi : i < n <;> simp [hi]
  simp only [sortedMedian]
  rw [h]
  simp only [hz]
  simp

/-- **C86** is false for the incomplete frames which the multi-pass reader delivers: if the record of a sector of a frame is missing in the
files, then with row dark correction (mean or median), a gain and no dark reference, no pixel in the strips' rows next to
the missing sector is an event. For all files, records, gains and thresholds. -/
theorem C86_missing_sector_false {files : List (MultiPass.File (List Nat))} {all : List ScanFrame} (hscan : IsScan files all)
    {f : ScanFrame} (hf : f ∈ all) {sec : Nat} (hsec : sec < 4) (hmiss : ¬ ∃ r, HasRecord files f.x f.y f.number sec r)
    {o : Options} {bg xr : Rat} (hbg : o.bg = .fin bg) (hxr : o.xr = .fin xr) (hbg0 : 0 ≤ bg) (hg : o.gain.length = 576 * 576)
    (hd : o.dark = none)
    (hrd : o.rowDark = some meanStat ∨ ∃ nth, NthElement nth ∧ o.rowDark = some (medianStat nth)) :
    ∃ events, count o (576, 576) (ofPixels f.pixels) = .ok events ∧
      ∀ x y, x < 576 → y < 576 → (y / 144 = sec ∨ y + 1 = 144 * sec ∨ y = 144 * (sec + 1)) → y * 576 + x ∉ events := by
  have hl := hscan.size f hf
  have ok : FrameOK 576 576 f.pixels bg := ⟨by decide, by decide, by decide, by decide, hl, hbg0⟩
  have hzero : ∀ x y, x < 576 → y < 576 → y / 144 = sec → f.pixels.getD (y * 576 + x) 0 = 0 := by
    intro x y hx hy h
    have := hscan.zero f hf x y hx hy (by rw [h]; exact hmiss)
    rw [Nat.mul_comm] at this
    rw [List.getD_eq_getElem?_getD, this]
    rfl
  have hhalf : ∀ x y, x < 576 → y < 576 → y / 144 = sec → halfRow 576 (pixels f.pixels) x y = List.replicate (halfLen 576 x) 0 := by
    intro x y hx hy h
    apply List.ext_getElem?
    intro k
    unfold halfRow
    by_cases hk : k < halfLen 576 x
    · rw [List.getElem?_map, List.getElem?_range hk, List.getElem?_replicate, if_pos hk, Option.map_some]
      congr 1
      have hlt : halfStart 576 x + k < 576 := by
        unfold halfStart halfLen at *
        split <;> rename_i hh
        · rw [if_pos hh] at hk; omega
        · rw [if_neg hh] at hk; omega
      have h0 := hzero (halfStart 576 x + k) y hlt hy h
      have hb : y * 576 + halfStart 576 x + k < f.pixels.length := by rw [hl]; omega
      rw [← Nat.add_assoc] at h0
      simp only [List.getD_eq_getElem?_getD, List.getElem?_eq_getElem hb, Option.getD_some] at h0
      simp [pixels, hb, h0]
    · rw [List.getElem?_eq_none (by simpa using hk), List.getElem?_eq_none (by simpa using hk)]
  obtain ⟨statFunc, stat, h1, h2, h3⟩ : ∃ (statFunc : List Fl → Outcome Fl) (stat : List Rat → Fl), o.rowDark = some statFunc ∧
      (∀ l, l ≠ [] → statFunc (l.map Fl.fin) = .ok (stat l)) ∧ ∀ n, stat (List.replicate n 0) = .fin 0 := by
    rcases hrd with h | ⟨nth, hn, h⟩
    · exact ⟨_, fun l => .fin (meanOf l), h, C86_mean, fun n => congrArg Fl.fin (mean_zeros n)⟩
    · exact ⟨_, fun l => .fin (sortedMedian l), h, C86_median hn, fun n => congrArg Fl.fin (median_zeros n)⟩
  have key : ∀ x' y', x' < 576 → y' < 576 → y' / 144 = sec → ∃ events, count o (576, 576) (ofPixels f.pixels) = .ok events ∧
      y' * 576 + x' ∉ events ∧ ∀ x y, x < 576 → y < 576 → Neighbour x y x' y' → y * 576 + x ∉ events := by
    intro x' y' hx' hy' h
    exact C86_missing_false ok hbg hxr h1 h2 hg hd hx' hy' (by rw [hhalf x' y' hx' hy' h, h3]) (hzero x' y' hx' hy' h)
  obtain ⟨ev, e1, _⟩ := key 0 (144 * sec) (by omega) (by omega) (by omega)
  refine ⟨ev, e1, ?_⟩
  intro x y hx hy h
  rcases h with h | h | h
  · obtain ⟨ev', e1', e2, _⟩ := key x y hx hy h
    rw [e1] at e1'
    cases e1'
    exact e2
  · obtain ⟨ev', e1', _, e3⟩ := key x (y + 1) hx (by omega) (by omega)
    rw [e1] at e1'
    cases e1'
    exact e3 x y hx hy (by unfold Neighbour; omega)
  · obtain ⟨ev', e1', _, e3⟩ := key x (y - 1) hx (by omega) (by omega)
    rw [e1] at e1'
    cases e1'
    exact e3 x y hx hy (by unfold Neighbour; omega)

/-! ### Examples -/

/-- A frame of 4 rows of which the lower two are missing, with an electron at `(1, 1)`. -/
def missingFrame : List Nat := [1, 1, 1, 1, 1, 9, 1, 1, 0, 0, 0, 0, 0, 0, 0, 0]

/-- Row dark correction with the mean, a gain of 1, thresholds 2 and 100. -/
def missingOptions : Options := ⟨.fin 2, .fin 100, none, List.replicate 16 (.fin 1), some meanStat, .fin 3⟩

private def missingValue (j : Nat) : Fl :=
  rowValue (.fin 3) none (List.replicate 16 (.fin 1)) (.fin (meanOf (halfRow 4 (pixels missingFrame) (j % 4) (j / 4)))) missingFrame j

private def smallValue : Fl → Bool
  | .fin q => decide (q ≤ 3)
  | _ => true

/-- **C86** is false: the electron is a peak, but not counted. -/
theorem C86_false : IsPeak 2 100 4 4 (fun j => rowValue (.fin 3) none (List.replicate 16 (.fin 1))
      (.fin (meanOf (halfRow 4 (pixels missingFrame) (j % 4) (j / 4)))) missingFrame j) 1 1 ∧
    count missingOptions (4, 4) (ofPixels missingFrame) = .ok [] := by
  constructor
  · have h5 : missingValue 5 = .fin (27 / 5) := by decide +kernel
    have hle : ∀ j < 16, j = 5 ∨ smallValue (missingValue j) = true := by decide +kernel
    refine ⟨27 / 5, h5, by norm_num, by norm_num, ?_⟩
    intro x' y' hx hy hn q' hq _ _
    rcases hle (y' * 4 + x') (by omega) with h | h
    · unfold Neighbour at hn; omega
    · have hq : missingValue (y' * 4 + x') = .fin q' := hq
      rw [hq] at h
      exact lt_of_le_of_lt (of_decide_eq_true h) (by norm_num)
  · decide +kernel

/-- the theorem about missing half rows applies to it -/
example : ∃ events, count missingOptions (4, 4) (ofPixels missingFrame) = .ok events ∧ 2 * 4 + 1 ∉ events ∧
    ∀ x y, x < 4 → y < 4 → Neighbour x y 1 2 → y * 4 + x ∉ events :=
  C86_missing_false (o := missingOptions) (bg := 2) (xr := 100) (stat := fun l => .fin (meanOf l))
    ⟨by decide, by decide, by decide, by decide, by decide, by decide⟩ rfl rfl rfl C86_mean (by decide) rfl (by decide) (by decide)
    (by decide +kernel) (by decide)

/-- with the lower rows present, the electron is counted -/
example : count missingOptions (4, 4) (ofPixels [1, 1, 1, 1, 1, 9, 1, 1, 1, 1, 1, 1, 1, 1, 1, 1]) = .ok [5] := by decide +kernel

/-- a pixel with the gain NaN hides its neighbours -/
example : count ⟨.fin 2, .fin 100, none, [.nan, .fin 1, .fin 1, .fin 1], none, .fin 0⟩ (4, 1) (ofPixels [1, 9, 1, 5]) = .ok [3] := by
  decide +kernel

/-- without gain the frame with missing rows is undefined -/
example : Electron.countFrameStream ⟨.u16, 2, 100, none, none, some Electron.meanStat, 3⟩ (4, 4) (pixels missingFrame) = .ub :=
  C86_no_gain_undefined (statFunc := Electron.meanStat) (stat := fun l => l.sum / l.length)
    (⟨.u16, 2, 100, none, none, some Electron.meanStat, 3⟩ : Electron.CountOptions) rfl rfl (by decide) (by decide) (by decide)
    (fun l h => Props.C14_mean l h) (by intro e; simp [Electron.meanStat]) (x := 0) (y := 2) (by decide) (by decide) (by decide +kernel)

/-- a frame of which only the first sector was written: the rows up to the fourth sector have no events, the row above neither -/
example {all : List ScanFrame} (hscan : IsScan [⟨0, [⟨0, 0, 0, 1, 1, 0, List.replicate (144 * 576) 1⟩]⟩] all) {f : ScanFrame} (hf : f ∈ all) :
    ∃ events, count ⟨.fin 2, .fin 100, none, List.replicate (576 * 576) (.fin 1), some meanStat, .fin 3⟩ (576, 576) (ofPixels f.pixels) =
      .ok events ∧ ∀ x y, x < 576 → y < 576 → (y / 144 = 1 ∨ y + 1 = 144 * 1 ∨ y = 144 * (1 + 1)) → y * 576 + x ∉ events :=
  C86_missing_sector_false hscan hf (by decide)
    (by
      rintro ⟨r, file, h1, _, h3, _⟩
      rw [List.mem_singleton.1 h1] at h3
      cases h3)
    (bg := 2) (xr := 100) rfl rfl (by decide) List.length_replicate rfl (Or.inl rfl)

end Stempy.FloatPixels
