import Verif.Props.Counting
import Mathlib.Data.List.Sort

/-!
C14: row dark correction.
-/

namespace Stempy.Props
open Stempy.Electron Stempy.Spec

/-! Specification: the half row of a pixel. -/

/-- First column of the half row of column `x` in a row of width `w`. -/
def halfStart (w x : Nat) : Nat := if x < w / 2 then 0 else w / 2

/-- Number of columns of the half row of column `x`: the right half has the extra column. -/
def halfLen (w x : Nat) : Nat := if x < w / 2 then w / 2 else w - w / 2

/-- The pixels of the half row of `(x, y)` in a frame with rows of width `w`. -/
def halfRow (w : Nat) (frame : List Rat) (x y : Nat) : List Rat :=
  (List.range (halfLen w x)).map fun k => frame.getD (y * w + halfStart w x + k) 0

/-- Corrected value with gain: dark subtracted, scaled by the ratio of the optimized mean and the statistic,
multiplied by the gain. -/
def rowDarkFloat (optMean : Rat) (dark : Option (List Rat)) (gain : List Rat) (stat : Rat) (j : Nat)
    (v : Rat) : Rat :=
  (v - (match dark with | none => 0 | some d => d.getD j 0)) * (optMean / stat) * gain.getD j 0

/-- Dark subtraction without gain: truncated. -/
def darkU16 (dark : Option (List Rat)) (j : Nat) (v : Rat) : Rat :=
  match dark with | none => v | some d => (truncZero (v - d.getD j 0) : Rat)

/-- Corrected value without gain: truncated after the subtraction and after the scaling. -/
def rowDarkU16 (optMean : Rat) (dark : Option (List Rat)) (stat : Rat) (j : Nat) (v : Rat) : Rat :=
  truncZero (darkU16 dark j v * (optMean / stat))

private theorem range_ok {statFunc : List Rat → Outcome (Option Rat)} {ft : FT} {optMean bg xr : Rat}
    {dark gain : Option (List Rat)} {start len : Nat} {frame : List Rat} {s : Option Rat}
    (P : Nat → Rat → Rat)
    (hb : start + len ≤ frame.length) (hs : statFunc ((frame.drop start).take len) = .ok s)
    (hP : ∀ j (hj : j < frame.length), start ≤ j → j < start + len →
      rowDarkPixel ft optMean bg xr dark gain s j frame[j] = .ok (P j frame[j])) :
    ∃ out, rowDarkRange statFunc ft optMean bg xr dark gain start len frame = .ok out ∧
      out.length = frame.length ∧ ∀ j, out[j]? =
        if start ≤ j ∧ j < start + len then (frame[j]?).map (P j) else frame[j]? := by
  unfold rowDarkRange
  rw [if_pos hb, hs, Outcome.ok_bind]
  obtain ⟨out, h1, h2, h3⟩ := foldlM_range_inv len (fun fr k => do
      let v ← readAt fr (start + k)
      let v' ← rowDarkPixel ft optMean bg xr dark gain s (start + k) v
      writeAt fr (start + k) v')
    (fun k fr => fr.length = frame.length ∧ ∀ j, fr[j]? =
      if start ≤ j ∧ j < start + k then (frame[j]?).map (P j) else frame[j]?)
    frame ⟨rfl, by intro j; rw [if_neg (by omega)]⟩
    (by
      rintro k hk fr ⟨e1, e2⟩
      have hlt : start + k < frame.length := by omega
      have r1 : readAt fr (start + k) = .ok frame[start + k] := by
        rw [readAt_eq_ok, e2, if_neg (by omega)]
        exact List.getElem?_eq_getElem hlt
      simp only [r1, Outcome.ok_bind, hP (start + k) hlt (by omega) (by omega)]
      rw [writeAt_lt (by omega)]
      refine ⟨_, rfl, by simpa using e1, ?_⟩
      intro j
      by_cases hjk : j = start + k
      · subst hjk
        rw [List.getElem?_set_self (by omega), if_pos (by omega), List.getElem?_eq_getElem hlt]
        rfl
      · rw [List.getElem?_set_ne (fun h => hjk h.symm), e2 j]
        have : (start ≤ j ∧ j < start + k) ↔ (start ≤ j ∧ j < start + (k + 1)) := by omega
        simp only [this])
  exact ⟨out, h1, h2, h3⟩

private theorem slice_eq {frame : List Rat} {start len : Nat} (h : start + len ≤ frame.length) :
    (frame.drop start).take len = (List.range len).map fun k => frame.getD (start + k) 0 := by
  apply List.ext_getElem?
  intro k
  by_cases hk : k < len
  · rw [List.getElem?_take_of_lt hk, List.getElem?_drop]
    have : start + k < frame.length := by omega
    simp [hk, this]
  · rw [List.getElem?_eq_none (by rw [List.length_take]; omega), List.getElem?_eq_none (by simp; omega)]

/-- What `applyRowDark` computes: it works on `A` rows of length `B`, where `(A, B)` are the frame
dimensions in the order (width, height) of the rest of the code. -/
private theorem rowDark_general {statFunc : List Rat → Outcome (Option Rat)} {stat : List Rat → Rat}
    {ft : FT} {optMean bg xr : Rat} {dark gain : Option (List Rat)} {A B : Nat} {frame : List Rat}
    (P : Rat → Nat → Rat → Rat) (hB : 2 ≤ B) (hsz : A * B < 2 ^ 32) (hl : frame.length = A * B)
    (hstat : ∀ l, l ≠ [] → statFunc l = .ok (some (stat l)))
    (hP : ∀ x y, x < B → y < A → rowDarkPixel ft optMean bg xr dark gain
      (some (stat (halfRow B frame x y))) (y * B + x) (frame.getD (y * B + x) 0) =
        .ok (P (stat (halfRow B frame x y)) (y * B + x) (frame.getD (y * B + x) 0))) :
    ∃ out, applyRowDark statFunc ft (A, B) optMean bg xr dark gain frame = .ok out ∧
      out.length = frame.length ∧ ∀ x y, x < B → y < A → out[y * B + x]? =
        some (P (stat (halfRow B frame x y)) (y * B + x) (frame.getD (y * B + x) 0)) := by
  let fin : Nat → Rat := fun j => P (stat (halfRow B frame (j % B) (j / B))) j (frame.getD j 0)
  obtain ⟨out, h1, h2, h3⟩ := foldlM_range_inv A (fun fr row => do
    let i := (row * B) % 2 ^ 32
    let fr ← rowDarkRange statFunc ft optMean bg xr dark gain i (B / 2) fr
    rowDarkRange statFunc ft optMean bg xr dark gain (i + B / 2) (B - B / 2) fr)
    (fun k fr => fr.length = frame.length ∧ ∀ j, j < A * B → fr[j]? =
      if j < k * B then some (fin j) else frame[j]?) frame
    ⟨rfl, by intro j _; rw [if_neg (by omega)]⟩
    (by
      rintro row hrow fr ⟨e1, e2⟩
      have hrl : row * B + B ≤ A * B := by
        calc row * B + B = (row + 1) * B := by ring
          _ ≤ A * B := Nat.mul_le_mul_right _ hrow
      have hi : (row * B) % 2 ^ 32 = row * B := Nat.mod_eq_of_lt (by omega)
      simp only [hi]
      -- pixels of this row are still the original ones
      have horig : ∀ j, row * B ≤ j → j < A * B → fr[j]? = frame[j]? := by
        intro j a b; rw [e2 j b, if_neg (by omega)]
      have hgetD : ∀ j, j < A * B → frame[j]? = some (frame.getD j 0) := by
        intro j hj
        have : j < frame.length := by omega
        simp [this]
      -- left half
      have hs1 : (fr.drop (row * B)).take (B / 2) = halfRow B frame 0 row := by
        rw [slice_eq (by omega)]
        unfold halfRow halfStart halfLen
        rw [if_pos (by omega), if_pos (by omega)]
        apply List.map_congr_left
        intro k hk
        have hk : k < B / 2 := by simpa using hk
        rw [List.getD_eq_getElem?_getD, horig _ (by omega) (by omega), List.getD_eq_getElem?_getD]
        simp
      have hne1 : halfRow B frame 0 row ≠ [] := by
        unfold halfRow halfLen
        rw [if_pos (by omega)]
        intro h
        have := congrArg List.length h
        simp at this
        omega
      have hhalf : ∀ x, x < B / 2 → halfRow B frame x row = halfRow B frame 0 row := by
        intro x hx
        unfold halfRow halfStart halfLen
        simp only [if_pos hx, if_pos (show 0 < B / 2 by omega)]
      have hhalf2 : ∀ x, B / 2 ≤ x → halfRow B frame x row = halfRow B frame (B / 2) row := by
        intro x hx
        unfold halfRow halfStart halfLen
        simp only [if_neg (show ¬ x < B / 2 by omega), if_neg (show ¬ B / 2 < B / 2 by omega)]
      have hval : ∀ (g : List Rat), (∀ j, row * B ≤ j → j < A * B → g[j]? = frame[j]?) →
          ∀ j (hj : j < g.length), row * B ≤ j → j < A * B → g[j] = frame.getD j 0 := by
        intro g hg j hj a b
        have := hg j a b
        rw [List.getElem?_eq_getElem hj, hgetD j b] at this
        exact Option.some.inj this
      obtain ⟨f1, a1, a2, a3⟩ := range_ok (statFunc := statFunc) (ft := ft) (optMean := optMean)
        (bg := bg) (xr := xr) (dark := dark) (gain := gain) (start := row * B) (len := B / 2)
        (frame := fr) (s := some (stat (halfRow B frame 0 row)))
        (fun j v => P (stat (halfRow B frame 0 row)) j v)
        (by omega) (by rw [hs1]; exact hstat _ hne1)
        (by
          intro j hj b1 b2
          obtain ⟨x, rfl⟩ : ∃ x, j = row * B + x := ⟨j - row * B, by omega⟩
          rw [hval fr horig _ hj b1 (by omega)]
          have := hP x row (by omega) hrow
          rw [hhalf x (by omega)] at this
          exact this)
      rw [a1, Outcome.ok_bind]
      have horig1 : ∀ j, row * B + B / 2 ≤ j → j < A * B → f1[j]? = frame[j]? := by
        intro j a b; rw [a3 j, if_neg (by omega), horig j (by omega) b]
      have hs2 : (f1.drop (row * B + B / 2)).take (B - B / 2) = halfRow B frame (B / 2) row := by
        rw [slice_eq (by omega)]
        unfold halfRow halfStart halfLen
        rw [if_neg (by omega), if_neg (by omega)]
        apply List.map_congr_left
        intro k hk
        have hk : k < B - B / 2 := by simpa using hk
        rw [List.getD_eq_getElem?_getD, horig1 _ (by omega) (by omega), List.getD_eq_getElem?_getD]
      have hne2 : halfRow B frame (B / 2) row ≠ [] := by
        unfold halfRow halfLen
        rw [if_neg (by omega)]
        intro h
        have := congrArg List.length h
        simp at this
        omega
      obtain ⟨f2, b1, b2, b3⟩ := range_ok (statFunc := statFunc) (ft := ft) (optMean := optMean)
        (bg := bg) (xr := xr) (dark := dark) (gain := gain) (start := row * B + B / 2)
        (len := B - B / 2)
        (frame := f1) (s := some (stat (halfRow B frame (B / 2) row)))
        (fun j v => P (stat (halfRow B frame (B / 2) row)) j v)
        (by omega) (by rw [hs2]; exact hstat _ hne2)
        (by
          intro j hj c1 c2
          obtain ⟨x, rfl⟩ : ∃ x, j = row * B + x := ⟨j - row * B, by omega⟩
          have hv : f1[row * B + x] = frame.getD (row * B + x) 0 := by
            have := horig1 (row * B + x) (by omega) (by omega)
            rw [List.getElem?_eq_getElem hj, hgetD _ (by omega)] at this
            exact Option.some.inj this
          rw [hv]
          have := hP x row (by omega) hrow
          rw [hhalf2 x (by omega)] at this
          exact this)
      refine ⟨f2, b1, by omega, ?_⟩
      intro j hj
      have hsucc : (row + 1) * B = row * B + B := by ring
      rw [hsucc, b3 j]
      by_cases c1 : j < row * B
      · rw [if_neg (by omega), a3 j, if_neg (by omega), e2 j hj, if_pos c1, if_pos (by omega)]
      · by_cases c2 : j < row * B + B
        · obtain ⟨x, rfl⟩ : ∃ x, j = row * B + x := ⟨j - row * B, by omega⟩
          have hx : x < B := by omega
          have hfin : fin (row * B + x) = P (stat (halfRow B frame x row)) (row * B + x)
              (frame.getD (row * B + x) 0) := by
            simp only [fin, flat_mod row hx, flat_div row hx]
          rw [if_pos c2, hfin]
          by_cases c3 : x < B / 2
          · rw [if_neg (by omega), a3, if_pos (by omega), horig _ (by omega) hj, hgetD _ hj,
              hhalf x c3]
            rfl
          · rw [if_pos (by omega), horig1 _ (by omega) hj, hgetD _ hj, hhalf2 x (by omega)]
            rfl
        · rw [if_neg (by omega), a3 j, if_neg (by omega), e2 j hj, if_neg c1, if_neg (by omega)])
  refine ⟨out, h1, h2, ?_⟩
  intro x y hx hy
  have hlt : y * B + x < A * B := by
    have := flat_lt hx hy; rw [Nat.mul_comm A]; exact this
  rw [h3 _ hlt, if_pos hlt]
  simp only [fin, flat_mod y hx, flat_div y hx]

/-- **C14** with gain, what the code computes for frames of every shape: `w` rows of length `h`, where `(w, h)` are
width and height of the frame. A pixel is corrected with the statistic of its half of such a row. -/
theorem C14_rowdark_gain_exact {statFunc : List Rat → Outcome (Option Rat)} {stat : List Rat → Rat}
    {optMean bg xr : Rat} {dark : Option (List Rat)} {gain : List Rat} {w h : Nat} {frame : List Rat}
    (hw : 2 ≤ h) (hsz : w * h < 2 ^ 32) (hl : frame.length = w * h)
    (hstat : ∀ l, l ≠ [] → statFunc l = .ok (some (stat l)))
    (hg : gain.length = w * h) (hd : ∀ d, dark = some d → d.length = w * h)
    (hnz : ∀ x y, x < h → y < w → stat (halfRow h frame x y) ≠ 0) :
    ∃ out, applyRowDark statFunc .f32 (w, h) optMean bg xr dark (some gain) frame = .ok out ∧
      out.length = w * h ∧ ∀ x y, x < h → y < w → out[y * h + x]? =
        some (eligible bg xr (rowDarkFloat optMean dark gain (stat (halfRow h frame x y)) (y * h + x)
          (frame.getD (y * h + x) 0))) := by
  obtain ⟨out, h1, h2, h3⟩ := rowDark_general (ft := .f32) (optMean := optMean) (bg := bg) (xr := xr)
    (dark := dark) (gain := some gain)
    (fun s j v => eligible bg xr (rowDarkFloat optMean dark gain s j v)) hw hsz hl hstat (by
      intro x y hx hy
      have hlt : y * h + x < w * h := by rw [Nat.mul_comm w]; exact flat_lt hx hy
      generalize y * h + x = j at *
      have hrg : readPtr (some gain) j = .ok (gain.getD j 0) := by
        have : j < gain.length := by omega
        simp [readPtr, readAt_lt this, this]
      unfold rowDarkPixel rowDarkFloat
      rw [hrg]
      cases hdk : dark with
      | none => simp [hnz x y hx hy, store, thresholdPixel_eq]
      | some d =>
        have hrd : readPtr (some d) j = .ok (d.getD j 0) := by
          have : j < d.length := by rw [hd d hdk]; omega
          simp [readPtr, readAt_lt this, this]
        simp only [hrd, Outcome.ok_bind, Outcome.pure_eq, hnz x y hx hy, store, thresholdPixel_eq,
          if_false])
  exact ⟨out, h1, by omega, h3⟩

/-- **C14** without gain, what the code computes for frames of every shape. -/
theorem C14_rowdark_u16_exact {statFunc : List Rat → Outcome (Option Rat)} {stat : List Rat → Rat}
    {optMean bg xr : Rat} {dark : Option (List Rat)} {w h : Nat} {frame : List Rat}
    (hw : 2 ≤ h) (hsz : w * h < 2 ^ 32) (hl : frame.length = w * h)
    (hstat : ∀ l, l ≠ [] → statFunc l = .ok (some (stat l)))
    (hd : ∀ d, dark = some d → d.length = w * h ∧ ∀ j, j < w * h →
      -1 < frame.getD j 0 - d.getD j 0 ∧ frame.getD j 0 - d.getD j 0 < 65536)
    (hnz : ∀ x y, x < h → y < w → stat (halfRow h frame x y) ≠ 0)
    (hrange : ∀ x y, x < h → y < w → ∀ c,
      c = darkU16 dark (y * h + x) (frame.getD (y * h + x) 0) *
        (optMean / stat (halfRow h frame x y)) → -1 < c ∧ c < 65536) :
    ∃ out, applyRowDark statFunc .u16 (w, h) optMean bg xr dark none frame = .ok out ∧
      out.length = w * h ∧ ∀ x y, x < h → y < w → out[y * h + x]? =
        some (eligible bg xr (rowDarkU16 optMean dark (stat (halfRow h frame x y)) (y * h + x)
          (frame.getD (y * h + x) 0))) := by
  obtain ⟨out, h1, h2, h3⟩ := rowDark_general (ft := .u16) (optMean := optMean) (bg := bg) (xr := xr)
    (dark := dark) (gain := none)
    (fun s j v => eligible bg xr (rowDarkU16 optMean dark s j v)) hw hsz hl hstat (by
      intro x y hx hy
      have hlt : y * h + x < w * h := by rw [Nat.mul_comm w]; exact flat_lt hx hy
      have hr := hrange x y hx hy _ rfl
      have hn := hnz x y hx hy
      generalize stat (halfRow h frame x y) = s at *
      generalize y * h + x = j at *
      unfold rowDarkPixel rowDarkU16
      unfold darkU16 at *
      cases hdk : dark with
      | none =>
        rw [hdk] at hr
        simp only [Outcome.ok_bind, Outcome.pure_eq, hn, if_false, store,
          toU16_ok hr.1 hr.2, thresholdPixel_eq]
      | some d =>
        obtain ⟨d1, d2⟩ := hd d hdk
        have d2 := d2 j hlt
        rw [hdk] at hr
        have hrd : readPtr (some d) j = .ok (d.getD j 0) := by
          have : j < d.length := by omega
          simp [readPtr, readAt_lt this, this]
        simp only [hrd, Outcome.ok_bind, Outcome.pure_eq, hn, if_false, store,
          toU16_ok d2.1 d2.2, toU16_ok hr.1 hr.2, thresholdPixel_eq])
  exact ⟨out, h1, by omega, h3⟩

/-- **C14** with gain, for square frames: every pixel is corrected with the statistic of its own half row, then
thresholded. Missing for the full statement: non-square frames, for which it is false
(`C14_not_square`). -/
theorem C14_rowdark_gain_partial {statFunc : List Rat → Outcome (Option Rat)} {stat : List Rat → Rat}
    {optMean bg xr : Rat} {dark : Option (List Rat)} {gain : List Rat} {w : Nat} {frame : List Rat}
    (hw : 2 ≤ w) (hsz : w * w < 2 ^ 32) (hl : frame.length = w * w)
    (hstat : ∀ l, l ≠ [] → statFunc l = .ok (some (stat l)))
    (hg : gain.length = w * w) (hd : ∀ d, dark = some d → d.length = w * w)
    (hnz : ∀ x y, x < w → y < w → stat (halfRow w frame x y) ≠ 0) :
    ∃ out, applyRowDark statFunc .f32 (w, w) optMean bg xr dark (some gain) frame = .ok out ∧
      out.length = w * w ∧ ∀ x y, x < w → y < w → out[y * w + x]? =
        some (eligible bg xr (rowDarkFloat optMean dark gain (stat (halfRow w frame x y)) (y * w + x)
          (frame.getD (y * w + x) 0))) :=
  C14_rowdark_gain_exact hw hsz hl hstat hg hd hnz

/-- **C14** without gain, for square frames. -/
theorem C14_rowdark_u16_partial {statFunc : List Rat → Outcome (Option Rat)} {stat : List Rat → Rat}
    {optMean bg xr : Rat} {dark : Option (List Rat)} {w : Nat} {frame : List Rat}
    (hw : 2 ≤ w) (hsz : w * w < 2 ^ 32) (hl : frame.length = w * w)
    (hstat : ∀ l, l ≠ [] → statFunc l = .ok (some (stat l)))
    (hd : ∀ d, dark = some d → d.length = w * w ∧ ∀ j, j < w * w →
      -1 < frame.getD j 0 - d.getD j 0 ∧ frame.getD j 0 - d.getD j 0 < 65536)
    (hnz : ∀ x y, x < w → y < w → stat (halfRow w frame x y) ≠ 0)
    (hrange : ∀ x y, x < w → y < w → ∀ c,
      c = darkU16 dark (y * w + x) (frame.getD (y * w + x) 0) *
        (optMean / stat (halfRow w frame x y)) → -1 < c ∧ c < 65536) :
    ∃ out, applyRowDark statFunc .u16 (w, w) optMean bg xr dark none frame = .ok out ∧
      out.length = w * w ∧ ∀ x y, x < w → y < w → out[y * w + x]? =
        some (eligible bg xr (rowDarkU16 optMean dark (stat (halfRow w frame x y)) (y * w + x)
          (frame.getD (y * w + x) 0))) :=
  C14_rowdark_u16_exact hw hsz hl hstat hd hnz hrange

/-- **C12** with row dark correction and gain on square frames, for both counting paths. -/
theorem C12_rowdark_gain {o : CountOptions} {statFunc : List Rat → Outcome (Option Rat)}
    {stat : List Rat → Rat} {gain : List Rat} {w : Nat} {frame : List Nat}
    (ok : FrameOK w w frame o.bg) (hrd : o.rowDark = some statFunc) (hft : o.ft = .f32)
    (hstat : ∀ l, l ≠ [] → statFunc l = .ok (some (stat l)))
    (hg : o.gain = some gain) (hgl : gain.length = w * w)
    (hd : ∀ d, o.dark = some d → d.length = w * w)
    (hnz : ∀ x y, x < w → y < w → stat (halfRow w (pixels frame) x y) ≠ 0) :
    ∃ events, countFrameStream o (w, w) (pixels frame) = .ok events ∧
      countFrameClassic o (w, w) (pixels frame) = .ok events ∧
      IsEventList o.bg o.xr w w (fun j => rowDarkFloat o.optMean o.dark gain
        (stat (halfRow w (pixels frame) (j % w) (j / w))) j ((pixels frame).getD j 0)) events := by
  have hw2 : 2 ≤ w := by
    have := ok.two
    by_contra h
    have h : w ≤ 1 := by omega
    have : w * w ≤ 1 * 1 := Nat.mul_le_mul h h
    omega
  have hl : (pixels frame).length = w * w := by simp [pixels, ok.len]
  obtain ⟨out, h1, h2, h3⟩ := C14_rowdark_gain_partial (optMean := o.optMean) (bg := o.bg) (xr := o.xr)
    hw2 ok.size hl hstat hgl hd hnz
  let c : Nat → Rat := fun j => rowDarkFloat o.optMean o.dark gain
        (stat (halfRow w (pixels frame) (j % w) (j / w))) j ((pixels frame).getD j 0)
  have hout : out = (List.range (w * w)).map fun j => eligible o.bg o.xr (c j) := by
    apply List.ext_getElem?
    intro j
    by_cases hj : j < w * w
    · obtain ⟨a, b⟩ := divmod_lt hj
      have := h3 (j % w) (j / w) a b
      have e : j / w * w + j % w = j := by rw [Nat.mul_comm]; exact Nat.div_add_mod j w
      rw [e] at this
      rw [this]
      simp [hj, c]
    · rw [List.getElem?_eq_none (by omega), List.getElem?_eq_none (by simp; omega)]
  obtain ⟨ev, e1, e2⟩ := maximalPoints_eligible ok.wlt ok.hlt ok.size ok.two ok.bg0 (xr := o.xr) c
  refine ⟨ev, ?_, ?_, e2⟩
  · unfold countFrameStream
    rw [hrd, hft, hg]
    simp only [h1, Outcome.ok_bind, hout, e1]
  · unfold countFrameClassic
    rw [hrd, hft, hg]
    simp only [h1, Outcome.ok_bind, hout, e1]

/-- **C14** is false for non-square frames: on a detector of width 4 and height 1 the two pixels of the left half
are scaled by different statistics, because the code uses the width as the number of rows. The correct
result is `[1, 3, 2, 2]` scaled with the mean 2 of each half, i.e. unchanged for `optimizedMean = 2`. -/
theorem C14_nonsquare_false :
    applyRowDark meanStat .f32 (4, 1) 2 (-1) 100 none (some [1, 1, 1, 1]) [1, 3, 2, 2] =
      .ok [2, 2, 2, 2] ∧
    (List.range 4).map (fun x => eligible (-1) 100 (rowDarkFloat 2 none [1, 1, 1, 1]
      ((halfRow 4 [1, 3, 2, 2] x 0).sum / (halfRow 4 [1, 3, 2, 2] x 0).length) x
      (([1, 3, 2, 2] : List Rat).getD x 0))) = [1, 3, 2, 2] := by
  decide +kernel

/-- **C14** the mean statistic. -/
theorem C14_mean (l : List Rat) (h : l ≠ []) : meanStat l = .ok (some (l.sum / l.length)) := by
  unfold meanStat
  rw [if_neg (by simpa using h)]

/-- A frame with the value 3 at `p` and 1 elsewhere. -/
def oneBright (n p : Nat) : List Rat := (List.range n).map fun j => if j = p then 3 else 1

private theorem oneBright_getD {n p j : Nat} (h : j < n) :
    (oneBright n p).getD j 0 = if j = p then 3 else 1 := by
  simp [oneBright, h]

private theorem sum_ge_length (l : List Rat) (h : ∀ v ∈ l, 1 ≤ v) : (l.length : Rat) ≤ l.sum := by
  induction l with
  | nil => simp
  | cons a l ih =>
    have h1 := h a (by simp)
    have h2 := ih (fun v hv => h v (by simp [hv]))
    simp only [List.length_cons, List.sum_cons, Nat.cast_add, Nat.cast_one]
    linarith

private theorem sum_gt_length (l : List Rat) (h : ∀ v ∈ l, 1 ≤ v) (h3 : 3 ∈ l) :
    (l.length : Rat) < l.sum := by
  induction l with
  | nil => simp at h3
  | cons a l ih =>
    have h1 := h a (by simp)
    have hr := sum_ge_length l (fun v hv => h v (by simp [hv]))
    simp only [List.length_cons, List.sum_cons, Nat.cast_add, Nat.cast_one]
    rcases List.mem_cons.1 h3 with rfl | h3
    · linarith
    · have h2 := ih (fun v hv => h v (by simp [hv])) h3
      linarith

/-- The mean of a list. -/
def meanOf (l : List Rat) : Rat := l.sum / l.length

/-- Index `p` is in the half row of `(x, y)` for rows of width `w`. -/
def inHalf (w x y p : Nat) : Prop :=
  y * w + halfStart w x ≤ p ∧ p < y * w + halfStart w x + halfLen w x

private theorem half_end {w x : Nat} (hx : x < w) : halfStart w x + halfLen w x ≤ w := by
  unfold halfStart halfLen; split <;> omega

private theorem halfLen_pos {w x : Nat} (hw : 2 ≤ w) : 0 < halfLen w x := by
  unfold halfLen; split <;> omega

private theorem half_bound {w h x y k : Nat} (hx : x < w) (hy : y < h) (hk : k < halfLen w x) :
    y * w + halfStart w x + k < w * h := by
  have h1 := half_end hx
  have h2 : (y + 1) * w ≤ h * w := Nat.mul_le_mul_right _ hy
  rw [Nat.add_mul, Nat.one_mul, Nat.mul_comm h w] at h2
  omega

private theorem halfRow_ones {w h x y p : Nat} (hx : x < w) (hy : y < h) :
    ∀ v ∈ halfRow w (oneBright (w * h) p) x y, 1 ≤ v := by
  intro v hv
  unfold halfRow at hv
  obtain ⟨k, hk, rfl⟩ := List.mem_map.1 hv
  have hk : k < halfLen w x := by simpa using hk
  rw [oneBright_getD (half_bound hx hy hk)]
  split <;> norm_num

private theorem mean_in {w h x y p : Nat} (hx : x < w) (hy : y < h) (hp : inHalf w x y p) :
    1 < meanOf (halfRow w (oneBright (w * h) p) x y) := by
  have h3 : (3 : Rat) ∈ halfRow w (oneBright (w * h) p) x y := by
    obtain ⟨a, b⟩ := hp
    refine List.mem_map.2 ⟨p - (y * w + halfStart w x), by simp; omega, ?_⟩
    rw [oneBright_getD (half_bound hx hy (by omega)), if_pos (by omega)]
  have := sum_gt_length _ (halfRow_ones hx hy) h3
  have hl : (0 : Rat) < ((halfRow w (oneBright (w * h) p) x y).length : Rat) := by
    exact_mod_cast List.length_pos_of_mem h3
  unfold meanOf
  rw [lt_div_iff₀ hl]
  linarith

private theorem mean_out {w h x y p : Nat} (hw : 2 ≤ w) (hx : x < w) (hy : y < h)
    (hp : ¬ inHalf w x y p) :
    meanOf (halfRow w (oneBright (w * h) p) x y) = 1 := by
  have : halfRow w (oneBright (w * h) p) x y = List.replicate (halfLen w x) 1 := by
    unfold halfRow
    rw [List.eq_replicate_iff]
    refine ⟨by simp, ?_⟩
    intro v hv
    obtain ⟨k, hk, rfl⟩ := List.mem_map.1 hv
    have hk : k < halfLen w x := by simpa using hk
    rw [oneBright_getD (half_bound hx hy hk), if_neg]
    intro e
    exact hp ⟨by omega, by omega⟩
  have hl : ((halfLen w x : Nat) : Rat) ≠ 0 := by
    have := halfLen_pos (x := x) hw
    exact_mod_cast (by omega : halfLen w x ≠ 0)
  rw [this]
  unfold meanOf
  simp [hl]

/-- The partitions into half rows of rows of width `w` and of width `h` are different. -/
private theorem halves_differ {w h : Nat} (hw : 2 ≤ w) (hh : 2 ≤ h) (hne : w ≠ h) :
    ∃ p q, p < q ∧ q < w * h ∧
      ¬ (inHalf w (q % w) (q / w) p ↔ inHalf h (q % h) (q / h) p) := by
  have hmul : 2 * w ≤ w * h := by rw [Nat.mul_comm]; exact Nat.mul_le_mul_left _ hh
  have hmul' : 2 * h ≤ w * h := Nat.mul_le_mul_right _ hw
  have first : ∀ n q, q < n → q % n = q ∧ q / n = 0 := fun n q hq =>
    ⟨Nat.mod_eq_of_lt hq, Nat.div_eq_of_lt hq⟩
  have second : ∀ n, 2 ≤ n → n % n = 0 ∧ n / n = 1 := fun n hn =>
    ⟨Nat.mod_self n, Nat.div_self (by omega)⟩
  rcases Nat.lt_trichotomy (w / 2) (h / 2) with hlt | heq | hgt
  · refine ⟨0, w / 2, by omega, by omega, ?_⟩
    obtain ⟨a, b⟩ := first w (w / 2) (by omega)
    obtain ⟨c, d⟩ := first h (w / 2) (by omega)
    rw [a, b, c, d]
    unfold inHalf halfStart halfLen
    rw [if_neg (by omega), if_neg (by omega), if_pos (by omega), if_pos (by omega)]
    omega
  · by_cases hwh : w < h
    · refine ⟨w / 2, w, by omega, by omega, ?_⟩
      obtain ⟨a, b⟩ := second w hw
      obtain ⟨c, d⟩ := first h w (by omega)
      rw [a, b, c, d]
      unfold inHalf halfStart halfLen
      rw [if_pos (by omega), if_pos (by omega), if_neg (by omega), if_neg (by omega)]
      omega
    · refine ⟨h / 2, h, by omega, by omega, ?_⟩
      obtain ⟨a, b⟩ := second h hh
      obtain ⟨c, d⟩ := first w h (by omega)
      rw [a, b, c, d]
      unfold inHalf halfStart halfLen
      rw [if_neg (by omega), if_neg (by omega), if_pos (by omega), if_pos (by omega)]
      omega
  · refine ⟨0, h / 2, by omega, by omega, ?_⟩
    obtain ⟨a, b⟩ := first h (h / 2) (by omega)
    obtain ⟨c, d⟩ := first w (h / 2) (by omega)
    rw [a, b, c, d]
    unfold inHalf halfStart halfLen
    rw [if_pos (by omega), if_pos (by omega), if_neg (by omega), if_neg (by omega)]
    omega

/-- **C14** is false for every frame shape that is not square: with the mean as statistic there is a frame with a
pixel which is not scaled with the mean of its own half row. -/
theorem C14_not_square {w h : Nat} (hw : 2 ≤ w) (hh : 2 ≤ h) (hne : w ≠ h) (hsz : w * h < 2 ^ 32) :
    ∃ frame : List Rat, frame.length = w * h ∧ (∀ v ∈ frame, v = 1 ∨ v = 3) ∧
      ∃ out, applyRowDark meanStat .f32 (w, h) 1 (-1) 100 none (some (List.replicate (w * h) 1)) frame =
          .ok out ∧
        ∃ x y, x < w ∧ y < h ∧ out[y * w + x]? ≠
          some (eligible (-1) 100 (rowDarkFloat 1 none (List.replicate (w * h) 1)
            (meanOf (halfRow w frame x y)) (y * w + x) (frame.getD (y * w + x) 0))) := by
  obtain ⟨p, q, hpq, hq, hd⟩ := halves_differ hw hh hne
  have hlen : (oneBright (w * h) p).length = w * h := by simp [oneBright]
  have hswap : oneBright (w * h) p = oneBright (h * w) p := by rw [Nat.mul_comm]
  have hq' : q < h * w := by rw [Nat.mul_comm]; exact hq
  have q1 : q % w < w := Nat.mod_lt _ (by omega)
  have q2 : q / w < h := Nat.div_lt_of_lt_mul hq
  have q3 : q % h < h := Nat.mod_lt _ (by omega)
  have q4 : q / h < w := Nat.div_lt_of_lt_mul hq'
  have m1 : ∀ x y, x < h → y < w → meanOf (halfRow h (oneBright (w * h) p) x y) ≠ 0 := by
    intro x y hx hy
    rw [hswap]
    by_cases hi : inHalf h x y p
    · exact ne_of_gt (lt_trans one_pos (mean_in hx hy hi))
    · rw [mean_out hh hx hy hi]; exact one_ne_zero
  obtain ⟨out, h1, h2, h3⟩ := C14_rowdark_gain_exact (statFunc := meanStat) (stat := meanOf)
    (optMean := 1) (bg := -1) (xr := 100) (dark := none) (gain := List.replicate (w * h) 1)
    (w := w) (h := h) (frame := oneBright (w * h) p) hh hsz hlen C14_mean (by simp) (by simp) m1
  refine ⟨_, hlen, ?_, out, h1, q % w, q / w, q1, q2, ?_⟩
  · intro v hv
    obtain ⟨j, _, rfl⟩ := List.mem_map.1 hv
    by_cases hj : j = p <;> simp [hj]
  · have e1 : q / w * w + q % w = q := by rw [Nat.mul_comm]; exact Nat.div_add_mod q w
    have e2 : q / h * h + q % h = q := by rw [Nat.mul_comm]; exact Nat.div_add_mod q h
    have hv := h3 (q % h) (q / h) q3 q4
    rw [e2] at hv
    rw [e1, hv, oneBright_getD hq, if_neg (by omega)]
    have hgq : (List.replicate (w * h) (1 : Rat)).getD q 0 = 1 := by simp [hq]
    have val : ∀ m : Rat, 1 ≤ m →
        eligible (-1) 100 (rowDarkFloat 1 none (List.replicate (w * h) 1) m q 1) = 1 / m := by
      intro m hm
      have hp : 0 < 1 / m := by positivity
      have hle : 1 / m ≤ 1 := by rw [div_le_one (by linarith)]; exact hm
      unfold rowDarkFloat eligible
      rw [hgq]
      simp only [sub_zero, one_mul, mul_one]
      rw [if_pos ⟨by linarith, by linarith⟩]
    have inv : ∀ m : Rat, 1 < m → 1 / m ≠ 1 := by
      intro m hm h
      rw [div_eq_one_iff_eq (by linarith)] at h
      linarith
    rw [not_iff] at hd
    by_cases hi : inHalf h (q % h) (q / h) p
    · have hn : ¬ inHalf w (q % w) (q / w) p := hd.2 hi
      rw [mean_out hw q1 q2 hn, hswap, val 1 le_rfl]
      have hm := mean_in q3 q4 hi
      rw [val _ (le_of_lt hm)]
      intro h
      exact inv _ hm (by simpa using h)
    · have hn : inHalf w (q % w) (q / w) p := by
        by_contra h; exact hi (hd.1 h)
      have hm := mean_in q1 q2 hn
      rw [val _ (le_of_lt hm), hswap, mean_out hh q3 q4 hi, val 1 le_rfl]
      intro h
      rw [← hswap] at h
      exact inv _ hm (by simpa using (Option.some.inj h).symm)

example : ∃ w h : Nat, 2 ≤ w ∧ 2 ≤ h ∧ w ≠ h ∧ w * h < 2 ^ 32 := ⟨576, 144, by decide⟩

/-- The contract of `std::nth_element`: a rearrangement with the `n`-th smallest at `n` and nothing
larger before it and nothing smaller after it. -/
def NthElement (nth : List Rat → Nat → List Rat) : Prop :=
  ∀ l n, n < l.length → (nth l n).Perm l ∧
    ∀ i j a b, (nth l n)[i]? = some a → (nth l n)[j]? = some b → i ≤ n → n ≤ j → a ≤ b

/-- The median of a list: the middle value of the sorted list, or the mean of the two middle values. -/
def sortedMedian (l : List Rat) : Rat :=
  let s := l.mergeSort (fun a b => decide (a ≤ b))
  if l.length % 2 = 1 then s.getD (l.length / 2) 0
  else (s.getD (l.length / 2 - 1) 0 + s.getD (l.length / 2) 0) / 2

private theorem mergeSort_sorted (l : List Rat) :
    (l.mergeSort (fun a b => decide (a ≤ b))).Pairwise (· ≤ ·) := by
  have := List.pairwise_mergeSort (le := fun a b : Rat => decide (a ≤ b))
    (fun a b c h1 h2 => by simp only [decide_eq_true_eq] at *; exact le_trans h1 h2)
    (fun a b => by simp only [Bool.or_eq_true, decide_eq_true_eq]; exact le_total a b) l
  exact this.imp (fun h => by simpa using h)

/-- Two sorted rearrangements of a list are equal. -/
private theorem sorted_unique {a b : List Rat} (hp : a.Perm b) (ha : a.Pairwise (· ≤ ·))
    (hb : b.Pairwise (· ≤ ·)) : a = b :=
  hp.eq_of_pairwise (fun _ _ _ _ h1 h2 => le_antisymm h1 h2) ha hb

theorem foldl_max_eq (l : List Rat) (a : Rat) :
    (a ≤ l.foldl max a ∧ ∀ b ∈ l, b ≤ l.foldl max a) ∧ l.foldl max a ∈ a :: l := by
  induction l generalizing a with
  | nil => simp
  | cons c l ih =>
    obtain ⟨⟨h1, h2⟩, h3⟩ := ih (max a c)
    simp only [List.foldl_cons]
    refine ⟨⟨le_trans (le_max_left _ _) h1, ?_⟩, ?_⟩
    · intro b hb
      rcases List.mem_cons.1 hb with rfl | hb
      · exact le_trans (le_max_right _ _) h1
      · exact h2 b hb
    · rcases List.mem_cons.1 h3 with h3 | h3
      · rw [h3]
        rcases max_choice a c with h | h <;> rw [h] <;> simp
      · simp [h3]

/-- **C14** the median statistic, for any `nth_element` that meets its contract. -/
theorem C14_median {nth : List Rat → Nat → List Rat} (hn : NthElement nth) (l : List Rat)
    (h : l ≠ []) : medianStat nth l = .ok (some (sortedMedian l)) := by
  have hlen : 0 < l.length := List.length_pos_of_ne_nil h
  obtain ⟨hp, ho⟩ := hn l (l.length / 2) (by omega)
  set n := l.length / 2 with hndef
  set u := nth l n with hu
  have hul : u.length = l.length := hp.length_eq
  set le : Rat → Rat → Bool := fun a b => decide (a ≤ b) with hle
  -- the sorted list is the sorted prefix, the n-th element, and the sorted rest
  have hun : n < u.length := by omega
  have hsplit : u = u.take n ++ u[n] :: u.drop (n + 1) := by
    rw [List.cons_getElem_drop_succ, List.take_append_drop]
  have hsrt : l.mergeSort le =
      (u.take n).mergeSort le ++ u[n] :: (u.drop (n + 1)).mergeSort le := by
    apply sorted_unique
    · have p1 : (l.mergeSort le).Perm u := (List.mergeSort_perm l le).trans hp.symm
      refine p1.trans ?_
      conv_lhs => rw [hsplit]
      exact List.Perm.append (List.mergeSort_perm _ le).symm
        ((List.mergeSort_perm _ le).symm.cons _)
    · exact mergeSort_sorted l
    · have hgetn : u[n]? = some u[n] := List.getElem?_eq_getElem hun
      have hpre : ∀ a ∈ u.take n, ∀ j b, n ≤ j → u[j]? = some b → a ≤ b := by
        intro a ha j b hj hb
        obtain ⟨i, hi⟩ := List.mem_iff_getElem?.1 ha
        have hin : i < n := by
          have := (List.getElem?_eq_some_iff.1 hi).1
          rw [List.length_take] at this; omega
        rw [List.getElem?_take_of_lt hin] at hi
        exact ho i j a b hi hb (by omega) hj
      have hpost : ∀ b ∈ u.drop (n + 1), ∃ j, n ≤ j ∧ u[j]? = some b := by
        intro b hb
        obtain ⟨i, hi⟩ := List.mem_iff_getElem?.1 hb
        rw [List.getElem?_drop] at hi
        exact ⟨n + 1 + i, by omega, hi⟩
      rw [List.pairwise_append]
      refine ⟨mergeSort_sorted _, ?_, ?_⟩
      · rw [List.pairwise_cons]
        refine ⟨?_, mergeSort_sorted _⟩
        intro b hb
        rw [List.mem_mergeSort] at hb
        obtain ⟨j, hj, hjb⟩ := hpost b hb
        exact ho n j _ _ hgetn hjb (le_refl _) hj
      · intro a ha b hb
        rw [List.mem_mergeSort] at ha
        rcases List.mem_cons.1 hb with rfl | hb
        · exact hpre a ha n _ (le_refl _) hgetn
        · rw [List.mem_mergeSort] at hb
          obtain ⟨j, hj, hjb⟩ := hpost b hb
          exact hpre a ha j b hj hjb
  have htl : ((u.take n).mergeSort le).length = n := by
    rw [List.length_mergeSort, List.length_take]; omega
  have hmid : (l.mergeSort le).getD n 0 = u[n] := by
    rw [hsrt, List.getD_eq_getElem?_getD, List.getElem?_append_right (by omega), htl]
    simp
  unfold medianStat sortedMedian
  simp only [← hndef, ← hu, ← hle]
  rw [readAt_lt hun, Outcome.ok_bind, hmid]
  by_cases hodd : l.length % 2 = 1
  · rw [if_pos hodd, if_pos hodd]; rfl
  · rw [if_neg hodd, if_neg hodd]
    have hn1 : 1 ≤ n := by omega
    cases htk : u.take n with
    | nil =>
      have := congrArg List.length htk
      rw [List.length_take, List.length_nil] at this
      omega
    | cons a t =>
      simp only [Outcome.pure_eq]
      congr 3
      congr 1
      -- the largest of the first n is the last of the sorted prefix
      have hlast : (l.mergeSort le).getD (n - 1) 0 = ((a :: t).mergeSort le).getD (n - 1) 0 := by
        rw [hsrt, htk, List.getD_eq_getElem?_getD, List.getD_eq_getElem?_getD,
          List.getElem?_append_left (by rw [← htk, htl]; omega)]
      rw [hlast]
      have hlt : n - 1 < ((a :: t).mergeSort le).length := by rw [← htk, htl]; omega
      have hge : ((a :: t).mergeSort le).getD (n - 1) 0 = ((a :: t).mergeSort le)[n - 1] := by
        rw [List.getD_eq_getElem?_getD, List.getElem?_eq_getElem hlt]; rfl
      rw [hge]
      obtain ⟨⟨m1, m2⟩, m3⟩ := foldl_max_eq t a
      apply le_antisymm
      · have hm : t.foldl max a ∈ (a :: t).mergeSort le := List.mem_mergeSort.2 m3
        obtain ⟨i, hi, hi2⟩ := List.mem_iff_getElem.1 hm
        have hil : i ≤ n - 1 := by
          have : ((a :: t).mergeSort le).length = n := by rw [← htk, htl]
          omega
        rw [← hi2]
        rcases Nat.eq_or_lt_of_le hil with e | e
        · subst e; exact le_refl _
        · exact (List.pairwise_iff_getElem.1 (mergeSort_sorted (a :: t))) i (n - 1) hi hlt e
      · have hm : ((a :: t).mergeSort le)[n - 1] ∈ a :: t := List.mem_mergeSort.1 (List.getElem_mem _)
        rcases List.mem_cons.1 hm with e | e
        · rw [e]; exact m1
        · exact m2 _ e

/-- **C14** with the median, a detector of width 1 is undefined: the left half is empty and its maximum is
read. -/
theorem C14_width_one_median_undefined {nth : List Rat → Nat → List Rat} (hn : nth [] 0 = [])
    (ft : FT) (optMean bg xr : Rat) (dark gain : Option (List Rat)) (v : Rat) :
    applyRowDark (medianStat nth) ft (1, 1) optMean bg xr dark gain [v] = .ub := by
  simp [applyRowDark, rowDarkRange, medianStat, hn, readAt, List.range_succ]

/-- a 2x2 frame satisfies the hypotheses of `C14_rowdark_gain_partial` with the mean -/
example : ∃ out, applyRowDark meanStat .f32 (2, 2) 3 0 100 none (some [1, 1, 1, 1]) [1, 3, 2, 2] = .ok out :=
  (C14_rowdark_gain_partial (stat := fun l => l.sum / l.length) (w := 2) (by norm_num) (by norm_num) rfl
    C14_mean rfl (by simp) (by
      have : ∀ x, x < 2 → ∀ y, y < 2 → (halfRow 2 [1, 3, 2, 2] x y).sum /
          ((halfRow 2 [1, 3, 2, 2] x y).length : Rat) ≠ 0 := by decide +kernel
      exact fun x y hx hy => this x hx y hy)).imp fun _ h => h.1

example : NthElement (fun l _ => l.mergeSort (fun a b => decide (a ≤ b))) := by
  intro l n _
  refine ⟨List.mergeSort_perm l _, ?_⟩
  intro i j a b hi hj h1 h2
  obtain ⟨hi1, rfl⟩ := List.getElem?_eq_some_iff.1 hi
  obtain ⟨hj1, rfl⟩ := List.getElem?_eq_some_iff.1 hj
  rcases Nat.eq_or_lt_of_le (Nat.le_trans h1 h2) with e | e
  · subst e; exact le_refl _
  · exact (List.pairwise_iff_getElem.1 (mergeSort_sorted l)) i j hi1 hj1 e

end Stempy.Props
