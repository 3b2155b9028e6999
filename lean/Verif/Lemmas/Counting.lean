import Verif.Props.Maxima
import Verif.Spec.Counting
import Mathlib.Tactic.NormNum
import Mathlib.Tactic.Positivity

/-!
Helper lemmas about the preprocessing of a frame.
-/

namespace Stempy.Props
open Stempy.Electron Stempy.Spec

theorem forPixels_ok {n : Nat} {f : Nat → Rat → Outcome Rat} {frame : List Rat}
    (hl : frame.length = n) (g : Nat → Rat)
    (h : ∀ j (hj : j < frame.length), f j frame[j] = .ok (g j)) :
    forPixels n f frame = .ok ((List.range n).map g) := by
  unfold forPixels
  obtain ⟨r, h1, h2, h3⟩ := foldlM_range_inv n (fun fr j => do
      let v ← readAt fr j
      let v' ← f j v
      writeAt fr j v')
    (fun k fr => fr.length = n ∧ ∀ j, j < n → fr[j]? = if j < k then some (g j) else frame[j]?)
    frame ⟨hl, by simp⟩
    (by
      rintro k hk fr ⟨e1, e2⟩
      have r1 : readAt fr k = .ok (frame[k]'(by omega)) := by
        rw [readAt_eq_ok, e2 k hk, if_neg (by omega)]
        simp [hl, hk]
      simp only [r1, Outcome.ok_bind, h k (by omega)]
      rw [writeAt_lt (by omega)]
      refine ⟨_, rfl, by simpa using e1, ?_⟩
      intro j hj
      by_cases hjk : j = k
      · subst hjk
        rw [List.getElem?_set_self (by omega), if_pos (by omega)]
      · rw [List.getElem?_set_ne (fun h => hjk h.symm), e2 j hj]
        have : j < k ↔ j < k + 1 := by omega
        simp only [this])
  rw [h1]
  congr 1
  apply List.ext_getElem?
  intro j
  by_cases hj : j < n
  · rw [h3 j hj, if_pos hj]; simp [hj]
  · rw [List.getElem?_eq_none (by omega), List.getElem?_eq_none (by simp; omega)]

theorem thresholdPixel_eq (bg xr v : Rat) : thresholdPixel bg xr v = eligible bg xr v := by
  unfold thresholdPixel eligible
  by_cases h : v ≤ bg ∨ v ≥ xr
  · rw [if_pos h, if_neg]
    rintro ⟨a, b⟩
    rcases h with h | h
    · exact absurd a (not_lt.2 h)
    · exact absurd b (not_lt.2 h)
  · rw [if_neg h, if_pos]
    simp only [not_or, not_le, ge_iff_le] at h
    exact h

theorem eligible_nonneg {bg xr c : Rat} (hbg : 0 ≤ bg) : 0 ≤ eligible bg xr c := by
  unfold eligible
  split
  · rename_i h; exact le_trans hbg (le_of_lt h.1)
  · exact le_refl _

/-- Every pixel of a detector with at least two pixels has a neighbour. -/
theorem exists_neighbour {w h x y : Nat} (hx : x < w) (hy : y < h) (h2 : 1 < w * h) :
    ∃ x' y', x' < w ∧ y' < h ∧ Neighbour x y x' y' := by
  unfold Neighbour
  rcases Nat.lt_or_ge 1 w with hw | hw
  · rcases Nat.eq_zero_or_pos x with h0 | h0
    · exact ⟨1, y, by omega, hy, by omega⟩
    · exact ⟨x - 1, y, by omega, hy, by omega⟩
  · have e : w = 1 := by omega
    subst e
    rcases Nat.eq_zero_or_pos y with h0 | h0
    · exact ⟨x, 1, by omega, by omega, by omega⟩
    · exact ⟨x, y - 1, by omega, by omega, by omega⟩

/-- Local maxima of a frame of eligible values are its events. -/
theorem maximalPoints_eligible {w h : Nat} (hw : w < 65536) (hh : h < 65536) (hs : w * h < 2 ^ 32)
    (h2 : 1 < w * h) {bg xr : Rat} (hbg : 0 ≤ bg) (c : Nat → Rat) :
    ∃ events, maximalPoints ratGt ((List.range (w * h)).map fun j => eligible bg xr (c j)) (w, h) =
      .ok events ∧ IsEventList bg xr w h c events := by
  obtain ⟨ev, e1, e2, e3, e4⟩ := C10_maxima ratGt
    ((List.range (w * h)).map fun j => eligible bg xr (c j)) hw hh hs (by simp)
  refine ⟨ev, e1, e2, e3, ?_⟩
  intro x y hx hy
  rw [e4 x y hx hy]
  have hget : ∀ x y, x < w → y < h →
      ((List.range (w * h)).map fun j => eligible bg xr (c j))[y * w + x]? =
        some (eligible bg xr (c (y * w + x))) := by
    intro x y hx hy
    have := flat_lt hx hy
    simp [this]
  unfold StrictLocalMax
  rw [hget x y hx hy]
  constructor
  · rintro ⟨v, hv, H⟩
    cases hv
    have H' : ∀ x' y', x' < w → y' < h → Neighbour x y x' y' →
        eligible bg xr (c (y' * w + x')) < eligible bg xr (c (y * w + x)) := by
      intro x' y' hx' hy' hn
      have := H x' y' _ hx' hy' hn (hget x' y' hx' hy')
      simpa [ratGt] using this
    obtain ⟨x', y', a1, a2, a3⟩ := exists_neighbour hx hy h2
    have hpos : 0 < eligible bg xr (c (y * w + x)) :=
      lt_of_le_of_lt (eligible_nonneg hbg) (H' x' y' a1 a2 a3)
    have hin : bg < c (y * w + x) ∧ c (y * w + x) < xr := by
      by_contra hno
      unfold eligible at hpos
      rw [if_neg hno] at hpos
      exact absurd hpos (lt_irrefl _)
    refine ⟨hin, ?_⟩
    have : eligible bg xr (c (y * w + x)) = c (y * w + x) := by
      unfold eligible; rw [if_pos hin]
    rw [this] at H'
    exact H'
  · rintro ⟨hin, H⟩
    refine ⟨_, rfl, ?_⟩
    intro x' y' v' hx' hy' hn hv
    rw [hget x' y' hx' hy'] at hv
    cases hv
    have : eligible bg xr (c (y * w + x)) = c (y * w + x) := by
      unfold eligible; rw [if_pos hin]
    rw [this]
    have := H x' y' hx' hy' hn
    simpa [ratGt] using this

theorem toU16_ok {r : Rat} (h1 : -1 < r) (h2 : r < 65536) : toU16 r = .ok (truncZero r : Rat) := by
  unfold toU16 truncZero
  rw [if_neg (by rintro (h | h); exacts [absurd h1 (not_lt.2 h), absurd h2 (not_lt.2 h)])]
  by_cases h0 : r < 0
  · rw [if_pos h0, if_pos h0]
    have : ⌈r⌉ = 0 := by
      rw [Int.ceil_eq_iff]
      constructor
      · simpa using h1
      · simpa using le_of_lt h0
    rw [this]; rfl
  · rw [if_neg h0, if_neg h0]

end Stempy.Props
