import Verif.Model.Mask
import Verif.Spec.Detector
import Mathlib.Tactic.Ring
import Mathlib.Tactic.Linarith

/-!
C01: the annular mask.
-/

namespace Stempy.Props
open Stempy.Mask Stempy.Spec

theorem defaultCenter_eq {d : Nat} {c : Int} (hd : d < 2 ^ 31) :
    defaultCenter d c = .ok (effCenter d c) := by
  unfold defaultCenter effCenter roundHalf half
  split
  · rw [int32_ok (by omega) (by omega)]; congr 1; omega
  · rfl

theorem effCenter_bounds {d : Nat} {c : Int} (hd : d < 2 ^ 31) (hc : c < 2 ^ 31) :
    0 ≤ effCenter d c ∧ effCenter d c < 2 ^ 31 := by
  unfold effCenter half; split <;> omega

theorem sqInt_eq {r : Int} (h : r ^ 2 < 2 ^ 31) : sqInt r = .ok (r ^ 2) := by
  have : r * r = r ^ 2 := by ring
  unfold sqInt
  rw [this, int32_ok (by nlinarith [sq_nonneg r]) h]

theorem maskValue_eq {w h : Nat} {a b cx cy : Int} {i : Nat} (hw : w < 2 ^ 31) (hh : h < 2 ^ 31)
    (hi : i < w * h) (hcx : 0 ≤ cx ∧ cx < 2 ^ 31) (hcy : 0 ≤ cy ∧ cy < 2 ^ 31) :
    maskValue w a b cx cy i = .ok
      (if a ≤ dist2 cx cy (i % w) (i / w) ∧ dist2 cx cy (i % w) (i / w) < b
       then 0xFFFF else 0) := by
  have hw0 : 0 < w := by
    rcases Nat.eq_zero_or_pos w with h0 | h0
    · subst h0; simp at hi
    · exact h0
  have hx : i % w < w := Nat.mod_lt _ hw0
  have hy : i / w < h := by
    apply Nat.div_lt_of_lt_mul; exact hi
  unfold maskValue
  generalize i % w = x at *
  generalize i / w = y at *
  rw [toInt32_of_lt (by omega), toInt32_of_lt (by omega)]
  simp only
  rw [int32_ok (by omega) (by omega)]
  simp only [Outcome.ok_bind]
  rw [int32_ok (by omega) (by omega)]
  simp only [Outcome.ok_bind, Outcome.pure_eq, dist2, pow_two, ge_iff_le]

/-- The closed form of the mask, used by the STEM-image theorems. -/
theorem createAnnularMask_eq {w h : Nat} {inner outer cx cy : Int}
    (g : GeometryOK w h inner outer cx cy) :
    createAnnularMask w h inner outer cx cy = .ok ((List.range (w * h)).map fun i =>
      if inAnnulus inner outer (effCenter w cx) (effCenter h cy) (i % w) (i / w)
      then 0xFFFF else 0) := by
  unfold createAnnularMask
  rw [defaultCenter_eq g.wlt, defaultCenter_eq g.hlt, sqInt_eq g.inner_lt, sqInt_eq g.outer_lt]
  simp only [Outcome.ok_bind]
  rw [Nat.mod_eq_of_lt g.size]
  apply mapM_ok
  intro i hi
  rw [maskValue_eq (h := h) g.wlt g.hlt (by simpa using hi) (effCenter_bounds g.wlt g.cx_lt)
    (effCenter_bounds g.hlt g.cy_lt)]
  simp only [inAnnulus]

/-- **C01**. The mask has one entry per pixel in row-major order; the entry of pixel `(x,y)` is
`0xFFFF` exactly inside the annulus around the effective center, and 0 elsewhere. -/
theorem C01_mask {w h : Nat} {inner outer cx cy : Int} (g : GeometryOK w h inner outer cx cy) :
    ∃ m, createAnnularMask w h inner outer cx cy = .ok m ∧ m.length = w * h ∧
      ∀ x y, x < w → y < h → m[y * w + x]? = some
        (if inAnnulus inner outer (effCenter w cx) (effCenter h cy) x y then 65535 else 0) := by
  refine ⟨_, createAnnularMask_eq g, by simp, ?_⟩
  intro x y hx hy
  have hlt : y * w + x < w * h := by
    calc y * w + x < y * w + w := by omega
      _ = (y + 1) * w := by ring
      _ ≤ h * w := Nat.mul_le_mul_right _ hy
      _ = w * h := by ring
  have h1 : (y * w + x) % w = x := by
    rw [Nat.add_comm, Nat.add_mul_mod_self_right, Nat.mod_eq_of_lt hx]
  have h2 : (y * w + x) / w = y := by
    rw [Nat.add_comm, Nat.add_mul_div_right _ _ (by omega), Nat.div_eq_of_lt hx]; omega
  rw [List.getElem?_map, List.getElem?_range hlt]
  simp only [Option.map_some, h1, h2]

/-- **C01** (defaulted center coordinates are independent of each other): giving exactly half the
width as the first coordinate is the same as not giving it, whatever the second coordinate is. -/
theorem C01_default_center {w h : Nat} {inner outer cx cy : Int}
    (g : GeometryOK w h inner outer cx cy) (hneg : cx < 0) :
    createAnnularMask w h inner outer cx cy =
      createAnnularMask w h inner outer (half w) cy := by
  have hb : 0 ≤ half w ∧ half w < 2 ^ 31 := by
    have := g.wlt; unfold half; omega
  have g' : GeometryOK w h inner outer (half w) cy :=
    { g with cx_lt := hb.2 }
  rw [createAnnularMask_eq g, createAnnularMask_eq g']
  have e : effCenter w cx = effCenter w (half w) := by
    have := hb.1
    unfold effCenter
    rw [if_pos hneg, if_neg (by omega)]
  rw [e]

/-- A size that is a multiple of `2^32` wraps to an empty mask: the size hypothesis of `C01_mask` is
needed. -/
theorem C01_wraps : createAnnularMask 65536 65536 0 1 0 0 = .ok [] := by decide

example : GeometryOK 576 576 40 288 (-1) (-1) := by constructor <;> norm_num
example : GeometryOK 5 3 1 2 (-1) 1 := by constructor <;> norm_num
/-- a concrete 5x3 mask with defaulted first center coordinate -/
example : createAnnularMask 5 3 1 2 (-1) 1 =
    .ok [0, 0, 65535, 65535, 65535, 0, 0, 65535, 0, 65535, 0, 0, 65535, 65535, 65535] := by decide

end Stempy.Props
