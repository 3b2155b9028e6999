import Verif.Spec.PyImage
import Verif.Model.PyImage
import Verif.Lemmas.SparseArray
import Mathlib.Tactic.Ring
import Mathlib.Tactic.NormNum
import Mathlib.Data.Rat.Cast.Order
import Mathlib.Tactic.Linarith

namespace Stempy.PyImage
open Numpy Sparse

theorem decodeX_eq {f : Nat} (hf : f ≠ 0) (e : Nat) : decodeX f e = e / f := by
  unfold decodeX
  split
  · rename_i h
    obtain ⟨k, rfl⟩ := (Nat.and_sub_one_eq_zero_iff_isPowerOfTwo hf).1 h
    rw [Nat.log2_two_pow, Nat.shiftRight_eq_div_pow]
  · rfl

theorem decodeY_eq {f : Nat} (hf : f ≠ 0) (e : Nat) : decodeY f e = e % f := by
  unfold decodeY
  split
  · rename_i h
    obtain ⟨k, rfl⟩ := (Nat.and_sub_one_eq_zero_iff_isPowerOfTwo hf).1 h
    rw [Nat.and_two_pow_sub_one_eq_mod]
  · rfl

/-- The coordinate fits for `uint32` arithmetic. -/
def Num.Near : Num → Prop
  | .int c => c ≤ 32768
  | .float _ => True

theorem sq_wrap {e c : Nat} (he : e < 32768) (hc : c ≤ 32768) :
    ((((e + 2 ^ 32 - c) % 2 ^ 32) ^ 2 % 2 ^ 32 : Nat) : Rat) = ((e : Rat) - (c : Rat)) ^ 2 ∧
    ((e + 2 ^ 32 - c) % 2 ^ 32) ^ 2 % 2 ^ 32 ≤ 2 ^ 30 := by
  rcases Nat.le_total c e with h | h
  · obtain ⟨k, rfl⟩ := Nat.exists_eq_add_of_le h
    have h1 : (c + k + 2 ^ 32 - c) % 2 ^ 32 = k := by omega
    have hk : k < 32768 := by omega
    have h2 : k ^ 2 ≤ 32768 ^ 2 := Nat.pow_le_pow_left hk.le 2
    have h3 : k ^ 2 % 2 ^ 32 = k ^ 2 := Nat.mod_eq_of_lt (by omega)
    rw [h1, h3]
    refine ⟨?_, by omega⟩
    push_cast; ring
  · obtain ⟨k, rfl⟩ := Nat.exists_eq_add_of_le h
    have hk : k ≤ 32768 := by omega
    have h2 : k ^ 2 ≤ 32768 ^ 2 := Nat.pow_le_pow_left hk 2
    have h3 : k ^ 2 % 2 ^ 32 = k ^ 2 := Nat.mod_eq_of_lt (by omega)
    have h4 : ((e + 2 ^ 32 - (e + k)) % 2 ^ 32) ^ 2 % 2 ^ 32 = k ^ 2 := by
      rcases Nat.eq_zero_or_pos k with rfl | hp
      · simp
      · have h1 : (e + 2 ^ 32 - (e + k)) % 2 ^ 32 = 2 ^ 32 - k := by omega
        rw [h1]
        have h5 : (2 ^ 32 - k) ^ 2 = k ^ 2 + 2 ^ 32 * (2 ^ 32 - 2 * k) := by
          zify [show k ≤ 2 ^ 32 by omega, show 2 * k ≤ 2 ^ 32 by omega]; ring
        rw [h5, Nat.add_mul_mod_self_left, h3]
    rw [h4]
    refine ⟨?_, by omega⟩
    push_cast; ring

theorem dist2_eq {x y : Nat} {cx cy : Num} (hx : x < 32768) (hy : y < 32768) (hcx : cx.Near) (hcy : cy.Near) :
    dist2 x y cx cy = ((x : Rat) - cx.val) ^ 2 + ((y : Rat) - cy.val) ^ 2 := by
  cases cx with
  | int c =>
    obtain ⟨h1, h2⟩ := sq_wrap hx hcx
    cases cy with
    | int d =>
      obtain ⟨h3, h4⟩ := sq_wrap hy hcy
      simp only [dist2, sqDiff, Num.add, Num.val]
      rw [← h1, ← h3, Nat.mod_eq_of_lt (by omega : _ + _ < 2 ^ 32)]
      push_cast; rfl
    | float q =>
      simp only [dist2, sqDiff, Num.add, Num.val]
      rw [← h1]
  | float p =>
    cases cy with
    | int d =>
      obtain ⟨h3, h4⟩ := sq_wrap hy hcy
      simp only [dist2, sqDiff, Num.add, Num.val]
      rw [← h3]
    | float q => rfl

end Stempy.PyImage
