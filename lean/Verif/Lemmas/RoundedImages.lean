import Verif.Model.RoundedImages
import Verif.Lemmas.RoundedCom
import Verif.Props.Radial

/-! Masks and radii in double precision. -/

namespace Stempy.RoundedImages
open Stempy.FloatPixels (Fl)
open Stempy.SafeCast (Format float64)
open Stempy.IeeeRound Stempy.RoundedCom Stempy.Image

variable {rp rd : Rat → Fl}

theorem has_int {z : Int} (h : |z| ≤ 2 ^ 53) : float64.Has z := by
  rcases lt_or_eq_of_le h with h | h
  · exact ⟨z, 0, h, by decide, by decide, by simp⟩
  · have hp : float64.Has ((2 : Rat) ^ 53) := has_two_pow wide64 (by decide) (by decide)
    rcases abs_eq (by norm_num : (0 : Int) ≤ 2 ^ 53) |>.1 h with e | e
    · rw [e]; exact_mod_cast hp
    · refine ⟨-2 ^ 52, 1, by norm_num [float64], by decide, by decide, ?_⟩
      rw [e]; norm_num

theorem has_nat53 {n : Nat} (h : n ≤ 2 ^ 53) : float64.Has n := by
  have := has_int (z := n) (by rw [abs_of_nonneg (Int.natCast_nonneg n)]; exact_mod_cast h)
  exact_mod_cast this

theorem rd_nat (h : Rounds float64 rd) {n : Nat} (hn : n ≤ 2 ^ 53) : rd n = .fin n := h.fix _ (has_nat53 hn)

theorem rd_int (h : Rounds float64 rd) {z : Int} (hz : |z| ≤ 2 ^ 53) : rd z = .fin z := h.fix _ (has_int hz)

theorem toInt_int (z : Int) : toInt (.fin z) = int32 z := by
  show int32 (if (z : Rat) < 0 then ⌈(z : Rat)⌉ else ⌊(z : Rat)⌋) = _
  rw [Int.ceil_intCast, Int.floor_intCast, ite_self]

/-! ### The default center -/

theorem roundHalf_eq (h : Rounds float64 rd) {d : Nat} (hd : d < 2 ^ 32) : roundHalf rd d = Mask.roundHalf d := by
  have h1 : rd ((d : Rat) / 2) = .fin ((d : Rat) / 2) := by
    apply h.fix
    refine ⟨d, -1, ?_, by decide, by decide, ?_⟩
    · rw [abs_of_nonneg (Int.natCast_nonneg d)]
      show (d : Int) < 2 ^ 53
      omega
    · simp [div_eq_mul_inv]
  have h2 : ((Fl.fin (d : Rat)).div (.fin 2)) = .fin ((d : Rat) / 2) := by
    show (if (2 : Rat) = 0 then Fl.signInf d else .fin ((d : Rat) / 2)) = _
    exact if_neg (by norm_num)
  have h3 : ⌊(d : Rat) / 2 + 1 / 2⌋ = (((d + 1) / 2 : Nat) : Int) := by
    rw [← add_div]
    have := Rat.floor_intCast_div_natCast (d + 1 : Int) 2
    push_cast at this ⊢
    rw [this]
  unfold roundHalf Mask.roundHalf
  rw [h2]
  show toInt (round (rd _)) = _
  rw [h1]
  unfold round
  simp only
  rw [if_neg (by push Not; positivity), h3]
  exact toInt_int _

theorem defaultCenter_eq (h : Rounds float64 rd) {d : Nat} (hd : d < 2 ^ 32) (c : Int) : defaultCenter rd d c = Mask.defaultCenter d c := by
  unfold defaultCenter Mask.defaultCenter
  rw [roundHalf_eq h hd]

/-! ### Masks -/

theorem sq_nonneg' (x : Int) : 0 ≤ x * x := mul_self_nonneg x

/-- The square of an `int`, rounded. -/
theorem square_cases (h : Rounds float64 rp) {x : Int} (h1 : -(2 ^ 31) ≤ x) (h2 : x ≤ 2 ^ 31) :
    (x * x ≤ 2 ^ 53 → square rp x = .fin ((x * x : Int) : Rat)) ∧
      (∀ b : Nat, b ≤ 2 ^ 53 → (b : Int) ≤ x * x → ∃ v : Rat, square rp x = .fin v ∧ b ≤ v ∧ v ≤ 2 ^ 62) := by
  have e : square rp x = rp ((x * x : Int) : Rat) := by unfold square; push_cast; rfl
  constructor
  · intro h3
    rw [e]
    exact rd_int h (by rw [abs_of_nonneg (sq_nonneg' x)]; exact h3)
  · intro b hb h3
    have h4 : x * x ≤ 2 ^ 62 := by nlinarith
    have h5 : ((x * x : Int) : Rat) ≤ 2 ^ 62 := by exact_mod_cast h4
    have h6 : ((b : Nat) : Rat) ≤ ((x * x : Int) : Rat) := by exact_mod_cast h3
    obtain ⟨v, a1, _, a2, a3⟩ := h.between (has_nat53 hb) (has_two_pow wide64 (k := 62) (by decide) (by decide)) h6 h5
    exact ⟨v, by rw [e, a1], a2, a3⟩

theorem toInt_square (h : Rounds float64 rp) {x : Int} (h1 : -(2 ^ 31) ≤ x) (h2 : x < 2 ^ 31) : toInt (square rp x) = Mask.sqInt x := by
  obtain ⟨a, b⟩ := square_cases h h1 h2.le
  rcases le_total (x * x) (2 ^ 53) with h3 | h3
  · rw [a h3, toInt_int]
    rfl
  · obtain ⟨v, e, h4, _⟩ := b (2 ^ 53) le_rfl (by exact_mod_cast h3)
    rw [e]
    unfold toInt Mask.sqInt
    have h5 : (2 : Int) ^ 53 ≤ ⌊v⌋ := by
      rw [Int.le_floor]
      exact_mod_cast h4
    simp only
    rw [if_neg (by push Not; exact le_trans (by positivity) h4)]
    unfold int32
    rw [if_neg (by omega), if_neg (by omega)]

theorem gt_fin (a b : Rat) : (Fl.fin a).gt (.fin b) = decide (a > b) := rfl

/-- The rounded squared distance: exact up to 2^53, and not smaller than 2^52 beyond. -/
theorem squaredDistance_cases (hp : Rounds float64 rp) (h : Rounds float64 rd) {dx dy : Int} (hx : -(2 ^ 31) ≤ dx ∧ dx ≤ 2 ^ 31)
    (hy : -(2 ^ 31) ≤ dy ∧ dy ≤ 2 ^ 31) :
    (dx * dx + dy * dy ≤ 2 ^ 53 → rnd rd ((square rp dx).add (square rp dy)) = .fin ((dx * dx + dy * dy : Int) : Rat)) ∧
      (2 ^ 53 < dx * dx + dy * dy → ∃ v : Rat, rnd rd ((square rp dx).add (square rp dy)) = .fin v ∧ 2 ^ 52 ≤ v) := by
  obtain ⟨a1, b1⟩ := square_cases hp hx.1 hx.2
  obtain ⟨a2, b2⟩ := square_cases hp hy.1 hy.2
  have p1 := sq_nonneg' dx
  have p2 := sq_nonneg' dy
  constructor
  · intro h3
    rw [a1 (by omega), a2 (by omega)]
    show rd _ = _
    rw [← Int.cast_add]
    exact rd_int h (by rw [abs_of_nonneg (by omega)]; exact h3)
  · intro h3
    have key : ∃ u v : Rat, square rp dx = .fin u ∧ square rp dy = .fin v ∧ 0 ≤ u ∧ 0 ≤ v ∧ u ≤ 2 ^ 62 ∧ v ≤ 2 ^ 62 ∧ (2 ^ 52 ≤ u ∨ 2 ^ 52 ≤ v) := by
      rcases le_or_gt (2 ^ 52) (dx * dx) with c | c
      · obtain ⟨u, e1, l1, r1⟩ := b1 (2 ^ 52) (by norm_num) (by exact_mod_cast c)
        obtain ⟨v, e2, l2, r2⟩ := b2 0 (by norm_num) (by exact_mod_cast p2)
        have l1' : (2 : Rat) ^ 52 ≤ u := by exact_mod_cast l1
        exact ⟨u, v, e1, e2, le_trans (by positivity) l1', by simpa using l2, r1, r2, Or.inl l1'⟩
      · obtain ⟨u, e1, l1, r1⟩ := b1 0 (by norm_num) (by exact_mod_cast p1)
        obtain ⟨v, e2, l2, r2⟩ := b2 (2 ^ 52) (by norm_num) (by push_cast; omega)
        have l2' : (2 : Rat) ^ 52 ≤ v := by exact_mod_cast l2
        exact ⟨u, v, e1, e2, by simpa using l1, le_trans (by positivity) l2', r1, r2, Or.inr l2'⟩
    obtain ⟨u, v, e1, e2, u0, v0, u1, v1, huv⟩ := key
    rw [e1, e2]
    have l : (2 : Rat) ^ 52 ≤ u + v := by rcases huv with c | c <;> linarith
    have r : u + v ≤ 2 ^ 63 := by
      have : (2 : Rat) ^ 63 = 2 ^ 62 + 2 ^ 62 := by norm_num
      linarith
    obtain ⟨s, a, _, b, _⟩ := h.between (has_two_pow wide64 (k := 52) (by decide) (by decide))
      (has_two_pow wide64 (k := 63) (by decide) (by decide)) l r
    exact ⟨s, a, b⟩

theorem int32_inv {x y : Int} (h : int32 x = .ok y) : y = x ∧ -(2 ^ 31) ≤ x ∧ x < 2 ^ 31 := by
  unfold int32 at h
  split at h
  · rename_i c
    injection h with e
    exact ⟨e.symm, c⟩
  · cases h

theorem small_lt {b : Int} (hb : b < 2 ^ 31) {v : Rat} (l : 2 ^ 52 ≤ v) : ¬ (b : Rat) > v := by
  have h1 : b ≤ 2147483648 := by omega
  have h2 : (b : Rat) ≤ 2147483648 := by exact_mod_cast h1
  have h3 : (2147483648 : Rat) ≤ 2 ^ 52 := by norm_num
  exact not_lt.2 (le_trans h2 (le_trans h3 l))

theorem small_not {a b s : Int} (hb : b < 2 ^ 31) (hs : 2 ^ 53 < s) : ¬ (s ≥ a ∧ s < b) := by omega

/-- The two comparisons. -/
theorem compare_eq (hp : Rounds float64 rp) (h : Rounds float64 rd) {a b dx dy : Int} (hb : b < 2 ^ 31) (hx : -(2 ^ 31) ≤ dx ∧ dx ≤ 2 ^ 31)
    (hy : -(2 ^ 31) ≤ dy ∧ dy ≤ 2 ^ 31) :
    ((rnd rd ((square rp dx).add (square rp dy))).ge (.fin a) && (Fl.fin b).gt (rnd rd ((square rp dx).add (square rp dy)))) =
      decide (dx * dx + dy * dy ≥ a ∧ dx * dx + dy * dy < b) := by
  obtain ⟨c1, c2⟩ := squaredDistance_cases hp h hx hy
  generalize dx * dx + dy * dy = s at *
  generalize rnd rd ((square rp dx).add (square rp dy)) = d at *
  rcases le_or_gt s (2 ^ 53) with c | c
  · rw [c1 c, ge_fin, gt_fin, Bool.decide_and]
    congr 1
    · exact decide_eq_decide.2 Int.cast_le
    · exact decide_eq_decide.2 Int.cast_lt
  · obtain ⟨v, e, l⟩ := c2 c
    rw [e, ge_fin, gt_fin, decide_eq_false (small_lt hb l), Bool.and_false, decide_eq_false (small_not hb c)]

theorem maskValue_def (w : Nat) {a b : Int} (cx cy : Int) (i : Nat) :
    maskValue rp rd w a b cx cy i = (int32 (toInt32 (i % w) - cx)).bind fun dx => (int32 (toInt32 (i / w) - cy)).bind fun dy =>
      .ok (if (rnd rd ((square rp dx).add (square rp dy))).ge (.fin a) && (Fl.fin b).gt (rnd rd ((square rp dx).add (square rp dy))) then 0xFFFF else 0) := by
  unfold maskValue squaredDistance
  cases int32 (toInt32 (i % w) - cx)
  · cases int32 (toInt32 (i / w) - cy) <;> rfl
  · rfl
  · rfl
theorem exactMaskValue_def (w : Nat) {a b : Int} (cx cy : Int) (i : Nat) :
    Mask.maskValue w a b cx cy i = (int32 (toInt32 (i % w) - cx)).bind fun dx => (int32 (toInt32 (i / w) - cy)).bind fun dy =>
      .ok (if dx * dx + dy * dy ≥ a ∧ dx * dx + dy * dy < b then 0xFFFF else 0) := by
  unfold Mask.maskValue
  rfl

theorem maskValue_eq (hp : Rounds float64 rp) (h : Rounds float64 rd) (w : Nat) {a b : Int} (hb : b < 2 ^ 31) (cx cy : Int) (i : Nat) :
    maskValue rp rd w a b cx cy i = Mask.maskValue w a b cx cy i := by
  rw [maskValue_def, exactMaskValue_def]
  generalize hx : int32 (toInt32 (i % w) - cx) = X
  generalize hy : int32 (toInt32 (i / w) - cy) = Y
  rcases X with dx | m | _
  · rcases Y with dy | m | _
    · obtain ⟨e1, l1, r1⟩ := int32_inv hx
      obtain ⟨e2, l2, r2⟩ := int32_inv hy
      rw [← e1] at l1 r1
      rw [← e2] at l2 r2
      have e := compare_eq (a := a) hp h hb ⟨l1, r1.le⟩ ⟨l2, r2.le⟩
      show Outcome.ok _ = Outcome.ok _
      refine congrArg Outcome.ok (if_congr ?_ rfl rfl)
      rw [e]
      exact decide_eq_true_iff
    · show Outcome.throw m = Outcome.throw m; rfl
    · show (Outcome.ub : Outcome Nat) = Outcome.ub; rfl
  · show Outcome.throw m = Outcome.throw m; rfl
  · show (Outcome.ub : Outcome Nat) = Outcome.ub; rfl

/-- The mask in double precision is the exact one, for all arguments. -/
theorem createAnnularMask_eq (hp : Rounds float64 rp) (h : Rounds float64 rd) {w h' : Nat} (hw : w < 2 ^ 32) (hh : h' < 2 ^ 32)
    {inner outer : Int} (hi : -(2 ^ 31) ≤ inner ∧ inner < 2 ^ 31) (ho : -(2 ^ 31) ≤ outer ∧ outer < 2 ^ 31) (cx cy : Int) :
    createAnnularMask rp rd w h' inner outer cx cy = Mask.createAnnularMask w h' inner outer cx cy := by
  unfold createAnnularMask Mask.createAnnularMask
  simp only
  rw [defaultCenter_eq h hw, defaultCenter_eq h hh, toInt_square hp hi.1 hi.2, toInt_square hp ho.1 ho.2]
  rcases Mask.defaultCenter w cx with ex | m | _
  rotate_left
  · simp only [Outcome.throw_bind]
  · simp only [Outcome.ub_bind]
  simp only [Outcome.ok_bind]
  rcases Mask.defaultCenter h' cy with ey | m | _
  rotate_left
  · simp only [Outcome.throw_bind]
  · simp only [Outcome.ub_bind]
  simp only [Outcome.ok_bind]
  rcases h1 : Mask.sqInt inner with a | m | _
  · rcases h2 : Mask.sqInt outer with b | m | _
    · simp only [Outcome.ok_bind]
      obtain ⟨e1, l1, r1⟩ := int32_inv h1
      obtain ⟨e2, l2, r2⟩ := int32_inv h2
      rw [← e1] at l1 r1
      rw [← e2] at l2 r2
      have e : maskValue rp rd w a b ex ey = Mask.maskValue w a b ex ey := funext fun i => maskValue_eq hp h w r2 ex ey i
      rw [e]
    · simp only [Outcome.throw_bind]
    · simp only [Outcome.ub_bind]
  · simp only [Outcome.throw_bind]
  · simp only [Outcome.ub_bind]

/-! ### Radii -/

theorem sqrt_nat_eq (s : Nat) : RoundedCom.sqrt rd (.fin (s : Rat)) = rd (rootApprox s) := by
  show (if (s : Rat) < 0 then Fl.nan else _) = _
  rw [if_neg (by push Not; positivity)]

theorem rootApprox_nat (k : Nat) : rootApprox ((k * k : Nat) : Rat) = k := by
  have := rootApprox_dyadic k 0 (by omega)
  rw [pow_zero, div_one] at this
  push_cast
  exact this

/-- The root of an integer up to 2^52: the next integer is that of the exact root. -/
theorem sqrt_nat (h : Rounds float64 rd) {s : Nat} (hs : s ≤ 2 ^ 52) :
    ∃ v : Rat, RoundedCom.sqrt rd (.fin (s : Rat)) = .fin v ∧ 0 ≤ v ∧ ⌈v⌉ = (ceilSqrt s : Int) := by
  rw [sqrt_nat_eq]
  obtain ⟨k, hk⟩ : ∃ k, ceilSqrt s = k := ⟨_, rfl⟩
  obtain ⟨h1, h2⟩ := (Props.ceilSqrt_spec s k).1 hk
  have hk26 : k ≤ 2 ^ 26 := by
    have h3 := Props.ceilSqrt_le hs
    have h4 : ceilSqrt (2 ^ 52) = 2 ^ 26 := (Props.ceilSqrt_spec _ _).2 ⟨by norm_num, by right; norm_num⟩
    omega
  have hle : rootApprox s ≤ k := by
    rw [← rootApprox_nat k]
    exact rootApprox_mono (by positivity) (by exact_mod_cast h1)
  rw [hk]
  rcases Nat.eq_zero_or_pos k with h0 | h0
  · subst h0
    have : s = 0 := by omega
    subst this
    have e : rootApprox ((0 : Nat) : Rat) = ((0 : Nat) : Rat) := rootApprox_nat 0
    rw [e]
    exact ⟨0, by have := rd_nat h (n := 0) (by norm_num); simpa using this, le_rfl, by simp⟩
  · have h2 : (k - 1) * (k - 1) < s := by
      rcases h2 with h2 | h2
      · omega
      · exact h2
    obtain ⟨j, rfl⟩ : ∃ j, k = j + 1 := ⟨k - 1, by omega⟩
    rw [Nat.add_sub_cancel] at h2
    have hc : float64.Has (((j * 2 ^ 27 + 1 : Nat) : Rat) / 2 ^ 27) := by
      refine ⟨(j * 2 ^ 27 + 1 : Nat), -27, ?_, by decide, by decide, ?_⟩
      · rw [abs_of_nonneg (Int.natCast_nonneg _)]
        show ((j * 2 ^ 27 + 1 : Nat) : Int) < 2 ^ 53
        omega
      · rw [div_eq_mul_inv]
        norm_num
    have hlow : ((j * 2 ^ 27 + 1 : Nat) : Rat) / 2 ^ 27 ≤ rootApprox s := by
      rw [← rootApprox_dyadic (j * 2 ^ 27 + 1) 27 (by omega)]
      apply rootApprox_mono (by positivity)
      have h3 : ((j * j + 1 : Nat) : Rat) ≤ (s : Rat) := by exact_mod_cast h2
      have h4 : (j : Rat) ≤ 2 ^ 26 - 1 := by
        have : (j + 1 : Nat) ≤ 2 ^ 26 := hk26
        have : ((j + 1 : Nat) : Rat) ≤ ((2 ^ 26 : Nat) : Rat) := by exact_mod_cast this
        push_cast at this
        linarith
      refine le_trans ?_ h3
      rw [Nat.cast_add, Nat.cast_mul, Nat.cast_pow, Nat.cast_ofNat, Nat.cast_one, Nat.cast_add, Nat.cast_mul, Nat.cast_one]
      have e : ((j : Rat) * 2 ^ 27 + 1) / 2 ^ 27 = j + 1 / 2 ^ 27 := by field_simp
      rw [e]
      have e2 : ((j : Rat) + 1 / 2 ^ 27) * (j + 1 / 2 ^ 27) = j * j + j / 2 ^ 26 + 1 / 2 ^ 54 := by ring
      rw [e2]
      have e3 : (j : Rat) / 2 ^ 26 ≤ (2 ^ 26 - 1) / 2 ^ 26 := div_le_div_of_nonneg_right h4 (by positivity)
      have e4 : ((2 : Rat) ^ 26 - 1) / 2 ^ 26 + 1 / 2 ^ 54 ≤ 1 := by norm_num
      linarith
    obtain ⟨v, e, _, l, r⟩ := h.between hc (has_nat53 (n := j + 1) (by omega)) hlow hle
    have l' : (j : Rat) < v := by
      refine lt_of_lt_of_le ?_ l
      rw [lt_div_iff₀ (by positivity)]
      push_cast
      linarith
    refine ⟨v, e, le_trans (Nat.cast_nonneg j) l'.le, ?_⟩
    rw [Int.ceil_eq_iff]
    push_cast at r ⊢
    exact ⟨by linarith, r⟩

theorem sqrt_mono (h : Rounds float64 rd) {s t : Nat} (hst : s ≤ t) {u v : Rat} (hu : RoundedCom.sqrt rd (.fin (s : Rat)) = .fin u)
    (hv : RoundedCom.sqrt rd (.fin (t : Rat)) = .fin v) : u ≤ v := by
  rw [sqrt_nat_eq] at hu hv
  exact h.mono _ _ _ _ (rootApprox_mono (by positivity) (by exact_mod_cast hst)) hu hv

theorem distance2_cast (x1 y1 x2 y2 : Int) :
    ((distance2 x1 y1 x2 y2 : Nat) : Int) = (x1 - x2) * (x1 - x2) + (y1 - y2) * (y1 - y2) := by
  unfold distance2
  rw [Int.toNat_of_nonneg (by positivity), pow_two, pow_two]

/-- Distances up to 2^26. -/
theorem distance_eq (hp : Rounds float64 rp) (h : Rounds float64 rd) {x1 y1 x2 y2 : Int} (hd : distance2 x1 y1 x2 y2 ≤ 2 ^ 52) :
    distance rp rd x1 y1 x2 y2 = .ok (RoundedCom.sqrt rd (.fin ((distance2 x1 y1 x2 y2 : Nat) : Rat))) := by
  have hc := distance2_cast x1 y1 x2 y2
  have hd' : ((distance2 x1 y1 x2 y2 : Nat) : Int) ≤ 2 ^ 52 := by exact_mod_cast hd
  rw [hc] at hd'
  generalize hs : distance2 x1 y1 x2 y2 = s at *
  unfold distance squaredDistance
  generalize x1 - x2 = dx at *
  generalize y1 - y2 = dy at *
  have bx : -(2 ^ 31) ≤ dx ∧ dx < 2 ^ 31 := by
    have := sq_nonneg' dy
    constructor <;> nlinarith
  have hby : -(2 ^ 31) ≤ dy ∧ dy < 2 ^ 31 := by
    have := sq_nonneg' dx
    constructor <;> nlinarith
  rw [int32_ok bx.1 bx.2, int32_ok hby.1 hby.2]
  simp only [Outcome.ok_bind, Outcome.pure_eq]
  rw [(squaredDistance_cases hp h ⟨bx.1, bx.2.le⟩ ⟨hby.1, hby.2.le⟩).1 (by omega), ← hc]
  rfl

theorem toInt_ceil (h : Rounds float64 rd) {s : Nat} (hs : s ≤ 2 ^ 52) :
    toInt (ceil (RoundedCom.sqrt rd (.fin (s : Rat)))) = .ok (ceilSqrt s : Int) ∧ ceilSqrt s ≤ 2 ^ 26 := by
  obtain ⟨v, e, _, hv⟩ := sqrt_nat h hs
  have h3 := Props.ceilSqrt_le hs
  have h4 : ceilSqrt (2 ^ 52) = 2 ^ 26 := (Props.ceilSqrt_spec _ _).2 ⟨by norm_num, by right; norm_num⟩
  rw [h4] at h3
  refine ⟨?_, h3⟩
  rw [e]
  unfold ceil
  simp only
  rw [toInt_int, hv, int32_ok (by omega) (by omega)]

/-! ### Radial sums -/

theorem mapM_eq {α β : Type} (l : List α) (f g : α → Outcome β) (h : ∀ a ∈ l, f a = g a) : l.mapM f = l.mapM g := by
  induction l with
  | nil => simp
  | cons a l ih => rw [List.mapM_cons, List.mapM_cons, h a (by simp), ih fun b hb => h b (by simp [hb])]

/-- The distance of a pixel to the center is at most that of a corner. -/
theorem pixel_distance {w h x y : Nat} {cx cy : Int} (hm : Image.maxRadius (w, h) cx cy ≤ 2 ^ 26) (hx : x < w) (hy : y < h) :
    distance2 x y cx cy ≤ 2 ^ 52 := by
  have h1 := le_trans (Props.radius_le_max cx cy hx hy) hm
  have h2 := ((Props.ceilSqrt_spec (distance2 x y cx cy) _).1 rfl).1
  calc _ ≤ _ := h2
    _ ≤ 2 ^ 26 * 2 ^ 26 := Nat.mul_le_mul h1 h1
    _ = 2 ^ 52 := by norm_num

theorem pixel_radius (hp : Rounds float64 rp) (h : Rounds float64 rd) {w h' x y : Nat} {cx cy : Int}
    (hm : Image.maxRadius (w, h') cx cy ≤ 2 ^ 26) (hw : w < 2 ^ 31) (hh : h' < 2 ^ 31) (hx : x < w) (hy : y < h') :
    ((distance rp rd (toInt32 x) (toInt32 y) cx cy).bind fun d => toInt (ceil d)) = .ok (ceilSqrt (distance2 x y cx cy) : Int) := by
  have hd := pixel_distance hm hx hy
  rw [toInt32_of_lt (by omega), toInt32_of_lt (by omega), distance_eq hp h hd]
  exact (toInt_ceil h hd).1

theorem radialSumFrame_eq (hp : Rounds float64 rp) (h : Rounds float64 rd) {w h' : Nat} {cx cy : Int}
    (hm : Image.maxRadius (w, h') cx cy ≤ 2 ^ 26) (hw : w < 2 ^ 31) (hh : h' < 2 ^ 31) (data : List Nat) (offset : Nat) (scan : Nat × Nat)
    (k : Nat) : radialSumFrame rp rd cx cy data offset (w, h') scan k = Image.radialSumFrame cx cy data offset (w, h') scan k := by
  unfold radialSumFrame Image.radialSumFrame
  apply mapM_eq
  intro i hi
  have hi' : i < w * h' := lt_of_lt_of_le (List.mem_range.1 hi) (Nat.mod_le _ _)
  have hw0 : 0 < w := by
    rcases Nat.eq_zero_or_pos w with h0 | h0
    · subst h0; simp at hi'
    · exact h0
  have hx : i % w < w := Nat.mod_lt _ hw0
  have hy : i / w < h' := Nat.div_lt_of_lt_mul hi'
  have e := pixel_radius hp h hm hw hh hx hy
  show ((distance rp rd (toInt32 (i % w)) (toInt32 (i / w)) cx cy).bind fun d => (toInt (ceil d)).bind _) = _
  have assoc : ∀ (D : Outcome Fl) (g : Int → Outcome (Nat × Nat)),
      (D.bind fun d => (toInt (ceil d)).bind g) = (D.bind fun d => toInt (ceil d)).bind g := by
    intro D g
    cases D <;> rfl
  rw [assoc, e]
  have e2 : (((ceilSqrt (distance2 ((i % w : Nat) : Int) ((i / w : Nat) : Int) cx cy) : Int) * scan.1 * scan.2) % 2 ^ 32) =
      ((ceilSqrt (distance2 ((i % w : Nat) : Int) ((i / w : Nat) : Int) cx cy) * scan.1 * scan.2 % 2 ^ 32 : Nat) : Int) := by
    push_cast
    rfl
  show (do
    let v ← readAt data (offset + i)
    let address : Int := (((ceilSqrt (distance2 ((i % w : Nat) : Int) ((i / w : Nat) : Int) cx cy) : Int) * scan.1 * scan.2) % 2 ^ 32) + toInt32 k
    if address < 0 then Outcome.ub else pure (address.toNat, v)) = _
  rw [e2]

theorem radialSumFrames_eq (hp : Rounds float64 rp) (h : Rounds float64 rd) {w h' : Nat} {cx cy : Int}
    (hm : Image.maxRadius (w, h') cx cy ≤ 2 ^ 26) (hw : w < 2 ^ 31) (hh : h' < 2 ^ 31) (b : Block) (scan : Nat × Nat) (n : Nat) :
    radialSumFrames rp rd cx cy b (w, h') scan n = Image.radialSumFrames cx cy b (w, h') scan n := by
  unfold radialSumFrames Image.radialSumFrames
  simp only [radialSumFrame_eq hp h hm hw hh]

/-- The largest of two distances. -/
theorem max_step (h : Rounds float64 rd) {s m : Nat} (hs : s ≤ 2 ^ 52) (hm : m ≤ 2 ^ 52) :
    (if (RoundedCom.sqrt rd (.fin (s : Rat))).gt (RoundedCom.sqrt rd (.fin (m : Rat))) then RoundedCom.sqrt rd (.fin (s : Rat))
      else RoundedCom.sqrt rd (.fin (m : Rat))) = RoundedCom.sqrt rd (.fin ((if s > m then s else m : Nat) : Rat)) := by
  obtain ⟨u, e1, _, _⟩ := sqrt_nat h hs
  obtain ⟨v, e2, _, _⟩ := sqrt_nat h hm
  by_cases c : s > m
  · rw [if_pos c, e1, e2, gt_fin]
    have := sqrt_mono h c.le e2 e1
    by_cases d : u > v
    · rw [if_pos (decide_eq_true d)]
    · rw [if_neg (by simpa using d)]
      congr 1
      linarith
  · rw [if_neg c, e1, e2, gt_fin]
    have := sqrt_mono h (not_lt.1 c) e1 e2
    rw [if_neg (by simpa using this)]

theorem maxRadius_eq (hp : Rounds float64 rp) (h : Rounds float64 rd) {w h' : Nat} {cx cy : Int}
    (hm : Image.maxRadius (w, h') cx cy ≤ 2 ^ 26) (hw : w < 2 ^ 31) (hh : h' < 2 ^ 31) :
    maxRadius rp rd (w, h') cx cy = .ok (Image.maxRadius (w, h') cx cy : Int) := by
  have fold : ∀ (l : List (Nat × Nat)) (m : Nat), m ≤ 2 ^ 52 →
      (∀ c ∈ l, c.1 < 2 ^ 31 ∧ c.2 < 2 ^ 31 ∧ distance2 c.1 c.2 cx cy ≤ 2 ^ 52) →
      (l.foldlM (fun mx c => (distance rp rd (toInt32 c.1) (toInt32 c.2) cx cy).bind fun d => Outcome.ok (if d.gt mx then d else mx))
        (RoundedCom.sqrt rd (.fin (m : Rat)))) =
      Outcome.ok (RoundedCom.sqrt rd (.fin ((l.foldl (fun mx c => if distance2 c.1 c.2 cx cy > mx then distance2 c.1 c.2 cx cy else mx) m : Nat) : Rat)))
        ∧ l.foldl (fun mx c => if distance2 c.1 c.2 cx cy > mx then distance2 c.1 c.2 cx cy else mx) m ≤ 2 ^ 52 := by
    intro l
    induction l with
    | nil => intro m hm _; exact ⟨rfl, hm⟩
    | cons c l ih =>
      intro m hm hl
      obtain ⟨a1, a2, a3⟩ := hl c (by simp)
      rw [List.foldlM_cons, List.foldl_cons, toInt32_of_lt a1, toInt32_of_lt a2, distance_eq hp h a3]
      have e : (Outcome.ok (RoundedCom.sqrt rd (.fin ((distance2 c.1 c.2 cx cy : Nat) : Rat)))).bind (fun d => Outcome.ok
          (if d.gt (RoundedCom.sqrt rd (.fin (m : Rat))) then d else RoundedCom.sqrt rd (.fin (m : Rat)))) =
          Outcome.ok (RoundedCom.sqrt rd (.fin ((if distance2 c.1 c.2 cx cy > m then distance2 c.1 c.2 cx cy else m : Nat) : Rat))) := by
        rw [← max_step h a3 hm]
        rfl
      rw [e, Outcome.ok_bind]
      apply ih _ _ fun d hd => hl d (by simp [hd])
      split <;> assumption
  have corner : ∀ c ∈ [(0, 0), (0, h'), (w, 0), (w, h')], c.1 < 2 ^ 31 ∧ c.2 < 2 ^ 31 ∧ distance2 c.1 c.2 cx cy ≤ 2 ^ 52 := by
    have hall : ∀ (l : List (Nat × Nat)) (m : Nat), (m ≤ l.foldl (fun mx c => if distance2 c.1 c.2 cx cy > mx then distance2 c.1 c.2 cx cy else mx) m)
        ∧ ∀ c ∈ l, distance2 c.1 c.2 cx cy ≤ l.foldl (fun mx c => if distance2 c.1 c.2 cx cy > mx then distance2 c.1 c.2 cx cy else mx) m := by
      intro l
      induction l with
      | nil => intro m; simp
      | cons c l ih =>
        intro m
        rw [List.foldl_cons]
        obtain ⟨b1, b2⟩ := ih (if distance2 c.1 c.2 cx cy > m then distance2 c.1 c.2 cx cy else m)
        refine ⟨le_trans (by split <;> omega) b1, ?_⟩
        intro d hd
        rcases List.mem_cons.1 hd with rfl | hd
        · exact le_trans (by split <;> omega) b1
        · exact b2 d hd
    have hmm := ((Props.ceilSqrt_spec ([(0, 0), (0, h'), (w, 0), (w, h')].foldl
      (fun mx c => if distance2 ((c.1 : Nat) : Int) ((c.2 : Nat) : Int) cx cy > mx then distance2 c.1 c.2 cx cy else mx) 0) _).1 rfl).1
    have hm' : ceilSqrt ([(0, 0), (0, h'), (w, 0), (w, h')].foldl
      (fun mx c => if distance2 ((c.1 : Nat) : Int) ((c.2 : Nat) : Int) cx cy > mx then distance2 c.1 c.2 cx cy else mx) 0) ≤ 2 ^ 26 := hm
    have hM := le_trans hmm (Nat.mul_le_mul hm' hm')
    intro c hc
    have h3 := (hall [(0, 0), (0, h'), (w, 0), (w, h')] 0).2 c hc
    have h4 : distance2 c.1 c.2 cx cy ≤ 2 ^ 52 := le_trans h3 (le_trans hM (by norm_num))
    simp only [List.mem_cons, List.not_mem_nil, or_false] at hc
    rcases hc with rfl | rfl | rfl | rfl <;> exact ⟨by first | exact hw | exact hh | norm_num, by first | exact hw | exact hh | norm_num, h4⟩
  obtain ⟨f1, f2⟩ := fold _ 0 (by norm_num) corner
  have z : RoundedCom.sqrt rd (.fin ((0 : Nat) : Rat)) = .fin 0 := by
    rw [sqrt_nat_eq]
    have e : rootApprox ((0 : Nat) : Rat) = ((0 : Nat) : Rat) := rootApprox_nat 0
    rw [e, rd_nat h (by norm_num)]
    simp
  rw [z] at f1
  unfold maxRadius Image.maxRadius
  simp only
  have f1' := congrArg (fun o => Outcome.bind o fun mx => toInt (ceil mx)) f1
  refine Eq.trans f1' ?_
  exact (toInt_ceil h f2).1

theorem geometry_of {rp rd : Rat → Fl} {frame : Nat × Nat} {center : Int × Int} {a b m r : Int} (ha : defaultCenter rd frame.1 center.1 = .ok a)
    (hb : defaultCenter rd frame.2 center.2 = .ok b) (hm : maxRadius rp rd frame a b = .ok m) (hr : int32 (m + 1) = .ok r) :
    geometry rp rd frame center = .ok (a, b, r) := by
  unfold geometry
  rw [ha, hb]
  show ((maxRadius rp rd frame a b).bind fun m => (int32 (m + 1)).bind fun r => Outcome.ok (a, b, r)) = _
  rw [hm]
  show ((int32 (m + 1)).bind fun r => Outcome.ok (a, b, r)) = _
  rw [hr]
  rfl

theorem geometry_eq (hp : Rounds float64 rp) (h : Rounds float64 rd) {w h' : Nat} (hw : w < 2 ^ 31) (hh : h' < 2 ^ 31) {cx cy : Int}
    (hm : Image.maxRadius (w, h') (Spec.effCenter w cx) (Spec.effCenter h' cy) ≤ 2 ^ 26) :
    geometry rp rd (w, h') (cx, cy) = .ok (Spec.effCenter w cx, Spec.effCenter h' cy,
      ((Image.maxRadius (w, h') (Spec.effCenter w cx) (Spec.effCenter h' cy) + 1 : Nat) : Int)) := by
  have e1 : defaultCenter rd w cx = .ok (Spec.effCenter w cx) := by rw [defaultCenter_eq h (by omega), Props.defaultCenter_eq hw]
  have e2 : defaultCenter rd h' cy = .ok (Spec.effCenter h' cy) := by rw [defaultCenter_eq h (by omega), Props.defaultCenter_eq hh]
  refine geometry_of e1 e2 (maxRadius_eq hp h hm hw hh) ?_
  generalize Image.maxRadius (w, h') (Spec.effCenter w cx) (Spec.effCenter h' cy) = M at *
  rw [int32_ok (by omega) (by omega), Nat.cast_add, Nat.cast_one]

theorem RadialRun_iff (hp : Rounds float64 rp) (h : Rounds float64 rd) {first : Block} {rest : List Block} {w h' : Nat}
    (hf : first.frameDims = (w, h')) (hw : w < 2 ^ 31) (hh : h' < 2 ^ 31) {cx cy : Int}
    (hm : Image.maxRadius (w, h') (Spec.effCenter w cx) (Spec.effCenter h' cy) ≤ 2 ^ 26) (scan : Nat × Nat) (r : Outcome (Nat × List Nat)) :
    RadialRun rp rd (first :: rest) scan (cx, cy) r ↔ Image.RadialRun (first :: rest) scan (cx, cy) r := by
  unfold RadialRun Image.RadialRun
  have e1 := geometry_eq hp h hw hh hm
  have e2 : ∀ b scan n, radialSumFrames rp rd (Spec.effCenter w cx) (Spec.effCenter h' cy) b (w, h') scan n = _ :=
    fun b scan n => radialSumFrames_eq hp h hm hw hh b scan n
  simp only [hf, e1, e2, Props.defaultCenter_eq hw, Props.defaultCenter_eq hh, Int.toNat_natCast]
  generalize (if scan.1 = 0 ∨ scan.2 = 0 then first.scanDims else scan) = S
  generalize Image.maxRadius (w, h') (Spec.effCenter w cx) (Spec.effCenter h' cy) = M
  split
  · exact Iff.rfl
  · generalize ((first :: rest).mapM fun b =>
      Image.radialSumFrames (Spec.effCenter w cx) (Spec.effCenter h' cy) b (w, h') S (w * h' % 2 ^ 32)) = T
    cases T <;> exact Iff.rfl

end Stempy.RoundedImages
