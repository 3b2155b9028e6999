import Verif.Model.SparseMean
import Verif.Props.SparseDtype
import Verif.Props.RoundedMean

/-!
# C107: the mean of a sparse array in floating point

If neither the sums nor the number of elements exceed the digits of the element type, `mean` gives the number of the type which is
closest to the exact mean, with NumPy 1 and with NumPy 2, although NumPy 2 rounds twice.
-/

namespace Stempy.Props
open Numpy Sparse
open Stempy.FloatPixels (Fl)
open Stempy.SafeCast (Format float32 float64)
open Stempy.Float32 (two_zpow_pos roundEven roundEven_half roundEven_int roundEven_nearest le_roundEven log_le lt_log of_zpow_lt)
open Stempy.IeeeRound Stempy.RoundedCom Stempy.RoundedMean Stempy.SparseMean
open RoundedCenter

namespace SparseMeans

/-- The exponent of a number, as a shift to 24 digits. -/
theorem shift {x : Rat} (h0 : 1 / 2 ^ 24 ≤ x) (h1 : x < 2 ^ 24) : ∃ j : Nat, j ≤ 47 ∧ 2 ^ 23 ≤ x * 2 ^ j ∧ x * 2 ^ j < 2 ^ 24 := by
  have hx : 0 < x := lt_of_lt_of_le (by norm_num) h0
  have a := log_le hx.ne'
  have b := lt_log x
  rw [abs_of_pos hx] at a b
  generalize Int.log 2 x = e at a b
  have e1 : e < 24 := of_zpow_lt (lt_of_le_of_lt a (by exact_mod_cast h1))
  have e2 : -24 < e + 1 := of_zpow_lt (lt_of_le_of_lt (by rw [zpow_neg, ← one_div]; exact_mod_cast h0) b)
  obtain ⟨j, hj⟩ : ∃ j : Nat, (j : Int) = 23 - e := ⟨(23 - e).toNat, by omega⟩
  have hp : (0 : Rat) < 2 ^ j := by positivity
  have c1 : (2 : Rat) ^ e * 2 ^ j = 2 ^ 23 := by
    rw [← zpow_natCast, ← zpow_natCast, ← zpow_add₀ (by norm_num)]
    congr 1
    push_cast
    omega
  refine ⟨j, by omega, ?_, ?_⟩
  · rw [← c1]
    exact mul_le_mul_of_nonneg_right a hp.le
  · have := mul_lt_mul_of_pos_right b hp
    rw [zpow_add_one₀ (by norm_num)] at this
    calc _ < _ := this
      _ = 2 * (2 ^ e * 2 ^ j) := by ring
      _ = _ := by rw [c1]; norm_num

theorem same {x y : Rat} {j : Nat} {m : Int} (hj : j ≤ 149) (hx0 : 0 < x) (hy0 : 0 < y) (hx1 : 2 ^ 23 ≤ x * 2 ^ j) (hx2 : x * 2 ^ j < 2 ^ 24)
    (hy1 : 2 ^ 23 ≤ y * 2 ^ j) (hy2 : y * 2 ^ j < 2 ^ 24) (hx : |(m : Rat) - x * 2 ^ j| < 1 / 2) (hy : |(m : Rat) - y * 2 ^ j| < 1 / 2) :
    nearest float32 y = nearest float32 x := by
  rw [at32 m j hj (by rw [abs_of_pos hx0]; exact hx1) (by rw [abs_of_pos hx0]; exact hx2) (.inl hx),
    at32 m j hj (by rw [abs_of_pos hy0]; exact hy1) (by rw [abs_of_pos hy0]; exact hy2) (.inl hy)]

/-- A quotient of two numbers of at most 24 digits may be rounded to double precision first. -/
theorem double_round {s n : Nat} (hs : s ≤ 2 ^ 24) (hn0 : 0 < n) (hn : n ≤ 2 ^ 24) :
    rnd (nearest float32) (nearest float64 ((s : Rat) / n)) = nearest float32 ((s : Rat) / n) := by
  have hnq : (0 : Rat) < n := by exact_mod_cast hn0
  have hnq' : (n : Rat) ≤ 2 ^ 24 := by exact_mod_cast hn
  have exact : ∀ q : Rat, float64.Has q → rnd (nearest float32) (nearest float64 q) = nearest float32 q := by
    intro q hq
    rw [nearest_fix wide64 hq]
    rfl
  rcases Nat.eq_zero_or_pos s with rfl | hs0
  · refine exact _ ?_
    rw [Nat.cast_zero, zero_div]
    exact fine64.zero
  have hsq : (1 : Rat) ≤ s := by exact_mod_cast hs0
  have hsq' : (s : Rat) ≤ 2 ^ 24 := by exact_mod_cast hs
  have hx0 : 1 / 2 ^ 24 ≤ (s : Rat) / n := by
    rw [div_le_div_iff₀ (by norm_num) hnq]
    nlinarith
  rcases lt_or_ge ((s : Rat) / n) (2 ^ 24) with hx1 | hx1
  · obtain ⟨j, hj, h1, h2⟩ := shift hx0 hx1
    have hj2 : (0 : Rat) < 2 ^ j := by positivity
    have hxp : 0 < (s : Rat) / n := by positivity
    have ab : |(s : Rat) / n| = s / n := abs_of_pos hxp
    -- the number with 24 digits before the point
    have hX : (s : Rat) / n * 2 ^ j = ((s * 2 ^ j : Nat) : Rat) / n := by push_cast; ring
    -- the first rounding
    obtain ⟨M, hM, hy⟩ : ∃ M : Int, |(M : Rat) - s / n * 2 ^ (j + 29)| ≤ 1 / 2 ∧ nearest float64 ((s : Rat) / n) = .fin (M / 2 ^ (j + 29)) ∧
        (∀ k : Int, (k : Rat) = s / n * 2 ^ (j + 29) → M = k) := by
      refine ⟨roundEven (s / n * 2 ^ (j + 29)), roundEven_half _, ?_, ?_⟩
      · have h := roundEven_half ((s : Rat) / n * 2 ^ (j + 29))
        rw [nearest_even wide64 (e := -((j + 29 : Nat) : Int)) (by show (-1074 : Int) ≤ _; omega) (by show _ < (971 : Int); omega), zpow_neg,
          zpow_natCast, div_inv_eq_mul, div_eq_mul_inv (b := (2 : Rat) ^ (j + 29))]
        · rw [zpow_neg, zpow_natCast, ← div_eq_mul_inv, div_le_iff₀ (by positivity), ab, pow_add]
          show (2 : Rat) ^ 52 ≤ _
          nlinarith
        · rw [zpow_neg, zpow_natCast, ← div_eq_mul_inv, lt_div_iff₀ (by positivity), ab, pow_add]
          show _ < (2 : Rat) ^ 53
          nlinarith
      · intro k hk
        rw [← hk, roundEven_int]
    obtain ⟨hy, hfix⟩ := hy
    rw [hy]
    show nearest float32 _ = _
    generalize hXd : (s : Rat) / n * 2 ^ j = X at *
    have hY : (M : Rat) / 2 ^ (j + 29) * 2 ^ j = M / 2 ^ 29 := by
      rw [pow_add]
      field_simp
    have hXM : (s : Rat) / n * 2 ^ (j + 29) = X * 2 ^ 29 := by rw [pow_add, ← mul_assoc, hXd]
    rw [hXM] at hM hfix
    have near : |(M : Rat) / 2 ^ 29 - X| ≤ 1 / 2 ^ 30 := by
      have : (M : Rat) / 2 ^ 29 - X = (M - X * 2 ^ 29) / 2 ^ 29 := by field_simp
      rw [this, abs_div, abs_of_pos (show (0 : Rat) < 2 ^ 29 by positivity), div_le_iff₀ (by positivity)]
      exact le_trans hM (by norm_num)
    -- numbers with a denominator of 2 are far away or equal
    have far : ∀ c : Int, (c : Rat) / 2 ≠ X → 1 / 2 ^ 25 ≤ |(c : Rat) / 2 - X| := by
      intro c hc
      have e : (c : Rat) / 2 - X = ((c * n - 2 * (s * 2 ^ j : Nat) : Int) : Rat) / (2 * n) := by
        rw [hX]
        push_cast
        field_simp
      have hz : (c * n - 2 * (s * 2 ^ j : Nat) : Int) ≠ 0 := by
        intro h0
        rw [h0, Int.cast_zero, zero_div] at e
        exact hc (by linarith)
      rw [e, abs_div, abs_of_pos (show (0 : Rat) < 2 * n by positivity), div_le_div_iff₀ (by norm_num) (by positivity), one_mul]
      have h1 : (1 : Rat) ≤ |((c * n - 2 * (s * 2 ^ j : Nat) : Int) : Rat)| := by exact_mod_cast Int.one_le_abs hz
      nlinarith
    by_cases tie : ∃ c : Int, (c : Rat) / 2 = X
    · obtain ⟨c, hc⟩ := tie
      have hM' := hfix (c * 2 ^ 28) (by rw [← hc]; push_cast; ring)
      have : (M : Rat) / 2 ^ (j + 29) = s / n := by
        rw [div_eq_iff (by positivity), hXM, ← hc, hM']
        push_cast
        ring
      rw [this]
    · have tie : ∀ c : Int, (c : Rat) / 2 ≠ X := fun c hc => tie ⟨c, hc⟩
      have hh := roundEven_half X
      generalize roundEven X = m at hh
      have hb : |(m : Rat) - X| + 1 / 2 ^ 25 ≤ 1 / 2 := by
        have f1 := far (2 * m + 1) (tie _)
        have f2 := far (2 * m - 1) (tie _)
        push_cast at f1 f2
        rw [abs_le] at hh
        rw [abs_of_nonneg (by linarith)] at f1
        rw [abs_of_nonpos (by linarith)] at f2
        rw [← le_sub_iff_add_le, abs_le]
        constructor <;> linarith
      have hb2 : |(m : Rat) - M / 2 ^ 29| < 1 / 2 := by
        calc _ = |((m : Rat) - X) + (X - M / 2 ^ 29)| := by ring_nf
          _ ≤ |(m : Rat) - X| + |X - M / 2 ^ 29| := abs_add_le _ _
          _ < 1 / 2 := by
            rw [abs_sub_comm X]
            have : (1 : Rat) / 2 ^ 30 < 1 / 2 ^ 25 := by norm_num
            linarith
      have hYpos : 2 ^ 23 ≤ (M : Rat) / 2 ^ 29 := by
        by_contra hc
        have f := far (2 ^ 24) (tie _)
        push_cast at f
        have : (1 : Rat) / 2 ^ 30 < 1 / 2 ^ 25 := by norm_num
        rw [abs_of_nonpos (by linarith)] at f
        rw [abs_le] at near
        linarith [near.1]
      have hYlt : (M : Rat) / 2 ^ 29 < 2 ^ 24 := by
        have f := far (2 ^ 25) (tie _)
        push_cast at f
        have : (1 : Rat) / 2 ^ 30 < 1 / 2 ^ 25 := by norm_num
        rw [abs_of_nonneg (by linarith)] at f
        rw [abs_le] at near
        linarith [near.2]
      have hy0 : (0 : Rat) < M / 2 ^ (j + 29) := by
        have : (0 : Rat) < M / 2 ^ (j + 29) * 2 ^ j := by rw [hY]; linarith
        exact (pos_iff_pos_of_mul_pos this).2 hj2
      have hlt : |(m : Rat) - X| < 1 / 2 := by
        have : (0 : Rat) < 1 / 2 ^ 25 := by norm_num
        linarith
      rw [← hXd] at h1 h2 hlt
      rw [← hY] at hYpos hYlt hb2
      exact same (by omega) hxp hy0 h1 h2 hYpos hYlt hlt hb2
  · refine exact _ ?_
    have : (s : Rat) / n = 2 ^ 24 := by
      refine le_antisymm ?_ hx1
      rw [div_le_iff₀ hnq]
      have : (1 : Rat) ≤ n := by exact_mod_cast hn0
      nlinarith
    rw [this]
    exact fine64.pow (by norm_num)

/-- The floating point types. -/
def Floating (t : MType) (f : Format) : Prop := t = .single ∧ f = float32 ∨ t = .double ∧ f = float64

theorem Floating.dtype {t : MType} {f : Format} (h : Floating t f) : t.dtype = .float f.p := by
  rcases h with ⟨rfl, rfl⟩ | ⟨rfl, rfl⟩ <;> rfl

theorem Floating.fine {t : MType} {f : Format} (h : Floating t f) : Fine f := by
  rcases h with ⟨rfl, rfl⟩ | ⟨rfl, rfl⟩
  · exact fine32
  · exact fine64

theorem Floating.digits {t : MType} {f : Format} (h : Floating t f) : 2 ≤ f.p := by
  rcases h with ⟨rfl, rfl⟩ | ⟨rfl, rfl⟩ <;> decide

theorem Floating.has {t : MType} {f : Format} (h : Floating t f) {n : Nat} (hn : n ≤ 2 ^ f.p) : f.Has n := by
  rcases Nat.lt_or_ge n (2 ^ f.p) with h1 | h1
  · rcases h with ⟨rfl, rfl⟩ | ⟨rfl, rfl⟩
    · exact has_nat (by decide) (by decide) h1
    · exact has_nat (by decide) (by decide) h1
  · have e : n = 2 ^ f.p := by omega
    rw [e, Nat.cast_pow, Nat.cast_ofNat]
    rcases h with ⟨rfl, rfl⟩ | ⟨rfl, rfl⟩
    · exact has_two_pow wide32 (by decide) (by decide)
    · exact has_two_pow wide64 (by decide) (by decide)

theorem Floating.fix {t : MType} {f : Format} (h : Floating t f) {n : Nat} (hn : n ≤ 2 ^ f.p) : nearest f n = .fin n :=
  nearest_fix h.fine.wide (h.has hn)

theorem Floating.total {t : MType} {f : Format} (h : Floating t f) (l : List Nat) (v : Fl) :
    t.Total l v ↔ l = [] ∧ v = .fin 0 ∨ Adds (nearest f) (l.map fun (n : Nat) => nearest f n) v := by
  rcases h with ⟨rfl, rfl⟩ | ⟨rfl, rfl⟩ <;> exact Iff.rfl

/-- Sums of natural numbers are exact up to two to the number of digits, in any order. -/
theorem adds_exact {t : MType} {f : Format} (hf : Floating t f) {l : List Fl} {v : Fl} (h : Adds (nearest f) l v) :
    ∀ {e : List Nat}, l = e.map (fun (n : Nat) => Fl.fin n) → e.sum ≤ 2 ^ f.p → v = .fin (e.sum : Nat) := by
  induction h with
  | one v =>
    intro e he _
    match e, he with
    | [n], he =>
      cases he
      simp
  | @add l a b x y hp _ _ iha ihb =>
    intro e he hs
    have hp' : (e.map fun (n : Nat) => Fl.fin n).Perm (a ++ b) := he ▸ hp
    obtain ⟨c, hc, hce⟩ : ∃ c : List Nat, a ++ b = c.map (fun (n : Nat) => Fl.fin n) ∧ c.Perm e := by
      have := congrFun (congrFun (List.eq_map_comp_perm fun (n : Nat) => Fl.fin n) (a ++ b)) e
      exact this.mpr hp'.symm
    obtain ⟨ea, eb, rfl, rfl, rfl⟩ := List.map_eq_append_iff.1 hc.symm
    have hsum := hce.sum_eq
    rw [List.sum_append] at hsum
    rw [iha rfl (by omega), ihb rfl (by omega)]
    show nearest f ((ea.sum : Nat) + (eb.sum : Nat)) = _
    rw [← Nat.cast_add, hsum]
    exact hf.fix hs

theorem total_iff {t : MType} {f : Format} (hf : Floating t f) {l : List Nat} (hs : l.sum ≤ 2 ^ f.p) (v : Fl) :
    t.Total l v ↔ v = .fin (l.sum : Nat) := by
  have hm : l.map (fun (n : Nat) => nearest f n) = l.map fun (n : Nat) => Fl.fin n :=
    List.map_congr_left fun n hn => hf.fix (le_trans (List.le_sum_of_mem hn) hs)
  rw [hf.total, hm]
  constructor
  · rintro (⟨rfl, rfl⟩ | h)
    · simp
    · exact adds_exact hf h rfl hs
  · rintro rfl
    by_cases h : l = []
    · exact .inl ⟨h, by simp [h]⟩
    · obtain ⟨v, hv⟩ := RoundedMeans.adds_exists (nearest f) (l := l.map fun (n : Nat) => Fl.fin n) (by simpa using h)
      have := adds_exact hf hv rfl hs
      exact .inr (this ▸ hv)

theorem totals_iff {t : MType} {f : Format} (hf : Floating t f) {g : List (List Nat)} (hs : ∀ l ∈ g, l.sum ≤ 2 ^ f.p) (flat : List Fl) :
    List.Forall₂ t.Total g flat ↔ flat = g.map fun l => .fin (l.sum : Nat) := by
  induction g generalizing flat with
  | nil => simp
  | cons l g ih =>
    rw [List.forall₂_cons_left_iff]
    constructor
    · rintro ⟨v, flat, hv, hr, rfl⟩
      rw [(total_iff hf (hs l (by simp)) v).1 hv, (ih (fun k hk => hs k (by simp [hk])) flat).1 hr]
      rfl
    · rintro rfl
      exact ⟨_, _, (total_iff hf (hs l (by simp)) _).2 rfl, (ih (fun k hk => hs k (by simp [hk])) _).2 rfl, rfl⟩

/-- The sums are exact. -/
theorem sums_iff {t : MType} {f : Format} (hf : Floating t f) {a : SparseArray} (ha : WF a) {axes : List Int}
    (h : (axes = scanAxes a ∨ axes = frameAxes a) ∨ a.allowFullExpand = true) {g : NArray (List Nat)}
    (hg : reduce .ok (dense a) axes = .ok g) (hs : ∀ l ∈ g.flat, l.sum ≤ 2 ^ f.p) (o : Outcome (NArray Fl)) :
    Sums t a axes o ↔ o = .ok ⟨g.shape, g.flat.map fun l => .fin (l.sum : Nat)⟩ := by
  unfold Sums
  split
  · rename_i h1
    rw [h1, reduce_scan, mapM_ok _ _ _ fun _ _ => rfl] at hg
    cases hg
    rw [hf.dtype, C77_mean_scan hf.digits a ha]
    refine iff_of_eq (congrArg (o = ·) ?_)
    show Outcome.ok _ = _
    simp only [numbers, List.map_map]
    congr 2
    refine List.map_congr_left fun q hq => ?_
    have := hs _ (List.mem_map_of_mem hq)
    simp only [Function.comp]
    rw [Nat.min_eq_left this]
  · split
    · rename_i h2
      rw [h2, reduce_frame, mapM_ok _ _ _ fun _ _ => rfl] at hg
      cases hg
      rw [hf.dtype, C77_mean_frame_partial (by have := hf.digits; omega) a ha fun i hi => hs _ (List.mem_map_of_mem (List.mem_range.2 hi))]
      refine iff_of_eq (congrArg (o = ·) ?_)
      show Outcome.ok _ = _
      simp only [numbers, List.map_map]
      rfl
    · rename_i h1 h2
      have hx : a.allowFullExpand = true := by
        rcases h with (h | h) | h
        · exact absurd h h1
        · exact absurd h h2
        · exact h
      rw [(C49_operations a ha _ _).1 hx, hg]
      simp only
      constructor
      · rintro ⟨flat, hfl, rfl⟩
        rw [(totals_iff hf hs flat).1 hfl]
      · rintro rfl
        exact ⟨_, (totals_iff hf hs _).2 rfl, rfl⟩

/-- The number of elements that are combined. -/
theorem lengths {a : SparseArray} {axes : List Int} {g : NArray (List Nat)} (hg : reduce .ok (dense a) axes = .ok g) :
    ∃ L, (axes.mapM fun x => do
      let i ← intIndex a.shape.length x
      .ok (a.shape.getD i 0)) = Outcome.ok L ∧ ∀ l ∈ g.flat, l.length = prod L := by
  have hsh : (dense a).shape = a.shape := rfl
  rcases mapM_intIndex_cases a.shape.length axes with ⟨r, h1, h2, h3⟩ | ⟨h1, -⟩
  · have hl : (axes.mapM fun x => do
        let i ← intIndex a.shape.length x
        .ok (a.shape.getD i 0)) = .ok (r.map fun i => a.shape.getD i 0) := by
      rw [h3, List.map_map]
      refine mapM_ok _ _ _ fun x hx => ?_
      obtain ⟨j, hj⟩ := h2 x hx
      simp only [hj, Function.comp, Outcome.ok_bind]
    refine ⟨_, hl, ?_⟩
    unfold reduce at hg
    change (axes.mapM (intIndex (dense a).shape.length) >>= _) = _ at hg
    rw [hsh, h1, Outcome.ok_bind] at hg
    by_cases hn : r.Nodup
    · rw [if_pos hn] at hg
      simp only at hg
      rw [mapM_ok _ _ _ fun _ _ => rfl] at hg
      cases hg
      intro l hl
      obtain ⟨k, hk, rfl⟩ := List.mem_map.1 hl
      rw [List.length_map, groups_length _ _ k hk]
      refine prod_perm ?_
      have hlt : ∀ j ∈ r, j < a.shape.length := by
        intro j hj
        rw [h3] at hj
        obtain ⟨x, hx, rfl⟩ := List.mem_map.1 hj
        obtain ⟨j, hj⟩ := h2 x hx
        simp only [hj]
        exact intIndex_ok hj
      have hp : r.Perm ((List.range a.shape.length).filter fun i => r.contains i) := by
        rw [List.perm_ext_iff_of_nodup hn (List.nodup_range.filter _)]
        intro i
        simp only [List.mem_filter, List.mem_range, List.contains_iff_mem]
        exact ⟨fun h => ⟨hlt i h, h⟩, fun h => h.2⟩
      refine ((hp.map _).trans ?_).symm
      refine List.Perm.of_eq ?_
      rw [← List.filterMap_eq_map, ← List.filterMap_eq_filter, List.filterMap_filterMap]
      refine List.filterMap_congr fun i hi => ?_
      have hi' := List.mem_range.1 hi
      rw [List.getD_eq_getElem?_getD (l := List.map _ _), List.getElem?_map, List.getElem?_range hi']
      by_cases hc : i ∈ r
      · simp [hc, Option.guard]
      · simp [hc, Option.guard]
    · rw [if_neg hn] at hg
      cases hg
  · unfold reduce at hg
    change (axes.mapM (intIndex (dense a).shape.length) >>= _) = _ at hg
    rw [hsh, h1] at hg
    cases hg

/-- The format of the result: the mean over all axes is an `np.float64`. -/
def resultFormat (f : Format) (shape : List Nat) : Format := if shape = [] then float64 else f

theorem quot_fin {x y : Rat} (hy : y ≠ 0) : (Fl.fin x).div (.fin y) = .fin (x / y) := by
  show (if y = 0 then _ else _) = _
  rw [if_neg hy]

/-- The mean of some numbers in a format: NaN if there are none, otherwise the closest number of the format. -/
def average (f : Format) (l : List Nat) : Fl := if l = [] then .nan else nearest f ((l.sum : Rat) / l.length)

theorem quot_round {t : MType} {f : Format} (hf : Floating t f) {l : List Nat} (hn : l.length ≤ 2 ^ f.p) :
    rnd (nearest f) ((Fl.fin (l.sum : Nat)).div (nearest f (l.length : Nat))) = average f l := by
  rw [hf.fix hn]
  unfold average
  by_cases h : l = []
  · rw [h]
    rfl
  · have hp := List.length_pos_iff.2 h
    rw [if_neg h, quot_fin (by exact_mod_cast hp.ne')]
    rfl

theorem average_twice {l : List Nat} (hs : l.sum ≤ 2 ^ 24) (hn : l.length ≤ 2 ^ 24) : rnd (nearest float32) (average float64 l) = average float32 l := by
  unfold average
  by_cases h : l = []
  · rw [if_pos h, if_pos h]
    rfl
  · rw [if_neg h, if_neg h]
    exact double_round hs (List.length_pos_iff.2 h) hn

theorem divide_eq {t : MType} {f : Format} (hf : Floating t f) (v : NumPy) (n : Nat) (g : NArray (List Nat))
    (hl : ∀ l ∈ g.flat, l.length = n) (hn : ∀ l ∈ g.flat, l.length ≤ 2 ^ f.p) (hs : ∀ l ∈ g.flat, l.sum ≤ 2 ^ f.p) :
    divide v t n ⟨g.shape, g.flat.map fun l => .fin (l.sum : Nat)⟩ =
      .ok ⟨g.shape, g.flat.map (average (resultFormat f g.shape))⟩ := by
  have h53 : f.p ≤ 53 := by rcases hf with ⟨rfl, rfl⟩ | ⟨rfl, rfl⟩ <;> decide
  have h2 : 2 ^ f.p ≤ 2 ^ 53 := Nat.pow_le_pow_right (by norm_num) h53
  have hd : Floating .double float64 := .inr ⟨rfl, rfl⟩
  have hs64 : ∀ l ∈ g.flat, l.sum ≤ 2 ^ 53 := fun l hm => le_trans (hs l hm) h2
  have hn64 : ∀ l ∈ g.flat, l.length ≤ 2 ^ 53 := fun l hm => le_trans (hn l hm) h2
  unfold divide resultFormat
  by_cases hsh : g.shape = []
  · simp only [if_pos hsh, List.map_map]
    congr 2
    refine List.map_congr_left fun l hm => ?_
    simp only [Function.comp]
    rw [show rnd (nearest float64) (.fin (l.sum : Nat)) = nearest float64 (l.sum : Nat) from rfl, hd.fix (hs64 l hm), ← hl l hm]
    exact quot_round hd (hn64 l hm)
  · simp only [if_neg hsh, List.map_map]
    rcases hf with ⟨rfl, rfl⟩ | ⟨rfl, rfl⟩
    · cases v with
      | v1 =>
        simp only
        congr 2
        refine List.map_congr_left fun l hm => ?_
        simp only [Function.comp]
        rw [← hl l hm]
        exact quot_round (.inl ⟨rfl, rfl⟩) (hn l hm)
      | v2 =>
        simp only
        congr 2
        refine List.map_congr_left fun l hm => ?_
        simp only [Function.comp]
        rw [← hl l hm, quot_round hd (hn64 l hm)]
        exact average_twice (hs l hm) (hn l hm)
    · simp only
      congr 2
      refine List.map_congr_left fun l hm => ?_
      simp only [Function.comp]
      rw [← hl l hm]
      exact quot_round hd (hn l hm)

theorem scan_lengths (a : SparseArray) : ((scanAxes a).mapM fun x => do
      let i ← intIndex a.shape.length x
      .ok (a.shape.getD i 0)) = Outcome.ok a.scanShape := by
  have h : scanAxes a = (List.range a.scanShape.length).map fun (i : Nat) => (i : Int) := rfl
  rw [h, mapM_map_congr (g := fun i => .ok (a.scanShape.getD i 0)), mapM_ok _ _ _ fun _ _ => rfl]
  · congr 1
    apply List.ext_getElem
    · simp
    · intro i h1 h2
      simp [List.getD_eq_getElem?_getD, List.getElem?_eq_getElem h2]
  · intro i hi
    have hi := List.mem_range.1 hi
    rw [intIndex_nat (by rw [SparseArray.shape, List.length_append]; omega), Outcome.ok_bind, SparseArray.shape,
      List.getD_eq_getElem?_getD, List.getElem?_append_left hi, ← List.getD_eq_getElem?_getD]

end SparseMeans
open SparseMeans

/-- C107: over any axes for which `mean` works, in `np.float32` (the default) and in `np.float64`, with NumPy 1 and NumPy 2: if no sum and
no number of elements exceeds two to the number of digits of the type, the only outcome of `mean` has for each group `l` of elements of
the dense array the number next to the exact mean (of the type, for a mean over all axes of `np.float64`); NaN for no elements. -/
theorem C107_mean {t : MType} {f : Format} (hf : t = .single ∧ f = float32 ∨ t = .double ∧ f = float64) (v : NumPy) (a : SparseArray)
    (ha : WF a) (axis : Axis) (h : Special a axis ∨ a.allowFullExpand = true) {g : NArray (List Nat)}
    (hg : reduce .ok (dense a) (axisList a axis) = .ok g) (hn : ∀ l ∈ g.flat, l.length ≤ 2 ^ f.p) (hs : ∀ l ∈ g.flat, l.sum ≤ 2 ^ f.p)
    (o : Outcome (NArray Fl)) :
    Mean v t a axis o ↔ o = .ok ⟨g.shape, g.flat.map fun (l : List Nat) =>
      if l = [] then .nan else nearest (if g.shape = [] then float64 else f) (((l.sum : Nat) : Rat) / l.length)⟩ := by
  rw [← reduce_perm _ _ (formatAxis_perm a axis)] at hg
  obtain ⟨L, hL, hlen⟩ := lengths hg
  have key : ∀ s, Sums t a (formatAxis a axis) s ↔ _ := sums_iff hf ha h hg hs
  unfold Mean
  rw [hL]
  constructor
  · rintro ⟨s, h1, rfl⟩
    rw [(key s).1 h1]
    exact divide_eq hf v (prod L) g hlen hn hs
  · rintro rfl
    refine ⟨_, (key _).2 rfl, ?_⟩
    exact (divide_eq hf v (prod L) g hlen hn hs).symm

/-- What the numbers are: finite, of the format, and no number of the format is closer to the mean. -/
theorem C107_closest {f : Format} (hf : f = float32 ∨ f = float64) {l : List Nat} (h : l ≠ []) (hs : l.sum ≤ 2 ^ 53) :
    ∃ q, nearest f ((l.sum : Rat) / l.length) = .fin q ∧ f.Has q ∧
      ∀ s, f.Has s → |q - (l.sum : Rat) / l.length| ≤ |s - (l.sum : Rat) / l.length| := by
  have hp : (1 : Rat) ≤ (l.length : Nat) := by exact_mod_cast List.length_pos_iff.2 h
  have hs' : ((l.sum : Nat) : Rat) ≤ 2 ^ 53 := by exact_mod_cast hs
  have h0 : (0 : Rat) ≤ (l.sum : Rat) / l.length := by positivity
  have h1 : (l.sum : Rat) / l.length ≤ 2 ^ 53 := by
    rw [div_le_iff₀ (by linarith)]
    nlinarith
  have hw : Fine f := by
    rcases hf with rfl | rfl
    · exact fine32
    · exact fine64
  obtain ⟨q, hq, hh, -⟩ := (nearest_rounds hw.wide).between hw.zero (hw.pow (k := 53) (by norm_num)) h0 h1
  exact ⟨q, hq, hh, fun s hs => nearest_nearest hw.wide hq hs⟩

/-- Other axes without the permission to expand. -/
theorem C107_denied (v : NumPy) (t : MType) (a : SparseArray) (ha : WF a) (axis : Axis) (h : ¬ Special a axis) (hx : a.allowFullExpand = false)
    (o : Outcome (NArray Fl)) : Mean v t a axis o ↔ o = .throw "FullExpansionDenied" := by
  obtain ⟨h1, h2⟩ := not_or.1 h
  unfold Mean Sums
  simp only [if_neg h1, if_neg h2, (C49_operations a ha _ _).2 hx]
  constructor
  · rintro ⟨s, rfl, rfl⟩
    rfl
  · rintro rfl
    exact ⟨_, rfl, rfl⟩

/-- With an integer type `mean` never returns an array. -/
theorem C107_integer_false (v : NumPy) (b : Nat) (a : SparseArray) (axis : Axis) {r : NArray Fl} (hr : r.shape ≠ []) :
    ¬ Mean v (.uint b) a axis (.ok r) := by
  rintro ⟨s, -, h⟩
  cases s with
  | ok s =>
    rw [Outcome.ok_bind] at h
    cases hL : (formatAxis a axis).mapM (m := Outcome) fun x => do
        let i ← intIndex a.shape.length x
        .ok (a.shape.getD i 0) with
    | ok L =>
      rw [hL, Outcome.ok_bind] at h
      unfold divide at h
      split at h
      · rename_i hs
        cases h
        exact hr hs
      · cases h
    | throw e => rw [hL] at h; cases h
    | ub => rw [hL] at h; cases h
  | throw e => cases h
  | ub => cases h

/-- With an unsigned integer type the mean over all axes is a number: that of the sum modulo two to the number of bits. -/
theorem C107_integer_all (v : NumPy) (b : Nat) (a : SparseArray) (ha : WF a) (hfr : a.frameShape ≠ []) (axis : Axis)
    (hx : a.allowFullExpand = true) {g : NArray (List Nat)} (hg : reduce .ok (dense a) (axisList a axis) = .ok g) (hsh : g.shape = [])
    (o : Outcome (NArray Fl)) :
    Mean v (.uint b) a axis o ↔ o = .ok ⟨[], g.flat.map fun (l : List Nat) =>
      rnd (nearest float64) ((nearest float64 (l.sum % 2 ^ b : Nat)).div (nearest float64 l.length))⟩ := by
  rw [← reduce_perm _ _ (formatAxis_perm a axis)] at hg
  obtain ⟨L, hL, hlen⟩ := lengths hg
  have h1 : formatAxis a axis ≠ scanAxes a := by
    intro he
    rw [he, reduce_scan, mapM_ok _ _ _ fun _ _ => rfl, Outcome.ok_bind] at hg
    cases hg
    exact hfr hsh
  have h2 : formatAxis a axis ≠ frameAxes a := by
    intro he
    rw [he, reduce_frame, mapM_ok _ _ _ fun _ _ => rfl, Outcome.ok_bind] at hg
    cases hg
    have := ha.ndim
    simp only at hsh
    rw [hsh] at this
    simp at this
  have key : ∀ s, Sums (.uint b) a (formatAxis a axis) s ↔
      s = .ok ⟨[], g.flat.map fun (l : List Nat) => .fin (l.sum % 2 ^ b : Nat)⟩ := by
    intro s
    unfold Sums
    simp only [if_neg h1, if_neg h2, (C49_operations a ha _ _).1 hx, hg, hsh]
    have hall : ∀ (ls : List (List Nat)) (fl : List Fl), List.Forall₂ (MType.uint b).Total ls fl ↔
        fl = ls.map fun (l : List Nat) => .fin (l.sum % 2 ^ b : Nat) := by
      intro ls
      induction ls with
      | nil => intro fl; simp
      | cons l ls ih =>
        intro fl
        rw [List.forall₂_cons_left_iff]
        simp only [ih, List.map_cons, MType.Total]
        constructor
        · rintro ⟨x, y, rfl, rfl, rfl⟩; rfl
        · rintro rfl; exact ⟨_, _, rfl, rfl, rfl⟩
    constructor
    · rintro ⟨fl, h, rfl⟩
      rw [(hall _ _).1 h]
    · rintro rfl
      exact ⟨_, (hall _ _).2 rfl, rfl⟩
  have hd : divide v (.uint b) (prod L) ⟨[], g.flat.map fun (l : List Nat) => .fin (l.sum % 2 ^ b : Nat)⟩ = .ok ⟨[], g.flat.map fun (l : List Nat) =>
      rnd (nearest float64) ((nearest float64 (l.sum % 2 ^ b : Nat)).div (nearest float64 l.length))⟩ := by
    unfold divide
    rw [if_pos rfl]
    simp only [List.map_map]
    congr 2
    refine List.map_congr_left fun l hm => ?_
    simp only [Function.comp]
    rw [hlen l hm]
    rfl
  unfold Mean
  rw [hL]
  constructor
  · rintro ⟨s, h3, rfl⟩
    rw [(key s).1 h3]
    exact hd
  · rintro rfl
    exact ⟨_, (key _).2 rfl, hd.symm⟩

/-- 256 events counted in eight bits: the mean of ones is 0. -/
example (v : NumPy) : Mean v (.uint 8) { data := List.replicate 256 [[0]], numFrames := 1, scanShape := [256], frameShape := [1, 1], allowFullExpand := true }
    (.axes [0, 1, 2]) (.ok ⟨[], [.fin 0]⟩) := by
  have hw : WF { data := List.replicate 256 [[0]], numFrames := 1, scanShape := [256], frameShape := [1, 1], allowFullExpand := true } :=
    ⟨.inl rfl, by decide +kernel, by decide +kernel, by decide +kernel, by decide +kernel⟩
  refine (C107_integer_all v 8 _ hw (by simp) (.axes [0, 1, 2]) rfl (g := ⟨[], [List.replicate 256 1]⟩) (by decide +kernel) rfl _).2 ?_
  decide +kernel

/-- The sum over the scan axes stops at 2 ^ 24 in the default type. -/
theorem C107_saturated (a : SparseArray) (ha : WF a) (hfr : a.frameShape ≠ []) (o : Outcome (NArray Fl)) :
    (Mean .v1 .single a .scan o ↔ o = .ok ⟨a.frameShape, (List.range (prod a.frameShape)).map fun q =>
      rnd (nearest float32) ((Fl.fin (min ((List.range (prod a.scanShape)).map fun p => eventCount a p q).sum (2 ^ 24) : Nat)).div
        (nearest float32 (prod a.scanShape : Nat)))⟩) ∧
    (Mean .v2 .single a .scan o ↔ o = .ok ⟨a.frameShape, (List.range (prod a.frameShape)).map fun q =>
      rnd (nearest float32) (rnd (nearest float64) ((Fl.fin (min ((List.range (prod a.scanShape)).map fun p => eventCount a p q).sum (2 ^ 24) : Nat)).div
        (nearest float64 (prod a.scanShape : Nat))))⟩) := by
  have hax : formatAxis a .scan = scanAxes a := sorted_scanAxes a
  unfold Mean Sums
  rw [hax, scan_lengths]
  simp only [if_true, MType.dtype]
  rw [C77_mean_scan (by norm_num) a ha]
  simp only [exists_eq_left, Outcome.ok_bind, divide, numbers, if_neg hfr, List.map_map, Function.comp_def]
  exact ⟨trivial, trivial⟩

/-- One event at every position. -/
def ones (n : Nat) : SparseArray := { data := List.replicate n [[0]], numFrames := 1, scanShape := [n], frameShape := [1, 1] }

theorem ones_wf (n : Nat) : WF (ones n) where
  ndim := .inl rfl
  length := by simp [ones, prod]
  frames row h := by rw [List.eq_of_mem_replicate h]; rfl
  lt row h fr hf e he := by
    rw [List.eq_of_mem_replicate h] at hf
    rw [List.mem_singleton.1 hf] at he
    rw [List.mem_singleton.1 he]
    exact Nat.le_refl 1
  nodup row h fr hf := by
    rw [List.eq_of_mem_replicate h] at hf
    rw [List.mem_singleton.1 hf]
    simp

theorem ones_group (n : Nat) : ((List.range (prod (ones n).scanShape)).map fun p => eventCount (ones n) p 0) = List.replicate n 1 := by
  have : prod (ones n).scanShape = n := by simp [ones, prod]
  rw [this]
  apply List.ext_getElem
  · simp
  · intro i h1 h2
    have hi : i < n := by simpa using h1
    simp [eventCount, ones, List.getD_eq_getElem?_getD, hi]

theorem ones_dense {β : Type} (n : Nat) (op : List Nat → Outcome β) : reduce op (dense (ones n)) (axisList (ones n) .scan) =
    (op (List.replicate n 1) >>= fun x => .ok ⟨[1, 1], [x]⟩) := by
  show reduce op (dense (ones n)) (scanAxes (ones n)) = _
  have : List.range (prod (ones n).frameShape) = [0] := rfl
  rw [reduce_scan, this, List.mapM_cons, ones_group]
  cases op (List.replicate n 1) <;> rfl

theorem sum_ones (n : Nat) : (List.replicate n 1).sum = n := by
  induction n with
  | zero => rfl
  | succ n ih => rw [List.replicate_succ, List.sum_cons, ih]; omega

theorem ones_mean {n : Nat} (hn : 0 < n) : reduce meanOf (dense (ones n)) (axisList (ones n) .scan) = .ok ⟨[1, 1], [1]⟩ := by
  have : (n : Rat) ≠ 0 := by exact_mod_cast hn.ne'
  rw [ones_dense]
  simp only [meanOf, sum_ones, List.length_replicate, div_self this, Outcome.ok_bind]

/-- More positions than the sum can count. -/
theorem ones_result {n : Nat} (hn : 2 ^ 24 ≤ n) {q32 q64 r64 : Rat} (h32 : nearest float32 (n : Nat) = .fin q32) (hq32 : q32 ≠ 0)
    (h64 : nearest float64 (n : Nat) = .fin q64) (hq64 : q64 ≠ 0) (hr : nearest float64 (2 ^ 24 / q64) = .fin r64) (o : Outcome (NArray Fl)) :
    (Mean .v1 .single (ones n) .scan o ↔ o = .ok ⟨[1, 1], [nearest float32 (2 ^ 24 / q32)]⟩) ∧
    (Mean .v2 .single (ones n) .scan o ↔ o = .ok ⟨[1, 1], [nearest float32 r64]⟩) := by
  have h := C107_saturated (ones n) (ones_wf n) (by simp [ones]) o
  have h1 : List.range (prod (ones n).frameShape) = [0] := rfl
  have h2 : prod (ones n).scanShape = n := by simp [ones, prod]
  rw [h1] at h
  simp only [List.map_cons, List.map_nil, ones_group, sum_ones] at h
  have e : ((Min.min n (2 ^ 24) : Nat) : Rat) = 2 ^ 24 := by rw [Nat.min_eq_right hn, Nat.cast_pow, Nat.cast_ofNat]
  rw [h2, e, h32, h64, quot_fin hq32, quot_fin hq64] at h
  simp only [rnd, hr] at h
  exact h

/-- So the mean of an array which is 1 everywhere is 1/2 if there are 2 ^ 25 positions. -/
theorem C107_saturated_false : ∃ a, WF a ∧ reduce meanOf (dense a) (axisList a .scan) = .ok ⟨[1, 1], [1]⟩ ∧
    ∀ v o, Mean v .single a .scan o ↔ o = .ok ⟨[1, 1], [.fin (1 / 2)]⟩ := by
  obtain ⟨n, hn⟩ : ∃ n : Nat, n = 2 ^ 25 := ⟨_, rfl⟩
  have hq : (n : Rat) = 2 ^ 25 := by rw [hn, Nat.cast_pow, Nat.cast_ofNat]
  have hge : 2 ^ 24 ≤ n := by rw [hn]; exact Nat.pow_le_pow_right (by norm_num) (by norm_num)
  refine ⟨ones n, ones_wf _, ones_mean (by omega), fun v o => ?_⟩
  have whole : ∀ f, Fine f → nearest f n = .fin (2 ^ 25) := fun f hf => by
    rw [hq]
    exact nearest_fix hf.wide (hf.pow (k := 25) (by norm_num))
  have half : ∀ f, Fine f → nearest f (1 / 2) = .fin (1 / 2) := by
    intro f hf
    have := hf.dyadic (m := 1) (by norm_num) (j := 1) (by norm_num)
    norm_num at this
    exact nearest_fix hf.wide this
  have e : (2 : Rat) ^ 24 / 2 ^ 25 = 1 / 2 := by norm_num
  have h := ones_result hge (whole _ fine32) (by norm_num) (whole _ fine64) (by norm_num) (by rw [e]; exact half _ fine64) o
  rw [e, half _ fine32] at h
  cases v
  · exact h.1
  · exact h.2

/-- With one position more than 2 ^ 24 NumPy 1 and NumPy 2 have different means of an array which is 1 everywhere. -/
theorem C107_versions_false : ∃ a, WF a ∧ reduce meanOf (dense a) (axisList a .scan) = .ok ⟨[1, 1], [1]⟩ ∧
    (∀ o, Mean .v1 .single a .scan o ↔ o = .ok ⟨[1, 1], [.fin 1]⟩) ∧
    ∀ o, Mean .v2 .single a .scan o ↔ o = .ok ⟨[1, 1], [.fin (1 - 1 / 2 ^ 24)]⟩ := by
  obtain ⟨n, hn⟩ : ∃ n : Nat, n = 2 ^ 24 + 1 := ⟨_, rfl⟩
  have hq : (n : Rat) = 16777217 := by rw [hn]; norm_num
  have hge : 2 ^ 24 ≤ n := by rw [hn]; exact Nat.le_succ _
  have k32 : nearest float32 (n : Rat) = .fin 16777216 := by
    rw [hq]
    have hp : |(16777217 : Rat)| = 16777217 := abs_of_pos (by norm_num)
    rw [nearest_even wide32 (e := 1) (by decide) (by decide) (by rw [hp]; show (2 : Rat) ^ 23 * _ ≤ _; norm_num)
      (by rw [hp]; show _ < (2 : Rat) ^ 24 * _; norm_num)]
    have : roundEven ((16777217 : Rat) / 2 ^ (1 : Int)) = 8388608 :=
      roundEven_tie (m := 8388608) (by rw [abs_of_nonpos] <;> norm_num) (by norm_num)
    rw [this]
    norm_num
  have k64 : nearest float64 (n : Rat) = .fin 16777217 := by
    have : float64.Has ((16777217 : Nat) : Rat) := has_nat (by decide) (by decide) (by decide)
    rw [Nat.cast_ofNat] at this
    rw [hq, nearest_fix wide64 this]
  have q64 : nearest float64 (2 ^ 24 / 16777217) = .fin ((9007198717870112 : Int) / 2 ^ 53) := by
    have hp : |(2 : Rat) ^ 24 / 16777217| = 2 ^ 24 / 16777217 := abs_of_pos (by norm_num)
    refine at64 _ 53 (by norm_num) (by rw [hp]; norm_num) (by rw [hp]; norm_num) (.inl ?_)
    rw [abs_lt]
    constructor <;> norm_num
  have q32 : nearest float32 ((9007198717870112 : Int) / 2 ^ 53) = .fin (1 - 1 / 2 ^ 24) := by
    have hp : |((9007198717870112 : Int) : Rat) / 2 ^ 53| = ((9007198717870112 : Int) : Rat) / 2 ^ 53 := abs_of_pos (by norm_num)
    rw [at32 16777215 24 (by norm_num) (by rw [hp]; norm_num) (by rw [hp]; norm_num) (.inl (by rw [abs_lt]; constructor <;> norm_num))]
    norm_num
  have one : nearest float32 (2 ^ 24 / 16777216) = .fin 1 := by
    rw [show (2 : Rat) ^ 24 / 16777216 = 1 by norm_num]
    have := nearest_fix wide32 (fine32.nat (n := 1) (by norm_num))
    simpa using this
  refine ⟨ones n, ones_wf _, ones_mean (by omega), fun o => ?_, fun o => ?_⟩
  · have h := (ones_result hge k32 (by norm_num) k64 (by norm_num) q64 o).1
    rwa [one] at h
  · have h := (ones_result hge k32 (by norm_num) k64 (by norm_num) q64 o).2
    rwa [q32] at h

/-- The hypotheses of `C107_mean` hold for the data of `sample` (Props/SparseSlice) over the frame axes; one mean, 1/6, is not a number of
the format. -/
example : WF sample ∧ Special sample .frame ∧ ∃ g, reduce .ok (dense sample) (axisList sample .frame) = .ok g ∧
    g = ⟨[2, 2], [[1, 0, 0, 0, 2, 0], [0, 0, 0, 0, 0, 1], [0, 1, 1, 1, 0, 0], [1, 0, 2, 0, 0, 0]]⟩ ∧
    (∀ l ∈ g.flat, l.length ≤ 2 ^ float32.p) ∧ (∀ l ∈ g.flat, l.sum ≤ 2 ^ float32.p) :=
  ⟨sample_wf, special_frame _, _, by decide +kernel, rfl, by decide +kernel, by decide +kernel⟩

end Stempy.Props
