import Verif.Model.RoundedMean
import Verif.Props.RoundedCom

/-!
# C106: `replace_nans`: the mean of the centers of mass, rounded

In every rounding mode and for every order of the sum, the positions without events get the mean of the centers of mass up to one rounding
error for each position and four more. The other positions are as without `replace_nans`. The mean of equal numbers can be another number.
-/

namespace Stempy.Props
open Numpy Sparse
open Stempy.FloatPixels (Fl)
open Stempy.SafeCast (Format float32 float64)
open Stempy.Float32 (two_zpow_pos)
open Stempy.IeeeRound Stempy.RoundedCom Stempy.RoundedMean
open Stempy.PyImage (Num Counted)
open RoundedCenter

namespace RoundedMeans

variable {f : Format} {rd rd32 rd64 : Rat → Fl}

/-- A number in the range of the format without subnormals is rounded with a relative error of at most one unit of the last digit. -/
theorem rel (hf : Fine f) (h : Rounds f rd) {q : Rat} (h1 : 2 ^ (f.p - 1) * (2 : Rat) ^ f.emin ≤ q)
    (h2 : q ≤ 2 ^ (f.p - 1) * (2 : Rat) ^ f.emax) :
    ∃ r, rd q = .fin r ∧ f.Has r ∧ (1 - 1 / 2 ^ (f.p - 1)) * q ≤ r ∧ r ≤ (1 + 1 / 2 ^ (f.p - 1)) * q := by
  have w := hf.wide
  have hd := hf.digits
  have hq0 : 0 < q := lt_of_lt_of_le (by have := two_zpow_pos f.emin; positivity) h1
  have habs : |q| = q := abs_of_pos hq0
  have hpe := two_zpow_pos (expo f q)
  have hlt := lt_expo w q
  rw [habs] at hlt
  have hle : 2 ^ (f.p - 1) * (2 : Rat) ^ expo f q ≤ q := by
    rcases lt_or_eq_of_le (le_expo (f := f) q) with h0 | h0
    · have := expo_le h0
      rwa [habs] at this
    · rw [← h0]
      exact h1
  have hemax : expo f q ≤ f.emax := by
    by_contra hc
    have h3 : (2 : Rat) ^ f.emax < 2 ^ expo f q := zpow_lt_zpow_right₀ (by norm_num) (by omega)
    have h4 : (2 : Rat) ^ (f.p - 1) * 2 ^ f.emax < 2 ^ (f.p - 1) * 2 ^ expo f q := by
      apply mul_lt_mul_of_pos_left h3
      positivity
    linarith
  have hm0 : 0 ≤ ⌊q / 2 ^ expo f q⌋ := Int.floor_nonneg.2 (by positivity)
  have hml : (⌊q / 2 ^ expo f q⌋ : Rat) * 2 ^ expo f q ≤ q := by
    have := Int.floor_le (q / (2 : Rat) ^ expo f q)
    rwa [le_div_iff₀ hpe] at this
  have hmu : q ≤ ((⌊q / 2 ^ expo f q⌋ : Rat) + 1) * 2 ^ expo f q := by
    have := (Int.lt_floor_add_one (q / (2 : Rat) ^ expo f q)).le
    rwa [div_le_iff₀ hpe] at this
  have hmp : ⌊q / 2 ^ expo f q⌋ < 2 ^ f.p := by
    rw [Int.floor_lt, div_lt_iff₀ hpe]
    push_cast
    exact hlt
  generalize ⌊q / 2 ^ expo f q⌋ = m at *
  have ha : f.Has (m * 2 ^ expo f q) := ⟨m, expo f q, by rwa [abs_of_nonneg hm0], le_expo q, hemax, rfl⟩
  have hb : f.Has ((m + 1) * 2 ^ expo f q) := by
    rcases lt_or_eq_of_le (show m + 1 ≤ 2 ^ f.p by omega) with h3 | h3
    · exact ⟨m + 1, expo f q, by rwa [abs_of_nonneg (by omega)], le_expo q, hemax, by push_cast; rfl⟩
    · refine ⟨2 ^ (f.p - 1), expo f q + 1, ?_, by have := le_expo (f := f) q; omega, ?_, ?_⟩
      · rw [abs_of_nonneg (by positivity)]
        exact pow_lt_pow_right₀ (by norm_num) (by have := w.digits; omega)
      · by_contra hc
        have he : expo f q = f.emax := by omega
        rw [he] at hml
        have h4 := le_trans hml h2
        rw [mul_le_mul_iff_of_pos_right (two_zpow_pos _)] at h4
        have h5 : (m : Rat) + 1 = 2 ^ f.p := by exact_mod_cast h3
        have h6 := w.pow
        have h7 : (2 : Rat) ≤ 2 ^ (f.p - 1) := by
          calc (2 : Rat) = 2 ^ 1 := by norm_num
            _ ≤ 2 ^ (f.p - 1) := pow_le_pow_right₀ (by norm_num) (by have := w.digits; omega)
        linarith
      · have h5 : (m : Rat) + 1 = 2 ^ f.p := by exact_mod_cast h3
        rw [h5, w.pow, zpow_add₀ (by norm_num)]
        push_cast
        ring
  obtain ⟨r, hr, hhas, hra, hrb⟩ := h.between ha hb hml hmu
  have hu : (2 : Rat) ^ expo f q ≤ 1 / 2 ^ (f.p - 1) * q := by
    rw [div_mul_eq_mul_div, one_mul, le_div_iff₀ (by positivity), mul_comm]
    exact hle
  exact ⟨r, hr, hhas, by linarith, by linarith⟩

/-- One unit of the last digit in single precision, relative to the number. -/
def unit : Rat := 1 / 2 ^ 23

theorem unit_pos : 0 < unit := by norm_num [unit]

theorem unit_lt : unit < 1 := by norm_num [unit]

/-- `r` is `q` up to `k` rounding errors. -/
def Within (k : Nat) (q r : Rat) : Prop := (1 - unit) ^ k * q ≤ r ∧ r ≤ (1 + unit) ^ k * q

/-- Zero, or not too small. -/
def Coarse (q : Rat) : Prop := q = 0 ∨ 1 / 2 ^ 60 ≤ q

theorem Coarse.nonneg {q : Rat} (h : Coarse q) : 0 ≤ q := by
  rcases h with h | h
  · exact h.ge
  · exact le_trans (by norm_num) h

theorem Coarse.add {a b : Rat} (ha : Coarse a) (hb : Coarse b) : Coarse (a + b) := by
  rcases ha with h1 | h1
  · rwa [h1, zero_add]
  · exact .inr (by have := hb.nonneg; linarith)

theorem low_pow (k : Nat) : 0 ≤ (1 - unit) ^ k := pow_nonneg (by have := unit_lt; linarith) k

theorem high_pow (k : Nat) : 0 < (1 + unit) ^ k := pow_pos (by have := unit_pos; linarith) k

theorem low_anti {j k : Nat} (h : j ≤ k) : (1 - unit) ^ k ≤ (1 - unit) ^ j :=
  pow_le_pow_of_le_one (by have := unit_lt; linarith) (by have := unit_pos; linarith) h

theorem high_mono {j k : Nat} (h : j ≤ k) : (1 + unit) ^ j ≤ (1 + unit) ^ k :=
  pow_le_pow_right₀ (by have := unit_pos; linarith) h

theorem Within.mono {j k : Nat} (h : j ≤ k) {q r : Rat} (hq : 0 ≤ q) (hw : Within j q r) : Within k q r :=
  ⟨le_trans (mul_le_mul_of_nonneg_right (low_anti h) hq) hw.1, le_trans hw.2 (mul_le_mul_of_nonneg_right (high_mono h) hq)⟩

theorem Within.refl (q : Rat) : Within 0 q q := by simp [Within]

theorem Within.trans {j k : Nat} {q r s : Rat} (h1 : Within j q r) (h2 : Within k r s) : Within (j + k) q s := by
  constructor
  · have := mul_le_mul_of_nonneg_left h1.1 (low_pow k)
    rw [pow_add]
    calc _ = (1 - unit) ^ k * ((1 - unit) ^ j * q) := by ring
      _ ≤ _ := this
      _ ≤ _ := h2.1
  · have := mul_le_mul_of_nonneg_left h1.2 (high_pow k).le
    rw [pow_add]
    calc s ≤ _ := h2.2
      _ ≤ _ := this
      _ = _ := by ring

theorem Within.add {k : Nat} {q r q' r' : Rat} (h1 : Within k q r) (h2 : Within k q' r') : Within k (q + q') (r + r') := by
  unfold Within at *
  rw [mul_add, mul_add]
  exact ⟨by linarith [h1.1, h2.1], by linarith [h1.2, h2.2]⟩

theorem Within.div {k : Nat} {q r : Rat} (h : Within k q r) {n : Rat} (hn : 0 < n) : Within k (q / n) (r / n) := by
  unfold Within at *
  rw [← mul_div_assoc, ← mul_div_assoc]
  exact ⟨div_le_div_of_nonneg_right h.1 hn.le, div_le_div_of_nonneg_right h.2 hn.le⟩

/-- One rounding, for numbers of a moderate size. -/
theorem round (hf : Fine f) (hl : (f.p : Int) + f.emin ≤ -100) (h : Rounds f rd) {q : Rat} (h0 : q = 0 ∨ 1 / 2 ^ 100 ≤ q) (h1 : q ≤ 2 ^ 100) :
    ∃ r, rd q = .fin r ∧ f.Has r ∧ Within 1 q r := by
  rcases h0 with h0 | h0
  · rw [h0]
    exact ⟨0, h.fix _ hf.zero, hf.zero, by simp [Within]⟩
  have hd := hf.digits
  have e1 : (2 : Rat) ^ (f.p - 1) * (2 : Rat) ^ f.emin ≤ q := by
    rw [← zpow_natCast, ← zpow_add₀ (by norm_num)]
    refine le_trans ?_ h0
    rw [one_div, ← zpow_natCast, ← zpow_neg]
    exact zpow_le_zpow_right₀ (by norm_num) (by omega)
  have e2 : q ≤ (2 : Rat) ^ (f.p - 1) * (2 : Rat) ^ f.emax := by
    rw [← zpow_natCast, ← zpow_add₀ (by norm_num)]
    refine le_trans h1 ?_
    rw [← zpow_natCast]
    exact zpow_le_zpow_right₀ (by norm_num) (by have := hf.large; omega)
  obtain ⟨r, hr, hh, h2, h3⟩ := rel hf h e1 e2
  have hu : (1 : Rat) / 2 ^ (f.p - 1) ≤ unit :=
    one_div_le_one_div_of_le (by norm_num) (pow_le_pow_right₀ (by norm_num) (by omega))
  have hq : 0 ≤ q := le_trans (by norm_num) h0
  have := mul_le_mul_of_nonneg_right hu hq
  unfold Within
  exact ⟨r, hr, hh, by linarith, by linarith⟩

theorem round32 (h : Rounds float32 rd) {q : Rat} (h0 : q = 0 ∨ 1 / 2 ^ 100 ≤ q) (h1 : q ≤ 2 ^ 100) :
    ∃ r, rd q = .fin r ∧ Within 1 q r := by
  obtain ⟨r, a, _, b⟩ := round fine32 (by decide) h h0 h1
  exact ⟨r, a, b⟩

theorem round64 (h : Rounds float64 rd) {q : Rat} (h0 : q = 0 ∨ 1 / 2 ^ 100 ≤ q) (h1 : q ≤ 2 ^ 100) :
    ∃ r, rd q = .fin r ∧ Within 1 q r := by
  obtain ⟨r, a, _, b⟩ := round fine64 (by decide) h h0 h1
  exact ⟨r, a, b⟩

/-- A rounded number is zero or not too small, if it was. -/
theorem coarse (hf : Fine f) (h : Rounds f rd) {q r : Rat} (hq : Coarse q) (hr : rd q = .fin r) : Coarse r := by
  rcases hq with h0 | h0
  · rw [h0, h.fix _ hf.zero] at hr
    cases hr
    exact .inl rfl
  · have hh : f.Has (1 / 2 ^ 60) := by simpa using hf.dyadic (m := 1) (by norm_num) (j := 60) (by omega)
    exact .inr (h.mono _ _ _ _ h0 (h.fix _ hh) hr)

/-- The number. -/
def value : Fl → Rat
  | .fin q => q
  | _ => 0

theorem adds_pos {l : List Fl} {v : Fl} (h : Adds rd l v) : 0 < l.length := by
  induction h with
  | one => simp
  | add hp _ _ ih _ =>
    rw [hp.length_eq, List.length_append]
    omega

/-- The sum in any order: one rounding error less than there are numbers. -/
theorem adds_within (h32 : Rounds float32 rd32) {l : List Fl} {v : Fl} (h : Adds rd32 l v) : ∀ {e : List Rat}, l = e.map Fl.fin →
    (∀ q ∈ e, Coarse q) → (1 + unit) ^ l.length * e.sum ≤ 2 ^ 100 →
    ∃ s, v = .fin s ∧ Coarse s ∧ Within (l.length - 1) e.sum s := by
  induction h with
  | one v =>
    intro e he hc _
    match e, he with
    | [q], he =>
      cases he
      exact ⟨q, rfl, hc q (by simp), by simp [Within]⟩
  | @add l a b x y hp ha hb iha ihb =>
    intro e he hc hs
    have pa := adds_pos ha
    have pb := adds_pos hb
    have hl : l.length = a.length + b.length := by rw [hp.length_eq, List.length_append]
    obtain ⟨ea, eb, rfl, rfl, hpe⟩ : ∃ ea eb : List Rat, a = ea.map Fl.fin ∧ b = eb.map Fl.fin ∧ e.Perm (ea ++ eb) := by
      have hfin : ∀ v ∈ l, Fl.fin (value v) = v := by
        intro v hv
        rw [he] at hv
        obtain ⟨q, _, rfl⟩ := List.mem_map.1 hv
        rfl
      have back : ∀ k : List Fl, (∀ v ∈ k, v ∈ l) → k = (k.map value).map Fl.fin := by
        intro k hk
        rw [List.map_map]
        conv => lhs; rw [← List.map_id k]
        exact List.map_congr_left fun v hv => (hfin v (hk v hv)).symm
      refine ⟨a.map value, b.map value, back a fun v hv => hp.mem_iff.2 (List.mem_append_left _ hv),
        back b fun v hv => hp.mem_iff.2 (List.mem_append_right _ hv), ?_⟩
      have hpm := hp.map value
      rw [he, List.map_map, List.map_append, show value ∘ Fl.fin = id from rfl, List.map_id] at hpm
      exact hpm
    rw [hpe.sum_eq, List.sum_append] at hs ⊢
    have ca : ∀ q ∈ ea, Coarse q := fun q hq => hc q (hpe.mem_iff.2 (List.mem_append_left _ hq))
    have cb : ∀ q ∈ eb, Coarse q := fun q hq => hc q (hpe.mem_iff.2 (List.mem_append_right _ hq))
    have na : 0 ≤ ea.sum := List.sum_nonneg fun q hq => (ca q hq).nonneg
    have nb : 0 ≤ eb.sum := List.sum_nonneg fun q hq => (cb q hq).nonneg
    have bound : ∀ {k : Nat}, k ≤ l.length → (1 + unit) ^ k * (ea.sum + eb.sum) ≤ 2 ^ 100 := fun hk =>
      le_trans (mul_le_mul_of_nonneg_right (high_mono hk) (by linarith)) hs
    have ba := le_trans (mul_le_mul_of_nonneg_left (show ea.sum ≤ ea.sum + eb.sum by linarith) (high_pow _).le)
      (bound (k := (ea.map Fl.fin).length) (by omega))
    have bb := le_trans (mul_le_mul_of_nonneg_left (show eb.sum ≤ ea.sum + eb.sum by linarith) (high_pow _).le)
      (bound (k := (eb.map Fl.fin).length) (by omega))
    obtain ⟨s, rfl, cs, ws⟩ := iha rfl ca ba
    obtain ⟨t, rfl, ct, wt⟩ := ihb rfl cb bb
    have w := (ws.mono (k := l.length - 2) (by omega) na).add (wt.mono (k := l.length - 2) (by omega) nb)
    have ht : s + t ≤ 2 ^ 100 := le_trans w.2 (bound (by omega))
    have cst := cs.add ct
    obtain ⟨r, hr, wr⟩ := round32 h32 (q := s + t) (cst.imp id fun h => le_trans (by norm_num) h) ht
    refine ⟨r, hr, coarse fine32 h32 cst hr, ?_⟩
    have := w.trans wr
    rwa [show l.length - 2 + 1 = l.length - 1 by omega] at this

theorem growth_aux {N : Nat} (hN : (N : Rat) * unit ≤ 1 / 2) : (1 + unit) ^ N ≤ 2 := by
  have h1 : (1 : Rat) / 2 ≤ (1 - unit) ^ N := by
    have := one_add_mul_le_pow (a := -unit) (by have := unit_lt; linarith) N
    rw [← sub_eq_add_neg 1 unit] at this
    refine le_trans ?_ this
    linarith
  have h2 : (1 + unit) ^ N * (1 - unit) ^ N ≤ 1 := by
    rw [← mul_pow]
    refine pow_le_one₀ ?_ ?_
    · norm_num [unit]
    · norm_num [unit]
  have := mul_le_mul_of_nonneg_left h1 (high_pow N).le
  linarith

/-- For the scans of up to 4096 by 4096 positions the errors do not add up to more than this. -/
theorem growth {n : Nat} (hn : n ≤ 2 ^ 24) : (1 + unit) ^ n ≤ 16 := by
  obtain ⟨N, hN, h1⟩ : ∃ N : Nat, n ≤ N * 4 ∧ (N : Rat) * unit ≤ 1 / 2 := ⟨2 ^ 22, by omega, by norm_num [unit]⟩
  calc (1 + unit) ^ n ≤ (1 + unit) ^ (N * 4) := high_mono hN
    _ = ((1 + unit) ^ N) ^ 4 := pow_mul _ _ _
    _ ≤ 2 ^ 4 := pow_le_pow_left₀ (high_pow _).le (growth_aux h1) 4
    _ = 16 := by norm_num

/-- A center of mass: not negative, and not too small or large. -/
def Center (q : Rat) : Prop := (q = 0 ∨ 1 / 2 ^ 53 ≤ q) ∧ q ≤ 2 ^ 15

theorem Center.coarse {q : Rat} (h : Center q) : Coarse q := h.1.imp id fun h => le_trans (by norm_num) h

theorem store_within (h32 : Rounds float32 rd32) (h64 : Rounds float64 rd64) {q : Rat} (h : Center q) :
    ∃ r, store rd32 rd64 (some q) = .fin r ∧ Coarse r ∧ Within 2 q r := by
  obtain ⟨s, hs, ws⟩ := round64 h64 (q := q) (h.1.imp id fun h => le_trans (by norm_num) h) (le_trans h.2 (by norm_num))
  have cs := RoundedMeans.coarse fine64 h64 h.coarse hs
  have ls : s ≤ 2 ^ 16 := by
    have h2 := h.2
    have := ws.2
    norm_num [unit] at this h2 ⊢
    linarith
  obtain ⟨r, hr, wr⟩ := round32 h32 (q := s) (cs.imp id fun h => le_trans (by norm_num) h) (le_trans ls (by norm_num))
  refine ⟨r, ?_, RoundedMeans.coarse fine32 h32 cs hr, ws.trans wr⟩
  show rnd rd32 (rd64 q) = _
  rw [hs]
  exact hr

/-- The stored centers with zeros for the NaNs. -/
def zeroed (rd32 rd64 : Rat → Fl) (e : List (Option Rat)) : List Rat := e.map fun o => value (store rd32 rd64 o)

theorem zeroed_eq (h32 : Rounds float32 rd32) (h64 : Rounds float64 rd64) {e : List (Option Rat)} (he : ∀ q, some q ∈ e → Center q) :
    ((e.map (store rd32 rd64)).map fun v => if v = .nan then .fin 0 else v) = (zeroed rd32 rd64 e).map Fl.fin := by
  unfold zeroed
  rw [List.map_map, List.map_map]
  apply List.map_congr_left
  intro o ho
  cases o with
  | none => rfl
  | some q =>
    obtain ⟨r, hr, _, _⟩ := store_within h32 h64 (he q ho)
    simp [hr, value]

theorem zeroed_coarse (h32 : Rounds float32 rd32) (h64 : Rounds float64 rd64) {e : List (Option Rat)} (he : ∀ q, some q ∈ e → Center q) :
    ∀ q ∈ zeroed rd32 rd64 e, Coarse q := by
  intro q hq
  obtain ⟨o, ho, rfl⟩ := List.mem_map.1 hq
  cases o with
  | none => exact .inl rfl
  | some q =>
    obtain ⟨r, hr, cr, _⟩ := store_within h32 h64 (he q ho)
    simp only [hr, value]
    exact cr

theorem zeroed_sum (h32 : Rounds float32 rd32) (h64 : Rounds float64 rd64) {e : List (Option Rat)} (he : ∀ q, some q ∈ e → Center q) :
    Within 2 (e.filterMap id).sum (zeroed rd32 rd64 e).sum := by
  induction e with
  | nil => simp [zeroed, Within]
  | cons o e ih =>
    have ih := ih fun q hq => he q (.tail _ hq)
    cases o with
    | none =>
      rw [List.filterMap_cons_none rfl, show zeroed rd32 rd64 (none :: e) = 0 :: zeroed rd32 rd64 e from rfl, List.sum_cons, zero_add]
      exact ih
    | some q =>
      obtain ⟨r, hr, _, wr⟩ := store_within h32 h64 (he q (.head _))
      rw [show (some q :: e).filterMap id = q :: e.filterMap id from rfl, show zeroed rd32 rd64 (some q :: e) = value (store rd32 rd64 (some q)) :: zeroed rd32 rd64 e from rfl,
        List.sum_cons, List.sum_cons, hr]
      exact wr.add ih

theorem count_eq (h32 : Rounds float32 rd32) (h64 : Rounds float64 rd64) {e : List (Option Rat)} (he : ∀ q, some q ∈ e → Center q) :
    ((e.map (store rd32 rd64)).filter fun v => v ≠ .nan).length = (e.filterMap id).length := by
  induction e with
  | nil => rfl
  | cons o e ih =>
    have ih := ih fun q hq => he q (.tail _ hq)
    cases o with
    | none =>
      rw [List.filterMap_cons_none rfl, ← ih]
      rfl
    | some q =>
      obtain ⟨r, hr, _, _⟩ := store_within h32 h64 (he q (.head _))
      rw [show (some q :: e).filterMap id = q :: e.filterMap id from rfl, List.map_cons, hr, List.filter_cons_of_pos (by simp), List.length_cons, List.length_cons, ih]

/-- What a pixel of the result should be: NaN or the exact one up to `k` rounding errors. -/
def Near (k : Nat) : Option Rat → Fl → Prop
  | none, v => v = .nan
  | some q, v => ∃ r, v = .fin r ∧ Within k q r

theorem sum_le {e : List Rat} (h : ∀ q ∈ e, Center q) : e.sum ≤ e.length * 2 ^ 15 := by
  have := List.sum_le_card_nsmul e (2 ^ 15) fun q hq => (h q hq).2
  rwa [nsmul_eq_mul] at this

theorem nanmean_near (h32 : Rounds float32 rd32) (h64 : Rounds float64 rd64) {e : List (Option Rat)} (he : ∀ q, some q ∈ e → Center q)
    (hn : e.length ≤ 2 ^ 24) {m : Fl} (hm : Nanmean rd32 rd64 (e.map (store rd32 rd64)) m) :
    Near (e.length + 3) (PyImage.nanmean e) m := by
  obtain ⟨s, hs, rfl⟩ := hm
  rw [zeroed_eq h32 h64 he] at hs
  rw [count_eq h32 h64 he]
  have hc := zeroed_coarse h32 h64 he
  have hz := zeroed_sum h32 h64 he
  have hv : ∀ q ∈ e.filterMap id, Center q := fun q hq => he q (by simpa using hq)
  have hv0 : 0 ≤ (e.filterMap id).sum := List.sum_nonneg fun q hq => (hv q hq).coarse.nonneg
  have hvl : (e.filterMap id).length ≤ e.length := List.length_filterMap_le _ _
  have hlen : (zeroed rd32 rd64 e).length = e.length := List.length_map _
  have hvs : (e.filterMap id).sum ≤ 2 ^ 39 := by
    refine le_trans (sum_le hv) ?_
    have : ((e.filterMap id).length : Rat) ≤ 2 ^ 24 := by exact_mod_cast le_trans hvl hn
    linarith
  have hzs : (zeroed rd32 rd64 e).sum ≤ 2 ^ 41 := by
    refine le_trans hz.2 ?_
    have h1 : (1 + unit) ^ 2 ≤ 4 := by norm_num [unit]
    have := mul_le_mul h1 hvs hv0 (by norm_num)
    linarith
  have hz0 : 0 ≤ (zeroed rd32 rd64 e).sum := List.sum_nonneg fun q hq => (hc q hq).nonneg
  obtain ⟨t, rfl, ct, wt⟩ : ∃ t, s = .fin t ∧ Coarse t ∧ Within (e.length - 1) (zeroed rd32 rd64 e).sum t := by
    rcases hs with hs | ⟨hs, rfl⟩
    · have := adds_within h32 hs rfl hc (by
        have h1 := growth (n := ((zeroed rd32 rd64 e).map Fl.fin).length) (by rw [List.length_map, hlen]; exact hn)
        have := mul_le_mul h1 hzs hz0 (by norm_num)
        linarith)
      rwa [List.length_map, hlen] at this
    · rw [List.map_eq_nil_iff.1 hs]
      exact ⟨0, rfl, .inl rfl, by simp [zeroed, Within]⟩
  have lt : t ≤ 2 ^ 45 := by
    refine le_trans wt.2 ?_
    have := mul_le_mul (growth (n := e.length - 1) (by omega)) hzs hz0 (by norm_num)
    linarith
  unfold PyImage.nanmean
  by_cases h0 : e.filterMap id = []
  · simp only [h0, List.isEmpty_nil, if_true, List.length_nil]
    rw [h0, List.sum_nil] at hz
    have z0 : (zeroed rd32 rd64 e).sum = 0 := by
      have := hz.2
      rw [mul_zero] at this
      linarith
    rw [z0] at wt
    have : t = 0 := by
      have h1 := wt.1
      have h2 := wt.2
      rw [mul_zero] at h1 h2
      linarith
    rw [this]
    rfl
  · have hp : 0 < (e.filterMap id).length := List.length_pos_iff.2 h0
    have hpq : (0 : Rat) < ((e.filterMap id).length : Nat) := by exact_mod_cast hp
    have hpl : (((e.filterMap id).length : Nat) : Rat) ≤ 2 ^ 24 := by exact_mod_cast le_trans hvl hn
    have h1q : (1 : Rat) ≤ ((e.filterMap id).length : Nat) := by exact_mod_cast hp
    simp only [List.isEmpty_iff, h0, if_false]
    generalize hN : (((e.filterMap id).length : Nat) : Rat) = N at *
    have w1 := (hz.trans wt).div hpq
    have e1 : (Fl.fin t).div (.fin N) = .fin (t / N) := by
      show (if N = 0 then _ else _) = _
      rw [if_neg hpq.ne']
    rw [e1]
    have q0 : t / N = 0 ∨ 1 / 2 ^ 84 ≤ t / N := by
      rcases ct with h | h
      · exact .inl (by rw [h, zero_div])
      · right
        rw [le_div_iff₀ hpq]
        linarith
    have q1 : t / N ≤ 2 ^ 45 := by
      rw [div_le_iff₀ hpq]
      linarith
    obtain ⟨x, hx, wx⟩ := round64 h64 (q := t / N) (q0.imp id fun h => le_trans (by norm_num) h) (le_trans q1 (by norm_num))
    have x1 : x ≤ 2 ^ 46 := by
      have := wx.2
      norm_num [unit] at this q1 ⊢
      linarith
    have x0 : x = 0 ∨ 1 / 2 ^ 100 ≤ x := by
      rcases q0 with h | h
      · left
        rw [h, h64.fix _ fine64.zero] at hx
        cases hx
        rfl
      · right
        have := wx.1
        norm_num [unit] at this h ⊢
        linarith
    obtain ⟨y, hy, wy⟩ := round32 h32 (q := x) x0 (le_trans x1 (by norm_num))
    refine ⟨y, ?_, ?_⟩
    · show rnd rd32 (rd64 (t / N)) = _
      rw [hx]
      exact hy
    · refine ((w1.trans wx).trans wy).mono ?_ (by positivity)
      have : 0 < e.length := by omega
      omega

/-- The image with the NaNs replaced is near the exact one. -/
theorem filled_near (h32 : Rounds float32 rd32) (h64 : Rounds float64 rd64) {e : List (Option Rat)} (he : ∀ q, some q ∈ e → Center q)
    (hn : e.length ≤ 2 ^ 24) {m : Fl} (hm : Nanmean rd32 rd64 (e.map (store rd32 rd64)) m) {g : Fl → Fl} (hg : ∀ q, g (.fin q) = .fin q)
    (hg' : g .nan = m) : List.Forall₂ (Near (e.length + 3)) (PyImage.replaceNans e) ((e.map (store rd32 rd64)).map g) := by
  have key := nanmean_near h32 h64 he hn hm
  unfold PyImage.replaceNans
  rw [List.map_map, List.forall₂_map_left_iff, List.forall₂_map_right_iff, List.forall₂_same]
  intro o ho
  cases o with
  | none =>
    show Near _ (PyImage.nanmean e) (g .nan)
    rw [hg']
    exact key
  | some q =>
    obtain ⟨r, hr, _, w⟩ := store_within h32 h64 (he q ho)
    show Near _ (some q) (g (store rd32 rd64 (some q)))
    rw [hr, hg]
    exact ⟨r, rfl, w.mono (by omega) (he q ho).coarse.nonneg⟩

/-- Nothing to replace. -/
theorem unfilled_near (h32 : Rounds float32 rd32) (h64 : Rounds float64 rd64) {e : List (Option Rat)} (he : ∀ q, some q ∈ e → Center q)
    (hnan : none ∉ e ∨ ∀ o ∈ e, o = none) :
    List.Forall₂ (Near (e.length + 3)) (PyImage.replaceNans e) (e.map (store rd32 rd64)) := by
  unfold PyImage.replaceNans
  rw [List.forall₂_map_left_iff, List.forall₂_map_right_iff, List.forall₂_same]
  intro o ho
  cases o with
  | none =>
    rcases hnan with h | h
    · exact absurd ho h
    · have : PyImage.nanmean e = none := by
        unfold PyImage.nanmean
        rw [show e.filterMap id = [] from List.filterMap_eq_nil_iff.2 fun o ho => h o ho]
        rfl
      rw [this]
      rfl
  | some q =>
    obtain ⟨r, hr, _, w⟩ := store_within h32 h64 (he q ho)
    exact ⟨r, hr, w.mono (by omega) (he q ho).coarse.nonneg⟩

theorem replaced_v0 (h32 : Rounds float32 rd32) (h64 : Rounds float64 rd64) {e : List (Option Rat)} (he : ∀ q, some q ∈ e → Center q)
    (hn : e.length ≤ 2 ^ 24) {out : List Fl} (h : ReplacedV0 rd32 rd64 (e.map (store rd32 rd64)) out) :
    List.Forall₂ (Near (e.length + 3)) (PyImage.replaceNans e) out := by
  obtain ⟨m, hm, rfl⟩ := h
  exact filled_near h32 h64 he hn hm (fun _ => rfl) rfl

theorem mem_store (h32 : Rounds float32 rd32) (h64 : Rounds float64 rd64) {e : List (Option Rat)} (he : ∀ q, some q ∈ e → Center q) :
    Fl.nan ∈ e.map (store rd32 rd64) ↔ none ∈ e := by
  rw [List.mem_map]
  constructor
  · rintro ⟨o, ho, h⟩
    cases o with
    | none => exact ho
    | some q =>
      obtain ⟨r, hr, _⟩ := store_within h32 h64 (he q ho)
      rw [hr] at h
      cases h
  · exact fun h => ⟨none, h, rfl⟩

theorem replaced_v1 (h32 : Rounds float32 rd32) (h64 : Rounds float64 rd64) {e : List (Option Rat)} (he : ∀ q, some q ∈ e → Center q)
    (hn : e.length ≤ 2 ^ 24) {out : List Fl} (h : ReplacedV1 rd32 rd64 (e.map (store rd32 rd64)) out) :
    List.Forall₂ (Near (e.length + 3)) (PyImage.replaceNans e) out := by
  unfold ReplacedV1 at h
  by_cases hm : Fl.nan ∈ e.map (store rd32 rd64)
  · rw [if_pos hm] at h
    obtain ⟨m, hm, rfl⟩ := h
    exact filled_near h32 h64 he hn hm (g := fun v => if v = .nan then m else v) (fun _ => if_neg (by simp)) (if_pos rfl)
  · rw [if_neg hm] at h
    rw [h]
    exact unfilled_near h32 h64 he (.inl fun hc => hm ((mem_store h32 h64 he).2 hc))

/-- A sum exists. -/
theorem adds_exists (rd : Rat → Fl) : ∀ {l : List Fl}, l ≠ [] → ∃ v, Adds rd l v
  | [v], _ => ⟨v, .one v⟩
  | v :: w :: l, _ => by
    obtain ⟨x, hx⟩ := adds_exists rd (List.cons_ne_nil w l)
    exact ⟨_, .add (a := [v]) (.refl _) (.one v) hx⟩

theorem nanmean_exists (rd32 rd64 : Rat → Fl) (l : List Fl) : ∃ m, Nanmean rd32 rd64 l m := by
  by_cases h : l = []
  · exact ⟨_, _, .inr ⟨h, rfl⟩, rfl⟩
  · obtain ⟨s, hs⟩ := adds_exists rd32 (l := l.map fun v => if v = .nan then .fin 0 else v) (by simpa using h)
    exact ⟨_, s, .inl hs, rfl⟩

theorem replaced_exists (rd32 rd64 : Rat → Fl) (l : List Fl) : (∃ out, ReplacedV0 rd32 rd64 l out) ∧ ∃ out, ReplacedV1 rd32 rd64 l out := by
  obtain ⟨m, hm⟩ := nanmean_exists rd32 rd64 l
  refine ⟨⟨_, m, hm, rfl⟩, ?_⟩
  unfold ReplacedV1
  by_cases h : Fl.nan ∈ l
  · exact ⟨_, by rw [if_pos h]; exact ⟨m, hm, rfl⟩⟩
  · exact ⟨l, by rw [if_neg h]⟩

theorem average_center {w : Nat} (hw : w ≤ 32768) {X : Nat → Nat} {l : List Nat} (hX : ∀ e ∈ l, X e < w) (hl : l ≠ [])
    (hn : l.length * w ≤ 2 ^ 53) : Center (PyImage.average X l) := by
  have hp : 0 < l.length := List.length_pos_iff.2 hl
  have hpq : (0 : Rat) < (l.length : Nat) := by exact_mod_cast hp
  have hsum : ∀ l : List Nat, (∀ e ∈ l, X e < w) → (l.map X).sum ≤ l.length * w := by
    intro l
    induction l with
    | nil => simp
    | cons e l ih =>
      intro h
      have h1 := ih fun x hx => h x (.tail _ hx)
      have h2 := h e (.head _)
      rw [List.map_cons, List.sum_cons, List.length_cons, Nat.add_mul]
      omega
  have h1 := hsum l hX
  unfold PyImage.average
  constructor
  · rcases Nat.eq_zero_or_pos (l.map X).sum with h0 | h0
    · left
      rw [h0, Nat.cast_zero, zero_div]
    · right
      rw [le_div_iff₀ hpq]
      have h2 : (1 : Rat) ≤ ((l.map X).sum : Nat) := by exact_mod_cast h0
      have h3 : l.length ≤ 2 ^ 53 := by
        rcases Nat.eq_zero_or_pos w with hw0 | hw0
        · rw [hw0, Nat.mul_zero] at h1
          omega
        · exact le_trans (Nat.le_mul_of_pos_right _ hw0) hn
      have h4 : ((l.length : Nat) : Rat) ≤ 2 ^ 53 := by exact_mod_cast h3
      linarith
  · rw [div_le_iff₀ hpq]
    have h2 : (l.map X).sum ≤ l.length * 32768 := le_trans h1 (Nat.mul_le_mul_left _ hw)
    have h3 : (((l.map X).sum : Nat) : Rat) ≤ (l.length : Nat) * 32768 := by exact_mod_cast h2
    linarith

/-- The exact centers of mass are of a moderate size. -/
theorem centers {a : SparseArray} {s0 s1 h w : Nat} (ha : Counted a s0 s1 h w) (hw : w ≤ 32768)
    (hn : ∀ p, (PyImage.eventsAt a p).length * w ≤ 2 ^ 53) {crop : Option Rat} {init : Option (Num × Num)} {com : PyImage.Com}
    (hc : PyImage.comSparse 1 a crop init false = .ok com) :
    com.1.length = s0 * s1 ∧ com.2.length = s0 * s1 ∧ (∀ q, some q ∈ com.1 → Center q) ∧ (∀ q, some q ∈ com.2 → Center q) ∧
      PyImage.comSparse 1 a crop init true = .ok (PyImage.replaceNans com.1, PyImage.replaceNans com.2) ∧
      ((a.data.flatMap fun frames => frames.flatten) = [] → (∀ o ∈ com.1, o = none) ∧ ∀ o ∈ com.2, o = none) := by
  have he : ∀ b, PyImage.comSparse 1 a crop init b = .ok (PyImage.images b ((List.range (s0 * s1)).map fun p =>
      PyImage.comXY (· / h) (· % w) crop (PyImage.initVal init) (PyImage.eventsAt a p))) :=
    PyImage.comSparseV1_eq ha.wf.length ha.scan ha.frame ha.lt crop init
  have hev : ∀ p, ∀ e ∈ PyImage.eventsAt a p, e ∈ a.data.flatMap fun frames => frames.flatten := by
    intro p e he
    unfold PyImage.eventsAt at he
    rw [List.getD_eq_getElem?_getD] at he
    by_cases hp : p < a.data.length
    · rw [List.getElem?_eq_getElem hp] at he
      exact List.mem_flatMap.2 ⟨_, List.getElem_mem hp, he⟩
    · rw [List.getElem?_eq_none (by omega)] at he
      cases he
  have hlt : ∀ p, ∀ e ∈ PyImage.eventsAt a p, e / h < w ∧ e % w < w := by
    intro p e he
    obtain ⟨fs, hfs, he⟩ := List.mem_flatMap.1 (hev p e he)
    obtain ⟨fr, hfr, he⟩ := List.mem_flatten.1 he
    have hlt := ha.lt _ hfs fr hfr e he
    have hpos : 0 < w := by
      rcases Nat.eq_zero_or_pos w with h0 | h0
      · simp [h0] at hlt
      · exact h0
    exact ⟨Nat.div_lt_of_lt_mul hlt, Nat.mod_lt _ hpos⟩
  have sub : ∀ p, (PyImage.keptXY (· / h) (· % w) crop (PyImage.initVal init) (PyImage.eventsAt a p)).Sublist (PyImage.eventsAt a p) := by
    intro p
    unfold PyImage.keptXY
    cases crop with
    | none => exact .refl _
    | some r => exact List.filter_sublist
  cases (he false).symm.trans hc
  unfold PyImage.images at he ⊢
  simp only [Bool.false_eq_true, if_false]
  refine ⟨by simp, by simp, ?_, ?_, by rw [he true]; rfl, ?_⟩
  · intro q hq
    simp only [List.map_map, List.mem_map, Function.comp, PyImage.comXY_fst] at hq
    obtain ⟨p, _, hq⟩ := hq
    by_cases hk : PyImage.keptXY (· / h) (· % w) crop (PyImage.initVal init) (PyImage.eventsAt a p) = []
    · rw [if_pos hk] at hq
      cases hq
    · rw [if_neg hk] at hq
      cases hq
      exact average_center hw (fun e he => (hlt p e ((sub p).subset he)).2) hk
        (le_trans (Nat.mul_le_mul_right _ (sub p).length_le) (hn p))
  · intro q hq
    simp only [List.map_map, List.mem_map, Function.comp, PyImage.comXY_snd] at hq
    obtain ⟨p, _, hq⟩ := hq
    by_cases hk : PyImage.keptXY (· / h) (· % w) crop (PyImage.initVal init) (PyImage.eventsAt a p) = []
    · rw [if_pos hk] at hq
      cases hq
    · rw [if_neg hk] at hq
      cases hq
      exact average_center hw (fun e he => (hlt p e ((sub p).subset he)).1) hk
        (le_trans (Nat.mul_le_mul_right _ (sub p).length_le) (hn p))
  · intro h0
    have hk : ∀ p, PyImage.keptXY (· / h) (· % w) crop (PyImage.initVal init) (PyImage.eventsAt a p) = [] := by
      intro p
      refine List.eq_nil_iff_forall_not_mem.2 fun e he => ?_
      have := hev p e ((sub p).subset he)
      rw [h0] at this
      cases this
    simp [PyImage.comXY, hk]

/-! ### The mean of equal numbers -/

/-- Three positions with the events of five frames, in the first row and the columns 0, 0, 3, 3, 3, and one position without events. -/
def equals (w : Nat) : SparseArray :=
  ⟨[[[0], [0], [3], [3], [3]], [[0], [0], [3], [3], [3]], [[0], [0], [3], [3], [3]], [[], [], [], [], []]], 5, [2, 2], [w, w], true, false⟩

theorem equals_counted {w : Nat} (hw : 4 ≤ w) : Counted (equals w) 2 2 w w := by
  have h9 : 3 < w * w := by
    have := Nat.mul_le_mul hw hw
    omega
  refine ⟨⟨.inr rfl, rfl, ?_, ?_, ?_⟩, rfl, rfl, Nat.succ_pos 4⟩
  · simp [equals]
  · have : 0 < w * w := by omega
    simp [equals, prod, h9, this]
  · simp [equals]

theorem equals_com {w : Nat} (hw : 4 ≤ w) : PyImage.comSparse 1 (equals w) none none false =
    .ok ([some (9 / 5), some (9 / 5), some (9 / 5), none], [some 0, some 0, some 0, none]) := by
  have ha := equals_counted hw
  have he : PyImage.comSparse 1 (equals w) none none false = .ok (PyImage.images false ((List.range (2 * 2)).map fun p =>
      PyImage.comXY (· / w) (· % w) none (PyImage.initVal none) (PyImage.eventsAt (equals w) p))) :=
    PyImage.comSparseV1_eq ha.wf.length ha.scan ha.frame ha.lt none none false
  have d0 : 0 / w = 0 := Nat.zero_div w
  have d3 : 3 / w = 0 := Nat.div_eq_of_lt (by omega)
  have m3 : 3 % w = 3 := Nat.mod_eq_of_lt (by omega)
  have p1 : PyImage.comXY (· / w) (· % w) none none [0, 0, 3, 3, 3] = some (9 / 5, 0) := by
    unfold PyImage.comXY PyImage.keptXY PyImage.average
    simp only [List.map_cons, List.map_nil, d0, d3, m3, Nat.zero_mod, if_neg (List.cons_ne_nil _ _)]
    norm_num
  have p2 : PyImage.comXY (· / w) (· % w) none none [] = none := rfl
  rw [he, show List.range (2 * 2) = [0, 1, 2, 3] from rfl]
  have ev : PyImage.eventsAt (equals w) 0 = [0, 0, 3, 3, 3] ∧ PyImage.eventsAt (equals w) 1 = [0, 0, 3, 3, 3] ∧
      PyImage.eventsAt (equals w) 2 = [0, 0, 3, 3, 3] ∧ PyImage.eventsAt (equals w) 3 = [] := ⟨rfl, rfl, rfl, rfl⟩
  simp only [List.map_cons, List.map_nil, ev.1, ev.2.1, ev.2.2.1, ev.2.2.2, PyImage.initVal, Option.map_none, p1, p2]
  rfl

/-- The value of 9/5 in single precision. -/
def nine : Rat := 15099494 / 2 ^ 23

theorem nine_store : store (nearest float32) (nearest float64) (some (9 / 5)) = .fin nine := by
  have sy := (stored (nearest_rounds wide32) (nearest_rounds wide64) (w := 7) (by omega) (X := id) (l := [0, 0, 3, 3, 3]) (by simp)
    (by decide) (by decide)).2
  have ay : PyImage.average id [0, 0, 3, 3, 3] = 9 / 5 := by
    unfold PyImage.average
    norm_num
  rw [ay, List.map_id, ex2_stored_y] at sy
  exact sy.symm

theorem nine_ne : (Fl.fin 0 : Fl) ≠ .fin nine := by
  intro h
  injection h with h
  norm_num [nine] at h

/-- Sum of `k` of them, in any order. -/
def nines : Nat → Rat
  | 0 => 0
  | 1 => nine
  | 2 => 2 * nine
  | _ => 11324620 / 2 ^ 21

theorem nines_fix (k : Nat) (hk : k ≤ 3) : nearest float32 (nines k) = .fin (nines k) := by
  apply (nearest_rounds wide32).fix
  match k, hk with
  | 0, _ => exact fine32.zero
  | 1, _ => simpa [nines, nine] using fine32.dyadic (m := 15099494) (by norm_num) (j := 23) (by omega)
  | 2, _ =>
    have := fine32.dyadic (m := 15099494) (by norm_num) (j := 22) (by omega)
    rw [show nines 2 = ((15099494 : Int) : Rat) / 2 ^ 22 by norm_num [nines, nine]]
    exact this
  | 3, _ => simpa [nines] using fine32.dyadic (m := 11324620) (by norm_num) (j := 21) (by omega)

theorem nines_three {q : Rat} (hq : q = 3 * nine) : nearest float32 q = .fin (nines 3) := by
  have := at32 11324620 21 (q := q) (by norm_num) (by rw [abs_of_pos (by norm_num [hq, nine])]; norm_num [hq, nine])
    (by rw [abs_of_pos (by norm_num [hq, nine])]; norm_num [hq, nine]) (Or.inr ⟨by norm_num [hq, nine, abs_of_neg], by norm_num⟩)
  rw [this]
  norm_num [nines]

theorem nines_add (j k : Nat) (h : j + k ≤ 3) : nearest float32 (nines j + nines k) = .fin (nines (j + k)) := by
  rcases Nat.eq_zero_or_pos j with rfl | hj
  · rw [show nines 0 = 0 from rfl, zero_add, Nat.zero_add]
    exact nines_fix k (by omega)
  rcases Nat.eq_zero_or_pos k with rfl | hk
  · rw [show nines 0 = 0 from rfl, add_zero, Nat.add_zero]
    exact nines_fix j (by omega)
  obtain ⟨rfl, rfl⟩ | ⟨rfl, rfl⟩ | ⟨rfl, rfl⟩ : (j = 1 ∧ k = 1) ∨ (j = 1 ∧ k = 2) ∨ (j = 2 ∧ k = 1) := by omega
  · rw [show nines 1 + nines 1 = nines 2 by norm_num [nines, nine]]
    exact nines_fix 2 (by omega)
  · exact nines_three (by norm_num [nines, nine])
  · exact nines_three (by norm_num [nines, nine])

/-- The sum of at most three of them and zeros does not depend on the order. -/
theorem adds_nines {l : List Fl} {v : Fl} (h : Adds (nearest float32) l v) : (∀ x ∈ l, x = .fin nine ∨ x = .fin 0) →
    l.count (.fin nine) ≤ 3 → v = .fin (nines (l.count (.fin nine))) := by
  induction h with
  | one v =>
    intro hv _
    rcases hv v (by simp) with rfl | rfl
    · simp [nines]
    · have : List.count (Fl.fin nine) [Fl.fin 0] = 0 := List.count_eq_zero.2 (by simpa using nine_ne.symm)
      rw [this]
      rfl
  | @add l a b x y hp _ _ iha ihb =>
    intro hv hc
    rw [hp.count_eq, List.count_append] at hc ⊢
    have := iha (fun x hx => hv x (hp.mem_iff.2 (List.mem_append_left _ hx))) (by omega)
    have := ihb (fun x hx => hv x (hp.mem_iff.2 (List.mem_append_right _ hx))) (by omega)
    subst_vars
    exact nines_add _ _ hc

theorem nines_mean : rnd (nearest float32) (nearest float64 (nines 3 / 3)) = .fin (15099493 / 2 ^ 23) := by
  have ha : float64.Has (60397973 / 2 ^ 25) := ⟨60397973, -25, by norm_num [float64], by decide, by decide, by norm_num⟩
  have hb : float64.Has (120795947 / 2 ^ 26) := ⟨120795947, -26, by norm_num [float64], by decide, by decide, by norm_num⟩
  obtain ⟨x, hx, _, h1, h2⟩ := (nearest_rounds wide64).between (q := nines 3 / 3) ha hb (by norm_num [nines]) (by norm_num [nines])
  rw [hx]
  have hp : 0 < x := lt_of_lt_of_le (by norm_num) h1
  show nearest float32 x = _
  have := at32 15099493 23 (q := x) (by norm_num) (by rw [abs_of_pos hp]; norm_num at *; linarith)
    (by rw [abs_of_pos hp]; norm_num at *; linarith) (Or.inl (by rw [abs_lt]; norm_num at *; constructor <;> linarith))
  rw [this]
  norm_num

theorem nanmean_nines {m : Fl} (h : Nanmean (nearest float32) (nearest float64) [.fin nine, .fin nine, .fin nine, .nan] m) :
    m = .fin (15099493 / 2 ^ 23) := by
  obtain ⟨s, hs, rfl⟩ := h
  rcases hs with hs | ⟨h, _⟩
  · have hl : ([.fin nine, .fin nine, .fin nine, .nan] : List Fl).map (fun v => if v = .nan then .fin 0 else v) =
        [.fin nine, .fin nine, .fin nine, .fin 0] := by simp
    rw [hl] at hs
    have hc : List.count (Fl.fin nine) [.fin nine, .fin nine, .fin nine, .fin 0] = 3 := by
      simp [List.count_cons]
      norm_num [nine]
    have := adds_nines hs (by simp) (by rw [hc])
    rw [hc] at this
    rw [this]
    have hcount : (([.fin nine, .fin nine, .fin nine, .nan] : List Fl).filter fun v => v ≠ .nan).length = 3 := by simp
    rw [hcount]
    have e1 : (Fl.fin (nines 3)).div (.fin ((3 : Nat) : Rat)) = .fin (nines 3 / 3) := by
      show (if ((3 : Nat) : Rat) = 0 then Fl.signInf (nines 3) else .fin (nines 3 / (3 : Nat))) = _
      rw [if_neg (by norm_num)]
      norm_num
    rw [e1]
    exact nines_mean
  · cases h

end RoundedMeans

open RoundedMeans

variable {rd32 rd64 : Rat → Fl}

/-- **C106** with `replace_nans`, for every array for which the centers of mass are right without it (`C95_no_crop`, `C95_center_partial`,
`C95_few_partial`), every rounding mode and every order of the sums of `np.nanmean`: each pixel of both versions is the exact one, with the
exact mean in place of a NaN, up to `n + 3` relative errors of `2^-23` for a scan of `n` positions. Only an array without any events gives
NaNs. -/
theorem C106_mean (h32 : Rounds float32 rd32) (h64 : Rounds float64 rd64) (a : SparseArray) (s0 s1 h w : Nat)
    (ha : Counted a s0 s1 h w) (hw : w ≤ 32768) (hn : ∀ p, (PyImage.eventsAt a p).length * w ≤ 2 ^ 53) (hs : s0 * s1 ≤ 2 ^ 24)
    (crop : Option Rat) (init : Option (Num × Num)) (hr : Right rd32 rd64 a crop init) :
    ∃ com, PyImage.comSparse 1 a crop init true = .ok com ∧ (∃ out, ComV0 rd32 rd64 a crop init out) ∧
      (∃ out, ComV1 rd32 rd64 a crop init out) ∧ ∀ out, ComV0 rd32 rd64 a crop init out ∨ ComV1 rd32 rd64 a crop init out →
        List.Forall₂ (Near (s0 * s1 + 3)) com.1 out.1 ∧ List.Forall₂ (Near (s0 * s1 + 3)) com.2 out.2 := by
  obtain ⟨com, hc, r0, r1⟩ := hr
  obtain ⟨l1, l2, c1, c2, ht, hempty⟩ := centers ha hw hn hc
  obtain ⟨⟨o1, x1⟩, ⟨p1, y1⟩⟩ := replaced_exists rd32 rd64 (com.1.map (store rd32 rd64))
  obtain ⟨⟨o2, x2⟩, ⟨p2, y2⟩⟩ := replaced_exists rd32 rd64 (com.2.map (store rd32 rd64))
  refine ⟨_, ht, ⟨(o1, o2), _, r0, by rw [ha.scan]; rfl, x1, x2⟩, ?_, ?_⟩
  · by_cases he : (a.data.flatMap fun frames => frames.flatten) = []
    · exact ⟨_, _, r1, by rw [if_pos he]⟩
    · exact ⟨(p1, p2), _, r1, by rw [if_neg he]; exact ⟨y1, y2⟩⟩
  · rw [← l1] at hs
    have hs' := hs
    rw [l1, ← l2] at hs'
    rintro out (⟨c, e, _, z1, z2⟩ | ⟨c, e, hz⟩)
    · cases r0.symm.trans e
      have d1 := replaced_v0 h32 h64 c1 hs z1
      have d2 := replaced_v0 h32 h64 c2 hs' z2
      rw [l1] at d1
      rw [l2] at d2
      exact ⟨d1, d2⟩
    · cases r1.symm.trans e
      by_cases he : (a.data.flatMap fun frames => frames.flatten) = []
      · rw [if_pos he] at hz
        subst hz
        have d1 := unfilled_near h32 h64 c1 (.inr (hempty he).1)
        have d2 := unfilled_near h32 h64 c2 (.inr (hempty he).2)
        rw [l1] at d1
        rw [l2] at d2
        exact ⟨d1, d2⟩
      · rw [if_neg he] at hz
        have d1 := replaced_v1 h32 h64 c1 hs hz.1
        have d2 := replaced_v1 h32 h64 c2 hs' hz.2
        rw [l1] at d1
        rw [l2] at d2
        exact ⟨d1, d2⟩

/-- **C106** with `replace_nans`: a position with a center of mass keeps it. -/
theorem C106_others (h32 : Rounds float32 rd32) (h64 : Rounds float64 rd64) (a : SparseArray) (s0 s1 h w : Nat)
    (ha : Counted a s0 s1 h w) (hw : w ≤ 32768) (hn : ∀ p, (PyImage.eventsAt a p).length * w ≤ 2 ^ 53) (crop : Option Rat)
    (init : Option (Num × Num)) (hr : Right rd32 rd64 a crop init) (com : PyImage.Com)
    (hc : PyImage.comSparse 1 a crop init false = .ok com) (out : List Fl × List Fl)
    (ho : ComV0 rd32 rd64 a crop init out ∨ ComV1 rd32 rd64 a crop init out) (p : Nat) (q : Rat) :
    (com.1[p]? = some (some q) → out.1[p]? = some (store rd32 rd64 (some q))) ∧
      (com.2[p]? = some (some q) → out.2[p]? = some (store rd32 rd64 (some q))) := by
  obtain ⟨com', hc', r0, r1⟩ := hr
  cases hc.symm.trans hc'
  obtain ⟨_, _, c1, c2, _, _⟩ := centers ha hw hn hc
  have key : ∀ (e : List (Option Rat)), (∀ q, some q ∈ e → Center q) → ∀ g : Fl → Fl, (∀ q, g (.fin q) = .fin q) → e[p]? = some (some q) →
      ((e.map (store rd32 rd64)).map g)[p]? = some (store rd32 rd64 (some q)) := by
    intro e he g hg hp
    obtain ⟨r, hr, _⟩ := store_within h32 h64 (he q (List.mem_of_getElem? hp))
    rw [List.getElem?_map, List.getElem?_map, hp]
    simp only [Option.map_some, hr, hg]
  have id' : ∀ (e : List (Option Rat)), e[p]? = some (some q) → (e.map (store rd32 rd64))[p]? = some (store rd32 rd64 (some q)) := by
    intro e hp
    rw [List.getElem?_map, hp]
    rfl
  have v1 : ∀ (e : List (Option Rat)), (∀ q, some q ∈ e → Center q) → ∀ o, ReplacedV1 rd32 rd64 (e.map (store rd32 rd64)) o →
      e[p]? = some (some q) → o[p]? = some (store rd32 rd64 (some q)) := by
    intro e he o ho hp
    unfold ReplacedV1 at ho
    split at ho
    · obtain ⟨m, _, rfl⟩ := ho
      exact key e he _ (fun _ => if_neg (by simp)) hp
    · rw [ho]
      exact id' e hp
  rcases ho with ⟨c, e, _, ⟨m, _, z1⟩, ⟨m', _, z2⟩⟩ | ⟨c, e, hz⟩
  · cases r0.symm.trans e
    rw [z1, z2]
    exact ⟨key _ c1 _ fun _ => rfl, key _ c2 _ fun _ => rfl⟩
  · cases r1.symm.trans e
    split at hz
    · subst hz
      exact ⟨id' _, id' _⟩
    · exact ⟨v1 _ c1 _ hz.1, v1 _ c2 _ hz.2⟩

/-- **C106** (the mean is not exact): three of four positions have the same center of mass, column 9/5. With rounding to nearest and any order
of the sum, the position without events gets a lower value than all of the others, in both versions. This holds for every square frame of
at least 4 pixels. -/
theorem C106_equal_false (w : Nat) (hw : 4 ≤ w) (hw' : w ≤ 32768) :
    PyImage.comSparse 1 (equals w) none none true =
      .ok ([some (9 / 5), some (9 / 5), some (9 / 5), some (9 / 5)], [some 0, some 0, some 0, some 0]) ∧
    (∃ out, ComV0 (nearest float32) (nearest float64) (equals w) none none out) ∧
    (∃ out, ComV1 (nearest float32) (nearest float64) (equals w) none none out) ∧
    ∀ out, ComV0 (nearest float32) (nearest float64) (equals w) none none out ∨
      ComV1 (nearest float32) (nearest float64) (equals w) none none out →
      out.1 = [.fin (15099494 / 2 ^ 23), .fin (15099494 / 2 ^ 23), .fin (15099494 / 2 ^ 23), .fin (15099493 / 2 ^ 23)] := by
  have ha := equals_counted hw
  have hlen : ∀ p, (PyImage.eventsAt (equals w) p).length ≤ 5 := by
    intro p
    match p with
    | 0 => exact Nat.le_of_ble_eq_true rfl
    | 1 => exact Nat.le_of_ble_eq_true rfl
    | 2 => exact Nat.le_of_ble_eq_true rfl
    | 3 => exact Nat.le_of_ble_eq_true rfl
    | p + 4 => exact Nat.zero_le _
  have hn : ∀ p, (PyImage.eventsAt (equals w) p).length * w ≤ 2 ^ 53 := by
    intro p
    have := Nat.mul_le_mul (hlen p) hw'
    omega
  have hr := C95_no_crop (nearest_rounds wide32) (nearest_rounds wide64) (equals w) 2 2 w w ha hw' hn none
  have hc := equals_com hw
  obtain ⟨com, ht, e0, e1, _⟩ := C106_mean (nearest_rounds wide32) (nearest_rounds wide64) (equals w) 2 2 w w ha hw' hn (by norm_num)
    none none hr
  obtain ⟨_, _, _, _, ht', _⟩ := centers ha hw' hn hc
  refine ⟨?_, e0, e1, ?_⟩
  · rw [ht']
    have n1 : PyImage.nanmean [some (9 / 5), some (9 / 5), some (9 / 5), none] = some (9 / 5) := by
      show some (([9 / 5, 9 / 5, 9 / 5] : List Rat).sum / ((3 : Nat) : Rat)) = _
      norm_num
    have n2 : PyImage.nanmean [some 0, some 0, some 0, none] = some 0 := by
      show some (([0, 0, 0] : List Rat).sum / ((3 : Nat) : Rat)) = _
      norm_num
    unfold PyImage.replaceNans
    simp only [n1, n2]
    rfl
  · obtain ⟨com', hc', r0, r1⟩ := hr
    cases hc.symm.trans hc'
    rw [show ([some (9 / 5), some (9 / 5), some (9 / 5), none] : List (Option Rat)).map (store (nearest float32) (nearest float64)) =
      [.fin nine, .fin nine, .fin nine, .nan] by simp only [List.map_cons, List.map_nil, nine_store]; rfl] at r0 r1
    rintro ⟨o1, o2⟩ (⟨c, e, _, ⟨m, hm, z1⟩, _⟩ | ⟨c, e, hz⟩)
    · cases r0.symm.trans e
      rw [z1, nanmean_nines hm]
      rfl
    · cases r1.symm.trans e
      rw [if_neg (by simp [equals])] at hz
      have z1 := hz.1
      unfold ReplacedV1 at z1
      rw [if_pos (by simp)] at z1
      obtain ⟨m, hm, z1⟩ := z1
      rw [z1, nanmean_nines hm]
      simp [nine]

/-- The hypotheses of `C106_mean` hold for the array of `C106_equal_false`: here all pixels are within seven errors of 9/5. -/
example (out : List Fl × List Fl) (h : ComV1 (nearest float32) (nearest float64) (equals 4) none none out) :
    ∀ v ∈ out.1, Near 7 (some (9 / 5)) v := by
  have := (C106_equal_false 4 (by omega) (by omega)).2.2.2 out (.inr h)
  rw [this]
  intro v hv
  simp only [List.mem_cons, List.not_mem_nil, or_false] at hv
  rcases hv with rfl | rfl | rfl | rfl
  all_goals exact ⟨_, rfl, by norm_num [Within, unit], by norm_num [Within, unit]⟩

end Stempy.Props
