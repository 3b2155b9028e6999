import Verif.Model.RoundedHistogram
import Verif.Lemmas.IeeeRound
import Verif.Props.Histogram

/-!
# C94: the histogram of a STEM image counts every pixel in double precision

The last edge of `getContainer` is `min + numBins * length`. In double precision it can be below the largest pixel, and then no bin
counts the pixels of the largest value: `value == bins[numBins]` (image.cpp:327) fails as well.
-/

namespace Stempy.Props
open Stempy.FloatPixels (Fl)
open Stempy.SafeCast (Format float64)
open Stempy.IeeeRound Stempy.RoundedHistogram
open Stempy.Float32 (two_zpow_pos zpow_le)

namespace RoundedHist

/-- The double `x` is a number and not above `t`. -/
def atMost (x : Fl) (t : Rat) : Bool :=
  match x with
  | .fin q => decide (q ≤ t)
  | _ => false

/-- `lo` and `hi` are the least and the largest value. -/
structure Range (values : List Nat) (lo hi : Nat) : Prop where
  lo_mem : lo ∈ values
  hi_mem : hi ∈ values
  lo_le : ∀ v ∈ values, lo ≤ v
  le_hi : ∀ v ∈ values, v ≤ hi

theorem Range.le {values : List Nat} {lo hi : Nat} (r : Range values lo hi) : lo ≤ hi := r.lo_le _ r.hi_mem

/-- The number of a finite double. -/
def val : Fl → Rat
  | .fin q => q
  | _ => 0

variable {rd : Rat → Fl}

theorem has_pow {k : Nat} (h : k ≤ 971) : float64.Has ((2 : Rat) ^ k) :=
  has_two_pow wide64 (by show (-1074 : Int) ≤ _; omega) (by show _ ≤ (971 : Int); omega)

theorem has_zero : float64.Has 0 := ⟨0, 0, by norm_num, by decide, by decide, by simp⟩

theorem has_int {n : Nat} (h : n < 2 ^ 53) : float64.Has n := has_nat (by decide) (by decide) h

theorem of_pow (h : Rounds float64 rd) {q : Rat} {k : Nat} (hk : k ≤ 971) (h0 : 0 ≤ q) (h1 : q ≤ 2 ^ k) :
    rd q = .fin (val (rd q)) ∧ 0 ≤ val (rd q) ∧ val (rd q) ≤ 2 ^ k := by
  obtain ⟨r, e, _, a, b⟩ := h.between has_zero (has_pow hk) h0 h1
  rw [e]
  exact ⟨rfl, a, b⟩

theorem val_mono (h : Rounds float64 rd) {p q : Rat} (h0 : 0 ≤ p) (hpq : p ≤ q) (h1 : q ≤ 2 ^ 96) : val (rd p) ≤ val (rd q) :=
  h.mono _ _ _ _ hpq (of_pow h (by omega) h0 (le_trans hpq h1)).1 (of_pow h (by omega) (le_trans h0 hpq) h1).1

theorem val_fix (h : Rounds float64 rd) {q : Rat} (hq : float64.Has q) : val (rd q) = q := by
  rw [h.fix _ hq]
  rfl

/-- `length`. -/
def len (rd : Rat → Fl) (lo hi n : Nat) : Rat := val (rd (val (rd (val (rd hi) - val (rd lo))) / n))

/-- Edge `i`. -/
def edge (rd : Rat → Fl) (lo hi n i : Nat) : Rat := val (rd (val (rd lo) + val (rd (i * len rd lo hi n))))

theorem cast_le {v k : Nat} (h : v < 2 ^ k) : (v : Rat) ≤ 2 ^ k := by exact_mod_cast Nat.le_of_lt h

variable {lo hi n : Nat}

theorem diff (h : Rounds float64 rd) (hl : lo ≤ hi) (hh : hi < 2 ^ 64) :
    0 ≤ val (rd hi) - val (rd lo) ∧ val (rd hi) - val (rd lo) ≤ 2 ^ 64 := by
  have l64 : lo < 2 ^ 64 := lt_of_le_of_lt hl hh
  obtain ⟨_, a2, a3⟩ := of_pow h (k := 64) (by omega) (Nat.cast_nonneg hi) (cast_le hh)
  obtain ⟨_, b2, b3⟩ := of_pow h (k := 64) (by omega) (Nat.cast_nonneg lo) (cast_le l64)
  have c := val_mono h (Nat.cast_nonneg lo) (q := hi) (by exact_mod_cast hl)
    (le_trans (cast_le hh) (pow_le_pow_right₀ (by norm_num) (by omega)))
  constructor <;> linarith

theorem quot (h : Rounds float64 rd) (hl : lo ≤ hi) (hh : hi < 2 ^ 64) (hn : 0 < n) :
    0 ≤ val (rd (val (rd hi) - val (rd lo))) / n ∧ val (rd (val (rd hi) - val (rd lo))) / n ≤ 2 ^ 64 := by
  obtain ⟨d0, d1⟩ := diff h hl hh
  obtain ⟨_, e1, e2⟩ := of_pow h (k := 64) (by omega) d0 d1
  have hn' : (1 : Rat) ≤ n := by exact_mod_cast hn
  exact ⟨div_nonneg e1 (by linarith), le_trans (div_le_self e1 hn') e2⟩

theorem len_bound (h : Rounds float64 rd) (hl : lo ≤ hi) (hh : hi < 2 ^ 64) (hn : 0 < n) :
    0 ≤ len rd lo hi n ∧ len rd lo hi n ≤ 2 ^ 64 := by
  obtain ⟨q0, q1⟩ := quot h hl hh hn
  exact (of_pow h (k := 64) (by omega) q0 q1).2

theorem prod_bound {L : Rat} (hL : 0 ≤ L ∧ L ≤ 2 ^ 64) {i : Nat} (hi : i < 2 ^ 31) : 0 ≤ i * L ∧ i * L ≤ 2 ^ 95 := by
  have := cast_le hi
  have h0 : (0 : Rat) ≤ i := Nat.cast_nonneg i
  refine ⟨mul_nonneg h0 hL.1, ?_⟩
  calc (i : Rat) * L ≤ 2 ^ 31 * 2 ^ 64 := mul_le_mul this hL.2 hL.1 (by norm_num)
    _ = 2 ^ 95 := by norm_num

theorem sum_bound (h : Rounds float64 rd) (hl : lo ≤ hi) (hh : hi < 2 ^ 64) (hn : 0 < n) {i : Nat} (hi' : i < 2 ^ 31) :
    0 ≤ val (rd lo) + val (rd (i * len rd lo hi n)) ∧ val (rd lo) + val (rd (i * len rd lo hi n)) ≤ 2 ^ 96 := by
  have l64 : lo < 2 ^ 64 := lt_of_le_of_lt hl hh
  obtain ⟨p0, p1⟩ := prod_bound (len_bound h hl hh hn) hi'
  obtain ⟨_, a1, a2⟩ := of_pow h (k := 95) (by omega) p0 p1
  obtain ⟨_, b2, b3⟩ := of_pow h (k := 64) (by omega) (Nat.cast_nonneg lo) (cast_le l64)
  constructor
  · linarith
  · calc val (rd lo) + val (rd (i * len rd lo hi n)) ≤ 2 ^ 64 + 2 ^ 95 := by linarith
      _ ≤ 2 ^ 96 := by norm_num

theorem edge_mono (h : Rounds float64 rd) (hl : lo ≤ hi) (hh : hi < 2 ^ 64) (hn : 0 < n) {i j : Nat} (hij : i ≤ j)
    (hj : j < 2 ^ 31) : edge rd lo hi n i ≤ edge rd lo hi n j := by
  have hi' : i < 2 ^ 31 := by omega
  have L := len_bound h hl hh hn
  have p := prod_bound L hi'
  have q := prod_bound L hj
  have c : (i : Rat) ≤ j := by exact_mod_cast hij
  have e := val_mono h p.1 (mul_le_mul_of_nonneg_right c L.1) (le_trans q.2 (by norm_num))
  exact val_mono h (sum_bound h hl hh hn hi').1 (by linarith) (sum_bound h hl hh hn hj).2

theorem edge_zero (h : Rounds float64 rd) (hl : lo < 2 ^ 64) : edge rd lo hi n 0 = val (rd lo) := by
  have e : rd lo = .fin (val (rd lo)) := (of_pow h (k := 64) (by omega) (Nat.cast_nonneg lo) (cast_le hl)).1
  unfold edge
  rw [Nat.cast_zero, zero_mul, val_fix h has_zero, add_zero, val_fix h (h.has _ _ e)]

theorem foldl_min_mem (vs : List Rat) (a : Rat) : vs.foldl min a = a ∨ vs.foldl min a ∈ vs := by
  induction vs generalizing a with
  | nil => simp
  | cons x vs ih =>
    rw [List.foldl_cons]
    rcases ih (min a x) with h | h
    · rw [h]
      rcases min_choice a x with h' | h' <;> rw [h'] <;> simp
    · exact Or.inr (List.mem_cons_of_mem _ h)

theorem foldl_max_mem (vs : List Rat) (a : Rat) : vs.foldl max a = a ∨ vs.foldl max a ∈ vs := by
  induction vs generalizing a with
  | nil => simp
  | cons x vs ih =>
    rw [List.foldl_cons]
    rcases ih (max a x) with h | h
    · rw [h]
      rcases max_choice a x with h' | h' <;> rw [h'] <;> simp
    · exact Or.inr (List.mem_cons_of_mem _ h)

theorem minmax_eq {values : List Nat} (r : Range values lo hi) :
    Histogram.minmax (values.map fun v : Nat => (v : Rat)) = .ok ((lo : Rat), (hi : Rat)) := by
  obtain ⟨l1, l2, l3, l4⟩ := r
  cases values with
  | nil => cases l1
  | cons v vs =>
    rw [List.map_cons]
    unfold Histogram.minmax
    have hall : ∀ x ∈ (v : Rat) :: vs.map (fun v : Nat => (v : Rat)), (lo : Rat) ≤ x ∧ x ≤ hi := by
      rw [← List.map_cons (f := fun v : Nat => (v : Rat))]
      intro x hx
      obtain ⟨y, hy, rfl⟩ := List.mem_map.1 hx
      exact ⟨by exact_mod_cast l3 y hy, by exact_mod_cast l4 y hy⟩
    have hlo : (lo : Rat) ∈ (v : Rat) :: vs.map (fun v : Nat => (v : Rat)) := by
      rw [← List.map_cons (f := fun v : Nat => (v : Rat))]
      exact List.mem_map.2 ⟨lo, l1, rfl⟩
    have hhi : (hi : Rat) ∈ (v : Rat) :: vs.map (fun v : Nat => (v : Rat)) := by
      rw [← List.map_cons (f := fun v : Nat => (v : Rat))]
      exact List.mem_map.2 ⟨hi, l2, rfl⟩
    obtain ⟨m1, m2⟩ := foldl_min_le (vs.map fun v : Nat => (v : Rat)) v
    obtain ⟨x1, x2⟩ := le_foldl_max (vs.map fun v : Nat => (v : Rat)) v
    have a : (vs.map fun v : Nat => (v : Rat)).foldl min (v : Rat) = lo := by
      apply le_antisymm
      · rcases List.mem_cons.1 hlo with h | h
        · rw [h]; exact m1
        · exact m2 _ h
      · exact (hall _ (List.mem_cons.2 (foldl_min_mem _ _))).1
    have b : (vs.map fun v : Nat => (v : Rat)).foldl max (v : Rat) = hi := by
      apply le_antisymm
      · exact (hall _ (List.mem_cons.2 (foldl_max_mem _ _))).2
      · rcases List.mem_cons.1 hhi with h | h
        · rw [h]; exact x1
        · exact x2 _ h
    simp only [a, b]

theorem container_eq (h : Rounds float64 rd) {values : List Nat} (r : Range values lo hi) (hh : hi < 2 ^ 64) (hn : 0 < n)
    (hn' : n < 2 ^ 31 - 1) :
    container rd values n = .ok ((List.range (n + 1)).map (edge rd lo hi n)) := by
  have hl := r.le
  have l64 : lo < 2 ^ 64 := lt_of_le_of_lt hl hh
  have e1 := (of_pow h (k := 64) (by omega) (Nat.cast_nonneg lo) (cast_le l64)).1
  have e2 := (of_pow h (k := 64) (by omega) (Nat.cast_nonneg hi) (cast_le hh)).1
  have e3 := (of_pow h (k := 64) (by omega) (diff h hl hh).1 (diff h hl hh).2).1
  have e4 := (of_pow h (k := 64) (by omega) (quot h hl hh hn).1 (quot h hl hh hn).2).1
  have hz : (n : Rat) ≠ 0 := by exact_mod_cast Nat.ne_of_gt hn
  unfold container
  rw [minmax_eq r]
  simp only [Outcome.ok_bind]
  rw [e1, e2]
  simp only [finite, Outcome.ok_bind]
  rw [if_neg (by rintro (rfl | rfl) <;> omega)]
  have e5 : rnd rd ((rnd rd (.fin (val (rd hi) - val (rd lo)))).div (.fin n)) = .fin (len rd lo hi n) := by
    show rnd rd ((rd (val (rd hi) - val (rd lo))).div (.fin n)) = _
    rw [e3]
    show rnd rd (if (n : Rat) = 0 then _ else _) = _
    rw [if_neg hz]
    exact e4
  rw [e5]
  simp only [Outcome.ok_bind]
  refine mapM_ok _ _ _ fun i hi' => ?_
  have hi2 : i < 2 ^ 31 := by
    have := List.mem_range.1 hi'
    omega
  have p := prod_bound (len_bound h hl hh hn) hi2
  have e6 := (of_pow h (k := 95) (by omega) p.1 p.2).1
  have e7 := (of_pow h (k := 96) (by omega) (sum_bound h hl hh hn hi2).1 (sum_bound h hl hh hn hi2).2).1
  have e8 : rnd rd ((Fl.fin (val (rd lo))).add (rnd rd (.fin (i * len rd lo hi n)))) = .fin (edge rd lo hi n i) := by
    show rnd rd ((Fl.fin (val (rd lo))).add (rd (i * len rd lo hi n))) = _
    rw [e6]
    exact e7
  rw [e8]

theorem histogram_eq (h : Rounds float64 rd) {values : List Nat} (hv : ∀ v ∈ values, v < 2 ^ 64) (n : Nat) (bins : List Rat) :
    histogram rd values n bins = Histogram.createSTEMHistogram (values.map fun v : Nat => val (rd v)) n bins := by
  unfold histogram
  rw [mapM_ok values _ (fun v : Nat => val (rd v)) fun v hv' => ?_, Outcome.ok_bind]
  rw [(of_pow h (k := 64) (by omega) (Nat.cast_nonneg v) (cast_le (hv v hv'))).1]
  rfl

end RoundedHist
open RoundedHist

variable {rd : Rat → Fl} {values : List Nat} {lo hi n : Nat}

/-- **C94**, any rounding mode: the edges are nondecreasing numbers, the first is the double of the least pixel, and the bins together
count exactly the pixels whose double is not above the last edge. -/
theorem C94_total (h : Rounds float64 rd) (r : Range values lo hi) (hh : hi < 2 ^ 64) (hn : 0 < n) (hn' : n < 2 ^ 31 - 1) :
    ∃ bins f top, container rd values n = .ok bins ∧ bins.length = n + 1 ∧ bins.Pairwise (· ≤ ·) ∧
      bins.head?.map Fl.fin = some (rd lo) ∧ bins.getLast? = some top ∧ histogram rd values n bins = .ok f ∧ f.length = n ∧
      f.sum = values.countP fun v : Nat => atMost (rd v) top := by
  have hl := r.le
  have hv : ∀ v ∈ values, v < 2 ^ 64 := fun v hv => lt_of_le_of_lt (r.le_hi v hv) hh
  have l64 : lo < 2 ^ 64 := lt_of_le_of_lt hl hh
  have mono : ∀ i j, i ≤ j → j ≤ n → edge rd lo hi n i ≤ edge rd lo hi n j :=
    fun i j hij hj => edge_mono h hl hh hn hij (by omega)
  obtain ⟨f, f1, f2⟩ := C06_total (values.map fun v : Nat => val (rd v)) n hn (edge rd lo hi n) mono
  refine ⟨(List.range (n + 1)).map (edge rd lo hi n), f, edge rd lo hi n n, container_eq h r hh hn hn', by simp, ?_, ?_, ?_,
    ?_, ?_, ?_⟩
  · rw [List.pairwise_map]
    refine List.Pairwise.imp_of_mem ?_ List.pairwise_lt_range
    intro a b _ hb hab
    have := List.mem_range.1 hb
    exact mono a b (by omega) (by omega)
  · rw [List.range_succ_eq_map]
    simp only [List.map_cons, List.head?_cons, Option.map_some]
    rw [edge_zero h l64, ← (of_pow h (k := 64) (by omega) (Nat.cast_nonneg lo) (cast_le l64)).1]
  · rw [List.range_succ]
    simp
  · rw [histogram_eq h hv]
    exact f1
  · rw [C06_bins _ n hn _ mono] at f1
    cases f1
    simp
  · rw [f2, List.countP_map]
    apply List.countP_congr
    intro v hv'
    have e := (of_pow h (k := 64) (by omega) (Nat.cast_nonneg v) (cast_le (hv v hv'))).1
    have lov : val (rd lo) ≤ val (rd v) := val_mono h (Nat.cast_nonneg lo) (by exact_mod_cast r.lo_le v hv')
      (le_trans (cast_le (hv v hv')) (pow_le_pow_right₀ (by norm_num) (by omega)))
    rw [edge_zero h l64]
    rw [e]
    simp only [Function.comp, atMost, decide_eq_true_eq]
    rw [e]
    exact ⟨fun x => x.2, fun x => ⟨lov, x⟩⟩

/-- Nothing is lost exactly if the last edge is not below the largest pixel. -/
theorem C94_iff (h : Rounds float64 rd) (r : Range values lo hi) (hh : hi < 2 ^ 64) (hn : 0 < n) (hn' : n < 2 ^ 31 - 1) :
    ∃ bins f top, container rd values n = .ok bins ∧ bins.getLast? = some top ∧ histogram rd values n bins = .ok f ∧
      (f.sum = values.length ↔ atMost (rd hi) top) := by
  obtain ⟨bins, f, top, h1, _, _, _, h5, h6, _, h8⟩ := C94_total h r hh hn hn'
  refine ⟨bins, f, top, h1, h5, h6, ?_⟩
  rw [h8, List.countP_eq_length]
  constructor
  · intro x
    exact x hi r.hi_mem
  · intro x v hv
    have hv' := r.le_hi v hv
    have e := (of_pow h (k := 64) (by omega) (Nat.cast_nonneg v) (cast_le (lt_of_le_of_lt hv' hh))).1
    have e' := (of_pow h (k := 64) (by omega) (Nat.cast_nonneg hi) (cast_le hh)).1
    have m := val_mono h (Nat.cast_nonneg v) (q := hi) (by exact_mod_cast hv')
      (le_trans (cast_le hh) (pow_le_pow_right₀ (by norm_num) (by omega)))
    rw [e'] at x
    rw [e]
    simp only [atMost, decide_eq_true_eq] at x ⊢
    exact le_trans m x

namespace RoundedHist

theorem len_exact (h : Rounds float64 rd) (hl : lo ≤ hi) (hh : hi < 2 ^ 53) :
    len rd lo hi n = val (rd (((hi - lo : Nat) : Rat) / n)) := by
  unfold len
  rw [val_fix h (has_int hh), val_fix h (has_int (lt_of_le_of_lt hl hh)), ← Nat.cast_sub hl, val_fix h (has_int (by omega))]

/-- What the last edge decides. -/
theorem total_of_edge (h : Rounds float64 rd) (r : Range values lo hi) (hh : hi < 2 ^ 64) (hn : 0 < n) (hn' : n < 2 ^ 31 - 1) :
    ∃ bins f, container rd values n = .ok bins ∧ histogram rd values n bins = .ok f ∧
      f.sum = values.countP fun v : Nat => atMost (rd v) (edge rd lo hi n n) := by
  obtain ⟨bins, f, top, h1, _, _, _, h5, h6, _, h8⟩ := C94_total h r hh hn hn'
  refine ⟨bins, f, h1, h6, ?_⟩
  rw [container_eq h r hh hn hn'] at h1
  cases h1
  rw [List.range_succ] at h5
  simp at h5
  rw [h8, ← h5]

end RoundedHist

/-- **C94** where it holds, in any rounding mode: pixels below 2^53 and a bin length which is a double. -/
theorem C94_partial (h : Rounds float64 rd) (r : Range values lo hi) (hh : hi < 2 ^ 53) (hn : 0 < n) (hn' : n < 2 ^ 31 - 1)
    (hd : float64.Has (((hi - lo : Nat) : Rat) / n)) :
    ∃ bins f, container rd values n = .ok bins ∧ histogram rd values n bins = .ok f ∧ f.sum = values.length := by
  obtain ⟨bins, f, h1, h2, h3⟩ := total_of_edge h r (lt_trans hh (by norm_num)) hn hn'
  refine ⟨bins, f, h1, h2, ?_⟩
  have hz : (n : Rat) ≠ 0 := by exact_mod_cast Nat.ne_of_gt hn
  have e : edge rd lo hi n n = hi := by
    unfold edge
    rw [len_exact h r.le hh, val_fix h hd, mul_div_cancel₀ _ hz, val_fix h (has_int (lt_of_le_of_lt (Nat.sub_le _ _) hh)),
      val_fix h (has_int (lt_of_le_of_lt r.le hh)), ← Nat.cast_add, Nat.add_sub_cancel' r.le, val_fix h (has_int hh)]
  rw [h3, e, List.countP_eq_length]
  intro v hv
  have := r.le_hi v hv
  rw [h.fix _ (has_int (lt_of_le_of_lt this hh))]
  simp only [atMost, decide_eq_true_eq]
  exact_mod_cast this

/-- **C94** is false for the largest `int` as number of bins: the loop over the edges overflows, for every image. -/
theorem C94_overflow (values : List Nat) (h : Rounds float64 rd) (hv : ∀ v ∈ values, v < 2 ^ 64) (r : Range values lo hi) :
    container rd values (2 ^ 31 - 1) = .ub := by
  have e1 := (of_pow h (k := 64) (by omega) (Nat.cast_nonneg lo) (cast_le (hv lo r.lo_mem))).1
  have e2 := (of_pow h (k := 64) (by omega) (Nat.cast_nonneg hi) (cast_le (hv hi r.hi_mem))).1
  unfold container
  rw [minmax_eq r]
  simp only [Outcome.ok_bind]
  rw [e1, e2]
  simp only [finite, Outcome.ok_bind]
  rw [if_pos (Or.inr trivial)]

/-- For example if the number of bins divides the range of the pixels, ... -/
theorem C94_divides (h : Rounds float64 rd) (r : Range values lo hi) (hh : hi < 2 ^ 53) (hn : 0 < n) (hn' : n < 2 ^ 31 - 1)
    (hd : n ∣ hi - lo) :
    ∃ bins f, container rd values n = .ok bins ∧ histogram rd values n bins = .ok f ∧ f.sum = values.length := by
  refine C94_partial h r hh hn hn' ?_
  obtain ⟨c, hc⟩ := hd
  have hz : (n : Rat) ≠ 0 := by exact_mod_cast Nat.ne_of_gt hn
  rw [hc, Nat.cast_mul, mul_div_cancel_left₀ _ hz]
  have : c ≤ n * c := Nat.le_mul_of_pos_left c hn
  exact has_int (by omega)

/-- ... or is a power of two. -/
theorem C94_pow_two (h : Rounds float64 rd) (r : Range values lo hi) (hh : hi < 2 ^ 53) {k : Nat} (hk : k < 31) :
    ∃ bins f, container rd values (2 ^ k) = .ok bins ∧ histogram rd values (2 ^ k) bins = .ok f ∧ f.sum = values.length := by
  refine C94_partial h r hh (by positivity)
    (lt_of_le_of_lt (Nat.pow_le_pow_right (by omega) (Nat.le_of_lt_succ hk)) (by norm_num)) ?_
  refine ⟨((hi - lo : Nat) : Int), -k, ?_, ?_, ?_, ?_⟩
  · rw [abs_of_nonneg (Int.natCast_nonneg _)]
    have : hi - lo < 2 ^ 53 := by omega
    exact_mod_cast this
  · show (-1074 : Int) ≤ _; omega
  · show _ ≤ (971 : Int); omega
  · rw [zpow_neg, zpow_natCast]
    push_cast
    rfl

namespace RoundedHist

/-- One unit in the last place, relative to the number. -/
theorem rel (h : Rounds float64 rd) {q : Rat} (h0 : 2 ^ (-1022 : Int) ≤ q) (h1 : q ≤ 2 ^ 96) : q * (1 - 1 / 2 ^ 52) ≤ val (rd q) := by
  have hq : 0 < q := lt_of_lt_of_le (two_zpow_pos _) h0
  have hp := two_zpow_pos (expo float64 q)
  have hlt := lt_expo wide64 q
  rw [abs_of_pos hq] at hlt
  have hlt' : q < 2 ^ 53 * 2 ^ expo float64 q := hlt
  have hlow : (2 : Rat) ^ 52 * 2 ^ expo float64 q ≤ q := by
    rcases lt_or_eq_of_le (le_expo (f := float64) q) with c | c
    · have := expo_le c
      rw [abs_of_pos hq] at this
      exact this
    · rw [← c]
      have : (2 : Rat) ^ 52 * 2 ^ float64.emin = 2 ^ (-1022 : Int) := by
        rw [← zpow_natCast, ← zpow_add₀ (by norm_num)]
        rfl
      rw [this]
      exact h0
  have hx : expo float64 q ≤ 971 := expo_le_of_lt wide64 (by
    rw [abs_of_pos hq]
    have a : (2 : Rat) ^ (0 : Int) ≤ 2 ^ float64.emax := zpow_le (by decide)
    rw [zpow_zero] at a
    have b : (0 : Rat) < 2 ^ float64.p := by positivity
    have c : q < 2 ^ (971 : Int) := by
      refine lt_of_le_of_lt h1 ?_
      have : (2 : Rat) ^ 96 = 2 ^ (96 : Int) := by norm_cast
      rw [this]
      exact Float32.zpow_lt (by norm_num)
    have d : (1 : Rat) ≤ 2 ^ float64.p := one_le_pow₀ (by norm_num)
    have e := two_zpow_pos (971 : Int)
    calc q < 2 ^ (971 : Int) := c
      _ ≤ 2 ^ float64.p * 2 ^ (971 : Int) := le_mul_of_one_le_left (le_of_lt e) d)
  have f1 := Int.floor_le (q / 2 ^ expo float64 q)
  have f2 := Int.lt_floor_add_one (q / 2 ^ expo float64 q)
  rw [le_div_iff₀ hp] at f1
  rw [div_lt_iff₀ hp] at f2
  generalize hm : ⌊q / 2 ^ expo float64 q⌋ = m at f1 f2
  have m0 : 0 ≤ m := by
    rw [← hm, Int.floor_nonneg]
    positivity
  have m1 : m < 2 ^ 53 := by
    by_contra hc
    have : ((2 : Int) ^ 53 : Int) ≤ m := by omega
    have : (2 : Rat) ^ 53 ≤ m := by exact_mod_cast this
    nlinarith
  have hs : float64.Has (m * 2 ^ expo float64 q) := ⟨m, expo float64 q, by rw [abs_of_nonneg m0]; exact m1, le_expo q, hx, rfl⟩
  have := val_mono h (p := m * 2 ^ expo float64 q) (by positivity) f1 h1
  rw [val_fix h hs] at this
  have key : q * (1 / 2 ^ 52) ≥ 2 ^ expo float64 q := by
    rw [mul_one_div, ge_iff_le, le_div_iff₀ (by norm_num)]
    linarith
  linarith

theorem tiny : (2 : Rat) ^ (-1022 : Int) ≤ 1 / 2 ^ 33 := by
  have : (1 : Rat) / 2 ^ 33 = 2 ^ (-33 : Int) := by
    rw [zpow_neg, one_div]
    norm_cast
  rw [this]
  exact zpow_le (by norm_num)

/-- The last edge is less than one below the largest pixel. -/
theorem last_edge (h : Rounds float64 rd) (hl : lo ≤ hi) (hh : hi < 2 ^ 50) (hn : 0 < n) (hn' : n < 2 ^ 31 - 1) :
    (hi : Rat) - 1 < edge rd lo hi n n := by
  have h64 : hi < 2 ^ 64 := lt_trans hh (by norm_num)
  have h53 : hi < 2 ^ 53 := lt_trans hh (by norm_num)
  have lob : lo < 2 ^ 53 := lt_of_le_of_lt hl h53
  have hn1 : (0 : Rat) < n := by exact_mod_cast hn
  have hn2 : (n : Rat) ≤ 2 ^ 31 := cast_le (lt_trans hn' (by norm_num))
  have hR : (hi : Rat) < 2 ^ 50 := by exact_mod_cast hh
  have lR : (lo : Rat) ≤ hi := by exact_mod_cast hl
  have l0 : (0 : Rat) ≤ lo := Nat.cast_nonneg lo
  rcases Nat.eq_or_lt_of_le hl with rfl | hlt
  · have := edge_mono h hl h64 hn (Nat.zero_le n) (lt_trans hn' (by norm_num))
    rw [edge_zero h (by omega), val_fix h (has_int h53)] at this
    linarith
  have hD : (1 : Rat) ≤ (hi : Rat) - lo := by
    have : ((lo + 1 : Nat) : Rat) ≤ hi := by exact_mod_cast hlt
    push_cast at this
    linarith
  generalize hDe : (hi : Rat) - lo = D at hD
  have hL : D / n * (1 - 1 / 2 ^ 52) ≤ len rd lo hi n := by
    rw [len_exact h hl h53, Nat.cast_sub hl, hDe]
    refine rel h ?_ ?_
    · refine le_trans tiny ?_
      rw [div_le_div_iff₀ (by norm_num) hn1]
      nlinarith
    · refine le_trans (div_le_self (by linarith) (by exact_mod_cast hn)) ?_
      norm_num
      linarith
  have hP0 : D * (1 - 1 / 2 ^ 52) ≤ n * len rd lo hi n := by
    have := mul_le_mul_of_nonneg_left hL (le_of_lt hn1)
    have e : (n : Rat) * (D / n * (1 - 1 / 2 ^ 52)) = D * (1 - 1 / 2 ^ 52) := by field_simp
    linarith
  have pb := prod_bound (len_bound h hl h64 hn) (lt_trans hn' (by norm_num))
  have hP : (n * len rd lo hi n) * (1 - 1 / 2 ^ 52) ≤ val (rd (n * len rd lo hi n)) :=
    rel h (le_trans tiny (by norm_num at hP0 ⊢; linarith)) (le_trans pb.2 (by norm_num))
  have sb := sum_bound h hl h64 hn (lt_trans hn' (by norm_num))
  have hS : (val (rd lo) + val (rd (n * len rd lo hi n))) * (1 - 1 / 2 ^ 52) ≤ edge rd lo hi n n :=
    rel h (le_trans tiny (by rw [val_fix h (has_int lob)]; norm_num at hP0 hP ⊢; linarith)) sb.2
  rw [val_fix h (has_int lob)] at hS
  have hR' : (hi : Rat) < 1125899906842624 := by linarith
  norm_num at hP0 hP hS
  linarith

end RoundedHist

/-- In any rounding mode, if all pixels are below 2^50: at most the pixels of the largest value are lost, and then all of them. -/
theorem C94_lost (h : Rounds float64 rd) (r : Range values lo hi) (hh : hi < 2 ^ 50) (hn : 0 < n) (hn' : n < 2 ^ 31 - 1) :
    ∃ bins f, container rd values n = .ok bins ∧ histogram rd values n bins = .ok f ∧
      (f.sum = values.length ∨ f.sum + values.count hi = values.length) := by
  obtain ⟨bins, f, h1, h2, h3⟩ := total_of_edge h r (lt_trans hh (by norm_num)) hn hn'
  refine ⟨bins, f, h1, h2, ?_⟩
  have e : ∀ v ∈ values, rd v = .fin v := fun v hv =>
    h.fix _ (has_int (lt_of_le_of_lt (r.le_hi v hv) (lt_trans hh (by norm_num))))
  have he := last_edge h r.le hh hn hn'
  by_cases hc : (hi : Rat) ≤ edge rd lo hi n n
  · left
    rw [h3, List.countP_eq_length]
    intro v hv
    rw [e v hv]
    simp only [atMost, decide_eq_true_eq]
    exact le_trans (by exact_mod_cast r.le_hi v hv) hc
  · right
    have : f.sum = values.countP fun v : Nat => !(v == hi) := by
      rw [h3]
      apply List.countP_congr
      intro v hv
      rw [e v hv]
      simp only [atMost, decide_eq_true_eq, Bool.not_eq_true', beq_eq_false_iff_ne]
      constructor
      · rintro x rfl
        exact hc x
      · intro x
        have : v + 1 ≤ hi := by have := r.le_hi v hv; omega
        have : ((v + 1 : Nat) : Rat) ≤ hi := by exact_mod_cast this
        push_cast at this
        linarith
    rw [this, List.count, add_comm]
    have := List.length_eq_countP_add_countP (fun v => v == hi) (l := values)
    simp only [Bool.not_eq_true, Bool.decide_eq_false] at this
    exact this.symm

/-- In a mode which rounds down (towards zero or -∞), exactly the histograms whose bin length is a double are complete. -/
theorem C94_down (h : Rounds float64 rd) (down : ∀ q s, 0 ≤ q → rd q = .fin s → s ≤ q) (r : Range values lo hi) (hh : hi < 2 ^ 53)
    (hn : 0 < n) (hn' : n < 2 ^ 31 - 1) :
    ∃ bins f, container rd values n = .ok bins ∧ histogram rd values n bins = .ok f ∧
      (f.sum = values.length ↔ float64.Has (((hi - lo : Nat) : Rat) / n)) := by
  obtain ⟨bins, f, h1, h2, h3⟩ := total_of_edge h r (lt_trans hh (by norm_num)) hn hn'
  refine ⟨bins, f, h1, h2, ?_, ?_⟩
  · intro hs
    rw [h3, List.countP_eq_length] at hs
    have := hs hi r.hi_mem
    rw [h.fix _ (has_int hh)] at this
    simp only [atMost, decide_eq_true_eq] at this
    have hl := r.le
    have h64 : hi < 2 ^ 64 := lt_trans hh (by norm_num)
    have hn1 : (0 : Rat) < n := by exact_mod_cast hn
    have pb := prod_bound (len_bound h hl h64 hn) (lt_trans hn' (by norm_num))
    have sb := sum_bound h hl h64 hn (lt_trans hn' (by norm_num))
    have d1 : edge rd lo hi n n ≤ val (rd lo) + val (rd (n * len rd lo hi n)) :=
      down _ _ sb.1 (of_pow h (by omega) sb.1 sb.2).1
    have d2 := down _ _ pb.1 (of_pow h (by omega) pb.1 pb.2).1
    rw [val_fix h (has_int (lt_of_le_of_lt hl hh))] at d1
    have q0 : (0 : Rat) ≤ ((hi - lo : Nat) : Rat) / n := by positivity
    have q1 : ((hi - lo : Nat) : Rat) / n ≤ 2 ^ 53 :=
      le_trans (div_le_self (Nat.cast_nonneg _) (by exact_mod_cast hn)) (cast_le (by omega))
    have e := (of_pow h (by omega) q0 q1).1
    have d3 := down _ _ q0 e
    rw [← len_exact h hl hh] at d3
    have d4 : ((hi - lo : Nat) : Rat) / n ≤ len rd lo hi n := by
      rw [div_le_iff₀ hn1, Nat.cast_sub hl]
      linarith
    have : ((hi - lo : Nat) : Rat) / n = len rd lo hi n := le_antisymm d4 d3
    rw [this, len_exact h hl hh]
    exact h.has _ _ e
  · intro hd
    obtain ⟨b', f', g1, g2, g3⟩ := C94_partial h r hh hn hn' hd
    rw [h1] at g1
    cases g1
    rw [h2] at g2
    cases g2
    exact g3

/-- **C94** is false in the usual rounding to nearest: 49 bins and an image whose pixels are 0 and a power of two. None of the bright
pixels is counted. -/
theorem C94_false {k : Nat} (hk : k < 64) (h0 : 0 ∈ values) (h1 : 2 ^ k ∈ values) (hv : ∀ v ∈ values, v = 0 ∨ v = 2 ^ k) :
    ∃ bins f, container (nearest float64) values 49 = .ok bins ∧ histogram (nearest float64) values 49 bins = .ok f ∧
      f.sum + values.count (2 ^ k) = values.length ∧ f.sum < values.length := by
  have h := nearest_rounds wide64
  have hk2 : 2 ^ k < 2 ^ 64 := Nat.pow_lt_pow_right (by omega) hk
  have r : Range values 0 (2 ^ k) := ⟨h0, h1, fun _ _ => Nat.zero_le _, fun v hv' => by
    rcases hv v hv' with rfl | rfl
    · exact Nat.zero_le _
    · exact le_refl _⟩
  obtain ⟨bins, f, e1, e2, e3⟩ := total_of_edge h r hk2 (n := 49) (by omega) (by omega)
  refine ⟨bins, f, e1, e2, ?_⟩
  have hz := has_zero
  have hp : float64.Has ((2 : Rat) ^ k) := has_pow (by omega)
  have c : ((2 ^ k : Nat) : Rat) = 2 ^ k := by push_cast; rfl
  have hK : (0 : Rat) < 2 ^ k := by positivity
  have z : ∀ j : Nat, (2 : Rat) ^ ((k : Int) - j) = 2 ^ k / 2 ^ j := by
    intro j
    rw [zpow_sub₀ (by norm_num), zpow_natCast, zpow_natCast]
  have L : len (nearest float64) 0 (2 ^ k) 49 = 5882252574524729 * ((2 : Rat) ^ k / 2 ^ 58) := by
    unfold len
    rw [c, Nat.cast_zero, val_fix h hz, val_fix h hp, sub_zero, val_fix h hp]
    have := nearest_at wide64 (q := (2 : Rat) ^ k / (49 : Nat)) (e := (k : Int) - (58 : Nat)) (m := 5882252574524729)
      (by show (-1074 : Int) ≤ _; omega) (by show _ < (971 : Int); omega)
      (by
        show (2 : Rat) ^ 52 * _ ≤ _
        rw [z, abs_of_pos (by positivity)]
        norm_num
        linarith)
      (by
        show _ < (2 : Rat) ^ 53 * _
        rw [z, abs_of_pos (by positivity)]
        norm_num
        linarith)
      (by
        rw [z]
        have : (2 : Rat) ^ k / (49 : Nat) / (2 ^ k / 2 ^ 58) = 2 ^ 58 / 49 := by
          field_simp
          norm_num
        rw [this]
        norm_num [abs_lt])
    rw [this, z]
    rfl
  have P : val (nearest float64 (((49 : Nat) : Rat) * len (nearest float64) 0 (2 ^ k) 49)) = (2 ^ 53 - 1) * ((2 : Rat) ^ k / 2 ^ 53) := by
    rw [L]
    have := nearest_at wide64 (q := ((49 : Nat) : Rat) * (5882252574524729 * ((2 : Rat) ^ k / 2 ^ 58))) (e := (k : Int) - (53 : Nat))
      (m := 2 ^ 53 - 1)
      (by show (-1074 : Int) ≤ _; omega) (by show _ < (971 : Int); omega)
      (by
        show (2 : Rat) ^ 52 * _ ≤ _
        rw [z, abs_of_pos (by positivity)]
        norm_num
        linarith)
      (by
        show _ < (2 : Rat) ^ 53 * _
        rw [z, abs_of_pos (by positivity)]
        norm_num
        linarith)
      (by
        rw [z]
        have : ((49 : Nat) : Rat) * (5882252574524729 * (2 ^ k / 2 ^ 58)) / (2 ^ k / 2 ^ 53) = 49 * 5882252574524729 / 2 ^ 5 := by
          field_simp
          norm_num
        rw [this]
        norm_num [abs_lt])
    rw [this, z]
    norm_num [val]
  have E : edge (nearest float64) 0 (2 ^ k) 49 49 = (2 ^ 53 - 1) * ((2 : Rat) ^ k / 2 ^ 53) := by
    unfold edge
    rw [P, Nat.cast_zero, val_fix h hz, zero_add]
    have : float64.Has ((2 ^ 53 - 1) * ((2 : Rat) ^ k / 2 ^ 53)) := by
      refine ⟨2 ^ 53 - 1, (k : Int) - (53 : Nat), ?_, ?_, ?_, ?_⟩
      · norm_num [float64]
      · show (-1074 : Int) ≤ _; omega
      · show _ ≤ (971 : Int); omega
      · rw [z]
        norm_num
    exact val_fix h this
  have hs : f.sum = values.countP fun v : Nat => !(v == 2 ^ k) := by
    rw [e3]
    apply List.countP_congr
    intro v hv'
    rw [E]
    rcases hv v hv' with rfl | rfl
    · rw [Nat.cast_zero, h.fix _ hz]
      have : ¬ (0 = 2 ^ k) := Nat.ne_of_lt (by positivity)
      simp only [atMost, decide_eq_true_eq, Bool.not_eq_true', beq_eq_false_iff_ne]
      exact ⟨fun _ => this, fun _ => by positivity⟩
    · rw [c, h.fix _ hp]
      simp only [atMost, decide_eq_true_eq, beq_self_eq_true, Bool.not_true, Bool.false_eq_true, iff_false, not_le]
      norm_num
      linarith
  have hlen : f.sum + values.count (2 ^ k) = values.length := by
    rw [hs, List.count, add_comm]
    have := List.length_eq_countP_add_countP (fun v => v == 2 ^ k) (l := values)
    simp only [Bool.not_eq_true, Bool.decide_eq_false] at this
    exact this.symm
  have hpos : 0 < values.count (2 ^ k) := List.count_pos_iff.2 h1
  exact ⟨hlen, by omega⟩

/-! Instances of the hypotheses. -/

example : Rounds float64 (nearest float64) := nearest_rounds wide64
example : Range [3, 0, 7, 12, 12] 0 12 := ⟨by decide, by decide, by decide, by decide⟩
example : ∃ bins f, container (nearest float64) [3, 0, 7, 12, 12] 6 = .ok bins ∧
    histogram (nearest float64) [3, 0, 7, 12, 12] 6 bins = .ok f ∧ f.sum = 5 :=
  C94_divides (nearest_rounds wide64) (lo := 0) (hi := 12) ⟨by decide, by decide, by decide, by decide⟩ (by norm_num) (by omega) (by omega)
    (by decide)
example : ∃ bins f, container (nearest float64) [0, 8, 8, 0, 8] 49 = .ok bins ∧
    histogram (nearest float64) [0, 8, 8, 0, 8] 49 bins = .ok f ∧ f.sum + 3 = 5 ∧ f.sum < 5 :=
  C94_false (k := 3) (by omega) (by decide) (by decide) (by decide)

end Stempy.Props
