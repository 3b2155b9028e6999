import Verif.Lemmas.RoundedCom
import Verif.Props.Com

/-!
# C95: both versions of `com_sparse` give the rounded center of mass

Without cropping both versions store the exact center of mass, rounded to double and then to single precision. With cropping an event at
a distance of about `crop_to` may be kept by one version and dropped by the other, as only one of them computes the distance in
double precision.
-/

namespace Stempy.Props
open Numpy Sparse
open Stempy.FloatPixels (Fl)
open Stempy.SafeCast (Format float32 float64)
open Stempy.IeeeRound Stempy.RoundedCom
open Stempy.PyImage (Num Counted)

namespace RoundedCenter

variable {rd32 rd64 : Rat → Fl}

/-- How a number is stored: rounded to double precision, then to single precision. -/
def store (rd32 rd64 : Rat → Fl) : Option Rat → Fl
  | none => .nan
  | some q => rnd rd32 (rd64 q)

/-- Both versions return the exact centers of mass (`Model/PyImage`), rounded. -/
def Right (rd32 rd64 : Rat → Fl) (a : SparseArray) (crop : Option Rat) (init : Option (Num × Num)) : Prop :=
  ∃ com, PyImage.comSparse 1 a crop init false = .ok com ∧
    comSparseV0 rd32 rd64 a crop init = .ok (com.1.map (store rd32 rd64), com.2.map (store rd32 rd64)) ∧
    comSparseV1 rd32 rd64 a crop init = .ok (com.1.map (store rd32 rd64), com.2.map (store rd32 rd64))

theorem stored (h32 : Rounds float32 rd32) (h64 : Rounds float64 rd64) {w : Nat} (hw : w ≤ 32768) {X : Nat → Nat} {l : List Nat}
    (hl : l ≠ []) (hX : ∀ e ∈ l, X e < w) (hn : l.length * w ≤ 2 ^ 53) :
    rnd rd32 (mean rd64 (l.map X)) = store rd32 rd64 (some (PyImage.average X l)) ∧
      quotient rd32 rd64 (l.map X) = store rd32 rd64 (some (PyImage.average X l)) := by
  have hX' : ∀ x ∈ l.map X, x < w := by simpa using hX
  obtain ⟨q1, q2⟩ := quotient_eq h32 h64 (l := l.map X) (fun x hx => by have := hX' x hx; omega)
    (sum_lt hX' (by rw [List.length_map]; exact hn))
  have h0 : ((l.length : Nat) : Rat) ≠ 0 := by
    have := List.length_pos_iff.2 hl
    exact_mod_cast Nat.ne_of_gt this
  have e : mean rd64 (l.map X) = rd64 (PyImage.average X l) := by
    rw [q2, List.length_map]
    show rnd rd64 (if ((l.length : Nat) : Rat) = 0 then _ else _) = _
    rw [if_neg h0]
    rfl
  rw [q1, e]
  exact ⟨rfl, rfl⟩

/-- It is enough that both versions keep the right events. -/
theorem right_of_kept (h32 : Rounds float32 rd32) (h64 : Rounds float64 rd64) {a : SparseArray} {s0 s1 h w : Nat}
    (ha : Counted a s0 s1 h w) (hw : w ≤ 32768) (hn : ∀ p, (PyImage.eventsAt a p).length * w ≤ 2 ^ 53) (crop : Option Rat)
    (init : Option (Num × Num))
    (hk : ∀ ev : List Nat, (∃ p, ev = PyImage.eventsAt a p) → (∀ e ∈ ev, e / h < w ∧ e % w < w) →
      keptV0 rd64 (· / h) (· % w) crop init ev = PyImage.keptXY (· / h) (· % w) crop (PyImage.initVal init) ev ∧
      keptV1 rd32 rd64 (· / h) (· % w) crop init ev = PyImage.keptXY (· / h) (· % w) crop (PyImage.initVal init) ev) :
    Right rd32 rd64 a crop init := by
  have hev : ∀ p, ∀ e ∈ PyImage.eventsAt a p, e / h < w ∧ e % w < w := by
    intro p e he
    have hlt : e < h * w := by
      obtain ⟨fr, hfr, he2⟩ := List.mem_flatten.1 he
      by_cases hp : p < a.data.length
      · refine ha.lt _ ?_ fr hfr e he2
        rw [List.getD_eq_getElem?_getD, List.getElem?_eq_getElem hp]
        exact List.getElem_mem hp
      · rw [List.getD_eq_getElem?_getD, List.getElem?_eq_none (by omega)] at hfr
        cases hfr
    have hpos : 0 < w := by
      rcases Nat.eq_zero_or_pos w with h0 | h0
      · simp [h0] at hlt
      · exact h0
    exact ⟨Nat.div_lt_of_lt_mul hlt, Nat.mod_lt _ hpos⟩
  have hex : PyImage.comSparse 1 a crop init false = .ok (PyImage.images false ((List.range (s0 * s1)).map fun p =>
      PyImage.comXY (· / h) (· % w) crop (PyImage.initVal init) (PyImage.eventsAt a p))) :=
    PyImage.comSparseV1_eq ha.wf.length ha.scan ha.frame ha.lt crop init false
  have sub : ∀ p, ∀ e ∈ PyImage.keptXY (· / h) (· % w) crop (PyImage.initVal init) (PyImage.eventsAt a p),
      e ∈ PyImage.eventsAt a p := by
    intro p e he
    unfold PyImage.keptXY at he
    cases crop with
    | none => exact he
    | some r => exact List.mem_of_mem_filter he
  have len : ∀ p, (PyImage.keptXY (· / h) (· % w) crop (PyImage.initVal init) (PyImage.eventsAt a p)).length ≤
      (PyImage.eventsAt a p).length := by
    intro p
    unfold PyImage.keptXY
    cases crop with
    | none => exact le_refl _
    | some r => exact List.length_filter_le _ _
  have key : ∀ p, positionV0 rd32 rd64 h w crop init (PyImage.eventsAt a p) =
        (store rd32 rd64 ((PyImage.comXY (· / h) (· % w) crop (PyImage.initVal init) (PyImage.eventsAt a p)).map Prod.fst),
         store rd32 rd64 ((PyImage.comXY (· / h) (· % w) crop (PyImage.initVal init) (PyImage.eventsAt a p)).map Prod.snd)) ∧
      positionV1 rd32 rd64 (· / h) (· % w) crop init (PyImage.eventsAt a p) =
        (store rd32 rd64 ((PyImage.comXY (· / h) (· % w) crop (PyImage.initVal init) (PyImage.eventsAt a p)).map Prod.fst),
         store rd32 rd64 ((PyImage.comXY (· / h) (· % w) crop (PyImage.initVal init) (PyImage.eventsAt a p)).map Prod.snd)) := by
    intro p
    obtain ⟨k0, k1⟩ := hk (PyImage.eventsAt a p) ⟨p, rfl⟩ (hev p)
    rw [positionV0_eq]
    unfold positionV1
    rw [k0, k1, PyImage.comXY_fst, PyImage.comXY_snd]
    have hsub := sub p
    have hlen := len p
    have hnp := hn p
    have hevp := hev p
    generalize PyImage.keptXY (· / h) (· % w) crop (PyImage.initVal init) (PyImage.eventsAt a p) = l at *
    by_cases hl : l = []
    · simp [hl, store]
    · have hb : l.length * w ≤ 2 ^ 53 := le_trans (Nat.mul_le_mul_right _ hlen) hnp
      obtain ⟨y1, y2⟩ := stored h32 h64 hw (X := (· % w)) hl (fun e he => (hevp e (hsub e he)).2) hb
      obtain ⟨x1, x2⟩ := stored h32 h64 hw (X := (· / h)) hl (fun e he => (hevp e (hsub e he)).1) hb
      simp only [if_neg hl, y1, y2, x1, x2, and_self]
  refine ⟨_, hex, ?_, ?_⟩
  · rw [comSparseV0_eq ha.wf.length ha.scan ha.frame ha.ne]
    unfold byPosition PyImage.images
    simp only [(key _).1, List.map_map, Bool.false_eq_true, if_false]
    rfl
  · rw [comSparseV1_eq ha.wf.length ha.scan ha.frame ha.lt]
    unfold byPosition PyImage.images
    simp only [(key _).2, List.map_map, Bool.false_eq_true, if_false]
    rfl

/-- A number with at most `k` binary places. -/
def Places (k : Nat) (q : Rat) : Prop := ∃ A : Int, q = A / 2 ^ k ∧ |A| ≤ 2 ^ 23

theorem Places.has {f : Format} (hf : Fine f) {k : Nat} (hk : k ≤ 11) {q : Rat} (h : Places k q) : f.Has q := by
  obtain ⟨A, rfl, hA⟩ := h
  exact hf.dyadic (by omega) (by omega)

/-- The difference of a coordinate and a center. -/
theorem Places.diff {k w x : Nat} {q : Rat} (h : Places k q) (hx : x < w) (hw : w * 2 ^ k ≤ 2 ^ 23) :
    ∃ B : Int, |B| < 2 ^ 24 ∧ (x : Rat) - q = B / 2 ^ k := by
  obtain ⟨A, rfl, hA⟩ := h
  refine ⟨(x * 2 ^ k : Nat) - A, ?_, ?_⟩
  · have h1 : x * 2 ^ k < w * 2 ^ k := Nat.mul_lt_mul_of_pos_right hx (by positivity)
    rw [abs_le] at hA
    rw [abs_lt]
    generalize x * 2 ^ k = z at *
    omega
  · push_cast
    field_simp

theorem sub_fin (a b : Rat) : (Fl.fin a).sub (.fin b) = .fin (a - b) := by
  show Fl.fin (a + -b) = _
  rw [sub_eq_add_neg]

variable {k w : Nat}

/-- `x - c`, rounded. -/
theorem diff_round {f : Format} {rd : Rat → Fl} (hf : Fine f) (hr : Rounds f rd) (hk : k ≤ 11) (hw : w * 2 ^ k ≤ 2 ^ 23) {x : Nat}
    (hx : x < w) (hx' : x < 2 ^ 24) {q : Rat} (hq : Places k q) : rnd rd ((rd x).sub (rd q)) = .fin ((x : Rat) - q) := by
  rw [hr.fix _ (hf.nat hx'), hr.fix _ (hq.has hf hk), sub_fin]
  obtain ⟨B, hB, e⟩ := hq.diff hx hw
  show rd _ = _
  rw [e]
  exact hr.fix _ (hf.dyadic hB (by omega))

/-- With a given center, the distance in version 0 is that of `norm`. -/
theorem radiusV0_some (h64 : Rounds float64 rd64) (hk : k ≤ 11) (hw : w * 2 ^ k ≤ 2 ^ 23) (hw' : w ≤ 32768) {c : Num × Num}
    (hc1 : c.1.Near ∧ Places k c.1.val) (hc2 : c.2.Near ∧ Places k c.2.val) {x y : Nat} (hx : x < w) (hy : y < w) (xs ys : List Nat) :
    radiusV0 rd64 (some c) xs ys x y = norm rd64 (.fin ((x : Rat) - c.1.val)) (.fin ((y : Rat) - c.2.val)) := by
  have dbl : ∀ {z : Nat}, z < w → ∀ {n : Num}, n.Near ∧ Places k n.val →
      (sqDiff rd64 z n).toDouble rd64 = rnd rd64 ((Fl.fin ((z : Rat) - n.val)).mul (.fin ((z : Rat) - n.val))) := by
    intro z hz n hn
    cases n with
    | int m =>
      obtain ⟨e, _⟩ := PyImage.sq_wrap (e := z) (c := m) (by omega) hn.1
      show rd64 _ = rd64 (((z : Rat) - (m : Rat)) * ((z : Rat) - (m : Rat)))
      rw [← pow_two, ← e]
    | float q =>
      have := diff_round fine64 h64 hk hw hz (by omega) hn.2
      show rnd rd64 ((rnd rd64 ((rd64 z).sub (rd64 q))).mul (rnd rd64 ((rd64 z).sub (rd64 q)))) = _
      rw [show rnd rd64 ((rd64 z).sub (rd64 q)) = .fin ((z : Rat) - q) from this]
      rfl
  have sum : ((sqDiff rd64 x c.1).add rd64 (sqDiff rd64 y c.2)).toDouble rd64 =
      rnd rd64 (((sqDiff rd64 x c.1).toDouble rd64).add ((sqDiff rd64 y c.2).toDouble rd64)) := by
    obtain ⟨c1, c2⟩ := c
    cases c1 with
    | float q => rfl
    | int m =>
      cases c2 with
      | float q => rfl
      | int n =>
        obtain ⟨_, b1⟩ := PyImage.sq_wrap (e := x) (c := m) (by omega) hc1.1
        obtain ⟨_, b2⟩ := PyImage.sq_wrap (e := y) (c := n) (by omega) hc2.1
        simp only [sqDiff]
        generalize ((x + 2 ^ 32 - m) % 2 ^ 32) ^ 2 % 2 ^ 32 = u at *
        generalize ((y + 2 ^ 32 - n) % 2 ^ 32) ^ 2 % 2 ^ 32 = v at *
        show rd64 (((u + v) % 2 ^ 32 : Nat) : Rat) = rnd rd64 ((rd64 u).add (rd64 v))
        rw [Nat.mod_eq_of_lt (by omega), h64.fix _ (has_nat (by decide) (by decide) (n := u) (by show u < 2 ^ 53; omega)),
          h64.fix _ (has_nat (by decide) (by decide) (n := v) (by show v < 2 ^ 53; omega))]
        show _ = rd64 ((u : Rat) + v)
        rw [← Nat.cast_add]
  show sqrt rd64 (((sqDiff rd64 x c.1).add rd64 (sqDiff rd64 y c.2)).toDouble rd64) = _
  rw [sum, dbl hx hc1, dbl hy hc2]
  rfl

/-- Both versions compare the distance to a center with `k` binary places as in exact arithmetic. -/
theorem ge_radius {f : Format} {rd : Rat → Fl} (hf : Fine f) (hr : Rounds f rd) {m r : Nat} (hmk : m + k ≤ 11) (hrm : r < 2 ^ m)
    (hw : w * 2 ^ k ≤ 2 ^ 23) {x y : Nat} (hx : x < w) (hy : y < w) {p q : Rat} (hp : Places k p) (hq : Places k q) :
    (rd r).ge (norm rd (.fin ((x : Rat) - p)) (.fin ((y : Rat) - q))) =
      PyImage.sqrtLe (((x : Rat) - p) ^ 2 + ((y : Rat) - q) ^ 2) r := by
  have hr24 : r < 2 ^ 24 := lt_of_lt_of_le hrm (Nat.pow_le_pow_right (by norm_num) (by omega))
  obtain ⟨A, hA, eA⟩ := hp.diff hx hw
  obtain ⟨B, hB, eB⟩ := hq.diff hy hw
  rw [hr.fix _ (hf.nat hr24), eA, eB, ge_norm hf hr hmk hrm hA hB]
  unfold PyImage.sqrtLe
  simp

/-- The mean of events whose number divides a power of two has few binary places. -/
theorem mean_places (h32 : Rounds float32 rd32) (h64 : Rounds float64 rd64) (hk : k ≤ 11) (hw : w * 2 ^ k ≤ 2 ^ 23) (hw' : w ≤ 32768)
    {ev : List Nat} {X : Nat → Nat} (hX : ∀ e ∈ ev, X e < w) (hd : ev.length ∣ 2 ^ k) :
    Places k (PyImage.average X ev) ∧ mean rd64 (ev.map X) = .fin (PyImage.average X ev) ∧
      quotient rd32 rd64 (ev.map X) = .fin (PyImage.average X ev) := by
  obtain ⟨t, ht⟩ := hd
  have hne : ev ≠ [] := by
    intro h0
    rw [h0] at ht
    have : 0 < 2 ^ k := by positivity
    simp at ht
  have hpos : (0 : Rat) < (ev.length : Nat) := by exact_mod_cast List.length_pos_iff.2 hne
  have hX' : ∀ x ∈ ev.map X, x < w := by simpa using hX
  have hs : ∀ l : List Nat, (∀ x ∈ l, x < w) → l.sum ≤ l.length * w := by
    intro l
    induction l with
    | nil => simp
    | cons x l ih =>
      intro h
      have a := ih fun y hy => h y (by simp [hy])
      have b := h x (by simp)
      rw [List.sum_cons, List.length_cons, Nat.add_mul]
      omega
  have hsum : (ev.map X).sum * t ≤ 2 ^ 23 := by
    have h1 := hs _ hX'
    rw [List.length_map] at h1
    calc (ev.map X).sum * t ≤ ev.length * w * t := Nat.mul_le_mul_right _ h1
      _ = w * (ev.length * t) := by ring
      _ = w * 2 ^ k := by rw [ht]
      _ ≤ 2 ^ 23 := hw
  have hplaces : Places k (PyImage.average X ev) := by
    refine ⟨((ev.map X).sum * t : Nat), ?_, ?_⟩
    · unfold PyImage.average
      have e2 : (2 : Rat) ^ k = (ev.length : Nat) * (t : Nat) := by exact_mod_cast ht
      have t0 : ((t : Nat) : Rat) ≠ 0 := by
        intro h0
        rw [h0, mul_zero] at e2
        have : (0 : Rat) < 2 ^ k := by positivity
        linarith
      rw [e2]
      push_cast
      field_simp
    · rw [abs_of_nonneg (Int.natCast_nonneg _)]
      exact_mod_cast hsum
  have hn : ev.length * w ≤ 2 ^ 53 := by
    have h1 : ev.length ≤ 2 ^ k := Nat.le_of_dvd (by positivity) ⟨t, ht⟩
    have h2 : ev.length * w ≤ 2 ^ k * w := Nat.mul_le_mul_right _ h1
    rw [mul_comm] at hw
    omega
  obtain ⟨s1, s2⟩ := stored h32 h64 hw' hne hX hn
  have e64 : rd64 (PyImage.average X ev) = .fin (PyImage.average X ev) := h64.fix _ (hplaces.has fine64 hk)
  have e32 : store rd32 rd64 (some (PyImage.average X ev)) = .fin (PyImage.average X ev) := by
    show rnd rd32 (rd64 _) = _
    rw [e64]
    exact h32.fix _ (hplaces.has fine32 hk)
  obtain ⟨_, q2⟩ := quotient_eq h32 h64 (l := ev.map X) (fun x hx => by have := hX' x hx; omega)
    (sum_lt hX' (by rw [List.length_map]; exact hn))
  refine ⟨hplaces, ?_, by rw [s2, e32]⟩
  rw [q2, List.length_map]
  show rnd rd64 (if ((ev.length : Nat) : Rat) = 0 then _ else _) = _
  rw [if_neg (ne_of_gt hpos)]
  exact e64

end RoundedCenter

open RoundedCenter

variable {rd32 rd64 : Rat → Fl}

/-- **C95** without cropping: in every rounding mode both versions return the exact centers of mass, rounded to double and then to single
precision. -/
theorem C95_no_crop (h32 : Rounds float32 rd32) (h64 : Rounds float64 rd64) (a : SparseArray) (s0 s1 h w : Nat)
    (ha : Counted a s0 s1 h w) (hw : w ≤ 32768) (hn : ∀ p, (PyImage.eventsAt a p).length * w ≤ 2 ^ 53) (init : Option (Num × Num)) :
    Right rd32 rd64 a none init :=
  right_of_kept h32 h64 ha hw hn none init fun _ _ _ => ⟨rfl, rfl⟩

/-- **C95** with cropping around a given center with at most `k` binary places (an integer, as documented, has none): the radius is an
integer below `2^(11-k)`. Missing: other radii, and cropping around the center of mass, see `C95_few_partial` and `C95_false`. -/
theorem C95_center_partial (h32 : Rounds float32 rd32) (h64 : Rounds float64 rd64) (a : SparseArray) (s0 s1 h w : Nat)
    (ha : Counted a s0 s1 h w) (hw : w ≤ 32768) (hn : ∀ p, (PyImage.eventsAt a p).length * w ≤ 2 ^ 53) (k m r : Nat)
    (hmk : m + k ≤ 11) (hr : r < 2 ^ m) (hwk : w * 2 ^ k ≤ 2 ^ 23) (c : Num × Num) (hc1 : c.1.Near ∧ Places k c.1.val)
    (hc2 : c.2.Near ∧ Places k c.2.val) : Right rd32 rd64 a (some r) (some c) := by
  refine right_of_kept h32 h64 ha hw hn _ _ fun ev _ hev => ⟨?_, ?_⟩
  · unfold keptV0 PyImage.keptXY
    apply List.filter_congr
    intro e he
    obtain ⟨hx, hy⟩ := hev e he
    simp only [PyImage.initVal, Option.map_some, Option.getD_some]
    rw [radiusV0_some h64 (by omega) hwk hw hc1 hc2 hx hy]
    exact ge_radius fine64 h64 hmk hr hwk hx hy hc1.2 hc2.2
  · unfold keptV1 PyImage.keptXY
    apply List.filter_congr
    intro e he
    obtain ⟨hx, hy⟩ := hev e he
    simp only [PyImage.initVal, Option.map_some, Option.getD_some, radiusV1]
    rw [diff_round fine32 h32 (by omega) hwk hx (by omega) hc1.2, diff_round fine32 h32 (by omega) hwk hy (by omega) hc2.2]
    exact ge_radius fine32 h32 hmk hr hwk hx hy hc1.2 hc2.2

/-- **C95** with cropping around the center of mass, if the number of events at each position divides `2^k` (or there are none): the radius
is an integer below `2^(11-k)`. Missing: other numbers of events, see `C95_false`. -/
theorem C95_few_partial (h32 : Rounds float32 rd32) (h64 : Rounds float64 rd64) (a : SparseArray) (s0 s1 h w : Nat)
    (ha : Counted a s0 s1 h w) (hw : w ≤ 32768) (k m r : Nat) (hmk : m + k ≤ 11) (hr : r < 2 ^ m) (hwk : w * 2 ^ k ≤ 2 ^ 23)
    (hd : ∀ p, PyImage.eventsAt a p = [] ∨ (PyImage.eventsAt a p).length ∣ 2 ^ k) : Right rd32 rd64 a (some r) none := by
  refine right_of_kept h32 h64 ha hw ?_ _ _ ?_
  · intro p
    have h1 : (PyImage.eventsAt a p).length ≤ 2 ^ k := by
      rcases hd p with h0 | h0
      · rw [h0]
        simp
      · exact Nat.le_of_dvd (by positivity) h0
    have h2 := Nat.mul_le_mul_right w h1
    rw [mul_comm] at hwk
    omega
  · rintro ev ⟨p, rfl⟩ hev
    rcases hd p with h0 | h0
    · rw [h0]
      exact ⟨rfl, rfl⟩
    · obtain ⟨px, mx, qx⟩ := mean_places h32 h64 (by omega) hwk hw (X := (· / h)) (fun e he => (hev e he).1) h0
      obtain ⟨py, my, qy⟩ := mean_places h32 h64 (by omega) hwk hw (X := (· % w)) (fun e he => (hev e he).2) h0
      constructor
      · unfold keptV0 PyImage.keptXY
        apply List.filter_congr
        intro e he
        obtain ⟨hx, hy⟩ := hev e he
        have dx := diff_round fine64 h64 (by omega) hwk hx (by omega) px
        have dy := diff_round fine64 h64 (by omega) hwk hy (by omega) py
        rw [h64.fix _ (px.has fine64 (by omega))] at dx
        rw [h64.fix _ (py.has fine64 (by omega))] at dy
        simp only [PyImage.initVal, Option.map_none, Option.getD_none, radiusV0]
        rw [mx, my, dx, dy]
        exact ge_radius fine64 h64 hmk hr hwk hx hy px py
      · unfold keptV1 PyImage.keptXY
        apply List.filter_congr
        intro e he
        obtain ⟨hx, hy⟩ := hev e he
        have dx := diff_round fine32 h32 (by omega) hwk hx (by omega) px
        have dy := diff_round fine32 h32 (by omega) hwk hy (by omega) py
        rw [h32.fix _ (px.has fine32 (by omega))] at dx
        rw [h32.fix _ (py.has fine32 (by omega))] at dy
        simp only [PyImage.initVal, Option.map_none, Option.getD_none, radiusV1]
        rw [qx, qy, dx, dy]
        exact ge_radius fine32 h32 hmk hr hwk hx hy px py

namespace RoundedCenter

/-! ### Rounding to nearest -/

theorem roundEven_tie {x : Rat} {m : Int} (h : |(m : Rat) - x| = 1 / 2) (hm : m % 2 = 0) : Float32.roundEven x = m := by
  rcases (abs_eq (by norm_num)).1 h with h1 | h1
  · have e : x = ((m - 1 : Int) : Rat) + 1 / 2 := by push_cast; linarith
    have hfl : ⌊x⌋ = m - 1 := by
      rw [Int.floor_eq_iff, e]
      constructor <;> linarith
    unfold Float32.roundEven
    rw [hfl, if_neg (by rw [e]; norm_num), if_neg (by rw [e]; norm_num), if_neg (by omega)]
    omega
  · have e : x = (m : Rat) + 1 / 2 := by linarith
    have hfl : ⌊x⌋ = m := by
      rw [Int.floor_eq_iff, e]
      constructor <;> linarith
    unfold Float32.roundEven
    rw [hfl, if_neg (by rw [e]; norm_num), if_neg (by rw [e]; norm_num), if_pos hm]

theorem nearest_dyadic {f : Format} (hw : Wide f) {q : Rat} {m : Int} {j : Nat} (hj : f.emin ≤ -(j : Int)) (hj' : -(j : Int) < f.emax)
    (h1 : 2 ^ (f.p - 1) ≤ |q| * 2 ^ j) (h2 : |q| * 2 ^ j < 2 ^ f.p)
    (hm : |(m : Rat) - q * 2 ^ j| < 1 / 2 ∨ (|(m : Rat) - q * 2 ^ j| = 1 / 2 ∧ m % 2 = 0)) : nearest f q = .fin (m / 2 ^ j) := by
  have hp : (0 : Rat) < 2 ^ j := by positivity
  have e : (2 : Rat) ^ (-(j : Int)) = (2 ^ j)⁻¹ := by rw [zpow_neg, zpow_natCast]
  have c1 : 2 ^ (f.p - 1) * (2 : Rat) ^ (-(j : Int)) ≤ |q| := by
    rw [e, ← div_eq_mul_inv, div_le_iff₀ hp]
    exact h1
  have c2 : |q| < 2 ^ f.p * (2 : Rat) ^ (-(j : Int)) := by
    rw [e, ← div_eq_mul_inv, lt_div_iff₀ hp]
    exact h2
  have e2 : q / (2 : Rat) ^ (-(j : Int)) = q * 2 ^ j := by rw [e, div_inv_eq_mul]
  rcases hm with hm | ⟨hm, hev⟩
  · rw [nearest_at hw hj hj' c1 c2 (by rw [e2]; exact hm), e, div_eq_mul_inv]
  · rw [nearest_even hw hj hj' c1 c2, e2, roundEven_tie hm hev, e, div_eq_mul_inv]

theorem at64 (m : Int) (j : Nat) {q : Rat} (hj : j ≤ 1074) (h1 : (2 : Rat) ^ 52 ≤ |q| * 2 ^ j) (h2 : |q| * 2 ^ j < (2 : Rat) ^ 53)
    (hm : |(m : Rat) - q * 2 ^ j| < 1 / 2 ∨ (|(m : Rat) - q * 2 ^ j| = 1 / 2 ∧ m % 2 = 0)) : nearest float64 q = .fin (m / 2 ^ j) :=
  nearest_dyadic wide64 (by show (-1074 : Int) ≤ _; omega) (by show _ < (971 : Int); omega) h1 h2 hm

theorem at32 (m : Int) (j : Nat) {q : Rat} (hj : j ≤ 149) (h1 : (2 : Rat) ^ 23 ≤ |q| * 2 ^ j) (h2 : |q| * 2 ^ j < (2 : Rat) ^ 24)
    (hm : |(m : Rat) - q * 2 ^ j| < 1 / 2 ∨ (|(m : Rat) - q * 2 ^ j| = 1 / 2 ∧ m % 2 = 0)) : nearest float32 q = .fin (m / 2 ^ j) :=
  nearest_dyadic wide32 (by show (-149 : Int) ≤ _; omega) (by show _ < (104 : Int); omega) h1 h2 hm

theorem norm_at {rd : Rat → Fl} {x y cx cy dx dy A B t : Rat} (hx : rd (x - cx) = .fin dx) (hy : rd (y - cy) = .fin dy)
    (hA : rd (dx * dx) = .fin A) (hB : rd (dy * dy) = .fin B) (ht : rd (A + B) = .fin t) :
    norm rd (rnd rd ((Fl.fin x).sub (.fin cx))) (rnd rd ((Fl.fin y).sub (.fin cy))) = sqrt rd (.fin t) := by
  rw [sub_fin, sub_fin]
  show norm rd (rd _) (rd _) = _
  rw [hx, hy]
  show sqrt rd (rnd rd ((rd (dx * dx)).add (rd (dy * dy)))) = _
  rw [hA, hB]
  show sqrt rd (rd (A + B)) = _
  rw [ht]

/-- A root above a dyadic number that is rounded up. -/
theorem ge_root {f : Format} (hf : Fine f) {n j : Nat} {r t v : Rat} (hj : j ≤ 1100) (h0 : 0 ≤ t) (hn : (n / 2 ^ j : Rat) * (n / 2 ^ j) ≤ t)
    (h1 : nearest f (n / 2 ^ j) = .fin v) (hv : r < v) (ht : t ≤ 2 ^ 100) :
    (Fl.fin r).ge (sqrt (nearest f) (.fin t)) = false := by
  have hs : sqrt (nearest f) (.fin t) = nearest f (rootApprox t) := by
    show (if t < 0 then Fl.nan else _) = _
    rw [if_neg (not_lt.2 h0)]
  have h2 : (n / 2 ^ j : Rat) ≤ rootApprox t := by
    rw [← rootApprox_dyadic n j hj]
    exact rootApprox_mono (mul_self_nonneg _) hn
  have h3 : rootApprox t ≤ 2 ^ 50 := by
    have := rootApprox_dyadic (2 ^ 50) 0 (by omega)
    rw [pow_zero, div_one] at this
    push_cast at this
    calc rootApprox t ≤ rootApprox (1125899906842624 * 1125899906842624) := rootApprox_mono h0 (le_trans ht (by norm_num))
      _ = 1125899906842624 := this
      _ = 2 ^ 50 := by norm_num
  have hR := nearest_rounds hf.wide
  obtain ⟨u, e, _, _, _⟩ := hR.between hf.zero (hf.pow (k := 50) (by omega)) (rootApprox_nonneg t) h3
  have h4 : v ≤ u := hR.mono _ _ _ _ h2 h1 e
  rw [hs, e, ge_fin]
  apply decide_eq_false
  rw [not_le]
  linarith

theorem mean_of {l : List Nat} {q v : Rat} (hl : ∀ x ∈ l, x < 2 ^ 24) (hs : l.sum < 2 ^ 53)
    (hq : ((l.sum : Nat) : Rat) / ((l.length : Nat) : Rat) = q ∧ ((l.length : Nat) : Rat) ≠ 0) (h : nearest float64 q = .fin v) :
    mean (nearest float64) l = .fin v := by
  rw [(quotient_eq (nearest_rounds wide32) (nearest_rounds wide64) hl hs).2]
  show rnd _ (if ((l.length : Nat) : Rat) = 0 then _ else _) = _
  rw [if_neg hq.2, hq.1]
  exact h

theorem ex1_mean_x : mean (nearest float64) [1, 5, 5, 5, 5] = .fin (4728779608739021 / 2 ^ 50) := by
  have h : nearest float64 ((21 / 5 : Rat)) = .fin (4728779608739021 / 2 ^ 50) := by
    have := at64 (4728779608739021) 50 (q := (21 / 5 : Rat)) (by norm_num) (by rw [abs_of_pos (by norm_num)]; norm_num)
      (by rw [abs_of_pos (by norm_num)]; norm_num) (Or.inl (by norm_num [abs_lt]))
    rw [this]
    norm_num
  exact mean_of (l := [1, 5, 5, 5, 5]) (by decide) (by decide) (by norm_num) h

theorem ex1_stored_x : quotient (nearest float32) (nearest float64) [1, 5, 5, 5, 5] = .fin (8808038 / 2 ^ 21) := by
  have h2 : nearest float32 ((4728779608739021 / 2 ^ 50 : Rat)) = .fin (8808038 / 2 ^ 21) := by
    have := at32 (8808038) 21 (q := (4728779608739021 / 2 ^ 50 : Rat)) (by norm_num) (by rw [abs_of_pos (by norm_num)]; norm_num)
      (by rw [abs_of_pos (by norm_num)]; norm_num) (Or.inl (by norm_num [abs_lt]))
    rw [this]
    norm_num
  rw [(quotient_eq (nearest_rounds wide32) (nearest_rounds wide64) (l := [1, 5, 5, 5, 5]) (by decide) (by decide)).1, ex1_mean_x]
  exact h2

theorem ex1_mean_y : mean (nearest float64) [3, 0, 0, 0, 0] = .fin (5404319552844595 / 2 ^ 53) := by
  have h : nearest float64 ((3 / 5 : Rat)) = .fin (5404319552844595 / 2 ^ 53) := by
    have := at64 (5404319552844595) 53 (q := (3 / 5 : Rat)) (by norm_num) (by rw [abs_of_pos (by norm_num)]; norm_num)
      (by rw [abs_of_pos (by norm_num)]; norm_num) (Or.inl (by norm_num [abs_lt]))
    rw [this]
    norm_num
  exact mean_of (l := [3, 0, 0, 0, 0]) (by decide) (by decide) (by norm_num) h

theorem ex1_stored_y : quotient (nearest float32) (nearest float64) [3, 0, 0, 0, 0] = .fin (10066330 / 2 ^ 24) := by
  have h2 : nearest float32 ((5404319552844595 / 2 ^ 53 : Rat)) = .fin (10066330 / 2 ^ 24) := by
    have := at32 (10066330) 24 (q := (5404319552844595 / 2 ^ 53 : Rat)) (by norm_num) (by rw [abs_of_pos (by norm_num)]; norm_num)
      (by rw [abs_of_pos (by norm_num)]; norm_num) (Or.inl (by norm_num [abs_lt]))
    rw [this]
    norm_num
  rw [(quotient_eq (nearest_rounds wide32) (nearest_rounds wide64) (l := [3, 0, 0, 0, 0]) (by decide) (by decide)).1, ex1_mean_y]
  exact h2

theorem ex1_64_0 : norm (nearest float64) (rnd (nearest float64) ((Fl.fin (1 : Nat)).sub (.fin (4728779608739021 / 2 ^ 50))))
    (rnd (nearest float64) ((Fl.fin (3 : Nat)).sub (.fin (5404319552844595 / 2 ^ 53)))) = sqrt (nearest float64) (.fin (4503599627370496 / 2 ^ 48)) := by
  have h1 : nearest float64 ((1 : Rat) - 4728779608739021 / 2 ^ 50) = .fin (-7205759403792794 / 2 ^ 51) := by
    have := at64 (-7205759403792794) 51 (q := (1 : Rat) - 4728779608739021 / 2 ^ 50) (by norm_num) (by rw [abs_of_neg (by norm_num)]; norm_num)
      (by rw [abs_of_neg (by norm_num)]; norm_num) (Or.inl (by norm_num [abs_lt]))
    rw [this]
    norm_num
  have h2 : nearest float64 ((3 : Rat) - 5404319552844595 / 2 ^ 53) = .fin (5404319552844595 / 2 ^ 51) := by
    have := at64 (5404319552844595) 51 (q := (3 : Rat) - 5404319552844595 / 2 ^ 53) (by norm_num) (by rw [abs_of_pos (by norm_num)]; norm_num)
      (by rw [abs_of_pos (by norm_num)]; norm_num) (Or.inl (by norm_num [abs_lt]))
    rw [this]
    norm_num
  have h3 : nearest float64 ((-7205759403792794 / 2 ^ 51 : Rat) * (-7205759403792794 / 2 ^ 51 : Rat)) = .fin (5764607523034236 / 2 ^ 49) := by
    have := at64 (5764607523034236) 49 (q := (-7205759403792794 / 2 ^ 51 : Rat) * (-7205759403792794 / 2 ^ 51 : Rat)) (by norm_num) (by rw [abs_of_pos (by norm_num)]; norm_num)
      (by rw [abs_of_pos (by norm_num)]; norm_num) (Or.inl (by norm_num [abs_lt]))
    rw [this]
    norm_num
  have h4 : nearest float64 ((5404319552844595 / 2 ^ 51 : Rat) * (5404319552844595 / 2 ^ 51 : Rat)) = .fin (6485183463413514 / 2 ^ 50) := by
    have := at64 (6485183463413514) 50 (q := (5404319552844595 / 2 ^ 51 : Rat) * (5404319552844595 / 2 ^ 51 : Rat)) (by norm_num) (by rw [abs_of_pos (by norm_num)]; norm_num)
      (by rw [abs_of_pos (by norm_num)]; norm_num) (Or.inl (by norm_num [abs_lt]))
    rw [this]
    norm_num
  have h5 : nearest float64 ((5764607523034236 / 2 ^ 49 : Rat) + (6485183463413514 / 2 ^ 50 : Rat)) = .fin (4503599627370496 / 2 ^ 48) := by
    have := at64 (4503599627370496) 48 (q := (5764607523034236 / 2 ^ 49 : Rat) + (6485183463413514 / 2 ^ 50 : Rat)) (by norm_num) (by rw [abs_of_pos (by norm_num)]; norm_num)
      (by rw [abs_of_pos (by norm_num)]; norm_num) (Or.inr ⟨by norm_num [abs_of_pos, abs_of_neg], by norm_num⟩)
    rw [this]
    norm_num
  simp only [Nat.cast_ofNat, Nat.cast_one]
  exact norm_at h1 h2 h3 h4 h5

theorem ex1_64_1 : norm (nearest float64) (rnd (nearest float64) ((Fl.fin (5 : Nat)).sub (.fin (4728779608739021 / 2 ^ 50))))
    (rnd (nearest float64) ((Fl.fin (0 : Nat)).sub (.fin (5404319552844595 / 2 ^ 53)))) = sqrt (nearest float64) (.fin (9007199254740989 / 2 ^ 53)) := by
  have h1 : nearest float64 ((5 : Rat) - 4728779608739021 / 2 ^ 50) = .fin (7205759403792792 / 2 ^ 53) := by
    have := at64 (7205759403792792) 53 (q := (5 : Rat) - 4728779608739021 / 2 ^ 50) (by norm_num) (by rw [abs_of_pos (by norm_num)]; norm_num)
      (by rw [abs_of_pos (by norm_num)]; norm_num) (Or.inl (by norm_num [abs_lt]))
    rw [this]
    norm_num
  have h2 : nearest float64 ((0 : Rat) - 5404319552844595 / 2 ^ 53) = .fin (-5404319552844595 / 2 ^ 53) := by
    have := at64 (-5404319552844595) 53 (q := (0 : Rat) - 5404319552844595 / 2 ^ 53) (by norm_num) (by rw [abs_of_neg (by norm_num)]; norm_num)
      (by rw [abs_of_neg (by norm_num)]; norm_num) (Or.inl (by norm_num [abs_lt]))
    rw [this]
    norm_num
  have h3 : nearest float64 ((7205759403792792 / 2 ^ 53 : Rat) * (7205759403792792 / 2 ^ 53 : Rat)) = .fin (5764607523034232 / 2 ^ 53) := by
    have := at64 (5764607523034232) 53 (q := (7205759403792792 / 2 ^ 53 : Rat) * (7205759403792792 / 2 ^ 53 : Rat)) (by norm_num) (by rw [abs_of_pos (by norm_num)]; norm_num)
      (by rw [abs_of_pos (by norm_num)]; norm_num) (Or.inl (by norm_num [abs_lt]))
    rw [this]
    norm_num
  have h4 : nearest float64 ((-5404319552844595 / 2 ^ 53 : Rat) * (-5404319552844595 / 2 ^ 53 : Rat)) = .fin (6485183463413514 / 2 ^ 54) := by
    have := at64 (6485183463413514) 54 (q := (-5404319552844595 / 2 ^ 53 : Rat) * (-5404319552844595 / 2 ^ 53 : Rat)) (by norm_num) (by rw [abs_of_pos (by norm_num)]; norm_num)
      (by rw [abs_of_pos (by norm_num)]; norm_num) (Or.inl (by norm_num [abs_lt]))
    rw [this]
    norm_num
  have h5 : nearest float64 ((5764607523034232 / 2 ^ 53 : Rat) + (6485183463413514 / 2 ^ 54 : Rat)) = .fin (9007199254740989 / 2 ^ 53) := by
    have := at64 (9007199254740989) 53 (q := (5764607523034232 / 2 ^ 53 : Rat) + (6485183463413514 / 2 ^ 54 : Rat)) (by norm_num) (by rw [abs_of_pos (by norm_num)]; norm_num)
      (by rw [abs_of_pos (by norm_num)]; norm_num) (Or.inl (by norm_num [abs_lt]))
    rw [this]
    norm_num
  simp only [Nat.cast_ofNat, Nat.cast_zero]
  exact norm_at h1 h2 h3 h4 h5

theorem ex1_32_0 : norm (nearest float32) (rnd (nearest float32) ((Fl.fin (1 : Nat)).sub (.fin (8808038 / 2 ^ 21))))
    (rnd (nearest float32) ((Fl.fin (3 : Nat)).sub (.fin (10066330 / 2 ^ 24)))) = sqrt (nearest float32) (.fin (16777215 / 2 ^ 20)) := by
  have h1 : nearest float32 ((1 : Rat) - 8808038 / 2 ^ 21) = .fin (-13421772 / 2 ^ 22) := by
    have := at32 (-13421772) 22 (q := (1 : Rat) - 8808038 / 2 ^ 21) (by norm_num) (by rw [abs_of_neg (by norm_num)]; norm_num)
      (by rw [abs_of_neg (by norm_num)]; norm_num) (Or.inl (by norm_num [abs_lt]))
    rw [this]
    norm_num
  have h2 : nearest float32 ((3 : Rat) - 10066330 / 2 ^ 24) = .fin (10066330 / 2 ^ 22) := by
    have := at32 (10066330) 22 (q := (3 : Rat) - 10066330 / 2 ^ 24) (by norm_num) (by rw [abs_of_pos (by norm_num)]; norm_num)
      (by rw [abs_of_pos (by norm_num)]; norm_num) (Or.inr ⟨by norm_num [abs_of_pos, abs_of_neg], by norm_num⟩)
    rw [this]
    norm_num
  have h3 : nearest float32 ((-13421772 / 2 ^ 22 : Rat) * (-13421772 / 2 ^ 22 : Rat)) = .fin (10737417 / 2 ^ 20) := by
    have := at32 (10737417) 20 (q := (-13421772 / 2 ^ 22 : Rat) * (-13421772 / 2 ^ 22 : Rat)) (by norm_num) (by rw [abs_of_pos (by norm_num)]; norm_num)
      (by rw [abs_of_pos (by norm_num)]; norm_num) (Or.inl (by norm_num [abs_lt]))
    rw [this]
    norm_num
  have h4 : nearest float32 ((10066330 / 2 ^ 22 : Rat) * (10066330 / 2 ^ 22 : Rat)) = .fin (12079596 / 2 ^ 21) := by
    have := at32 (12079596) 21 (q := (10066330 / 2 ^ 22 : Rat) * (10066330 / 2 ^ 22 : Rat)) (by norm_num) (by rw [abs_of_pos (by norm_num)]; norm_num)
      (by rw [abs_of_pos (by norm_num)]; norm_num) (Or.inl (by norm_num [abs_lt]))
    rw [this]
    norm_num
  have h5 : nearest float32 ((10737417 / 2 ^ 20 : Rat) + (12079596 / 2 ^ 21 : Rat)) = .fin (16777215 / 2 ^ 20) := by
    have := at32 (16777215) 20 (q := (10737417 / 2 ^ 20 : Rat) + (12079596 / 2 ^ 21 : Rat)) (by norm_num) (by rw [abs_of_pos (by norm_num)]; norm_num)
      (by rw [abs_of_pos (by norm_num)]; norm_num) (Or.inl (by norm_num [abs_lt]))
    rw [this]
    norm_num
  simp only [Nat.cast_ofNat, Nat.cast_one]
  exact norm_at h1 h2 h3 h4 h5

theorem ex1_32_1 : norm (nearest float32) (rnd (nearest float32) ((Fl.fin (5 : Nat)).sub (.fin (8808038 / 2 ^ 21))))
    (rnd (nearest float32) ((Fl.fin (0 : Nat)).sub (.fin (10066330 / 2 ^ 24)))) = sqrt (nearest float32) (.fin (8388610 / 2 ^ 23)) := by
  have h1 : nearest float32 ((5 : Rat) - 8808038 / 2 ^ 21) = .fin (13421776 / 2 ^ 24) := by
    have := at32 (13421776) 24 (q := (5 : Rat) - 8808038 / 2 ^ 21) (by norm_num) (by rw [abs_of_pos (by norm_num)]; norm_num)
      (by rw [abs_of_pos (by norm_num)]; norm_num) (Or.inl (by norm_num [abs_lt]))
    rw [this]
    norm_num
  have h2 : nearest float32 ((0 : Rat) - 10066330 / 2 ^ 24) = .fin (-10066330 / 2 ^ 24) := by
    have := at32 (-10066330) 24 (q := (0 : Rat) - 10066330 / 2 ^ 24) (by norm_num) (by rw [abs_of_neg (by norm_num)]; norm_num)
      (by rw [abs_of_neg (by norm_num)]; norm_num) (Or.inl (by norm_num [abs_lt]))
    rw [this]
    norm_num
  have h3 : nearest float32 ((13421776 / 2 ^ 24 : Rat) * (13421776 / 2 ^ 24 : Rat)) = .fin (10737423 / 2 ^ 24) := by
    have := at32 (10737423) 24 (q := (13421776 / 2 ^ 24 : Rat) * (13421776 / 2 ^ 24 : Rat)) (by norm_num) (by rw [abs_of_pos (by norm_num)]; norm_num)
      (by rw [abs_of_pos (by norm_num)]; norm_num) (Or.inl (by norm_num [abs_lt]))
    rw [this]
    norm_num
  have h4 : nearest float32 ((-10066330 / 2 ^ 24 : Rat) * (-10066330 / 2 ^ 24 : Rat)) = .fin (12079596 / 2 ^ 25) := by
    have := at32 (12079596) 25 (q := (-10066330 / 2 ^ 24 : Rat) * (-10066330 / 2 ^ 24 : Rat)) (by norm_num) (by rw [abs_of_pos (by norm_num)]; norm_num)
      (by rw [abs_of_pos (by norm_num)]; norm_num) (Or.inl (by norm_num [abs_lt]))
    rw [this]
    norm_num
  have h5 : nearest float32 ((10737423 / 2 ^ 24 : Rat) + (12079596 / 2 ^ 25 : Rat)) = .fin (8388610 / 2 ^ 23) := by
    have := at32 (8388610) 23 (q := (10737423 / 2 ^ 24 : Rat) + (12079596 / 2 ^ 25 : Rat)) (by norm_num) (by rw [abs_of_pos (by norm_num)]; norm_num)
      (by rw [abs_of_pos (by norm_num)]; norm_num) (Or.inr ⟨by norm_num [abs_of_pos, abs_of_neg], by norm_num⟩)
    rw [this]
    norm_num
  simp only [Nat.cast_ofNat, Nat.cast_zero]
  exact norm_at h1 h2 h3 h4 h5

theorem ex2_mean_x : mean (nearest float64) [2, 2, 6, 6, 6] = .fin (4953959590107546 / 2 ^ 50) := by
  have h : nearest float64 ((22 / 5 : Rat)) = .fin (4953959590107546 / 2 ^ 50) := by
    have := at64 (4953959590107546) 50 (q := (22 / 5 : Rat)) (by norm_num) (by rw [abs_of_pos (by norm_num)]; norm_num)
      (by rw [abs_of_pos (by norm_num)]; norm_num) (Or.inl (by norm_num [abs_lt]))
    rw [this]
    norm_num
  exact mean_of (l := [2, 2, 6, 6, 6]) (by decide) (by decide) (by norm_num) h

theorem ex2_stored_x : quotient (nearest float32) (nearest float64) [2, 2, 6, 6, 6] = .fin (9227469 / 2 ^ 21) := by
  have h2 : nearest float32 ((4953959590107546 / 2 ^ 50 : Rat)) = .fin (9227469 / 2 ^ 21) := by
    have := at32 (9227469) 21 (q := (4953959590107546 / 2 ^ 50 : Rat)) (by norm_num) (by rw [abs_of_pos (by norm_num)]; norm_num)
      (by rw [abs_of_pos (by norm_num)]; norm_num) (Or.inl (by norm_num [abs_lt]))
    rw [this]
    norm_num
  rw [(quotient_eq (nearest_rounds wide32) (nearest_rounds wide64) (l := [2, 2, 6, 6, 6]) (by decide) (by decide)).1, ex2_mean_x]
  exact h2

theorem ex2_mean_y : mean (nearest float64) [0, 0, 3, 3, 3] = .fin (8106479329266893 / 2 ^ 52) := by
  have h : nearest float64 ((9 / 5 : Rat)) = .fin (8106479329266893 / 2 ^ 52) := by
    have := at64 (8106479329266893) 52 (q := (9 / 5 : Rat)) (by norm_num) (by rw [abs_of_pos (by norm_num)]; norm_num)
      (by rw [abs_of_pos (by norm_num)]; norm_num) (Or.inl (by norm_num [abs_lt]))
    rw [this]
    norm_num
  exact mean_of (l := [0, 0, 3, 3, 3]) (by decide) (by decide) (by norm_num) h

theorem ex2_stored_y : quotient (nearest float32) (nearest float64) [0, 0, 3, 3, 3] = .fin (15099494 / 2 ^ 23) := by
  have h2 : nearest float32 ((8106479329266893 / 2 ^ 52 : Rat)) = .fin (15099494 / 2 ^ 23) := by
    have := at32 (15099494) 23 (q := (8106479329266893 / 2 ^ 52 : Rat)) (by norm_num) (by rw [abs_of_pos (by norm_num)]; norm_num)
      (by rw [abs_of_pos (by norm_num)]; norm_num) (Or.inl (by norm_num [abs_lt]))
    rw [this]
    norm_num
  rw [(quotient_eq (nearest_rounds wide32) (nearest_rounds wide64) (l := [0, 0, 3, 3, 3]) (by decide) (by decide)).1, ex2_mean_y]
  exact h2

theorem ex2_64_0 : norm (nearest float64) (rnd (nearest float64) ((Fl.fin (2 : Nat)).sub (.fin (4953959590107546 / 2 ^ 50))))
    (rnd (nearest float64) ((Fl.fin (0 : Nat)).sub (.fin (8106479329266893 / 2 ^ 52)))) = sqrt (nearest float64) (.fin (5066549580791809 / 2 ^ 49)) := by
  have h1 : nearest float64 ((2 : Rat) - 4953959590107546 / 2 ^ 50) = .fin (-5404319552844596 / 2 ^ 51) := by
    have := at64 (-5404319552844596) 51 (q := (2 : Rat) - 4953959590107546 / 2 ^ 50) (by norm_num) (by rw [abs_of_neg (by norm_num)]; norm_num)
      (by rw [abs_of_neg (by norm_num)]; norm_num) (Or.inl (by norm_num [abs_lt]))
    rw [this]
    norm_num
  have h2 : nearest float64 ((0 : Rat) - 8106479329266893 / 2 ^ 52) = .fin (-8106479329266893 / 2 ^ 52) := by
    have := at64 (-8106479329266893) 52 (q := (0 : Rat) - 8106479329266893 / 2 ^ 52) (by norm_num) (by rw [abs_of_neg (by norm_num)]; norm_num)
      (by rw [abs_of_neg (by norm_num)]; norm_num) (Or.inl (by norm_num [abs_lt]))
    rw [this]
    norm_num
  have h3 : nearest float64 ((-5404319552844596 / 2 ^ 51 : Rat) * (-5404319552844596 / 2 ^ 51 : Rat)) = .fin (6485183463413516 / 2 ^ 50) := by
    have := at64 (6485183463413516) 50 (q := (-5404319552844596 / 2 ^ 51 : Rat) * (-5404319552844596 / 2 ^ 51 : Rat)) (by norm_num) (by rw [abs_of_pos (by norm_num)]; norm_num)
      (by rw [abs_of_pos (by norm_num)]; norm_num) (Or.inl (by norm_num [abs_lt]))
    rw [this]
    norm_num
  have h4 : nearest float64 ((-8106479329266893 / 2 ^ 52 : Rat) * (-8106479329266893 / 2 ^ 52 : Rat)) = .fin (7295831396340204 / 2 ^ 51) := by
    have := at64 (7295831396340204) 51 (q := (-8106479329266893 / 2 ^ 52 : Rat) * (-8106479329266893 / 2 ^ 52 : Rat)) (by norm_num) (by rw [abs_of_pos (by norm_num)]; norm_num)
      (by rw [abs_of_pos (by norm_num)]; norm_num) (Or.inl (by norm_num [abs_lt]))
    rw [this]
    norm_num
  have h5 : nearest float64 ((6485183463413516 / 2 ^ 50 : Rat) + (7295831396340204 / 2 ^ 51 : Rat)) = .fin (5066549580791809 / 2 ^ 49) := by
    have := at64 (5066549580791809) 49 (q := (6485183463413516 / 2 ^ 50 : Rat) + (7295831396340204 / 2 ^ 51 : Rat)) (by norm_num) (by rw [abs_of_pos (by norm_num)]; norm_num)
      (by rw [abs_of_pos (by norm_num)]; norm_num) (Or.inl (by norm_num [abs_lt]))
    rw [this]
    norm_num
  simp only [Nat.cast_ofNat, Nat.cast_zero]
  exact norm_at h1 h2 h3 h4 h5

theorem ex2_64_1 : norm (nearest float64) (rnd (nearest float64) ((Fl.fin (6 : Nat)).sub (.fin (4953959590107546 / 2 ^ 50))))
    (rnd (nearest float64) ((Fl.fin (3 : Nat)).sub (.fin (8106479329266893 / 2 ^ 52)))) = sqrt (nearest float64) (.fin (9007199254740989 / 2 ^ 51)) := by
  have h1 : nearest float64 ((6 : Rat) - 4953959590107546 / 2 ^ 50) = .fin (7205759403792792 / 2 ^ 52) := by
    have := at64 (7205759403792792) 52 (q := (6 : Rat) - 4953959590107546 / 2 ^ 50) (by norm_num) (by rw [abs_of_pos (by norm_num)]; norm_num)
      (by rw [abs_of_pos (by norm_num)]; norm_num) (Or.inl (by norm_num [abs_lt]))
    rw [this]
    norm_num
  have h2 : nearest float64 ((3 : Rat) - 8106479329266893 / 2 ^ 52) = .fin (5404319552844595 / 2 ^ 52) := by
    have := at64 (5404319552844595) 52 (q := (3 : Rat) - 8106479329266893 / 2 ^ 52) (by norm_num) (by rw [abs_of_pos (by norm_num)]; norm_num)
      (by rw [abs_of_pos (by norm_num)]; norm_num) (Or.inl (by norm_num [abs_lt]))
    rw [this]
    norm_num
  have h3 : nearest float64 ((7205759403792792 / 2 ^ 52 : Rat) * (7205759403792792 / 2 ^ 52 : Rat)) = .fin (5764607523034232 / 2 ^ 51) := by
    have := at64 (5764607523034232) 51 (q := (7205759403792792 / 2 ^ 52 : Rat) * (7205759403792792 / 2 ^ 52 : Rat)) (by norm_num) (by rw [abs_of_pos (by norm_num)]; norm_num)
      (by rw [abs_of_pos (by norm_num)]; norm_num) (Or.inl (by norm_num [abs_lt]))
    rw [this]
    norm_num
  have h4 : nearest float64 ((5404319552844595 / 2 ^ 52 : Rat) * (5404319552844595 / 2 ^ 52 : Rat)) = .fin (6485183463413514 / 2 ^ 52) := by
    have := at64 (6485183463413514) 52 (q := (5404319552844595 / 2 ^ 52 : Rat) * (5404319552844595 / 2 ^ 52 : Rat)) (by norm_num) (by rw [abs_of_pos (by norm_num)]; norm_num)
      (by rw [abs_of_pos (by norm_num)]; norm_num) (Or.inl (by norm_num [abs_lt]))
    rw [this]
    norm_num
  have h5 : nearest float64 ((5764607523034232 / 2 ^ 51 : Rat) + (6485183463413514 / 2 ^ 52 : Rat)) = .fin (9007199254740989 / 2 ^ 51) := by
    have := at64 (9007199254740989) 51 (q := (5764607523034232 / 2 ^ 51 : Rat) + (6485183463413514 / 2 ^ 52 : Rat)) (by norm_num) (by rw [abs_of_pos (by norm_num)]; norm_num)
      (by rw [abs_of_pos (by norm_num)]; norm_num) (Or.inl (by norm_num [abs_lt]))
    rw [this]
    norm_num
  simp only [Nat.cast_ofNat]
  exact norm_at h1 h2 h3 h4 h5

theorem ex2_32_0 : norm (nearest float32) (rnd (nearest float32) ((Fl.fin (2 : Nat)).sub (.fin (9227469 / 2 ^ 21))))
    (rnd (nearest float32) ((Fl.fin (0 : Nat)).sub (.fin (15099494 / 2 ^ 23)))) = sqrt (nearest float32) (.fin (9437184 / 2 ^ 20)) := by
  have h1 : nearest float32 ((2 : Rat) - 9227469 / 2 ^ 21) = .fin (-10066330 / 2 ^ 22) := by
    have := at32 (-10066330) 22 (q := (2 : Rat) - 9227469 / 2 ^ 21) (by norm_num) (by rw [abs_of_neg (by norm_num)]; norm_num)
      (by rw [abs_of_neg (by norm_num)]; norm_num) (Or.inl (by norm_num [abs_lt]))
    rw [this]
    norm_num
  have h2 : nearest float32 ((0 : Rat) - 15099494 / 2 ^ 23) = .fin (-15099494 / 2 ^ 23) := by
    have := at32 (-15099494) 23 (q := (0 : Rat) - 15099494 / 2 ^ 23) (by norm_num) (by rw [abs_of_neg (by norm_num)]; norm_num)
      (by rw [abs_of_neg (by norm_num)]; norm_num) (Or.inl (by norm_num [abs_lt]))
    rw [this]
    norm_num
  have h3 : nearest float32 ((-10066330 / 2 ^ 22 : Rat) * (-10066330 / 2 ^ 22 : Rat)) = .fin (12079596 / 2 ^ 21) := by
    have := at32 (12079596) 21 (q := (-10066330 / 2 ^ 22 : Rat) * (-10066330 / 2 ^ 22 : Rat)) (by norm_num) (by rw [abs_of_pos (by norm_num)]; norm_num)
      (by rw [abs_of_pos (by norm_num)]; norm_num) (Or.inl (by norm_num [abs_lt]))
    rw [this]
    norm_num
  have h4 : nearest float32 ((-15099494 / 2 ^ 23 : Rat) * (-15099494 / 2 ^ 23 : Rat)) = .fin (13589544 / 2 ^ 22) := by
    have := at32 (13589544) 22 (q := (-15099494 / 2 ^ 23 : Rat) * (-15099494 / 2 ^ 23 : Rat)) (by norm_num) (by rw [abs_of_pos (by norm_num)]; norm_num)
      (by rw [abs_of_pos (by norm_num)]; norm_num) (Or.inl (by norm_num [abs_lt]))
    rw [this]
    norm_num
  have h5 : nearest float32 ((12079596 / 2 ^ 21 : Rat) + (13589544 / 2 ^ 22 : Rat)) = .fin (9437184 / 2 ^ 20) := by
    have := at32 (9437184) 20 (q := (12079596 / 2 ^ 21 : Rat) + (13589544 / 2 ^ 22 : Rat)) (by norm_num) (by rw [abs_of_pos (by norm_num)]; norm_num)
      (by rw [abs_of_pos (by norm_num)]; norm_num) (Or.inl (by norm_num [abs_lt]))
    rw [this]
    norm_num
  simp only [Nat.cast_ofNat, Nat.cast_zero]
  exact norm_at h1 h2 h3 h4 h5

theorem ex2_32_1 : norm (nearest float32) (rnd (nearest float32) ((Fl.fin (6 : Nat)).sub (.fin (9227469 / 2 ^ 21))))
    (rnd (nearest float32) ((Fl.fin (3 : Nat)).sub (.fin (15099494 / 2 ^ 23)))) = sqrt (nearest float32) (.fin (16777215 / 2 ^ 22)) := by
  have h1 : nearest float32 ((6 : Rat) - 9227469 / 2 ^ 21) = .fin (13421772 / 2 ^ 23) := by
    have := at32 (13421772) 23 (q := (6 : Rat) - 9227469 / 2 ^ 21) (by norm_num) (by rw [abs_of_pos (by norm_num)]; norm_num)
      (by rw [abs_of_pos (by norm_num)]; norm_num) (Or.inl (by norm_num [abs_lt]))
    rw [this]
    norm_num
  have h2 : nearest float32 ((3 : Rat) - 15099494 / 2 ^ 23) = .fin (10066330 / 2 ^ 23) := by
    have := at32 (10066330) 23 (q := (3 : Rat) - 15099494 / 2 ^ 23) (by norm_num) (by rw [abs_of_pos (by norm_num)]; norm_num)
      (by rw [abs_of_pos (by norm_num)]; norm_num) (Or.inl (by norm_num [abs_lt]))
    rw [this]
    norm_num
  have h3 : nearest float32 ((13421772 / 2 ^ 23 : Rat) * (13421772 / 2 ^ 23 : Rat)) = .fin (10737417 / 2 ^ 22) := by
    have := at32 (10737417) 22 (q := (13421772 / 2 ^ 23 : Rat) * (13421772 / 2 ^ 23 : Rat)) (by norm_num) (by rw [abs_of_pos (by norm_num)]; norm_num)
      (by rw [abs_of_pos (by norm_num)]; norm_num) (Or.inl (by norm_num [abs_lt]))
    rw [this]
    norm_num
  have h4 : nearest float32 ((10066330 / 2 ^ 23 : Rat) * (10066330 / 2 ^ 23 : Rat)) = .fin (12079596 / 2 ^ 23) := by
    have := at32 (12079596) 23 (q := (10066330 / 2 ^ 23 : Rat) * (10066330 / 2 ^ 23 : Rat)) (by norm_num) (by rw [abs_of_pos (by norm_num)]; norm_num)
      (by rw [abs_of_pos (by norm_num)]; norm_num) (Or.inl (by norm_num [abs_lt]))
    rw [this]
    norm_num
  have h5 : nearest float32 ((10737417 / 2 ^ 22 : Rat) + (12079596 / 2 ^ 23 : Rat)) = .fin (16777215 / 2 ^ 22) := by
    have := at32 (16777215) 22 (q := (10737417 / 2 ^ 22 : Rat) + (12079596 / 2 ^ 23 : Rat)) (by norm_num) (by rw [abs_of_pos (by norm_num)]; norm_num)
      (by rw [abs_of_pos (by norm_num)]; norm_num) (Or.inl (by norm_num [abs_lt]))
    rw [this]
    norm_num
  simp only [Nat.cast_ofNat]
  exact norm_at h1 h2 h3 h4 h5

theorem fix64 {n : Nat} (h : n < 2 ^ 24) : nearest float64 n = .fin n := (nearest_rounds wide64).fix _ (fine64.nat h)

theorem fix32 {n : Nat} (h : n < 2 ^ 24) : nearest float32 n = .fin n := (nearest_rounds wide32).fix _ (fine32.nat h)

theorem radius0 {x y : Nat} {xs ys : List Nat} {cx cy t : Rat} (hx : x < 2 ^ 24) (hy : y < 2 ^ 24)
    (h1 : mean (nearest float64) xs = .fin cx) (h2 : mean (nearest float64) ys = .fin cy)
    (h : norm (nearest float64) (rnd (nearest float64) ((Fl.fin x).sub (.fin cx)))
      (rnd (nearest float64) ((Fl.fin y).sub (.fin cy))) = sqrt (nearest float64) (.fin t)) :
    radiusV0 (nearest float64) none xs ys x y = sqrt (nearest float64) (.fin t) := by
  unfold radiusV0
  simp only
  rw [h1, h2, fix64 hx, fix64 hy]
  exact h

theorem radius1 {x y : Nat} {xs ys : List Nat} {cx cy t : Rat} (hx : x < 2 ^ 24) (hy : y < 2 ^ 24)
    (h1 : quotient (nearest float32) (nearest float64) xs = .fin cx) (h2 : quotient (nearest float32) (nearest float64) ys = .fin cy)
    (h : norm (nearest float32) (rnd (nearest float32) ((Fl.fin x).sub (.fin cx)))
      (rnd (nearest float32) ((Fl.fin y).sub (.fin cy))) = sqrt (nearest float32) (.fin t)) :
    radiusV1 (nearest float32) (nearest float64) none xs ys x y = sqrt (nearest float32) (.fin t) := by
  unfold radiusV1
  simp only
  rw [h1, h2, fix32 hx, fix32 hy]
  exact h

theorem kept_ex1 {X Y : Nat → Nat} {A B : Nat} (hA : X A = 1 ∧ Y A = 3) (hB : X B = 5 ∧ Y B = 0) :
    keptV0 (nearest float64) X Y (some (1 : Nat)) none [A, B, B, B, B] = [B, B, B, B] ∧
      keptV1 (nearest float32) (nearest float64) X Y (some (1 : Nat)) none [A, B, B, B, B] = [] := by
  have a0 := (ge_sqrt fine64 (nearest_rounds wide64) (k := 0) (m := 1) (r := 1) (by omega) (by omega)
    (t := 4503599627370496 / 2 ^ 48) (by norm_num)).2 (by norm_num) (by norm_num)
  have a1 := (ge_sqrt fine64 (nearest_rounds wide64) (k := 0) (m := 1) (r := 1) (by omega) (by omega)
    (t := 9007199254740989 / 2 ^ 53) (by norm_num)).1 (by norm_num)
  have b0 := (ge_sqrt fine32 (nearest_rounds wide32) (k := 0) (m := 1) (r := 1) (by omega) (by omega)
    (t := 16777215 / 2 ^ 20) (by norm_num)).2 (by norm_num) (by norm_num)
  have hup : nearest float32 (((2 ^ 40 + 2 ^ 17 - 1 : Nat) : Rat) / 2 ^ 40) = .fin (8388609 / 2 ^ 23) := by
    have := at32 8388609 23 (q := ((2 ^ 40 + 2 ^ 17 - 1 : Nat) : Rat) / 2 ^ 40) (by norm_num)
      (by rw [abs_of_pos (by norm_num)]; norm_num) (by rw [abs_of_pos (by norm_num)]; norm_num) (Or.inl (by norm_num [abs_lt]))
    rw [this]
    norm_num
  have b1 := ge_root fine32 (r := ((1 : Nat) : Rat)) (n := 2 ^ 40 + 2 ^ 17 - 1) (j := 40) (t := 8388610 / 2 ^ 23) (by omega) (by norm_num) (by norm_num)
    hup (by norm_num) (by norm_num)
  have rA0 : radiusV0 (nearest float64) none [1, 5, 5, 5, 5] [3, 0, 0, 0, 0] 1 3 = _ :=
    radius0 (by norm_num) (by norm_num) ex1_mean_x ex1_mean_y ex1_64_0
  have rB0 : radiusV0 (nearest float64) none [1, 5, 5, 5, 5] [3, 0, 0, 0, 0] 5 0 = _ :=
    radius0 (by norm_num) (by norm_num) ex1_mean_x ex1_mean_y ex1_64_1
  have rA1 : radiusV1 (nearest float32) (nearest float64) none [1, 5, 5, 5, 5] [3, 0, 0, 0, 0] 1 3 = _ :=
    radius1 (by norm_num) (by norm_num) ex1_stored_x ex1_stored_y ex1_32_0
  have rB1 : radiusV1 (nearest float32) (nearest float64) none [1, 5, 5, 5, 5] [3, 0, 0, 0, 0] 5 0 = _ :=
    radius1 (by norm_num) (by norm_num) ex1_stored_x ex1_stored_y ex1_32_1
  constructor
  · unfold keptV0
    simp only [List.map_cons, List.map_nil, List.filter_cons, List.filter_nil, hA.1, hA.2, hB.1, hB.2, rA0, rB0, fix64 (n := 1) (by norm_num), a0, a1]
    rfl
  · unfold keptV1
    simp only [List.map_cons, List.map_nil, List.filter_cons, List.filter_nil, hA.1, hA.2, hB.1, hB.2, rA1, rB1, fix32 (n := 1) (by norm_num), b0, b1]
    rfl

theorem kept_ex2 {X Y : Nat → Nat} {A B : Nat} (hA : X A = 2 ∧ Y A = 0) (hB : X B = 6 ∧ Y B = 3) :
    keptV0 (nearest float64) X Y (some (3 : Nat)) none [A, A, B, B, B] = [B, B, B] ∧
      keptV1 (nearest float32) (nearest float64) X Y (some (3 : Nat)) none [A, A, B, B, B] = [A, A, B, B, B] := by
  have hup : nearest float64 (((3 * 2 ^ 60 + 2 ^ 8 + 1 : Nat) : Rat) / 2 ^ 60) = .fin (6755399441055745 / 2 ^ 51) := by
    have := at64 6755399441055745 51 (q := ((3 * 2 ^ 60 + 2 ^ 8 + 1 : Nat) : Rat) / 2 ^ 60) (by norm_num)
      (by rw [abs_of_pos (by norm_num)]; norm_num) (by rw [abs_of_pos (by norm_num)]; norm_num) (Or.inl (by norm_num [abs_lt]))
    rw [this]
    norm_num
  have a0 := ge_root fine64 (r := ((3 : Nat) : Rat)) (n := 3 * 2 ^ 60 + 2 ^ 8 + 1) (j := 60) (t := 5066549580791809 / 2 ^ 49) (by omega) (by norm_num)
    (by norm_num) hup (by norm_num) (by norm_num)
  have a1 := (ge_sqrt fine64 (nearest_rounds wide64) (k := 0) (m := 2) (r := 3) (by omega) (by omega)
    (t := 9007199254740989 / 2 ^ 51) (by norm_num)).1 (by norm_num)
  have b0 := (ge_sqrt fine32 (nearest_rounds wide32) (k := 0) (m := 2) (r := 3) (by omega) (by omega)
    (t := 9437184 / 2 ^ 20) (by norm_num)).1 (by norm_num)
  have b1 := (ge_sqrt fine32 (nearest_rounds wide32) (k := 0) (m := 2) (r := 3) (by omega) (by omega)
    (t := 16777215 / 2 ^ 22) (by norm_num)).1 (by norm_num)
  have rA0 : radiusV0 (nearest float64) none [2, 2, 6, 6, 6] [0, 0, 3, 3, 3] 2 0 = _ :=
    radius0 (by norm_num) (by norm_num) ex2_mean_x ex2_mean_y ex2_64_0
  have rB0 : radiusV0 (nearest float64) none [2, 2, 6, 6, 6] [0, 0, 3, 3, 3] 6 3 = _ :=
    radius0 (by norm_num) (by norm_num) ex2_mean_x ex2_mean_y ex2_64_1
  have rA1 : radiusV1 (nearest float32) (nearest float64) none [2, 2, 6, 6, 6] [0, 0, 3, 3, 3] 2 0 = _ :=
    radius1 (by norm_num) (by norm_num) ex2_stored_x ex2_stored_y ex2_32_0
  have rB1 : radiusV1 (nearest float32) (nearest float64) none [2, 2, 6, 6, 6] [0, 0, 3, 3, 3] 6 3 = _ :=
    radius1 (by norm_num) (by norm_num) ex2_stored_x ex2_stored_y ex2_32_1
  constructor
  · unfold keptV0
    simp only [List.map_cons, List.map_nil, List.filter_cons, List.filter_nil, hA.1, hA.2, hB.1, hB.2, rA0, rB0, fix64 (n := 3) (by norm_num), a0, a1]
    rfl
  · unfold keptV1
    simp only [List.map_cons, List.map_nil, List.filter_cons, List.filter_nil, hA.1, hA.2, hB.1, hB.2, rA1, rB1, fix32 (n := 3) (by norm_num), b0, b1]
    rfl

/-- One scan position with a frame for each event. -/
def eachFrame (w : Nat) (ev : List Nat) : SparseArray := ⟨[ev.map fun e => [e]], ev.length, [1, 1], [w, w], true, false⟩

theorem eachFrame_counted {w : Nat} {ev : List Nat} (he : ∀ e ∈ ev, e < w * w) (h0 : ev ≠ []) : Counted (eachFrame w ev) 1 1 w w := by
  refine ⟨⟨.inr rfl, rfl, ?_, ?_, ?_⟩, rfl, rfl, List.length_pos_iff.2 h0⟩
  · simp [eachFrame]
  · simpa [eachFrame, prod] using he
  · simp [eachFrame]

theorem eachFrame_events (w : Nat) (ev : List Nat) : PyImage.eventsAt (eachFrame w ev) 0 = ev := by
  show (ev.map fun e => [e]).flatten = ev
  induction ev with
  | nil => rfl
  | cons e l ih => rw [List.map_cons, List.flatten_cons, ih]; rfl

theorem results {rd32 rd64 : Rat → Fl} {w : Nat} {ev : List Nat} (he : ∀ e ∈ ev, e < w * w) (h0 : ev ≠ []) (crop : Option Rat) :
    comSparseV0 rd32 rd64 (eachFrame w ev) crop none = .ok ([(positionV0 rd32 rd64 w w crop none ev).1],
        [(positionV0 rd32 rd64 w w crop none ev).2]) ∧
      comSparseV1 rd32 rd64 (eachFrame w ev) crop none = .ok ([(positionV1 rd32 rd64 (· / w) (· % w) crop none ev).1],
        [(positionV1 rd32 rd64 (· / w) (· % w) crop none ev).2]) ∧
      PyImage.comSparse 1 (eachFrame w ev) crop none false = .ok (
        [(PyImage.comXY (· / w) (· % w) crop none ev).map Prod.fst], [(PyImage.comXY (· / w) (· % w) crop none ev).map Prod.snd]) := by
  have ha := eachFrame_counted he h0
  refine ⟨?_, ?_, ?_⟩
  · rw [comSparseV0_eq ha.wf.length ha.scan ha.frame ha.ne]
    unfold byPosition
    rw [show List.range (1 * 1) = [0] from rfl]
    simp only [List.map_cons, List.map_nil, eachFrame_events]
  · rw [comSparseV1_eq ha.wf.length ha.scan ha.frame ha.lt]
    unfold byPosition
    rw [show List.range (1 * 1) = [0] from rfl]
    simp only [List.map_cons, List.map_nil, eachFrame_events]
  · have : PyImage.comSparse 1 (eachFrame w ev) crop none false = PyImage.comSparseV1 (eachFrame w ev) crop none false := rfl
    rw [this, PyImage.comSparseV1_eq ha.wf.length ha.scan ha.frame ha.lt]
    unfold PyImage.images
    rw [show List.range (1 * 1) = [0] from rfl]
    simp only [List.map_cons, List.map_nil, eachFrame_events, PyImage.initVal, Option.map_none, Bool.false_eq_true, if_false]

/-- The event of row `x` and column `y`. -/
theorem coord {w x y : Nat} (hy : y < w) (hx : x < w) : (x * w + y) / w = x ∧ (x * w + y) % w = y ∧ x * w + y < w * w := by
  have hw : 0 < w := by omega
  refine ⟨?_, ?_, ?_⟩
  · rw [mul_comm, Nat.mul_add_div hw, Nat.div_eq_of_lt hy, Nat.add_zero]
  · rw [mul_comm, Nat.mul_add_mod, Nat.mod_eq_of_lt hy]
  · have : (x + 1) * w ≤ w * w := Nat.mul_le_mul_right _ hx
    rw [Nat.add_mul] at this
    omega

theorem mean_nat {l : List Nat} {q : Nat} (hl : ∀ x ∈ l, x < 2 ^ 24) (hs : l.sum < 2 ^ 53) (h0 : 0 < l.length) (hq : l.sum = q * l.length)
    (h : q < 2 ^ 24) : rnd (nearest float32) (mean (nearest float64) l) = .fin q := by
  have hne : ((l.length : Nat) : Rat) ≠ 0 := by exact_mod_cast Nat.ne_of_gt h0
  rw [mean_of hl hs ⟨by rw [hq]; push_cast; exact mul_div_cancel_right₀ _ hne, hne⟩ (fix64 h)]
  exact fix32 h

end RoundedCenter

/-- **C95 is violated** with cropping around the center of mass, rounding to nearest: the events at (row 5, column 0) have a distance of
exactly one pixel from the center of mass (row 4.2, column 0.6) and `crop_to` is 1. Version 0 returns their center, which is the right
result, and version 1 returns NaN. This holds for every square frame of at least 6 pixels. -/
theorem C95_false (w : Nat) (hw : 6 ≤ w) :
    let a := eachFrame w [1 * w + 3, 5 * w + 0, 5 * w + 0, 5 * w + 0, 5 * w + 0]
    Counted a 1 1 w w ∧ PyImage.comSparse 1 a (some (1 : Nat)) none false = .ok ([some 0], [some 5]) ∧
      comSparseV0 (nearest float32) (nearest float64) a (some (1 : Nat)) none = .ok ([.fin 0], [.fin 5]) ∧
      comSparseV1 (nearest float32) (nearest float64) a (some (1 : Nat)) none = .ok ([.nan], [.nan]) := by
  intro a
  obtain ⟨a1, a2, a3⟩ := coord (w := w) (x := 1) (y := 3) (by omega) (by omega)
  obtain ⟨b1, b2, b3⟩ := coord (w := w) (x := 5) (y := 0) (by omega) (by omega)
  obtain ⟨k0, k1⟩ := kept_ex1 (X := (· / w)) (Y := (· % w)) ⟨a1, a2⟩ ⟨b1, b2⟩
  have he : ∀ e ∈ [1 * w + 3, 5 * w + 0, 5 * w + 0, 5 * w + 0, 5 * w + 0], e < w * w := by
    intro e h
    simp only [List.mem_cons, List.not_mem_nil, or_false] at h
    rcases h with h | h | h | h | h <;> rw [h] <;> assumption
  obtain ⟨r0, r1, r2⟩ := results (rd32 := nearest float32) (rd64 := nearest float64) he (by simp) (some ((1 : Nat) : Rat))
  refine ⟨eachFrame_counted he (by simp), ?_, ?_, ?_⟩
  · rw [r2]
    have kx : PyImage.keptXY (· / w) (· % w) (some ((1 : Nat) : Rat)) none [1 * w + 3, 5 * w + 0, 5 * w + 0, 5 * w + 0, 5 * w + 0] =
        [5 * w + 0, 5 * w + 0, 5 * w + 0, 5 * w + 0] := by
      unfold PyImage.keptXY PyImage.average PyImage.sqrtLe
      simp only [List.map_cons, List.map_nil, List.filter_cons, List.filter_nil, a1, a2, b1, b2]
      norm_num
    have ax : PyImage.average (· / w) [5 * w + 0, 5 * w + 0, 5 * w + 0, 5 * w + 0] = 5 := by
      unfold PyImage.average
      simp only [List.map_cons, List.map_nil, b1]
      norm_num
    have ay : PyImage.average (· % w) [5 * w + 0, 5 * w + 0, 5 * w + 0, 5 * w + 0] = 0 := by
      unfold PyImage.average
      simp only [List.map_cons, List.map_nil, b2]
      norm_num
    rw [PyImage.comXY_fst, PyImage.comXY_snd, kx, ax, ay, if_neg (List.cons_ne_nil _ _), if_neg (List.cons_ne_nil _ _)]
  · rw [r0, positionV0_eq, k0]
    simp only [List.map_cons, List.map_nil, b1, b2]
    rw [mean_nat (q := 0) (l := [0, 0, 0, 0]) (by decide) (by decide) (by decide) (by decide) (by norm_num),
      mean_nat (q := 5) (l := [5, 5, 5, 5]) (by decide) (by decide) (by decide) (by decide) (by norm_num)]
    rfl
  · rw [r1]
    unfold positionV1
    rw [k1]
    rfl

/-- **C95 is violated** by version 0 as well: two events at (row 2, column 0) have a distance of exactly 3 pixels from the center of mass
(row 4.4, column 1.8), and `crop_to` is 3. Version 1 returns the center of all events, rounded, which is the right result, and version 0
drops the two events. This holds for every square frame of at least 7 pixels. -/
theorem C95_v0_false (w : Nat) (hw : 7 ≤ w) :
    let a := eachFrame w [2 * w + 0, 2 * w + 0, 6 * w + 3, 6 * w + 3, 6 * w + 3]
    Counted a 1 1 w w ∧ PyImage.comSparse 1 a (some (3 : Nat)) none false = .ok ([some (9 / 5)], [some (22 / 5)]) ∧
      comSparseV0 (nearest float32) (nearest float64) a (some (3 : Nat)) none = .ok ([.fin 3], [.fin 6]) ∧
      comSparseV1 (nearest float32) (nearest float64) a (some (3 : Nat)) none =
        .ok ([store (nearest float32) (nearest float64) (some (9 / 5))], [store (nearest float32) (nearest float64) (some (22 / 5))]) ∧
      store (nearest float32) (nearest float64) (some (22 / 5)) ≠ .fin 6 := by
  intro a
  obtain ⟨a1, a2, a3⟩ := coord (w := w) (x := 2) (y := 0) (by omega) (by omega)
  obtain ⟨b1, b2, b3⟩ := coord (w := w) (x := 6) (y := 3) (by omega) (by omega)
  obtain ⟨k0, k1⟩ := kept_ex2 (X := (· / w)) (Y := (· % w)) ⟨a1, a2⟩ ⟨b1, b2⟩
  have he : ∀ e ∈ [2 * w + 0, 2 * w + 0, 6 * w + 3, 6 * w + 3, 6 * w + 3], e < w * w := by
    intro e h
    simp only [List.mem_cons, List.not_mem_nil, or_false] at h
    rcases h with h | h | h | h | h <;> rw [h] <;> assumption
  obtain ⟨r0, r1, r2⟩ := results (rd32 := nearest float32) (rd64 := nearest float64) he (by simp) (some ((3 : Nat) : Rat))
  have sx := (stored (nearest_rounds wide32) (nearest_rounds wide64) (w := 7) (by omega) (X := id) (l := [2, 2, 6, 6, 6]) (by simp)
    (by decide) (by decide)).2
  have sy := (stored (nearest_rounds wide32) (nearest_rounds wide64) (w := 7) (by omega) (X := id) (l := [0, 0, 3, 3, 3]) (by simp)
    (by decide) (by decide)).2
  have ax : PyImage.average id [2, 2, 6, 6, 6] = 22 / 5 := by
    unfold PyImage.average
    norm_num
  have ay : PyImage.average id [0, 0, 3, 3, 3] = 9 / 5 := by
    unfold PyImage.average
    norm_num
  rw [ax, List.map_id] at sx
  rw [ay, List.map_id] at sy
  refine ⟨eachFrame_counted he (by simp), ?_, ?_, ?_, ?_⟩
  · rw [r2]
    have kx : PyImage.keptXY (· / w) (· % w) (some ((3 : Nat) : Rat)) none [2 * w + 0, 2 * w + 0, 6 * w + 3, 6 * w + 3, 6 * w + 3] =
        [2 * w + 0, 2 * w + 0, 6 * w + 3, 6 * w + 3, 6 * w + 3] := by
      unfold PyImage.keptXY PyImage.average PyImage.sqrtLe
      simp only [List.map_cons, List.map_nil, List.filter_cons, List.filter_nil, a1, a2, b1, b2]
      norm_num
    have ax : PyImage.average (· / w) [2 * w + 0, 2 * w + 0, 6 * w + 3, 6 * w + 3, 6 * w + 3] = 22 / 5 := by
      unfold PyImage.average
      simp only [List.map_cons, List.map_nil, a1, b1]
      norm_num
    have ay : PyImage.average (· % w) [2 * w + 0, 2 * w + 0, 6 * w + 3, 6 * w + 3, 6 * w + 3] = 9 / 5 := by
      unfold PyImage.average
      simp only [List.map_cons, List.map_nil, a2, b2]
      norm_num
    rw [PyImage.comXY_fst, PyImage.comXY_snd, kx, ax, ay, if_neg (List.cons_ne_nil _ _), if_neg (List.cons_ne_nil _ _)]
  · rw [r0, positionV0_eq, k0]
    simp only [List.map_cons, List.map_nil, b1, b2]
    rw [mean_nat (q := 3) (l := [3, 3, 3]) (by decide) (by decide) (by decide) (by decide) (by norm_num),
      mean_nat (q := 6) (l := [6, 6, 6]) (by decide) (by decide) (by decide) (by decide) (by norm_num)]
    rfl
  · rw [r1]
    unfold positionV1
    rw [k1]
    simp only [List.map_cons, List.map_nil, a1, a2, b1, b2]
    rw [sx, sy]
    rfl
  · rw [← sx, ex2_stored_x]
    norm_num

/-- **C95** (the radius must be an integer): a radius just below the square root of two and the center (0, 0), which is given. The event at
(1, 1) is outside and version 0 drops it; version 1 keeps it, as it rounds both the radius and the distance to single precision. -/
theorem C95_fraction_false (w : Nat) (hw : 2 ≤ w) :
    let a := eachFrame w [1 * w + 1]
    let q : Rat := 189812529 / 2 ^ 27
    PyImage.comSparse 1 a (some q) (some (.int 0, .int 0)) false = .ok ([none], [none]) ∧
      comSparseV0 (nearest float32) (nearest float64) a (some q) (some (.int 0, .int 0)) = .ok ([.nan], [.nan]) ∧
      comSparseV1 (nearest float32) (nearest float64) a (some q) (some (.int 0, .int 0)) = .ok ([.fin 1], [.fin 1]) := by
  intro a q
  obtain ⟨a1, a2, a3⟩ := coord (w := w) (x := 1) (y := 1) (by omega) (by omega)
  have he : ∀ e ∈ [1 * w + 1], e < w * w := by simpa using a3
  have ha := eachFrame_counted he (by simp)
  have hev : PyImage.eventsAt (eachFrame w [1 * w + 1]) 0 = [1 * w + 1] := eachFrame_events w _
  have hq64 : nearest float64 q = .fin q :=
    (nearest_rounds wide64).fix _ ⟨189812529, -27, by norm_num [float64], by decide, by decide, by norm_num [q]⟩
  have hq32 : nearest float32 q = .fin (11863283 / 2 ^ 23) := by
    have := at32 11863283 23 (q := q) (by norm_num) (by rw [abs_of_pos (by norm_num [q])]; norm_num [q])
      (by rw [abs_of_pos (by norm_num [q])]; norm_num [q]) (Or.inl (by norm_num [abs_lt, q]))
    rw [this]
    norm_num
  have k0 : keptV0 (nearest float64) (· / w) (· % w) (some q) (some (.int 0, .int 0)) [1 * w + 1] = [] := by
    have h1 : radiusV0 (nearest float64) (some (.int 0, .int 0)) [1] [1] 1 1 = sqrt (nearest float64) (.fin 2) := by
      show sqrt _ (nearest float64 ((2 : Nat) : Rat)) = _
      rw [fix64 (by norm_num)]
      norm_num
    have hup : nearest float64 (((189812529 * 2 ^ 13 + 1 : Nat) : Rat) / 2 ^ 40) = .fin (((189812529 * 2 ^ 13 + 1 : Nat) : Rat) / 2 ^ 40) :=
      (nearest_rounds wide64).fix _ ⟨(189812529 * 2 ^ 13 + 1 : Nat), -40, by norm_num [float64], by decide, by decide, by norm_num⟩
    have h2 := ge_root fine64 (r := q) (n := 189812529 * 2 ^ 13 + 1) (j := 40) (t := 2) (by omega) (by norm_num) (by norm_num) hup
      (by norm_num [q]) (by norm_num)
    unfold keptV0
    simp only [List.map_cons, List.map_nil, List.filter_cons, List.filter_nil, a1, a2, h1, hq64, h2]
    rfl
  have k1 : keptV1 (nearest float32) (nearest float64) (· / w) (· % w) (some q) (some (.int 0, .int 0)) [1 * w + 1] = [1 * w + 1] := by
    have f0 : nearest float32 0 = .fin 0 := (nearest_rounds wide32).fix _ fine32.zero
    have f1 : nearest float32 1 = .fin 1 := by exact_mod_cast fix32 (n := 1) (by norm_num)
    have f2 : nearest float32 2 = .fin 2 := by exact_mod_cast fix32 (n := 2) (by norm_num)
    have h1 : radiusV1 (nearest float32) (nearest float64) (some (.int 0, .int 0)) [1] [1] 1 1 = sqrt (nearest float32) (.fin 2) := by
      unfold radiusV1
      simp only [PyImage.Num.val, Nat.cast_zero, Nat.cast_one]
      rw [f0, f1]
      refine norm_at (x := 1) (y := 1) (cx := 0) (cy := 0) (dx := 1) (dy := 1) (A := 1) (B := 1) ?_ ?_ ?_ ?_ ?_ <;> norm_num <;> assumption
    have h2 : (Fl.fin (11863283 / 2 ^ 23)).ge (sqrt (nearest float32) (.fin 2)) = true := by
      have hs : sqrt (nearest float32) (.fin 2) = nearest float32 (rootApprox 2) := by
        show (if (2 : Rat) < 0 then Fl.nan else _) = _
        exact if_neg (by norm_num)
      have hdown : nearest float32 (((11863283 * 2 ^ 2 + 1 : Nat) : Rat) / 2 ^ 25) = .fin (11863283 / 2 ^ 23) := by
        have := at32 11863283 23 (q := ((11863283 * 2 ^ 2 + 1 : Nat) : Rat) / 2 ^ 25) (by norm_num)
          (by rw [abs_of_pos (by norm_num)]; norm_num) (by rw [abs_of_pos (by norm_num)]; norm_num) (Or.inl (by norm_num [abs_lt]))
        rw [this]
        norm_num
      have h3 : rootApprox 2 ≤ ((11863283 * 2 ^ 2 + 1 : Nat) : Rat) / 2 ^ 25 := by
        rw [← rootApprox_dyadic (11863283 * 2 ^ 2 + 1) 25 (by omega)]
        exact rootApprox_mono (by norm_num) (by norm_num)
      have hR := nearest_rounds wide32
      obtain ⟨u, e, _, _, _⟩ := hR.between fine32.zero (fine32.pow (k := 2) (by omega)) (rootApprox_nonneg 2)
        (le_trans h3 (by norm_num))
      rw [hs, e, ge_fin]
      exact decide_eq_true (hR.mono _ _ _ _ h3 e hdown)
    unfold keptV1
    simp only [List.map_cons, List.map_nil, List.filter_cons, List.filter_nil, a1, a2, h1, hq32, h2]
    rfl
  refine ⟨?_, ?_, ?_⟩
  · have : PyImage.comSparse 1 a (some q) (some (.int 0, .int 0)) false = PyImage.comSparseV1 a (some q) (some (.int 0, .int 0)) false := rfl
    rw [this, PyImage.comSparseV1_eq ha.wf.length ha.scan ha.frame ha.lt]
    have kx : PyImage.keptXY (· / w) (· % w) (some q) (PyImage.initVal (some (.int 0, .int 0))) [1 * w + 1] = [] := by
      unfold PyImage.keptXY PyImage.sqrtLe PyImage.initVal
      simp only [List.filter_cons, List.filter_nil, a1, a2]
      norm_num [PyImage.Num.val, q]
    unfold PyImage.images
    rw [show List.range (1 * 1) = [0] from rfl]
    simp only [List.map_cons, List.map_nil, hev, PyImage.comXY_fst, PyImage.comXY_snd, kx, if_true, Bool.false_eq_true, if_false]
  · rw [comSparseV0_eq ha.wf.length ha.scan ha.frame ha.ne]
    unfold byPosition
    rw [show List.range (1 * 1) = [0] from rfl]
    simp only [List.map_cons, List.map_nil, hev, positionV0_eq, k0, if_true]
  · rw [comSparseV1_eq ha.wf.length ha.scan ha.frame ha.lt]
    unfold byPosition
    rw [show List.range (1 * 1) = [0] from rfl]
    have hm : quotient (nearest float32) (nearest float64) [1] = .fin 1 := by
      rw [(quotient_eq (nearest_rounds wide32) (nearest_rounds wide64) (l := [1]) (by decide) (by decide)).1,
        mean_nat (q := 1) (l := [1]) (by decide) (by decide) (by decide) (by decide) (by norm_num), Nat.cast_one]
    simp only [List.map_cons, List.map_nil, hev, positionV1, k1, List.cons_ne_nil, if_false, a1, a2, hm]

example : Right (nearest float32) (nearest float64) PyImage.comSample none none :=
  C95_no_crop (nearest_rounds wide32) (nearest_rounds wide64) _ 1 2 3 3 PyImage.comSample_counted (by omega) (by
    intro p
    rcases p with _ | _ | p
    · decide
    · decide
    · simp [PyImage.eventsAt, PyImage.comSample]) none

example : Right (nearest float32) (nearest float64) PyImage.comSample (some (1 : Nat)) (some (.int 1, .float (3 / 2))) :=
  C95_center_partial (nearest_rounds wide32) (nearest_rounds wide64) _ 1 2 3 3 PyImage.comSample_counted (by omega) (by
    intro p
    rcases p with _ | _ | p
    · decide
    · decide
    · simp [PyImage.eventsAt, PyImage.comSample]) 1 10 1 (by omega) (by omega) (by omega) _
    ⟨by show (1 : Nat) ≤ 32768; omega, 2, by norm_num [PyImage.Num.val], by norm_num⟩ ⟨trivial, 3, by norm_num [PyImage.Num.val], by norm_num⟩

example : Right (nearest float32) (nearest float64) (eachFrame 5 [7, 7, 19, 21]) (some (2 : Nat)) none :=
  C95_few_partial (nearest_rounds wide32) (nearest_rounds wide64) _ 1 1 5 5 (eachFrame_counted (by decide) (by decide)) (by omega)
    2 9 2 (by omega) (by omega) (by omega) (by
      intro p
      rcases p with _ | p
      · exact Or.inr ⟨1, rfl⟩
      · exact Or.inl (by simp [PyImage.eventsAt, eachFrame]))

end Stempy.Props
