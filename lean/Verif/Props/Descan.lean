import Verif.Model.Descan
import Verif.Props.Com
import Mathlib.Data.Rat.Floor
import Mathlib.Tactic.Linarith
import Mathlib.Tactic.FieldSimp

/-! C108: correction of the descan, `examples/vacuum_scan_subtract.ipynb`. -/

namespace Stempy.Descan
open Numpy Sparse PyImage

private theorem getD_of_lt {α : Type} {l : List α} {i : Nat} (h : i < l.length) {d : α} : l.getD i d = l[i] := by
  simp [List.getD_eq_getElem?_getD, h]

/-- The event moved by `x` columns and `y` rows, if it stays on the detector. -/
private def moved (h w : Nat) (x y : Int) (e : Nat) : Option Nat :=
  let r := ((e / w : Nat) : Int) - y
  let c := ((e % w : Nat) : Int) - x
  if 0 ≤ r ∧ r < h ∧ 0 ≤ c ∧ c < w then some (r * w + c).toNat else none

private theorem centerFrame_eq {h w : Nat} (x y : Int) {ev : List Nat} (hev : ∀ e ∈ ev, e < h * w) :
    centerFrame h w x y ev = .ok (ev.filterMap (moved h w x y)) := by
  have h1 : unravel h w ev = .ok (ev.map fun e => (e / w, e % w)) := by
    unfold unravel
    rw [if_pos]
    simpa using hev
  unfold centerFrame
  rw [h1]
  show Outcome.ok _ = _
  congr 1
  clear h1 hev
  induction ev with
  | nil => rfl
  | cons e l ih =>
    simp only [List.map_cons, List.filter_cons, List.filterMap_cons, moved] at ih ⊢
    by_cases hc : 0 ≤ ((e / w : Nat) : Int) - y ∧ ((e / w : Nat) : Int) - y < h ∧ 0 ≤ ((e % w : Nat) : Int) - x ∧ ((e % w : Nat) : Int) - x < w
    · rw [if_pos hc, if_pos (by simp only [Bool.and_eq_true, decide_eq_true_eq]; tauto)]
      simp only [List.map_cons]
      exact congrArg _ ih
    · rw [if_neg hc, if_neg (by simp only [Bool.and_eq_true, decide_eq_true_eq]; tauto)]
      exact ih

/-- An event moved to the pixel in row `r` and column `c`. -/
private theorem moved_iff {h w : Nat} (x y : Int) {e r c : Nat} (hr : r < h) (hc : c < w) :
    moved h w x y e = some (r * w + c) ↔ ((e / w : Nat) : Int) = r + y ∧ ((e % w : Nat) : Int) = c + x := by
  unfold moved
  have hw : (0 : Int) < w := by omega
  constructor
  · intro hm
    dsimp only at hm
    split at hm
    · rename_i hi
      obtain ⟨i1, i2, i3, i4⟩ := hi
      have hm := Option.some.inj hm
      have hpos : 0 ≤ (((e / w : Nat) : Int) - y) * w + (((e % w : Nat) : Int) - x) :=
        Int.add_nonneg (Int.mul_nonneg i1 (by omega)) i3
      have hz : (((e / w : Nat) : Int) - y) * w + (((e % w : Nat) : Int) - x) = (r : Int) * w + c := by
        have := congrArg (fun n : Nat => (n : Int)) hm
        simp only [Int.toNat_of_nonneg hpos] at this
        rw [this]; push_cast; rfl
      have h1 : ((((e / w : Nat) : Int) - y) * w + (((e % w : Nat) : Int) - x)) / w = ((e / w : Nat) : Int) - y := by
        rw [Int.add_comm, Int.add_mul_ediv_right _ _ (by omega), Int.ediv_eq_zero_of_lt i3 i4]; simp
      have h2 : ((r : Int) * w + c) / w = r := by
        rw [Int.add_comm, Int.add_mul_ediv_right _ _ (by omega), Int.ediv_eq_zero_of_lt (by omega) (by omega)]; simp
      have h3 : ((e / w : Nat) : Int) - y = r := by rw [← h1, hz, h2]
      rw [h3] at hz
      constructor <;> omega
    · cases hm
  · rintro ⟨h1, h2⟩
    have e1 : ((e / w : Nat) : Int) - y = r := by omega
    have e2 : ((e % w : Nat) : Int) - x = c := by omega
    rw [e1, e2, if_pos ⟨by omega, by omega, by omega, by omega⟩]
    congr 1

private theorem moved_lt {h w : Nat} (x y : Int) {e e' : Nat} (hm : moved h w x y e = some e') : e' < h * w ∧
    ((e' / w : Nat) : Int) = ((e / w : Nat) : Int) - y ∧ ((e' % w : Nat) : Int) = ((e % w : Nat) : Int) - x := by
  unfold moved at hm
  dsimp only at hm
  split at hm
  · rename_i hi
    obtain ⟨i1, i2, i3, i4⟩ := hi
    obtain ⟨r, hr⟩ := Int.eq_ofNat_of_zero_le i1
    obtain ⟨c, hc⟩ := Int.eq_ofNat_of_zero_le i3
    rw [hr] at hm i2 ⊢
    rw [hc] at hm i4 ⊢
    have he : e' = r * w + c := by
      have := Option.some.inj hm
      rw [← this]
      have : ((r : Int) * w + c) = ((r * w + c : Nat) : Int) := by push_cast; rfl
      rw [this]; exact Int.toNat_natCast _
    have hc' : c < w := by omega
    subst he
    refine ⟨?_, ?_, ?_⟩
    · calc r * w + c < r * w + w := by omega
        _ = (r + 1) * w := by ring
        _ ≤ h * w := Nat.mul_le_mul_right _ (by omega)
    · rw [Nat.add_comm, Nat.add_mul_div_right _ _ (by omega), Nat.div_eq_of_lt hc']; simp
    · rw [Nat.add_comm, Nat.add_mul_mod_self_right, Nat.mod_eq_of_lt hc']
  · cases hm

private theorem moved_inj {h w : Nat} (x y : Int) {e e' v : Nat} (h1 : moved h w x y e = some v) (h2 : moved h w x y e' = some v) : e = e' := by
  obtain ⟨_, a1, a2⟩ := moved_lt x y h1
  obtain ⟨_, b1, b2⟩ := moved_lt x y h2
  have c1 : e / w = e' / w := by omega
  have c2 : e % w = e' % w := by omega
  rw [← Nat.div_add_mod e w, ← Nat.div_add_mod e' w, c1, c2]

private def data' (a : SparseArray) (h w : Nat) (x y : List Int) : List (List (List Nat)) :=
  (a.data.zip (x.zip y)).map fun p => p.1.map fun ev => ev.filterMap (moved h w p.2.1 p.2.2)

private theorem data'_length {a : SparseArray} {h w : Nat} {x y : List Int} (hx : x.length = a.data.length) (hy : y.length = a.data.length) :
    (data' a h w x y).length = a.data.length := by simp [data', hx, hy]

private theorem data'_get {a : SparseArray} {h w : Nat} {x y : List Int} (hx : x.length = a.data.length) (hy : y.length = a.data.length) {p : Nat}
    (hp : p < a.data.length) :
    (data' a h w x y).getD p [] = (a.data.getD p []).map fun ev => ev.filterMap (moved h w (x.getD p 0) (y.getD p 0)) := by
  have h1 : p < x.length := by omega
  have h2 : p < y.length := by omega
  simp [data', List.getD_eq_getElem?_getD, hp, h1, h2]

private theorem centered_eq {a : SparseArray} {s0 s1 h w : Nat} (ha : Counted a s0 s1 h w) {x y : List Int} (hx : x.length = s0 * s1)
    (hy : y.length = s0 * s1) :
    ∃ b, centered a x y = .ok b ∧ Counted b s0 s1 h w ∧ b.numFrames = a.numFrames ∧ b.data = data' a h w x y := by
  have hlen : a.data.length = s0 * s1 := by rw [ha.wf.length, ha.scan]; simp [prod]
  have hrow : ∀ p ∈ a.data.zip (x.zip y), p.1 ∈ a.data := fun p hp => (List.of_mem_zip hp).1
  have hm : ((a.data.zip (x.zip y)).mapM fun p => p.1.mapM fun ev => centerFrame h w p.2.1 p.2.2 ev) = .ok (data' a h w x y) := by
    refine mapM_ok _ _ _ fun p hp => ?_
    exact mapM_ok _ _ _ fun ev hev => centerFrame_eq _ _ (ha.lt _ (hrow p hp) ev hev)
  refine ⟨⟨data' a h w x y, a.numFrames, a.scanShape, a.frameShape, true, false⟩, ?_, ⟨⟨ha.wf.ndim, ?_, ?_, ?_, ?_⟩, ha.scan, ha.frame, ha.frames⟩, rfl, rfl⟩
  · unfold centered
    rw [ha.frame]
    dsimp only
    rw [if_neg (by omega), hm]
    show SparseArray.init _ = _
    unfold SparseArray.init
    rw [if_pos]
    show (data' a h w x y).length = prod a.scanShape
    rw [data'_length (by omega) (by omega), ha.wf.length]
  · show (data' a h w x y).length = prod a.scanShape
    rw [data'_length (by omega) (by omega), ha.wf.length]
  · intro row hr
    obtain ⟨p, hp, rfl⟩ := List.mem_map.1 hr
    rw [List.length_map]
    exact ha.wf.frames _ (hrow p hp)
  · intro row hr fr hf e he
    obtain ⟨p, hp, rfl⟩ := List.mem_map.1 hr
    obtain ⟨ev, hev, rfl⟩ := List.mem_map.1 hf
    obtain ⟨e', _, he'⟩ := List.mem_filterMap.1 he
    show e < prod a.frameShape
    rw [ha.frame]
    simpa [prod] using (moved_lt _ _ he').1
  · intro row hr fr hf
    obtain ⟨p, hp, rfl⟩ := List.mem_map.1 hr
    obtain ⟨ev, hev, rfl⟩ := List.mem_map.1 hf
    refine (ha.wf.nodup _ (hrow p hp) ev hev).filterMap fun e e' v h1 h2 => moved_inj _ _ h1 h2

private theorem count_moved {h w : Nat} (x y : Int) {ev : List Nat} {r c : Nat} (hr : r < h) (hc : c < w) :
    (ev.filterMap (moved h w x y)).count (r * w + c) =
      if 0 ≤ r + y ∧ 0 ≤ c + x ∧ c + x < w then ev.count ((r + y).toNat * w + (c + x).toNat) else 0 := by
  have h1 : (ev.filterMap (moved h w x y)).count (r * w + c) = ev.countP fun e => decide (moved h w x y e = some (r * w + c)) := by
    induction ev with
    | nil => rfl
    | cons e l ih =>
      rw [List.filterMap_cons, List.countP_cons, ← ih]
      cases hm : moved h w x y e with
      | none => simp
      | some v => simp [List.count_cons]
  rw [h1]
  simp only [moved_iff x y hr hc]
  split
  · rename_i hi
    obtain ⟨i1, i2, i3⟩ := hi
    rw [List.count]
    apply List.countP_congr
    intro e _
    simp only [decide_eq_true_eq, beq_iff_eq]
    constructor
    · rintro ⟨e1, e2⟩
      rw [← e1, ← e2, Int.toNat_natCast, Int.toNat_natCast, Nat.mul_comm, Nat.div_add_mod]
    · intro he
      have hlt : (c + x).toNat < w := by omega
      have e1 : e / w = (r + y).toNat := by
        rw [he, Nat.add_comm, Nat.add_mul_div_right _ _ (by omega), Nat.div_eq_of_lt hlt]; simp
      have e2 : e % w = (c + x).toNat := by
        rw [he, Nat.add_comm, Nat.add_mul_mod_self_right, Nat.mod_eq_of_lt hlt]
      constructor <;> omega
  · rename_i hi
    rw [List.countP_eq_zero]
    intro e _
    simp only [decide_eq_true_eq, not_and]
    intro e1 e2
    apply hi
    have hm := Nat.mod_lt e (show w > 0 by omega)
    generalize e / w = q at e1
    generalize e % w = m at e2 hm
    omega

/-- **C108** Every frame is the frame moved by `x` columns and `y` rows: the pixel in row `r` and column `c` is the one in row `r + y` and
column `c + x`, and 0 if there is no such pixel. For all shapes of the frames, and shifts of any size. -/
theorem C108_dense (a : SparseArray) (s0 s1 h w : Nat) (ha : Counted a s0 s1 h w) (x y : List Int) (hx : x.length = s0 * s1)
    (hy : y.length = s0 * s1) :
    ∃ b, centered a x y = .ok b ∧ Counted b s0 s1 h w ∧ b.numFrames = a.numFrames ∧ ∀ p < s0 * s1, ∀ j < a.numFrames, ∀ r < h, ∀ c < w,
      ((b.data.getD p []).getD j []).count (r * w + c) =
        if 0 ≤ r + y.getD p 0 ∧ r + y.getD p 0 < h ∧ 0 ≤ c + x.getD p 0 ∧ c + x.getD p 0 < w then
          ((a.data.getD p []).getD j []).count ((r + y.getD p 0).toNat * w + (c + x.getD p 0).toNat)
        else 0 := by
  obtain ⟨b, h1, h2, h3, h4⟩ := centered_eq ha hx hy
  refine ⟨b, h1, h2, h3, fun p hp j hj r hr c hc => ?_⟩
  have hlen : a.data.length = s0 * s1 := by rw [ha.wf.length, ha.scan]; simp [prod]
  have hrow : a.data.getD p [] ∈ a.data := by
    rw [getD_of_lt (by omega)]
    exact List.getElem_mem _
  have hj' : j < (a.data.getD p []).length := by rw [ha.wf.frames _ hrow]; exact hj
  rw [h4, data'_get (by omega) (by omega) (by omega)]
  have hg : ((a.data.getD p []).map fun ev => ev.filterMap (moved h w (x.getD p 0) (y.getD p 0))).getD j [] =
      ((a.data.getD p []).getD j []).filterMap (moved h w (x.getD p 0) (y.getD p 0)) := by
    rw [getD_of_lt (by simpa using hj'), List.getElem_map, getD_of_lt hj']
  rw [hg, count_moved _ _ hr hc]
  generalize x.getD p 0 = x'
  generalize y.getD p 0 = y'
  by_cases hi : 0 ≤ r + y' ∧ 0 ≤ c + x' ∧ c + x' < w
  · rw [if_pos hi]
    by_cases hh : r + y' < h
    · rw [if_pos ⟨hi.1, hh, hi.2⟩]
    · rw [if_neg (by omega), List.count_eq_zero]
      intro hm
      have hlt := ha.lt _ hrow _ (by rw [getD_of_lt hj']; exact List.getElem_mem _) _ hm
      have : h * w ≤ (r + y').toNat * w := Nat.mul_le_mul_right _ (by omega)
      omega
  · rw [if_neg hi, if_neg (by omega)]

/-- **C108** There is a result exactly if there is a shift for each scan position. -/
theorem C108_lengths (a : SparseArray) (s0 s1 h w : Nat) (ha : Counted a s0 s1 h w) (x y : List Int) :
    (∃ b, centered a x y = .ok b) ↔ x.length = s0 * s1 ∧ y.length = s0 * s1 := by
  have hlen : a.data.length = s0 * s1 := by rw [ha.wf.length, ha.scan]; simp [prod]
  constructor
  · rintro ⟨b, hb⟩
    by_contra hne
    unfold centered at hb
    rw [ha.frame] at hb
    dsimp only at hb
    rw [if_pos (by omega)] at hb
    cases hb
  · rintro ⟨hx, hy⟩
    obtain ⟨b, h1, _⟩ := centered_eq ha hx hy
    exact ⟨b, h1⟩

/-- **C108** `np.round` is the nearest integer. -/
theorem C108_round (q : Rat) : |q - round q| ≤ 1 / 2 := by
  have h1 : (q.floor : Rat) ≤ q := Int.floor_le q
  have h2 : q < q.floor + 1 := Int.lt_floor_add_one q
  unfold round
  dsimp only
  rw [abs_le]
  split
  · constructor <;> linarith
  · split
    · push_cast; constructor <;> linarith
    · have : q - q.floor = 1 / 2 := by linarith
      split
      · constructor <;> linarith
      · push_cast; constructor <;> linarith

private theorem eventsAt_centered {a b : SparseArray} {s0 s1 h w : Nat} (ha : Counted a s0 s1 h w) {x y : List Int} (hx : x.length = s0 * s1)
    (hy : y.length = s0 * s1) (hb : centered a x y = .ok b) {p : Nat} (hp : p < s0 * s1) :
    eventsAt b p = (eventsAt a p).filterMap (moved h w (x.getD p 0) (y.getD p 0)) := by
  have hlen : a.data.length = s0 * s1 := by rw [ha.wf.length, ha.scan]; simp [prod]
  obtain ⟨b', h1, _, _, h4⟩ := centered_eq ha hx hy
  rw [h1] at hb
  cases hb
  unfold eventsAt
  rw [h4, data'_get (by omega) (by omega) (by omega), List.filterMap_flatten]

private theorem sums_moved {h w : Nat} {x y : Int} {ev : List Nat} (hl : (ev.filterMap (moved h w x y)).length = ev.length) :
    ((((ev.filterMap (moved h w x y)).map (· % w)).sum : Nat) : Int) = ((ev.map (· % w)).sum : Nat) - ev.length * x ∧
    ((((ev.filterMap (moved h w x y)).map (· / w)).sum : Nat) : Int) = ((ev.map (· / w)).sum : Nat) - ev.length * y := by
  induction ev with
  | nil => simp
  | cons e l ih =>
    rw [List.filterMap_cons] at hl ⊢
    cases hm : moved h w x y e with
    | none =>
      rw [hm] at hl
      have := List.length_filterMap_le (moved h w x y) l
      simp only [List.length_cons] at hl
      omega
    | some v =>
      rw [hm] at hl
      simp only [List.length_cons, Nat.add_right_cancel_iff] at hl
      obtain ⟨i1, i2⟩ := ih hl
      obtain ⟨_, m1, m2⟩ := moved_lt x y hm
      simp only [List.map_cons, List.sum_cons, List.length_cons, Nat.cast_add, i1, i2, m1, m2]
      constructor <;> push_cast <;> ring

private theorem center_none (w : Nat) (ev : List Nat) :
    centerOfMass w none none ev = if ev = [] then none else some (average (· % w) ev, average (· / w) ev) := rfl

/-- **C108** If no event of a position is moved out of the frame, its center of mass is moved by the shift. -/
theorem C108_center (a b : SparseArray) (s0 s1 h w : Nat) (ha : Counted a s0 s1 h w) (x y : List Int) (hb : centered a x y = .ok b)
    (p : Nat) (hp : p < s0 * s1) (hall : (eventsAt b p).length = (eventsAt a p).length) :
    centerOfMass w none none (eventsAt b p) =
      (centerOfMass w none none (eventsAt a p)).map fun (c : Rat × Rat) => (c.1 - ((x.getD p 0 : Int) : Rat), c.2 - ((y.getD p 0 : Int) : Rat)) := by
  obtain ⟨hx, hy⟩ := (C108_lengths a s0 s1 h w ha x y).1 ⟨b, hb⟩
  have he := eventsAt_centered ha hx hy hb hp
  rw [he] at hall ⊢
  generalize eventsAt a p = ev at hall ⊢
  generalize x.getD p 0 = x' at hall ⊢
  generalize y.getD p 0 = y' at hall ⊢
  rw [center_none, center_none]
  by_cases h0 : ev = []
  · subst h0; simp
  · have hlen : 0 < ev.length := List.length_pos_iff.2 h0
    have h1 : ev.filterMap (moved h w x' y') ≠ [] := by
      intro hn
      rw [hn] at hall
      simp only [List.length_nil] at hall
      omega
    rw [if_neg h0, if_neg h1]
    obtain ⟨i1, i2⟩ := sums_moved hall
    have hq : (ev.length : Rat) ≠ 0 := by exact_mod_cast hlen.ne'
    simp only [Option.map_some, average, hall]
    have j1 : ((((ev.filterMap (moved h w x' y')).map (· % w)).sum : Nat) : Rat) = ((ev.map (· % w)).sum : Nat) - ev.length * x' := by exact_mod_cast i1
    have j2 : ((((ev.filterMap (moved h w x' y')).map (· / w)).sum : Nat) : Rat) = ((ev.map (· / w)).sum : Nat) - ev.length * y' := by exact_mod_cast i2
    rw [j1, j2]
    congr 2
    · field_simp
    · field_simp

/-- **C108** In the other direction: the events of a position that are lost are those which are moved out of the frame. -/
theorem C108_lost (a b : SparseArray) (s0 s1 h w : Nat) (ha : Counted a s0 s1 h w) (x y : List Int) (hb : centered a x y = .ok b)
    (p : Nat) (hp : p < s0 * s1) :
    (eventsAt b p).length = (eventsAt a p).countP fun e =>
      decide (0 ≤ ((e / w : Nat) : Int) - y.getD p 0 ∧ ((e / w : Nat) : Int) - y.getD p 0 < h ∧
        0 ≤ ((e % w : Nat) : Int) - x.getD p 0 ∧ ((e % w : Nat) : Int) - x.getD p 0 < w) := by
  obtain ⟨hx, hy⟩ := (C108_lengths a s0 s1 h w ha x y).1 ⟨b, hb⟩
  rw [eventsAt_centered ha hx hy hb hp]
  generalize eventsAt a p = ev
  induction ev with
  | nil => rfl
  | cons e l ih =>
    rw [List.filterMap_cons, List.countP_cons, ← ih]
    unfold moved
    dsimp only
    by_cases hc : 0 ≤ ((e / w : Nat) : Int) - y.getD p 0 ∧ ((e / w : Nat) : Int) - y.getD p 0 < h ∧
        0 ≤ ((e % w : Nat) : Int) - x.getD p 0 ∧ ((e % w : Nat) : Int) - x.getD p 0 < w
    · simp only [if_pos hc, decide_eq_true hc, if_true, List.length_cons]
    · simp only [if_neg hc, decide_eq_false hc, Bool.false_eq_true, if_false, Nat.add_zero]

private theorem numbers_eq {l : List (Option Rat)} {r : List Rat} (h : l = r.map some) : numbers l = .ok r := by
  subst h
  unfold numbers
  rw [mapM_map_ok r some _ id (fun _ _ => rfl), List.map_id]

/-- **C108** The vacuum scan with square frames and at least one event that counts: the origins `cx`, `cy` are the centers of mass
(columns and rows, in the disc if there is a crop radius), positions without one get a number; after the filter, the origin of each position is
moved to within half a pixel of the same integers. -/
theorem C108_vacuum (filt : List Rat → List Rat) (hf : ∀ l, (filt l).length = l.length) (a : SparseArray) (s0 s1 w : Nat)
    (ha : Counted a s0 s1 w w) (hw : w ≤ 32768) (crop : Option Rat)
    (hsome : ∃ p < s0 * s1, centerOfMass w crop none (eventsAt a p) ≠ none) :
    ∃ b x y cx cy, vacuum filt a crop = .ok b ∧ centered a x y = .ok b ∧ x.length = s0 * s1 ∧ y.length = s0 * s1 ∧
      cx.length = s0 * s1 ∧ cy.length = s0 * s1 ∧
      (∀ p < s0 * s1, ∀ c, centerOfMass w crop none (eventsAt a p) = some c → cx[p]? = some c.1 ∧ cy[p]? = some c.2) ∧
      ∃ m n : Int, m = trunc (arrayMean (filt cx)) ∧ n = trunc (arrayMean (filt cy)) ∧ ∀ p < s0 * s1,
        |(filt cx).getD p 0 - x.getD p 0 - m| ≤ 1 / 2 ∧ |(filt cy).getD p 0 - y.getD p 0 - n| ≤ 1 / 2 := by
  obtain ⟨com, h1, h2, h3, h4⟩ := C50_square_partial a s0 s1 w ha hw 0 (.inl rfl) crop none (by simp [InitNear]) true
  obtain ⟨p0, hp0, hs0⟩ := hsome
  have hne : centers a (s0 * s1) w crop none ≠ [] := by
    unfold centers
    obtain ⟨c, hc⟩ := Option.ne_none_iff_exists'.1 hs0
    intro hn
    have : c ∈ (List.range (s0 * s1)).filterMap fun p => centerOfMass w crop none (eventsAt a p) :=
      List.mem_filterMap.2 ⟨p0, by simpa using hp0, hc⟩
    rw [hn] at this
    cases this
  have hall : ∀ g : Rat × Rat → Rat, ∀ v : Option Rat, (∃ p, v = ((centerOfMass w crop none (eventsAt a p)).map g).or
      (filler true ((centers a (s0 * s1) w crop none).map g))) → ∃ q, v = some q := by
    rintro g v ⟨p, rfl⟩
    unfold filler
    rw [if_pos ⟨rfl, by simpa using hne⟩]
    cases centerOfMass w crop none (eventsAt a p) <;> simp
  have hex : ∀ (l : List (Option Rat)), (∀ v ∈ l, ∃ q, v = some q) → ∃ r : List Rat, l = r.map some := by
    intro l
    induction l with
    | nil => exact fun _ => ⟨[], rfl⟩
    | cons v l ih =>
      intro h
      obtain ⟨q, rfl⟩ := h v (by simp)
      obtain ⟨r, rfl⟩ := ih fun v hv => h v (by simp [hv])
      exact ⟨q :: r, rfl⟩
  obtain ⟨cx, hcx⟩ := hex com.1 (by
    intro v hv
    obtain ⟨p, hp, rfl⟩ := List.getElem_of_mem hv
    apply hall Prod.fst
    refine ⟨p, ?_⟩
    have := (h4 p (by omega)).1
    rw [List.getElem?_eq_getElem hp] at this
    exact Option.some.inj this)
  obtain ⟨cy, hcy⟩ := hex com.2 (by
    intro v hv
    obtain ⟨p, hp, rfl⟩ := List.getElem_of_mem hv
    apply hall Prod.snd
    refine ⟨p, ?_⟩
    have := (h4 p (by omega)).2
    rw [List.getElem?_eq_getElem hp] at this
    exact Option.some.inj this)
  have lx : cx.length = s0 * s1 := by rw [← h2, hcx, List.length_map]
  have ly : cy.length = s0 * s1 := by rw [← h3, hcy, List.length_map]
  have nx : filt cx ≠ [] := by
    intro h0
    have := hf cx
    rw [h0] at this
    simp only [List.length_nil] at this
    omega
  have ny : filt cy ≠ [] := by
    intro h0
    have := hf cy
    rw [h0] at this
    simp only [List.length_nil] at this
    omega
  have sx : vacuumShifts (filt cx) = .ok ((filt cx).map fun v => round v - trunc (arrayMean (filt cx))) := if_neg nx
  have sy : vacuumShifts (filt cy) = .ok ((filt cy).map fun v => round v - trunc (arrayMean (filt cy))) := if_neg ny
  have lx' : ((filt cx).map fun v => round v - trunc (arrayMean (filt cx))).length = s0 * s1 := by rw [List.length_map, hf, lx]
  have ly' : ((filt cy).map fun v => round v - trunc (arrayMean (filt cy))).length = s0 * s1 := by rw [List.length_map, hf, ly]
  obtain ⟨b, hb, _⟩ := centered_eq ha lx' ly'
  refine ⟨b, _, _, cx, cy, ?_, hb, lx', ly', lx, ly, ?_, _, _, rfl, rfl, ?_⟩
  · unfold vacuum
    rw [h1]
    simp only [Outcome.ok_bind, numbers_eq hcx, numbers_eq hcy, sx, sy]
    exact hb
  · intro p hp c hc
    obtain ⟨g1, g2⟩ := h4 p hp
    rw [hcx, List.getElem?_map] at g1
    rw [hcy, List.getElem?_map] at g2
    have hi : initVal none = none := rfl
    rw [hi, hc] at g1 g2
    simp only [Option.map_some, Option.some_or] at g1 g2
    constructor
    · cases hh : cx[p]? <;> simp_all
    · cases hh : cy[p]? <;> simp_all
  · intro p hp
    have p1 : p < (filt cx).length := by rw [hf]; omega
    have p2 : p < (filt cy).length := by rw [hf]; omega
    rw [getD_of_lt p1, getD_of_lt p2, getD_of_lt (by simpa using p1), getD_of_lt (by simpa using p2), List.getElem_map, List.getElem_map]
    have r1 := C108_round (filt cx)[p]
    have r2 := C108_round (filt cy)[p]
    constructor
    · push_cast
      rw [show (filt cx)[p] - ((round (filt cx)[p] : Rat) - (trunc (arrayMean (filt cx)) : Rat)) - (trunc (arrayMean (filt cx)) : Rat) =
        (filt cx)[p] - (round (filt cx)[p] : Rat) by ring]
      exact r1
    · push_cast
      rw [show (filt cy)[p] - ((round (filt cy)[p] : Rat) - (trunc (arrayMean (filt cy)) : Rat)) - (trunc (arrayMean (filt cy)) : Rat) =
        (filt cy)[p] - (round (filt cy)[p] : Rat) by ring]
      exact r2

/-- **C108** Without filter and crop radius, the new centers of mass of all positions that lose no event are within half a pixel of the same
integers. Missing: positions that lose events (`C108_lost_false`), frames that are not square (C50). -/
theorem C108_centered_partial (a : SparseArray) (s0 s1 w : Nat) (ha : Counted a s0 s1 w w) (hw : w ≤ 32768)
    (hsome : ∃ p < s0 * s1, eventsAt a p ≠ []) :
    ∃ b, ∃ m n : Int, vacuum id a none = .ok b ∧ ∀ p < s0 * s1, (eventsAt b p).length = (eventsAt a p).length →
      ∀ c, centerOfMass w none none (eventsAt b p) = some c → |c.1 - m| ≤ 1 / 2 ∧ |c.2 - n| ≤ 1 / 2 := by
  have hs : ∃ p < s0 * s1, centerOfMass w none none (eventsAt a p) ≠ none := by
    obtain ⟨p, hp, h⟩ := hsome
    refine ⟨p, hp, ?_⟩
    simp [centerOfMass, kept, h]
  obtain ⟨b, x, y, cx, cy, h1, h2, h3, h4, h5, h6, h7, m, n, _, _, h8⟩ := C108_vacuum id (fun _ => rfl) a s0 s1 w ha hw none hs
  refine ⟨b, m, n, h1, fun p hp hl c hc => ?_⟩
  have hc' := C108_center a b s0 s1 w w ha x y h2 p hp hl
  rw [hc] at hc'
  cases ho : centerOfMass w none none (eventsAt a p) with
  | none => rw [ho] at hc'; cases hc'
  | some d =>
    rw [ho] at hc'
    simp only [Option.map_some, Option.some.injEq] at hc'
    subst hc'
    obtain ⟨g1, g2⟩ := h7 p hp d ho
    obtain ⟨g3, g4⟩ := h8 p hp
    simp only [id, List.getD_eq_getElem?_getD, g1, g2, Option.getD_some] at g3 g4 ⊢
    exact ⟨g3, g4⟩

/-- Two positions: the two events of the first are in the columns 0 and 3, and the center of mass of the second is 0. -/
def lostSample : SparseArray := ⟨[[[0, 3]], [[0]]], 1, [1, 2], [4, 4], true, false⟩

theorem lostSample_counted : Counted lostSample 1 2 4 4 := by
  refine ⟨⟨.inr rfl, rfl, ?_, ?_, ?_⟩, rfl, rfl, by simp [lostSample]⟩ <;> simp [lostSample, prod]

/-- **C108** With lost events the new center of mass can be a whole pixel off. -/
theorem C108_lost_false : ∃ b, vacuum id lostSample none = .ok b ∧ trunc (arrayMean [3 / 2, 0]) = 0 ∧
    centerOfMass 4 none none (eventsAt lostSample 0) = some (3 / 2, 0) ∧ centerOfMass 4 none none (eventsAt lostSample 1) = some (0, 0) ∧
    centerOfMass 4 none none (eventsAt b 0) = some (1, 0) ∧ centerOfMass 4 none none (eventsAt b 1) = some (0, 0) :=
  ⟨⟨[[[1]], [[0]]], 1, [1, 2], [4, 4], true, false⟩, by decide +kernel, by decide +kernel, by decide +kernel, by decide +kernel,
    by decide +kernel, by decide +kernel⟩

/-! ### Other scans -/

private theorem points_get (v0 v1 s0 s1 : Nat) {k : Nat} (hk : k < s1 * s0) :
    (points v0 v1 s0 s1)[k]? = some (((k / s0 : Nat) : Rat) / ((s1 : Rat) / v1), ((k % s0 : Nat) : Rat) / ((s0 : Rat) / v0)) := by
  have h0 : 0 < s0 := by
    rcases Nat.eq_zero_or_pos s0 with h | h
    · rw [h] at hk; omega
    · exact h
  have hq : k / s0 < s1 := Nat.div_lt_of_lt_mul (by rw [Nat.mul_comm]; exact hk)
  have hm : k % s0 < s0 := Nat.mod_lt _ h0
  have key : ∀ (f : Nat → Nat → Rat × Rat) (n : Nat), k / s0 < n →
      ((List.range n).flatMap fun i => (List.range s0).map fun j => f i j)[k]? = some (f (k / s0) (k % s0)) := by
    intro f n
    induction n with
    | zero => exact fun h => absurd h (Nat.not_lt_zero _)
    | succ n ih =>
      intro hn
      have hl : ∀ n, ((List.range n).flatMap fun i => (List.range s0).map fun j => f i j).length = n * s0 := by
        intro n
        induction n with
        | zero => simp
        | succ n ih => rw [List.range_succ, List.flatMap_append, List.length_append, ih]; simp; ring
      rw [List.range_succ, List.flatMap_append]
      by_cases h : k / s0 < n
      · rw [List.getElem?_append_left, ih h]
        rw [hl]
        exact (Nat.div_lt_iff_lt_mul h0).1 h
      · have he : k / s0 = n := by omega
        have hdm := Nat.div_add_mod k s0
        rw [List.getElem?_append_right, hl]
        · have : k - n * s0 = k % s0 := by rw [← he, Nat.mul_comm]; omega
          rw [this]
          simp [hm, he]
        · rw [hl, ← he, Nat.mul_comm]; omega
  unfold points
  exact key (fun i j => ((i : Rat) / ((s1 : Rat) / v1), (j : Rat) / ((s0 : Rat) / v0))) s1 hq

/-- **C108** The image of the vacuum scan is interpolated at the point that belongs to the scan position, for all positions, exactly if
both scans are square: rows and columns are exchanged. -/
theorem C108_points_iff (v0 v1 s0 s1 : Nat) (hv0 : 0 < v0) (hv1 : 0 < v1) (h0 : 2 ≤ s0) (h1 : 2 ≤ s1) :
    (∀ i < s0, ∀ j < s1, (points v0 v1 s0 s1)[i * s1 + j]? = some ((i : Rat) * v0 / s0, (j : Rat) * v1 / s1)) ↔ s0 = s1 ∧ v0 = v1 := by
  have hs0 : (s0 : Rat) ≠ 0 := by exact_mod_cast (by omega : s0 ≠ 0)
  have hs1 : (s1 : Rat) ≠ 0 := by exact_mod_cast (by omega : s1 ≠ 0)
  have hw0 : (v0 : Rat) ≠ 0 := by exact_mod_cast hv0.ne'
  have hw1 : (v1 : Rat) ≠ 0 := by exact_mod_cast hv1.ne'
  constructor
  · intro h
    have a1 := h 0 (by omega) 1 (by omega)
    have a2 := h 1 (by omega) 0 (by omega)
    rw [points_get _ _ _ _ (by nlinarith), Option.some.injEq, Prod.mk.injEq] at a1 a2
    obtain ⟨_, b1⟩ := a1
    obtain ⟨b2, b3⟩ := a2
    simp only [Nat.zero_add, Nat.add_zero, Nat.cast_one, Nat.cast_zero, one_mul, zero_mul, zero_div] at b1 b2 b3
    rw [Nat.mod_eq_of_lt (by omega : 1 < s0)] at b1
    have c3 : s1 % s0 = 0 := by
      rcases div_eq_zero_iff.1 b3 with h | h
      · exact_mod_cast h
      · rcases div_eq_zero_iff.1 h with h | h
        · exact absurd h hs0
        · exact absurd h hw0
    have c1 : (v0 : Rat) / s0 = v1 / s1 := by
      rw [← b1]; field_simp; push_cast; ring
    have c2 : ((s1 / s0 : Nat) : Rat) = 1 := by
      rw [c1] at b2
      field_simp at b2
      exact b2
    have c4 : s1 / s0 = 1 := by exact_mod_cast c2
    have hs : s0 = s1 := by
      have := Nat.div_add_mod s1 s0
      rw [c3, c4] at this
      omega
    refine ⟨hs, ?_⟩
    subst hs
    have : (v0 : Rat) = v1 := by
      field_simp at c1
      exact c1
    exact_mod_cast this
  · rintro ⟨rfl, rfl⟩ i hi j hj
    rw [points_get _ _ _ _ (by nlinarith)]
    have e1 : (i * s0 + j) / s0 = i := by
      rw [Nat.add_comm, Nat.add_mul_div_right _ _ (by omega), Nat.div_eq_of_lt hj]; simp
    have e2 : (i * s0 + j) % s0 = j := by
      rw [Nat.add_comm, Nat.add_mul_mod_self_right, Nat.mod_eq_of_lt hj]
    rw [e1, e2]
    congr 2
    · field_simp
    · field_simp

/-- **C108** Another scan of any shape is accepted. Each position is moved so that the interpolated origin comes to within half a pixel of the
mean of the origins; for square scans the origin at row `i` and column `j` is that at row `i * v / s` and column `j * v / s` of the image of
the vacuum scan (for the others see `C108_points_iff`). -/
theorem C108_experiment (interp : List Rat → Rat × Rat → Rat) (v0 v1 : Nat) (com : List Rat × List Rat) (a : SparseArray) (s0 s1 h w : Nat)
    (ha : Counted a s0 s1 h w) :
    ∃ b x y z0 z1, experiment interp v0 v1 com a = .ok b ∧ centered a x y = .ok b ∧ z0.length = s0 * s1 ∧ z1.length = s0 * s1 ∧
      (∀ p < s0 * s1, |z0.getD p 0 - x.getD p 0 - arrayMean z0| ≤ 1 / 2 ∧ |z1.getD p 0 - y.getD p 0 - arrayMean z1| ≤ 1 / 2) ∧
      (s0 = s1 → v0 = v1 → 0 < v0 → ∀ i < s0, ∀ j < s1,
        z0[i * s1 + j]? = some (interp com.1 ((i : Rat) * v0 / s0, (j : Rat) * v1 / s1)) ∧
        z1[i * s1 + j]? = some (interp com.2 ((i : Rat) * v0 / s0, (j : Rat) * v1 / s1))) := by
  have hl : (points v0 v1 s0 s1).length = s0 * s1 := by
    unfold points
    simp [List.length_flatMap, Nat.mul_comm]
  have hz : ∀ z : List Rat, z.length = s0 * s1 → ∀ p < s0 * s1, |z.getD p 0 - (shifts z).getD p 0 - arrayMean z| ≤ 1 / 2 := by
    intro z hz p hp
    unfold shifts
    rw [getD_of_lt (by omega), getD_of_lt (by simp; omega), List.getElem_map]
    have := C108_round (z[p] - arrayMean z)
    rw [show z[p] - (round (z[p] - arrayMean z) : Rat) - arrayMean z = z[p] - arrayMean z - (round (z[p] - arrayMean z) : Rat) by ring]
    exact this
  have l0 : ((points v0 v1 s0 s1).map (interp com.1)).length = s0 * s1 := by rw [List.length_map, hl]
  have l1 : ((points v0 v1 s0 s1).map (interp com.2)).length = s0 * s1 := by rw [List.length_map, hl]
  obtain ⟨b, hb, _⟩ := centered_eq ha (x := shifts ((points v0 v1 s0 s1).map (interp com.1)))
    (y := shifts ((points v0 v1 s0 s1).map (interp com.2))) (by unfold shifts; rw [List.length_map, l0]) (by unfold shifts; rw [List.length_map, l1])
  refine ⟨b, _, _, _, _, ?_, hb, l0, l1, fun p hp => ⟨hz _ l0 p hp, hz _ l1 p hp⟩, ?_⟩
  · unfold experiment
    rw [ha.scan]
    exact hb
  · rintro rfl rfl hv i hi j hj
    have hp : (points v0 v0 s0 s0)[i * s0 + j]? = some ((i : Rat) * v0 / s0, (j : Rat) * v0 / s0) := by
      rw [points_get _ _ _ _ (by nlinarith)]
      have hs0 : (s0 : Rat) ≠ 0 := by exact_mod_cast (by omega : s0 ≠ 0)
      have hw0 : (v0 : Rat) ≠ 0 := by exact_mod_cast hv.ne'
      rw [Nat.add_comm, Nat.add_mul_div_right _ _ (by omega), Nat.div_eq_of_lt hj, Nat.add_mul_mod_self_right, Nat.mod_eq_of_lt hj]
      congr 2
      · simp only [Nat.zero_add]; field_simp
      · field_simp
    rw [List.getElem?_map, List.getElem?_map, hp]
    exact ⟨rfl, rfl⟩

/-- Two positions with two frames each; the centers of mass are (row, column) (1, 1/3) and (2, 2). -/
def vacuumSample : SparseArray := ⟨[[[0, 8], [5]], [[5, 15], [10]]], 2, [1, 2], [4, 4], true, false⟩

theorem vacuumSample_counted : Counted vacuumSample 1 2 4 4 := by
  refine ⟨⟨.inr rfl, rfl, ?_, ?_, ?_⟩, rfl, rfl, by simp [vacuumSample]⟩ <;> simp [vacuumSample, prod]

example : vacuum id vacuumSample none = .ok ⟨[[[1, 9], [6]], [[0, 10], [5]]], 2, [1, 2], [4, 4], true, false⟩ := by decide +kernel

example : centered vacuumSample [1, -2] [0, 3] = .ok ⟨[[[], [4]], [[], []]], 2, [1, 2], [4, 4], true, false⟩ := by decide +kernel

/-- The hypotheses of `C108_centered_partial`. -/
example : ∃ b, ∃ m n : Int, vacuum id vacuumSample none = .ok b ∧ ∀ p < 1 * 2, (eventsAt b p).length = (eventsAt vacuumSample p).length →
    ∀ c, centerOfMass 4 none none (eventsAt b p) = some c → |c.1 - m| ≤ 1 / 2 ∧ |c.2 - n| ≤ 1 / 2 :=
  C108_centered_partial vacuumSample 1 2 4 vacuumSample_counted (by omega) ⟨0, by omega, by decide⟩

example : round (5 / 2) = 2 ∧ round (-3 / 4) = -1 ∧ trunc (-3 / 4) = 0 := by decide +kernel

/-- The points for a scan of two rows and three columns, and a vacuum scan of the same shape. -/
example : points 2 3 2 3 = [(0, 0), (0, 1), (1, 0), (1, 1), (2, 0), (2, 1)] := by decide +kernel

end Stempy.Descan
