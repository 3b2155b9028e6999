import Verif.Props.Radial
import Verif.Props.SparseRadial
import Verif.Props.CountedArray

/-! C109: radial sums and annular STEM images of the same data. -/

namespace Stempy.Props.RadialAnnulus
open Stempy.Spec Stempy.Image Stempy.Sparse Stempy.PyImage Stempy.Numpy

/-- Sum of the pixels of a frame whose distance to the center is exactly `r`. -/
def circleSum (w h : Nat) (cx cy : Int) (r : Nat) (px : List Nat) : Nat :=
  ((List.range h).map fun y => ((List.range w).map fun x =>
    if dist2 cx cy x y = (r : Int) ^ 2 then px.getD (y * w + x) 0 else 0).sum).sum

/-- Number of the events whose distance to the center is exactly `r`. -/
def circleHits (w : Nat) (cx cy : Int) (r : Nat) (events : List Nat) : Nat :=
  events.countP fun e => decide (dist2 cx cy (e % w) (e / w) = (r : Int) ^ 2)

/-- Rings `a + 1` to `b` of a profile over the radii at one position: in Python `profile[a + 1:b + 1].sum()`. -/
def ringRange (mem : List Nat) (P p a b : Nat) : Nat :=
  ((List.range (b - a)).map fun i => mem.getD ((a + 1 + i) * P + p) 0).sum

/-- Bins `a` to `b - 1` of the radial sum at one position: in Python `radial_sum[..., a:b].sum()`. -/
def binRange (data : List Nat) (n p a b : Nat) : Nat :=
  ((List.range (b - a)).map fun i => data.getD (p * n + (a + i)) 0).sum

theorem sum_add {α : Type} (l : List α) (f g : α → Nat) :
    (l.map fun x => f x + g x).sum = (l.map f).sum + (l.map g).sum := by
  induction l with
  | nil => rfl
  | cons a l ih => simp only [List.map_cons, List.sum_cons, ih]; omega

theorem sq_cast_lt {a b : Nat} (h : a ≤ b) : (a : Int) ^ 2 ≤ (b : Int) ^ 2 ∧ (b : Int) ^ 2 < ((b + 1 : Nat) : Int) ^ 2 := by
  have h1 : (a : Int) ≤ b := by exact_mod_cast h
  have h0 : (0 : Int) ≤ a := by omega
  constructor
  · nlinarith
  · push_cast; nlinarith

/-- One more ring. -/
theorem rings_step (w h : Nat) (cx cy : Int) (px : List Nat) {a b : Nat} (hab : a ≤ b) :
    annulusSum w h a ((b + 1 : Nat) : Int) cx cy px + circleSum w h cx cy (b + 1) px =
      (annulusSum w h a b cx cy px + circleSum w h cx cy b px) + ringSum w h cx cy (b + 1) px := by
  obtain ⟨h1, h2⟩ := sq_cast_lt hab
  unfold annulusSum circleSum ringSum
  simp only [← sum_add]
  congr 1
  apply List.map_congr_left
  intro y _
  congr 1
  apply List.map_congr_left
  intro x _
  have e : (((b + 1 : Nat) : Int) - 1) = (b : Int) := by push_cast; omega
  have hn : ¬ (b + 1 = 0) := by omega
  have i1 : inAnnulus a ((b + 1 : Nat) : Int) cx cy x y ↔
      (a : Int) ^ 2 ≤ Spec.dist2 cx cy x y ∧ Spec.dist2 cx cy x y < ((b + 1 : Nat) : Int) ^ 2 := Iff.rfl
  have i2 : inAnnulus a b cx cy x y ↔ (a : Int) ^ 2 ≤ Spec.dist2 cx cy x y ∧ Spec.dist2 cx cy x y < (b : Int) ^ 2 := Iff.rfl
  have i3 : isRadius cx cy x y (b + 1) ↔
      Spec.dist2 cx cy x y ≤ ((b + 1 : Nat) : Int) ^ 2 ∧ (b : Int) ^ 2 < Spec.dist2 cx cy x y := by
    unfold isRadius
    rw [e]
    simp only [hn, false_or]
  simp only [i1, i2, i3]
  generalize Spec.dist2 cx cy x y = d at *
  generalize ((b + 1 : Nat) : Int) ^ 2 = B1 at *
  generalize (b : Int) ^ 2 = B at *
  generalize (a : Int) ^ 2 = A at *
  generalize px.getD (y * w + x) 0 = v
  split_ifs <;> omega

theorem rings (w h : Nat) (cx cy : Int) (px : List Nat) (a m : Nat) :
    ((List.range m).map fun i => ringSum w h cx cy (a + 1 + i) px).sum + circleSum w h cx cy a px =
      annulusSum w h a ((a + m : Nat) : Int) cx cy px + circleSum w h cx cy (a + m) px := by
  induction m with
  | zero =>
    have : annulusSum w h a ((a + 0 : Nat) : Int) cx cy px = 0 := by
      unfold annulusSum
      have : ∀ x y, ¬ inAnnulus a ((a + 0 : Nat) : Int) cx cy x y := by
        intro x y h
        unfold inAnnulus at h
        simp only [Nat.add_zero] at h
        omega
      simp only [if_neg (this _ _)]
      simp
    rw [this]
    simp
  | succ m ih =>
    have := rings_step w h cx cy px (a := a) (b := a + m) (by omega)
    rw [List.range_succ, List.map_append, List.sum_append]
    simp only [List.map_cons, List.map_nil, List.sum_cons, List.sum_nil]
    have e : a + 1 + m = a + m + 1 := by omega
    rw [e]
    have e2 : a + (m + 1) = a + m + 1 := by omega
    rw [e2]
    omega

theorem ringSum_le (w h : Nat) (cx cy : Int) (r : Nat) (px : List Nat) (hp : ∀ v ∈ px, v < 65536) :
    ringSum w h cx cy r px ≤ 65536 * (w * h) := by
  unfold ringSum
  have hs : ∀ (n k : Nat) (f : Nat → Nat), (∀ i, f i ≤ k) → ((List.range n).map f).sum ≤ k * n := by
    intro n k f hf
    induction n with
    | zero => simp
    | succ n ih =>
      rw [List.range_succ, List.map_append, List.sum_append]
      simp only [List.map_cons, List.map_nil, List.sum_cons, List.sum_nil]
      have := hf n
      rw [Nat.mul_succ]
      omega
  have hv : ∀ i, px.getD i 0 ≤ 65536 := by
    intro i
    rw [List.getD_eq_getElem?_getD]
    cases h : px[i]? with
    | none => simp
    | some v => have := hp v (List.mem_of_getElem? h); simp; omega
  have := hs h (65536 * w) (fun y => ((List.range w).map fun x =>
    if isRadius cx cy x y r then px.getD (y * w + x) 0 else 0).sum) (by
      intro y
      apply hs
      intro x
      split_ifs
      · exact hv _
      · omega)
  calc _ ≤ 65536 * w * h := this
    _ = 65536 * (w * h) := by ring

theorem single_sum (l : List Frame) (p : Nat) (px : List Nat) (g : List Nat → Nat)
    (h : l.filter (fun f => f.1 = p) = [(p, px)]) : (l.map fun f => if f.1 = p then g f.2 else 0).sum = g px := by
  have : ∀ l : List Frame, (l.map fun f => if f.1 = p then g f.2 else 0).sum =
      ((l.filter (fun f => f.1 = p)).map fun f => g f.2).sum := by
    intro l
    induction l with
    | nil => rfl
    | cons a l ih =>
      by_cases ha : a.1 = p
      · simp [ha, ih]
      · simp [ha, ih]
  rw [this, h]
  simp

/-- **C109** (raw frames, C++): in every execution of both functions with the same frames and center, at a position with one
frame, rings `a + 1` to `b` of the radial sum together with the pixels on the inner circle are the STEM image for the radii
`(a, b)` together with the pixels on the outer circle. -/
theorem C109_dense {w h W H : Nat} {bs : List (List Frame)} {inner outer : List Int} {cx cy : Int}
    (okd : DenseOK w h W H bs inner outer cx cy) (okr : RadialOK w h W H bs cx cy) (hs : Nat × Nat)
    {s : Outcome (List (List Nat))} (hd : DenseRun (bs.map (mkBlock hs (w, h))) inner outer (W, H) (cx, cy) s)
    {r : Outcome (Nat × List Nat)} (hr : RadialRun (bs.map (mkBlock hs (w, h))) (W, H) (cx, cy) r) :
    ∃ images radii mem, s = .ok images ∧ r = .ok (radii, mem) ∧
      ∀ (k a b : Nat), (inner.zip outer)[k]? = some ((a : Int), (b : Int)) → a ≤ b → b < radii →
        ∀ p < W * H, ∀ px, bs.flatten.filter (fun f => f.1 = p) = [(p, px)] →
          ∃ v, pixelAt images k p = some v ∧
            ringRange mem (W * H) p a b + circleSum w h (effCenter w cx) (effCenter h cy) a px =
              v + circleSum w h (effCenter w cx) (effCenter h cy) b px := by
  obtain ⟨images, rfl, _, _, h1⟩ := C02_dense okd hs hd
  obtain ⟨radii, mem, rfl, _, _, h2⟩ := C08_radial hs okr hr
  refine ⟨images, radii, mem, rfl, rfl, ?_⟩
  intro k a b hk hab hb p hp px hpx
  refine ⟨_, (h1 k a b hk p hp).1 px hpx, ?_⟩
  have hmem : ∀ v ∈ px, v < 65536 := by
    have hin : (p, px) ∈ bs.flatten.filter (fun f => f.1 = p) := by rw [hpx]; simp
    obtain ⟨fs, hfs, hf⟩ := List.mem_flatten.1 (List.mem_filter.1 hin).1
    exact (okd.stack fs hfs).px _ hf
  have hring : ∀ i < b - a, mem.getD ((a + 1 + i) * (W * H) + p) 0 =
      ringSum w h (effCenter w cx) (effCenter h cy) (a + 1 + i) px := by
    intro i hi
    rw [List.getD_eq_getElem?_getD, h2 (a + 1 + i) p (by omega) hp,
      single_sum _ p px (ringSum w h (effCenter w cx) (effCenter h cy) (a + 1 + i)) hpx]
    have := ringSum_le w h (effCenter w cx) (effCenter h cy) (a + 1 + i) px hmem
    have := okr.size
    rw [Option.getD_some, Nat.mod_eq_of_lt (by omega)]
  have he : ringRange mem (W * H) p a b =
      ((List.range (b - a)).map fun i => ringSum w h (effCenter w cx) (effCenter h cy) (a + 1 + i) px).sum := by
    unfold ringRange
    congr 1
    apply List.map_congr_left
    intro i hi
    exact hring i (List.mem_range.1 hi)
  rw [he, rings, show a + (b - a) = b by omega]

/-- **C109** (raw frames): the rings give the STEM image if and only if the pixels on the two circles have the same sum. -/
theorem C109_dense_iff {w h W H : Nat} {bs : List (List Frame)} {inner outer : List Int} {cx cy : Int}
    (okd : DenseOK w h W H bs inner outer cx cy) (okr : RadialOK w h W H bs cx cy) (hs : Nat × Nat)
    {images : List (List Nat)} (hd : DenseRun (bs.map (mkBlock hs (w, h))) inner outer (W, H) (cx, cy) (.ok images))
    {radii : Nat} {mem : List Nat} (hr : RadialRun (bs.map (mkBlock hs (w, h))) (W, H) (cx, cy) (.ok (radii, mem)))
    (k a b : Nat) (hk : (inner.zip outer)[k]? = some ((a : Int), (b : Int))) (hab : a ≤ b) (hb : b < radii)
    (p : Nat) (hp : p < W * H) (px : List Nat) (hpx : bs.flatten.filter (fun f => f.1 = p) = [(p, px)]) :
    pixelAt images k p = some (ringRange mem (W * H) p a b) ↔
      circleSum w h (effCenter w cx) (effCenter h cy) a px = circleSum w h (effCenter w cx) (effCenter h cy) b px := by
  obtain ⟨images', radii', mem', h1, h2, h3⟩ := C109_dense okd okr hs hd hr
  cases h1
  cases h2
  obtain ⟨v, hv, he⟩ := h3 k a b hk hab hb p hp px hpx
  rw [hv, Option.some.injEq]
  omega

/-! ### Sparse data -/

theorem eventDist2_int (w : Nat) (cx cy : Int) (e : Nat) :
    eventDist2 w ((cy : Rat), (cx : Rat)) e = ((dist2 cx cy (e % w) (e / w) : Int) : Rat) := by
  unfold eventDist2 Spec.dist2
  generalize e % w = x
  generalize e / w = y
  push_cast
  ring

theorem inBin_int (n k : Nat) (d : Int) :
    inBin n k (d : Rat) = decide ((k : Int) ^ 2 ≤ d ∧ (d < ((k + 1 : Nat) : Int) ^ 2 ∨ (k + 1 = n ∧ d = ((k + 1 : Nat) : Int) ^ 2))) := by
  unfold inBin
  have h1 : ((k : Rat) ^ 2 ≤ (d : Rat)) ↔ ((k : Int) ^ 2 ≤ d) := by exact_mod_cast Iff.rfl
  have h2 : ((d : Rat) < ((k + 1 : Nat) : Rat) ^ 2) ↔ (d < ((k + 1 : Nat) : Int) ^ 2) := by exact_mod_cast Iff.rfl
  have h3 : ((d : Rat) = ((k + 1 : Nat) : Rat) ^ 2) ↔ (d = ((k + 1 : Nat) : Int) ^ 2) := by exact_mod_cast Iff.rfl
  simp only [h1, h2, h3]

/-- Bins `a` to `a + m - 1` of `n`. -/
theorem bins (n w : Nat) (cx cy : Int) (ev : List Nat) (a m : Nat) (h : a + m ≤ n) :
    ((List.range m).map fun i => ev.countP fun e => inBin n (a + i) (eventDist2 w ((cy : Rat), (cx : Rat)) e)).sum =
      annulusHits w a ((a + m : Nat) : Int) cx cy ev +
        if 0 < m ∧ a + m = n then circleHits w cx cy n ev else 0 := by
  induction m with
  | zero =>
    have : annulusHits w a ((a + 0 : Nat) : Int) cx cy ev = 0 := by
      unfold annulusHits
      rw [List.countP_eq_zero]
      intro e _
      rw [decide_eq_true_iff]
      unfold inAnnulus
      simp only [Nat.add_zero]
      omega
    rw [this]
    simp
  | succ m ih =>
    rw [List.range_succ, List.map_append, List.sum_append, ih (by omega)]
    simp only [List.map_cons, List.map_nil, List.sum_cons, List.sum_nil]
    rw [if_neg (by omega)]
    obtain ⟨h1, h2⟩ := sq_cast_lt (a := a) (b := a + m) (by omega)
    have e2 : a + (m + 1) = a + m + 1 := by omega
    rw [e2]
    simp only [eventDist2_int, inBin_int]
    have hann : annulusHits w a ((a + m + 1 : Nat) : Int) cx cy ev = annulusHits w a ((a + m : Nat) : Int) cx cy ev +
        ev.countP fun e => decide (((a + m : Nat) : Int) ^ 2 ≤ dist2 cx cy (e % w) (e / w) ∧
          dist2 cx cy (e % w) (e / w) < ((a + m + 1 : Nat) : Int) ^ 2) := by
      unfold annulusHits
      apply countP_split
      intro e _
      simp only [decide_eq_true_iff]
      unfold inAnnulus
      generalize Spec.dist2 cx cy (e % w) (e / w) = d
      generalize ((a + m + 1 : Nat) : Int) ^ 2 = B1 at *
      generalize ((a + m : Nat) : Int) ^ 2 = B at *
      generalize (a : Int) ^ 2 = A at *
      constructor <;> omega
    by_cases hn : a + m + 1 = n
    · rw [if_pos ⟨by omega, hn⟩, hann]
      have hb : (ev.countP fun e => decide (((a + m : Nat) : Int) ^ 2 ≤ dist2 cx cy (e % w) (e / w) ∧
          (dist2 cx cy (e % w) (e / w) < ((a + m + 1 : Nat) : Int) ^ 2 ∨
            (a + m + 1 = n ∧ dist2 cx cy (e % w) (e / w) = ((a + m + 1 : Nat) : Int) ^ 2)))) =
          (ev.countP fun e => decide (((a + m : Nat) : Int) ^ 2 ≤ dist2 cx cy (e % w) (e / w) ∧
            dist2 cx cy (e % w) (e / w) < ((a + m + 1 : Nat) : Int) ^ 2)) + circleHits w cx cy n ev := by
        unfold circleHits
        apply countP_split
        intro e _
        rw [← hn]
        simp only [decide_eq_true_iff, true_and]
        omega
      rw [hb]
      omega
    · rw [if_neg (by omega), hann]
      have hb : (ev.countP fun e => decide (((a + m : Nat) : Int) ^ 2 ≤ dist2 cx cy (e % w) (e / w) ∧
          (dist2 cx cy (e % w) (e / w) < ((a + m + 1 : Nat) : Int) ^ 2 ∨
            (a + m + 1 = n ∧ dist2 cx cy (e % w) (e / w) = ((a + m + 1 : Nat) : Int) ^ 2)))) =
          (ev.countP fun e => decide (((a + m : Nat) : Int) ^ 2 ≤ dist2 cx cy (e % w) (e / w) ∧
            dist2 cx cy (e % w) (e / w) < ((a + m + 1 : Nat) : Int) ^ 2)) := by
        simp only [hn, false_and, or_false]
      rw [hb]
      omega

theorem radial_data {a : SparseArray} {H W w : Nat} (ha : WF a) (hs : a.scanShape = [H, W]) (hf : a.frameShape = [w, w]) (c : Rat × Rat) :
    ∃ r, radialSumSparse a c = .ok r ∧ r.shape = [H, W, w / 2] ∧ ∀ p < H * W, ∀ j < w / 2, r.flat.getD (p * (w / 2) + j) 0 =
      (eventsAt a p).countP fun e => inBin (w / 2) j (eventDist2 w c e) := by
  have h := C52_bins a H W w w ha hs hf c
  rw [Nat.max_self] at h
  refine ⟨_, h, rfl, ?_⟩
  intro p hp j hj
  generalize w / 2 = n at *
  simp only [flatMap_range']
  have hlt : p * n + j < H * W * n := by
    have := Nat.mul_le_mul_right n (show p + 1 ≤ H * W by omega)
    rw [Nat.succ_mul] at this
    omega
  rw [List.getD_eq_getElem?_getD, List.getElem?_map, List.getElem?_range hlt, Option.map_some, Option.getD_some]
  have h1 : (p * n + j) / n = p := by rw [Nat.mul_comm, Nat.mul_add_div (by omega), Nat.div_eq_of_lt hj, Nat.add_zero]
  have h2 : (p * n + j) % n = j := by rw [Nat.mul_comm, Nat.mul_add_mod, Nat.mod_eq_of_lt hj]
  rw [h1, h2]

/-- **C109** (sparse data): for square frames, with the center given to `radial_sum_sparse` as (row, column) and to
`create_stem_images` as (column, row), bins `a` to `b - 1` of the radial sum are the STEM image for the radii `(a, b)` (each
event counts 65535 in the image); only the last bin contains the events on its outer circle, too. -/
theorem C109_sparse (a : SparseArray) (H W w : Nat) (ha : WF a) (hs : a.scanShape = [H, W]) (hf : a.frameShape = [w, w])
    {inner outer : List Int} {cx cy : Int} (ok : SparseOK w w W H a.data inner outer cx cy)
    (hsmall : ∀ p, (eventsAt a p).length < 2 ^ 48) :
    ∃ r images, radialSumSparse a ((effCenter w cy : Int), (effCenter w cx : Int)) = .ok r ∧ r.shape = [H, W, w / 2] ∧
      createStemImages ⟨a, none⟩ inner outer (cx, cy) = .ok images ∧
      ∀ (k i o : Nat), (inner.zip outer)[k]? = some ((i : Int), (o : Int)) → i ≤ o → o ≤ w / 2 → ∀ p < H * W,
        ∃ v, pixelAt images k p = some v ∧ 65535 * binRange r.flat (w / 2) p i o =
          v + 65535 * (if i < o ∧ o = w / 2 then circleHits w (effCenter w cx) (effCenter w cy) (w / 2) (eventsAt a p) else 0) := by
  obtain ⟨r, hr, hsh, hbins⟩ := radial_data ha hs hf (((effCenter w cy : Int) : Rat), ((effCenter w cx : Int) : Rat))
  obtain ⟨images, himg, _, _, _⟩ := C03_sparse ok
  refine ⟨r, images, hr, hsh, ?_, ?_⟩
  · unfold createStemImages
    rw [hs, hf]
    exact himg
  · intro k i o hk hio ho p hp
    have hlen : p < a.data.length := by rw [ha.length, hs]; simpa [prod] using hp
    have hev : eventsAt a p = (a.data[p]).flatten := by
      unfold eventsAt
      rw [List.getD_eq_getElem?_getD, List.getElem?_eq_getElem hlen, Option.getD_some]
    refine ⟨_, C03_sparse_exact ok himg hk (List.getElem?_eq_getElem hlen) (by rw [← hev]; exact hsmall p), ?_⟩
    rw [← hev]
    have hb := bins (w / 2) w (effCenter w cx) (effCenter w cy) (eventsAt a p) i (o - i) (by omega)
    have he : binRange r.flat (w / 2) p i o = ((List.range (o - i)).map fun j => (eventsAt a p).countP fun e =>
        inBin (w / 2) (i + j) (eventDist2 w (((effCenter w cy : Int) : Rat), ((effCenter w cx : Int) : Rat)) e)).sum := by
      unfold binRange
      congr 1
      apply List.map_congr_left
      intro j hj
      have := List.mem_range.1 hj
      exact hbins p hp (i + j) (by omega)
    rw [he, hb, show i + (o - i) = o by omega]
    by_cases hc : i < o ∧ o = w / 2
    · rw [if_pos hc, if_pos ⟨by omega, hc.2⟩]
      ring
    · rw [if_neg hc, if_neg (by omega)]
      ring

/-- One event in a scan of one position. -/
def oneEvent (w e : Nat) : SparseArray := ⟨[[[e]]], 1, [1, 1], [w, w], true, false⟩

theorem oneEvent_wf {w e : Nat} (h : e < w * w) : WF (oneEvent w e) := by
  refine ⟨Or.inr rfl, rfl, ?_, ?_, ?_⟩
  · intro row hr; have : row = [[e]] := by simpa [oneEvent] using hr
    subst this; rfl
  · intro row hr fr hfr e' he'
    have : row = [[e]] := by simpa [oneEvent] using hr
    subst this
    have : fr = [e] := by simpa using hfr
    subst this
    have : e' = e := by simpa using he'
    subst this
    simpa [oneEvent, prod] using h
  · intro row hr fr hfr
    have : row = [[e]] := by simpa [oneEvent] using hr
    subst this
    have : fr = [e] := by simpa using hfr
    subst this
    simp

theorem geometry_of_small {w i o : Nat} {cx cy : Int} (hw : w < 2 ^ 15) (hx : cx < w) (hy : cy < w) (hi : i ≤ o) (ho : o ≤ w) :
    GeometryOK w w i o cx cy := by
  have h1 : w * w < 2 ^ 15 * 2 ^ 15 := Nat.mul_lt_mul'' hw hw
  have sq : ∀ n : Nat, n ≤ w → ((n : Int)) ^ 2 < 2 ^ 31 := by
    intro n hn
    have h2 : n * n ≤ w * w := Nat.mul_le_mul hn hn
    have h3 : n * n < 2 ^ 31 := by omega
    rw [pow_two]
    exact_mod_cast h3
  exact ⟨by omega, by omega, by omega, sq i (by omega), sq o ho, by omega, by omega⟩

/-- **C109** (center of the notebooks): with the same pair of numbers for both functions, bins `i` to `o - 1` give the STEM image
for all data and all radii if and only if row and column of the center are the same. -/
theorem C109_same_pair_iff (w : Nat) (hw : 4 ≤ w) (hw2 : w < 2 ^ 15) (cx cy : Nat) (hx : cx < w) (hy : cy < w) :
    (∀ (a : SparseArray) (H W : Nat), WF a → a.scanShape = [H, W] → a.frameShape = [w, w] → W * H < 2 ^ 32 →
      (∀ p, (eventsAt a p).length < 2 ^ 48) → ∀ i o : Nat, i ≤ o → o < w / 2 →
        ∃ r images, radialSumSparse a ((cx : Rat), (cy : Rat)) = .ok r ∧
          createStemImages ⟨a, none⟩ [(i : Int)] [(o : Int)] ((cx : Int), (cy : Int)) = .ok images ∧
          ∀ p < H * W, pixelAt images 0 p = some (65535 * binRange r.flat (w / 2) p i o)) ↔ cx = cy := by
  have eff : ∀ n : Nat, effCenter w (n : Int) = (n : Int) := by
    intro n
    unfold effCenter
    rw [if_neg (by omega)]
  have sok : ∀ (a : SparseArray) (H W : Nat), WF a → a.scanShape = [H, W] → a.frameShape = [w, w] → W * H < 2 ^ 32 →
      ∀ i o : Nat, i ≤ o → o < w / 2 → SparseOK w w W H a.data [(i : Int)] [(o : Int)] (cx : Int) (cy : Int) := by
    intro a H W ha hs hf hP i o hi ho
    refine ⟨by simp, rfl, ?_, hP, ?_, ?_⟩
    · intro r hr
      have : r = ((i : Int), (o : Int)) := by simpa using hr
      subst this
      exact geometry_of_small hw2 (by exact_mod_cast hx) (by exact_mod_cast hy) hi (by omega)
    · rw [ha.length, hs]; simp [prod, Nat.mul_comm]
    · intro row hr fr hfr e he
      have := ha.lt row hr fr hfr e he
      rw [hf] at this
      simpa [prod] using this
  constructor
  · intro hall
    have he : cy * w + cx < w * w := by
      have := Nat.mul_le_mul_right w (show cy + 1 ≤ w by omega)
      rw [Nat.succ_mul] at this
      omega
    have hwf := oneEvent_wf he
    have hlen : ∀ p, (eventsAt (oneEvent w (cy * w + cx)) p).length < 2 ^ 48 := by
      intro p
      rcases p with _ | p <;> simp [eventsAt, oneEvent]
    obtain ⟨r, images, h1, h2, h3⟩ := hall _ 1 1 hwf rfl rfl (by norm_num) hlen 0 1 (by omega) (by omega)
    obtain ⟨r', h1', _, h4⟩ := radial_data hwf rfl rfl ((cx : Rat), (cy : Rat))
    rw [h1] at h1'
    cases h1'
    have hp := h3 0 (by omega)
    have hst := C03_sparse_exact (sok _ 1 1 hwf rfl rfl (by norm_num) 0 1 (by omega) (by omega)) (p := 0)
      (frames := [[cy * w + cx]]) (k := 0) (a := 0) (b := 1) (images := images) h2 rfl rfl (by simp)
    rw [hst] at hp
    have hb := h4 0 (by omega) 0 (by omega)
    have hev : eventsAt (oneEvent w (cy * w + cx)) 0 = [cy * w + cx] := rfl
    have hd : (cy * w + cx) / w = cy := by
      rw [Nat.mul_comm, Nat.mul_add_div (by omega), Nat.div_eq_of_lt hx, Nat.add_zero]
    have hm : (cy * w + cx) % w = cx := by rw [Nat.mul_comm, Nat.mul_add_mod, Nat.mod_eq_of_lt hx]
    have hhit : annulusHits w 0 1 (effCenter w cx) (effCenter w cy) [[cy * w + cx]].flatten = 1 := by
      rw [eff, eff]
      unfold annulusHits
      rw [List.countP_eq_length.2]
      · rfl
      · intro e he
        have : e = cy * w + cx := by simpa using he
        subst this
        rw [decide_eq_true_iff, hd, hm]
        unfold inAnnulus Spec.dist2
        constructor <;> simp
    rw [hhit] at hp
    have hbin : binRange r.flat (w / 2) 0 0 1 = r.flat.getD (0 * (w / 2) + 0) 0 := by simp [binRange]
    rw [hbin, hb, hev] at hp
    by_contra hne
    have hdist : eventDist2 w ((cx : Rat), (cy : Rat)) (cy * w + cx) = ((Spec.dist2 cy cx cx cy : Int) : Rat) := by
      have := eventDist2_int w (cy : Int) (cx : Int) (cy * w + cx)
      rw [hd, hm] at this
      exact_mod_cast this
    have hpos : 1 ≤ Spec.dist2 (cy : Int) (cx : Int) cx cy := by
      unfold Spec.dist2
      have : ((cx : Int) - cy) ≠ 0 := by omega
      have h5 : 0 < ((cx : Int) - cy) ^ 2 := by positivity
      have h6 : 0 ≤ ((cy : Int) - cx) ^ 2 := by positivity
      omega
    have hfalse : inBin (w / 2) 0 (eventDist2 w ((cx : Rat), (cy : Rat)) (cy * w + cx)) = false := by
      rw [hdist, inBin_int, decide_eq_false_iff_not]
      rintro ⟨_, h | h⟩
      · simp at h; omega
      · omega
    rw [List.countP_cons, hfalse] at hp
    simp at hp
  · rintro rfl a H W ha hs hf hP hsm i o hi ho
    obtain ⟨r, images, h1, _, h2, h3⟩ := C109_sparse a H W w ha hs hf (sok a H W ha hs hf hP i o hi ho) hsm
    rw [eff] at h1
    refine ⟨r, images, by exact_mod_cast h1, h2, ?_⟩
    intro p hp
    obtain ⟨v, hv, h4⟩ := h3 0 i o rfl hi (by omega) p hp
    rw [if_neg (by omega)] at h4
    rw [hv, h4]
    simp

/-- The frame of the counterexample. -/
def sampleFrames : List (List Frame) := [[(0, [5, 7, 1])]]

theorem sample_dense : DenseOK 3 1 1 1 sampleFrames [0] [1] 0 0 := by
  constructor
  · simp [sampleFrames]
  · simp
  · rfl
  · intro r hr
    have : r = (0, 1) := by simpa using hr
    subst this
    constructor <;> norm_num
  · norm_num
  · norm_num
  · norm_num
  · norm_num
  · intro fs hfs
    have : fs = [(0, [5, 7, 1])] := by simpa [sampleFrames] using hfs
    subst this
    constructor <;> simp

theorem sample_radial : RadialOK 3 1 1 1 sampleFrames 0 0 := by
  constructor
  · simp [sampleFrames]
  · norm_num
  · norm_num
  · norm_num
  · norm_num
  · norm_num
  · norm_num
  · decide +kernel
  · intro fs hfs f hf
    have : fs = [(0, [5, 7, 1])] := by simpa [sampleFrames] using hfs
    subst this
    have : f = (0, [5, 7, 1]) := by simpa using hf
    subst this
    rfl
  · intro fs hfs f hf
    have : fs = [(0, [5, 7, 1])] := by simpa [sampleFrames] using hfs
    subst this
    have : f = (0, [5, 7, 1]) := by simpa using hf
    subst this
    norm_num

/-- **C109 is violated** for raw frames: a pixel at distance 1 of the center belongs to the ring of radius 1, but not to the STEM
image for the radii (0, 1), and the pixel in the center belongs to the image, but not to the ring. -/
theorem C109_dense_false (s : Outcome (List (List Nat))) (r : Outcome (Nat × List Nat))
    (hd : DenseRun (sampleFrames.map (mkBlock (1, 1) (3, 1))) [0] [1] (1, 1) (0, 0) s)
    (hr : RadialRun (sampleFrames.map (mkBlock (1, 1) (3, 1))) (1, 1) (0, 0) r) :
    ∃ images radii mem, s = .ok images ∧ r = .ok (radii, mem) ∧ 1 < radii ∧
      pixelAt images 0 0 = some 5 ∧ ringRange mem 1 0 0 1 = 7 := by
  obtain ⟨images, rfl, _, _, h1⟩ := C02_dense sample_dense (1, 1) hd
  obtain ⟨radii, mem, rfl, _, h3, h2⟩ := C08_radial (1, 1) sample_radial hr
  have h4 : 1 < radii := by
    obtain ⟨rr, hlt, hrad⟩ := h3 1 0 (by omega) (by omega)
    have : rr ≠ 0 := by
      rintro rfl
      revert hrad
      decide
    omega
  refine ⟨images, radii, mem, rfl, rfl, h4, ?_, ?_⟩
  · rw [(h1 0 0 1 rfl 0 (by omega)).1 [5, 7, 1] rfl]
    decide
  · unfold ringRange
    have := h2 1 0 h4 (by omega)
    simp only [Nat.reduceMul, Nat.add_zero] at this
    simp [this]
    decide

example : ∃ s, DenseRun (sampleFrames.map (mkBlock (1, 1) (3, 1))) [0] [1] (1, 1) (0, 0) s :=
  C02_run_exists sample_dense (1, 1)

example : ∃ r, RadialRun (sampleFrames.map (mkBlock (1, 1) (3, 1))) (1, 1) (0, 0) r :=
  ⟨_, _, Interleave.sequential _, rfl⟩

/-- A position with two events, one of them on the outer circle of the last bin (radius 2). -/
def sampleArray : SparseArray := ⟨[[[5, 7], [5]]], 2, [1, 1], [4, 4], true, false⟩

example : WF sampleArray ∧ SparseOK 4 4 1 1 sampleArray.data [0, 1] [1, 2] 1 1 := by
  refine ⟨⟨Or.inr rfl, rfl, by decide, by decide, by decide⟩, ⟨by simp, rfl, ?_, by norm_num, rfl, by decide⟩⟩
  intro r hr
  have : r = (0, 1) ∨ r = (1, 2) := by simpa using hr
  rcases this with h | h <;> subst h <;> constructor <;> norm_num

/-- The last bin contains the event on its outer circle, which is not in the STEM image. -/
theorem C109_last_bin_false :
    radialSumSparse sampleArray (1, 1) = .ok ⟨[1, 1, 2], [2, 1]⟩ ∧
      createStemImages ⟨sampleArray, none⟩ [0, 1] [1, 2] (1, 1) = .ok [[131070], [0]] := by
  constructor <;> decide +kernel

end Stempy.Props.RadialAnnulus
