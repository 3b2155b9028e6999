import Verif.Props.RadialAnnulus
import Verif.Props.DarkField
import Verif.Props.SparseReduce

/-! C110: different functions for the same image of sparse data. -/

namespace Stempy.Props.SameImages
open Stempy.Spec Stempy.Image Stempy.Sparse Stempy.PyImage Stempy.Numpy Stempy.Props.RadialAnnulus

theorem inside_int (w cx cy r e : Nat) :
    inside w ((cx : Rat), (cy : Rat), (r : Rat)) e = decide (0 < r ∧ Spec.dist2 cx cy (e % w) (e / w) < (r : Int) ^ 2) := by
  unfold inside
  have h := eventDist2_int w (cx : Int) (cy : Int) e
  have h1 : eventDist2 w ((cy : Rat), (cx : Rat)) e = ((Spec.dist2 cx cy (e % w) (e / w) : Int) : Rat) := by exact_mod_cast h
  simp only [h1]
  have h2 : ((0 : Rat) < (r : Rat)) ↔ 0 < r := by exact_mod_cast Iff.rfl
  have h3 : (((Spec.dist2 cx cy (e % w) (e / w) : Int) : Rat) < (r : Rat) ^ 2) ↔
      Spec.dist2 cx cy (e % w) (e / w) < (r : Int) ^ 2 := by exact_mod_cast Iff.rfl
  simp only [h2, h3]

/-- The annulus is the larger disc without the smaller one. -/
theorem annulus_discs (w cx cy i o : Nat) (hio : i ≤ o) (ev : List Nat) :
    ev.countP (inside w ((cx : Rat), (cy : Rat), (o : Rat))) =
      annulusHits w i o cx cy ev + ev.countP (inside w ((cx : Rat), (cy : Rat), (i : Rat))) := by
  unfold annulusHits
  apply countP_split
  intro e _
  have hd : 0 ≤ Spec.dist2 cx cy (e % w) (e / w) := by unfold Spec.dist2; positivity
  rw [inside_int, inside_int]
  simp only [decide_eq_true_iff]
  unfold inAnnulus
  obtain ⟨h1, _⟩ := sq_cast_lt hio
  generalize Spec.dist2 cx cy (e % w) (e / w) = d at *
  have h0 : i = 0 → (i : Int) ^ 2 = 0 := by rintro rfl; norm_num
  have h0' : o = 0 → (o : Int) ^ 2 = 0 := by rintro rfl; norm_num
  generalize (i : Int) ^ 2 = I at *
  generalize (o : Int) ^ 2 = O at *
  constructor <;> omega

theorem darkfield_one {a : SparseArray} {H W w : Nat} (ha : Counted a H W w w) (hw : w ≤ 32768) (cx cy : Nat) (hx : cx ≤ 32768)
    (hy : cy ≤ 32768) (r : Rat) :
    ∃ img, virtualDarkfield a [.int cx] [.int cy] [r] = .ok ⟨[H, W], img⟩ ∧ ∀ p < H * W,
      img[p]? = some ((eventsAt a p).countP (inside w ((cx : Rat), (cy : Rat), r))) := by
  obtain ⟨img, h1, _, h2⟩ := C51_darkfield_partial a H W w ha hw [.int cx] [.int cy] [r]
    (by intro c hc; have : c = .int cx := by simpa using hc
        subst this; exact hx)
    (by intro c hc; have : c = .int cy := by simpa using hc
        subst this; exact hy)
  rw [ha.scan] at h1
  refine ⟨img, h1, ?_⟩
  intro p hp
  rw [h2 p hp]
  simp [apertures, PyImage.Num.val]

theorem eff_nat (w n : Nat) : effCenter w (n : Int) = (n : Int) := by
  unfold effCenter
  rw [if_neg (by omega)]

theorem sparse_ok {a : SparseArray} {H W w i o cx cy : Nat} (ha : WF a) (hs : a.scanShape = [H, W]) (hf : a.frameShape = [w, w])
    (hw : w < 2 ^ 15) (hP : W * H < 2 ^ 32) (hx : cx < w) (hy : cy < w) (hio : i ≤ o) (ho : o ≤ w) :
    SparseOK w w W H a.data [(i : Int)] [(o : Int)] (cx : Int) (cy : Int) := by
  refine ⟨by simp, rfl, ?_, hP, ?_, ?_⟩
  · intro r hr
    have : r = ((i : Int), (o : Int)) := by simpa using hr
    subst this
    exact geometry_of_small hw (by exact_mod_cast hx) (by exact_mod_cast hy) hio ho
  · rw [ha.length, hs]; simp [prod, Nat.mul_comm]
  · intro row hr fr hfr e he
    have := ha.lt row hr fr hfr e he
    rw [hf] at this
    simpa [prod] using this

/-- The STEM image of a sparse array with square frames. -/
theorem stem_one {a : SparseArray} {H W w i o cx cy : Nat} (ha : WF a) (hs : a.scanShape = [H, W]) (hf : a.frameShape = [w, w])
    (hw : w < 2 ^ 15) (hP : W * H < 2 ^ 32) (hx : cx < w) (hy : cy < w) (hio : i ≤ o) (ho : o ≤ w)
    (hsmall : ∀ p, (eventsAt a p).length < 2 ^ 48) :
    ∃ images, createStemImages ⟨a, none⟩ [(i : Int)] [(o : Int)] ((cx : Int), (cy : Int)) = .ok images ∧ ∀ p < H * W,
      pixelAt images 0 p = some (65535 * annulusHits w i o cx cy (eventsAt a p)) := by
  have ok := sparse_ok ha hs hf hw hP hx hy hio ho
  obtain ⟨images, himg, _, _, _⟩ := C03_sparse ok
  refine ⟨images, by unfold createStemImages; rw [hs, hf]; exact himg, ?_⟩
  intro p hp
  have hlen : p < a.data.length := by rw [ha.length, hs]; simpa [prod] using hp
  have hev : eventsAt a p = (a.data[p]).flatten := by
    unfold eventsAt
    rw [List.getD_eq_getElem?_getD, List.getElem?_eq_getElem hlen, Option.getD_some]
  have := C03_sparse_exact ok himg (k := 0) (a := i) (b := o) rfl (List.getElem?_eq_getElem hlen) (by rw [← hev]; exact hsmall p)
  rw [this, ← hev, eff_nat, eff_nat]

/-- **C110** (apertures): the virtual dark field of an aperture of the radius `o`, without that of the radius `i`, is the STEM image
for the radii `(i, o)` around the same point, where each event counts 65535. -/
theorem C110_apertures (a : SparseArray) (H W w : Nat) (ha : Counted a H W w w) (hw : w < 2 ^ 15) (hP : W * H < 2 ^ 32)
    (cx cy i o : Nat) (hx : cx < w) (hy : cy < w) (hio : i ≤ o) (ho : o ≤ w) (hsmall : ∀ p, (eventsAt a p).length < 2 ^ 48) :
    ∃ big small images, virtualDarkfield a [.int cx] [.int cy] [(o : Rat)] = .ok ⟨[H, W], big⟩ ∧
      virtualDarkfield a [.int cx] [.int cy] [(i : Rat)] = .ok ⟨[H, W], small⟩ ∧
      createStemImages ⟨a, none⟩ [(i : Int)] [(o : Int)] ((cx : Int), (cy : Int)) = .ok images ∧
      ∀ p < H * W, ∃ b s v, big[p]? = some b ∧ small[p]? = some s ∧ pixelAt images 0 p = some v ∧ v + 65535 * s = 65535 * b := by
  obtain ⟨big, h1, h2⟩ := darkfield_one ha (by omega) cx cy (by omega) (by omega) (o : Rat)
  obtain ⟨small, h3, h4⟩ := darkfield_one ha (by omega) cx cy (by omega) (by omega) (i : Rat)
  obtain ⟨images, h5, h6⟩ := stem_one ha.wf ha.scan ha.frame hw hP hx hy hio ho hsmall
  refine ⟨big, small, images, h1, h3, h5, ?_⟩
  intro p hp
  refine ⟨_, _, _, h2 p hp, h4 p hp, h6 p hp, ?_⟩
  rw [annulus_discs w cx cy i o hio]
  ring

/-- **C110** (documentation of `virtual_darkfield`): the documentation says that `centers_x` are rows and `centers_y` columns. The
image has the events around that point, for all data and radii, if and only if row and column are the same. -/
theorem C110_rows_iff (w : Nat) (hw : w < 2 ^ 15) (x y : Nat) (hx : x < w) (hy : y < w) :
    (∀ (a : SparseArray) (H W : Nat), Counted a H W w w → ∀ r : Nat,
      ∃ img, virtualDarkfield a [.int x] [.int y] [(r : Rat)] = .ok ⟨[H, W], img⟩ ∧ ∀ p < H * W, img[p]? =
        some ((eventsAt a p).countP fun e => decide (0 < r ∧ ((e / w : Nat) - (x : Int)) ^ 2 + ((e % w : Nat) - (y : Int)) ^ 2 < (r : Int) ^ 2))) ↔
      x = y := by
  constructor
  · intro hall
    have he : y * w + x < w * w := by
      have := Nat.mul_le_mul_right w (show y + 1 ≤ w by omega)
      rw [Nat.succ_mul] at this
      omega
    have hc : Counted (oneEvent w (y * w + x)) 1 1 w w := ⟨oneEvent_wf he, rfl, rfl, Nat.one_pos⟩
    obtain ⟨img, h1, h2⟩ := hall _ 1 1 hc 1
    obtain ⟨img', h3, h4⟩ := darkfield_one hc (by omega) x y (by omega) (by omega) ((1 : Nat) : Rat)
    rw [h1] at h3
    cases h3
    have h5 := h2 0 (by omega)
    rw [h4 0 (by omega)] at h5
    have hev : eventsAt (oneEvent w (y * w + x)) 0 = [y * w + x] := rfl
    have hd : (y * w + x) / w = y := by
      rw [Nat.mul_comm, Nat.mul_add_div (by omega), Nat.div_eq_of_lt hx, Nat.add_zero]
    have hm : (y * w + x) % w = x := by rw [Nat.mul_comm, Nat.mul_add_mod, Nat.mod_eq_of_lt hx]
    rw [hev, List.countP_cons, List.countP_cons, inside_int] at h5
    rw [hd, hm] at h5
    have h6 : (0 < 1 ∧ Spec.dist2 (x : Int) (y : Int) x y < ((1 : Nat) : Int) ^ 2) := by
      unfold Spec.dist2
      constructor <;> simp
    by_contra hne
    have h7 : ¬ (0 < 1 ∧ ((y : Int) - x) ^ 2 + ((x : Int) - y) ^ 2 < ((1 : Nat) : Int) ^ 2) := by
      rintro ⟨_, h⟩
      have h8 : ((x : Int) - y) ≠ 0 := by omega
      have h9 : 0 < ((x : Int) - y) ^ 2 := by positivity
      have h10 : 0 ≤ ((y : Int) - x) ^ 2 := by positivity
      norm_num at h
      omega
    rw [if_pos (by rw [decide_eq_true_iff]; exact h6), if_neg (by rw [decide_eq_true_iff]; exact h7)] at h5
    simp at h5
  · rintro rfl a H W ha r
    obtain ⟨img, h1, h2⟩ := darkfield_one ha (by omega) x x (by omega) (by omega) (r : Rat)
    refine ⟨img, h1, ?_⟩
    intro p hp
    rw [h2 p hp]
    congr 1
    apply List.countP_congr
    intro e _
    rw [inside_int]
    simp only [decide_eq_true_iff]
    unfold Spec.dist2
    rw [add_comm]

/-! ### The sum of all frames -/

theorem sum_positions (l : List (List (List Nat))) (q : Nat) :
    ((List.range l.length).map fun p => ((l.getD p []).flatten).count q).sum = (l.map List.flatten).flatten.count q := by
  induction l with
  | nil => rfl
  | cons row l ih =>
    rw [List.length_cons, List.range_succ_eq_map, List.map_cons, List.sum_cons, List.map_map]
    simp only [List.map_cons, List.flatten_cons, List.count_append]
    rw [← ih]
    simp [Function.comp_def]

/-- **C110** (sum of all frames): `calculate_sum_sparse`, `mask_real_space` with all positions, and the sum over the scan axes are
the same image, for every frame shape. -/
theorem C110_sum (a : SparseArray) (H W h w : Nat) (ha : WF a) (hs : a.scanShape = [H, W]) (hf : a.frameShape = [h, w])
    (axis : Axis) (hax : formatAxis a axis = scanAxes a) :
    ∃ img, calculateSumSparse (a.data.map List.flatten) h w = .ok ⟨[h, w], img⟩ ∧
      maskRealSpace a ⟨[H, W], List.replicate (H * W) true⟩ = .ok ⟨[h, w], img⟩ ∧
      sum a axis = .ok ⟨[h, w], img⟩ := by
  have hlen : a.data.length = H * W := by rw [ha.length, hs]; simp [prod]
  have hpf : prod a.frameShape = h * w := by rw [hf]; simp [prod]
  have hps : prod a.scanShape = H * W := by rw [hs]; simp [prod]
  have hcount : ∀ q, ((List.range (H * W)).map fun p => eventCount a p q).sum = (a.data.map List.flatten).flatten.count q := by
    intro q
    rw [← sum_positions, hlen]
    rfl
  have hlt : ∀ ev ∈ a.data.map List.flatten, ∀ e ∈ ev, e < h * w := by
    intro ev hev e he
    obtain ⟨row, hr, rfl⟩ := List.mem_map.1 hev
    obtain ⟨fr, hfr, hef⟩ := List.mem_flatten.1 he
    have := ha.lt row hr fr hfr e hef
    rwa [hpf] at this
  refine ⟨_, C51_sum _ h w hlt, ?_, ?_⟩
  · obtain ⟨dp, h1, h2, h3⟩ := C51_mask a H W ha hs (List.replicate (H * W) true)
    rw [h1, hf]
    congr 2
    apply List.ext_getElem?
    intro q
    by_cases hq : q < h * w
    · rw [h3 q (by omega)]
      simp only [List.getElem?_map, List.getElem?_range hq, Option.map_some]
      rw [← hcount]
      congr 2
      apply List.map_congr_left
      intro p hp
      have := List.mem_range.1 hp
      rw [if_pos (by simp [this])]
    · rw [List.getElem?_eq_none (by omega), List.getElem?_eq_none (by simp; omega)]
  · rw [C40_sum a ha axis (Or.inl (Or.inl hax)), ← reduce_perm _ _ (formatAxis_perm a axis), hax, reduce_scan,
      mapM_ok _ _ _ fun _ _ => rfl, Outcome.ok_bind]
    rw [hpf, hps, hf]
    simp only [hcount]

/-! ### Sparse and dense data -/

/-- The events in an annulus, as a sum over the pixels of the dense frame. -/
theorem annulusSum_dense (w h : Nat) (i o cx cy : Int) (ev : List Nat) (hlt : ∀ e ∈ ev, e < w * h) :
    annulusSum w h i o cx cy ((List.range (w * h)).map fun q => ev.count q) = annulusHits w i o cx cy ev := by
  unfold annulusSum
  have h1 : ((List.range h).map fun y => ((List.range w).map fun x =>
      if inAnnulus i o cx cy x y then ((List.range (w * h)).map fun q => ev.count q).getD (y * w + x) 0 else 0).sum).sum =
      ((List.range (w * h)).map fun j => if inAnnulus i o cx cy (j % w) (j / w) then ev.count j else 0).sum := by
    rw [sum_range_mul]
    congr 1
    apply List.map_congr_left
    intro y hy
    congr 1
    apply List.map_congr_left
    intro x hx
    have hx := List.mem_range.1 hx
    have hy := List.mem_range.1 hy
    have hj := flat_lt hx hy
    rw [flat_mod y hx, flat_div y hx]
    have : ((List.range (w * h)).map fun q => ev.count q).getD (y * w + x) 0 = ev.count (y * w + x) := by
      rw [List.getD_eq_getElem?_getD, List.getElem?_map, List.getElem?_range hj, Option.map_some, Option.getD_some]
    rw [this]
  rw [h1]
  clear h1
  unfold annulusHits
  induction ev with
  | nil => simp
  | cons e ev ih =>
    have he : e < w * h := hlt e (by simp)
    rw [List.countP_cons, ← ih (fun e' h' => hlt e' (by simp [h']))]
    have h2 : ∀ j, (if inAnnulus i o cx cy (j % w) (j / w) then (e :: ev).count j else 0) =
        (if inAnnulus i o cx cy (j % w) (j / w) then ev.count j else 0) +
          if (inAnnulus i o cx cy (j % w) (j / w) ∧ j = e) then 1 else 0 := by
      intro j
      rw [List.count_cons]
      by_cases hj : j = e
      · subst hj
        by_cases hin : inAnnulus i o cx cy (j % w) (j / w) <;> simp [hin]
      · have hj' : ¬ e = j := fun h => hj h.symm
        by_cases hin : inAnnulus i o cx cy (j % w) (j / w) <;> simp [hin, hj, hj']
    simp only [h2]
    rw [sum_add]
    congr 1
    by_cases hin : inAnnulus i o cx cy (e % w) (e / w)
    · rw [sum_ite_unique (w * h) e 1 _ he]
      · simp [hin]
      · intro r
        constructor
        · exact fun h => h.2
        · rintro rfl; exact ⟨hin, rfl⟩
    · have h3 : ∀ j, ¬ (inAnnulus i o cx cy (j % w) (j / w) ∧ j = e) := by
        rintro j ⟨h4, rfl⟩
        exact hin h4
      simp only [if_neg (h3 _)]
      simp [hin]

/-- **C110** (dense frames): if the frames of a reader are the dense frames of the sparse array, every STEM image of the sparse array
is 65535 times the STEM image of the reader, in every execution. -/
theorem C110_dense (a : SparseArray) (H W w : Nat) (ha : WF a) (hs : a.scanShape = [H, W]) (hf : a.frameShape = [w, w])
    (hw : w < 2 ^ 15) (hP : W * H < 2 ^ 32) (cx cy i o : Nat) (hx : cx < w) (hy : cy < w) (hio : i ≤ o) (ho : o ≤ w)
    (hsmall : ∀ p, (eventsAt a p).length < 2 ^ 48) {bs : List (List Frame)}
    (okd : DenseOK w w W H bs [(i : Int)] [(o : Int)] (cx : Int) (cy : Int))
    (hbs : ∀ p < H * W, ∃ frame, expand a (unravel [H, W] p) = .ok frame ∧ bs.flatten.filter (fun f => f.1 = p) = [(p, frame)])
    (hd : Nat × Nat) {r : Outcome (List (List Nat))}
    (hr : DenseRun (bs.map (mkBlock hd (w, w))) [(i : Int)] [(o : Int)] (W, H) ((cx : Int), (cy : Int)) r) :
    ∃ images dense, createStemImages ⟨a, none⟩ [(i : Int)] [(o : Int)] ((cx : Int), (cy : Int)) = .ok images ∧ r = .ok dense ∧
      ∀ p < H * W, ∃ v, pixelAt dense 0 p = some v ∧ pixelAt images 0 p = some (65535 * v) := by
  obtain ⟨images, h1, h2⟩ := stem_one ha hs hf hw hP hx hy hio ho hsmall
  obtain ⟨dense, rfl, _, _, h3⟩ := C02_dense okd hd hr
  refine ⟨images, dense, h1, rfl, ?_⟩
  intro p hp
  obtain ⟨frame, hfr, hfil⟩ := hbs p hp
  have hp' : p < prod a.scanShape := by rw [hs]; simpa [prod] using hp
  have hpf : prod a.frameShape = w * w := by rw [hf]; simp [prod]
  have hex := expand_ok ha hp'
  rw [hs, hfr, hpf] at hex
  cases hex
  refine ⟨_, (h3 0 i o rfl p (by rw [Nat.mul_comm]; exact hp)).1 _ hfil, ?_⟩
  rw [h2 p hp, eff_nat, eff_nat]
  have hlt : ∀ e ∈ eventsAt a p, e < w * w := by
    intro e he
    obtain ⟨fr, hfr, hef⟩ := List.mem_flatten.1 he
    have hm : a.data.getD p [] ∈ a.data := getD_mem _ _ _ (by rw [ha.length]; exact hp')
    have := ha.lt _ hm fr hfr e hef
    rwa [hpf] at this
  have := annulusSum_dense w w i o cx cy (eventsAt a p) hlt
  rw [← this]
  rfl

/-- **C110 is violated** by the scale: the two images of the same data are the same only where nothing is in the annulus. -/
theorem C110_scale_iff (a : SparseArray) (H W w : Nat) (ha : WF a) (hs : a.scanShape = [H, W]) (hf : a.frameShape = [w, w])
    (hw : w < 2 ^ 15) (hP : W * H < 2 ^ 32) (cx cy i o : Nat) (hx : cx < w) (hy : cy < w) (hio : i ≤ o) (ho : o ≤ w)
    (hsmall : ∀ p, (eventsAt a p).length < 2 ^ 48) {bs : List (List Frame)}
    (okd : DenseOK w w W H bs [(i : Int)] [(o : Int)] (cx : Int) (cy : Int))
    (hbs : ∀ p < H * W, ∃ frame, expand a (unravel [H, W] p) = .ok frame ∧ bs.flatten.filter (fun f => f.1 = p) = [(p, frame)])
    (hd : Nat × Nat) {dense images : List (List Nat)}
    (hr : DenseRun (bs.map (mkBlock hd (w, w))) [(i : Int)] [(o : Int)] (W, H) ((cx : Int), (cy : Int)) (.ok dense))
    (himg : createStemImages ⟨a, none⟩ [(i : Int)] [(o : Int)] ((cx : Int), (cy : Int)) = .ok images) (p : Nat) (hp : p < H * W) :
    pixelAt images 0 p = pixelAt dense 0 p ↔ ∀ e ∈ eventsAt a p, ¬ inAnnulus i o cx cy (e % w) (e / w) := by
  obtain ⟨images', dense', h1, h2, h3⟩ := C110_dense a H W w ha hs hf hw hP cx cy i o hx hy hio ho hsmall okd hbs hd hr
  obtain ⟨images'', h4, h5⟩ := stem_one ha hs hf hw hP hx hy hio ho hsmall
  rw [himg] at h1 h4
  cases h1
  cases h2
  cases h4
  obtain ⟨v, hv, hv2⟩ := h3 p hp
  have h6 := h5 p hp
  rw [hv2, Option.some.injEq] at h6
  rw [hv, hv2, Option.some.injEq]
  have h7 : v = annulusHits w i o cx cy (eventsAt a p) := by omega
  have h8 : annulusHits w i o cx cy (eventsAt a p) = 0 ↔ ∀ e ∈ eventsAt a p, ¬ inAnnulus i o cx cy (e % w) (e / w) := by
    unfold annulusHits
    rw [List.countP_eq_zero]
    simp only [decide_eq_true_iff]
  rw [← h8, ← h7]
  omega

/-! ### Instances -/

/-- Two positions, two frames each. -/
def pair : SparseArray := ⟨[[[5, 7], [5]], [[0], []]], 2, [1, 2], [4, 4], true, false⟩

theorem pair_counted : Counted pair 1 2 4 4 :=
  ⟨⟨Or.inr rfl, rfl, by decide, by decide, by decide⟩, rfl, rfl, by decide⟩

example : virtualDarkfield pair [.int 1] [.int 1] [3] = .ok ⟨[1, 2], [3, 1]⟩ ∧
    virtualDarkfield pair [.int 1] [.int 1] [1] = .ok ⟨[1, 2], [2, 0]⟩ ∧
    createStemImages ⟨pair, none⟩ [1] [3] (1, 1) = .ok [[65535, 65535]] := by
  refine ⟨?_, ?_, ?_⟩ <;> decide +kernel

example : formatAxis pair (.axes [0, 1]) = scanAxes pair ∧
    sum pair (.axes [0, 1]) = .ok ⟨[4, 4], [1, 0, 0, 0, 0, 2, 0, 1, 0, 0, 0, 0, 0, 0, 0, 0]⟩ ∧
    maskRealSpace pair ⟨[1, 2], [true, true]⟩ = .ok ⟨[4, 4], [1, 0, 0, 0, 0, 2, 0, 1, 0, 0, 0, 0, 0, 0, 0, 0]⟩ := by
  refine ⟨?_, ?_, ?_⟩ <;> decide +kernel

/-- A reader with the dense frames of the example, in two blocks. -/
def pairFrames : List (List Frame) :=
  [[(1, [1, 0, 0, 0, 0, 0, 0, 0, 0, 0, 0, 0, 0, 0, 0, 0])], [(0, [0, 0, 0, 0, 0, 2, 0, 1, 0, 0, 0, 0, 0, 0, 0, 0])]]

theorem pair_dense : DenseOK 4 4 2 1 pairFrames [((0 : Nat) : Int)] [((1 : Nat) : Int)] ((1 : Nat) : Int) ((1 : Nat) : Int) := by
  constructor
  · simp [pairFrames]
  · simp
  · rfl
  · intro r hr
    have : r = (0, 1) := by simpa using hr
    subst this
    constructor <;> norm_num
  · norm_num
  · norm_num
  · norm_num
  · norm_num
  · intro fs hfs
    have : fs = [(1, [1, 0, 0, 0, 0, 0, 0, 0, 0, 0, 0, 0, 0, 0, 0, 0])] ∨
        fs = [(0, [0, 0, 0, 0, 0, 2, 0, 1, 0, 0, 0, 0, 0, 0, 0, 0])] := by simpa [pairFrames] using hfs
    rcases this with h | h <;> subst h <;> constructor <;> simp

example : ∀ p < 1 * 2, ∃ frame, expand pair (unravel [1, 2] p) = .ok frame ∧
    pairFrames.flatten.filter (fun f => f.1 = p) = [(p, frame)] := by
  intro p hp
  rcases (show p = 0 ∨ p = 1 by omega) with rfl | rfl
  · exact ⟨_, rfl, rfl⟩
  · exact ⟨_, rfl, rfl⟩

end Stempy.Props.SameImages
