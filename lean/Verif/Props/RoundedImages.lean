import Verif.Lemmas.RoundedImages
import Verif.Props.Stack

/-!
C96: masks, radial sums and averages computed in double precision, in any rounding mode.
-/

namespace Stempy.Props
open Stempy.FloatPixels (Fl)
open Stempy.SafeCast (float64)
open Stempy.Spec Stempy.Image Stempy.IeeeRound Stempy.RoundedImages

variable {rp rd : Rat → Fl}

/-- **C96**. For all arguments of the types of the parameters the mask computed in double precision is the one computed exactly, also where that is
undefined. -/
theorem C96_mask_exact (hp : Rounds float64 rp) (hd : Rounds float64 rd) {w h : Nat} (hw : w < 2 ^ 32) (hh : h < 2 ^ 32) {inner outer : Int}
    (hi : -(2 ^ 31) ≤ inner ∧ inner < 2 ^ 31) (ho : -(2 ^ 31) ≤ outer ∧ outer < 2 ^ 31) (cx cy : Int) :
    RoundedImages.createAnnularMask rp rd w h inner outer cx cy = Mask.createAnnularMask w h inner outer cx cy :=
  RoundedImages.createAnnularMask_eq hp hd hw hh hi ho cx cy

/-- **C96**. In double precision the mask has one entry per pixel, which is `0xFFFF` exactly inside the annulus. -/
theorem C96_mask (hp : Rounds float64 rp) (hd : Rounds float64 rd) {w h : Nat} {inner outer cx cy : Int} (g : GeometryOK w h inner outer cx cy) :
    ∃ m, RoundedImages.createAnnularMask rp rd w h inner outer cx cy = .ok m ∧ m.length = w * h ∧
      ∀ x y, x < w → y < h → m[y * w + x]? = some
        (if inAnnulus inner outer (effCenter w cx) (effCenter h cy) x y then 65535 else 0) := by
  have h1 := g.inner_lt
  have h2 := g.outer_lt
  have h3 := g.wlt
  have h4 := g.hlt
  rw [C96_mask_exact hp hd (by omega) (by omega) ⟨by nlinarith, by nlinarith⟩ ⟨by nlinarith, by nlinarith⟩]
  exact C01_mask g

/-- **C96**. If no corner of the frame is farther from the center than 2^26, the radial sum in double precision puts every pixel at the exact distance
rounded up, and is that of C08. -/
theorem C96_radial (hp : Rounds float64 rp) (hd : Rounds float64 rd) {w h W H : Nat} {bs : List (List Frame)} {cx cy : Int} (hs : Nat × Nat)
    (ok : RadialOK w h W H bs cx cy) (hm : Image.maxRadius (w, h) (effCenter w cx) (effCenter h cy) ≤ 2 ^ 26) {r : Outcome (Nat × List Nat)}
    (hr : RoundedImages.RadialRun rp rd (bs.map (mkBlock hs (w, h))) (W, H) (cx, cy) r) :
    ∃ radii mem, r = .ok (radii, mem) ∧ mem.length = W * H * radii ∧
      (∀ x y, x < w → y < h → ∃ rr, rr < radii ∧ isRadius (effCenter w cx) (effCenter h cy) x y rr) ∧
      ∀ rr p, rr < radii → p < W * H → mem[rr * (W * H) + p]? = some
        ((bs.flatten.map fun f => if f.1 = p then ringSum w h (effCenter w cx) (effCenter h cy) rr f.2 else 0).sum % 2 ^ 64) := by
  refine C08_radial hs ok ?_
  have hb := ok.blocks
  cases bs with
  | nil => exact absurd rfl hb
  | cons b bs =>
    rw [List.map_cons] at hr ⊢
    have hf : (mkBlock hs (w, h) b).frameDims = (w, h) := rfl
    exact (RadialRun_iff hp hd hf ok.wlt ok.hlt hm (W, H) r).1 hr

/-! ### Averages -/

/-- Sums of integers are exact up to 2^53. -/
theorem sum_exact (hd : Rounds float64 rd) (l : List Nat) : ∀ s : Nat, s + l.sum ≤ 2 ^ 53 →
    l.foldl (fun a (v : Nat) => rnd rd (a.add (.fin (v : Rat)))) (.fin (s : Rat)) = .fin ((s + l.sum : Nat) : Rat) := by
  induction l with
  | nil => intro s _; rfl
  | cons v l ih =>
    intro s hs
    rw [List.sum_cons] at hs
    have e : rnd rd ((Fl.fin (s : Rat)).add (.fin (v : Rat))) = .fin ((s + v : Nat) : Rat) := by
      show rd ((s : Rat) + v) = _
      rw [← Nat.cast_add]
      exact rd_nat hd (by omega)
    rw [List.foldl_cons, e, ih _ (by omega), List.sum_cons, Nat.add_assoc]

theorem sum_le_mul {l : List Nat} {b : Nat} (h : ∀ v ∈ l, v ≤ b) : l.sum ≤ l.length * b := by
  induction l with
  | nil => simp
  | cons v l ih =>
    have h1 := ih fun u hu => h u (by simp [hu])
    have h2 := h v (by simp)
    rw [List.sum_cons, List.length_cons, Nat.add_mul]
    omega

theorem mul_le_sum {l : List Nat} {b : Nat} (h : ∀ v ∈ l, b ≤ v) : l.length * b ≤ l.sum := by
  induction l with
  | nil => simp
  | cons v l ih =>
    have h1 := ih fun u hu => h u (by simp [hu])
    have h2 := h v (by simp)
    rw [List.sum_cons, List.length_cons, Nat.add_mul]
    omega

theorem div_exact {s n : Nat} (hn : 0 < n) : (Fl.fin (s : Rat)).div (.fin (n : Rat)) = .fin ((s : Rat) / n) := by
  show (if (n : Rat) = 0 then Fl.signInf s else .fin ((s : Rat) / n)) = _
  exact if_neg (by positivity)

/-- A rounded mean of integers below 2^16. -/
theorem mean_bounds (hd : Rounds float64 rd) {l : List Nat} (hl : ∀ v ∈ l, v < 2 ^ 16) (hne : l ≠ []) :
    ∃ q : Rat, rd ((l.sum : Rat) / l.length) = .fin q ∧ |q - (l.sum : Rat) / l.length| ≤ 1 / 2 ^ 37 ∧
      ∀ a b : Nat, (∀ v ∈ l, a ≤ v ∧ v ≤ b) → (a : Rat) ≤ q ∧ q ≤ b := by
  have hn : 0 < l.length := List.length_pos_iff.2 hne
  have hnq : (0 : Rat) < l.length := by exact_mod_cast hn
  obtain ⟨m, hm⟩ : ∃ m, m = (l.sum : Rat) / l.length := ⟨_, rfl⟩
  have m0 : 0 ≤ m := by rw [hm]; positivity
  have m1 : m ≤ 2 ^ 16 := by
    rw [hm, div_le_iff₀ hnq]
    have h1 := sum_le_mul (b := 2 ^ 16) fun v hv => (hl v hv).le
    have h2 : (l.sum : Rat) ≤ ((l.length * 2 ^ 16 : Nat) : Rat) := by exact_mod_cast h1
    rw [Nat.cast_mul, Nat.cast_pow, Nat.cast_ofNat] at h2
    linarith
  have grid : ∀ z : Int, 0 ≤ z → z ≤ 2 ^ 53 → float64.Has ((z : Rat) / 2 ^ 37) := by
    intro z z0 z1
    rcases lt_or_eq_of_le z1 with c | c
    · refine ⟨z, -37, by rw [abs_of_nonneg z0]; exact c, by decide, by decide, ?_⟩
      rw [div_eq_mul_inv]; norm_num
    · refine ⟨1, 16, by decide, by decide, by decide, ?_⟩
      rw [c]; norm_num
  have p37 : (0 : Rat) < 2 ^ 37 := by positivity
  have f0 : (0 : Int) ≤ ⌊m * 2 ^ 37⌋ := Int.floor_nonneg.2 (by positivity)
  have mm : m * 2 ^ 37 ≤ 2 ^ 53 := by
    calc m * 2 ^ 37 ≤ 2 ^ 16 * 2 ^ 37 := mul_le_mul_of_nonneg_right m1 p37.le
      _ = 2 ^ 53 := by norm_num
  have c1 : ⌈m * 2 ^ 37⌉ ≤ 2 ^ 53 := Int.ceil_le.2 (by exact_mod_cast mm)
  have fc : ⌊m * 2 ^ 37⌋ ≤ ⌈m * 2 ^ 37⌉ := Int.floor_le_ceil _
  have b1 : (⌊m * 2 ^ 37⌋ : Rat) / 2 ^ 37 ≤ m := by rw [div_le_iff₀ p37]; exact Int.floor_le _
  have b2 : m ≤ (⌈m * 2 ^ 37⌉ : Rat) / 2 ^ 37 := by rw [le_div_iff₀ p37]; exact Int.le_ceil _
  obtain ⟨q, e, _, l1, r1⟩ := hd.between (grid _ f0 (by omega)) (grid _ (by omega) c1) b1 b2
  rw [← hm]
  refine ⟨q, e, ?_, ?_⟩
  · have d1 : m * 2 ^ 37 < ⌊m * 2 ^ 37⌋ + 1 := Int.lt_floor_add_one _
    have d2 : (⌈m * 2 ^ 37⌉ : Rat) < m * 2 ^ 37 + 1 := Int.ceil_lt_add_one _
    rw [div_le_iff₀ p37] at l1
    rw [le_div_iff₀ p37] at r1
    rw [abs_le, neg_le, le_div_iff₀ p37, le_div_iff₀ p37]
    constructor <;> nlinarith
  · intro a b hab
    have s1 := mul_le_sum fun v hv => (hab v hv).1
    have s2 := sum_le_mul fun v hv => (hab v hv).2
    have t1 : (a : Rat) ≤ m := by
      rw [hm, le_div_iff₀ hnq, mul_comm]
      exact_mod_cast s1
    have t2 : m ≤ min (b : Rat) 65536 := by
      rw [le_min_iff]
      refine ⟨?_, le_trans m1 (by norm_num)⟩
      rw [hm, div_le_iff₀ hnq, mul_comm]
      exact_mod_cast s2
    have ha : a ≤ 2 ^ 53 := by
      have : (a : Rat) ≤ 65536 := le_trans t1 (le_trans m1 (by norm_num))
      have : a ≤ 65536 := by exact_mod_cast this
      omega
    have t2' : m ≤ ((min b 65536 : Nat) : Rat) := by
      push_cast
      exact t2
    obtain ⟨q', e', _, l2, r2⟩ := hd.between (has_nat53 ha) (has_nat53 (n := min b 65536) (by omega)) t1 t2'
    rw [e] at e'
    injection e' with e'
    subst e'
    exact ⟨l2, le_trans r2 (by exact_mod_cast min_le_left b 65536)⟩

/-- **C96**. Up to 2^37 frames: every pixel of the average is the exact mean, rounded once. It differs from the mean by at most 2^-37, and is not
outside of the range of the values of the pixel. -/
theorem C96_average (hd : Rounds float64 rd) {w h : Nat} {bs : List (List Frame)} (hs : Nat × Nat) (ok : StackBlocksOK w h bs)
    (hne : bs.flatten ≠ []) (hn : bs.flatten.length ≤ 2 ^ 37) (hpx : ∀ f ∈ bs.flatten, ∀ v ∈ f.2, v < 2 ^ 16) :
    ∃ img, RoundedImages.calculateAverage rd (bs.map (mkBlock hs (w, h))) = .ok img ∧ img.length = w * h ∧
      ∀ j, j < w * h → ∃ q : Rat, img[j]? = some (.fin q) ∧
        rd (((bs.flatten.map fun f => f.2.getD j 0).sum : Nat) / (bs.flatten.length : Rat)) = .fin q ∧
        |q - ((bs.flatten.map fun f => f.2.getD j 0).sum : Nat) / (bs.flatten.length : Rat)| ≤ 1 / 2 ^ 37 ∧
        ∀ a b : Nat, (∀ f ∈ bs.flatten, a ≤ f.2.getD j 0 ∧ f.2.getD j 0 ≤ b) → (a : Rat) ≤ q ∧ q ≤ b := by
  have hcnt : ((bs.map (mkBlock hs (w, h))).map (·.imagesInBlock)).sum = bs.flatten.length := by
    rw [List.map_map, List.length_flatten]; rfl
  have hsum := accumBlocks_eq (fun (a : Fl) (v : Nat) => rnd rd (a.add (.fin v))) hs ok.size bs ok.len ok.blockSize
    (List.replicate (w * h) (.fin 0)) (by simp)
  have hlen := foldl_zipWith_length (fun (a : Fl) (v : Nat) => rnd rd (a.add (.fin v))) _ ok.lenFlat (List.replicate (w * h) (.fin 0)) (by simp)
  have hpos : 0 < bs.flatten.length := List.length_pos_iff.2 hne
  have hrun : RoundedImages.calculateAverage rd (bs.map (mkBlock hs (w, h))) = .ok
      ((bs.flatten.foldl (fun img f => List.zipWith (fun (a : Fl) (v : Nat) => rnd rd (a.add (.fin v))) img f.2)
        (List.replicate (w * h) (.fin 0))).map fun s => rnd rd (s.div (.fin (bs.flatten.length : Rat)))) := by
    have hb := ok.blocks
    cases bs with
    | nil => exact absurd rfl hb
    | cons b bs =>
      unfold RoundedImages.calculateAverage
      rw [List.map_cons] at hsum hcnt ⊢
      simp only
      have hdim : (mkBlock hs (w, h) b).frameDims = (w, h) := rfl
      rw [hdim]
      simp only
      rw [Nat.mod_eq_of_lt ok.size, hsum, hcnt, Nat.mod_eq_of_lt (by omega), rd_nat hd (by omega)]
      rfl
  refine ⟨_, hrun, by rw [List.length_map, hlen], ?_⟩
  intro j hj
  have hvals : ∀ v ∈ bs.flatten.map (fun f => f.2.getD j 0), v < 2 ^ 16 := by
    intro v hv
    obtain ⟨f, hf, rfl⟩ := List.mem_map.1 hv
    have hl := ok.lenFlat f hf
    apply hpx f hf
    rw [List.getD_eq_getElem?_getD, List.getElem?_eq_getElem (by omega)]
    exact List.getElem_mem _
  obtain ⟨q, e, herr, hbd⟩ := mean_bounds hd hvals (by simpa using hne)
  rw [List.length_map] at e herr
  refine ⟨q, ?_, e, herr, ?_⟩
  · rw [List.getElem?_map, foldl_zipWith_get (.fin 0) _ _ ok.lenFlat _ (by simp) j hj, Option.map_some]
    congr 1
    have e2 : bs.flatten.foldl (fun a f => rnd rd (a.add (.fin ((f.2.getD j 0 : Nat) : Rat)))) (.fin ((0 : Nat) : Rat)) =
        .fin (((bs.flatten.map fun f => f.2.getD j 0).sum : Nat) : Rat) := by
      have := sum_exact hd (bs.flatten.map fun f => f.2.getD j 0) 0 (by
        have h1 := sum_le_mul (b := 2 ^ 16) fun v hv => (hvals v hv).le
        rw [List.length_map] at h1
        omega)
      rw [List.foldl_map, Nat.zero_add] at this
      exact this
    have e3 : (List.replicate (w * h) (Fl.fin 0)).getD j (.fin 0) = .fin ((0 : Nat) : Rat) := by
      rw [List.getD_eq_getElem?_getD, List.getElem?_replicate, if_pos hj]
      simp
    rw [e3, e2, div_exact hpos]
    exact e
  · intro a b hab
    exact hbd a b fun v hv => by
      obtain ⟨f, hf, rfl⟩ := List.mem_map.1 hv
      exact hab f hf

/-- **C96**. Without frames every pixel of the average is NaN. -/
theorem C96_average_empty (hd : Rounds float64 rd) {w h : Nat} {bs : List (List Frame)} (hs : Nat × Nat) (ok : StackBlocksOK w h bs)
    (hne : bs.flatten = []) : RoundedImages.calculateAverage rd (bs.map (mkBlock hs (w, h))) = .ok (List.replicate (w * h) .nan) := by
  have hcnt : ((bs.map (mkBlock hs (w, h))).map (·.imagesInBlock)).sum = 0 := by
    rw [List.map_map, ← List.length_eq_zero_iff.2 hne, List.length_flatten]; rfl
  have hsum := accumBlocks_eq (fun (a : Fl) (v : Nat) => rnd rd (a.add (.fin v))) hs ok.size bs ok.len ok.blockSize
    (List.replicate (w * h) (.fin 0)) (by simp)
  rw [hne] at hsum
  have hb := ok.blocks
  cases bs with
  | nil => exact absurd rfl hb
  | cons b bs =>
    unfold RoundedImages.calculateAverage
    rw [List.map_cons] at hsum hcnt ⊢
    simp only
    have hdim : (mkBlock hs (w, h) b).frameDims = (w, h) := rfl
    rw [hdim]
    simp only
    rw [Nat.mod_eq_of_lt ok.size, hsum, hcnt, Nat.zero_mod, rd_nat hd (by norm_num)]
    have e : rnd rd ((Fl.fin 0).div (.fin ((0 : Nat) : Rat))) = .nan := by
      have : (Fl.fin 0).div (.fin ((0 : Nat) : Rat)) = .nan := by
        simp [Fl.div, Fl.signInf]
      rw [this]
      rfl
    show Outcome.ok ((List.replicate (w * h) (Fl.fin 0)).map fun s => rnd rd (s.div (.fin ((0 : Nat) : Rat)))) = _
    rw [List.map_replicate, e]

end Stempy.Props
