import Verif.Props.RoundedImages
import Verif.Props.RoundedCom

/-!
C96: the bounds on the radius and on the number of frames are those of double precision.
-/

namespace Stempy.Props
open Stempy.FloatPixels (Fl)
open Stempy.SafeCast (float64)
open Stempy.Spec Stempy.Image Stempy.IeeeRound Stempy.RoundedImages
open Stempy.RoundedCom (rootApprox rootApprox_dyadic rootApprox_mono)

variable {rp rd : Rat → Fl}

theorem distance_of (hp : Rounds float64 rp) (h : Rounds float64 rd) {x1 y1 x2 y2 dx dy : Int} {s : Nat} (ex : x1 - x2 = dx) (ey : y1 - y2 = dy)
    (hx : -(2 ^ 31) ≤ dx ∧ dx < 2 ^ 31) (hy : -(2 ^ 31) ≤ dy ∧ dy < 2 ^ 31) (hs : dx * dx + dy * dy = (s : Int)) (hb : (s : Int) ≤ 2 ^ 53) :
    RoundedImages.distance rp rd x1 y1 x2 y2 = .ok (RoundedCom.sqrt rd (.fin (s : Rat))) := by
  unfold RoundedImages.distance squaredDistance
  rw [ex, ey, int32_ok hx.1 hx.2, int32_ok hy.1 hy.2]
  show Outcome.ok (RoundedCom.sqrt rd (rnd rd ((square rp dx).add (square rp dy)))) = _
  rw [(squaredDistance_cases hp h ⟨hx.1, hx.2.le⟩ ⟨hy.1, hy.2.le⟩).1 (by rw [hs]; exact hb), hs]
  norm_num

theorem root_large {t : Rat} (h1 : (2 : Rat) ^ 52 ≤ t) (h2 : t ≤ 2 ^ 52 + 1) : (2 : Rat) ^ 26 ≤ rootApprox t ∧ rootApprox t < 2 ^ 26 + 1 / 2 ^ 27 := by
  have e1 := rootApprox_dyadic (2 ^ 26) 0 (by omega)
  have e2 := rootApprox_dyadic (2 ^ 116 + 2 ^ 63 - 1) 90 (by omega)
  have c1 : ((2 ^ 26 : Nat) / 2 ^ 0 : Rat) = 2 ^ 26 := by norm_num
  have c2 : ((2 ^ 116 + 2 ^ 63 - 1 : Nat) / 2 ^ 90 : Rat) = 2 ^ 26 + 1 / 2 ^ 27 - 1 / 2 ^ 90 := by norm_num
  rw [c1] at e1
  rw [c2] at e2
  constructor
  · rw [← e1]
    exact rootApprox_mono (by norm_num) (by linarith)
  · refine lt_of_le_of_lt (b := (2 : Rat) ^ 26 + 1 / 2 ^ 27 - 1 / 2 ^ 90) ?_ (by norm_num)
    rw [← e2]
    refine rootApprox_mono (by linarith) (le_trans h2 ?_)
    norm_num

/-- The root of 2^52 + 1, rounded to nearest, is 2^26. -/
theorem sqrt_large {s : Nat} (h1 : 2 ^ 52 ≤ s) (h2 : s ≤ 2 ^ 52 + 1) : RoundedCom.sqrt (nearest float64) (.fin (s : Rat)) = .fin (((2 ^ 26 : Nat) : Int) : Rat) := by
  rw [sqrt_nat_eq]
  obtain ⟨r1, r2⟩ := root_large (t := (s : Rat)) (by exact_mod_cast h1) (by exact_mod_cast h2)
  have a : |rootApprox (s : Rat)| = rootApprox s := abs_of_nonneg (le_trans (by norm_num) r1)
  rw [RoundedCenter.at64 (2 ^ 52) 26 (by norm_num) (by rw [a]; norm_num at r1 ⊢; linarith) (by rw [a]; norm_num at r2 ⊢; linarith)
    (Or.inl (by
      rw [abs_lt]
      norm_num at r1 r2 ⊢
      constructor <;> linarith))]
  norm_num

theorem radialRun_of {b : Block} {frame : Nat × Nat} (hf : b.frameDims = frame) {size : Nat} {scan : Nat × Nat} {center : Int × Int} {cx cy radii : Int} {task : List (Nat × Nat)} {mem : List Nat}
    (hs : ¬(scan.1 = 0 ∨ scan.2 = 0)) (hg : geometry rp rd frame center = .ok (cx, cy, radii))
    (ht : radialSumFrames rp rd cx cy b frame scan ((frame.1 * frame.2) % 2 ^ 32) = .ok task)
    (hz : (scan.1 * scan.2 * radii.toNat) % 2 ^ 32 = size) (hm : task.foldlM atomicAdd (List.replicate size 0) = .ok mem) :
    RoundedImages.RadialRun rp rd [b] scan center (.ok (radii.toNat, mem)) := by
  unfold RoundedImages.RadialRun
  simp only
  rw [if_neg hs, if_neg hs, hf, hg]
  simp only
  rw [List.mapM_cons, ht]
  simp only [Outcome.ok_bind, List.mapM_nil]
  refine ⟨task, ?_, ?_⟩
  · have := Interleave.sequential [task]
    simpa using this
  · rw [hz, hm]
    rfl

theorem maxRadius_of {w h : Nat} {cx cy : Int} {a1 a2 a3 a4 : Rat} (h1 : RoundedImages.distance rp rd (toInt32 0) (toInt32 0) cx cy = .ok (.fin a1))
    (h2 : RoundedImages.distance rp rd (toInt32 0) (toInt32 h) cx cy = .ok (.fin a2))
    (h3 : RoundedImages.distance rp rd (toInt32 w) (toInt32 0) cx cy = .ok (.fin a3))
    (h4 : RoundedImages.distance rp rd (toInt32 w) (toInt32 h) cx cy = .ok (.fin a4)) (p1 : 0 < a1) (p2 : a2 ≤ a1) (p3 : a3 ≤ a1) (p4 : a4 ≤ a1) :
    RoundedImages.maxRadius rp rd (w, h) cx cy = RoundedImages.toInt (RoundedImages.ceil (.fin a1)) := by
  unfold RoundedImages.maxRadius
  simp only [List.foldlM_cons, List.foldlM_nil]
  rw [h1, h2, h3, h4]
  simp only [Outcome.ok_bind, Outcome.pure_eq]
  have g (a b : Rat) (h : a ≤ b) : (if (Fl.fin a).gt (.fin b) = true then Fl.fin a else Fl.fin b) = Fl.fin b := if_neg (by rw [gt_fin]; simpa using h)
  have g' : (if (Fl.fin a1).gt (.fin 0) = true then Fl.fin a1 else Fl.fin 0) = Fl.fin a1 := if_pos (by rw [gt_fin]; simpa using p1)
  rw [g', g _ _ p2, g _ _ p3, g _ _ p4]

theorem radial_one {C : Int} {n v : Nat} (hg : geometry rp rd (1, 1) (C, 1) = .ok (C, 1, (n : Int) + 1))
    (hfr : RoundedImages.radialSumFrame rp rd C 1 [v] 0 (1, 1) (1, 1) 0 = .ok [(n, v)]) (hn : n + 1 < 2 ^ 32) (hv : v < 2 ^ 16) {P : Prop} (p : P) :
    ∃ mem, RoundedImages.RadialRun rp rd [mkBlock (0, 0) (1, 1) [(0, [v])]] (1, 1) (C, 1) (.ok (n + 1, mem)) ∧ mem[n]? = some v ∧ P := by
  have hfs : RoundedImages.radialSumFrames rp rd C 1 (mkBlock (0, 0) (1, 1) [(0, [v])]) (1, 1) (1, 1) ((1 * 1) % 2 ^ 32) = .ok [(n, v)] := by
    unfold RoundedImages.radialSumFrames
    have e1 : (mkBlock (0, 0) (1, 1) [(0, [v])]).imageNumbers = [0] := rfl
    have e2 : (mkBlock (0, 0) (1, 1) [(0, [v])]).data = [v] := rfl
    rw [e1, e2]
    have e3 : List.range [0].length = [0] := rfl
    rw [e3, List.mapM_cons, List.mapM_nil]
    have e4 : readAt [0] 0 = .ok 0 := rfl
    rw [e4]
    simp only [Outcome.ok_bind, Nat.zero_mul]
    rw [hfr]
    rfl
  have hadd : [(n, v)].foldlM atomicAdd (List.replicate (n + 1) 0) = .ok ((List.replicate (n + 1) 0).set n (0 + v)) := by
    rw [List.foldlM_cons]
    have e' : atomicAdd (List.replicate (n + 1) 0) (n, v) = .ok ((List.replicate (n + 1) 0).set n (0 + v)) := by
      unfold atomicAdd
      simp only
      rw [readAt_lt (by simp)]
      simp only [Outcome.ok_bind]
      rw [writeAt_lt (by simp), List.getElem_replicate, Nat.mod_eq_of_lt (by omega)]
    rw [e']
    rfl
  have hdim : (mkBlock (0, 0) (1, 1) [(0, [v])]).frameDims = (1, 1) := rfl
  have hn1 : ((n : Int) + 1).toNat = n + 1 := by omega
  have hsize : (((1, 1) : Nat × Nat).1 * ((1, 1) : Nat × Nat).2 * ((n : Int) + 1).toNat) % 2 ^ 32 = n + 1 := by
    rw [hn1]
    show (1 * 1 * (n + 1)) % 2 ^ 32 = _
    omega
  have hscan : ¬(((1, 1) : Nat × Nat).1 = 0 ∨ ((1, 1) : Nat × Nat).2 = 0) := by simp
  have hrun := radialRun_of hdim hscan hg hfs hsize hadd
  rw [hn1] at hrun
  refine ⟨_, hrun, ?_, p⟩
  rw [List.getElem?_set_self (by simp)]
  simp

/-- **C96**. Beyond 2^26 the radius is wrong: for a frame of one pixel and the center (2^26, 1) the pixel is counted within the radius 2^26, although
none of the 2^26 + 1 radii contains it. -/
theorem C96_radial_sharp {v : Nat} (hv : v < 2 ^ 16) :
    ∃ mem, RoundedImages.RadialRun (nearest float64) (nearest float64) [mkBlock (0, 0) (1, 1) [(0, [v])]] (1, 1) (2 ^ 26, 1) (.ok (2 ^ 26 + 1, mem)) ∧
      mem[2 ^ 26]? = some v ∧ ¬ ∃ rr, rr < 2 ^ 26 + 1 ∧ isRadius (2 ^ 26) 1 0 0 rr := by
  have hd := nearest_rounds wide64
  have z : toInt32 0 = 0 := rfl
  have o : toInt32 1 = 1 := rfl
  have d1 : RoundedImages.distance (nearest float64) (nearest float64) (toInt32 0) (toInt32 0) (2 ^ 26) 1 = .ok (.fin (((2 ^ 26 : Nat) : Int) : Rat)) := by
    rw [distance_of hd hd (dx := -(2 ^ 26)) (dy := -1) (s := 2 ^ 52 + 1) (by rw [z]; norm_num) (by rw [z]; norm_num) (by norm_num) (by norm_num) (by norm_num)
      (by norm_num), sqrt_large (by norm_num) (by norm_num)]
  have d2 : RoundedImages.distance (nearest float64) (nearest float64) (toInt32 0) (toInt32 1) (2 ^ 26) 1 = .ok (.fin (((2 ^ 26 : Nat) : Int) : Rat)) := by
    rw [distance_of hd hd (dx := -(2 ^ 26)) (dy := 0) (s := 2 ^ 52) (by rw [z]; norm_num) (by rw [o]; norm_num) (by norm_num) (by norm_num) (by norm_num)
      (by norm_num), sqrt_large (by norm_num) (by norm_num)]
  have small (s : Nat) (hs : s ≤ 2 ^ 52) : ∃ a : Rat, RoundedCom.sqrt (nearest float64) (.fin (s : Rat)) = .fin a ∧ a ≤ (((2 ^ 26 : Nat) : Int) : Rat) := by
    obtain ⟨a, ea, _, _⟩ := sqrt_nat hd hs
    exact ⟨a, ea, sqrt_mono hd hs ea (sqrt_large le_rfl (by omega))⟩
  obtain ⟨a3, e3, l3⟩ := small ((2 ^ 26 - 1) ^ 2 + 1) (by norm_num)
  obtain ⟨a4, e4, l4⟩ := small ((2 ^ 26 - 1) ^ 2) (by norm_num)
  have d3 : RoundedImages.distance (nearest float64) (nearest float64) (toInt32 1) (toInt32 0) (2 ^ 26) 1 = .ok (.fin a3) := by
    rw [distance_of hd hd (dx := -(2 ^ 26 - 1)) (dy := -1) (s := (2 ^ 26 - 1) ^ 2 + 1) (by rw [o]; norm_num) (by rw [z]; norm_num) (by norm_num) (by norm_num)
      (by norm_num) (by norm_num), e3]
  have d4 : RoundedImages.distance (nearest float64) (nearest float64) (toInt32 1) (toInt32 1) (2 ^ 26) 1 = .ok (.fin a4) := by
    rw [distance_of hd hd (dx := -(2 ^ 26 - 1)) (dy := 0) (s := (2 ^ 26 - 1) ^ 2) (by rw [o]; norm_num) (by rw [o]; norm_num) (by norm_num) (by norm_num)
      (by norm_num) (by norm_num), e4]
  have hceil : RoundedImages.toInt (RoundedImages.ceil (.fin (((2 ^ 26 : Nat) : Int) : Rat))) = .ok ((2 ^ 26 : Nat) : Int) := by
    unfold RoundedImages.ceil
    simp only [Int.ceil_intCast]
    exact (toInt_int _).trans (int32_ok (by norm_num) (by norm_num))
  have hmax := maxRadius_of d1 d2 d3 d4 (by norm_num) le_rfl l3 l4
  rw [hceil] at hmax
  have hg : geometry (nearest float64) (nearest float64) (1, 1) (2 ^ 26, 1) = .ok (2 ^ 26, 1, ((2 ^ 26 : Nat) : Int) + 1) :=
    geometry_of (if_neg (by norm_num)) (if_neg (by norm_num)) hmax (int32_ok (by norm_num) (by norm_num))
  have hfr : radialSumFrame (nearest float64) (nearest float64) (2 ^ 26) 1 [v] 0 (1, 1) (1, 1) 0 = .ok [(2 ^ 26, v)] := by
    unfold RoundedImages.radialSumFrame
    have e : List.range ((1 * 1) % 2 ^ 32) = [0] := rfl
    simp only
    rw [e, List.mapM_cons, List.mapM_nil]
    have q1 : toInt32 (0 % 1) = toInt32 0 := rfl
    have q2 : toInt32 (0 / 1) = toInt32 0 := rfl
    rw [q1, q2, d1]
    simp only [Outcome.ok_bind]
    rw [hceil]
    simp only [Outcome.ok_bind]
    have q3 : readAt [v] (0 + 0) = .ok v := rfl
    rw [q3, z]
    simp only [Outcome.ok_bind]
    norm_num
    rfl
  refine radial_one (n := 2 ^ 26) hg hfr (by norm_num) hv ?_
  rintro ⟨rr, h1, h2, _⟩
  unfold dist2 at h2
  have : (rr : Int) ^ 2 ≤ (2 ^ 26) ^ 2 := by
    have : (rr : Int) ≤ 2 ^ 26 := by omega
    exact pow_le_pow_left₀ (by omega) this 2
  norm_num at h2 this
  omega

/-- **C96**. Beyond 2^53 the sum of a pixel does not grow any more: after 2^38 frames with the value 2^15, up to 2^38 frames with the value 1 change
nothing but the number of frames. -/
theorem C96_average_sharp (k : Nat) (hk : k ≤ 2 ^ 38) :
    RoundedImages.calculateAverage (nearest float64)
        ((List.replicate (2 ^ 38) [(0, [2 ^ 15])] ++ List.replicate k [(0, [1])]).map (mkBlock (0, 0) (1, 1))) =
      .ok [nearest float64 (2 ^ 53 / ((2 ^ 38 + k : Nat) : Rat))] := by
  have hd := nearest_rounds wide64
  obtain ⟨n, hn⟩ : ∃ n : Nat, n = 2 ^ 38 := ⟨_, rfl⟩
  obtain ⟨c, hc⟩ : ∃ c : Nat, c = 2 ^ 15 := ⟨_, rfl⟩
  have stick : rnd (nearest float64) ((Fl.fin ((2 ^ 53 : Nat) : Rat)).add (.fin ((1 : Nat) : Rat))) = .fin ((2 ^ 53 : Nat) : Rat) := by
    show nearest float64 _ = _
    have e := nearest_even wide64 (q := ((2 ^ 53 : Nat) : Rat) + ((1 : Nat) : Rat)) (e := 1) (by show (-1074 : Int) ≤ 1; norm_num) (by show (1 : Int) < 971; norm_num)
      (by show (2 : Rat) ^ 52 * 2 ^ (1 : Int) ≤ _; rw [abs_of_pos (by positivity)]; norm_num)
      (by show _ < (2 : Rat) ^ 53 * 2 ^ (1 : Int); rw [abs_of_pos (by positivity)]; norm_num)
    rw [e, RoundedCenter.roundEven_tie (m := 2 ^ 52) (by norm_num [abs_of_nonneg, abs_of_neg]) (by norm_num)]
    norm_num
  rw [← hn, ← hc]
  obtain ⟨bs, hbs⟩ : ∃ bs, bs = List.replicate n [(0, [c])] ++ List.replicate k [(0, [1])] := ⟨_, rfl⟩
  have hflat : bs.flatten = List.replicate n (0, [c]) ++ List.replicate k (0, [1]) := by
    rw [hbs, List.flatten_append]
    congr 1
    · clear hbs hk hn
      induction n with
      | zero => rfl
      | succ n ih => rw [List.replicate_succ, List.flatten_cons, ih, List.replicate_succ]; rfl
    · clear hbs hk hn
      induction k with
      | zero => rfl
      | succ n ih => rw [List.replicate_succ, List.flatten_cons, ih, List.replicate_succ]; rfl
  rw [← hbs]
  have hmem : ∀ fs ∈ bs, ∃ u, fs = [(0, [u])] := by
    intro fs hfs
    rw [hbs, List.mem_append] at hfs
    rcases hfs with h | h
    · exact ⟨c, List.eq_of_mem_replicate h⟩
    · exact ⟨1, List.eq_of_mem_replicate h⟩
  have hcnt : ((bs.map (mkBlock (0, 0) (1, 1))).map (·.imagesInBlock)).sum = n + k := by
    have : ((bs.map (mkBlock (0, 0) (1, 1))).map (·.imagesInBlock)).sum = bs.flatten.length := by
      rw [List.map_map, List.length_flatten]; rfl
    rw [this, hflat]
    simp
  have hsum := accumBlocks_eq (w := 1) (h := 1) (fun (a : Fl) (v : Nat) => rnd (nearest float64) (a.add (.fin v))) (0, 0) (by norm_num) bs
    (by
      intro fs hfs f hf
      obtain ⟨u, rfl⟩ := hmem fs hfs
      rw [List.mem_singleton.1 hf]
      rfl)
    (by
      intro fs hfs
      obtain ⟨u, rfl⟩ := hmem fs hfs
      norm_num)
    (List.replicate (1 * 1) (.fin 0)) (by simp)
  have f1 : ∀ n s : Nat, s + n * c ≤ 2 ^ 53 → (List.replicate n ((0 : Nat), [c])).foldl (fun img f => List.zipWith (fun (a : Fl) (v : Nat) => rnd (nearest float64) (a.add (.fin v))) img f.2)
      [.fin (s : Rat)] = [.fin ((s + n * c : Nat) : Rat)] := by
    intro n
    induction n with
    | zero => intro s _; simp
    | succ n ih =>
      intro s hs
      rw [List.replicate_succ, List.foldl_cons]
      have e1 : rnd (nearest float64) ((Fl.fin (s : Rat)).add (.fin (c : Rat))) = .fin ((s + c : Nat) : Rat) := by
        show nearest float64 ((s : Rat) + (c : Rat)) = _
        rw [← Nat.cast_add, rd_nat hd (by nlinarith)]
      show List.foldl _ [rnd (nearest float64) ((Fl.fin (s : Rat)).add (.fin (c : Rat)))] _ = _
      rw [e1, ih _ (by nlinarith)]
      congr 3
      ring
  have f2 : ∀ k : Nat, (List.replicate k ((0 : Nat), [1])).foldl (fun img f => List.zipWith (fun (a : Fl) (v : Nat) => rnd (nearest float64) (a.add (.fin v))) img f.2)
      [.fin ((2 ^ 53 : Nat) : Rat)] = [.fin ((2 ^ 53 : Nat) : Rat)] := by
    intro k
    induction k with
    | zero => rfl
    | succ k ih =>
      rw [List.replicate_succ, List.foldl_cons]
      show List.foldl _ [rnd (nearest float64) ((Fl.fin ((2 ^ 53 : Nat) : Rat)).add (.fin ((1 : Nat) : Rat)))] _ = _
      rw [stick, ih]
  have hnc : 0 + n * c = 2 ^ 53 := by rw [hn, hc]; norm_num
  have hz : List.replicate (1 * 1) (Fl.fin 0) = [.fin ((0 : Nat) : Rat)] := by simp
  rw [hflat, List.foldl_append, hz, f1 n 0 (by omega), hnc, f2 k] at hsum
  have hpos : ((n + k : Nat) : Rat) ≠ 0 := by
    have : 0 < n + k := by rw [hn]; positivity
    exact_mod_cast this.ne'
  have hfin : rnd (nearest float64) ((Fl.fin ((2 ^ 53 : Nat) : Rat)).div (nearest float64 ((n + k : Nat) : Rat))) = nearest float64 (2 ^ 53 / ((n + k : Nat) : Rat)) := by
    rw [rd_nat hd (by omega)]
    show rnd (nearest float64) (if ((n + k : Nat) : Rat) = 0 then Fl.signInf ((2 ^ 53 : Nat) : Rat) else .fin (((2 ^ 53 : Nat) : Rat) / ((n + k : Nat) : Rat))) = _
    rw [if_neg hpos]
    show nearest float64 _ = _
    congr 2
  clear hflat f1 f2 stick
  cases bs with
  | nil =>
    have : (List.replicate n [(0, [c])] ++ List.replicate k [(0, [1])]).length = 0 := by rw [← hbs]; rfl
    rw [List.length_append, List.length_replicate, hn] at this
    omega
  | cons b bs =>
    unfold RoundedImages.calculateAverage
    rw [List.map_cons] at hsum hcnt ⊢
    simp only
    have hdim : (mkBlock (0, 0) (1, 1) b).frameDims = (1, 1) := rfl
    rw [hdim]
    simp only
    rw [Nat.mod_eq_of_lt (by norm_num), hz, hsum, hcnt, Nat.mod_eq_of_lt (by omega)]
    show Outcome.ok [rnd (nearest float64) ((Fl.fin ((2 ^ 53 : Nat) : Rat)).div (nearest float64 ((n + k : Nat) : Rat)))] = _
    rw [hfin]

/-- **C96**. With 2^38 such frames the average is 2^14, the mean 2^14 + 1/2. -/
theorem C96_average_sharp_value :
    RoundedImages.calculateAverage (nearest float64)
        ((List.replicate (2 ^ 38) [(0, [2 ^ 15])] ++ List.replicate (2 ^ 38) [(0, [1])]).map (mkBlock (0, 0) (1, 1))) = .ok [.fin (2 ^ 14)] ∧
      ((2 ^ 38 * 2 ^ 15 + 2 ^ 38 * 1 : Nat) : Rat) / ((2 ^ 38 + 2 ^ 38 : Nat) : Rat) = 2 ^ 14 + 1 / 2 := by
  refine ⟨?_, by norm_num⟩
  rw [C96_average_sharp (2 ^ 38) le_rfl]
  have := rd_nat (nearest_rounds wide64) (n := 2 ^ 14) (by norm_num)
  rw [show (2 ^ 53 / ((2 ^ 38 + 2 ^ 38 : Nat) : Rat)) = ((2 ^ 14 : Nat) : Rat) by norm_num, this]
  norm_num

/-! ### Examples: the hypotheses can be met -/

example (hp : Rounds float64 rp) (hd : Rounds float64 rd) : RoundedImages.createAnnularMask rp rd 3 3 1 2 (-1) (-1) =
    Mask.createAnnularMask 3 3 1 2 (-1) (-1) :=
  C96_mask_exact hp hd (by norm_num) (by norm_num) (by norm_num) (by norm_num) _ _

example : StackBlocksOK 2 1 [[(0, [1, 2]), (1, [3, 5])], [(2, [4, 5])]] ∧ (∀ f ∈ [(0, [1, 2]), (1, [3, 5]), (2, [4, 5])], ∀ v ∈ f.2, v < 2 ^ 16) :=
  ⟨⟨by simp, by norm_num, by decide, by decide⟩, by decide⟩

end Stempy.Props
