import Verif.Model.SparseDtype
import Verif.Props.SparseReduce
import Mathlib.Tactic.Ring

/-!
C77: reductions of sparse arrays in their element type.
-/

namespace Stempy.Sparse
open Numpy

/-! ### Counting up in a type -/

/-- `n` times `+= 1`. -/
def countUp (t : DType) : Nat → Nat → Nat
  | 0, x => x
  | n + 1, x => countUp t n (t.store (x + 1))

theorem countUp_add (t : DType) (m n x : Nat) : countUp t (m + n) x = countUp t n (countUp t m x) := by
  induction m generalizing x with
  | zero => rw [Nat.zero_add]; rfl
  | succ m ih => rw [Nat.succ_add]; exact ih _

theorem countUp_uint (b n x : Nat) (hx : x < 2 ^ b) : countUp (.uint b) n x = (x + n) % 2 ^ b := by
  induction n generalizing x with
  | zero => exact (Nat.mod_eq_of_lt hx).symm
  | succ n ih =>
    show countUp (.uint b) n ((x + 1) % 2 ^ b) = _
    rw [ih _ (Nat.mod_lt _ (Nat.two_pow_pos b)), Nat.mod_add_mod]
    congr 1; omega

theorem roundTo_le {p n : Nat} (hp : 1 ≤ p) (h : n ≤ 2 ^ p) : roundTo p n = n := by
  unfold roundTo
  split
  · rfl
  · have e : n = 2 ^ p := by omega
    subst e
    have hl : Nat.log2 (2 ^ p) + 1 - p = 1 := by rw [Nat.log2_two_pow]; omega
    have h2 : 2 ^ p = 2 * 2 ^ (p - 1) := by rw [← Nat.pow_succ']; congr 1; omega
    simp only [hl]
    rw [if_pos (by left; rw [h2]; simp)]
    rw [h2]; simp; omega

theorem roundTo_stuck {p : Nat} (hp : 2 ≤ p) : roundTo p (2 ^ p + 1) = 2 ^ p := by
  unfold roundTo
  rw [if_neg (by omega)]
  have h1 : 2 ^ p < 2 ^ (p + 1) := Nat.pow_lt_pow_succ (by omega)
  have h0 : 4 ≤ 2 ^ p := by calc 4 = 2 ^ 2 := rfl
                              _ ≤ 2 ^ p := Nat.pow_le_pow_right (by omega) hp
  have hl : Nat.log2 (2 ^ p + 1) = p := by
    rw [Nat.log2_eq_iff (by omega)]
    refine ⟨by omega, ?_⟩
    rw [Nat.pow_succ]; omega
  have hl : Nat.log2 (2 ^ p + 1) + 1 - p = 1 := by rw [hl]; omega
  have h2 : 2 ^ p = 2 * (2 * 2 ^ (p - 2)) := by
    rw [← Nat.pow_succ', ← Nat.pow_succ']; congr 1; omega
  simp only [hl]
  rw [if_pos (by right; rw [h2]; omega)]
  rw [h2]; omega

theorem countUp_float {p : Nat} (hp : 2 ≤ p) (n x : Nat) (hx : x ≤ 2 ^ p) :
    countUp (.float p) n x = Min.min (x + n) (2 ^ p) := by
  induction n generalizing x with
  | zero => rw [countUp]; simp [hx]
  | succ n ih =>
    rw [countUp]
    show countUp (.float p) n (roundTo p (x + 1)) = _
    by_cases h : x = 2 ^ p
    · subst h
      rw [roundTo_stuck hp, ih _ (Nat.le_refl _)]; omega
    · rw [roundTo_le (by omega) (by omega), ih _ (by omega)]; omega

theorem incrementT_ok (t : DType) (l idx : List Nat) (h : ∀ i ∈ idx, i < l.length) :
    incrementT t l idx = .ok ((List.range l.length).map fun q => countUp t (if q ∈ idx then 1 else 0) (l.getD q 0)) := by
  rw [incrementT, gather_ok l idx 0 h, Outcome.ok_bind, List.map_map, scatter_map _ idx l h 0]
  congr 1
  refine List.map_congr_left fun q hq => ?_
  by_cases hm : q ∈ idx <;> simp [hm, countUp]

theorem incrementsT_ok (t : DType) (n : Nat) (frames : List (List Nat)) (f : Nat → Nat)
    (h : ∀ fr ∈ frames, ∀ e ∈ fr, e < n) :
    frames.foldlM (incrementT t) ((List.range n).map f) =
      .ok ((List.range n).map fun q => countUp t (frames.countP fun fr => decide (q ∈ fr)) (f q)) := by
  induction frames generalizing f with
  | nil => simp [countUp]
  | cons fr frames ih =>
    rw [List.foldlM_cons, incrementT_ok _ _ _ (by simpa using h fr (by simp)), Outcome.ok_bind]
    have h2 : ((List.range ((List.range n).map f).length).map fun q =>
        countUp t (if q ∈ fr then 1 else 0) (((List.range n).map f).getD q 0)) =
        (List.range n).map fun q => countUp t (if q ∈ fr then 1 else 0) (f q) := by
      rw [List.length_map, List.length_range]
      refine List.map_congr_left fun q hq => ?_
      have hq := List.mem_range.1 hq
      simp [hq]
    rw [h2, ih _ (fun fr2 hfr => h fr2 (by simp [hfr]))]
    congr 1
    refine List.map_congr_left fun q _ => ?_
    rw [List.countP_cons, ← countUp_add]
    congr 1
    by_cases hm : q ∈ fr <;> (simp [hm]; try omega)

theorem sumScanT_fold (t : DType) (n : Nat) (data : List (List (List Nat))) (f : Nat → Nat)
    (h : ∀ row ∈ data, ∀ fr ∈ row, ∀ e ∈ fr, e < n) :
    data.foldlM (fun r frames => frames.foldlM (incrementT t) r) ((List.range n).map f) =
      .ok ((List.range n).map fun q =>
        countUp t (data.map fun row => row.countP fun fr => decide (q ∈ fr)).sum (f q)) := by
  induction data generalizing f with
  | nil => simp [countUp]
  | cons row data ih =>
    rw [List.foldlM_cons, incrementsT_ok t n row f (h row (by simp)), Outcome.ok_bind,
      ih _ fun r hr => h r (by simp [hr])]
    congr 1
    refine List.map_congr_left fun q _ => ?_
    simp only [List.map_cons, List.sum_cons]
    rw [← countUp_add]

theorem sumScanT_eq (t : DType) (a : SparseArray) (ha : WF a) :
    sumScanT t a = .ok ⟨a.frameShape, (List.range (prod a.frameShape)).map fun q =>
      countUp t ((List.range (prod a.scanShape)).map fun p => eventCount a p q).sum 0⟩ := by
  rw [sumScanT, replicate_eq_map, sumScanT_fold _ _ _ _ ha.lt, Outcome.ok_bind]
  congr 2
  refine List.map_congr_left fun q _ => ?_
  congr 2
  rw [map_data a ha]
  refine List.map_congr_left fun p hp => ?_
  exact countP_mem _ _ (ha.nodup _ (getD_mem _ _ _ (by rw [ha.length]; exact List.mem_range.1 hp)))

/-- C77: the sum over the scan axes in an unsigned type is the sum of the dense array modulo 2 ^ bits. -/
theorem C77_sum_scan (b : Nat) (a : SparseArray) (ha : WF a) :
    sumScanT (.uint b) a = .ok ⟨a.frameShape, (List.range (prod a.frameShape)).map fun q =>
      ((List.range (prod a.scanShape)).map fun p => eventCount a p q).sum % 2 ^ b⟩ := by
  rw [sumScanT_eq _ a ha]
  congr 2
  refine List.map_congr_left fun q _ => ?_
  rw [countUp_uint _ _ _ (Nat.two_pow_pos b), Nat.zero_add]

/-- C77: in a floating point type (the sum `mean` divides) it stops at 2 ^ digits, 16777216 for `np.float32`. -/
theorem C77_mean_scan {p : Nat} (hp : 2 ≤ p) (a : SparseArray) (ha : WF a) :
    sumScanT (.float p) a = .ok ⟨a.frameShape, (List.range (prod a.frameShape)).map fun q =>
      Min.min ((List.range (prod a.scanShape)).map fun p => eventCount a p q).sum (2 ^ p)⟩ := by
  rw [sumScanT_eq _ a ha]
  congr 2
  refine List.map_congr_left fun q _ => ?_
  rw [countUp_float hp _ _ (Nat.zero_le _), Nat.zero_add]

theorem foldl_uint (b : Nat) (frames : List (List Nat)) (s : Nat) (hs : s < 2 ^ b) :
    frames.foldl (fun s frame => (DType.uint b).store (s + frame.length)) s = (s + frames.flatten.length) % 2 ^ b := by
  induction frames generalizing s with
  | nil => simp [Nat.mod_eq_of_lt hs]
  | cons f frames ih =>
    rw [List.foldl_cons]
    show List.foldl _ ((s + f.length) % 2 ^ b) _ = _
    rw [ih _ (Nat.mod_lt _ (Nat.two_pow_pos b)), Nat.mod_add_mod, List.flatten_cons, List.length_append]
    congr 1; omega

theorem foldl_float {p : Nat} (hp : 1 ≤ p) (frames : List (List Nat)) (s : Nat)
    (hs : s + frames.flatten.length ≤ 2 ^ p) :
    frames.foldl (fun s frame => (DType.float p).store (s + frame.length)) s = s + frames.flatten.length := by
  induction frames generalizing s with
  | nil => simp
  | cons f frames ih =>
    rw [List.flatten_cons, List.length_append] at hs
    rw [List.foldl_cons, DType.store, roundTo_le hp (by omega), ih _ (by omega), List.flatten_cons, List.length_append]
    omega

theorem foldl_float_one {p : Nat} (hp : 2 ≤ p) (frames : List (List Nat)) (h : ∀ f ∈ frames, f.length = 1) (s : Nat)
    (hs : s ≤ 2 ^ p) :
    frames.foldl (fun s frame => (DType.float p).store (s + frame.length)) s = Min.min (s + frames.length) (2 ^ p) := by
  rw [← countUp_float hp _ _ hs]
  induction frames generalizing s with
  | nil => rfl
  | cons f frames ih =>
    rw [List.foldl_cons, h f (by simp), List.length_cons, countUp]
    refine ih (fun g hg => h g (by simp [hg])) _ ?_
    show roundTo p (s + 1) ≤ _
    by_cases e : s = 2 ^ p
    · rw [e, roundTo_stuck hp]
    · rw [roundTo_le (by omega) (by omega)]; omega

theorem position_sum (a : SparseArray) (ha : WF a) {p : Nat} (hp : p < prod a.scanShape) :
    (a.data.getD p []).flatten.length = ((List.range (prod a.frameShape)).map fun q => eventCount a p q).sum := by
  have hm := getD_mem a.data p [] (by rw [ha.length]; exact hp)
  refine (sum_count _ _ ?_).symm
  intro e he
  obtain ⟨fr, hfr, he⟩ := List.mem_flatten.1 he
  exact ha.lt _ hm fr hfr e he

/-- C77: the sum over the frame axes in an unsigned type. -/
theorem C77_sum_frame (b : Nat) (a : SparseArray) (ha : WF a) :
    sumFrameT (.uint b) a = .ok ⟨a.scanShape, (List.range (prod a.scanShape)).map fun p =>
      ((List.range (prod a.frameShape)).map fun q => eventCount a p q).sum % 2 ^ b⟩ := by
  rw [sumFrameT, perPosition_eq a ha]
  rw [mapM_ok _ _ (fun p => ((List.range (prod a.frameShape)).map fun q => eventCount a p q).sum % 2 ^ b)]
  · rfl
  · intro p hp
    rw [foldl_uint _ _ _ (Nat.two_pow_pos b), Nat.zero_add, position_sum a ha (List.mem_range.1 hp)]

/-- C77: in a floating point type it is exact if there are not more than 2 ^ digits events at a position. -/
theorem C77_mean_frame_partial {p : Nat} (hp : 1 ≤ p) (a : SparseArray) (ha : WF a)
    (hs : ∀ i, i < prod a.scanShape → ((List.range (prod a.frameShape)).map fun q => eventCount a i q).sum ≤ 2 ^ p) :
    sumFrameT (.float p) a = .ok ⟨a.scanShape, (List.range (prod a.scanShape)).map fun i =>
      ((List.range (prod a.frameShape)).map fun q => eventCount a i q).sum⟩ := by
  rw [sumFrameT, perPosition_eq a ha]
  rw [mapM_ok _ _ (fun p => ((List.range (prod a.frameShape)).map fun q => eventCount a p q).sum)]
  · rfl
  · intro i hi
    have hi := List.mem_range.1 hi
    have h1 := position_sum a ha hi
    rw [foldl_float hp _ _ (by rw [Nat.zero_add, h1]; exact hs i hi), Nat.zero_add, h1]

/-- Otherwise events are lost: frames of one event each stop at 2 ^ digits. -/
theorem C77_mean_frame_false {p : Nat} (hp : 2 ≤ p) (a : SparseArray) (ha : WF a)
    (h1 : ∀ row ∈ a.data, ∀ fr ∈ row, fr.length = 1) :
    sumFrameT (.float p) a = .ok ⟨a.scanShape, List.replicate (prod a.scanShape) (Min.min a.numFrames (2 ^ p))⟩ := by
  rw [sumFrameT, perPosition_eq a ha, mapM_ok _ _ (fun _ => Min.min a.numFrames (2 ^ p))]
  · rw [Outcome.ok_bind, List.map_const', List.length_range]
  · intro i hi
    have hm := getD_mem a.data i [] (by rw [ha.length]; exact List.mem_range.1 hi)
    rw [foldl_float_one hp _ (h1 _ hm) _ (Nat.zero_le _), Nat.zero_add, ha.frames _ hm]

theorem map_mod_eq_iff {α : Type} (l : List α) (f : α → Nat) (m : Nat) (hm : 0 < m) :
    (l.map fun x => f x % m) = l.map f ↔ ∀ x ∈ l, f x < m := by
  induction l with
  | nil => simp
  | cons x l ih =>
    simp only [List.map_cons, List.cons.injEq, ih, List.forall_mem_cons]
    refine and_congr_left fun _ => ⟨fun h => ?_, fun h => Nat.mod_eq_of_lt h⟩
    rw [← h]; exact Nat.mod_lt _ hm

/-- C77: the sums in an unsigned type are those of the dense array exactly if all of these fit the type. -/
theorem C77_sum_exact_iff (b : Nat) (a : SparseArray) (ha : WF a) :
    (sumScanT (.uint b) a = reduce (fun l => .ok l.sum) (dense a) (scanAxes a) ↔
      ∀ q, q < prod a.frameShape → ((List.range (prod a.scanShape)).map fun p => eventCount a p q).sum < 2 ^ b) ∧
    (sumFrameT (.uint b) a = reduce (fun l => .ok l.sum) (dense a) (frameAxes a) ↔
      ∀ p, p < prod a.scanShape → ((List.range (prod a.frameShape)).map fun q => eventCount a p q).sum < 2 ^ b) := by
  constructor
  · rw [C77_sum_scan b a ha, reduce_scan, mapM_ok _ _ _ fun _ _ => rfl, Outcome.ok_bind]
    have := map_mod_eq_iff (List.range (prod a.frameShape))
      (fun q => ((List.range (prod a.scanShape)).map fun p => eventCount a p q).sum) (2 ^ b) (Nat.two_pow_pos b)
    simp only [List.mem_range] at this
    rw [← this]
    simp
  · rw [C77_sum_frame b a ha, reduce_frame, mapM_ok _ _ _ fun _ _ => rfl, Outcome.ok_bind]
    have := map_mod_eq_iff (List.range (prod a.scanShape))
      (fun p => ((List.range (prod a.frameShape)).map fun q => eventCount a p q).sum) (2 ^ b) (Nat.two_pow_pos b)
    simp only [List.mem_range] at this
    rw [← this]
    simp

/-! ### Maximum and minimum -/

theorem count_lt (a : SparseArray) (ha : WF a) {b : Nat} (hb : a.numFrames < 2 ^ b) {row : List (List Nat)} (hr : row ∈ a.data)
    (q : Nat) : row.flatten.count q < 2 ^ b := by
  have h1 := count_le_frames row q (ha.nodup row hr)
  rw [ha.frames row hr] at h1
  omega

theorem map_store_counts {b : Nat} {l : List Nat} (h : ∀ q, l.count q < 2 ^ b) :
    (counts l).map (DType.uint b).store = counts l := by
  rw [counts, List.map_map]
  exact List.map_congr_left fun q _ => Nat.mod_eq_of_lt (h q)

theorem maxScanT_fold (b n : Nat) (data : List (List (List Nat))) (f : Nat → Nat)
    (h : ∀ row ∈ data, ∀ fr ∈ row, ∀ e ∈ fr, e < n) (hne : ∀ row ∈ data, 0 < row.length)
    (hc : ∀ row ∈ data, ∀ q, row.flatten.count q < 2 ^ b) (hf : ∀ q, f q < 2 ^ b) :
    data.foldlM (fun r frames => do
      let c ← concatenate frames
      let old ← gather r (unique c)
      scatter r (unique c) ((List.zipWith Max.max old (counts c)).map (DType.uint b).store)) ((List.range n).map f) =
    data.foldlM (fun r frames => do
      let c ← concatenate frames
      let old ← gather r (unique c)
      scatter r (unique c) (List.zipWith Max.max old (counts c))) ((List.range n).map f) := by
  induction data generalizing f with
  | nil => rfl
  | cons row data ih =>
    have hlt : ∀ e ∈ unique row.flatten, e < n := by
      intro e he
      obtain ⟨fr, hfr, he⟩ := List.mem_flatten.1 ((mem_unique _ _).1 he)
      exact h row (by simp) fr hfr e he
    have h1 := maxScan_fold n [row] f (fun r hr => by rw [List.mem_singleton.1 hr]; exact h row (by simp))
      (fun r hr => by rw [List.mem_singleton.1 hr]; exact hne row (by simp))
    rw [List.foldlM_cons] at h1
    have h1' : (do
      let c ← concatenate row
      let old ← gather ((List.range n).map f) (unique c)
      scatter ((List.range n).map f) (unique c) (List.zipWith Max.max old (counts c))) =
        .ok ((List.range n).map fun q => Max.max (f q) (row.flatten.count q)) := by
      cases hX : (do
        let c ← concatenate row
        let old ← gather ((List.range n).map f) (unique c)
        scatter ((List.range n).map f) (unique c) (List.zipWith Max.max old (counts c))) with
      | ok v => rw [hX] at h1; exact h1
      | throw m => rw [hX] at h1; exact absurd h1 (by simp)
      | ub => rw [hX] at h1; exact absurd h1 (by simp)
    have h2 : (do
      let c ← concatenate row
      let old ← gather ((List.range n).map f) (unique c)
      scatter ((List.range n).map f) (unique c) ((List.zipWith Max.max old (counts c)).map (DType.uint b).store)) =
        .ok ((List.range n).map fun q => Max.max (f q) (row.flatten.count q)) := by
      rw [← h1', concatenate_ok (hne row (by simp)), Outcome.ok_bind, Outcome.ok_bind,
        gather_ok _ _ 0 (by simpa using hlt), Outcome.ok_bind, Outcome.ok_bind]
      congr 1
      rw [counts, List.zipWith_map, List.zipWith_self, List.map_map]
      refine List.map_congr_left fun e he => ?_
      have e1 := hf e
      have e2 := hc row (by simp) e
      have : Max.max (f e) (row.flatten.count e) < 2 ^ b := by omega
      simpa [hlt e he, DType.store] using Nat.mod_eq_of_lt this
    rw [List.foldlM_cons, List.foldlM_cons, h1', h2, Outcome.ok_bind, Outcome.ok_bind]
    refine ih _ (fun r hr => h r (by simp [hr])) (fun r hr => hne r (by simp [hr])) (fun r hr => hc r (by simp [hr])) ?_
    intro q
    have e1 := hf q
    have e2 := hc row (by simp) q
    omega

/-- C77: if the number of frames per position fits the type, so do all counts, and the maxima and minima are those of `C41`. -/
theorem C77_max_partial (b : Nat) (a : SparseArray) (ha : WF a) (hk : 0 < a.numFrames) (hb : a.numFrames < 2 ^ b) :
    maxScanT (.uint b) a = maxScan a ∧ maxFrameT (.uint b) a = maxFrame a := by
  constructor
  · rw [maxScanT, maxScan, replicate_eq_map, maxScanT_fold _ _ _ _ ha.lt (row_pos ha hk)
      (fun row hr q => count_lt a ha hb hr q) (fun _ => Nat.two_pow_pos b)]
  · rw [maxFrameT, maxFrame, perPosition_eq a ha, perPosition_eq a ha]
    congr 1
    refine mapM_congr' _ _ _ fun p hp => ?_
    have hp := List.mem_range.1 hp
    have hr := getD_mem a.data p [] (by rw [ha.length]; exact hp)
    rw [concatenate_ok (getD_pos ha hk hp), Outcome.ok_bind, Outcome.ok_bind]
    cases hm : maxOf (counts (a.data.getD p []).flatten) with
    | throw m => rfl
    | ub => rfl
    | ok m =>
      rw [Outcome.ok_bind]
      congr 1
      refine Nat.mod_eq_of_lt ?_
      have hne : counts (a.data.getD p []).flatten ≠ [] := by intro h; rw [h] at hm; simp [maxOf] at hm
      rw [maxOf_ne hne] at hm
      injection hm with hm
      rw [← hm]
      have : ∀ (l : List Nat) (s : Nat), s < 2 ^ b → (∀ x ∈ l, x < 2 ^ b) → l.foldl Max.max s < 2 ^ b := by
        intro l
        induction l with
        | nil => intro s hs _; exact hs
        | cons x l ih =>
          intro s hs h
          rw [List.foldl_cons]
          refine ih _ ?_ fun y hy => h y (by simp [hy])
          have := h x (by simp)
          omega
      refine this _ _ (Nat.two_pow_pos b) fun x hx => ?_
      obtain ⟨q, _, rfl⟩ := List.mem_map.1 hx
      exact count_lt a ha hb hr q

theorem minScanT_fold (b n : Nat) (data : List (List (List Nat))) (r : List Nat)
    (hne : ∀ row ∈ data, 0 < row.length) (hc : ∀ row ∈ data, ∀ q, row.flatten.count q < 2 ^ b) :
    data.foldlM (fun r frames => do
      let c ← concatenate frames
      let expanded ← scatter (List.replicate n 0) (unique c) ((counts c).map (DType.uint b).store)
      .ok (List.zipWith Min.min r expanded)) r =
    data.foldlM (fun r frames => do
      let c ← concatenate frames
      let expanded ← scatter (List.replicate n 0) (unique c) (counts c)
      .ok (List.zipWith Min.min r expanded)) r := by
  induction data generalizing r with
  | nil => rfl
  | cons row data ih =>
    have ih' := fun r => ih r (fun r hr => hne r (by simp [hr])) (fun r hr => hc r (by simp [hr]))
    rw [List.foldlM_cons, List.foldlM_cons, concatenate_ok (hne row (by simp)), Outcome.ok_bind, Outcome.ok_bind,
      map_store_counts (hc row (by simp))]
    congr 1
    funext init
    exact ih' init

/-- The minima, with the largest value of the type in place of that of `np.uint32`. -/
theorem C77_min_partial (b : Nat) (a : SparseArray) (ha : WF a) (hk : 0 < a.numFrames) (hb : a.numFrames < 2 ^ b)
    (hs : 0 < prod a.scanShape) :
    minScanT (.uint b) a = reduce minOf (dense a) (scanAxes a) ∧
    minFrameT (.uint b) a = reduce minOf (dense a) (frameAxes a) := by
  constructor
  · rw [reduce_scan, minScanT]
    simp only [DType.max, Outcome.ok_bind]
    rw [minScanT_fold _ _ _ _ (row_pos ha hk) (fun row hr q => count_lt a ha hb hr q), replicate_eq_map _ (2 ^ b - 1),
      minScan_fold _ _ _ ha.lt (row_pos ha hk), Outcome.ok_bind,
      mapM_ok _ _ (fun q => (a.data.map fun row => row.flatten.count q).foldl Min.min (2 ^ b - 1))]
    · rfl
    · intro q _
      rw [map_data a ha, foldl_min_eq (m := 2 ^ b - 1)]
      · rfl
      · simp; omega
      · intro x hx
        obtain ⟨p, hp, rfl⟩ := List.mem_map.1 hx
        have hm := getD_mem a.data p [] (by rw [ha.length]; exact List.mem_range.1 hp)
        have := count_lt a ha hb hm q
        show eventCount a p q ≤ _
        unfold eventCount
        omega
  · rw [reduce_frame, minFrameT]
    show perPosition a (2 ^ b - 1) _ = _
    rw [perPosition_eq a ha]
    congr 1
    refine mapM_congr' _ _ _ fun p hp => ?_
    have hp := List.mem_range.1 hp
    have hr := getD_mem a.data p [] (by rw [ha.length]; exact hp)
    rw [concatenate_ok (getD_pos ha hk hp), Outcome.ok_bind]
    refine Eq.trans ?_ (minFrame_row (events_lt ha hp))
    split
    · rfl
    · cases hm : minOf (counts (a.data.getD p []).flatten) with
      | throw m => rfl
      | ub => rfl
      | ok m =>
        rw [Outcome.ok_bind]
        congr 1
        refine Nat.mod_eq_of_lt ?_
        obtain ⟨q, _, rfl⟩ := List.mem_map.1 (minOf_spec.1 hm).1
        exact count_lt a ha hb hr q

/-- A floating point number with `p` digits (the exponent is not bounded). -/
def Rep (p m : Nat) : Prop := ∃ q e, q < 2 ^ p ∧ m = q * 2 ^ e

theorem log2_bounds {n p : Nat} (hp : 1 ≤ p) (hn : 2 ^ p ≤ n) :
    2 ^ (p - 1) ≤ n / 2 ^ (n.log2 + 1 - p) ∧ n / 2 ^ (n.log2 + 1 - p) < 2 ^ p ∧ p ≤ n.log2 := by
  have hn0 : n ≠ 0 := by have := Nat.two_pow_pos p; omega
  have h1 : 2 ^ n.log2 ≤ n := Nat.log2_self_le hn0
  have h2 : n < 2 ^ (n.log2 + 1) := Nat.lt_log2_self
  have hp2 : p ≤ n.log2 := (Nat.le_log2 hn0).2 hn
  have hpos := Nat.two_pow_pos (n.log2 + 1 - p)
  refine ⟨?_, ?_, hp2⟩
  · rw [Nat.le_div_iff_mul_le hpos, ← Nat.pow_add]
    have : p - 1 + (n.log2 + 1 - p) = n.log2 := by omega
    rw [this]; exact h1
  · rw [Nat.div_lt_iff_lt_mul hpos, ← Nat.pow_add]
    have : p + (n.log2 + 1 - p) = n.log2 + 1 := by omega
    rw [this]; exact h2

/-- No number with `p` digits is strictly between two neighbours. -/
theorem rep_gap {p q e m : Nat} (hp : 1 ≤ p) (hq : 2 ^ (p - 1) ≤ q) (hm : Rep p m) : m ≤ q * 2 ^ e ∨ (q + 1) * 2 ^ e ≤ m := by
  obtain ⟨q', e', h1, rfl⟩ := hm
  rcases Nat.lt_or_ge e' e with h | h
  · left
    have h2 : 2 ^ p * 2 ^ e' ≤ 2 ^ (p - 1) * 2 ^ e := by
      rw [← Nat.pow_add, ← Nat.pow_add]
      exact Nat.pow_le_pow_right (by omega) (by omega)
    calc q' * 2 ^ e' ≤ 2 ^ p * 2 ^ e' := Nat.mul_le_mul_right _ (by omega)
      _ ≤ 2 ^ (p - 1) * 2 ^ e := h2
      _ ≤ q * 2 ^ e := Nat.mul_le_mul_right _ hq
  · obtain ⟨d, rfl⟩ : ∃ d, e' = e + d := ⟨e' - e, by omega⟩
    have h2 : q' * 2 ^ (e + d) = (q' * 2 ^ d) * 2 ^ e := by rw [Nat.pow_add]; ring
    rw [h2]
    rcases Nat.lt_or_ge q (q' * 2 ^ d) with h3 | h3
    · right; exact Nat.mul_le_mul_right _ h3
    · left; exact Nat.mul_le_mul_right _ h3

/-- C77: storing a number in a floating point type gives the nearest one of the type; of two, the one with an even significand. -/
theorem C77_round {p : Nat} (hp : 1 ≤ p) (n : Nat) :
    Rep p ((DType.float p).store n) ∧
    ∀ m, Rep p m → m ≠ (DType.float p).store n →
      ((DType.float p).store n - n) + (n - (DType.float p).store n) < (m - n) + (n - m) ∨
      ((DType.float p).store n - n) + (n - (DType.float p).store n) = (m - n) + (n - m) ∧
        ∃ q e, q % 2 = 0 ∧ 2 ^ (p - 1) ≤ q ∧ (DType.float p).store n = q * 2 ^ e := by
  show Rep p (roundTo p n) ∧ ∀ m, Rep p m → m ≠ roundTo p n → (roundTo p n - n) + (n - roundTo p n) < _ ∨
    (roundTo p n - n) + (n - roundTo p n) = _ ∧ ∃ q e, q % 2 = 0 ∧ 2 ^ (p - 1) ≤ q ∧ roundTo p n = q * 2 ^ e
  unfold roundTo
  by_cases hn : n < 2 ^ p
  · rw [if_pos hn]
    exact ⟨⟨n, 0, hn, by simp⟩, fun m _ hm => .inl (by omega)⟩
  rw [if_neg hn]
  obtain ⟨b1, b2, b3⟩ := log2_bounds (n := n) hp (by omega)
  simp only
  generalize he : n.log2 + 1 - p = e at *
  have hdm := Nat.div_add_mod n (2 ^ e)
  have hml := Nat.mod_lt n (Nat.two_pow_pos e)
  generalize hq : n / 2 ^ e = q at *
  generalize hr : n % 2 ^ e = r at *
  have hs : (q + 1) * 2 ^ e = q * 2 ^ e + 2 ^ e := by ring
  have hc : 2 ^ e * q = q * 2 ^ e := by ring
  have heven : ∃ k, e = k + 1 := ⟨e - 1, by omega⟩
  obtain ⟨k, rfl⟩ := heven
  split
  · rename_i h
    refine ⟨⟨q, k + 1, b2, rfl⟩, fun m hm hne => ?_⟩
    rcases rep_gap (e := k + 1) hp b1 hm with h3 | h3
    · left; omega
    · rcases h with h | ⟨h, h'⟩
      · left; omega
      · by_cases hm2 : m = (q + 1) * 2 ^ (k + 1)
        · right; exact ⟨by omega, q, k + 1, h', b1, rfl⟩
        · left; omega
  · rename_i h
    have h4 : 2 ^ (k + 1) ≤ 2 * r ∧ (2 * r = 2 ^ (k + 1) → q % 2 = 1) := by
      constructor
      · exact Nat.le_of_not_lt fun hx => h (.inl hx)
      · intro hx
        rcases Nat.mod_two_eq_zero_or_one q with h5 | h5
        · exact absurd (.inr ⟨hx, h5⟩) h
        · exact h5
    refine ⟨?_, fun m hm hne => ?_⟩
    · rcases Nat.lt_or_ge (q + 1) (2 ^ p) with h5 | h5
      · exact ⟨q + 1, k + 1, h5, rfl⟩
      · have : q + 1 = 2 ^ p := by omega
        refine ⟨2 ^ (p - 1), k + 2, Nat.pow_lt_pow_right (by omega) (by omega), ?_⟩
        rw [this, ← Nat.pow_add, ← Nat.pow_add]; congr 1; omega
    · rcases rep_gap (e := k + 1) hp b1 hm with h3 | h3
      · by_cases hm2 : 2 * r = 2 ^ (k + 1) ∧ m = q * 2 ^ (k + 1)
        · right
          have := h4.2 hm2.1
          exact ⟨by omega, q + 1, k + 1, by omega, by omega, rfl⟩
        · left; omega
      · left; omega

/-- `sample` has two frames at each position, and sums of 3 (see above): with one bit the sums are wrong, with two bits all is right. -/
example : WF sample ∧ sample.numFrames < 2 ^ 2 ∧ 0 < sample.numFrames ∧ 0 < prod sample.scanShape ∧
    sumScanT (.uint 1) sample = .ok ⟨[2, 3], [0, 1, 1, 1, 0, 1]⟩ ∧ sumScanT (.uint 2) sample = .ok ⟨[2, 3], [2, 1, 3, 1, 2, 1]⟩ ∧
    sumFrameT (.uint 1) sample = .ok ⟨[2, 2], [1, 1, 1, 1]⟩ ∧ sumFrameT (.uint 2) sample = .ok ⟨[2, 2], [3, 1, 3, 3]⟩ ∧
    maxScanT (.uint 2) sample = .ok ⟨[2, 3], [1, 1, 2, 1, 2, 1]⟩ ∧ minScanT (.uint 2) sample = .ok ⟨[2, 3], [0, 0, 0, 0, 0, 0]⟩ :=
  ⟨sample_wf, by decide, by decide, by decide, by decide +kernel, by decide +kernel, by decide +kernel, by decide +kernel,
    by decide +kernel, by decide +kernel⟩

/-- Five frames of one event with two digits: 4, and not 5. -/
example :
    let a : SparseArray := { data := [List.replicate 5 [0]], numFrames := 5, scanShape := [1, 1], frameShape := [1, 2] }
    (∀ row ∈ a.data, ∀ fr ∈ row, fr.length = 1) ∧
    sumFrameT (.float 2) a = .ok ⟨[1, 1], [4]⟩ ∧ sumScanT (.float 2) a = .ok ⟨[1, 2], [4, 0]⟩ ∧
    sumFrameT (.float 3) a = .ok ⟨[1, 1], [5]⟩ ∧ roundTo 2 5 = 4 ∧ roundTo 2 7 = 8 ∧ roundTo 3 11 = 12 := by
  decide +kernel

/-- 256 frames with the same pixel, in `np.uint8`: the maximum and the dense array have 0, the sum over the frame axes too. -/
theorem C77_uint8_false :
    let a : SparseArray := { data := [List.replicate 256 [0]], numFrames := 256, scanShape := [1, 1], frameShape := [1, 2] }
    maxScanT (.uint 8) a = .ok ⟨[1, 2], [0, 0]⟩ ∧ maxFrameT (.uint 8) a = .ok ⟨[1, 1], [0]⟩ ∧
    sumFrameT (.uint 8) a = .ok ⟨[1, 1], [0]⟩ ∧ denseT (.uint 8) a = .ok ⟨[1, 1, 1, 2], [0, 0]⟩ ∧
    reduce maxOf (dense a) (scanAxes a) = .ok ⟨[1, 2], [256, 0]⟩ := by
  decide +kernel

end Stempy.Sparse
