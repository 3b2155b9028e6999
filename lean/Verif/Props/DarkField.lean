import Verif.Props.Com

/-! C51: virtual dark field images and real-space masks. -/

namespace Stempy.PyImage
open Numpy Sparse

/-- `img[p] += k` -/
def bump (img : List Nat) (p k : Nat) : List Nat := img.set p (img.getD p 0 + k)

theorem bump_length (img : List Nat) (p k : Nat) : (bump img p k).length = img.length := by simp [bump]

theorem bump_getD (img : List Nat) (p k i : Nat) (hp : p < img.length) :
    (bump img p k).getD i 0 = img.getD i 0 + if i = p then k else 0 := by
  unfold bump
  by_cases h : i = p
  · subst h; simp [hp]
  · have : ¬ p = i := fun h' => h h'.symm
    simp [List.getD_eq_getElem?_getD, h, this]

theorem bump_bump (img : List Nat) (p k m : Nat) (hp : p < img.length) : bump (bump img p k) p m = bump img p (k + m) := by
  unfold bump
  simp [hp, Nat.add_assoc]

theorem bump_zero (img : List Nat) (p : Nat) : bump img p 0 = img := by
  unfold bump
  apply List.ext_getElem?
  intro i
  rw [List.getElem?_set]
  by_cases h : p = i
  · subst h
    by_cases hp : p < img.length <;> simp [hp]
  · simp [h]

theorem fold_bump {α : Type} (l : List α) (p : Nat) (g : α → Nat) (f : List Nat → α → Outcome (List Nat)) (n : Nat) (hp : p < n)
    (hf : ∀ img c, img.length = n → f img c = .ok (bump img p (g c))) (img : List Nat) (hn : img.length = n) :
    l.foldlM f img = .ok (bump img p (l.map g).sum) := by
  induction l generalizing img with
  | nil => simp [bump_zero]
  | cons c l ih =>
    rw [List.foldlM_cons, hf img c hn, Outcome.ok_bind, ih _ (by rw [bump_length, hn]), bump_bump _ _ _ _ (by omega)]
    simp

theorem fold_positions (rows : List (List (List Nat))) (k n : Nat) (g : List (List Nat) → Nat) (hg : g [] = 0)
    (f : List Nat → List (List Nat) × Nat → Outcome (List Nat)) (hk : k + rows.length ≤ n)
    (hf : ∀ img r, img.length = n → r.2 < n → r.1 ∈ rows → f img r = .ok (bump img r.2 (g r.1)))
    (img : List Nat) (hn : img.length = n) :
    ∃ out, (rows.zipIdx k).foldlM f img = .ok out ∧ out.length = n ∧
      ∀ i, out.getD i 0 = img.getD i 0 + if k ≤ i then g (rows.getD (i - k) []) else 0 := by
  induction rows generalizing k img with
  | nil => exact ⟨img, rfl, hn, by simp [hg]⟩
  | cons row rows ih =>
    rw [List.zipIdx_cons, List.foldlM_cons]
    simp only [List.length_cons] at hk
    rw [hf img (row, k) hn (by simp; omega) (by simp), Outcome.ok_bind]
    obtain ⟨out, h1, h2, h3⟩ := ih (k + 1) (by omega)
      (fun img r h1 h2 h3 => hf img r h1 h2 (List.mem_cons_of_mem _ h3)) (bump img k (g row)) (by rw [bump_length, hn])
    refine ⟨out, h1, h2, ?_⟩
    intro i
    rw [h3, bump_getD _ _ _ _ (by omega)]
    rcases Nat.lt_trichotomy i k with h | h | h
    · rw [if_neg (by omega), if_neg (by omega), if_neg (by omega)]
    · subst h
      rw [if_pos rfl, if_neg (by omega), if_pos (Nat.le_refl _)]
      simp
    · rw [if_neg (by omega), if_pos (by omega), if_pos (by omega), show i - k = (i - (k + 1)) + 1 by omega]
      simp

/-- A round aperture: column and row of the center, and the radius. -/
abbrev Aperture := Rat × Rat × Rat

/-- The event is inside of the aperture (coordinates `X` and `Y`). -/
def insideXY (X Y : Nat → Nat) (c : Aperture) (e : Nat) : Bool :=
  decide (0 < c.2.2 ∧ ((X e : Rat) - c.2.1) ^ 2 + ((Y e : Rat) - c.1) ^ 2 < c.2.2 ^ 2)

/-- The event of a frame with `w` columns is inside of the aperture. -/
def inside (w : Nat) (c : Aperture) (e : Nat) : Bool :=
  decide (0 < c.2.2 ∧ eventDist2 w (c.2.1, c.1) e < c.2.2 ^ 2)

/-- The apertures as given by the caller. -/
def apertures (xs ys : List Num) (rs : List Rat) : List Aperture :=
  (xs.zip (ys.zip rs)).map fun c => (c.1.val, c.2.1.val, c.2.2)

theorem darkfield_eq {a : SparseArray} {s0 s1 f0 f1 : Nat} (ha : Counted a s0 s1 f0 f1) (hw : f1 ≤ 32768)
    (xs ys : List Num) (rs : List Rat) (hx : ∀ c ∈ xs, c.Near) (hy : ∀ c ∈ ys, c.Near) :
    virtualDarkfield a xs ys rs = .ok ⟨[s0, s1], (List.range (s0 * s1)).map fun p =>
      ((apertures xs ys rs).map fun c => (eventsAt a p).countP (insideXY (· / f0) (· % f1) c)).sum⟩ := by
  have hlen : a.data.length = s0 * s1 := by rw [ha.wf.length, ha.scan]; simp [prod]
  unfold virtualDarkfield
  simp only [SparseArray.shape, ha.scan, ha.frame, List.cons_append, List.nil_append]
  have hcount : ∀ row ∈ a.data, ∀ ev ∈ row, ∀ c ∈ xs.zip (ys.zip rs),
      (ev.filter fun e => sqrtLt (dist2 (e / f0) (e % f1) c.2.1 c.1) c.2.2).length =
        ev.countP (insideXY (· / f0) (· % f1) (c.1.val, c.2.1.val, c.2.2)) := by
    intro row hrow ev hev c hc
    rw [← List.countP_eq_length_filter]
    apply List.countP_congr
    intro e he
    have h2 := ha.lt row hrow ev hev e he
    have hpos : 0 < f1 := by
      rcases Nat.eq_zero_or_pos f1 with h | h
      · simp [h] at h2
      · exact h
    have hc1 := List.of_mem_zip (a := c.1) (b := c.2) hc
    have hc2 := List.of_mem_zip (a := c.2.1) (b := c.2.2) hc1.2
    rw [dist2_eq (lt_of_lt_of_le (Nat.div_lt_of_lt_mul h2) hw) (lt_of_lt_of_le (Nat.mod_lt _ hpos) hw)
      (hy _ hc2.1) (hx _ hc1.1)]
    simp only [sqrtLt, insideXY, pow_two]
  obtain ⟨out, h1, h2, h3⟩ := fold_positions a.data 0 (s0 * s1)
    (fun frames => (frames.map fun ev => ((xs.zip (ys.zip rs)).map fun c =>
      (ev.filter fun e => sqrtLt (dist2 (e / f0) (e % f1) c.2.1 c.1) c.2.2).length).sum).sum) (by simp)
    (fun img r => r.1.foldlM (fun img ev => (xs.zip (ys.zip rs)).foldlM (fun img c =>
        if r.2 < img.length then
          .ok (img.set r.2 (img.getD r.2 0 +
            (ev.filter fun e => sqrtLt (dist2 (e / f0) (e % f1) c.2.1 c.1) c.2.2).length))
        else .throw "IndexError") img) img) (by omega)
    (by
      intro img r hn hr _
      refine fold_bump r.1 r.2 _ _ (s0 * s1) hr ?_ img hn
      intro img ev hn
      refine fold_bump _ r.2 _ _ (s0 * s1) hr ?_ img hn
      intro img c hn
      rw [if_pos (by omega)]
      rfl)
    (List.replicate (s0 * s1) 0) (by simp)
  rw [h1, Outcome.ok_bind, if_pos (by simp [h2, prod])]
  congr 2
  apply List.ext_getElem?
  intro p
  by_cases hp : p < s0 * s1
  · have h4 := h3 p
    rw [List.getD_eq_getElem?_getD, List.getElem?_eq_getElem (by omega)] at h4
    rw [List.getElem?_eq_getElem (by omega)]
    simp only [Option.getD_some] at h4
    rw [h4]
    simp only [List.getElem?_map, List.getElem?_range hp, Option.map_some, Nat.zero_le, if_true, Nat.sub_zero]
    congr 1
    simp only [List.getD_eq_getElem?_getD, List.getElem?_replicate, hp, if_true, Option.getD_some, Nat.zero_add]
    rw [← List.getD_eq_getElem?_getD]
    have hm : a.data.getD p [] ∈ a.data := getD_mem _ _ _ (by omega)
    unfold eventsAt apertures
    generalize a.data.getD p [] = row at hm
    have : ∀ l : List (List Nat), (∀ ev ∈ l, ev ∈ row) → (l.map fun ev => ((xs.zip (ys.zip rs)).map fun c =>
        (ev.filter fun e => sqrtLt (dist2 (e / f0) (e % f1) c.2.1 c.1) c.2.2).length).sum).sum =
        (((xs.zip (ys.zip rs)).map fun c => (c.1.val, c.2.1.val, c.2.2)).map fun c =>
          l.flatten.countP (insideXY (· / f0) (· % f1) c)).sum := by
      intro l
      induction l with
      | nil => intro _; simp [Function.comp_def]
      | cons ev l ih =>
        intro hl
        rw [List.map_cons, List.sum_cons, ih fun x hx => hl x (List.mem_cons_of_mem _ hx)]
        simp only [List.map_map, List.flatten_cons, List.countP_append]
        rw [← sum_map_add']
        congr 1
        apply List.map_congr_left
        intro c hc
        simp only [Function.comp]
        rw [hcount row hm ev (hl ev (by simp)) c hc]
    exact this row fun _ h => h
  · simp [hp, h2]

/-- **C51** for square frames: the image has, at each scan position, the number of events inside of the apertures (an event in
two apertures counts twice: the image is the sum over the apertures). The lists of the caller are cut to the shortest. Integer
centers are at most 32768, and the frame at most 32768 wide (see `C50_large_center`).
Missing: other frame shapes, see `C51_not_square`. -/
theorem C51_darkfield_partial (a : SparseArray) (s0 s1 w : Nat) (ha : Counted a s0 s1 w w) (hw : w ≤ 32768)
    (xs ys : List Num) (rs : List Rat) (hx : ∀ c ∈ xs, c.Near) (hy : ∀ c ∈ ys, c.Near) :
    ∃ img, virtualDarkfield a xs ys rs = .ok ⟨a.scanShape, img⟩ ∧ img.length = s0 * s1 ∧ ∀ p < s0 * s1,
      img[p]? = some ((apertures xs ys rs).map fun c => (eventsAt a p).countP (inside w c)).sum := by
  refine ⟨_, by rw [ha.scan]; exact darkfield_eq ha hw xs ys rs hx hy, by simp, ?_⟩
  intro p hp
  simp only [List.getElem?_map, List.getElem?_range hp, Option.map_some]
  rfl

/-- **C51 is violated for every frame that is not square**: there are an event and an aperture around it such that the event is
not counted. -/
theorem C51_not_square (h w : Nat) (hh : 0 < h) (hw : 0 < w) (hw2 : w ≤ 32768) (hne : h ≠ w) :
    ∃ (a : SparseArray) (x y r : Rat), Counted a 1 1 h w ∧ (eventsAt a 0).countP (inside w (x, y, r)) = 1 ∧
      virtualDarkfield a [.float x] [.float y] [r] = .ok ⟨[1, 1], [0]⟩ := by
  obtain ⟨e, he, hdiv⟩ : ∃ e, e < h * w ∧ e / h ≠ e / w := by
    rcases Nat.lt_or_gt_of_ne hne with hlt | hlt
    · refine ⟨h, ?_, ?_⟩
      · calc h = h * 1 := by ring
          _ < h * w := Nat.mul_lt_mul_of_pos_left (by omega) hh
      · rw [Nat.div_self hh, Nat.div_eq_of_lt hlt]; simp
    · refine ⟨w, ?_, ?_⟩
      · calc w = 1 * w := by ring
          _ < h * w := Nat.mul_lt_mul_of_pos_right (by omega) hw
      · rw [Nat.div_self hw, Nat.div_eq_of_lt hlt]; simp
  have ha := single_counted he
  refine ⟨single h w e, (e % w : Nat), (e / w : Nat), 1, ha, ?_, ?_⟩
  · simp [eventsAt, single, inside, eventDist2]
  · rw [darkfield_eq ha hw2 _ _ _ (by simp [Num.Near]) (by simp [Num.Near])]
    have hsq : ¬ (((e / h : Nat) : Rat) - ((e / w : Nat) : Rat)) ^ 2 < 1 := by
      have hz : ((e / h : Nat) : Int) - ((e / w : Nat) : Int) ≠ 0 := by omega
      have h1 : (1 : Int) ≤ (((e / h : Nat) : Int) - ((e / w : Nat) : Int)) ^ 2 := by
        have := sq_pos_of_ne_zero hz
        omega
      have h2 : (1 : Rat) ≤ (((e / h : Nat) : Rat) - ((e / w : Nat) : Rat)) ^ 2 := by exact_mod_cast h1
      exact not_lt.2 h2
    simp [eventsAt, single, insideXY, apertures, Num.val, hsq]

/-- **C51**: the diffraction pattern for a mask has, at each pixel, the sum of the dense data over the selected positions; for
every frame shape. -/
theorem C51_mask (a : SparseArray) (s0 s1 : Nat) (ha : WF a) (hs : a.scanShape = [s0, s1]) (mask : List Bool) :
    ∃ dp, maskRealSpace a ⟨[s0, s1], mask⟩ = .ok ⟨a.frameShape, dp⟩ ∧ dp.length = prod a.frameShape ∧
      ∀ q < prod a.frameShape, dp[q]? = some
        (((List.range (s0 * s1)).map fun p => if mask[p]? = some true then eventCount a p q else 0).sum) := by
  have hp2 : prod [s0, s1] = s0 * s1 := by simp [prod]
  have hlen : a.data.length = s0 * s1 := by rw [ha.length, hs, hp2]
  unfold maskRealSpace
  rw [hs]
  simp only [and_self, if_true]
  generalize hmr : (List.range (prod [s0, s1])).filter (fun i => mask.getD i false) = mr
  have hmr2 : ∀ i ∈ mr, i < a.data.length := by
    intro i hi
    rw [← hmr] at hi
    have := List.mem_range.1 (List.mem_filter.1 hi).1
    omega
  have hmem : ∀ row ∈ mr.map (fun i => a.data.getD i []), row ∈ a.data := by
    intro row hrow
    obtain ⟨i, hi, rfl⟩ := List.mem_map.1 hrow
    exact getD_mem _ _ _ (hmr2 i hi)
  rw [gather_ok a.data mr [] hmr2, Outcome.ok_bind, replicate_eq_map,
    sumScan_fold _ _ _ fun row hrow => ha.lt row (hmem row hrow), Outcome.ok_bind]
  refine ⟨_, rfl, by simp, ?_⟩
  intro q hq
  simp only [List.getElem?_map, List.getElem?_range hq, Option.map_some, Nat.zero_add, List.map_map]
  congr 1
  have h1 : (mr.map ((fun row => row.countP fun fr => decide (q ∈ fr)) ∘ fun i => a.data.getD i [])) =
      mr.map fun p => eventCount a p q := by
    apply List.map_congr_left
    intro i hi
    exact countP_mem _ _ (ha.nodup _ (getD_mem _ _ _ (hmr2 i hi)))
  rw [h1, ← hmr, hp2]
  generalize List.range (s0 * s1) = l
  induction l with
  | nil => rfl
  | cons i l ih =>
    rw [List.filter_cons, List.map_cons, List.sum_cons, ← ih]
    by_cases hi : mask[i]? = some true
    · simp [List.getD_eq_getElem?_getD, hi]
    · have : mask.getD i false = false := by
        rw [List.getD_eq_getElem?_getD]
        cases hm : mask[i]? with
        | none => rfl
        | some b => cases b <;> simp_all
      rw [if_neg (by rw [this]; simp), if_neg hi, Nat.zero_add]

/-- **C51**: a mask of another shape is refused. -/
theorem C51_mask_shape (a : SparseArray) (s0 s1 m0 m1 : Nat) (hs : a.scanShape = [s0, s1]) (hne : ¬ (s0 = m0 ∧ s1 = m1))
    (mask : List Bool) : maskRealSpace a ⟨[m0, m1], mask⟩ = .throw "AssertionError" := by
  unfold maskRealSpace
  rw [hs]
  simp only [hne, if_false]

theorem increment_one {n : Nat} (f : Nat → Nat) {e : Nat} (he : e < n) :
    increment ((List.range n).map f) [e] = .ok ((List.range n).map fun q => f q + if q = e then 1 else 0) := by
  rw [increment_ok _ _ (by simpa using he), List.length_map, List.length_range]
  congr 1
  apply List.map_congr_left
  intro q hq
  simp [List.getD_eq_getElem?_getD, List.mem_range.1 hq]

theorem increments_one {n : Nat} (ev : List Nat) (f : Nat → Nat) (h : ∀ e ∈ ev, e < n) :
    ev.foldlM (fun dp e => increment dp [e]) ((List.range n).map f) = .ok ((List.range n).map fun q => f q + ev.count q) := by
  induction ev generalizing f with
  | nil => simp
  | cons e ev ih =>
    rw [List.foldlM_cons, increment_one f (h e (by simp)), Outcome.ok_bind, ih _ fun x hx => h x (by simp [hx])]
    congr 1
    apply List.map_congr_left
    intro q _
    rw [List.count_cons]
    by_cases hq : q = e
    · subst hq; simp; omega
    · have : ¬ e = q := fun h => hq h.symm
      simp [hq, this]

/-- **C51**: the summed diffraction pattern of (old-style) event lists counts every event at its pixel; here repeated events
count, too. -/
theorem C51_sum (counts : List (List Nat)) (f0 f1 : Nat) (h : ∀ ev ∈ counts, ∀ e ∈ ev, e < f0 * f1) :
    calculateSumSparse counts f0 f1 = .ok ⟨[f0, f1], (List.range (f0 * f1)).map fun q => counts.flatten.count q⟩ := by
  unfold calculateSumSparse
  rw [replicate_eq_map]
  have : ∀ (l : List (List Nat)) (f : Nat → Nat), (∀ ev ∈ l, ∀ e ∈ ev, e < f0 * f1) →
      l.foldlM (fun dp ev => ev.foldlM (fun dp e => increment dp [e]) dp) ((List.range (f0 * f1)).map f) =
        .ok ((List.range (f0 * f1)).map fun q => f q + l.flatten.count q) := by
    intro l
    induction l with
    | nil => intro f _; simp
    | cons ev l ih =>
      intro f hl
      rw [List.foldlM_cons, increments_one ev f (hl ev (by simp)), Outcome.ok_bind, ih _ fun x hx => hl x (by simp [hx])]
      simp only [List.flatten_cons, List.count_append, Nat.add_assoc]
  rw [this counts _ h]
  simp

/-- An event outside of the frame is refused. -/
theorem C51_sum_outside (f0 f1 e : Nat) (pre : List Nat) (post : List (List Nat)) (rest : List Nat)
    (hpre : ∀ e ∈ pre, e < f0 * f1) (he : f0 * f1 ≤ e) :
    calculateSumSparse ((pre ++ e :: rest) :: post) f0 f1 = .throw "IndexError" := by
  unfold calculateSumSparse
  rw [replicate_eq_map, List.foldlM_cons, List.foldlM_append, increments_one pre _ hpre, Outcome.ok_bind, List.foldlM_cons]
  have : increment ((List.range (f0 * f1)).map fun q => 0 + pre.count q) [e] = .throw "IndexError" := by
    unfold increment
    rw [gather_throw _ _ ⟨e, by simp, by simpa using he⟩]
    rfl
  rw [this]
  rfl

/-- **C51**: data of a one-dimensional scan with more than one row per frame are refused by `virtual_darkfield`. -/
theorem C51_one_dimension (a : SparseArray) (s h w : Nat) (ha : WF a) (hs : a.scanShape = [s]) (hf : a.frameShape = [h, w])
    (hs0 : 0 < s) (hh : 1 < h) (xs ys : List Num) (rs : List Rat) :
    virtualDarkfield a xs ys rs = .throw "ValueError" := by
  have hlen : a.data.length = s := by rw [ha.length, hs]; simp [prod]
  have hsh : s < s * h := by
    calc s = s * 1 := by ring
      _ < s * h := Nat.mul_lt_mul_of_pos_left hh hs0
  unfold virtualDarkfield
  simp only [SparseArray.shape, hs, hf, List.cons_append, List.nil_append]
  obtain ⟨out, h1, h2, -⟩ := fold_positions a.data 0 (s * h)
    (fun frames => (frames.map fun ev => ((xs.zip (ys.zip rs)).map fun c =>
      (ev.filter fun e => sqrtLt (dist2 (e / h) (e % w) c.2.1 c.1) c.2.2).length).sum).sum) (by simp)
    (fun img r => r.1.foldlM (fun img ev => (xs.zip (ys.zip rs)).foldlM (fun img c =>
        if r.2 < img.length then
          .ok (img.set r.2 (img.getD r.2 0 +
            (ev.filter fun e => sqrtLt (dist2 (e / h) (e % w) c.2.1 c.1) c.2.2).length))
        else .throw "IndexError") img) img) (by omega)
    (by
      intro img r hn hr _
      refine fold_bump r.1 r.2 _ _ (s * h) hr ?_ img hn
      intro img ev hn
      refine fold_bump _ r.2 _ _ (s * h) hr ?_ img hn
      intro img c hn
      rw [if_pos (by omega)]
      rfl)
    (List.replicate (s * h) 0) (by simp)
  rw [h1, Outcome.ok_bind, if_neg (by simp [h2, prod]; omega)]

example : virtualDarkfield comSample [.int 2, .float (1 / 2)] [.int 1, .int 0] [1, 3] = .ok ⟨[1, 2], [5, 1]⟩ := by
  decide +kernel

example : maskRealSpace comSample ⟨[1, 2], [true, false]⟩ = .ok ⟨[3, 3], [1, 0, 0, 0, 0, 2, 0, 0, 0]⟩ := by decide +kernel

end Stempy.PyImage
