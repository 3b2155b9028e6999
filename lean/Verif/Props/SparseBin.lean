import Verif.Props.SparseSlice
import Mathlib.Data.List.Perm.Basic
import Mathlib.Tactic.Ring

/-! # C42, C46: binning scan positions, changing the shape -/

namespace Stempy.Sparse
open Numpy Compat

theorem perm_flatMap_comm {α β γ : Type} (l : List α) (m : List β) (f : α → β → List γ) :
    (l.flatMap fun x => m.flatMap fun y => f x y).Perm (m.flatMap fun y => l.flatMap fun x => f x y) := by
  induction l with
  | nil => simp
  | cons x l ih =>
    simp only [List.flatMap_cons]
    exact (List.Perm.append_left _ ih).trans (List.flatMap_append_perm _ _ _)

/-- The old positions of the new position (i, j): the square of side `b` at row `i * b` and column `j * b`. -/
def block (b w i j : Nat) : List Nat :=
  (List.range b).flatMap fun u => (List.range b).map fun v => (i * b + u) * w + (j * b + v)

theorem range_mul (n m : Nat) {β : Type} (f : Nat → List β) :
    (List.range (n * m)).flatMap f = (List.range n).flatMap fun i => (List.range m).flatMap fun j => f (i * m + j) := by
  rw [← flatMap_range, List.flatMap_assoc]
  refine List.flatMap_congr fun i _ => ?_
  rw [List.flatMap_map]

/-- Every old position belongs to exactly one new one. -/
theorem block_perm (b m n : Nat) :
    ((List.range m).flatMap fun i => (List.range n).flatMap fun j => block b (n * b) i j).Perm (List.range (m * b * (n * b))) := by
  have h : (List.range (m * b * (n * b))) = (List.range m).flatMap fun i => (List.range b).flatMap fun u =>
      (List.range n).flatMap fun j => (List.range b).map fun v => (i * b + u) * (n * b) + (j * b + v) := by
    have h0 := range_mul (m * b) (n * b) (fun i => [i])
    simp only [List.flatMap_singleton'] at h0
    rw [h0, range_mul m b]
    refine List.flatMap_congr fun i _ => List.flatMap_congr fun u _ => ?_
    rw [range_mul n b]
    refine List.flatMap_congr fun j _ => ?_
    rw [List.map_eq_flatMap]
  rw [h]
  refine List.Perm.flatMap_left _ fun i _ => ?_
  exact perm_flatMap_comm _ _ _

theorem block_lt {b m n i j : Nat} (hi : i < m) (hj : j < n) : ∀ p ∈ block b (n * b) i j, p < m * b * (n * b) := by
  intro p hp
  have := (block_perm b m n).mem_iff (a := p)
  rw [← List.mem_range, ← this, List.mem_flatMap]
  refine ⟨i, List.mem_range.2 hi, ?_⟩
  rw [List.mem_flatMap]
  exact ⟨j, List.mem_range.2 hj, hp⟩

theorem binScans_eq (a : SparseArray) (ha : WF a) (b m n : Nat) (hb : 0 < b) (hs : a.scanShape = [m * b, n * b]) :
    binScans a b = .ok { a with
      data := (List.range m).flatMap fun i => (List.range n).map fun j =>
        (block b (n * b) i j).flatMap fun p => a.data.getD p []
      numFrames := b ^ 2 * a.numFrames
      scanShape := [m, n] } := by
  have hl : a.data.length = m * b * (n * b) := by rw [ha.length, hs]; simp [prod]
  unfold binScans
  rw [if_neg (by omega), if_pos (by simp [hs]), hs]
  simp only
  rw [Nat.mul_div_cancel _ hb, Nat.mul_div_cancel _ hb,
    mapM_ok _ _ (fun i => (List.range n).map fun j => (block b (n * b) i j).flatMap fun p => a.data.getD p []), Outcome.ok_bind]
  · unfold SparseArray.init
    rw [if_pos]
    · rfl
    · simp [prod, List.length_flatten, Function.comp_def]
  · intro i hi
    refine mapM_ok _ _ _ fun j hj => ?_
    have := block_lt (b := b) (List.mem_range.1 hi) (List.mem_range.1 hj)
    rw [show ((List.range b).flatMap fun u => (List.range b).map fun v => (i * b + u) * (n * b) + (j * b + v)) =
      block b (n * b) i j from rfl, gather_ok _ _ [] (by rw [hl]; exact this), Outcome.ok_bind, List.flatMap_def]

theorem length_block (b w i j : Nat) : (block b w i j).length = b ^ 2 := by
  simp [block, List.length_flatMap, Nat.pow_two]

theorem count_flatten_flatMap (l : List Nat) (f : Nat → List (List Nat)) (q : Nat) :
    (l.flatMap f).flatten.count q = (l.map fun p => (f p).flatten.count q).sum := by
  induction l with
  | nil => rfl
  | cons p l ih => simp [List.flatMap_cons, ih]

/-- C42: binning the scan by a factor that divides both dimensions. The frames of a new position are exactly those of the old
positions in its square, so every count of the dense array is the sum of the counts in the square; every old frame occurs
exactly once in the result. -/
theorem C42_bin_scans (a : SparseArray) (ha : WF a) (b h w : Nat) (hb : 0 < b) (hs : a.scanShape = [h, w])
    (hh : b ∣ h) (hw : b ∣ w) :
    ∃ r, binScans a b = .ok r ∧ WF r ∧ r.scanShape = [h / b, w / b] ∧ r.frameShape = a.frameShape ∧
      r.sparseSlicing = a.sparseSlicing ∧ r.allowFullExpand = a.allowFullExpand ∧
      (∀ i j, i < h / b → j < w / b → r.data[i * (w / b) + j]? =
        some ((List.range b).flatMap fun u => (List.range b).flatMap fun v => a.data.getD ((i * b + u) * w + (j * b + v)) [])) ∧
      (∀ i j q, i < h / b → j < w / b → eventCount r (i * (w / b) + j) q =
        ((List.range b).map fun u => ((List.range b).map fun v => eventCount a ((i * b + u) * w + (j * b + v)) q).sum).sum) ∧
      r.data.flatten.Perm a.data.flatten := by
  obtain ⟨m, rfl⟩ := hh
  obtain ⟨n, rfl⟩ := hw
  rw [Nat.mul_comm b m, Nat.mul_comm b n] at *
  have hl : a.data.length = m * b * (n * b) := by rw [ha.length, hs]; simp [prod]
  have hm : ∀ i < m, ∀ j < n, ∀ p ∈ block b (n * b) i j, a.data.getD p [] ∈ a.data := fun i hi j hj p hp =>
    getD_mem _ _ _ (by rw [hl]; exact block_lt hi hj p hp)
  rw [Nat.mul_div_cancel _ hb, Nat.mul_div_cancel _ hb]
  have hdata : ∀ i j, i < m → j < n → ((List.range m).flatMap fun i => (List.range n).map fun j =>
        (block b (n * b) i j).flatMap fun p => a.data.getD p [])[i * n + j]? =
      some ((block b (n * b) i j).flatMap fun p => a.data.getD p []) := by
    intro i j hi hj
    rw [List.flatMap_def, flatten_uniform_getElem? _ n (by simp) _ _ hj]
    simp [hi, hj]
  refine ⟨_, binScans_eq a ha b m n hb hs, ⟨?_, ?_, ?_, ?_, ?_⟩, rfl, rfl, rfl, rfl, ?_, ?_, ?_⟩
  · exact .inr rfl
  · simp [prod, List.length_flatMap]
  · intro row hrow
    simp only [List.mem_flatMap, List.mem_map, List.mem_range] at hrow
    obtain ⟨i, hi, j, hj, rfl⟩ := hrow
    rw [List.length_flatMap]
    rw [List.map_congr_left (g := fun _ => a.numFrames) fun p hp => ha.frames _ (hm i hi j hj p hp)]
    simp [length_block]
  · intro row hrow fr hfr
    simp only [List.mem_flatMap, List.mem_map, List.mem_range] at hrow
    obtain ⟨i, hi, j, hj, rfl⟩ := hrow
    obtain ⟨p, hp, hfr⟩ := List.mem_flatMap.1 hfr
    exact ha.lt _ (hm i hi j hj p hp) fr hfr
  · intro row hrow fr hfr
    simp only [List.mem_flatMap, List.mem_map, List.mem_range] at hrow
    obtain ⟨i, hi, j, hj, rfl⟩ := hrow
    obtain ⟨p, hp, hfr⟩ := List.mem_flatMap.1 hfr
    exact ha.nodup _ (hm i hi j hj p hp) fr hfr
  · intro i j hi hj
    rw [hdata i j hi hj]
    simp only [block, List.flatMap_assoc, List.flatMap_map]
  · intro i j q hi hj
    unfold eventCount
    rw [List.getD_eq_getElem?_getD, hdata i j hi hj, Option.getD_some, count_flatten_flatMap, block, List.map_flatMap,
      List.flatMap_def, List.sum_flatten, List.map_map]
    simp [Function.comp_def]
  · have h1 : ((List.range m).flatMap fun i => (List.range n).map fun j =>
        (block b (n * b) i j).flatMap fun p => a.data.getD p []).flatten =
        ((List.range m).flatMap fun i => (List.range n).flatMap fun j => block b (n * b) i j).flatMap fun p => a.data.getD p [] := by
      rw [List.flatten_eq_flatMap]
      simp only [List.flatMap_assoc, List.flatMap_map, id_eq]
    show List.Perm (List.flatten _) _
    rw [h1]
    refine ((block_perm b m n).flatMap_right _).trans ?_
    rw [← hl, List.flatMap_def, map_getD_range]

/-- The total number of events, from `C42_bin_scans`. -/
theorem C42_total (a r : SparseArray) (ha : WF a) (b h w : Nat) (hb : 0 < b) (hs : a.scanShape = [h, w])
    (hh : b ∣ h) (hw : b ∣ w) (hr : binScans a b = .ok r) (q : Nat) :
    r.data.flatten.flatten.length = a.data.flatten.flatten.length ∧ r.data.flatten.flatten.count q = a.data.flatten.flatten.count q := by
  obtain ⟨r', h1, -, -, -, -, -, -, -, hp⟩ := C42_bin_scans a ha b h w hb hs hh hw
  rw [hr] at h1
  injection h1 with h1
  subst h1
  have := hp.flatten
  exact ⟨this.length_eq, this.count_eq q⟩

/-- Other factors are refused. -/
theorem C42_refused (a : SparseArray) (b : Nat) (hb : 0 < b) (h : ∃ x ∈ a.scanShape, ¬ b ∣ x) : binScans a b = .throw "ValueError" := by
  unfold binScans
  rw [if_neg (by omega), if_neg]
  simp only [List.all_eq_true, decide_eq_true_eq, not_forall]
  obtain ⟨x, hx, hn⟩ := h
  exact ⟨x, hx, fun h => hn (Nat.dvd_of_mod_eq_zero h)⟩

/-- A scan with one dimension is refused, though its size is a multiple of the factor. -/
theorem C42_one_dimension (a : SparseArray) (n b : Nat) (hs : a.scanShape = [n]) (hb : 0 < b) (h : b ∣ n) :
    binScans a b = .throw "IndexError" := by
  unfold binScans
  rw [if_neg (by omega), if_pos (by simp [hs, Nat.mod_eq_zero_of_dvd h]), hs]

example : WF sample ∧ sample.scanShape = [2, 2] ∧ (2 ∣ 2) ∧
    binScans sample 2 = .ok { sample with data := [sample.data.flatten], numFrames := 8, scanShape := [1, 1] } :=
  ⟨sample_wf, rfl, by decide, by decide⟩

/-! ### C46 -/

/-- C46: a reshape keeps the data, and is refused exactly if a size differs (or the number of axes is not 3 or 4). -/
theorem C46_reshape (a : SparseArray) (shape : List Nat) :
    (∃ r, reshape a shape = .ok r ∧ r.shape = shape ∧ r.data = a.data ∧ r.numFrames = a.numFrames ∧
      r.sparseSlicing = a.sparseSlicing ∧ r.allowFullExpand = a.allowFullExpand ∧ r.frameShape.length = 2 ∧
      prod r.scanShape = prod a.scanShape ∧ prod r.frameShape = prod a.frameShape) ∨
    (reshape a shape = .throw "ValueError" ∧ ¬ ∃ s f, shape = s ++ f ∧ (s.length = 1 ∨ s.length = 2) ∧ f.length = 2 ∧
      prod s = prod a.scanShape ∧ prod f = prod a.frameShape) := by
  unfold reshape
  by_cases h : shape.length ≠ 3 ∧ shape.length ≠ 4
  · right
    rw [if_pos h]
    refine ⟨rfl, ?_⟩
    rintro ⟨s, f, rfl, hs, hf, -⟩
    rw [List.length_append] at h
    omega
  · rw [if_neg h]
    simp only
    have key : ∀ s f, shape = s ++ f → (s.length = 1 ∨ s.length = 2) → f.length = 2 →
        s = shape.take (shape.length - 2) ∧ f = shape.drop (shape.length - 2) := by
      rintro s f rfl hs hf
      rw [List.length_append, hf, Nat.add_sub_cancel, List.take_left, List.drop_left]
      exact ⟨rfl, rfl⟩
    by_cases h1 : prod (shape.take (shape.length - 2)) = prod a.scanShape
    · rw [if_neg (by simpa using h1)]
      by_cases h2 : prod (shape.drop (shape.length - 2)) = prod a.frameShape
      · rw [if_neg (by simpa using h2)]
        left
        refine ⟨_, rfl, List.take_append_drop _ _, rfl, rfl, rfl, rfl, ?_, h1, h2⟩
        simp only [List.length_drop]; omega
      · rw [if_pos h2]
        right
        refine ⟨rfl, ?_⟩
        rintro ⟨s, f, hsf, hs, hf, h3, h4⟩
        obtain ⟨rfl, rfl⟩ := key s f hsf hs hf
        exact h2 h4
    · rw [if_pos h1]
      right
      refine ⟨rfl, ?_⟩
      rintro ⟨s, f, hsf, hs, hf, h3, h4⟩
      obtain ⟨rfl, rfl⟩ := key s f hsf hs hf
      exact h1 h3

/-- C46: the meaning of a reshaped array. The dense array has the same elements in the same order. -/
theorem C46_dense (a r : SparseArray) (ha : WF a) (shape : List Nat) (h : reshape a shape = .ok r) :
    WF r ∧ (dense r).shape = shape ∧ (dense r).flat = (dense a).flat := by
  rcases C46_reshape a shape with ⟨r', h1, h2, h3, h4, h5, h6, h7, h8, h9⟩ | ⟨h1, -⟩
  · rw [h] at h1
    injection h1 with h1
    subst h1
    have hlen : shape.length = 3 ∨ shape.length = 4 := by
      unfold reshape at h
      by_contra hc
      rw [if_pos (by omega)] at h
      cases h
    refine ⟨⟨?_, ?_, ?_, ?_, ?_⟩, h2, ?_⟩
    · rw [← h2, SparseArray.shape, List.length_append] at hlen; omega
    · rw [h3, h8]; exact ha.length
    · rw [h3, h4]; exact ha.frames
    · rw [h3, h9]; exact ha.lt
    · rw [h3]; exact ha.nodup
    · simp only [dense, h8, h9, eventCount, h3]
  · rw [h] at h1; cases h1

/-- C46: flattening the scan. -/
theorem C46_ravel (a : SparseArray) (hf : a.frameShape.length = 2) :
    ravelScans a = .ok { a with scanShape := [prod a.scanShape] } := by
  unfold ravelScans reshape
  have h1 : (prod a.scanShape :: a.frameShape).length - 2 = 1 := by simp [hf]
  rw [if_neg (by simp [hf])]
  simp only [h1]
  rw [if_neg (by simp [prod]), if_neg (by simp)]
  simp

/-- C46: flattening after any reshape that keeps the frame shape restores the flat array. -/
theorem C46_ravel_reshape (a r : SparseArray) (s : List Nat) (hf : a.frameShape.length = 2)
    (h : reshape a (s ++ a.frameShape) = .ok r) : ravelScans r = ravelScans a := by
  rcases C46_reshape a (s ++ a.frameShape) with ⟨r', h1, h2, h3, h4, h5, h6, h7, h8, h9⟩ | ⟨h1, -⟩
  · rw [h] at h1
    injection h1 with h1
    subst h1
    have hfs : r.frameShape = a.frameShape := (List.append_inj' (show r.scanShape ++ r.frameShape = _ from h2) (by omega)).2
    rw [C46_ravel a hf, C46_ravel r h7]
    rcases a with ⟨ad, an, as, af, ax, ay⟩
    rcases r with ⟨rd, rn, rs, rf, rx, ry⟩
    simp_all
  · rw [h] at h1; cases h1

example : WF sample ∧ sample.frameShape.length = 2 ∧
    (reshape sample [1, 4, 2, 3]).bind (fun r => reshape r [4, 1, 2, 3]) = .ok { sample with scanShape := [4, 1] } ∧
    reshape sample [4, 2, 2, 3] = .throw "ValueError" ∧
    (reshape sample [1, 4, 2, 3]).bind ravelScans = .ok { sample with scanShape := [4] } :=
  ⟨sample_wf, rfl, by decide, by decide, by decide⟩

end Stempy.Sparse
