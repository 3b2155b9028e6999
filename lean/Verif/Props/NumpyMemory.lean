import Verif.Model.NumpyMemory
import Verif.Model.Electron
import Verif.Lemmas.Counting
import Verif.Lemmas.ListSum
import Mathlib.Tactic.Ring
import Mathlib.Tactic.Linarith
import Mathlib.Tactic.IntervalCases

/-!
C61: which element of an array given from Python is used for which pixel.
-/

namespace Stempy.Strided
open Stempy.Numpy Stempy.Electron

variable {α : Type}

private theorem load_nat (a : Arr α) (k : Nat) : a.load (k : Int) = readAt a.mem k := by
  unfold Arr.load
  rw [if_neg (by omega)]
  rfl

/-- Position of an element in C order. -/
def position : List Nat → List Nat → Nat
  | _ :: sh, i :: is => i * prod sh + position sh is
  | _, _ => 0

private theorem distance_cStrides (sh is : List Nat) : distance (cStrides sh) is = (position sh is : Nat) := by
  induction sh generalizing is with
  | nil => cases is <;> rfl
  | cons n sh ih =>
    cases is with
    | nil => rfl
    | cons i is =>
      simp only [cStrides, distance, position, ih]
      push_cast
      ring

/-- **C61** In an array in C order, of any number of dimensions, the element at an index is read at its row-major position. -/
theorem C61_contiguous {a : Arr α} (hc : a.strides = cStrides a.shape) (idx : List Nat) :
    a.raw (position a.shape idx) = a.elem idx := by
  unfold Arr.raw Arr.elem
  rw [hc, distance_cStrides]

/-- **C61** Frames in memory in C order: pixel (x, y) of frame `i` of a block which begins at frame `lo` is the element
`[lo + i, y, x]`. Missing for the full statement: other layouts (`C61_crop_false`). -/
theorem C61_frames_partial {a : Arr α} {n h w : Nat} (hs : a.shape = [n, h, w]) (hc : a.strides = cStrides a.shape)
    (lo hi i y x : Nat) : a.blockPixel lo hi i (y * w + x) = a.elem [lo + i, y, x] := by
  unfold Arr.blockPixel
  rw [hs]
  simp only [Arr.rows, hs, hc, cStrides, Arr.raw, Arr.elem, distance, prod, Arr.load]
  have e : ((((a.start : Int) + ((h * (w * 1) : Nat) : Int) * lo).toNat : Nat) : Int) = a.start + ((h * (w * 1) : Nat) : Int) * lo := by
    rw [Int.toNat_of_nonneg (by positivity)]
  have e2 : (((((a.start : Int) + ((h * (w * 1) : Nat) : Int) * lo).toNat : Nat) : Int) + ((i * (h * w) + (y * w + x) : Nat) : Int)) =
      (a.start : Int) + (((h * (w * 1) : Nat) : Int) * ((lo + i : Nat) : Int) +
        (((w * 1 : Nat) : Int) * y + (((1 : Nat) : Int) * x + 0))) := by
    rw [e]
    push_cast
    ring
  simp only [e2]

/-- **C61** A block of the frames `lo` to `hi` of frames in C order has the pixels of these frames, and no others: whatever is
read at a position in it is an element of one of these frames, and the positions are as many as the pixels. -/
theorem C61_block {a : Arr α} {n h w : Nat} (hs : a.shape = [n, h, w]) (hc : a.strides = cStrides a.shape) {lo hi : Nat} (hl : lo ≤ hi) :
    (a.rows lo hi).size = (hi - lo) * (h * w) ∧
    (∀ k < (a.rows lo hi).size, ∃ i y x, lo ≤ i ∧ i < hi ∧ y < h ∧ x < w ∧ (a.rows lo hi).raw k = a.elem [i, y, x]) ∧
    ∀ i y x, lo ≤ i → i < hi → y < h → x < w → ∃ k < (a.rows lo hi).size, (a.rows lo hi).raw k = a.elem [i, y, x] := by
  have hsize : (a.rows lo hi).size = (hi - lo) * (h * w) := by
    simp [Arr.size, Arr.rows, hs, hc, cStrides, prod]
  have key : ∀ i y x, (a.rows lo hi).raw (i * (h * w) + (y * w + x)) = a.elem [lo + i, y, x] := by
    intro i y x
    have := C61_frames_partial hs hc lo hi i y x
    unfold Arr.blockPixel at this
    rw [hs] at this
    simpa [prod] using this
  refine ⟨hsize, fun k hk => ?_, fun i y x h1 h2 h3 h4 => ?_⟩
  · rw [hsize] at hk
    have hp : 0 < h * w := by
      rcases Nat.eq_zero_or_pos (h * w) with e | e
      · rw [e] at hk; omega
      · exact e
    have hw : 0 < w := Nat.pos_of_mul_pos_left hp
    have e1 := Nat.div_add_mod k (h * w)
    have e2 := Nat.div_add_mod (k % (h * w)) w
    have b1 : k / (h * w) < hi - lo := Nat.div_lt_of_lt_mul (by rwa [Nat.mul_comm])
    have b2 : k % (h * w) / w < h := Nat.div_lt_of_lt_mul (by rw [Nat.mul_comm w h]; exact Nat.mod_lt _ hp)
    refine ⟨lo + k / (h * w), k % (h * w) / w, k % (h * w) % w, Nat.le_add_right _ _, ?_, b2, Nat.mod_lt _ hw, ?_⟩
    · generalize k / (h * w) = q at b1
      omega
    rw [← key]
    congr 1
    rw [Nat.mul_comm (k / (h * w)), Nat.mul_comm (k % (h * w) / w), e2, e1]
  · refine ⟨(i - lo) * (h * w) + (y * w + x), ?_, ?_⟩
    · rw [hsize]
      have b1 : (y + 1) * w ≤ h * w := Nat.mul_le_mul_right w h3
      have b2 : (i - lo + 1) * (h * w) ≤ (hi - lo) * (h * w) := Nat.mul_le_mul_right _ (by omega)
      rw [Nat.succ_mul] at b1 b2
      omega
    · rw [key, show lo + (i - lo) = i by omega]

/-- **C61** is false for a part of the frames: for every array of frames in C order, cropped to `h * w` pixels with fewer
columns than the array, pixel (0, 1) of the crop is taken from the first row, right of the crop. -/
theorem C61_crop_false {a : Arr α} {n H W : Nat} (hs : a.shape = [n, H, W]) (hc : a.strides = cStrides a.shape)
    (y x h w lo hi : Nat) :
    (a.crop y x h w).blockPixel lo hi 0 (1 * w + 0) = a.elem [lo, y, x + w] ∧
    (a.crop y x h w).elem [lo, 1, 0] = a.elem [lo, y + 1, x] := by
  simp only [Arr.crop, hs, hc, cStrides, Arr.blockPixel, Arr.rows, Arr.raw, Arr.elem, distance, prod, Arr.load]
  have p1 : (0 : Int) ≤ (a.start : Int) + ((W * 1 : Nat) : Int) * y + ((1 : Nat) : Int) * x := by positivity
  have p2 : (0 : Int) ≤ ((a.start : Int) + ((W * 1 : Nat) : Int) * y + ((1 : Nat) : Int) * x) + ((H * (W * 1) : Nat) : Int) * lo := by
    positivity
  constructor
  · have e : ((((((a.start : Int) + ((W * 1 : Nat) : Int) * y + ((1 : Nat) : Int) * x).toNat : Nat) : Int) +
        ((H * (W * 1) : Nat) : Int) * lo).toNat : Int) + ((0 * (h * w) + (1 * w + 0) : Nat) : Int) =
        (a.start : Int) + (((H * (W * 1) : Nat) : Int) * lo + (((W * 1 : Nat) : Int) * y + (((1 : Nat) : Int) * ((x + w : Nat) : Int) + 0))) := by
      rw [Int.toNat_of_nonneg p1, Int.toNat_of_nonneg p2]
      push_cast
      ring
    simp only [e]
  · have e : ((((a.start : Int) + ((W * 1 : Nat) : Int) * y + ((1 : Nat) : Int) * x).toNat : Nat) : Int) +
        (((H * (W * 1) : Nat) : Int) * lo + (((W * 1 : Nat) : Int) * ((1 : Nat) : Int) + (((1 : Nat) : Int) * ((0 : Nat) : Int) + 0))) =
        (a.start : Int) + (((H * (W * 1) : Nat) : Int) * lo + (((W * 1 : Nat) : Int) * ((y + 1 : Nat) : Int) + (((1 : Nat) : Int) * x + 0))) := by
      rw [Int.toNat_of_nonneg p1]
      push_cast
      ring
    simp only [e]

/-- A two-dimensional array with the elements `val`. -/
structure Has2 (a : Arr α) (h w : Nat) (val : Nat → Nat → α) : Prop where
  shape : a.shape = [h, w]
  elems : ∀ y x, y < h → x < w → a.elem [y, x] = .ok (val y x)

private theorem grid_getElem? {β : Type} (m n : Nat) (g : Nat → Nat → β) {i j : Nat} (hi : i < m) (hj : j < n) :
    ((List.range m).map fun i => (List.range n).map fun j => g i j).flatten[i * n + j]? = some (g i j) := by
  rw [flatten_uniform_getElem? _ n (by simp) i j hj]
  simp [hi, hj]

/-- **C61** Dark reference and gain, if the rows of the array are not closer in memory than its columns (C order in
particular): after the conversion by `f` (to float32, or inverted) the code finds at pixel (x, y) the converted element
`[y, x]`. Missing for the full statement: arrays in Fortran order (`C61_fortran_order`). -/
theorem C61_reference_partial {β : Type} {a : Arr α} {h w : Nat} {val : Nat → Nat → α} (f : α → β) (ha : Has2 a h w val)
    {s0 s1 : Int} (hst : a.strides = [s0, s1]) (horder : s1.natAbs ≤ s0.natAbs) (hsize : 1 < h * w) :
    ∃ b l, a.map2 f = .ok b ∧ b.pointer = some l ∧ ∀ y x, y < h → x < w → l[y * w + x]? = some (f (val y x)) := by
  refine ⟨⟨(((List.range h).map fun y => (List.range w).map fun x => val y x).flatten.map f), 0, [h, w], [(w : Int), 1]⟩,
    (((List.range h).map fun y => (List.range w).map fun x => val y x).flatten.map f).drop 0, ?_, ?_, ?_⟩
  · simp only [Arr.map2, ha.shape, hst, if_pos horder]
    rw [mapM_ok (List.range h) _ (fun y => (List.range w).map fun x => val y x)
      (by
        intro y hy
        exact mapM_ok _ _ _ (by
          intro x hx
          exact ha.elems y x (by simpa using hy) (by simpa using hx)))]
    rfl
  · unfold Arr.pointer
    rw [if_pos (by simpa [Arr.size, prod] using hsize)]
  · intro y x hy hx
    rw [List.drop_zero, List.getElem?_map, grid_getElem? h w val hy hx]
    rfl

/-- **C61** In Fortran order (a transposed array, e.g.) the element `[y, x]` is found at `x * height + y` instead. -/
theorem C61_fortran_order {β : Type} {a : Arr α} {h w : Nat} {val : Nat → Nat → α} (f : α → β) (ha : Has2 a h w val)
    {s0 s1 : Int} (hst : a.strides = [s0, s1]) (horder : s0.natAbs < s1.natAbs) (hsize : 1 < h * w) :
    ∃ b l, a.map2 f = .ok b ∧ b.pointer = some l ∧ ∀ y x, y < h → x < w → l[x * h + y]? = some (f (val y x)) := by
  refine ⟨⟨(((List.range w).map fun x => (List.range h).map fun y => val y x).flatten.map f), 0, [h, w], [1, (h : Int)]⟩,
    (((List.range w).map fun x => (List.range h).map fun y => val y x).flatten.map f).drop 0, ?_, ?_, ?_⟩
  · simp only [Arr.map2, ha.shape, hst, if_neg (not_le.2 horder)]
    rw [mapM_ok (List.range w) _ (fun x => (List.range h).map fun y => val y x)
      (by
        intro x hx
        exact mapM_ok _ _ _ (by
          intro y hy
          exact ha.elems y x (by simpa using hy) (by simpa using hx)))]
    rfl
  · unfold Arr.pointer
    rw [if_pos (by simpa [Arr.size, prod] using hsize)]
  · intro y x hy hx
    rw [List.drop_zero, List.getElem?_map, grid_getElem? w h (fun x y => val y x) hx hy]
    rfl

/-- **C61** is false for every square reference in Fortran order that is not symmetric: pixel (x, y) gets the element
`[x, y]`. -/
theorem C61_transposed_false {a : Arr α} {n : Nat} {val : Nat → Nat → α} (ha : Has2 a n n val) {s0 s1 : Int}
    (hst : a.strides = [s0, s1]) (horder : s0.natAbs < s1.natAbs) {y x : Nat} (hy : y < n) (hx : x < n) (hne : val y x ≠ val x y) :
    ∃ b l, a.map2 id = .ok b ∧ b.pointer = some l ∧ l[y * n + x]? = some (val x y) ∧ l[y * n + x]? ≠ some (val y x) := by
  have hn : 1 < n * n := by
    have hyx : y ≠ x := by rintro rfl; exact hne rfl
    have : 2 ≤ n := by omega
    nlinarith
  obtain ⟨b, l, h1, h2, h3⟩ := C61_fortran_order id ha hst horder hn
  have h4 := h3 x y hx hy
  refine ⟨b, l, h1, h2, h4, ?_⟩
  rw [h4]
  simpa using fun h => hne h.symm

/-- **C61** What this means for counting with dark reference and gain: from references in C order a pixel is corrected with
the elements of its own row and column. -/
theorem C61_count_partial {d g : Arr Rat} {h w : Nat} {dv gv : Nat → Nat → Rat} (hd : Has2 d h w dv) (hg : Has2 g h w gv)
    {s0 s1 t0 t1 : Int} (hds : d.strides = [s0, s1]) (hdo : s1.natAbs ≤ s0.natAbs) (hgs : g.strides = [t0, t1])
    (hgo : t1.natAbs ≤ t0.natAbs) (hsize : 1 < h * w) :
    ∃ d' g', d.map2 id = .ok d' ∧ g.map2 (·⁻¹) = .ok g' ∧ ∀ y x v bg xr, y < h → x < w →
      classicPixel .f32 bg xr d'.pointer g'.pointer (y * w + x) v = .ok (thresholdPixel bg xr ((v - dv y x) / gv y x)) ∧
      streamPixel .f32 bg xr d'.pointer g'.pointer (y * w + x) v = .ok (thresholdPixel bg xr ((v - dv y x) / gv y x)) := by
  obtain ⟨d', l, h1, h2, h3⟩ := C61_reference_partial id hd hds hdo hsize
  obtain ⟨g', m, k1, k2, k3⟩ := C61_reference_partial (·⁻¹) hg hgs hgo hsize
  refine ⟨d', g', h1, k1, ?_⟩
  intro y x v bg xr hy hx
  have e1 : readAt l (y * w + x) = .ok (dv y x) := readAt_eq_ok.2 (h3 y x hy hx)
  have e2 : readAt m (y * w + x) = .ok (gv y x)⁻¹ := readAt_eq_ok.2 (k3 y x hy hx)
  constructor
  · simp only [classicPixel, h2, k2, readPtr, e1, e2, Outcome.ok_bind, Outcome.pure_eq, div_eq_mul_inv]
  · simp only [streamPixel, h2, k2, readPtr, e1, e2, Outcome.ok_bind, Outcome.pure_eq, div_eq_mul_inv]

/-- **C61** A reference with one element is no reference. -/
theorem C61_one_element {a : Arr α} (h : a.size ≤ 1) : a.pointer = none := by
  simp [Arr.pointer, h]

/-- **C61** Sparse events in C order are used as they are. -/
theorem C61_events_partial {a : Arr α} (hc : a.strides = [1]) : a.events = a.values := by
  unfold Arr.events Arr.values
  congr 1
  funext k
  simp [Arr.raw, Arr.elem, hc, distance]

/-- **C61** is false for events given with a step: for every array of at least two events, `a[::2]` of twice the memory is
read as the first half of the memory. -/
theorem C61_events_false (mem : List α) (n : Nat) (hlen : mem.length = 2 * n) :
    (⟨mem, 0, [n], [2]⟩ : Arr α).events = .ok (mem.take n) ∧
    (⟨mem, 0, [n], [2]⟩ : Arr α).values = .ok ((List.range n).filterMap fun k => mem[2 * k]?) := by
  have aux : ∀ (e : Nat → Nat), (∀ k, k < n → e k < mem.length) → ∀ m, m ≤ n →
      (List.range m).mapM (fun k => readAt mem (e k)) = .ok ((List.range m).filterMap fun k => mem[e k]?) := by
    intro e he m hm
    have : ∀ l : List Nat, (∀ k ∈ l, k < n) → l.mapM (fun k => readAt mem (e k)) = .ok (l.filterMap fun k => mem[e k]?) := by
      intro l hl
      induction l with
      | nil => rfl
      | cons k l ih =>
        have hk := he k (hl k (by simp))
        rw [List.mapM_cons, readAt_lt hk, Outcome.ok_bind, ih (fun j hj => hl j (by simp [hj])), Outcome.ok_bind,
          List.filterMap_cons, List.getElem?_eq_getElem hk]
        rfl
    exact this _ (fun k hk => lt_of_lt_of_le (List.mem_range.1 hk) hm)
  constructor
  · unfold Arr.events
    have e : (fun i => (⟨mem, 0, [n], [2]⟩ : Arr α).raw i) = fun i => readAt mem i := by
      funext i
      simp only [Arr.raw]
      have : ((0 : Nat) : Int) + (i : Int) = ((i : Nat) : Int) := by simp
      rw [this, load_nat]
    rw [show (⟨mem, 0, [n], [2]⟩ : Arr α).size = n by simp [Arr.size, prod]]
    rw [show ((⟨mem, 0, [n], [2]⟩ : Arr α).raw) = fun i => readAt mem i from e]
    rw [aux (fun k => k) (by intro k hk; omega) n le_rfl]
    congr 1
    apply List.ext_getElem?
    intro i
    have : ∀ m, m ≤ mem.length → (List.range m).filterMap (fun k => mem[k]?) = mem.take m := by
      intro m hm
      induction m with
      | zero => rfl
      | succ m ih =>
        have hlt : m < mem.length := hm
        rw [List.range_succ, List.filterMap_append, ih (by omega), List.take_add_one]
        simp [hlt]
    rw [this n (by omega)]
  · unfold Arr.values
    rw [show (⟨mem, 0, [n], [2]⟩ : Arr α).size = n by simp [Arr.size, prod]]
    have e : (fun k => (⟨mem, 0, [n], [2]⟩ : Arr α).elem [k]) = fun k => readAt mem (2 * k) := by
      funext k
      simp only [Arr.elem, distance]
      have : ((0 : Nat) : Int) + (2 * (k : Int) + 0) = ((2 * k : Nat) : Int) := by push_cast; ring
      rw [this, load_nat]
    rw [e]
    exact aux (fun k => 2 * k) (by intro k hk; omega) n le_rfl

/-- Two frames of 2 rows and 3 columns; the second block pixel, and the same cropped to two columns. -/
example : (⟨[0, 1, 2, 10, 11, 12, 100, 101, 102, 110, 111, 112], 0, [2, 2, 3], [6, 3, 1]⟩ : Arr Nat).blockPixel 1 2 0 (1 * 3 + 2) =
      .ok 112 ∧
    ((⟨[0, 1, 2, 10, 11, 12, 100, 101, 102, 110, 111, 112], 0, [2, 2, 3], [6, 3, 1]⟩ : Arr Nat).crop 0 0 2 2).blockPixel 1 2 0
      (1 * 2 + 0) = .ok 102 ∧
    ((⟨[0, 1, 2, 10, 11, 12, 100, 101, 102, 110, 111, 112], 0, [2, 2, 3], [6, 3, 1]⟩ : Arr Nat).crop 0 0 2 2).elem [1, 1, 0] =
      .ok 110 := by decide

/-- A dark reference of 2 rows and 2 columns in C order, and the transposed one. -/
example : Has2 (⟨[1, 2, 3, 4], 0, [2, 2], [2, 1]⟩ : Arr Rat) 2 2 (fun y x => 2 * y + x + 1) ∧
    Has2 (⟨[1, 2, 3, 4], 0, [2, 2], [2, 1]⟩ : Arr Rat).transpose 2 2 (fun y x => 2 * x + y + 1) ∧
    (⟨[1, 2, 3, 4], 0, [2, 2], [2, 1]⟩ : Arr Rat).transpose.strides = [1, 2] := by
  refine ⟨⟨rfl, ?_⟩, ⟨rfl, ?_⟩, rfl⟩
  · intro y x hy hx
    interval_cases y <;> interval_cases x <;> decide +kernel
  · intro y x hy hx
    interval_cases y <;> interval_cases x <;> decide +kernel

example : (⟨[7, 8, 9, 10], 0, [2], [2]⟩ : Arr Nat).events = .ok [7, 8] ∧ (⟨[7, 8, 9, 10], 0, [2], [2]⟩ : Arr Nat).values = .ok [7, 9] := by
  decide

end Stempy.Strided
