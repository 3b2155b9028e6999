import Verif.Model.PyReader
import Verif.Lemmas.ListSum

/-!
C37, C38: the reader over a Python array and the views of C++ data in Python.
-/

namespace Stempy.Props
open Stempy.PyReader

variable {F : Type}

private theorem mapM_readAt (l : List Nat) (lo n : Nat) (h : lo + n ≤ l.length) :
    (List.range' lo n).mapM (readAt l) = .ok ((l.take (lo + n)).drop lo) := by
  rw [mapM_ok _ _ (fun i => l.getD i 0)]
  · congr 1
    apply List.ext_getElem
    · simp; omega
    · intro i h1 h2
      simp at h1 h2 ⊢
      rw [List.getElem?_eq_getElem (by omega)]
      rfl
  · intro i hi
    simp at hi
    rw [readAt_lt (by omega)]
    congr 1
    rw [List.getD_eq_getElem?_getD, List.getElem?_eq_getElem (by omega)]
    rfl

/-- What has to be delivered from frame `i` on: chunks of `b` frames. -/
def chunks {α : Type} (b : Nat) : Nat → List α → List (List α)
  | 0, _ => []
  | n + 1, l => l.take b :: chunks b n (l.drop b)

private theorem slice_shift {α : Type} (l : List α) (lo n : Nat) : (l.take (lo + n)).drop lo = (l.drop lo).take n := by
  rw [List.drop_take]
  congr 1
  omega

private theorem readAll_ok (frames : List F) (ids : List Nat) (b : Nat) (hb : 0 < b) (hids : ids.length = frames.length)
    (h32 : frames.length + b ≤ 2 ^ 32) (fuel cur : Nat) (hcur : cur ≤ frames.length)
    (hfuel : frames.length + b ≤ cur + b * fuel) :
    ∃ n, n * b < frames.length - cur + b ∧ frames.length - cur ≤ n * b ∧
      readAll frames fuel ⟨ids, b, frames.length, cur⟩ =
        .ok ((chunks b n (frames.drop cur)).zip (chunks b n (ids.drop cur)), true, ⟨ids, b, frames.length, frames.length⟩) := by
  induction fuel generalizing cur with
  | zero => omega
  | succ fuel ih =>
    by_cases hend : frames.length ≤ cur
    · have : cur = frames.length := by omega
      subst this
      refine ⟨0, by omega, by omega, ?_⟩
      simp [readAll, PyReader.read, chunks]
    · obtain ⟨up, hup⟩ : ∃ up, up = if (cur + b) % 2 ^ 32 > frames.length then frames.length else (cur + b) % 2 ^ 32 := ⟨_, rfl⟩
      have hup' : cur < up ∧ up ≤ frames.length ∧ up ≤ cur + b ∧ (up = cur + b ∨ up = frames.length) := by
        have hmod := Nat.mod_eq_of_lt (show cur + b < 2 ^ 32 by omega)
        by_cases hc : cur + b > frames.length
        · have : up = frames.length := by rw [hup, hmod, if_pos hc]
          clear hup
          omega
        · have : up = cur + b := by rw [hup, hmod, if_neg hc]
          clear hup
          omega
      obtain ⟨n, h1, h2, h3⟩ := ih up (by omega) (by
        rw [Nat.mul_succ] at hfuel
        have hf : b ≤ b * fuel := Nat.le_mul_of_pos_right b (by
          rcases Nat.eq_zero_or_pos fuel with h | h
          · rw [h] at hfuel; omega
          · exact h)
        generalize b * fuel = x at *
        omega)
      have hread : PyReader.read frames ⟨ids, b, frames.length, cur⟩ =
          .ok (.frames ((frames.drop cur).take b) ((ids.drop cur).take b), ⟨ids, b, frames.length, up⟩) := by
        simp only [PyReader.read]
        rw [if_neg (by omega), ← hup]
        have e := mapM_readAt ids cur (up - cur) (by omega)
        have e2 : ∀ {α : Type} (l : List α), l.length = frames.length →
            (l.take up).drop cur = (l.drop cur).take b := by
          intro α l hl
          have : up = cur + (up - cur) := by omega
          rw [this, slice_shift]
          rcases hup'.2.2.2 with h | h
          · congr 1; omega
          · rw [List.take_of_length_le (by simp; omega), List.take_of_length_le (by simp; omega)]
        rw [show cur + (up - cur) = up by omega] at e
        rw [e, Outcome.ok_bind, pySlice, e2 frames rfl, e2 ids hids]
      have hdrop : ∀ {α : Type} (l : List α), l.length = frames.length → (l.drop cur).drop b = l.drop up := by
        intro α l hl
        rw [List.drop_drop]
        rcases hup'.2.2.2 with h | h
        · rw [h]
        · rw [List.drop_of_length_le (by omega), List.drop_of_length_le (by omega)]
      clear hup
      have hn0 : n * b < b → n * b = 0 := by
        intro h
        have : n < 1 := Nat.lt_of_mul_lt_mul_right (a := b) (by omega)
        have : n = 0 := by omega
        rw [this, Nat.zero_mul]
      refine ⟨n + 1, by rw [Nat.succ_mul]; generalize n * b = x at *; omega,
        by rw [Nat.succ_mul]; generalize n * b = x at *; omega, ?_⟩
      simp only [readAll]
      rw [hread]
      simp only [Outcome.ok_bind]
      rw [h3]
      simp only [Outcome.ok_bind, chunks, List.zip_cons_cons]
      rw [hdrop frames rfl, hdrop ids hids]

private theorem chunks_flatten {α : Type} (b n : Nat) (l : List α) (h : l.length ≤ n * b) : (chunks b n l).flatten = l := by
  induction n generalizing l with
  | zero => simp at h; simp [chunks, h]
  | succ n ih =>
    rw [Nat.succ_mul] at h
    simp only [chunks, List.flatten_cons]
    rw [ih (l.drop b) (by simp; omega), List.take_append_drop]

private theorem chunks_length {α : Type} (b n : Nat) (l : List α) : (chunks b n l).length = n := by
  induction n generalizing l with
  | zero => rfl
  | succ n ih => simp [chunks, ih]

private theorem chunks_sizes {α β : Type} (b n : Nat) (l : List α) (m : List β) (hlm : l.length = m.length) (hb : 0 < b)
    (hn : n * b < l.length + b) :
    ∀ x ∈ (chunks b n l).zip (chunks b n m), x.1.length = x.2.length ∧ 0 < x.1.length ∧ x.1.length ≤ b := by
  induction n generalizing l m with
  | zero => simp [chunks]
  | succ n ih =>
    rw [Nat.succ_mul] at hn
    intro x hx
    simp only [chunks, List.zip_cons_cons, List.mem_cons] at hx
    rcases hx with rfl | hx
    · simp only [List.length_take]
      generalize n * b = y at *
      omega
    · by_cases h0 : n = 0
      · subst h0; simp [chunks] at hx
      · refine ih _ _ (by simp; omega) ?_ x hx
        have : b ≤ n * b := Nat.le_mul_of_pos_left b (by omega)
        simp only [List.length_drop]
        generalize n * b = y at *
        omega

/-- **C37** Reading from the start until the end gives blocks of 1 to `b` frames which together are all frames in their
order, with the given image numbers, for any number of frames and any block size; afterwards the end is reported. -/
theorem C37_all_frames (frames : List F) (ids : List Nat) (b : Nat) (hb : 0 < b) (hids : ids.length = frames.length)
    (h32 : frames.length + b ≤ 2 ^ 32) (fuel : Nat) (hfuel : frames.length + b ≤ b * fuel) :
    ∃ blocks s, readAll frames fuel (create ids b frames.length) = .ok (blocks, true, s) ∧
      (blocks.map (·.1)).flatten = frames ∧ (blocks.map (·.2)).flatten = ids ∧
      (∀ x ∈ blocks, x.1.length = x.2.length ∧ 0 < x.1.length ∧ x.1.length ≤ b) ∧
      PyReader.read frames s = .ok (.end_, s) := by
  obtain ⟨n, h1, h2, h3⟩ := readAll_ok frames ids b hb hids h32 fuel 0 (by omega) (by omega)
  refine ⟨_, _, h3, ?_, ?_, ?_, ?_⟩
  · rw [← List.unzip_fst, List.unzip_zip (by simp [chunks_length])]
    simp only [List.drop_zero]
    exact chunks_flatten b n frames (by omega)
  · rw [← List.unzip_snd, List.unzip_zip (by simp [chunks_length])]
    simp only [List.drop_zero]
    exact chunks_flatten b n ids (by omega)
  · exact chunks_sizes b n _ _ (by simp [hids]) hb (by simpa using h1)
  · simp [PyReader.read]

/-- **C37** The number of blocks is the number of frames divided by the block size, rounded up. -/
theorem C37_block_count (frames : List F) (ids : List Nat) (b : Nat) (hb : 0 < b) (hids : ids.length = frames.length)
    (h32 : frames.length + b ≤ 2 ^ 32) (fuel : Nat) (hfuel : frames.length + b ≤ b * fuel) {blocks : List (List F × List Nat)} {e : Bool}
    {s : State} (h : readAll frames fuel (create ids b frames.length) = .ok (blocks, e, s)) :
    frames.length ≤ blocks.length * b ∧ blocks.length * b < frames.length + b := by
  obtain ⟨n, h1, h2, h3⟩ := readAll_ok frames ids b hb hids h32 fuel 0 (by omega) (by omega)
  have h4 := h3.symm.trans h
  simp only [Outcome.ok.injEq, Prod.mk.injEq] at h4
  rw [← h4.1, List.length_zip, chunks_length, chunks_length, Nat.min_self]
  omega

/-- **C37** The reader of an HDF5 file: image numbers are the stored positions, or the indexes of the frames. -/
theorem C37_hdf5 (frames : List F) (positions : Option (List Nat)) (hp : ∀ p ∈ positions, p.length = frames.length)
    (h32 : frames.length + 32 ≤ 2 ^ 32) (fuel : Nat) (hfuel : frames.length + 32 ≤ 32 * fuel) :
    ∃ blocks s, readAll frames fuel (getHdf5Reader frames positions) = .ok (blocks, true, s) ∧
      (blocks.map (·.1)).flatten = frames ∧
      (blocks.map (·.2)).flatten = (match positions with | none => List.range frames.length | some p => p) := by
  cases positions with
  | none =>
    obtain ⟨bs, s, h1, h2, h3, _⟩ := C37_all_frames frames (List.range frames.length) 32 (by omega) (by simp) h32 fuel hfuel
    exact ⟨bs, s, h1, h2, h3⟩
  | some p =>
    obtain ⟨bs, s, h1, h2, h3, _⟩ := C37_all_frames frames p 32 (by omega) (hp p rfl) h32 fuel hfuel
    exact ⟨bs, s, h1, h2, h3⟩

/-- **C37** `reset` at any time gives the state of a new reader. -/
theorem C37_rewind (frames : List F) (ids : List Nat) (b total n : Nat) {s : State} {blocks : List (List F × List Nat)}
    {e : Bool} (h : readAll frames n (create ids b total) = .ok (blocks, e, s)) : reset s = create ids b total := by
  have key : ∀ (n : Nat) (s s' : State) (blocks : List (List F × List Nat)) (e : Bool),
      readAll frames n s = .ok (blocks, e, s') → reset s' = reset s := by
    intro n
    induction n with
    | zero =>
      intro s s' blocks e h
      simp only [readAll, Outcome.ok.injEq, Prod.mk.injEq] at h
      rw [h.2.2]
    | succ n ih =>
      intro s s' blocks e h
      simp only [readAll] at h
      cases hr : PyReader.read frames s with
      | throw m => rw [hr] at h; simp at h
      | ub => rw [hr] at h; simp at h
      | ok x =>
        obtain ⟨b, s1⟩ := x
        rw [hr] at h
        simp only [Outcome.ok_bind] at h
        have h1 : reset s1 = reset s := by
          simp only [PyReader.read] at hr
          split at hr
          · simp only [Outcome.ok.injEq, Prod.mk.injEq] at hr
            rw [hr.2]
          · cases hm : (List.range' s.current
                ((if (s.current + s.blockSize) % 2 ^ 32 > s.total then s.total else (s.current + s.blockSize) % 2 ^ 32) -
                  s.current)).mapM (readAt s.imageNumbers) with
            | throw m => rw [hm] at hr; simp at hr
            | ub => rw [hm] at hr; simp at hr
            | ok ids =>
              rw [hm] at hr
              simp only [Outcome.ok_bind, Outcome.ok.injEq, Prod.mk.injEq] at hr
              rw [← hr.2]
              rfl
        cases b with
        | end_ =>
          simp only [Outcome.ok.injEq, Prod.mk.injEq] at h
          rw [← h.2.2, h1]
        | frames d ids =>
          simp only at h
          cases hr2 : readAll frames n s1 with
          | throw m => rw [hr2] at h; simp at h
          | ub => rw [hr2] at h; simp at h
          | ok y =>
            rw [hr2] at h
            simp only [Outcome.ok_bind, Outcome.ok.injEq, Prod.mk.injEq] at h
            rw [← h.2.2, ih s1 y.2.2 y.1 y.2.1 hr2, h1]
  rw [key n _ _ _ _ h]
  rfl

/-- The block size must not be 0: the reader never reaches the end. -/
theorem C37_zero_block (frames : List F) (ids : List Nat) (h : 0 < frames.length) (h32 : frames.length < 2 ^ 32) (n : Nat) :
    ∃ blocks s, readAll frames n (create ids 0 frames.length) = .ok (blocks, false, s) ∧ ∀ x ∈ blocks, x.1 = [] := by
  induction n with
  | zero => exact ⟨[], _, rfl, by simp⟩
  | succ n ih =>
    obtain ⟨bs, s, h1, h2⟩ := ih
    have hread : PyReader.read frames (create ids 0 frames.length) =
        .ok (.frames [] [], create ids 0 frames.length) := by
      show PyReader.read frames ⟨ids, 0, frames.length, 0⟩ = _
      simp only [PyReader.read]
      rw [if_neg (by omega)]
      simp [pySlice, create]
    refine ⟨([], []) :: bs, s, ?_, ?_⟩
    · simp only [readAll]
      rw [hread]
      simp only [Outcome.ok_bind]
      rw [h1]
      rfl
    · intro x hx
      rcases List.mem_cons.1 hx with rfl | hx
      · rfl
      · exact h2 x hx

/-- Fewer image numbers than frames: memory outside of the vector is read. -/
theorem C37_few_positions (frames : List F) (ids : List Nat) (b : Nat) (hb : 0 < b) (h32 : frames.length + b ≤ 2 ^ 32)
    (h : 0 < frames.length) (h0 : ids.length = 0) :
    PyReader.read frames (create ids b frames.length) = .ub := by
  have : ids = [] := List.length_eq_zero_iff.1 h0
  subst this
  show PyReader.read frames ⟨[], b, frames.length, 0⟩ = _
  simp only [PyReader.read]
  rw [if_neg (by omega)]
  have : ∃ n, (if (0 + b) % 2 ^ 32 > frames.length then frames.length else (0 + b) % 2 ^ 32) - 0 = n + 1 := by
    refine ⟨(if (0 + b) % 2 ^ 32 > frames.length then frames.length else (0 + b) % 2 ^ 32) - 1, ?_⟩
    rw [Nat.mod_eq_of_lt (by omega)]
    split <;> omega
  obtain ⟨n, hn⟩ := this
  rw [hn, List.range'_succ, List.mapM_cons]
  rfl

/-- 5 frames in blocks of 2. -/
example : readAll [10, 11, 12, 13, 14] 4 (create [0, 1, 2, 3, 4] 2 5) =
    .ok ([([10, 11], [0, 1]), ([12, 13], [2, 3]), ([14], [4])], true, ⟨[0, 1, 2, 3, 4], 2, 5, 5⟩) := by rfl

/-! ### C38 -/

open Stempy.Buffer

/-- **C38** The view of an image shows at row `y` and column `x` the element `x + y * width`, for every shape. -/
theorem C38_image {α : Type} (mem : List α) (k w h x y : Nat) (hk : 0 < k) (hmem : mem.length = w * h) (hx : x < w) (hy : y < h) :
    ∃ v, mem[x + y * w]? = some v ∧ element (imageView k w h) mem [y, x] = .ok v := by
  have hlt : x + y * w < w * h := by
    have := Nat.mul_le_mul_right w (show y + 1 ≤ h by omega)
    rw [Nat.succ_mul, Nat.mul_comm h w] at this
    omega
  refine ⟨mem[x + y * w], List.getElem?_eq_getElem (by omega), ?_⟩
  have : offset (imageView k w h) [y, x] / (imageView k w h).itemSize = x + y * w := by
    simp only [offset, imageView, List.zipWith_cons_cons, List.zipWith_nil_right, List.sum_cons, List.sum_nil]
    rw [show k * w * y + (k * x + 0) = k * (x + y * w) by rw [Nat.mul_add, Nat.mul_assoc, Nat.mul_comm w y]; omega,
      Nat.mul_div_cancel_left _ hk]
  rw [element, this, readAt_lt (by omega)]

/-- **C38** The view of a radial sum shows at radius `r`, row `y` and column `x` the sum of the position `x + y * width` and
the radius. -/
theorem C38_radial {α : Type} (mem : List α) (radii w h r x y : Nat) (hmem : mem.length = w * h * radii) (hr : r < radii)
    (hx : x < w) (hy : y < h) :
    ∃ v, mem[r * (w * h) + (x + y * w)]? = some v ∧ element (radialView radii w h) mem [r, y, x] = .ok v := by
  have hlt : x + y * w < w * h := by
    have := Nat.mul_le_mul_right w (show y + 1 ≤ h by omega)
    rw [Nat.succ_mul, Nat.mul_comm h w] at this
    omega
  have hlt2 : r * (w * h) + (x + y * w) < mem.length := by
    have := Nat.mul_le_mul_right (w * h) (show r + 1 ≤ radii by omega)
    rw [Nat.succ_mul, Nat.mul_comm radii] at this
    omega
  refine ⟨_, List.getElem?_eq_getElem hlt2, ?_⟩
  have : offset (radialView radii w h) [r, y, x] / (radialView radii w h).itemSize = r * (w * h) + (x + y * w) := by
    simp only [offset, radialView, List.zipWith_cons_cons, List.zipWith_nil_right, List.sum_cons, List.sum_nil]
    rw [show 8 * w * h * r = 8 * (r * (w * h)) by rw [Nat.mul_assoc 8, Nat.mul_assoc 8, Nat.mul_comm r],
      show 8 * w * y = 8 * (y * w) by rw [Nat.mul_assoc, Nat.mul_comm w]]
    omega
  rw [element, this, readAt_lt hlt2]

private theorem block_offset (n w h i x y : Nat) :
    offset (blockView n w h) [i, y, x] / (blockView n w h).itemSize = i * (w * h) + (x + y * h) := by
  simp only [offset, blockView, List.zipWith_cons_cons, List.zipWith_nil_right, List.sum_cons, List.sum_nil]
  rw [show 2 * h * w * i = 2 * (i * (w * h)) by
      rw [Nat.mul_assoc 2, Nat.mul_assoc 2, Nat.mul_comm (h * w) i, Nat.mul_comm h w],
    show 2 * h * y = 2 * (y * h) by rw [Nat.mul_assoc, Nat.mul_comm h]]
  omega

/-- **C38**, raw blocks, for square frames (missing: frames with different width and height, for which the property is
false by the theorems below): the element `[i, y, x]` is the pixel `x + y * width` of frame `i`. -/
theorem C38_block_partial {α : Type} (mem : List α) (n w i x y : Nat) (hmem : mem.length = n * (w * w)) (hi : i < n)
    (hx : x < w) (hy : y < w) :
    ∃ v, mem[i * (w * w) + (x + y * w)]? = some v ∧ element (blockView n w w) mem [i, y, x] = .ok v := by
  have hlt : x + y * w < w * w := by
    have := Nat.mul_le_mul_right w (show y + 1 ≤ w by omega)
    rw [Nat.succ_mul] at this
    omega
  have hlt2 : i * (w * w) + (x + y * w) < mem.length := by
    have := Nat.mul_le_mul_right (w * w) (show i + 1 ≤ n by omega)
    rw [Nat.succ_mul] at this
    omega
  exact ⟨_, List.getElem?_eq_getElem hlt2, by rw [element, block_offset, readAt_lt hlt2]⟩

/-- **C38** is false for every other shape of more than one row: the element `[0, 1, 0]` is not at the position of the pixel
(0, 1), as the stride of the rows is computed from the height. -/
theorem C38_block_wrong (n w h : Nat) (hwh : w ≠ h) :
    offset (blockView n w h) [0, 1, 0] / (blockView n w h).itemSize ≠ 0 * (w * h) + (0 + 1 * w) := by
  rw [block_offset]
  omega

/-- It gives wrong pixels for wide frames: two rows of three pixels. -/
theorem C38_wide_wrong : element (blockView 1 3 2) [11, 12, 13, 21, 22, 23] [0, 1, 0] = .ok 13 ∧
    ([11, 12, 13, 21, 22, 23] : List Nat)[0 + 1 * 3]? = some 21 := by decide

/-- For frames that are higher than wide the last row of the last frame is read from outside of the memory of the block. -/
theorem C38_tall_outside {α : Type} (mem : List α) (n w h : Nat) (hn : 0 < n) (hw : 0 < w) (hwh : w < h)
    (hmem : mem.length = n * (w * h)) :
    element (blockView n w h) mem [n - 1, h - 1, w - 1] = .ub := by
  rw [element, block_offset, readAt_ub.2]
  obtain ⟨n, rfl⟩ : ∃ m, n = m + 1 := ⟨n - 1, by omega⟩
  obtain ⟨k, rfl⟩ : ∃ k, h = k + 1 := ⟨h - 1, by omega⟩
  rw [hmem, Nat.succ_mul]
  simp only [Nat.add_sub_cancel]
  have : w * (k + 1) ≤ k * (k + 1) := Nat.mul_le_mul_right _ (by omega)
  omega

example : element (blockView 2 2 2) [1, 2, 3, 4, 5, 6, 7, 8] [1, 1, 0] = .ok 7 := by decide

end Stempy.Props
