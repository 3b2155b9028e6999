import Verif.Props.StemSparse
import Verif.Lemmas.SparseArray
import Verif.Model.PyImage

/-! C59: the sparse array returned by electron counting. -/

namespace Stempy.PyImage
open Numpy Sparse

/-- A counting result: a `W` x `H` scan with `k` frames of `w` x `h` pixels each; events are `y * w + x`. -/
structure CountedOK (d : CountedData) (k W H w h : Nat) : Prop where
  scan : d.scanDimensions = (W, H)
  frame : d.frameDimensions = (w, h)
  length : d.data.length = W * H
  pos : 0 < W * H
  frames : ∀ row ∈ d.data, row.length = k
  lt : ∀ row ∈ d.data, ∀ fr ∈ row, ∀ e ∈ fr, e < w * h
  nodup : ∀ row ∈ d.data, ∀ fr ∈ row, fr.Nodup

theorem toPython_ok {d : CountedData} {k W H w h : Nat} (hd : CountedOK d k W H w h) :
    toPython d = .ok ⟨⟨d.data, k, [H, W], [w, h], true, false⟩, some d⟩ := by
  obtain ⟨row, rest, hrow⟩ : ∃ row rest, d.data = row :: rest := by
    cases hdd : d.data with
    | nil => have := hd.length; have := hd.pos; simp [hdd] at *; omega
    | cons r l => exact ⟨r, l, rfl⟩
  have hk : (d.data.headD []).length = k := by
    rw [hrow]; exact hd.frames row (by rw [hrow]; simp)
  unfold toPython
  simp only
  rw [hk, hd.scan, hd.frame, if_pos]
  · unfold SparseArray.init
    rw [if_pos]
    · rfl
    · simp only [prod, Nat.mul_one]
      rw [hd.length, Nat.mul_comm]
  · rw [List.all_eq_true]
    intro r hr
    simpa using hd.frames r hr

theorem toPython_wf {d : CountedData} {k W H w h : Nat} (hd : CountedOK d k W H w h) :
    WF ⟨d.data, k, [H, W], [w, h], true, false⟩ :=
  ⟨.inr rfl, by simp only [prod, Nat.mul_one]; rw [hd.length, Nat.mul_comm], hd.frames,
    by simpa [prod] using hd.lt, hd.nodup⟩

/-- **C59** for square frames: the array has the scan shape (height, width), and in the frame of a scan position the pixel in row
`y` and column `x` is the number of frames of the position with an event at (`x`, `y`) (0 or 1 for one frame).
Missing: other frame shapes, see `C59_not_square`. -/
theorem C59_square_partial (d : CountedData) (k W H w : Nat) (hd : CountedOK d k W H w w) :
    ∃ o, toPython d = .ok o ∧ o.array.scanShape = [H, W] ∧ o.array.frameShape = [w, w] ∧
      ∀ sy sx y x, sy < H → sx < W → y < w → x < w → ∃ frame, expand o.array [sy, sx] = .ok frame ∧
        frame[y * w + x]? = some ((d.data.getD (sy * W + sx) []).countP fun fr => decide ((y * w + x) ∈ fr)) := by
  refine ⟨_, toPython_ok hd, rfl, rfl, ?_⟩
  intro sy sx y x hsy hsx hy hx
  have hwf := toPython_wf hd
  have hp : sy * W + sx < prod [H, W] := by
    have := flat_lt hsx hsy
    simp only [prod, Nat.mul_one]
    rwa [Nat.mul_comm H W]
  have hidx : unravel [H, W] (sy * W + sx) = [sy, sx] := by
    simp only [unravel, prod, Nat.mul_one, Nat.div_one]
    rw [flat_div sy hsx, flat_mod sy hsx]
  have := expand_ok hwf (p := sy * W + sx) hp
  rw [hidx] at this
  refine ⟨_, this, ?_⟩
  have hq : y * w + x < prod [w, w] := by simpa [prod] using flat_lt hx hy
  rw [List.getElem?_map, List.getElem?_range hq, Option.map_some]
  congr 1
  unfold eventCount
  rw [countP_mem]
  exact hd.nodup _ (getD_mem _ _ _ (by rw [hd.length]; exact flat_lt hsx hsy))

/-- **C59 is violated for every frame that is not square**: the frame shape is (width, height), and with at least two rows and
columns there is an event at a pixel (`x`, `y`) which is missing in row `y` and column `x` of the frame. -/
theorem C59_not_square (w h : Nat) (hne : w ≠ h) :
    (∀ d k W H, CountedOK d k W H w h → ∃ o, toPython d = .ok o ∧ o.array.frameShape ≠ [h, w]) ∧
    (2 ≤ w → 2 ≤ h → ∃ (d : CountedData) (x y : Nat), CountedOK d 1 1 1 w h ∧ x < w ∧ y < h ∧ d.data = [[[y * w + x]]] ∧
      ∃ o frame, toPython d = .ok o ∧ expand o.array [0, 0] = .ok frame ∧
        frame[y * (o.array.frameShape.getD 1 0) + x]? = some 0) := by
  constructor
  · intro d k W H hd
    refine ⟨_, toPython_ok hd, ?_⟩
    intro h2
    simp only [List.cons.injEq, and_true] at h2
    exact hne h2.1
  · intro hw hh
    have hwh : w < w * h := by
      calc w = w * 1 := by omega
        _ < w * h := Nat.mul_lt_mul_of_pos_left (by omega) (by omega)
    have hhh : h < w * h := by
      calc h = 1 * h := by omega
        _ < w * h := Nat.mul_lt_mul_of_pos_right (by omega) (by omega)
    have hd : CountedOK ⟨[[[1 * w + 0]]], (1, 1), (w, h)⟩ 1 1 1 w h := by
      refine ⟨rfl, rfl, rfl, by omega, by simp, ?_, by simp⟩
      simpa using hwh
    refine ⟨⟨[[[1 * w + 0]]], (1, 1), (w, h)⟩, 0, 1, hd, by omega, by omega, rfl, _,
      (List.range (w * h)).map fun q => if q = w then 1 else 0, toPython_ok hd, ?_, ?_⟩
    · have := expand_ok (toPython_wf hd) (p := 0) (by simp [prod])
      have hu : unravel [1, 1] 0 = [0, 0] := by simp [unravel, prod]
      simp only [hu] at this
      rw [this]
      simp only [prod, Nat.mul_one]
      congr 1
      apply List.map_congr_left
      intro q _
      simp only [eventCount, List.getD_cons_zero, List.flatten_cons, List.flatten_nil, List.append_nil, Nat.one_mul,
        Nat.add_zero, List.count_cons, List.count_nil, Nat.zero_add]
      by_cases hq : q = w
      · simp [hq]
      · have : ¬ w = q := fun h => hq h.symm
        simp [hq, this]
    · simp only [List.getD_cons_succ, List.getD_cons_zero, Nat.one_mul, Nat.add_zero]
      rw [List.getElem?_map, List.getElem?_range hhh, Option.map_some, if_neg fun h2 => hne h2.symm]

/-- **C59**: STEM images computed from the sparse array (as after saving and loading) are those of the counting result; for every
frame shape. Their values are in `C03_sparse`. -/
theorem C59_stem (d : CountedData) (k W H w h : Nat) (hd : CountedOK d k W H w h) (inner outer : List Int) (c : Int × Int) :
    ∃ o, toPython d = .ok o ∧
      createStemImages o inner outer c = Image.createSTEMImagesSparse d.data inner outer (W, H) (w, h) c ∧
      createStemImages { o with counted := none } inner outer c =
        Image.createSTEMImagesSparse d.data inner outer (W, H) (w, h) c := by
  refine ⟨_, toPython_ok hd, ?_, rfl⟩
  simp only [createStemImages, hd.scan, hd.frame]

/-- **C59 is violated after binning in place**: the attribute with the counting result is kept, so that STEM images are those of
the data before binning, whatever the operation was. -/
theorem C59_in_place_false (f : SparseArray → Outcome SparseArray) (o o' : PyArray) (h : inPlace f o = .ok o')
    (hc : o.counted ≠ none) (inner outer : List Int) (c : Int × Int) :
    createStemImages o' inner outer c = createStemImages o inner outer c := by
  unfold inPlace at h
  cases hf : f o.array with
  | throw m => rw [hf] at h; cases h
  | ub => rw [hf] at h; cases h
  | ok a =>
    rw [hf] at h
    have h2 : o' = { o with array := a } := by
      have : Outcome.ok { o with array := a } = Outcome.ok o' := h
      exact (Outcome.ok.inj this).symm
    subst h2
    obtain ⟨array, counted⟩ := o
    cases counted with
    | none => exact absurd rfl hc
    | some d => rfl

/-- A counting result with four frames in a 2 x 2 scan. -/
def countedSample : CountedData := ⟨[[[0, 3]], [[]], [[1]], [[0, 1, 2, 3]]], (2, 2), (2, 2)⟩

theorem countedSample_ok : CountedOK countedSample 1 2 2 2 2 := by
  refine ⟨rfl, rfl, rfl, by omega, ?_, ?_, ?_⟩ <;> simp [countedSample]

example : ∃ o, toPython countedSample = .ok o ∧ o.array.scanShape = [2, 2] ∧ expand o.array [1, 0] = .ok [0, 1, 0, 0] :=
  ⟨_, toPython_ok countedSample_ok, rfl, by decide⟩

/-- Binning the scan of this result in place: the images still have four pixels, those of the binned array one. -/
theorem C59_in_place_witness : ∃ o o', toPython countedSample = .ok o ∧ inPlace (fun a => binScans a 2) o = .ok o' ∧
    createStemImages o' [0] [3] (0, 0) = .ok [[131070, 0, 65535, 262140]] ∧
    createStemImages { o' with counted := none } [0] [3] (0, 0) = .ok [[458745]] := by
  refine ⟨_, _, toPython_ok countedSample_ok, rfl, ?_, ?_⟩ <;> decide

/-- **C59** (frames that are not square, in the order (rows, columns) of a sparse array, e.g. after slicing): the number of rows is
taken for the width of the frame, so that the event in row 0 and column 2 is counted in the disc of radius 2 around the first
pixel, although it is not inside. -/
theorem C59_sliced_false :
    createStemImages ⟨⟨[[[3]], [[2]]], 1, [1, 2], [2, 3], true, false⟩, none⟩ [0] [2] (0, 0) = .ok [[65535, 65535]] ∧
    Spec.annulusHits 3 0 2 0 0 [3] = 1 ∧ Spec.annulusHits 3 0 2 0 0 [2] = 0 := by
  refine ⟨?_, ?_, ?_⟩ <;> decide

end Stempy.PyImage
