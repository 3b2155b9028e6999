import Verif.Model.Hdf5
import Verif.Lemmas.ListSum

/-!
C33: placement of the frames in HDF5 files.
-/

namespace Stempy.Props
open Stempy.Hdf5

/-- A block as returned by the sector readers: one frame of 576 × 576 pixels, of a position of the scan. -/
structure CubeBlock (w h : Nat) (b : Block) (pos : Nat) : Prop where
  width : b.scanWidth = w
  height : b.scanHeight = h
  numbers : b.imageNumbers = [pos]
  size : b.data.length = 576 * 576
  inScan : pos < w * h

/-- The dataset after writing a frame at `(i, j)` of the cube. -/
def putFrame (d : Dataset) (start : List Nat) (counts : List Nat) (data : List Nat) : Dataset :=
  { d with value := fun idx => ((slabOffset start counts idx).map fun o => data.getD o 0).getD (d.value idx) }

private theorem updateData_ok {d : Dataset} {start counts data : List Nat} (hf : fits d.dims start counts = true)
    (hp : counts.prod ≤ data.length) : updateData d start counts data = .ok (putFrame d start counts data) := by
  have hp' : ¬ data.length < counts.prod := by omega
  simp only [updateData, hf, Bool.not_true, Bool.false_eq_true, if_false, if_neg hp', putFrame]
  congr 2
  funext idx
  cases slabOffset start counts idx <;> rfl

private theorem cubeImage_ok {w h pos : Nat} {b : Block} (hb : CubeBlock w h b pos) (d : Dataset)
    (hd : d.dims = [w, h, 576, 576]) :
    cubeImage d b 0 = .ok (putFrame d [pos % w, pos / w, 0, 0] [1, 1, 576, 576] b.data) := by
  have hdm := divmod_lt hb.inScan
  have hw : w ≠ 0 := by rintro rfl; simp at hdm
  have hf : fits d.dims [pos % w, pos / w, 0, 0] [1, 1, 576, 576] = true := by
    rw [hd]
    simp only [fits, Bool.and_eq_true, decide_eq_true_eq, Bool.and_true]
    omega
  have hr : readAt b.imageNumbers 0 = .ok pos := by rw [hb.numbers]; rfl
  simp only [cubeImage, hr, Outcome.ok_bind, hb.width, hw, if_false]
  rw [Nat.zero_mul, List.drop_zero]
  refine updateData_ok hf ?_
  rw [hb.size]
  simp

private theorem slab_cube {w pos x y r c : Nat} (hx : x < w) (hr : r < 576) (hc : c < 576) :
    slabOffset [pos % w, pos / w, 0, 0] [1, 1, 576, 576] [x, y, r, c] =
      if pos = y * w + x then some (r * 576 + c) else none := by
  have key : pos = y * w + x ↔ (pos % w = x ∧ pos / w = y) := by
    constructor
    · rintro rfl
      exact ⟨flat_mod y hx, flat_div y hx⟩
    · rintro ⟨rfl, rfl⟩
      rw [Nat.mul_comm]
      exact (Nat.div_add_mod pos w).symm
  by_cases h : pos = y * w + x
  · have h1 := key.1 h
    simp only [slabOffset, h1.1, h1.2]
    rw [if_pos (by omega), if_pos (by omega), if_pos (by omega), if_pos (by omega), if_pos h]
    simp
  · rw [if_neg h]
    have h1 : ¬ (pos % w = x ∧ pos / w = y) := fun e => h (key.2 e)
    simp only [slabOffset]
    by_cases h2 : pos % w = x
    · rw [if_pos (by omega), if_neg (by omega)]
      rfl
    · rw [if_neg (by omega)]

/-- The last frame of a position in a stream of blocks. -/
def lastFrame (bs : List (Nat × Block)) (pos : Nat) : Option Block := (bs.reverse.find? fun b => b.1 = pos).map (·.2)

private theorem lastFrame_cons (pb : Nat × Block) (bs : List (Nat × Block)) (pos : Nat) :
    lastFrame (pb :: bs) pos = (lastFrame bs pos).or (if pb.1 = pos then some pb.2 else none) := by
  simp only [lastFrame, List.reverse_cons, List.find?_append]
  cases bs.reverse.find? fun b => b.1 = pos with
  | some x => simp
  | none =>
    by_cases h : pb.1 = pos <;> simp [h]

private theorem cubeBlocks_ok {w h : Nat} (bs : List (Nat × Block)) (hb : ∀ b ∈ bs, CubeBlock w h b.2 b.1)
    (d : Dataset) (hd : d.dims = [w, h, 576, 576]) :
    ∃ d', cubeBlocks (some d) (bs.map (·.2)) = .ok (some d') ∧ d'.dims = [w, h, 576, 576] ∧
      ∀ x y r c, x < w → r < 576 → c < 576 → d'.value [x, y, r, c] =
        match lastFrame bs (y * w + x) with
        | some b => b.data.getD (r * 576 + c) 0
        | none => d.value [x, y, r, c] := by
  induction bs generalizing d with
  | nil => exact ⟨d, rfl, hd, fun _ _ _ _ _ _ _ => rfl⟩
  | cons pb bs ih =>
    have h0 := hb pb (by simp)
    have hi := cubeImage_ok h0 d hd
    obtain ⟨d', h1, h2, h3⟩ := ih (fun b hb' => hb b (by simp [hb']))
      (putFrame d [pb.1 % w, pb.1 / w, 0, 0] [1, 1, 576, 576] pb.2.data) hd
    refine ⟨d', ?_, h2, ?_⟩
    · simp only [List.map_cons, cubeBlocks, Option.getD_some, h0.numbers, List.length_singleton, List.range_one,
        List.foldlM_cons, List.foldlM_nil, hi, Outcome.ok_bind]
      exact h1
    · intro x y r c hx hr hc
      rw [h3 x y r c hx hr hc, lastFrame_cons]
      cases hl : lastFrame bs (y * w + x) with
      | some b => simp
      | none =>
        simp only [Option.none_or, putFrame, slab_cube hx hr hc]
        by_cases hp : pb.1 = y * w + x <;> simp [hp]

/-- **C33** The data cube of a stream: the dimensions are those of the scan, and the pixels of the frame of image number
`n` are at column `n % width` and row `n / width` of the scan, in row-major order of the pixels. Other cells are
0. (If several frames have the same number, the last is stored.) -/
theorem C33_cube {w h : Nat} (bs : List (Nat × Block)) (hne : bs ≠ []) (hb : ∀ b ∈ bs, CubeBlock w h b.2 b.1) :
    ∃ d, toHdf5Cube (bs.map (·.2)) = .ok (some d) ∧ d.dims = [w, h, 576, 576] ∧
      ∀ x y r c, x < w → y < h → r < 576 → c < 576 → d.value [x, y, r, c] =
        match lastFrame bs (y * w + x) with
        | some b => b.data.getD (r * 576 + c) 0
        | none => 0 := by
  cases bs with
  | nil => exact absurd rfl hne
  | cons pb bs =>
    have h0 := hb pb (by simp)
    obtain ⟨d, h1, h2, h3⟩ := cubeBlocks_ok (pb :: bs) hb (create [w, h, 576, 576]) rfl
    refine ⟨d, ?_, h2, fun x y r c hx _ hr hc => h3 x y r c hx hr hc⟩
    rw [← h1]
    simp only [toHdf5Cube, List.map_cons, cubeBlocks, Option.getD_none, Option.getD_some, h0.width, h0.height]

/-- **C33** Image numbers of the scan and cells of the cube correspond to each other one to one. -/
theorem C33_cells {w h : Nat} :
    (∀ n < w * h, n % w < w ∧ n / w < h) ∧
    (∀ n < w * h, ∀ m < w * h, n % w = m % w → n / w = m / w → n = m) ∧
    ∀ x < w, ∀ y < h, y * w + x < w * h ∧ (y * w + x) % w = x ∧ (y * w + x) / w = y := by
  refine ⟨fun n hn => divmod_lt hn, ?_, fun x hx y hy => ⟨flat_lt hx hy, flat_mod y hx, flat_div y hx⟩⟩
  intro n _ m _ h1 h2
  rw [← Nat.div_add_mod n w, ← Nat.div_add_mod m w, h1, h2]

/-- **C33** An image number outside of the scan is an error (and not written somewhere else). -/
theorem C33_cube_outside {w h n : Nat} (b : Block) (d : Dataset) (hd : d.dims = [w, h, 576, 576]) (hw : 0 < w)
    (h1 : b.scanWidth = w) (h2 : b.imageNumbers = [n]) (hn : w * h ≤ n) :
    cubeImage d b 0 = .throw "Unable to update HDF5." := by
  have hf : fits d.dims [n % w, n / w, 0, 0] [1, 1, 576, 576] = false := by
    rw [hd]
    have : h ≤ n / w := by rw [Nat.le_div_iff_mul_le hw, Nat.mul_comm]; exact hn
    simp only [fits, Bool.and_eq_false_iff, decide_eq_false_iff_not]
    omega
  have hr : readAt b.imageNumbers 0 = .ok n := by rw [h2]; rfl
  have hw' : w ≠ 0 := by omega
  simp only [cubeImage, hr, Outcome.ok_bind, h1, hw', if_false, updateData, hf, Bool.not_false, if_true]

/-! ### Frame format -/

/-- A block with any number of images. -/
structure FrameBlock (size : Nat) (b : Block) : Prop where
  area : b.scanWidth * b.scanHeight = size
  data : b.data.length = b.imageNumbers.length * (576 * 576)
  inScan : ∀ n ∈ b.imageNumbers, n < size

/-- The images of a block: number and pixels, which are consecutive parts of the data of the block. -/
def blockImages (b : Block) : List (Nat × List Nat) :=
  (List.range b.imageNumbers.length).map fun i =>
    (b.imageNumbers.getD i 0, (b.data.drop (i * (576 * 576))).take (576 * 576))

/-- The pixels of the last image with a number. -/
def lastImage (l : List (Nat × List Nat)) (n : Nat) : Option (List Nat) :=
  (l.reverse.find? fun b => b.1 = n).map (·.2)

private theorem lastImage_append (l m : List (Nat × List Nat)) (n : Nat) :
    lastImage (l ++ m) n = (lastImage m n).or (lastImage l n) := by
  simp only [lastImage, List.reverse_append, List.find?_append]
  cases m.reverse.find? fun b => b.1 = n <;> simp

private theorem lastImage_one (m : Nat) (f : List Nat) (n : Nat) :
    lastImage [(m, f)] n = if m = n then some f else none := by
  by_cases h : m = n <;> simp [lastImage, h]

private theorem slab_frame {pos n r c : Nat} (hr : r < 576) (hc : c < 576) :
    slabOffset [pos, 0, 0] [1, 576, 576] [n, r, c] = if pos = n then some (r * 576 + c) else none := by
  by_cases h : pos = n
  · subst h
    simp only [slabOffset]
    rw [if_pos (by omega), if_pos (by omega), if_pos (by omega)]
    simp
  · simp only [slabOffset]
    rw [if_neg (by omega), if_neg h]

private theorem frameImages_ok {size : Nat} {b : Block} (hb : FrameBlock size b) (is : List Nat)
    (hi : ∀ i ∈ is, i < b.imageNumbers.length) (d : Dataset) (hd : d.dims = [size, 576, 576]) :
    ∃ d', is.foldlM (fun d i => frameImage d b i) d = .ok d' ∧ d'.dims = [size, 576, 576] ∧
      ∀ n r c, r < 576 → c < 576 → d'.value [n, r, c] =
        match lastImage (is.map fun i =>
          (b.imageNumbers.getD i 0, (b.data.drop (i * (576 * 576))).take (576 * 576))) n with
        | some f => f.getD (r * 576 + c) 0
        | none => d.value [n, r, c] := by
  induction is generalizing d with
  | nil => exact ⟨d, rfl, hd, fun _ _ _ _ _ => rfl⟩
  | cons i is ih =>
    have hlt := hi i (by simp)
    have hr : readAt b.imageNumbers i = .ok b.imageNumbers[i] := readAt_lt hlt
    have hfit : fits d.dims [b.imageNumbers[i], 0, 0] [1, 576, 576] = true := by
      rw [hd]
      have := hb.inScan _ (List.getElem_mem hlt)
      simp only [fits, Bool.and_eq_true, decide_eq_true_eq, Bool.and_true]
      omega
    have hlen : 576 * 576 ≤ (b.data.drop (i * (576 * 576))).length := by
      rw [List.length_drop, hb.data]
      have : (i + 1) * (576 * 576) ≤ b.imageNumbers.length * (576 * 576) := Nat.mul_le_mul_right _ hlt
      rw [Nat.add_mul] at this
      omega
    have h1 : frameImage d b i =
        .ok (putFrame d [b.imageNumbers[i], 0, 0] [1, 576, 576] (b.data.drop (i * (576 * 576)))) := by
      simp only [frameImage, hr, Outcome.ok_bind]
      rw [Nat.mul_assoc]
      refine updateData_ok hfit ?_
      simpa using hlen
    obtain ⟨d', h2, h3, h4⟩ := ih (fun i hi' => hi i (by simp [hi']))
      (putFrame d [b.imageNumbers[i], 0, 0] [1, 576, 576] (b.data.drop (i * (576 * 576)))) hd
    refine ⟨d', ?_, h3, ?_⟩
    · simp only [List.foldlM_cons, h1, Outcome.ok_bind]
      exact h2
    · intro n r c hr' hc
      have hc1 : ∀ (z : Nat × List Nat) l, lastImage (z :: l) n = (lastImage l n).or (lastImage [z] n) :=
        fun z l => lastImage_append [z] l n
      rw [h4 n r c hr' hc, List.map_cons, hc1]
      cases lastImage _ n with
      | some f => simp
      | none =>
        simp only [Option.none_or, putFrame, slab_frame hr' hc]
        have hg : b.imageNumbers.getD i 0 = b.imageNumbers[i] := by simp [List.getD, hlt]
        rw [lastImage_one, hg]
        by_cases hp : b.imageNumbers[i] = n
        · rw [if_pos hp, if_pos hp]
          simp only [Option.map_some, Option.getD_some, List.getD]
          rw [List.getElem?_take_of_lt (by omega)]
        · rw [if_neg hp, if_neg hp]
          rfl

private theorem frameBlocks_ok {size : Nat} (bs : List Block) (hb : ∀ b ∈ bs, FrameBlock size b)
    (d : Dataset) (hd : d.dims = [size, 576, 576]) :
    ∃ d', frameBlocks (some d) bs = .ok (some d') ∧ d'.dims = [size, 576, 576] ∧
      ∀ n r c, r < 576 → c < 576 → d'.value [n, r, c] =
        match lastImage (bs.flatMap blockImages) n with
        | some f => f.getD (r * 576 + c) 0
        | none => d.value [n, r, c] := by
  induction bs generalizing d with
  | nil => exact ⟨d, rfl, hd, fun _ _ _ _ _ => rfl⟩
  | cons b bs ih =>
    obtain ⟨d1, h1, h2, h3⟩ := frameImages_ok (hb b (by simp)) (List.range b.imageNumbers.length)
      (by simp) d hd
    obtain ⟨d', h4, h5, h6⟩ := ih (fun b hb' => hb b (by simp [hb'])) d1 h2
    refine ⟨d', ?_, h5, ?_⟩
    · simp only [frameBlocks, h1, Outcome.ok_bind]
      exact h4
    · intro n r c hr hc
      rw [h6 n r c hr hc, List.flatMap_cons, lastImage_append]
      cases lastImage (bs.flatMap blockImages) n with
      | some f => simp
      | none =>
        simp only [Option.none_or]
        exact h3 n r c hr hc

/-- **C33** Frame format, blocks with any number of images: image number `n` is at index `n`, and its pixels are those
of its part of the block. -/
theorem C33_frames {size : Nat} (bs : List Block) (hne : bs ≠ []) (hb : ∀ b ∈ bs, FrameBlock size b)
    (h31 : size < 2 ^ 31) :
    ∃ d, toHdf5Frames bs = .ok (some d) ∧ d.dims = [size, 576, 576] ∧
      ∀ n r c, r < 576 → c < 576 → d.value [n, r, c] =
        match lastImage (bs.flatMap blockImages) n with
        | some f => f.getD (r * 576 + c) 0
        | none => 0 := by
  cases bs with
  | nil => exact absurd rfl hne
  | cons b bs =>
    have h0 := hb b (by simp)
    obtain ⟨d, h1, h2, h3⟩ := frameBlocks_ok (b :: bs) hb (create [size, 576, 576]) rfl
    refine ⟨d, ?_, h2, h3⟩
    rw [← h1]
    have e : int32 ((b.scanWidth : Int) * (b.scanHeight : Int)) = .ok (size : Int) := by
      rw [← Nat.cast_mul, h0.area, int32, if_pos (by omega)]
    simp only [toHdf5Frames, frameBlocks, e, Outcome.ok_bind, Int.toNat_natCast]

/-- **C33** The cube does not handle blocks of several images (no reader that can write HDF5 produces them): all go to
the cell of the first. -/
theorem C33_cube_several (d : Dataset) (b : Block) (i : Nat) (n : Nat) (ns : List Nat) (h : b.imageNumbers = n :: ns) (x y : Nat)
    (hxy : ¬ (x = n % b.scanWidth ∧ y = n / b.scanWidth)) (r c : Nat) (d' : Dataset) (hd : cubeImage d b i = .ok d') :
    d'.value [x, y, r, c] = d.value [x, y, r, c] := by
  have hr : readAt b.imageNumbers 0 = .ok n := by rw [h]; rfl
  simp only [cubeImage, hr, Outcome.ok_bind] at hd
  split at hd
  · simp at hd
  · simp only [updateData] at hd
    split at hd
    · simp at hd
    · split at hd
      · simp at hd
      · simp only [Outcome.ok.injEq] at hd
        subst hd
        have e : slabOffset [n % b.scanWidth, n / b.scanWidth, 0, 0] [1, 1, 576, 576] [x, y, r, c] = none := by
          simp only [slabOffset]
          by_cases h1 : x = n % b.scanWidth
          · rw [if_pos (by omega), if_neg (by omega)]; rfl
          · rw [if_neg (by omega)]
        simp only [e]

/-- The hypotheses hold for a scan of 3 × 2 positions with frames at the positions 4 and 0. -/
example : ∃ bs : List (Nat × Block), bs.map (·.1) = [4, 0] ∧ (∀ b ∈ bs, CubeBlock 3 2 b.2 b.1) ∧
    ∀ b ∈ bs.map (·.2), FrameBlock 6 b := by
  refine ⟨[(4, ⟨3, 2, [4], List.replicate (576 * 576) 7⟩), (0, ⟨3, 2, [0], List.replicate (576 * 576) 9⟩)], rfl, ?_, ?_⟩
  · intro b hb
    simp only [List.mem_cons, List.not_mem_nil, or_false] at hb
    rcases hb with rfl | rfl
    · exact ⟨rfl, rfl, rfl, List.length_replicate, by omega⟩
    · exact ⟨rfl, rfl, rfl, List.length_replicate, by omega⟩
  · intro b hb
    simp only [List.map_cons, List.map_nil, List.mem_cons, List.not_mem_nil, or_false] at hb
    rcases hb with rfl | rfl
    · exact ⟨rfl, by simp only [List.length_replicate, List.length_singleton, Nat.one_mul], by simp⟩
    · exact ⟨rfl, by simp only [List.length_replicate, List.length_singleton, Nat.one_mul], by simp⟩

end Stempy.Props
