import Verif.Model.PyElements
import Verif.Props.NumpyMemory
import Verif.Props.PyReader
import Mathlib.Tactic.NormNum

/-!
C117: the frames of a `PyReader` for data of any element type and number of axes.
-/

namespace Stempy.Props.PyElements
open Stempy Stempy.Numpy Stempy.Strided Stempy.SafeCast Stempy.PyElements

/-- An index of an array of a shape. -/
def Within : List Nat → List Nat → Prop
  | n :: sh, i :: is => i < n ∧ Within sh is
  | [], [] => True
  | _, _ => False

/-- The array has this shape and these elements. -/
structure Holds {α : Type} (a : Arr α) (sh : List Nat) (val : List Nat → α) : Prop where
  shape : a.shape = sh
  axes : a.strides.length = sh.length
  elems : ∀ idx, Within sh idx → a.elem idx = .ok (val idx)

theorem indexes_length (sh : List Nat) : (indexes sh).length = prod sh := by
  induction sh with
  | nil => rfl
  | cons n sh ih => simp [indexes, List.length_flatMap, ih, prod]

theorem indexes_get {sh idx : List Nat} (h : Within sh idx) : (indexes sh)[position sh idx]? = some idx := by
  induction sh generalizing idx with
  | nil =>
    cases idx with
    | nil => rfl
    | cons => cases h
  | cons n sh ih =>
    cases idx with
    | nil => cases h
    | cons i is =>
      obtain ⟨h1, h2⟩ := h
      have h3 := ih h2
      have hlt : position sh is < (indexes sh).length := by
        by_contra hc
        rw [List.getElem?_eq_none (by omega)] at h3
        cases h3
      show (List.flatMap _ _)[i * prod sh + position sh is]? = _
      rw [List.flatMap_def, flatten_uniform_getElem? _ (prod sh) (by
        intro l hl
        obtain ⟨j, _, rfl⟩ := List.mem_map.1 hl
        rw [List.length_map, indexes_length]) i _ (by rw [← indexes_length]; exact hlt)]
      simp [h1, h3]

theorem mem_indexes {sh idx : List Nat} (h : idx ∈ indexes sh) : Within sh idx := by
  induction sh generalizing idx with
  | nil =>
    simp only [indexes, List.mem_singleton] at h
    subst h
    exact trivial
  | cons n sh ih =>
    simp only [indexes, List.mem_flatMap, List.mem_range, List.mem_map] at h
    obtain ⟨i, hi, is, his, rfl⟩ := h
    exact ⟨hi, ih his⟩

theorem copyC_ok {α β : Type} (f : α → β) {a : Arr α} {sh : List Nat} {val : List Nat → α} (h : Holds a sh val) :
    ∃ c, copyC f a = .ok c ∧ c.shape = sh ∧ c.strides = cStrides sh ∧ ∀ idx, Within sh idx → c.raw (position sh idx) = .ok (f (val idx)) := by
  refine ⟨⟨((indexes sh).map val).map f, 0, sh, cStrides sh⟩, ?_, rfl, rfl, ?_⟩
  · unfold copyC
    rw [h.shape, mapM_ok (indexes sh) a.elem val fun idx hi => h.elems idx (mem_indexes hi)]
    rfl
  · intro idx hi
    unfold Arr.raw Arr.load
    rw [if_neg (by omega)]
    refine readAt_eq_ok.2 ?_
    simp [indexes_get hi]

/-- The first element of a part. -/
theorem rows_elem {α : Type} {a : Arr α} {n : Nat} {sh : List Nat} {val : List Nat → α} (h : Holds a (n :: sh) val) {lo hi : Nat} (hl : lo ≤ hi) (hn : hi ≤ n) :
    Holds (a.rows lo hi) ((hi - lo) :: sh) fun idx => match idx with
      | i :: is => val ((lo + i) :: is)
      | [] => val [] := by
  obtain ⟨mem, start, shape, strides⟩ := a
  obtain ⟨h1, h2, h3⟩ := h
  simp only at h1 h2
  subst h1
  cases strides with
  | nil => simp at h2
  | cons s ss =>
    refine ⟨rfl, by simpa [Arr.rows] using h2, ?_⟩
    rintro (_ | ⟨i, is⟩) hi
    · exact absurd hi (by simp [Within])
    · obtain ⟨hi1, hi2⟩ := hi
      have hz : ∃ zs, Within sh zs ∧ distance ss zs = 0 := by
        clear h3 h2
        induction sh generalizing is ss with
        | nil => exact ⟨[], trivial, by cases ss <;> rfl⟩
        | cons m sh ih =>
          cases is with
          | nil => cases hi2
          | cons j js =>
            obtain ⟨zs, hz1, hz2⟩ := ih (ss := ss.tail) js hi2.2
            refine ⟨0 :: zs, ⟨by have := hi2.1; omega, hz1⟩, ?_⟩
            cases ss with
            | nil => rfl
            | cons t ts => simpa [distance] using hz2
      obtain ⟨zs, hz1, hz2⟩ := hz
      have h4 := h3 (lo :: zs) ⟨by omega, hz1⟩
      have hpos : 0 ≤ (start : Int) + s * lo := by
        simp only [Arr.elem, distance, hz2, Int.add_zero, Arr.load] at h4
        by_contra hc
        rw [if_pos (by omega)] at h4
        cases h4
      have h5 := h3 ((lo + i) :: is) ⟨by omega, hi2⟩
      show Arr.elem _ _ = _
      rw [← h5]
      simp only [Arr.elem, Arr.rows, distance, Arr.load]
      rw [Int.toNat_of_nonneg hpos]
      have e : (start : Int) + s * lo + (s * i + distance ss is) = start + (s * ((lo + i : Nat) : Int) + distance ss is) := by
        push_cast
        ring
      rw [e]
      rfl

theorem rows_strides {α : Type} {a : Arr α} {n : Nat} {sh : List Nat} (h : a.shape = n :: sh) (hl : a.strides.length = (n :: sh).length) (lo hi : Nat) :
    (a.rows lo hi).strides = a.strides := by
  obtain ⟨mem, start, shape, strides⟩ := a
  simp only at h
  subst h
  cases strides with
  | nil => simp at hl
  | cons s ss => rfl

/-- Data that are not `uint16` as the machine has it. -/
def Other (d : Data) : Prop := ¬ (d.dtype = native ∧ d.swapped = false)

instance (d : Data) : Decidable (Other d) := inferInstanceAs (Decidable (¬ _))

/-- Data of any type but `uint16`, in C order or a part of such an array; or of type `uint16`, in C order. -/
def Readable (d : Data) : Prop := (Other d ∧ descending d.arr.strides) ∨ (¬ Other d ∧ d.arr.strides = cStrides d.arr.shape)

theorem readBlock_raw (M : Machine) {d : Data} (hr : Readable d) {n : Nat} {sh : List Nat} {val : List Nat → Val} (h : Holds d.arr (n :: sh) val) {lo hi : Nat}
    (hl : lo ≤ hi) (hn : hi ≤ n) :
    ∃ c, toArray M { d with arr := d.arr.rows lo hi } = .ok c ∧ c.shape = (hi - lo) :: sh ∧
      ∀ i is, i < hi - lo → Within sh is → c.raw (position ((hi - lo) :: sh) (i :: is)) = .ok (convert M d.dtype (val ((lo + i) :: is))) := by
  have hR := rows_elem h hl hn
  have hst := rows_strides h.shape h.axes lo hi
  rcases hr with ⟨ho, hd⟩ | ⟨ho, hc⟩
  · obtain ⟨c, h1, h2, -, h3⟩ := copyC_ok (convert M d.dtype) hR
    refine ⟨c, ?_, h2, fun i is hi his => h3 (i :: is) ⟨hi, his⟩⟩
    unfold toArray
    rw [if_neg ho]
    simp only [hst]
    rw [if_pos hd, h1]
  · have ho : d.dtype = native ∧ d.swapped = false := not_not.1 ho
    refine ⟨_, by unfold toArray; rw [if_pos ho], hR.shape, ?_⟩
    intro i is hi' his
    have hc' : (d.arr.rows lo hi).strides = cStrides (d.arr.rows lo hi).shape := by
      rw [hst, hc, hR.shape, h.shape]
      rfl
    have h4 := hR.elems (i :: is) ⟨hi', his⟩
    rw [← C61_contiguous hc' (i :: is), hR.shape] at h4
    simp only at h4
    unfold Arr.raw Arr.load at h4 ⊢
    simp only at h4 ⊢
    split at h4
    · cases h4
    · rename_i hneg
      rw [if_neg hneg]
      rw [readAt_eq_ok] at h4 ⊢
      rw [List.getElem?_map, h4, ho.1]
      rfl

/-- **C117** Every pixel of a block: for all element types but `uint16`, for arrays in C order and all parts of these (cropped frames, every second
frame), and for `uint16` in C order, the pixel (x, y) of image `i` of a block is the converted element `[lo + i, y, x]`. -/
theorem C117_pixel (M : Machine) {d : Data} (hr : Readable d) {n h w : Nat} {val : List Nat → Val} (hd : Holds d.arr [n, h, w] val) {lo hi : Nat}
    (hl : lo ≤ hi) (hn : hi ≤ n) :
    ∃ b, readBlock M d lo hi = .ok b ∧ b.width = w ∧ b.height = h ∧
      ∀ i y x, i < hi - lo → y < h → x < w → b.pixel i y x = .ok (convert M d.dtype (val [lo + i, y, x])) := by
  obtain ⟨c, h1, h2, h3⟩ := readBlock_raw M hr hd hl hn
  refine ⟨⟨w, h, c⟩, ?_, rfl, rfl, ?_⟩
  · unfold readBlock
    rw [h1, Outcome.ok_bind, h2]
    rfl
  · intro i y x hi hy hx
    have := h3 i [y, x] hi ⟨hy, hx, trivial⟩
    rw [← this]
    unfold Blk.pixel
    congr 1
    simp only [position, prod]
    ring

/-- **C117** The converted value of an integer is the integer modulo 65536. -/
theorem C117_integer (M : Machine) (s : Bool) (b : Nat) (z : Int) : convert M (.int s b) (.num z) = (z % 65536).toNat := by
  simp only [convert, native, SafeCast.cast, wrap, intMin, Rat.floor_intCast]
  simp

/-- ... and that of a floating point number from 0 on and below 65536 its integral part. -/
theorem C117_floating (M : Machine) (f : Format) (q : Rat) (h0 : 0 ≤ q) (h1 : q < 65536) : convert M (.float f) (.num q) = q.floor.toNat := by
  have e0 : 0 ≤ q.floor := Rat.le_floor_iff.2 (by simpa using h0)
  have e1 : q.floor < 65536 := by
    have : ((q.floor : Int) : Rat) < 65536 := lt_of_le_of_lt (Rat.floor_le q) h1
    exact_mod_cast this
  simp only [convert, native, SafeCast.cast, trunc, if_pos h0, intMin, intEnd]
  rw [if_pos (by constructor <;> simp <;> omega), Rat.floor_intCast, Int.emod_eq_of_lt e0 e1]

/-- **C117** A pixel has the value of the element exactly if this is an integer from 0 to 65535, for every element type; there is never an error. -/
theorem C117_kept_iff (M : Machine) {t : DType} {v : Val} (hv : t.Has v) :
    Val.num (convert M t v : Nat) = v ↔ ∃ k : Nat, k < 65536 ∧ v = .num k := by
  have hlt : convert M t v < 65536 := by
    unfold convert
    split
    · omega
    · omega
  constructor
  · intro h
    exact ⟨_, hlt, h.symm⟩
  · rintro ⟨k, hk, rfl⟩
    cases t with
    | int s b =>
      have := C117_integer M s b k
      simp only [Int.cast_natCast] at this
      rw [this]
      congr 2
      omega
    | float f =>
      rw [C117_floating M f k (by positivity) (by exact_mod_cast hk)]
      rw [show ((k : Nat) : Rat) = ((k : Int) : Rat) by simp, Rat.floor_intCast]
      rfl

/-- **C117** All elements of a type are kept exactly if the type is unsigned with at most 16 bits. -/
theorem C117_types_iff (M : Machine) (t : DType) :
    (∀ v, t.Has v → Val.num (convert M t v : Nat) = v) ↔ ∃ b ≤ 16, t = .int false b := by
  constructor
  · intro h
    cases t with
    | int s b =>
      cases s with
      | true =>
        have h1 : (DType.int true b).Has (.num ((-1 : Int) : Rat)) := by
          refine ⟨-1, rfl, ?_, ?_⟩
          · have : (1 : Int) ≤ 2 ^ (b - 1) := one_le_pow₀ (by norm_num)
            simp only [intMin, if_true]
            omega
          · have : (1 : Int) ≤ 2 ^ (b - 1) := one_le_pow₀ (by norm_num)
            simp only [intEnd, if_true]
            omega
        obtain ⟨k, _, hk⟩ := (C117_kept_iff M h1).1 (h _ h1)
        simp only [Val.num.injEq] at hk
        have : (0 : Rat) ≤ k := by positivity
        rw [← hk] at this
        norm_num at this
      | false =>
        refine ⟨b, ?_, rfl⟩
        by_contra hb
        have h1 : (DType.int false b).Has (.num ((65536 : Int) : Rat)) := by
          refine ⟨65536, rfl, by simp [intMin], ?_⟩
          have : (2 : Int) ^ 17 ≤ 2 ^ b := pow_le_pow_right₀ (by norm_num) (by omega)
          simp only [intEnd, Bool.false_eq_true, if_false]
          omega
        obtain ⟨k, hk1, hk⟩ := (C117_kept_iff M h1).1 (h _ h1)
        simp only [Val.num.injEq] at hk
        have : (65536 : Int) = k := by exact_mod_cast hk
        omega
    | float f =>
      have := h .posInf trivial
      cases this
  · rintro ⟨b, hb, rfl⟩ v hv
    refine (C117_kept_iff M hv).2 ?_
    cases v with
    | num q =>
      obtain ⟨z, rfl, h1, h2⟩ := hv
      simp only [intMin, intEnd, Bool.false_eq_true, if_false] at h1 h2
      have : (2 : Int) ^ b ≤ 2 ^ 16 := pow_le_pow_right₀ (by norm_num) hb
      refine ⟨z.toNat, by omega, ?_⟩
      congr 1
      rw [← Int.cast_natCast, Int.toNat_of_nonneg h1]
    | _ => exact absurd hv (by simp [DType.Has])

/-- Parts of a list of consecutive numbers. -/
theorem parts {β : Type} (blocks : List (List Nat × β)) (start n : Nat) (h : (blocks.map (·.1)).flatten = List.range' start n) :
    ∀ x ∈ blocks, ∃ lo, start ≤ lo ∧ lo + x.1.length ≤ start + n ∧ x.1 = List.range' lo x.1.length := by
  induction blocks generalizing start n with
  | nil => simp
  | cons b blocks ih =>
    simp only [List.map_cons, List.flatten_cons] at h
    have hlen : b.1.length ≤ n := by
      have := congrArg List.length h
      simp only [List.length_append, List.length_range'] at this
      omega
    have e : List.range' start n = List.range' start b.1.length ++ List.range' (start + b.1.length) (n - b.1.length) := by
      rw [List.range'_append_1]
      congr 1
      omega
    rw [e] at h
    obtain ⟨h1, h2⟩ := List.append_inj h (by simp)
    intro x hx
    rcases List.mem_cons.1 hx with rfl | hx
    · exact ⟨start, Nat.le_refl _, by omega, h1⟩
    · obtain ⟨lo, q1, q2, q3⟩ := ih _ _ h2 x hx
      exact ⟨lo, by omega, by omega, q3⟩

/-- **C117** A whole pass of the reader of an HDF5 file (`get_hdf5_reader`): the blocks have all frames once and in order, and each pixel is the
converted element of its frame. -/
theorem C117_pass (M : Machine) {d : Data} (hr : Readable d) {n h w : Nat} {val : List Nat → Val} (hd : Holds d.arr [n, h, w] val)
    (positions : Option (List Nat)) (hp : ∀ p ∈ positions, p.length = n) (h32 : n + 32 ≤ 2 ^ 32) (fuel : Nat) (hfuel : n + 32 ≤ 32 * fuel) :
    ∃ blocks s, PyReader.readAll (List.range n) fuel (PyReader.getHdf5Reader (List.range n) positions) = .ok (blocks, true, s) ∧
      (blocks.map (·.1)).flatten = List.range n ∧
      ∀ x ∈ blocks, ∃ lo b, x.1 = List.range' lo x.1.length ∧ readBlock M d lo (lo + x.1.length) = .ok b ∧ b.width = w ∧ b.height = h ∧
        ∀ i y' x', i < x.1.length → y' < h → x' < w → b.pixel i y' x' = .ok (convert M d.dtype (val [lo + i, y', x'])) := by
  have hids : (positions.getD (List.range n)).length = (List.range n).length := by
    cases positions with
    | none => rfl
    | some p => simpa using hp p rfl
  obtain ⟨blocks, s, h1, h2, -⟩ := Stempy.Props.C37_all_frames (List.range n) (positions.getD (List.range n)) 32 (by omega) hids (by simpa using h32) fuel
    (by simpa using hfuel)
  have h1' : PyReader.readAll (List.range n) fuel (PyReader.getHdf5Reader (List.range n) positions) = .ok (blocks, true, s) := by
    unfold PyReader.getHdf5Reader
    rw [← h1]
    simp
  refine ⟨blocks, s, h1', h2, ?_⟩
  intro x hx
  rw [List.range_eq_range'] at h2
  obtain ⟨lo, -, q2, q3⟩ := parts blocks 0 n h2 x hx
  obtain ⟨b, b1, b2, b3, b4⟩ := C117_pixel M hr hd (lo := lo) (hi := lo + x.1.length) (by omega) (by omega)
  exact ⟨lo, b, q3, b1, b2, b3, fun i y' x' hi => b4 i y' x' (by omega)⟩

/-- **C117** Data with four axes (scan rows, scan columns, rows, columns) are read without an error as frames of a wrong size: the frames have the second
and third axis as height and width, and are taken one after the other from the memory, so that image `i` of the block has nothing of
element `lo + i` of the data while `i` is less than the size of the last axis. -/
theorem C117_four_axes_false (M : Machine) {d : Data} (hr : Readable d) {n a b c : Nat} {val : List Nat → Val} (hd : Holds d.arr [n, a, b, c] val) {lo hi : Nat}
    (hl : lo ≤ hi) (hn : hi ≤ n) :
    ∃ B, readBlock M d lo hi = .ok B ∧ B.width = b ∧ B.height = a ∧
      ∀ i y x, i < hi - lo → y < a → x < b → 0 < c → B.pixel i y x = .ok (convert M d.dtype (val
        [lo + i / c, (i % c * (b * a) + (y * b + x)) / (b * c), (i % c * (b * a) + (y * b + x)) / c % b, (i % c * (b * a) + (y * b + x)) % c])) := by
  obtain ⟨C, h1, h2, h3⟩ := readBlock_raw M hr hd hl hn
  refine ⟨⟨b, a, C⟩, ?_, rfl, rfl, ?_⟩
  · unfold readBlock
    rw [h1, Outcome.ok_bind, h2]
    rfl
  · intro i y x hi' hy hx hc
    have hb : 0 < b := by omega
    obtain ⟨q, hq⟩ : ∃ q, q = i % c * (b * a) + (y * b + x) := ⟨_, rfl⟩
    have hlt : q < b * c * a := by
      have h4 : y * b + x < b * a := by
        calc y * b + x < y * b + b := by omega
          _ = (y + 1) * b := by ring
          _ ≤ a * b := Nat.mul_le_mul_right _ hy
          _ = b * a := by ring
      have h5 : (i % c + 1) * (b * a) ≤ c * (b * a) := Nat.mul_le_mul_right _ (Nat.mod_lt _ hc)
      calc q < i % c * (b * a) + b * a := by omega
        _ = (i % c + 1) * (b * a) := by ring
        _ ≤ c * (b * a) := h5
        _ = b * c * a := by ring
    have w1 : q / (b * c) < a := Nat.div_lt_of_lt_mul hlt
    have w2 : q / c % b < b := Nat.mod_lt _ hb
    have w3 : q % c < c := Nat.mod_lt _ hc
    have w0 : i / c < hi - lo := by
      have := Nat.div_le_self i c
      omega
    have := h3 (i / c) [q / (b * c), q / c % b, q % c] w0 ⟨w1, w2, w3, trivial⟩
    rw [← hq, ← this]
    unfold Blk.pixel
    congr 1
    simp only [position, prod, Nat.mul_one, Nat.add_zero]
    have e1 : q / (b * c) * (b * c) + (q / c % b * c + q % c) = q := by
      have f1 := Nat.div_add_mod q c
      have f2 := Nat.div_add_mod (q / c) b
      rw [Nat.div_div_eq_div_mul, Nat.mul_comm c b] at f2
      calc q / (b * c) * (b * c) + (q / c % b * c + q % c) = c * (b * (q / (b * c)) + q / c % b) + q % c := by ring
        _ = q := by rw [f2, f1]
    have e2 := Nat.div_add_mod i c
    rw [e1, hq]
    calc i * (b * a) + (y * b + x) = (c * (i / c) + i % c) * (b * a) + (y * b + x) := by rw [e2]
      _ = i / c * (a * (b * c)) + (i % c * (b * a) + (y * b + x)) := by ring

/-- **C117** With fewer than three axes the size is read outside of the shape. -/
theorem C117_two_axes_false (M : Machine) {d : Data} (hr : Readable d) {n : Nat} {sh : List Nat} {val : List Nat → Val} (hd : Holds d.arr (n :: sh) val)
    (hsh : sh.length < 2) {lo hi : Nat} (hl : lo ≤ hi) (hn : hi ≤ n) : readBlock M d lo hi = .ub := by
  obtain ⟨c, h1, h2, -⟩ := readBlock_raw M hr hd hl hn
  unfold readBlock
  rw [h1, Outcome.ok_bind, h2]
  have : readAt ((hi - lo) :: sh) 2 = .ub := readAt_ub.2 (by simp; omega)
  rw [this]
  rfl

/-- **C117** Converted data in Fortran order stay in this order, so that the memory is not that of the frames: the element `[lo + i, y, x]` is read as the one at
`i + (hi - lo) * (y + h * x)` of the block. -/
theorem C117_fortran_false (M : Machine) {d : Data} (ho : Other d) {n h w : Nat} {val : List Nat → Val} (hd : Holds d.arr [n, h, w] val)
    (ha : ascending d.arr.strides) {lo hi : Nat} (hl : lo ≤ hi) (hn : hi ≤ n) :
    ∃ b, readBlock M d lo hi = .ok b ∧ b.width = w ∧ b.height = h ∧
      ∀ i y x, i < hi - lo → y < h → x < w → b.arr.raw (i + (hi - lo) * (y + h * x)) = .ok (convert M d.dtype (val [lo + i, y, x])) := by
  have hR := rows_elem hd hl hn
  have hst := rows_strides hd.shape hd.axes lo hi
  obtain ⟨s0, s1, s2, hs⟩ : ∃ s0 s1 s2, d.arr.strides = [s0, s1, s2] := by
    have := hd.axes
    match hq : d.arr.strides, this with
    | [s0, s1, s2], _ => exact ⟨s0, s1, s2, rfl⟩
  have hT : Holds (d.arr.rows lo hi).transpose [w, h, hi - lo] fun idx => match idx with
      | [x, y, i] => val [lo + i, y, x]
      | _ => .nan := by
    refine ⟨by simp [Arr.transpose, hR.shape], by simp [Arr.transpose, hst, hs], ?_⟩
    intro idx hidx
    match idx, hidx with
    | [x, y, i], ⟨hx, hy, hi', _⟩ =>
      have := hR.elems [i, y, x] ⟨hi', hy, hx, trivial⟩
      simp only at this ⊢
      rw [← this]
      simp only [Arr.elem, Arr.transpose, hst, hs, List.reverse_cons, List.reverse_nil, List.nil_append, List.cons_append, distance, Arr.load]
      have e : (((d.arr.rows lo hi).start : Int) + (s2 * x + (s1 * y + (s0 * i + 0)))) = ((d.arr.rows lo hi).start : Int) + (s0 * i + (s1 * y + (s2 * x + 0))) := by
        ring
      rw [e]
  obtain ⟨c, h1, h2, -, h3⟩ := copyC_ok (convert M d.dtype) hT
  refine ⟨⟨w, h, c.transpose⟩, ?_, rfl, rfl, ?_⟩
  · unfold readBlock toArray
    rw [if_neg ho]
    simp only [hst]
    have hnd : ¬ descending d.arr.strides := by
      rw [hs] at ha ⊢
      simp only [ascending, descending, List.pairwise_cons, List.mem_cons] at ha ⊢
      intro h
      have := ha.1 s1 (.inl rfl)
      have := h.1 s1 (.inl rfl)
      omega
    rw [if_neg hnd, if_pos ha, h1, Outcome.ok_bind, Outcome.ok_bind]
    simp only [Arr.transpose, h2]
    rfl
  · intro i y x hi' hy hx
    have := h3 [x, y, i] ⟨hx, hy, hi', trivial⟩
    simp only at this
    rw [← this]
    simp only [Arr.raw, Arr.transpose, Arr.load, position, prod]
    have e : i + (hi - lo) * (y + h * x) = x * (h * ((hi - lo) * 1)) + (y * ((hi - lo) * 1) + (i * 1 + 0)) := by ring
    rw [e]
    rfl

/-! ### Examples -/

/-- Two frames of 2 x 2 pixels of type `uint32`, in memory of 3 x 3 pixels each. -/
def cropped : Data where
  dtype := .int false 32
  swapped := false
  arr := ⟨(List.range 18).map fun k => .num ((70000 * k : Nat) : Rat), 4, [2, 2, 2], [9, 3, 1]⟩

/-- The values of `cropped`. -/
def croppedVal : List Nat → Val
  | [i, y, x] => .num ((70000 * (4 + 9 * i + 3 * y + x) : Nat) : Rat)
  | _ => .nan

theorem cropped_holds : Holds cropped.arr [2, 2, 2] croppedVal := by
  refine ⟨rfl, rfl, ?_⟩
  intro idx h
  match idx, h with
  | [i, y, x], ⟨hi, hy, hx, _⟩ =>
    interval_cases i <;> interval_cases y <;> interval_cases x <;> decide +kernel

/-- `C117_pixel`: the cropped frames are read correctly up to the conversion, which loses the upper bits. -/
example (M : Machine) : ∃ b, readBlock M cropped 0 2 = .ok b ∧ b.pixel 1 0 1 = .ok (70000 * 14 % 65536) := by
  obtain ⟨b, h1, -, -, h2⟩ := C117_pixel M (d := cropped) (.inl ⟨by decide, by decide⟩) cropped_holds (lo := 0) (hi := 2) (by omega) (by omega)
  refine ⟨b, h1, ?_⟩
  rw [h2 1 0 1 (by omega) (by omega) (by omega)]
  have := C117_integer M false 32 (70000 * 14 : Nat)
  congr 1

/-- `C117_pass` -/
example (M : Machine) : ∃ blocks s, PyReader.readAll (List.range 2) 2 (PyReader.getHdf5Reader (List.range 2) (some [5, 3])) = .ok (blocks, true, s) := by
  obtain ⟨blocks, s, h, -⟩ := C117_pass M (d := cropped) (.inl ⟨by decide, by decide⟩) cropped_holds (some [5, 3]) (by simp) (by omega) 2 (by omega)
  exact ⟨blocks, s, h⟩

/-- `C117_kept_iff`: of the floating point numbers 3 and 7/2 the first is kept. -/
example (M : Machine) : Val.num (convert M (.float float32) (.num 3) : Nat) = .num 3 ∧ Val.num (convert M (.float float32) (.num (7 / 2)) : Nat) ≠ .num (7 / 2) := by
  constructor
  · exact (C117_kept_iff M (t := .float float32) (v := .num 3) ⟨3, 0, by norm_num [float32], by decide, by decide, by norm_num⟩).2 ⟨3, by omega, by norm_num⟩
  · intro h
    obtain ⟨k, _, hk⟩ := (C117_kept_iff M (t := .float float32) (v := .num (7 / 2)) ⟨7, -1, by norm_num [float32], by decide, by decide, by norm_num⟩).1 h
    simp only [Val.num.injEq] at hk
    have : (7 : Rat) = ((2 * k : Nat) : Rat) := by push_cast; linarith
    have : 7 = 2 * k := by exact_mod_cast this
    omega

/-- Two times one scan row of two frames with 1 x 2 pixels. -/
def fourAxes : Data := ⟨.int false 8, false, ⟨(List.range 8).map fun k => .num ((k : Nat) : Rat), 0, [2, 2, 1, 2], [4, 2, 2, 1]⟩⟩

/-- `C117_four_axes_false` -/
example (M : Machine) : ∃ B, readBlock M fourAxes 0 2 = .ok B ∧ B.width = 1 ∧ B.height = 2 ∧ B.pixel 1 0 0 = .ok (convert M (.int false 8) (.num 2)) := by
  have hh : Holds fourAxes.arr [2, 2, 1, 2] fun idx => match idx with
      | [i, a, b, c] => .num ((4 * i + 2 * a + 2 * b + c : Nat) : Rat)
      | _ => .nan := by
    refine ⟨rfl, rfl, ?_⟩
    intro idx h
    match idx, h with
    | [i, y, x, z], ⟨hi, hy, hx, hz, _⟩ =>
      interval_cases i <;> interval_cases y <;> interval_cases x <;> interval_cases z <;> decide +kernel
  obtain ⟨B, h1, h2, h3, h4⟩ := C117_four_axes_false M (d := fourAxes) (.inl ⟨by decide, by decide⟩) hh (lo := 0) (hi := 2) (by omega) (by omega)
  refine ⟨B, h1, h2, h3, ?_⟩
  rw [h4 1 0 0 (by omega) (by omega) (by omega) (by omega)]
  congr 2

/-- `C117_two_axes_false` -/
example (M : Machine) : readBlock M ⟨.int false 8, false, ⟨[.num 1, .num 2], 0, [2, 1], [1, 1]⟩⟩ 0 1 = .ub :=
  C117_two_axes_false M (n := 2) (sh := [1]) (val := fun idx => match idx with
      | [i, _] => .num ((1 + i : Nat) : Rat)
      | _ => .nan) (.inl ⟨by decide, by decide⟩) ⟨rfl, rfl, by
    intro idx h
    match idx, h with
    | [i, y], ⟨hi, hy, _⟩ =>
      interval_cases i <;> interval_cases y <;> decide +kernel⟩ (by decide) (by omega) (by omega)

/-- Two frames of 2 x 2 pixels in Fortran order. -/
def fortran : Data := ⟨.int false 8, false, ⟨(List.range 8).map fun k => .num ((k : Nat) : Rat), 0, [2, 2, 2], [1, 2, 4]⟩⟩

/-- `C117_fortran_false`: the second pixel of the first frame is read as the first one of the second frame. -/
example (M : Machine) : ∃ b, readBlock M fortran 0 2 = .ok b ∧ b.pixel 0 0 1 = .ok (convert M (.int false 8) (.num 1)) ∧
    fortran.arr.elem [0, 0, 1] = .ok (.num 4) := by
  have hh : Holds fortran.arr [2, 2, 2] fun idx => match idx with
      | [i, y, x] => .num ((i + 2 * y + 4 * x : Nat) : Rat)
      | _ => .nan := by
    refine ⟨rfl, rfl, ?_⟩
    intro idx h
    match idx, h with
    | [i, y, x], ⟨hi, hy, hx, _⟩ =>
      interval_cases i <;> interval_cases y <;> interval_cases x <;> decide +kernel
  obtain ⟨b, h1, h2, h3, h4⟩ := C117_fortran_false M (d := fortran) (by decide) hh (by decide) (lo := 0) (hi := 2) (by omega) (by omega)
  refine ⟨b, h1, ?_, by decide +kernel⟩
  have := h4 1 0 0 (by omega) (by omega) (by omega)
  unfold Blk.pixel
  rw [h2]
  have e : ((1 : Nat) : Rat) = 1 := by norm_num
  simpa [fortran] using this

end Stempy.Props.PyElements
