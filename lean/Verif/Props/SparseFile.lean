import Verif.Props.Metadata
import Verif.Props.Compat
import Verif.Props.SparseSlice

/-! # C47, C48: HDF5 round trip, flyback column -/

namespace Stempy.SparseFile
open Numpy Compat Sparse

theorem flatten_drop_uniform {α : Type} (rows : List (List α)) (k s : Nat) (h : ∀ row ∈ rows, row.length = k) :
    rows.flatten.drop (s * k) = (rows.drop s).flatten := by
  induction rows generalizing s with
  | nil => simp
  | cons row rows ih =>
    cases s with
    | zero => simp
    | succ s =>
      have hk := h row (by simp)
      rw [List.flatten_cons, List.drop_succ_cons, ← ih s fun r hr => h r (List.mem_cons_of_mem _ hr), Nat.succ_mul, Nat.add_comm,
        ← List.drop_drop, ← hk, List.drop_left]

theorem flatten_take_uniform {α : Type} (rows : List (List α)) (k s : Nat) (h : ∀ row ∈ rows, row.length = k) :
    rows.flatten.take (s * k) = (rows.take s).flatten := by
  induction rows generalizing s with
  | nil => simp
  | cons row rows ih =>
    cases s with
    | zero => simp
    | succ s =>
      have hk := h row (by simp)
      rw [List.flatten_cons, List.take_succ_cons, List.flatten_cons, ← ih s fun r hr => h r (List.mem_cons_of_mem _ hr),
        Nat.succ_mul, Nat.add_comm, ← hk, List.take_append]
      congr 1
      · rw [List.take_of_length_le (by omega)]
      · rw [Nat.add_sub_cancel_left]

theorem reshapeFrames_flatten (rows : List (List (List Nat))) (k n : Nat) (h : ∀ row ∈ rows, row.length = k)
    (hn : rows.length = n) (hpos : 0 < n) : reshapeFrames rows.flatten n = .ok (rows, k) := by
  have hl : rows.flatten.length = n * k := by rw [flatten_uniform_length _ _ h, hn]
  unfold reshapeFrames
  simp only
  rw [hl, Nat.mul_div_cancel_left _ hpos, if_pos rfl]
  congr 2
  apply List.ext_getElem
  · simp [hn]
  · intro p h1 h2
    rw [List.getElem_map, List.getElem_range, flatten_drop_uniform _ _ _ h]
    have h3 := flatten_take_uniform (rows.drop p) k 1 fun r hr => h r (List.mem_of_mem_drop hr)
    rw [Nat.one_mul] at h3
    rw [h3, List.drop_eq_getElem_cons h2, List.take_succ_cons, List.take_zero, List.flatten_singleton]

theorem reshapeFrames_ok {data : List (List Nat)} {n : Nat} {r : List (List (List Nat)) × Nat} (h : reshapeFrames data n = .ok r) :
    r.1.flatten = data ∧ r.1.length = n ∧ ∀ row ∈ r.1, row.length = r.2 := by
  unfold reshapeFrames at h
  simp only at h
  split at h
  · rename_i hl
    injection h with h
    subst h
    generalize data.length / n = k at hl
    refine ⟨?_, by simp, ?_⟩
    · simp only
      induction n generalizing data with
      | zero => simp at hl; simp [hl]
      | succ n ih =>
        rw [List.range_succ_eq_map, List.map_cons, List.flatten_cons, List.map_map]
        have h1 : (data.drop k).length = n * k := by rw [List.length_drop, hl, Nat.succ_mul]; omega
        have h2 := ih h1
        have h3 : ((List.range n).map ((fun p => (data.drop (p * k)).take k) ∘ Nat.succ)) =
            (List.range n).map fun p => ((data.drop k).drop (p * k)).take k := by
          refine List.map_congr_left fun p _ => ?_
          simp only [Function.comp, List.drop_drop, Nat.succ_mul]
          rw [Nat.add_comm]
        rw [h3, h2]
        simp
    · intro row hrow
      obtain ⟨p, hp, rfl⟩ := List.mem_map.1 hrow
      have hp := List.mem_range.1 hp
      have : (p + 1) * k ≤ n * k := Nat.mul_le_mul_right _ hp
      rw [Nat.succ_mul] at this
      simp only [List.length_take, List.length_drop]
      omega
  · cases h

/-- C47 for a scan with two dimensions and a frame with two dimensions: the file gives back the array. Events have to fit in 32
bits. Missing: scans with one dimension, which are refused (`C47_one_dimension`). -/
theorem C47_round_trip_partial {V : Type} (a : SparseArray) (ha : WF a) (s0 s1 f0 f1 : Nat) (hs : a.scanShape = [s0, s1])
    (hf : a.frameShape = [f0, f1]) (h32 : f0 * f1 ≤ 2 ^ 32) (hpos : 0 < s0 * s1) (d : Tree V) (hd : d.Valid) :
    ∃ f m, write a d = .ok f ∧ read f true = .ok ({ a with sparseSlicing := true, allowFullExpand := false }, m) ∧
      ∀ path, get m path = get d path := by
  have hdata : (a.data.flatten.map fun fr => fr.map (· % 2 ^ 32)) = a.data.flatten := by
    conv_rhs => rw [← List.map_id a.data.flatten]
    refine List.map_congr_left fun fr hfr => ?_
    obtain ⟨row, hrow, hfr⟩ := List.mem_flatten.1 hfr
    conv_rhs => rw [id, ← List.map_id fr]
    refine List.map_congr_left fun e he => ?_
    have := ha.lt row hrow fr hfr e he
    rw [hf] at this
    simp only [prod, Nat.mul_one] at this
    exact Nat.mod_eq_of_lt (by omega)
  have hw : write a d = .ok {
      version := some 3, frames := a.data.flatten, frameNx := f0, frameNy := f1,
      positions := List.range (prod a.scanShape), scanNx := s1, scanNy := s0, metadata := some (save d .nil) } := by
    unfold write
    rw [hs, hf]
    simp only
    rw [hdata]
  refine ⟨_, load (save d .nil), hw, ?_, C54_round_trip d hd⟩
  have hp : prod [s0, s1] = s0 * s1 := by simp [prod]
  unfold read
  simp only [if_true]
  unfold toCurrent
  simp only [Option.getD_some, ge_iff_le, Nat.le_refl, if_true]
  rw [reshapeFrames_flatten a.data a.numFrames _ ha.frames (by rw [ha.length, hs]) (by rw [hp]; exact hpos)]
  simp only [Outcome.bind]
  unfold construct SparseArray.init
  rw [if_pos (by rw [ha.length, hs])]
  simp only [Outcome.bind]
  rw [← hs, ← hf]

/-- A scan with one dimension cannot be saved. -/
theorem C47_one_dimension {V : Type} (a : SparseArray) (n : Nat) (hs : a.scanShape = [n]) (d : Tree V) :
    write a d = .throw "IndexError" := by
  unfold write
  rw [hs]

theorem crop_flatten (rows : List (List (List Nat))) (k nx ny : Nat) (h : ∀ row ∈ rows, row.length = k) :
    crop rows.flatten nx ny k = ((List.range ny).flatMap fun i => (rows.drop (i * (nx - 1) + i)).take (nx - 1)).flatten := by
  unfold crop
  conv_rhs => rw [List.flatten_eq_flatMap, List.flatMap_assoc]
  refine List.flatMap_congr fun i _ => ?_
  have e1 : i * (nx - 1) * k + k * i = (i * (nx - 1) + i) * k := by ring
  have e2 : (i + 1) * (nx - 1) * k + k * i - (i * (nx - 1) * k + k * i) = (nx - 1) * k := by
    have : (i + 1) * (nx - 1) * k + k * i = (nx - 1) * k + (i * (nx - 1) * k + k * i) := by ring
    omega
  rw [e2, e1, flatten_drop_uniform _ _ _ h, flatten_take_uniform _ _ _ fun r hr => h r (List.mem_of_mem_drop hr),
    ← List.flatten_eq_flatMap]

theorem length_flatMap_uniform {α : Type} (n m : Nat) (f : Nat → List α) (h : ∀ i < n, (f i).length = m) :
    ((List.range n).flatMap f).length = n * m := by
  rw [List.length_flatMap, List.map_congr_left (g := fun _ => m) fun i hi => h i (List.mem_range.1 hi)]
  simp

theorem getElem?_flatMap_uniform {α : Type} (n m : Nat) (f : Nat → List α) (h : ∀ i < n, (f i).length = m) (i j : Nat) (hi : i < n)
    (hj : j < m) : ((List.range n).flatMap f)[i * m + j]? = (f i)[j]? := by
  rw [List.flatMap_def, flatten_uniform_getElem? _ m _ _ _ hj]
  · simp [hi]
  · intro l hl
    obtain ⟨i, hi, rfl⟩ := List.mem_map.1 hl
    exact h i (List.mem_range.1 hi)

/-- The rows without their last column. -/
theorem cropped_rows {α : Type} (rows : List α) (nx ny : Nat) (hnx : 0 < nx) (hl : rows.length = ny * nx) :
    ((List.range ny).flatMap fun i => (rows.drop (i * (nx - 1) + i)).take (nx - 1)).length = ny * (nx - 1) ∧
    ∀ i j, i < ny → j < nx - 1 →
      ((List.range ny).flatMap fun i => (rows.drop (i * (nx - 1) + i)).take (nx - 1))[i * (nx - 1) + j]? = rows[i * nx + j]? := by
  have e : ∀ i, i * (nx - 1) + i = i * nx := by
    intro i
    obtain ⟨m, rfl⟩ : ∃ m, nx = m + 1 := ⟨nx - 1, by omega⟩
    rw [Nat.add_sub_cancel, Nat.mul_succ]
  have hlen : ∀ i < ny, ((rows.drop (i * (nx - 1) + i)).take (nx - 1)).length = nx - 1 := by
    intro i hi
    have : (i + 1) * nx ≤ ny * nx := Nat.mul_le_mul_right _ hi
    rw [Nat.succ_mul] at this
    rw [List.length_take, List.length_drop, e, hl]
    omega
  refine ⟨length_flatMap_uniform _ _ _ hlen, fun i j hi hj => ?_⟩
  rw [getElem?_flatMap_uniform _ _ _ hlen i j hi hj, List.getElem?_take_of_lt hj, List.getElem?_drop, e]

theorem construct_ok {V : Type} {f : File V} {nx ny : Nat} {r : List (List (List Nat)) × Nat} (h : r.1.length = ny * nx) :
    construct f nx ny r = .ok ({ data := r.1, numFrames := r.2, scanShape := [ny, nx], frameShape := [f.frameNx, f.frameNy] },
      match f.metadata with
      | some g => load g
      | none => .nil) := by
  unfold construct SparseArray.init
  rw [if_pos (by simp [prod, h])]
  rfl

/-- C48 for the current format: whatever file can be loaded with the flyback column can be loaded without it, which gives an array
with one column less and the same frames at every other row and column. -/
theorem C48_flyback {V : Type} (f : File V) (hv : f.version = some 3) (hnx : 2 ≤ f.scanNx) (hny : 1 ≤ f.scanNy) (b : SparseArray)
    (m : Tree V) (h : read f true = .ok (b, m)) :
    b.scanShape = [f.scanNy, f.scanNx] ∧
    ∃ a, read f false = .ok (a, m) ∧ a.scanShape = [f.scanNy, f.scanNx - 1] ∧ a.frameShape = b.frameShape ∧
      a.numFrames = b.numFrames ∧ a.data.length = f.scanNy * (f.scanNx - 1) ∧
      ∀ i j, i < f.scanNy → j < f.scanNx - 1 → a.data[i * (f.scanNx - 1) + j]? = b.data[i * f.scanNx + j]? := by
  unfold read at h ⊢
  simp only [if_true] at h
  unfold toCurrent at h ⊢
  simp only [hv, Option.getD_some, ge_iff_le, Nat.le_refl, if_true] at h ⊢
  cases hr : reshapeFrames f.frames (prod [f.scanNy, f.scanNx]) with
  | throw e => rw [hr] at h; cases h
  | ub => rw [hr] at h; cases h
  | ok r =>
    obtain ⟨h1, h2, h3⟩ := reshapeFrames_ok hr
    have hp : prod [f.scanNy, f.scanNx] = f.scanNy * f.scanNx := by simp [prod]
    have hp' : prod [f.scanNx, f.scanNy] = f.scanNy * f.scanNx := by simp [prod, Nat.mul_comm]
    rw [hp] at h2
    rw [hr] at h
    simp only [Outcome.bind] at h
    rw [construct_ok h2] at h
    injection h with h
    injection h with ha hm
    subst ha
    refine ⟨rfl, ?_⟩
    have hpos : 0 < f.scanNy * f.scanNx := Nat.mul_pos (by omega) (by omega)
    have hnum : f.frames.length / prod [f.scanNx, f.scanNy] = r.2 := by
      rw [hp', ← h1, flatten_uniform_length _ _ h3, h2, Nat.mul_div_cancel_left _ hpos]
    obtain ⟨hc1, hc2⟩ := cropped_rows r.1 f.scanNx f.scanNy (by omega) h2
    rw [hnum]
    conv => enter [1, a, 1, 1]; rw [← h1]
    rw [crop_flatten _ _ _ _ h3, reshapeFrames_flatten _ r.2 (prod [f.scanNy, f.scanNx - 1])]
    · simp only [Outcome.bind, Bool.false_eq_true, if_false]
      rw [construct_ok hc1]
      refine ⟨_, by rw [hm], rfl, rfl, rfl, hc1, hc2⟩
    · intro row hrow
      obtain ⟨i, -, hrow⟩ := List.mem_flatMap.1 hrow
      exact h3 row (List.mem_of_mem_drop (List.mem_of_mem_take hrow))
    · rw [hc1]; simp [prod]
    · have : 0 < f.scanNy * (f.scanNx - 1) := Nat.mul_pos (by omega) (by omega)
      simpa [prod] using this

theorem crop_single (frames : List (List Nat)) (nx ny : Nat) :
    crop frames nx ny 1 = (List.range ny).flatMap fun i => (frames.drop (i * (nx - 1) + i)).take (nx - 1) := by
  unfold crop
  refine List.flatMap_congr fun i _ => ?_
  have e2 : (i + 1) * (nx - 1) * 1 + 1 * i - (i * (nx - 1) * 1 + 1 * i) = nx - 1 := by
    have : (i + 1) * (nx - 1) * 1 + 1 * i = (nx - 1) + (i * (nx - 1) * 1 + 1 * i) := by ring
    omega
  rw [e2, Nat.mul_one, Nat.one_mul]

/-- C48 for version 1, with a frame for every scan position: the same events at every row and column but the last column. -/
theorem C48_flyback_v1 {V : Type} (f : File V) (hv : f.version.getD 1 = 1) (hnx : 2 ≤ f.scanNx) (hny : 1 ≤ f.scanNy)
    (hl : f.frames.length = f.scanNy * f.scanNx) (hp : f.positions = List.range f.frames.length) :
    ∃ a b m, read f true = .ok (b, m) ∧ read f false = .ok (a, m) ∧ a.scanShape = [f.scanNy, f.scanNx - 1] ∧
      a.frameShape = b.frameShape ∧ b.scanShape = [f.scanNy, f.scanNx] ∧
      (∀ p, p < f.scanNy * f.scanNx → ∃ row, b.data[p]? = some row ∧ row.flatten.Perm (f.frames.getD p [])) ∧
      ∀ i j, i < f.scanNy → j < f.scanNx - 1 → ∃ row, a.data[i * (f.scanNx - 1) + j]? = some row ∧
        row.flatten.Perm (f.frames.getD (i * f.scanNx + j) []) := by
  have hpos : 0 < f.scanNy * f.scanNx := Nat.mul_pos (by omega) (by omega)
  have hpos' : 0 < f.scanNy * (f.scanNx - 1) := Nat.mul_pos (by omega) (by omega)
  have e1 : prod [f.scanNy, f.scanNx] = f.scanNy * f.scanNx := by simp [prod]
  have e2 : prod [f.scanNx, f.scanNy] = f.scanNy * f.scanNx := by simp [prod, Nat.mul_comm]
  have e3 : prod [f.scanNy, f.scanNx - 1] = f.scanNy * (f.scanNx - 1) := by simp [prod]
  have e4 : prod [f.scanNx - 1, f.scanNy] = f.scanNy * (f.scanNx - 1) := by simp [prod, Nat.mul_comm]
  obtain ⟨r, k, h1, h2, -, -, h5⟩ := C39_v1 f.frames [f.scanNy, f.scanNx]
    (by intro h; rw [h] at hl; simp at hl; omega) (by rw [e1, hl])
  obtain ⟨hc1, hc2⟩ := cropped_rows f.frames f.scanNx f.scanNy (by omega) hl
  rw [← crop_single] at hc1 hc2
  obtain ⟨r', k', h1', h2', -, -, h5'⟩ := C39_v1 (crop f.frames f.scanNx f.scanNy 1) [f.scanNy, f.scanNx - 1]
    (by intro h; rw [h] at hc1; simp at hc1; omega) (by rw [e3, hc1])
  rw [e1] at h2 h5
  rw [e3] at h2' h5'
  rw [hc1] at h1'
  refine ⟨{ data := r', numFrames := k', scanShape := [f.scanNy, f.scanNx - 1], frameShape := [f.frameNx, f.frameNy] },
    { data := r, numFrames := k, scanShape := [f.scanNy, f.scanNx], frameShape := [f.frameNx, f.frameNy] },
    match f.metadata with
    | some g => load g
    | none => .nil, ?_, ?_, rfl, rfl, rfl, ?_, ?_⟩
  rotate_left
  · unfold read toCurrent
    simp only [hv, Bool.false_eq_true, if_false]
    rw [if_neg (by omega), e2, e4, hl, Nat.div_self hpos, h1']
    simp only [Outcome.bind]
    rw [construct_ok h2']
  · exact h5
  · intro i j hi hj
    obtain ⟨row, hr, hperm⟩ := h5' (i * (f.scanNx - 1) + j) (by have := flat_lt hj hi; rw [Nat.mul_comm (f.scanNx - 1) f.scanNy] at this; exact this)
    refine ⟨row, hr, ?_⟩
    rw [List.getD_eq_getElem?_getD, hc2 i j hi hj, ← List.getD_eq_getElem?_getD] at hperm
    exact hperm
  · unfold read toCurrent
    simp only [hv, if_true]
    rw [if_neg (by omega), hp, h1]
    simp only [Outcome.bind]
    rw [construct_ok h2]

/-- A file of version 2 with a scan of one row and three columns. -/
def v2File : File Nat where
  version := some 2
  frames := [[10], [11], [12], [20]]
  frameNx := 5
  frameNy := 5
  positions := [0, 1, 2, 0]
  scanNx := 3
  scanNy := 1
  metadata := none

/-- Version 2 with several frames at a position: frames of other columns than the last are lost. -/
theorem C48_v2_false :
    (∃ m, read v2File true = .ok ({ data := [[[10], [20]], [[11], []], [[12], []]], numFrames := 2, scanShape := [1, 3], frameShape := [5, 5] }, m)) ∧
    ∃ m, read v2File false = .ok ({ data := [[[10]], [[11]]], numFrames := 1, scanShape := [1, 2], frameShape := [5, 5] }, m) :=
  ⟨⟨.nil, by decide⟩, ⟨.nil, by decide⟩⟩

/-- Version 2 with the frames in another order: the last column of the file is not the last column of the scan. -/
theorem C48_v2_order_false :
    (∃ m, read { v2File with frames := [[10], [11], [12]], positions := [2, 1, 0] } true =
      .ok ({ data := [[[12]], [[11]], [[10]]], numFrames := 1, scanShape := [1, 3], frameShape := [5, 5] }, m)) ∧
    ∃ m, read { v2File with frames := [[10], [11], [12]], positions := [2, 1, 0] } false =
      .ok ({ data := [[[10]], [[11]]], numFrames := 1, scanShape := [1, 2], frameShape := [5, 5] }, m) :=
  ⟨⟨.nil, by decide⟩, ⟨.nil, by decide⟩⟩

/-- An array with frames that are not square, and its file; the array without the last column. -/
example : WF sample ∧ sample.scanShape = [2, 2] ∧ sample.frameShape = [2, 3] ∧
    (write sample (.leaf "x" 1 .nil)).bind (fun f => read f true) = .ok (sample, .leaf "x" 1 .nil) ∧
    (write sample (.leaf "x" 1 .nil)).bind (fun f => read f false) =
      .ok ({ sample with data := [sample.data.getD 0 [], sample.data.getD 2 []], scanShape := [2, 1] }, .leaf "x" 1 .nil) :=
  ⟨sample_wf, rfl, rfl, by decide, by decide⟩

/-- Version 1, with an event twice. -/
example :
    let f : File Nat := { v2File with version := none, frames := [[10, 10], [11], [12, 13]], positions := [0, 1, 2] }
    read f true = .ok ({ data := [[[10], [10]], [[11], []], [[12, 13], []]], numFrames := 2, scanShape := [1, 3], frameShape := [5, 5] }, .nil) ∧
    read f false = .ok ({ data := [[[10], [10]], [[11], []]], numFrames := 2, scanShape := [1, 2], frameShape := [5, 5] }, .nil) := by
  decide

end Stempy.SparseFile
