import Verif.Model.SparseSession
import Verif.Props.SparseBinFrames
import Verif.Props.SparseFile
import Verif.Props.SparsePairs
import Verif.Props.SparseReduce

/-!
# C111: sequences of operations on a sparse array

Slicing, indexing with arrays and masks, binning, reshaping, saving and loading a sparse array any number of times, in any order, is the same
as doing so with the dense array.
-/

namespace Stempy.Props.SparseSession
open Numpy Sparse Compat Stempy.SparseSession

/-! ### The operations on dense arrays -/

def squareSum (b : Nat) (f : Nat → Nat → Nat) : Nat := ((List.range b).map fun u => ((List.range b).map fun v => f u v).sum).sum

/-- `x.reshape(h // b, b, w // b, b, ...).sum(axis=(1, 3))` -/
def denseBinScans (b : Nat) (x : NArray Nat) : Outcome (NArray Nat) :=
  match x.shape with
  | h :: w :: rest =>
    if 0 < b ∧ b ∣ h ∧ b ∣ w then
      .ok ⟨h / b :: w / b :: rest, (List.range (h / b)).flatMap fun i => (List.range (w / b)).flatMap fun j =>
        (List.range (prod rest)).map fun q => squareSum b fun u v => x.flat.getD (((i * b + u) * w + (j * b + v)) * prod rest + q) 0⟩
    else .throw "ValueError"
  | _ => .throw "IndexError"

/-- `x.reshape(..., h // b, b, w // b, b).sum(axis=(-3, -1))` -/
def denseBinFrames (b : Nat) (x : NArray Nat) : Outcome (NArray Nat) :=
  match x.shape.reverse with
  | w :: h :: rest =>
    if 0 < b ∧ b ∣ h ∧ b ∣ w then
      .ok ⟨rest.reverse ++ [h / b, w / b], (List.range (prod rest.reverse)).flatMap fun p => (List.range (h / b)).flatMap fun i =>
        (List.range (w / b)).map fun j => squareSum b fun u v => x.flat.getD (p * (h * w) + ((i * b + u) * w + (j * b + v))) 0⟩
    else .throw "ValueError"
  | _ => .throw "IndexError"

/-- `x[:, :-1]` -/
def denseCrop (x : NArray Nat) : Outcome (NArray Nat) :=
  match x.shape with
  | h :: w :: rest =>
    .ok ⟨h :: (w - 1) :: rest, (List.range h).flatMap fun i => (List.range (w - 1)).flatMap fun j =>
      (List.range (prod rest)).map fun q => x.flat.getD ((i * w + j) * prod rest + q) 0⟩
  | _ => .throw "IndexError"

/-- What the operation is for a NumPy array. -/
def onDense : Op → NArray Nat → Outcome (NArray Nat)
  | .slice key, x => indexPairs x key
  | .reload true, x => .ok x
  | .reload false, x => denseCrop x
  | .binScans b, x => denseBinScans b x
  | .binFrames b, x => denseBinFrames b x
  | .reshape s, x => reshapeDense x s
  | .ravel, x => reshapeDense x (prod (x.shape.take (x.shape.length - 2)) :: x.shape.drop (x.shape.length - 2))

def runDense : List Op → NArray Nat → Outcome (NArray Nat)
  | [], x => .ok x
  | op :: ops, x => do runDense ops (← onDense op x)

/-! ### One operation -/

/-- The dense array of a result. -/
def denseOf : Value → NArray Nat
  | .sparse a => dense a
  | .dense x => x

structure Good (a : SparseArray) : Prop where
  wf : WF a
  some : a.frameShape ≠ []
  two : a.frameShape.length ≤ 2
  slicing : a.sparseSlicing = true

def Fine : Value → Prop
  | .sparse a => Good a
  | .dense _ => True

/-- Each pixel is selected at most once. -/
def Distinct : Outcome Sel → Prop
  | .ok fs => fs.idx.Nodup
  | _ => True

/-- What the items for the frame are required to be, if the expression is accepted. -/
def FrameOk (a : SparseArray) : Outcome (List Item × List Item) → Prop
  | .ok r => r.2.length ≤ a.frameShape.length ∧ Distinct (selection a.frameShape r.2)
  | _ => True

instance (o : Outcome Sel) : Decidable (Distinct o) := by cases o <;> unfold Distinct <;> infer_instance

instance (a : SparseArray) (o : Outcome (List Item × List Item)) : Decidable (FrameOk a o) := by cases o <;> unfold FrameOk <;> infer_instance

/-- Index expressions without an ellipsis which have no more items for the frame than it has axes, select each pixel at most once, and for
which NumPy leaves the axis of an array at its place; bins of square frames; files of events below 2^32, with a column that is left. -/
def Plain : Op → Value → Prop
  | .slice key, .sparse a => (∀ it ∈ key, it.Proper) ∧ (separated key = false ∨ axesBefore key = 0) ∧ FrameOk a (splitSlices a key)
  | .slice key, .dense _ => (∀ it ∈ key, it.Proper) ∧ key.countP Item.isArray ≤ 1
  | .binFrames _, .sparse a => ∃ f ∈ a.frameShape, a.frameShape = [f, f]
  | .reload keep, .sparse a => prod a.frameShape ≤ 2 ^ 32 ∧ 0 < prod a.scanShape ∧ (keep = true ∨ 2 ≤ a.scanShape.getLastD 0)
  | _, _ => True

/-- Each operation of the sequence is `Plain` for the array it is applied to. -/
def AllPlain : List Op → Value → Prop
  | [], _ => True
  | op :: ops, v => Plain op v ∧ match op.apply v with
    | .ok w => AllPlain ops w
    | _ => True

instance (it : Item) : Decidable it.Proper := by
  cases it with
  | ellipsis => exact .isFalse fun h => h.1 rfl
  | mask s b =>
    cases s with
    | nil => exact .isFalse fun h => h.2 b rfl
    | cons n s => exact .isTrue ⟨by simp, by simp⟩
  | _ => exact .isTrue ⟨by simp, by simp⟩

instance (op : Op) (v : Value) : Decidable (Plain op v) := by
  cases op <;> cases v <;> unfold Plain <;> infer_instance

instance decideAll : ∀ (ops : List Op) (v : Value), Decidable (AllPlain ops v)
  | [], _ => .isTrue trivial
  | op :: ops, v => by
    unfold AllPlain
    have := decideAll ops
    cases op.apply v <;> infer_instance

theorem toDense_denseOf {v : Value} (h : Fine v) : v.toDense = .ok (.dense (denseOf v)) := by
  cases v with
  | dense x => rfl
  | sparse a => exact toDense_eq h.wf

theorem flat_get {a : SparseArray} {p q : Nat} (hp : p < prod a.scanShape) (hq : q < prod a.frameShape) :
    (dense a).flat.getD (p * prod a.frameShape + q) 0 = eventCount a p q := by
  rw [List.getD_eq_getElem?_getD, dense_getElem? a hp hq]; rfl

theorem bind_of {α β : Type} {o : Outcome α} {f : α → Outcome β} {b : β} (h : o.bind f = .ok b) : ∃ a, o = .ok a ∧ f a = .ok b := by
  cases o with
  | ok r => exact ⟨r, rfl, h⟩
  | throw e => cases h
  | ub => cases h

theorem bind_sparse {o : Outcome SparseArray} {w : Value} (h : (o.bind fun r => Outcome.ok (Value.sparse r)) = .ok w) :
    ∃ r, o = .ok r ∧ w = .sparse r := by
  cases o with
  | ok r => exact ⟨r, rfl, by cases h; rfl⟩
  | throw e => cases h
  | ub => cases h

theorem block_index_lt {b h w i j u v : Nat} (hh : b ∣ h) (hw : b ∣ w) (hi : i < h / b) (hj : j < w / b) (hu : u < b) (hv : v < b) :
    (i * b + u) * w + (j * b + v) < h * w := by
  obtain ⟨m, rfl⟩ := hh
  obtain ⟨n, rfl⟩ := hw
  have hb : 0 < b := by omega
  rw [Nat.mul_div_cancel_left _ hb] at hi hj
  have h1 : i * b + u + 1 ≤ b * m := by nlinarith
  have h2 : j * b + v + 1 ≤ b * n := by nlinarith
  have h3 := Nat.mul_le_mul_right (b * n) h1
  rw [Nat.succ_mul] at h3
  omega

theorem squareSum_congr {b : Nat} {f g : Nat → Nat → Nat} (h : ∀ u < b, ∀ v < b, f u v = g u v) : squareSum b f = squareSum b g := by
  unfold squareSum
  congr 1
  refine List.map_congr_left fun u hu => ?_
  congr 1
  exact List.map_congr_left fun v hv => h u (List.mem_range.1 hu) v (List.mem_range.1 hv)

theorem binScans_inv {a r : SparseArray} {b : Nat} (h : Sparse.binScans a b = .ok r) :
    0 < b ∧ ∃ m n, a.scanShape = [m, n] ∧ b ∣ m ∧ b ∣ n := by
  unfold Sparse.binScans at h
  split at h
  · cases h
  · rename_i hb
    split at h
    · rename_i hall
      split at h
      · rename_i m n hs
        rw [hs] at hall
        simp only [List.all_cons, List.all_nil, Bool.and_true, Bool.and_eq_true, decide_eq_true_eq] at hall
        exact ⟨by omega, m, n, hs, Nat.dvd_of_mod_eq_zero hall.1, Nat.dvd_of_mod_eq_zero hall.2⟩
      · cases h
    · cases h

theorem binFrames_inv {a r : SparseArray} {b f : Nat} (hf : a.frameShape = [f, f]) (h : Sparse.binFrames a b = .ok r) : 0 < b ∧ b ∣ f := by
  unfold Sparse.binFrames at h
  split at h
  · cases h
  · rename_i hb
    split at h
    · rename_i hall
      rw [hf] at hall
      simp only [List.all_cons, List.all_nil, Bool.and_true, Bool.and_eq_true, decide_eq_true_eq] at hall
      exact ⟨by omega, Nat.dvd_of_mod_eq_zero hall.1⟩
    · cases h

theorem dense_two (r : SparseArray) {m n : Nat} (h : r.scanShape = [m, n]) :
    (dense r).flat = (List.range m).flatMap fun i => (List.range n).flatMap fun j =>
      (List.range (prod r.frameShape)).map fun q => eventCount r (i * n + j) q := by
  have h1 : prod r.scanShape = m * n := by rw [h]; simp [prod]
  show (List.range (prod r.scanShape)).flatMap _ = _
  rw [h1, range_mul]

theorem binScans_dense {a r : SparseArray} {b : Nat} (ha : Good a) (h : Sparse.binScans a b = .ok r) :
    Good r ∧ denseBinScans b (dense a) = .ok (dense r) := by
  obtain ⟨hb, m, n, hs, hm, hn⟩ := binScans_inv h
  obtain ⟨r', h0, h1, h2, h3, h4, -, -, h5, -⟩ := C42_bin_scans a ha.wf b m n hb hs hm hn
  rw [h] at h0
  injection h0 with h0
  subst h0
  refine ⟨⟨h1, by rw [h3]; exact ha.some, by rw [h3]; exact ha.two, by rw [h4]; exact ha.slicing⟩, ?_⟩
  have hsh : (dense a).shape = m :: n :: a.frameShape := by show a.scanShape ++ a.frameShape = _; rw [hs]; rfl
  have hsh' : (dense r).shape = m / b :: n / b :: a.frameShape := by show r.scanShape ++ r.frameShape = _; rw [h2, h3]; rfl
  unfold denseBinScans
  rw [hsh]
  simp only
  rw [if_pos ⟨hb, hm, hn⟩]
  congr 1
  have : (dense r) = ⟨(dense r).shape, (dense r).flat⟩ := rfl
  rw [this, hsh', dense_two r h2, h3]
  congr 1
  refine List.flatMap_congr fun i hi => List.flatMap_congr fun j hj => List.map_congr_left fun q hq => ?_
  have hi := List.mem_range.1 hi
  have hj := List.mem_range.1 hj
  rw [h5 i j q hi hj]
  refine squareSum_congr fun u hu v hv => flat_get ?_ (List.mem_range.1 hq)
  rw [hs]
  simp only [prod, Nat.mul_one]
  exact block_index_lt hm hn hi hj hu hv

theorem binFrames_dense {a r : SparseArray} {b f : Nat} (ha : Good a) (hf : a.frameShape = [f, f]) (h : Sparse.binFrames a b = .ok r) :
    Good r ∧ denseBinFrames b (dense a) = .ok (dense r) := by
  obtain ⟨hb, hd⟩ := binFrames_inv hf h
  obtain ⟨r', h0, h1, h2, h3, h4, -⟩ := C43_bin_frames_partial a ha.wf b f hb hf hd
  obtain ⟨r'', g0, -, -, g1, -⟩ := C43_events a ha.wf b f f hb hf hd hd
  rw [h] at h0 g0
  injection h0 with h0
  injection g0 with g0
  subst h0
  subst g0
  refine ⟨⟨h1, by rw [h3]; simp, by rw [h3]; simp, by rw [g1]; exact ha.slicing⟩, ?_⟩
  have hsh : (dense a).shape.reverse = f :: f :: a.scanShape.reverse := by
    show (a.scanShape ++ a.frameShape).reverse = _
    rw [hf]; simp
  have hP : prod r.frameShape = f / b * (f / b) := by rw [h3]; simp [prod]
  have hPa : prod a.frameShape = f * f := by rw [hf]; simp [prod]
  unfold denseBinFrames
  rw [hsh]
  simp only
  rw [if_pos ⟨hb, hd, hd⟩, List.reverse_reverse]
  congr 1
  unfold dense
  rw [h2, h3]
  congr 1
  refine List.flatMap_congr fun p hp => ?_
  have hp := List.mem_range.1 hp
  rw [show prod [f / b, f / b] = f / b * (f / b) by simp [prod], List.map_eq_flatMap, range_mul]
  refine List.flatMap_congr fun i hi => ?_
  rw [List.map_eq_flatMap]
  refine List.flatMap_congr fun j hj => ?_
  have hi := List.mem_range.1 hi
  have hj := List.mem_range.1 hj
  rw [h4 p i j hp hi hj]
  congr 1
  refine squareSum_congr fun u hu v hv => ?_
  have := flat_get (a := a) hp (q := (i * b + u) * f + (j * b + v)) (by rw [hPa]; exact block_index_lt hd hd hi hj hu hv)
  rw [hPa] at this
  exact this

theorem prod_shape (a : SparseArray) : prod (dense a).shape = prod a.scanShape * prod a.frameShape := prod_append _ _

theorem reshape_dense {a r : SparseArray} {s : List Nat} (ha : Good a) (h : Sparse.reshape a s = .ok r) :
    Good r ∧ reshapeDense (dense a) s = .ok (dense r) := by
  obtain ⟨h1, h2, h3⟩ := C46_dense a r ha.wf s h
  rcases C46_reshape a s with ⟨r', g0, -, -, -, g1, -, g2, g3, g4⟩ | ⟨g0, -⟩
  · rw [h] at g0
    injection g0 with g0
    subst g0
    refine ⟨⟨h1, by intro h; rw [h] at g2; simp at g2, by omega, by rw [g1]; exact ha.slicing⟩, ?_⟩
    unfold reshapeDense
    rw [if_pos (by rw [← h2, prod_shape, prod_shape, g3, g4]), ← h3, ← h2]
  · rw [h] at g0; cases g0

theorem slice_fails {a : SparseArray} {scan frame : List Item} {w : Value} (hsl : scan.length ≤ a.scanShape.length)
    (hfl : frame.length ≤ a.frameShape.length) (h : sliceSparse a scan frame = .ok w) :
    ∃ ss fs, selection a.scanShape scan = .ok ss ∧ selection a.frameShape frame = .ok fs := by
  cases h1 : selection a.scanShape scan with
  | throw m =>
    rw [sliceSparse, modified_bind' hsl (by simp [h1]), h1] at h; cases h
  | ub => rw [sliceSparse, modified_bind' hsl (by simp [h1]), h1] at h; cases h
  | ok ss =>
    have hm : ∃ o, modified a.scanShape scan = .ok o := by
      unfold modified; split
      · rw [h1]; exact ⟨_, rfl⟩
      · exact ⟨_, rfl⟩
    obtain ⟨o, ho⟩ := hm
    cases h2 : selection a.frameShape frame with
    | ok fs => exact ⟨ss, fs, rfl, rfl⟩
    | throw m =>
      rw [sliceSparse, ho, Outcome.ok_bind, modified_bind' hfl (by simp [h2]), sliceDense, h1, Outcome.ok_bind, h2] at h
      split at h <;> cases h
    | ub =>
      rw [sliceSparse, ho, Outcome.ok_bind, modified_bind' hfl (by simp [h2]), sliceDense, h1, Outcome.ok_bind, h2] at h
      split at h <;> cases h

theorem slice_dense {a : SparseArray} {key : List Item} {w : Value} (ha : Good a) (hp : Plain (.slice key) (.sparse a))
    (h : getitem a key = .ok w) : Fine w ∧ indexPairs (dense a) key = .ok (denseOf w) := by
  obtain ⟨hk, hsep, hrest⟩ := hp
  unfold getitem at h
  cases hsplit : splitSlices a key with
  | throw m => rw [hsplit] at h; cases h
  | ub => rw [hsplit] at h; cases h
  | ok r =>
    obtain ⟨scan, frame⟩ := r
    rw [hsplit] at hrest h
    obtain ⟨hfl, hn⟩ := hrest
    rw [Outcome.ok_bind] at h
    simp only [ha.slicing, if_true] at h
    obtain ⟨rfl, hsl, -, -⟩ := split_facts ha.wf hk hsplit
    obtain ⟨ss, fs, h1, h2⟩ := slice_fails hsl hfl h
    rw [h2] at hn
    have hsv := (selection_ok h1).1
    have hfv := (selection_ok h2).1
    rw [sliceSparse_ok ha.wf ha.some h1 h2 hn] at h
    rw [indexPairs_split ha.wf ha.two hk hfl hsep hsplit, h1, h2]
    show _ ∧ Outcome.ok _ = _
    split at h
    · cases h
      exact ⟨trivial, rfl⟩
    · rename_i hne
      cases h
      obtain ⟨n1, n2⟩ := not_or.1 hne
      refine ⟨⟨selected_wf ha.wf hsv hfv hn n1, n2, le_trans hfv.ndim ha.two, ha.slicing⟩, ?_⟩
      show _ = Outcome.ok (dense _)
      rw [dense_selected hsv hfv hn]
      rfl

theorem read_slicing {V : Type} {f : SparseFile.File V} {keep : Bool} {r : SparseArray × SparseFile.Tree V}
    (h : SparseFile.read f keep = .ok r) : r.1.sparseSlicing = true := by
  have hc : ∀ {nx ny d}, SparseFile.construct f nx ny d = .ok r → r.1.sparseSlicing = true := by
    intro nx ny d h
    unfold SparseFile.construct SparseArray.init at h
    split at h
    · cases h; rfl
    · cases h
  unfold SparseFile.read at h
  split at h <;>
  · cases hd : SparseFile.toCurrent f _ _ _ _ with
    | ok d => rw [hd] at h; exact hc h
    | throw m => rw [hd] at h; cases h
    | ub => rw [hd] at h; cases h

theorem reload_dense {a : SparseArray} {keep : Bool} {w : Value} (ha : Good a) (hp : Plain (.reload keep) (.sparse a))
    (h : Op.apply (.reload keep) (.sparse a) = .ok w) : Fine w ∧ onDense (.reload keep) (dense a) = .ok (denseOf w) := by
  obtain ⟨h32, hpos, hlast⟩ := hp
  have hshape : ∃ s0 s1 f0 f1, a.scanShape = [s0, s1] ∧ a.frameShape = [f0, f1] := by
    simp only [Op.apply, SparseFile.write] at h
    split at h
    · rename_i s0 s1 sr f0 f1 fr hs hf
      have h1 := ha.wf.ndim
      have h2 := ha.two
      rw [hs] at h1
      rw [hf] at h2
      simp only [List.length_cons] at h1 h2
      exact ⟨s0, s1, f0, f1, by rw [hs, List.length_eq_zero_iff.1 (by omega : sr.length = 0)],
        by rw [hf, List.length_eq_zero_iff.1 (by omega : fr.length = 0)]⟩
    · cases h
  obtain ⟨s0, s1, f0, f1, hs, hf⟩ := hshape
  have hpf : prod a.frameShape = f0 * f1 := by rw [hf]; simp [prod]
  have hps : prod a.scanShape = s0 * s1 := by rw [hs]; simp [prod]
  obtain ⟨f, m, h1, h2, -⟩ := SparseFile.C47_round_trip_partial a ha.wf s0 s1 f0 f1 hs hf (by rw [← hpf]; exact h32) (by rw [← hps]; exact hpos)
    (SparseFile.Tree.nil : SparseFile.Tree Unit) trivial
  simp only [Op.apply] at h
  rw [h1] at h
  cases keep with
  | true =>
    rw [Outcome.bind, h2] at h
    cases h
    exact ⟨⟨⟨ha.wf.ndim, ha.wf.length, ha.wf.frames, ha.wf.lt, ha.wf.nodup⟩, ha.some, ha.two, rfl⟩, rfl⟩
  | false =>
    have hw2 : 2 ≤ s1 := by rcases hlast with h | h <;> simp_all
    have h0 : 1 ≤ s0 := by
      rw [hps] at hpos
      exact Nat.pos_of_mul_pos_right hpos
    have hfile : f.version = some 3 ∧ f.scanNx = s1 ∧ f.scanNy = s0 := by
      simp only [SparseFile.write, hs, hf] at h1
      cases h1
      exact ⟨rfl, rfl, rfl⟩
    obtain ⟨-, r, g1, g2, g3, g4, g5, g6⟩ := SparseFile.C48_flyback f hfile.1 (by rw [hfile.2.1]; exact hw2) (by rw [hfile.2.2]; exact h0) _ _ h2
    rw [hfile.2.1, hfile.2.2] at g2 g5 g6
    simp only at g3 g4 g6
    have hslice := read_slicing g1
    rw [Outcome.bind, g1] at h
    cases h
    have hget : ∀ i j, i < s0 → j < s1 - 1 → r.data.getD (i * (s1 - 1) + j) [] = a.data.getD (i * s1 + j) [] := by
      intro i j hi hj
      rw [List.getD_eq_getElem?_getD, List.getD_eq_getElem?_getD, g6 i j hi hj]
    have hrow : ∀ row ∈ r.data, row ∈ a.data := by
      intro row hrow
      obtain ⟨k, hk⟩ := List.mem_iff_getElem?.1 hrow
      have hlt : k < s0 * (s1 - 1) := by rw [← g5]; exact (List.getElem?_eq_some_iff.1 hk).1
      have hpos : 0 < s1 - 1 := by omega
      have := g6 (k / (s1 - 1)) (k % (s1 - 1)) (Nat.div_lt_of_lt_mul (by rw [Nat.mul_comm]; exact hlt)) (Nat.mod_lt _ hpos)
      rw [Nat.mul_comm (k / (s1 - 1)), Nat.div_add_mod, hk] at this
      exact List.mem_of_getElem? this.symm
    refine ⟨⟨⟨by rw [g2]; simp, by rw [g5, g2]; simp [prod], fun row h => by rw [g4]; exact ha.wf.frames row (hrow row h),
      fun row h => by rw [g3]; exact ha.wf.lt row (hrow row h), fun row h => ha.wf.nodup row (hrow row h)⟩,
      by rw [g3]; exact ha.some, by rw [g3]; exact ha.two, hslice⟩, ?_⟩
    show denseCrop (dense a) = Outcome.ok (dense r)
    have hsh : (dense a).shape = s0 :: s1 :: a.frameShape := by show a.scanShape ++ a.frameShape = _; rw [hs]; rfl
    have hsh' : (dense r).shape = s0 :: (s1 - 1) :: a.frameShape := by show r.scanShape ++ r.frameShape = _; rw [g2, g3]; rfl
    unfold denseCrop
    rw [hsh]
    show Outcome.ok _ = _
    congr 1
    have : (dense r) = ⟨(dense r).shape, (dense r).flat⟩ := rfl
    rw [this, hsh', dense_two r g2, g3]
    congr 1
    refine List.flatMap_congr fun i hi => List.flatMap_congr fun j hj => List.map_congr_left fun q hq => ?_
    have hi := List.mem_range.1 hi
    have hj := List.mem_range.1 hj
    have hlt : i * s1 + j < prod a.scanShape := by
      rw [hps]
      have := Nat.mul_le_mul_right s1 (show i + 1 ≤ s0 from hi)
      rw [Nat.succ_mul] at this
      omega
    rw [flat_get hlt (List.mem_range.1 hq)]
    unfold eventCount
    rw [hget i j hi hj]

theorem bind_dense {o : Outcome (NArray Nat)} {w : Value} (h : (o.bind fun r => Outcome.ok (Value.dense r)) = .ok w) :
    Fine w ∧ o = .ok (denseOf w) := by
  cases o with
  | ok r => cases h; exact ⟨trivial, rfl⟩
  | throw e => cases h
  | ub => cases h

theorem apply_dense {op : Op} {v w : Value} (hv : Fine v) (hp : Plain op v) (h : op.apply v = .ok w) :
    Fine w ∧ onDense op (denseOf v) = .ok (denseOf w) := by
  cases v with
  | dense x =>
    cases op with
    | slice key => exact bind_dense h
    | reshape s => exact bind_dense h
    | binScans b => cases h
    | binFrames b => cases h
    | ravel => cases h
    | reload keep => cases h
  | sparse a =>
    cases op with
    | slice key => exact slice_dense hv hp h
    | reload keep => exact reload_dense hv hp h
    | binScans b =>
      obtain ⟨r, h', rfl⟩ := bind_sparse h
      exact binScans_dense hv h'
    | binFrames b =>
      obtain ⟨r, h', rfl⟩ := bind_sparse h
      obtain ⟨f, -, hf⟩ := hp
      exact binFrames_dense hv hf h'
    | reshape s =>
      obtain ⟨r, h', rfl⟩ := bind_sparse h
      exact reshape_dense hv h'
    | ravel =>
      obtain ⟨r, h', rfl⟩ := bind_sparse h
      have htwo : a.frameShape.length = 2 := by
        have h1 := hv.two
        have h2 := List.length_pos_of_ne_nil hv.some
        by_contra hc
        have : a.frameShape.length = 1 := by omega
        unfold ravelScans Sparse.reshape at h'
        rw [if_pos (by simp [this])] at h'
        cases h'
      have := reshape_dense hv h'
      refine ⟨this.1, ?_⟩
      have hsh : (dense a).shape = a.scanShape ++ a.frameShape := rfl
      show reshapeDense (dense a) (prod ((dense a).shape.take ((dense a).shape.length - 2)) :: (dense a).shape.drop ((dense a).shape.length - 2)) = _
      rw [hsh, List.length_append, htwo, Nat.add_sub_cancel, List.take_left, List.drop_left]
      exact this.2

/-! ### Sequences -/

/-- C111: what a sequence of operations on a sparse array returns, expanded by `to_dense` if it is sparse, is what the same operations
on the dense array return. Frames that are not square are not binned (`C43_not_square`); for other index expressions see C44. -/
theorem C111_session_partial (a : SparseArray) (ha : WF a) (hfr : a.frameShape.length = 2) (hsp : a.sparseSlicing = true) (ops : List Op)
    (hops : AllPlain ops (.sparse a)) (v : Value) (h : run ops (.sparse a) = .ok v) :
    ∃ x, runDense ops (dense a) = .ok x ∧ v.toDense = .ok (.dense x) ∧ ∀ b, v = .sparse b → WF b := by
  have key : ∀ (ops : List Op) (v w : Value), Fine v → AllPlain ops v → run ops v = .ok w →
      Fine w ∧ runDense ops (denseOf v) = .ok (denseOf w) := by
    intro ops
    induction ops with
    | nil =>
      intro v w hv _ h
      cases h
      exact ⟨hv, rfl⟩
    | cons op ops ih =>
      intro v w hv hp h
      simp only [run] at h
      cases h1 : op.apply v with
      | throw e => rw [h1] at h; cases h
      | ub => rw [h1] at h; cases h
      | ok u =>
        rw [h1, Outcome.ok_bind] at h
        obtain ⟨h2, h3⟩ := apply_dense hv hp.1 h1
        have hp2 := hp.2
        rw [h1] at hp2
        obtain ⟨h4, h5⟩ := ih u w h2 hp2 h
        refine ⟨h4, ?_⟩
        simp only [runDense]
        rw [h3, Outcome.ok_bind]
        exact h5
  have hg : Fine (.sparse a) := ⟨ha, by intro h; rw [h] at hfr; simp at hfr, by omega, hsp⟩
  obtain ⟨h1, h2⟩ := key ops _ _ hg hops h
  refine ⟨_, h2, toDense_denseOf h1, ?_⟩
  rintro b rfl
  exact h1.wf

/-- The reductions after a sequence of operations are those of the dense array: sums and means. -/
theorem C111_sum_partial (a : SparseArray) (ha : WF a) (hfr : a.frameShape.length = 2) (hsp : a.sparseSlicing = true) (ops : List Op)
    (hops : AllPlain ops (.sparse a)) (b : SparseArray) (h : run ops (.sparse a) = .ok (.sparse b)) (axis : Axis) (hax : Special b axis) :
    ∃ x, runDense ops (dense a) = .ok x ∧ sum b axis = reduce (fun l => .ok l.sum) x (axisList b axis) ∧
      mean b axis = reduce meanOf x (axisList b axis) := by
  obtain ⟨x, h1, h2, h3⟩ := C111_session_partial a ha hfr hsp ops hops _ h
  have hw := h3 b rfl
  have : dense b = x := by
    have h2 : toDense b = _ := h2
    rw [toDense_eq hw] at h2
    injection h2 with h2
    injection h2
  subst this
  exact ⟨_, h1, C40_sum b hw axis (.inl hax), C41_mean b hw axis (.inl hax)⟩

/-- Four by four positions with 4 × 4 pixels each: the event of the pixel with the number of the position, and the last pixel. -/
def square : SparseArray :=
  { data := (List.range 16).map fun i => [if i = 15 then [15] else [i, 15]], numFrames := 1, scanShape := [4, 4], frameShape := [4, 4] }

theorem square_wf : WF square := ⟨by decide, by decide, by decide, by decide, by decide⟩

/-- The first two rows of positions, bins of 2 × 2 pixels, bins of 2 × 2 positions, one row, the last column of pixels. -/
def steps : List Op :=
  [.slice [.slice none (some 2) none], .binFrames 2, .binScans 2, .ravel, .reshape [1, 2, 2, 2], .slice [.all, .all, .all, .int 1]]

example : AllPlain steps (.sparse square) := by decide +kernel

example : ((run steps (.sparse square)).bind Value.toDense) = .ok (.dense ⟨[1, 2, 2], [0, 4, 4, 4]⟩) := by decide +kernel

/-- Rows of positions by a list of indexes, one of them twice, saved and loaded without the last column, then the pixels of a mask. -/
def chosen : List Op :=
  [.slice [.ints [2, 0, 2, -1]], .reload false, .slice [.slice (some 3) none none, .all, .mask [4, 4] ((List.range 16).map fun i => decide (12 ≤ i))],
    .slice [.all, .ints [1, 0]]]

example : AllPlain chosen (.sparse square) := by decide +kernel

example : ((run chosen (.sparse square)).bind Value.toDense) = .ok (.dense ⟨[1, 2, 4], [0, 1, 0, 1, 1, 0, 0, 1]⟩) := by decide +kernel

/-- Two arrays for positions, the file, bins of pixels, a mask of rows of pixels. -/
example : AllPlain [.slice [.ints [0, 3], .ints [1, 3]], .reshape [1, 2, 4, 4], .reload true, .binFrames 2, .slice [.all, .all, .mask [2] [false, true]]]
    (.sparse square) ∧
    ((run [.slice [.ints [0, 3], .ints [1, 3]], .reshape [1, 2, 4, 4], .reload true, .binFrames 2, .slice [.all, .all, .mask [2] [false, true]]]
      (.sparse square)).bind Value.toDense) = .ok (.dense ⟨[1, 2, 1, 2], [0, 1, 0, 1]⟩) := by decide +kernel

/-- Without that condition a sequence may give an array that cannot be expanded: two rows of pixels of square frames, then bins. -/
theorem C111_sliced_false : run [.slice [.int 3, .all, .slice (some 2) none none], .binFrames 2] (.sparse square) =
      .ok (.sparse { data := [[[1, 2], []], [[1, 2], []], [[2], [2]], [[2], []]], numFrames := 2, scanShape := [4], frameShape := [1, 2] }) ∧
    runDense [.slice [.int 3, .all, .slice (some 2) none none], .binFrames 2] (dense square) = .ok ⟨[4, 1, 2], [1, 1, 1, 1, 0, 2, 0, 1]⟩ ∧
    toDense { data := [[[1, 2], []], [[1, 2], []], [[2], [2]], [[2], []]], numFrames := 2, scanShape := [4], frameShape := [1, 2] } =
      .throw "IndexError" := by
  decide +kernel

/-! ### Laws -/

theorem sum_range_mul (n m : Nat) (f : Nat → Nat) :
    ((List.range (n * m)).map f).sum = ((List.range n).map fun i => ((List.range m).map fun j => f (i * m + j)).sum).sum := by
  have h := range_mul n m (fun i => [f i])
  rw [← List.map_eq_flatMap] at h
  simp only [← List.map_eq_flatMap] at h
  rw [h, List.flatMap_def, List.sum_flatten, List.map_map]
  rfl

theorem sum_comm (l m : List Nat) (f : Nat → Nat → Nat) :
    (l.map fun i => (m.map fun j => f i j).sum).sum = (m.map fun j => (l.map fun i => f i j).sum).sum := by
  induction l with
  | nil => simp
  | cons x l ih =>
    simp only [List.map_cons, List.sum_cons, ih]
    rw [← List.sum_map_add]

/-- The square of `c` squares of `b`. -/
theorem squareSum_mul (b c : Nat) (f : Nat → Nat → Nat) :
    (squareSum c fun u v => squareSum b fun u' v' => f (u * b + u') (v * b + v')) = squareSum (c * b) f := by
  unfold squareSum
  rw [sum_range_mul]
  congr 1
  refine List.map_congr_left fun u _ => ?_
  rw [sum_comm]
  congr 1
  refine List.map_congr_left fun u' _ => ?_
  rw [sum_range_mul]

theorem squareSum_comm (b c : Nat) (f : Nat → Nat → Nat → Nat → Nat) :
    (squareSum b fun u v => squareSum c fun s t => f u v s t) = squareSum c fun s t => squareSum b fun u v => f u v s t := by
  unfold squareSum
  have h1 : ∀ u, ((List.range b).map fun v => ((List.range c).map fun s => ((List.range c).map fun t => f u v s t).sum).sum).sum =
      ((List.range c).map fun s => ((List.range c).map fun t => ((List.range b).map fun v => f u v s t).sum).sum).sum := by
    intro u
    rw [sum_comm]
    congr 1
    refine List.map_congr_left fun s _ => ?_
    rw [sum_comm]
  simp only [h1]
  rw [sum_comm]
  congr 1
  refine List.map_congr_left fun s _ => ?_
  rw [sum_comm]

/-- Bins of bins of positions are the bins by the product of the factors. -/
theorem C111_bin_twice (a : SparseArray) (ha : WF a) (b c h w : Nat) (hb : 0 < b) (hc : 0 < c) (hs : a.scanShape = [h, w])
    (hh : c * b ∣ h) (hw : c * b ∣ w) :
    ∃ r₁ r₂ r, Sparse.binScans a b = .ok r₁ ∧ Sparse.binScans r₁ c = .ok r₂ ∧ Sparse.binScans a (c * b) = .ok r ∧ dense r₂ = dense r := by
  obtain ⟨m, rfl⟩ := hh
  obtain ⟨n, rfl⟩ := hw
  have hm : ∀ k, c * b * k / b = c * k := fun k => by rw [Nat.mul_right_comm, Nat.mul_div_cancel _ hb]
  have hcb : 0 < c * b := Nat.mul_pos hc hb
  obtain ⟨r₁, h1, w1, s1, f1, -, -, -, e1, -⟩ := C42_bin_scans a ha b _ _ hb hs ⟨c * m, by ring⟩ ⟨c * n, by ring⟩
  rw [hm, hm] at s1
  obtain ⟨r₂, h2, w2, s2, f2, -, -, -, e2, -⟩ := C42_bin_scans r₁ w1 c _ _ hc s1 ⟨m, rfl⟩ ⟨n, rfl⟩
  obtain ⟨r, h3, w3, s3, f3, -, -, -, e3, -⟩ := C42_bin_scans a ha (c * b) _ _ hcb hs ⟨m, rfl⟩ ⟨n, rfl⟩
  rw [Nat.mul_div_cancel_left _ hc, Nat.mul_div_cancel_left _ hc] at s2
  rw [Nat.mul_div_cancel_left _ hcb, Nat.mul_div_cancel_left _ hcb] at s3
  refine ⟨r₁, r₂, r, h1, h2, h3, ?_⟩
  have h : ∀ x : SparseArray, dense x = ⟨x.scanShape ++ x.frameShape, (dense x).flat⟩ := fun _ => rfl
  rw [h r₂, h r, dense_two r₂ s2, dense_two r s3, s2, s3, f2, f3, f1]
  congr 1
  refine List.flatMap_congr fun i hi => List.flatMap_congr fun j hj => List.map_congr_left fun q _ => ?_
  have hi := List.mem_range.1 hi
  have hj := List.mem_range.1 hj
  have g2 := e2 i j q (by rw [Nat.mul_div_cancel_left _ hc]; exact hi) (by rw [Nat.mul_div_cancel_left _ hc]; exact hj)
  have g3 := e3 i j q (by rw [Nat.mul_div_cancel_left _ hcb]; exact hi) (by rw [Nat.mul_div_cancel_left _ hcb]; exact hj)
  rw [Nat.mul_div_cancel_left _ hc] at g2
  rw [Nat.mul_div_cancel_left _ hcb] at g3
  rw [g2, g3]
  show (squareSum c fun u v => eventCount r₁ ((i * c + u) * (c * n) + (j * c + v)) q) =
    squareSum (c * b) fun u v => eventCount a ((i * (c * b) + u) * (c * b * n) + (j * (c * b) + v)) q
  rw [← squareSum_mul]
  refine squareSum_congr fun u hu v hv => ?_
  have lt : ∀ {i u k : Nat}, i < k → u < c → i * c + u < c * b * k / b := by
    intro i u k h1 h2
    rw [hm]
    nlinarith
  have := e1 (i * c + u) (j * c + v) q (lt hi hu) (lt hj hv)
  rw [hm] at this
  rw [this]
  refine squareSum_congr fun u' _ v' _ => ?_
  congr 1
  ring

/-- The bins of positions and those of pixels may be made in any order. -/
theorem C111_bins_commute (a : SparseArray) (ha : WF a) (b c h w f : Nat) (hb : 0 < b) (hc : 0 < c) (hs : a.scanShape = [h, w])
    (hh : b ∣ h) (hw : b ∣ w) (hf : a.frameShape = [f, f]) (hcf : c ∣ f) :
    ∃ r₁ r₂ s₁ s₂, Sparse.binScans a b = .ok r₁ ∧ Sparse.binFrames r₁ c = .ok r₂ ∧ Sparse.binFrames a c = .ok s₁ ∧
      Sparse.binScans s₁ b = .ok s₂ ∧ dense r₂ = dense s₂ := by
  obtain ⟨r₁, h1, w1, t1, f1, -, -, -, e1, -⟩ := C42_bin_scans a ha b h w hb hs hh hw
  obtain ⟨r₂, h2, w2, t2, f2, e2, -⟩ := C43_bin_frames_partial r₁ w1 c f hc (by rw [f1]; exact hf) hcf
  obtain ⟨s₁, h3, w3, t3, f3, e3, -⟩ := C43_bin_frames_partial a ha c f hc hf hcf
  obtain ⟨s₂, h4, w4, t4, f4, -, -, -, e4, -⟩ := C42_bin_scans s₁ w3 b h w hb (by rw [t3]; exact hs) hh hw
  refine ⟨r₁, r₂, s₁, s₂, h1, h2, h3, h4, ?_⟩
  have h : ∀ x : SparseArray, dense x = ⟨x.scanShape ++ x.frameShape, (dense x).flat⟩ := fun _ => rfl
  rw [h r₂, h s₂, dense_two r₂ (by rw [t2, t1]), dense_two s₂ t4, t2, t1, t4, f2, f4, f3]
  congr 1
  refine List.flatMap_congr fun i hi => List.flatMap_congr fun j hj => List.map_congr_left fun q hq => ?_
  have hi := List.mem_range.1 hi
  have hj := List.mem_range.1 hj
  have hq := List.mem_range.1 hq
  rw [show prod [f / c, f / c] = f / c * (f / c) by simp [prod]] at hq
  have hpos : 0 < f / c := Nat.pos_of_ne_zero fun h0 => by rw [h0] at hq; simp at hq
  have hR : q / (f / c) < f / c := Nat.div_lt_of_lt_mul hq
  have hC : q % (f / c) < f / c := Nat.mod_lt _ hpos
  have hdm : q / (f / c) * (f / c) + q % (f / c) = q := Nat.div_add_mod' _ _
  have hp : i * (w / b) + j < prod r₁.scanShape := by
    rw [t1]
    simp only [prod, Nat.mul_one]
    have := Nat.mul_le_mul_right (w / b) hi
    rw [Nat.succ_mul] at this
    omega
  have g2 := e2 (i * (w / b) + j) _ _ hp hR hC
  rw [hdm] at g2
  rw [g2, e4 i j q hi hj]
  have hl : ∀ u < c, ∀ v < c, eventCount r₁ (i * (w / b) + j) ((q / (f / c) * c + u) * f + (q % (f / c) * c + v)) =
      squareSum b fun s t => eventCount a ((i * b + s) * w + (j * b + t)) ((q / (f / c) * c + u) * f + (q % (f / c) * c + v)) :=
    fun u _ v _ => e1 i j _ hi hj
  have hr : ∀ s < b, ∀ t < b, eventCount s₁ ((i * b + s) * w + (j * b + t)) q =
      squareSum c fun u v => eventCount a ((i * b + s) * w + (j * b + t)) ((q / (f / c) * c + u) * f + (q % (f / c) * c + v)) := by
    intro s hs' t ht
    have hlt : (i * b + s) * w + (j * b + t) < prod a.scanShape := by
      rw [hs]
      simp only [prod, Nat.mul_one]
      exact block_index_lt hh hw hi hj hs' ht
    have := e3 _ _ _ hlt hR hC
    rw [hdm] at this
    exact this
  show squareSum c (fun u v => _) = squareSum b fun s t => _
  rw [squareSum_congr hl, squareSum_congr hr]
  exact squareSum_comm c b _

example : ∃ r₁ r₂ r, Sparse.binScans square 2 = .ok r₁ ∧ Sparse.binScans r₁ 2 = .ok r₂ ∧ Sparse.binScans square 4 = .ok r ∧ dense r₂ = dense r :=
  C111_bin_twice square square_wf 2 2 4 4 (by decide) (by decide) rfl (by decide) (by decide)

example : ∃ r₁ r₂ s₁ s₂, Sparse.binScans square 4 = .ok r₁ ∧ Sparse.binFrames r₁ 2 = .ok r₂ ∧ Sparse.binFrames square 2 = .ok s₁ ∧
    Sparse.binScans s₁ 4 = .ok s₂ ∧ dense r₂ = dense s₂ :=
  C111_bins_commute square square_wf 4 2 4 4 4 (by decide) (by decide) rfl (by decide) (by decide) rfl (by decide)

/-! ### The number of events -/

/-- A part may be removed. -/
def Op.IsSlice : Op → Prop
  | .slice _ => True
  | .reload keep => keep = false
  | _ => False

theorem total (l : List (List (List Nat))) :
    l.flatten.flatten.length = ((List.range l.length).map fun p => (l.getD p []).flatten.length).sum := by
  have h : ((List.range l.length).map fun p => (l.getD p []).flatten.length) = l.map fun row => row.flatten.length := by
    conv_rhs => rw [← map_getD_range l []]
    rw [List.map_map]
    rfl
  rw [h]
  simp [List.length_flatten, List.map_flatten, List.sum_flatten, Function.comp_def]

theorem flat_sum {a : SparseArray} (ha : WF a) : (dense a).flat.sum = a.data.flatten.flatten.length := by
  have h : ∀ p < prod a.scanShape, ((List.range (prod a.frameShape)).map fun q => eventCount a p q).sum = (a.data.getD p []).flatten.length := by
    intro p hp
    exact sum_count _ _ (events_lt ha hp)
  show ((List.range (prod a.scanShape)).flatMap fun p => (List.range (prod a.frameShape)).map fun q => eventCount a p q).sum = _
  rw [List.flatMap_def, List.sum_flatten, List.map_map]
  rw [total, ha.length]
  congr 1
  exact List.map_congr_left fun p hp => h p (List.mem_range.1 hp)

/-- Bins, reshaping and files keep the total of the counts, whatever their sequence. -/
theorem C111_total_partial (a : SparseArray) (ha : WF a) (hfr : a.frameShape.length = 2) (hsp : a.sparseSlicing = true) (ops : List Op)
    (hops : AllPlain ops (.sparse a)) (hno : ∀ op ∈ ops, ¬ Op.IsSlice op) (v : Value) (h : run ops (.sparse a) = .ok v) :
    ∃ b, v = .sparse b ∧ (dense b).flat.sum = (dense a).flat.sum := by
  have hg : Good a := ⟨ha, by intro h; rw [h] at hfr; simp at hfr, by omega, hsp⟩
  clear ha hfr hsp
  induction ops generalizing a with
  | nil => cases h; exact ⟨a, rfl, rfl⟩
  | cons op ops ih =>
    simp only [run] at h
    cases h1 : op.apply (.sparse a) with
    | throw e => rw [h1] at h; cases h
    | ub => rw [h1] at h; cases h
    | ok u =>
      rw [h1, Outcome.ok_bind] at h
      have hp2 := hops.2
      rw [h1] at hp2
      have hfine := (apply_dense (v := .sparse a) hg hops.1 h1).1
      have step : ∃ c, u = .sparse c ∧ (dense c).flat.sum = (dense a).flat.sum := by
        cases op with
        | slice key => exact absurd trivial (hno _ List.mem_cons_self)
        | reload keep =>
          have hk : keep = true := by
            cases keep
            · exact absurd rfl (hno _ List.mem_cons_self)
            · rfl
          subst hk
          obtain ⟨f, -, h'⟩ := bind_of h1
          obtain ⟨r, -, h'⟩ := bind_of h'
          cases h'
          have := (apply_dense (v := .sparse a) hg hops.1 h1).2
          refine ⟨r.1, rfl, ?_⟩
          have e : dense a = dense r.1 := by injection this
          rw [e]
        | binScans b =>
          obtain ⟨r, h', rfl⟩ := bind_sparse h1
          refine ⟨r, rfl, ?_⟩
          have hw : WF r := hfine.wf
          obtain ⟨hb, m, n, hs, hm, hn⟩ := binScans_inv h'
          obtain ⟨r', h0, -, -, -, -, -, -, -, hperm⟩ := C42_bin_scans a hg.wf b m n hb hs hm hn
          rw [h'] at h0
          injection h0 with h0
          subst h0
          rw [flat_sum hw, flat_sum hg.wf, hperm.flatten.length_eq]
        | binFrames b =>
          obtain ⟨r, h', rfl⟩ := bind_sparse h1
          refine ⟨r, rfl, ?_⟩
          have hw : WF r := hfine.wf
          obtain ⟨f, -, hf⟩ := hops.1
          obtain ⟨hb, hd⟩ := binFrames_inv hf h'
          obtain ⟨r', h0, -, hs, -, -, hlen⟩ := C43_bin_frames_partial a hg.wf b f hb hf hd
          rw [h'] at h0
          injection h0 with h0
          subst h0
          rw [flat_sum hw, flat_sum hg.wf]
          rw [total, total, hw.length, hg.wf.length, hs]
          congr 1
          exact List.map_congr_left fun p hp => hlen p (List.mem_range.1 hp)
        | reshape s =>
          obtain ⟨r, h', rfl⟩ := bind_sparse h1
          exact ⟨r, rfl, by rw [(C46_dense a r hg.wf s h').2.2]⟩
        | ravel =>
          obtain ⟨r, h', rfl⟩ := bind_sparse h1
          exact ⟨r, rfl, by rw [(C46_dense a r hg.wf _ h').2.2]⟩
      obtain ⟨c, rfl, hc⟩ := step
      obtain ⟨b, hb, hs⟩ := ih c hp2 (fun op ho => hno op (List.mem_cons_of_mem _ ho)) h hfine
      exact ⟨b, hb, hs.trans hc⟩

def bins : List Op := [.binScans 2, .ravel, .binFrames 2, .reshape [2, 2, 2, 2], .binScans 2]

example : AllPlain bins (.sparse square) ∧ (∀ op ∈ bins, ¬ Op.IsSlice op) ∧
    ((run bins (.sparse square)).bind Value.toDense) = .ok (.dense ⟨[1, 1, 2, 2], [4, 4, 4, 19]⟩) ∧ (dense square).flat.sum = 31 := by
  refine ⟨by decide +kernel, by simp [bins, Op.IsSlice], by decide +kernel, by decide +kernel⟩

/-! ### Number of elements -/

private theorem bind_ok {α β : Type} {o : Outcome α} {f : α → Outcome β} {b : β} (h : (o >>= f) = .ok b) : ∃ a, o = .ok a ∧ f a = .ok b := by
  cases o with
  | ok a => exact ⟨a, rfl, h⟩
  | throw e => cases h
  | ub => cases h

private theorem mapM_len {α β : Type} {f : α → Outcome β} : ∀ {l : List α} {r : List β}, l.mapM f = .ok r → r.length = l.length
  | [], r, h => by
    rw [List.mapM_nil] at h
    cases h
    rfl
  | x :: l, r, h => by
    rw [List.mapM_cons] at h
    obtain ⟨y, _, h⟩ := bind_ok h
    obtain ⟨ys, h2, h⟩ := bind_ok h
    cases h
    simp [mapM_len h2]

private theorem selectItem_len {shape : List Nat} {it : Item} {a : Sel} {k : Nat} (h : selectItem shape it = .ok (a, k)) :
    a.idx.length = prod a.shape := by
  cases it with
  | slice b c d =>
    cases shape with
    | nil => cases h
    | cons n s =>
      obtain ⟨l, _, h⟩ := bind_ok h
      cases h
      simp [prod]
  | int i =>
    cases shape with
    | nil => cases h
    | cons n s =>
      obtain ⟨l, _, h⟩ := bind_ok h
      cases h
      simp [prod]
  | ellipsis =>
    cases h
    simp
  | ints l =>
    cases shape with
    | nil => cases h
    | cons n s =>
      obtain ⟨l, _, h⟩ := bind_ok h
      cases h
      simp [prod]
  | mask s bits =>
    simp only [selectItem] at h
    split at h
    · cases h
      simp [prod]
    · cases h

private theorem select_len : ∀ {items : List Item} {shape : List Nat} {a : Sel}, select shape items = .ok a → a.idx.length = prod a.shape
  | [], shape, a, h => by
    cases h
    simp
  | it :: items, shape, a, h => by
    obtain ⟨⟨b, k⟩, h1, h⟩ := bind_ok h
    obtain ⟨c, h2, h⟩ := bind_ok h
    cases h
    have e1 := selectItem_len h1
    have e2 := select_len h2
    simp [Sel.product, List.length_flatMap, prod_append, e1, e2]

private theorem selectPairs_len : ∀ {items : List Item} {shape : List Nat} {a : Sel}, selectPairs shape items = .ok a →
    a.idx.length = prod a.shape
  | [], shape, a, h => by
    cases h
    simp
  | x :: items, shape, a, h => by
    have one : ∀ {items shape a}, (∀ {shape' b}, selectPairs shape' items = .ok b → b.idx.length = prod b.shape) →
        ((selectItem shape x).bind fun r => (selectPairs (shape.drop r.2) items).bind fun b => .ok (r.1.product b (prod (shape.drop r.2)))) = .ok a →
        a.idx.length = prod a.shape := by
      intro items shape a ih h
      obtain ⟨⟨b, k⟩, h1, h⟩ := bind_of h
      obtain ⟨c, h2, h⟩ := bind_of h
      cases h
      have e1 := selectItem_len h1
      have e2 := ih h2
      simp [Sel.product, List.length_flatMap, prod_append, e1, e2]
    unfold selectPairs at h
    split at h
    · split at h
      · obtain ⟨b, h1, h⟩ := bind_ok h
        obtain ⟨c, h2, h⟩ := bind_ok h
        obtain ⟨l, h3, h⟩ := bind_ok h
        obtain ⟨r, h4, h⟩ := bind_ok h
        cases h
        have e := select_len h4
        simp [Sel.product, List.length_flatMap, prod, e, Function.comp_def]
      · exact one (fun h => selectPairs_len h) h
    · exact one (fun h => selectPairs_len h) h

private theorem index_len {x y : NArray Nat} {items : List Item} (h : indexPairs x items = .ok y) : y.flat.length = prod y.shape := by
  obtain ⟨s, h1, h⟩ := bind_ok h
  obtain ⟨l, h2, h⟩ := bind_ok h
  cases h
  rw [mapM_len h2]
  split
  · simp [moveToFront, prod, prod_append, List.length_flatMap]
  · exact selectPairs_len h1

private theorem onDense_len {op : Op} {x y : NArray Nat} (hx : x.flat.length = prod x.shape) (h : onDense op x = .ok y) :
    y.flat.length = prod y.shape := by
  have re : ∀ s, reshapeDense x s = .ok y → y.flat.length = prod y.shape := by
    intro s h
    unfold reshapeDense at h
    split at h
    · rename_i e
      cases h
      rw [hx, e]
    · cases h
  cases op with
  | slice key => exact index_len h
  | reload keep =>
    cases keep with
    | true => cases h; exact hx
    | false =>
      simp only [onDense, denseCrop] at h
      split at h
      · cases h
        simp [prod, List.length_flatMap]
      · cases h
  | reshape s => exact re _ h
  | ravel => exact re _ h
  | binScans b =>
    simp only [onDense, denseBinScans] at h
    split at h
    · split at h
      · cases h
        simp [prod, List.length_flatMap]
      · cases h
    · cases h
  | binFrames b =>
    simp only [onDense, denseBinFrames] at h
    split at h
    · split at h
      · cases h
        simp [prod, prod_append, List.length_flatMap]
      · cases h
    · cases h

/-- C111: if a sequence returns a NumPy array, it has as many elements as its shape says. -/
theorem C111_size (a : SparseArray) (ha : WF a) (hfr : a.frameShape.length = 2) (hsp : a.sparseSlicing = true) (ops : List Op)
    (hops : AllPlain ops (.sparse a)) (y : NArray Nat) (h : run ops (.sparse a) = .ok (.dense y)) : y.flat.length = prod y.shape := by
  obtain ⟨x, h1, h2, _⟩ := C111_session_partial a ha hfr hsp ops hops _ h
  have e : y = x := by
    injection h2 with h2
    injection h2
  subst e
  have key : ∀ (ops : List Op) (x : NArray Nat), x.flat.length = prod x.shape → runDense ops x = .ok y → y.flat.length = prod y.shape := by
    intro ops
    induction ops with
    | nil =>
      intro x hx h
      cases h
      exact hx
    | cons op ops ih =>
      intro x hx h
      obtain ⟨z, h3, h⟩ := bind_ok h
      exact ih z (onDense_len hx h3) h
  exact key ops _ (by rw [dense_length, prod_shape]) h1

/-- A slice that is a NumPy array, reshaped. -/
example : AllPlain [.slice [.int 3, .int 1], .reshape [2, 8]] (.sparse square) ∧
    ∃ y, run [.slice [.int 3, .int 1], .reshape [2, 8]] (.sparse square) = .ok (.dense y) ∧ y.shape = [2, 8] := by
  refine ⟨by decide +kernel, ⟨[2, 8], [0, 0, 0, 0, 0, 0, 0, 0, 0, 0, 0, 0, 0, 1, 0, 1]⟩, by decide +kernel, rfl⟩

end Stempy.Props.SparseSession
