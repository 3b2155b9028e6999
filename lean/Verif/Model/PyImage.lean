import Verif.Model.SparseArray
import Verif.Model.Image

/-!
# python/stempy/image/__init__.py

Real numbers are rational, `NaN` is `none`; rounding of floating-point values is not modelled. A square root is compared with a
number by comparing the squares. The events are `uint32`, and NumPy keeps this type for the difference of an array of events
and a Python integer.
-/

namespace Stempy.PyImage
open Numpy Sparse

/-- A number given by the caller: a (non-negative) Python integer or a floating-point number. -/
inductive Num where
  | int (n : Nat)
  | float (q : Rat)
  deriving DecidableEq

def Num.val : Num → Rat
  | .int n => n
  | .float q => q

/-- `(ev - c) ** 2`: for an integer `c` (below 2^32) in `uint32` arithmetic. -/
def sqDiff (e : Nat) : Num → Num
  | .int c => .int (((e + 2 ^ 32 - c) % 2 ^ 32) ^ 2 % 2 ^ 32)
  | .float q => .float (((e : Rat) - q) ^ 2)

/-- Sum of two arrays: `uint32` if both are. -/
def Num.add : Num → Num → Num
  | .int a, .int b => .int ((a + b) % 2 ^ 32)
  | a, b => .float (a.val + b.val)

/-- `(x - cx)**2 + (y - cy)**2` -/
def dist2 (x y : Nat) (cx cy : Num) : Rat := ((sqDiff x cx).add (sqDiff y cy)).val

/-- `np.sqrt(d) <= r` and `np.sqrt(d) < r` -/
def sqrtLe (d r : Rat) : Bool := decide (0 ≤ r ∧ d ≤ r * r)
def sqrtLt (d r : Rat) : Bool := decide (0 < r ∧ d < r * r)

/-- `np.sum(x) / len(x)` of a non-empty array -/
def mean (l : List Nat) : Rat := (l.sum : Nat) / (l.length : Nat)

/-- `np.nanmean` -/
def nanmean (l : List (Option Rat)) : Option Rat :=
  let v := l.filterMap id
  if v.isEmpty then none else some (v.sum / (v.length : Nat))

/-- image/__init__.py 470-474, 571-573 -/
def replaceNans (l : List (Option Rat)) : List (Option Rat) := l.map fun v => v.or (nanmean l)

/-- A two-component image, flat: `com[0]` and `com[1]`. -/
abbrev Com := List (Option Rat) × List (Option Rat)

/-- image/__init__.py 537-543: the center for cropping -/
def cropAround (init : Option (Num × Num)) (x y : List Nat) : Num × Num :=
  match init with
  | none => (.float (mean x), .float (mean y))
  | some c => c

/-- image/__init__.py 531-567: the two entries for a scan position with the events `ev`; `f0`, `f1` is the frame shape. -/
def comPosition (f0 f1 : Nat) (crop : Option Rat) (init : Option (Num × Num)) (ev : List Nat) : Option Rat × Option Rat :=
  if ev.length > 0 then
    let x := ev.map (· / f0)
    let y := ev.map (· % f1)
    let c := cropAround init x y
    match crop with
    | some r =>
      let keep := (x.zip y).filter fun p => sqrtLe (dist2 p.1 p.2 c.1 c.2) r
      if keep.length > 0 then (some (mean (keep.map Prod.snd)), some (mean (keep.map Prod.fst)))
      else (none, none)
    | none => (some (mean y), some (mean x))
  else (none, none)

/-- image/__init__.py 524-576 `_com_sparse_v0`. The result is flat; `np.nanmean` needs both scan axes. A frame shape with other
than two axes is refused here (the code needs it for an event only). -/
def comSparseV0 (a : SparseArray) (crop : Option Rat) (init : Option (Num × Num)) (replace : Bool) : Outcome Com :=
  match a.frameShape with
  | [f0, f1] => do
    let l ← a.data.mapM fun frames => do
      let ev ← concatenate frames
      .ok (comPosition f0 f1 crop init ev)
    let com := (l.map Prod.fst, l.map Prod.snd)
    if replace then
      if a.scanShape.length = 2 then .ok (replaceNans com.1, replaceNans com.2) else .throw "AxisError"
    else .ok com
  | _ => .throw "IndexError"

/-- image/__init__.py 418-428: decoding by a shift resp. a mask for powers of two. -/
def decodeX (f e : Nat) : Nat := if f &&& (f - 1) = 0 then e >>> f.log2 else e / f
def decodeY (f e : Nat) : Nat := if f &&& (f - 1) = 0 then e &&& (f - 1) else e % f

/-- An event of the concatenated arrays: scan position and coordinates. -/
abbrev Ev := Nat × Nat × Nat

/-- Length of `np.bincount(pos, minlength=n)` -/
def bincountLength (pos : List Nat) (n : Nat) : Nat := pos.foldl (fun m p => max m (p + 1)) n

/-- `np.bincount(pos, minlength=n)` -/
def bincount (pos : List Nat) (n : Nat) : List Nat := (List.range (bincountLength pos n)).map fun j => pos.count j

/-- `np.bincount(pos, weights=w, minlength=n)` -/
def bincountW (pos w : List Nat) (n : Nat) : List Nat :=
  (List.range (bincountLength pos n)).map fun j => (((pos.zip w).filter fun p => p.1 = j).map Prod.snd).sum

/-- `out = np.full(n, d); out[counts > 0] = sums[counts > 0] / counts[counts > 0]`: the boolean index needs the length `n`. -/
def quotients {α : Type} (n : Nat) (d : α) (f : Rat → α) (sums counts : List Nat) : Outcome (List α) :=
  if counts.length = n then
    .ok ((sums.zip counts).map fun p => if p.2 > 0 then f ((p.1 : Rat) / (p.2 : Rat)) else d)
  else .throw "IndexError"

/-- image/__init__.py 431-457: the events which are kept. In single precision, so differences do not wrap. -/
def cropEvents (n : Nat) (crop : Option Rat) (init : Option (Num × Num)) (ev : List Ev) : Outcome (List Ev) :=
  match crop with
  | none => .ok ev
  | some r =>
    match init with
    | some c =>
      .ok (ev.filter fun e => sqrtLe (((e.2.1 : Rat) - c.1.val) ^ 2 + ((e.2.2 : Rat) - c.2.val) ^ 2) r)
    | none => do
      let pos := ev.map Prod.fst
      let cx ← quotients n 0 id (bincountW pos (ev.map (·.2.1)) n) (bincount pos n)
      let cy ← quotients n 0 id (bincountW pos (ev.map (·.2.2)) n) (bincount pos n)
      let ecx ← gather cx pos
      let ecy ← gather cy pos
      .ok (((ev.zip (ecx.zip ecy)).filter fun p =>
        sqrtLe (((p.1.2.1 : Rat) - p.2.1) ^ 2 + ((p.1.2.2 : Rat) - p.2.2) ^ 2) r).map Prod.fst)

/-- image/__init__.py 459-467: the center of mass for the kept events -/
def comValues (n : Nat) (ev : List Ev) : Outcome Com :=
  if ev.length > 0 then do
    let pos := ev.map Prod.fst
    let c0 ← quotients n none some (bincountW pos (ev.map (·.2.2)) n) (bincount pos n)
    let c1 ← quotients n none some (bincountW pos (ev.map (·.2.1)) n) (bincount pos n)
    .ok (c0, c1)
  else .ok (List.replicate n none, List.replicate n none)

/-- image/__init__.py 402-477 `com_v1_kernel`; the arrays of positions and events are one list of pairs. -/
def comV1Kernel (events : List (Nat × Nat)) (scanShape frameShape : List Nat) (crop : Option Rat)
    (init : Option (Num × Num)) (replace : Bool) : Outcome Com :=
  match scanShape with
  | s0 :: s1 :: more =>
    match frameShape with
    | [f0, f1] => do
      let n := s0 * s1
      if events.isEmpty then .ok (List.replicate n none, List.replicate n none)
      else do
        let ev ← cropEvents n crop init (events.map fun p => (p.1, decodeX f0 p.2, decodeY f1 p.2))
        let com ← comValues n ev
        if more.isEmpty then
          .ok (if replace then (replaceNans com.1, replaceNans com.2) else com)
        else .throw "ValueError"
    | _ => .throw "ValueError"
  | _ => .throw "IndexError"

/-- image/__init__.py 480-521 `_com_sparse_v1` -/
def comSparseV1 (a : SparseArray) (crop : Option Rat) (init : Option (Num × Num)) (replace : Bool) : Outcome Com :=
  comV1Kernel (a.data.zipIdx.flatMap fun r => r.1.flatten.map fun e => (r.2, e)) a.scanShape a.frameShape crop init replace

/-- image/__init__.py 578-616 `com_sparse`; a tuple for the crop radius has been replaced by its maximum. -/
def comSparse (version : Nat) (a : SparseArray) (crop : Option Rat) (init : Option (Num × Num)) (replace : Bool) :
    Outcome Com :=
  if version = 1 then comSparseV1 a crop init replace
  else if version = 0 then comSparseV0 a crop init replace
  else .throw "ValueError"

/-- image/__init__.py 644-665 `com_dense`, for integer frames. A division by 0 gives `NaN`, as the numerator is 0, too. -/
def comDense (frames : NArray Nat) : Outcome Com :=
  let shape := if frames.shape.length = 2 then 1 :: frames.shape else frames.shape
  match shape with
  | [n, h, w] =>
    let yy := (List.range h).flatMap fun y => (List.range w).map fun _ => y
    let xx := (List.range h).flatMap fun _ => (List.range w).map fun x => x
    let l := (List.range n).map fun i =>
      let dp := (frames.flat.drop (i * (h * w))).take (h * w)
      let mm := dp.sum
      let cx := (List.zipWith (· * ·) xx dp).sum
      let cy := (List.zipWith (· * ·) yy dp).sum
      if mm = 0 then (none, none) else (some ((cx : Rat) / (mm : Rat)), some ((cy : Rat) / (mm : Rat)))
    .ok (l.map Prod.fst, l.map Prod.snd)
  | _ => .throw "IndexError"

/-- image/__init__.py 806-849 `virtual_darkfield`; single values have been replaced by tuples of one. -/
def virtualDarkfield (a : SparseArray) (centersX centersY : List Num) (radii : List Rat) : Outcome (NArray Nat) :=
  match a.shape, a.frameShape with
  | s0 :: s1 :: _, f0 :: f1 :: _ => do
    let img ← a.data.zipIdx.foldlM (fun img r =>
      r.1.foldlM (fun img ev =>
        (centersX.zip (centersY.zip radii)).foldlM (fun img c =>
          if r.2 < img.length then
            .ok (img.set r.2 (img.getD r.2 0 +
              (ev.filter fun e => sqrtLt (dist2 (e / f0) (e % f1) c.2.1 c.1) c.2.2).length))
          else .throw "IndexError") img) img) (List.replicate (s0 * s1) 0)
    if img.length = prod a.scanShape then .ok ⟨a.scanShape, img⟩ else .throw "ValueError"
  | _, _ => .throw "IndexError"

/-- image/__init__.py 900-918 `mask_real_space` with a two-dimensional mask; `np.where` and `np.ravel_multi_index` give the
flat indexes of the mask. -/
def maskRealSpace (a : SparseArray) (mask : NArray Bool) : Outcome (NArray Nat) :=
  match a.scanShape, mask.shape with
  | [s0, s1], [m0, m1] =>
    if s0 = m0 ∧ s1 = m1 then do
      let mr := (List.range (prod mask.shape)).filter fun i => mask.flat.getD i false
      let rows ← gather a.data mr
      let dp ← rows.foldlM (fun dp events => events.foldlM increment dp) (List.replicate (prod a.frameShape) 0)
      .ok ⟨a.frameShape, dp⟩
    else .throw "AssertionError"
  | _, _ => .throw "IndexError"

/-- image/__init__.py 668-686 `calculate_sum_sparse` for one array of events per scan position -/
def calculateSumSparse (counts : List (List Nat)) (f0 f1 : Nat) : Outcome (NArray Nat) := do
  let dp ← counts.foldlM (fun dp ev => ev.foldlM (fun dp e => increment dp [e]) dp) (List.replicate (f0 * f1) 0)
  .ok ⟨[f0, f1], dp⟩

/-- `np.histogram(np.sqrt(d2), bins=range(0, n + 1))[0]`: differences of the numbers of values left of the edges; the last
edge belongs to the last bin. -/
def histogramSqrt (d2 : List Rat) (n : Nat) : List Nat :=
  let below (k : Nat) : Nat := if k = n then d2.countP fun d => sqrtLe d n else d2.countP fun d => sqrtLt d k
  (List.range n).map fun k => below (k + 1) - below k

/-- image/__init__.py 707-712: one frame -/
def radialFrame (f0 f1 n : Nat) (center : Rat × Rat) (sum events : List Nat) : Outcome (List Nat) :=
  if events.all (· < f0 * f1) then
    let d2 := events.map fun e => ((e / f1 : Nat) - center.1) ^ 2 + ((e % f1 : Nat) - center.2) ^ 2
    .ok (List.zipWith (· + ·) sum (histogramSqrt d2 n))
  else .throw "ValueError"

/-- image/__init__.py 689-715 `radial_sum_sparse` -/
def radialSumSparse (a : SparseArray) (center : Rat × Rat) : Outcome (NArray Nat) :=
  match a.scanShape, a.frameShape with
  | s0 :: s1 :: _, [f0, f1] => do
    let n := max f0 f1 / 2
    let rows ← a.data.mapM fun frames => frames.foldlM (radialFrame f0 f1 n center) (List.replicate n 0)
    if rows.length = s0 * s1 then .ok ⟨[s0, s1, n], rows.flatten⟩ else .throw "ValueError"
  | _, _ => .throw "IndexError"

/-- The median of a sorted list. -/
def middle (s : List Rat) : Option Rat :=
  if s.isEmpty then none
  else if s.length % 2 = 1 then s[s.length / 2]?
  else some ((s.getD (s.length / 2 - 1) 0 + s.getD (s.length / 2) 0) / 2)

/-- `np.nanmedian` -/
def nanmedian (l : List (Option Rat)) : Option Rat := middle ((l.filterMap id).insertionSort (· ≤ ·))

/-- `com[k, ii - 1:ii + 2, jj - 1:jj + 2]` -/
def window (h w : Nat) (img : List (Option Rat)) (ii jj : Nat) : Outcome (List (Option Rat)) := do
  let rows ← sliceIndexes h (some ((ii : Int) - 1)) (some ((ii : Int) + 2)) none
  let cols ← sliceIndexes w (some ((jj : Int) - 1)) (some ((jj : Int) + 2)) none
  .ok (rows.flatMap fun r => cols.map fun c => img.getD (r * w + c) none)

/-- image/__init__.py 632: `com[1]` is outside of the cut-offs; a `NaN` is not. -/
def outside (cutOff : Rat × Rat) (v : Option Rat) : Bool := v.any fun v => v > cutOff.2 || v < cutOff.1

/-- image/__init__.py 619-642 `filter_bad_sectors` on an image of height `h` and width `w` -/
def filterBadSectors (h w : Nat) (com : Com) (cutOff : Rat × Rat) : Outcome Com :=
  let bad := com.2.map (outside cutOff)
  let com0 := (List.zipWith (fun (b : Bool) v => if b then none else v) bad com.1,
    List.zipWith (fun (b : Bool) v => if b then none else v) bad com.2)
  ((List.range (h * w)).filter fun i => bad.getD i false).foldlM (fun com i => do
    let l0 ← window h w com.1 (i / w) (i % w)
    let com := (com.1.set i (nanmedian l0), com.2)
    let l1 ← window h w com.2 (i / w) (i % w)
    .ok (com.1, com.2.set i (nanmedian l1))) com0

/-! ### The result of electron counting -/

/-- python/image.cpp `ElectronCountedDataPyArray`: dimensions are (width, height). -/
structure CountedData where
  data : List (List (List Nat))
  scanDimensions : Nat × Nat
  frameDimensions : Nat × Nat
  deriving DecidableEq

/-- The Python object: the sparse array, and the attribute `_electron_counted_data`, if it is set. -/
structure PyArray where
  array : SparseArray
  counted : Option CountedData := none
  deriving DecidableEq

/-- image/__init__.py 330-352. All positions have as many frames as the first (electron.cpp 801-811); otherwise a frame does not
fit, or is missing in the object array (the validation fails). -/
def toPython (d : CountedData) : Outcome PyArray :=
  let k := (d.data.headD []).length
  if d.data.all (·.length = k) then
    (SparseArray.init ⟨d.data, k, [d.scanDimensions.2, d.scanDimensions.1], [d.frameDimensions.1, d.frameDimensions.2],
      true, false⟩).bind fun a => .ok ⟨a, some d⟩
  else .throw "Exception"

/-- image/__init__.py 75-83: `create_stem_images` of a sparse array. The conversion of `scan_shape[::-1]` to a pair fails for
other than two axes. -/
def createStemImages (o : PyArray) (inner outer : List Int) (center : Int × Int) : Outcome (List (List Nat)) :=
  match o.counted with
  | some d => Image.createSTEMImagesSparse d.data inner outer d.scanDimensions d.frameDimensions center
  | none =>
    match o.array.scanShape, o.array.frameShape with
    | [s0, s1], [f0, f1] => Image.createSTEMImagesSparse o.array.data inner outer (s1, s0) (f0, f1) center
    | _, _ => .throw "TypeError"

/-- sparse_array.py 596-599, 693-696: `bin_scans` resp. `bin_frames` with `in_place`; the attribute stays. -/
def inPlace (f : SparseArray → Outcome SparseArray) (o : PyArray) : Outcome PyArray :=
  (f o.array).bind fun a => .ok { o with array := a }

end Stempy.PyImage
