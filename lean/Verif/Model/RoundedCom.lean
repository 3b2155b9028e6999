import Verif.Model.IeeeRound
import Verif.Model.PyImage

/-!
# Centers of mass in single and double precision

`Model/PyImage` has `com_sparse` with exact numbers. Here every floating point operation is rounded, in any rounding mode: `rd32` to
single, `rd64` to double precision. `_com_sparse_v0` computes in double precision, `com_v1_kernel` in single precision except for
`np.bincount` and the quotients; both store single precision.

Simplifications: the frames have two axes and the scan has two; `crop_to` and the entries of `init_center` are Python numbers (they do not
change the type of an array; a float is a double, an integer is not negative); `replace_nans` is false (see `Model/RoundedMean`:
`np.nanmean` adds in an order that NumPy does not specify); the counts of events are converted to double exactly.
-/

namespace Stempy.RoundedCom
open Numpy Sparse
open Stempy.FloatPixels (Fl)
open Stempy.IeeeRound (rnd)
open Stempy.PyImage (Num Ev)

/-- A number that any rounding to a format with exponents from `-1074` and at most 53 digits rounds as the square root of `q`: the root if
it is a multiple of 2^-1100, and else the middle of the two multiples around it. -/
def rootApprox (q : Rat) : Rat :=
  let s := Nat.sqrt ⌊q * 4 ^ 1100⌋₊
  (s + if (s : Rat) ^ 2 = q * 4 ^ 1100 then 0 else 1 / 2) / 2 ^ 1100

/-- `np.sqrt`, correctly rounded (IEEE 754-2019, 5.4.1). -/
def sqrt (rd : Rat → Fl) : Fl → Fl
  | .fin q => if q < 0 then .nan else rd (rootApprox q)
  | .pinf => .pinf
  | _ => .nan

/-- `np.sqrt(dx**2 + dy**2)` -/
def norm (rd : Rat → Fl) (dx dy : Fl) : Fl := sqrt rd (rnd rd ((rnd rd (dx.mul dx)).add (rnd rd (dy.mul dy))))

/-- An element of an array in `_com_sparse_v0`. -/
inductive Elem where
  | uint32 (n : Nat)
  | double (v : Fl)

/-- The element converted to double. -/
def Elem.toDouble (rd64 : Rat → Fl) : Elem → Fl
  | .uint32 n => rd64 n
  | .double v => v

/-- `(x - c)**2`: in `uint32` arithmetic for an integer `c`. -/
def sqDiff (rd64 : Rat → Fl) (x : Nat) : Num → Elem
  | .int c => .uint32 (((x + 2 ^ 32 - c) % 2 ^ 32) ^ 2 % 2 ^ 32)
  | .float q => let d := rnd rd64 ((rd64 x).sub (rd64 q)); .double (rnd rd64 (d.mul d))

/-- Sum of two arrays: `uint32` if both are. -/
def Elem.add (rd64 : Rat → Fl) : Elem → Elem → Elem
  | .uint32 a, .uint32 b => .uint32 ((a + b) % 2 ^ 32)
  | a, b => .double (rnd rd64 ((a.toDouble rd64).add (b.toDouble rd64)))

/-- `np.sum(x) / len(x)`: the sum is `uint64`. -/
def mean (rd64 : Rat → Fl) (l : List Nat) : Fl := rnd rd64 ((rd64 (l.sum % 2 ^ 64 : Nat)).div (.fin (l.length : Nat)))

/-- image/__init__.py:537-547: the distance to the center. The mean is a double already. -/
def radiusV0 (rd64 : Rat → Fl) (init : Option (Num × Num)) (xs ys : List Nat) (x y : Nat) : Fl :=
  match init with
  | some c => sqrt rd64 (((sqDiff rd64 x c.1).add rd64 (sqDiff rd64 y c.2)).toDouble rd64)
  | none => norm rd64 (rnd rd64 ((rd64 x).sub (mean rd64 xs))) (rnd rd64 ((rd64 y).sub (mean rd64 ys)))

/-- image/__init__.py:531-567: the two entries for a scan position with the events `ev`; `f0`, `f1` is the frame shape. `com` is an
array of `float32`. -/
def positionV0 (rd32 rd64 : Rat → Fl) (f0 f1 : Nat) (crop : Option Rat) (init : Option (Num × Num)) (ev : List Nat) : Fl × Fl :=
  if ev.length > 0 then
    let x := ev.map (· / f0)
    let y := ev.map (· % f1)
    match crop with
    | some r =>
      let keep := (x.zip y).filter fun p => (rd64 r).ge (radiusV0 rd64 init x y p.1 p.2)
      if keep.length > 0 then (rnd rd32 (mean rd64 (keep.map Prod.snd)), rnd rd32 (mean rd64 (keep.map Prod.fst)))
      else (.nan, .nan)
    | none => (rnd rd32 (mean rd64 y), rnd rd32 (mean rd64 x))
  else (.nan, .nan)

/-- image/__init__.py:524-576 `_com_sparse_v0`. The result is flat. -/
def comSparseV0 (rd32 rd64 : Rat → Fl) (a : SparseArray) (crop : Option Rat) (init : Option (Num × Num)) :
    Outcome (List Fl × List Fl) :=
  match a.frameShape with
  | [f0, f1] => do
    let l ← a.data.mapM fun frames => do
      let ev ← concatenate frames
      .ok (positionV0 rd32 rd64 f0 f1 crop init ev)
    .ok (l.map Prod.fst, l.map Prod.snd)
  | _ => .throw "IndexError"

/-- The sum of the weights of a bin of `np.bincount`, in double precision one after the other. -/
def total (rd64 : Rat → Fl) (l : List Fl) : Fl := l.foldl (fun a v => rnd rd64 (a.add v)) (.fin 0)

/-- `np.bincount(pos, weights=w, minlength=n)`: the weights are `float32` and converted to double exactly. -/
def bincountW (rd64 : Rat → Fl) (pos : List Nat) (w : List Fl) (n : Nat) : List Fl :=
  (List.range (PyImage.bincountLength pos n)).map fun j => total rd64 (((pos.zip w).filter fun p => p.1 = j).map Prod.snd)

/-- `out = np.full(n, d, dtype=np.float32); out[counts > 0] = sums[counts > 0] / counts[counts > 0]`: the boolean index needs the length
`n`. -/
def quotients (rd32 rd64 : Rat → Fl) (n : Nat) (d : Fl) (sums : List Fl) (counts : List Nat) : Outcome (List Fl) :=
  if counts.length = n then
    .ok ((sums.zip counts).map fun p => if p.2 > 0 then rnd rd32 (rnd rd64 (p.1.div (.fin (p.2 : Nat)))) else d)
  else .throw "IndexError"

/-- image/__init__.py:431-457: the events which are kept. The coordinates, the centers and `crop_to` are `float32`. -/
def cropEvents (rd32 rd64 : Rat → Fl) (n : Nat) (crop : Option Rat) (init : Option (Num × Num)) (ev : List Ev) : Outcome (List Ev) :=
  match crop with
  | none => .ok ev
  | some r =>
    match init with
    | some c => .ok (ev.filter fun e => (rd32 r).ge
        (norm rd32 (rnd rd32 ((rd32 e.2.1).sub (rd32 c.1.val))) (rnd rd32 ((rd32 e.2.2).sub (rd32 c.2.val)))))
    | none => do
      let pos := ev.map Prod.fst
      let cx ← quotients rd32 rd64 n (.fin 0) (bincountW rd64 pos (ev.map fun e => rd32 e.2.1) n) (PyImage.bincount pos n)
      let cy ← quotients rd32 rd64 n (.fin 0) (bincountW rd64 pos (ev.map fun e => rd32 e.2.2) n) (PyImage.bincount pos n)
      let ecx ← gather cx pos
      let ecy ← gather cy pos
      .ok (((ev.zip (ecx.zip ecy)).filter fun p => (rd32 r).ge
        (norm rd32 (rnd rd32 ((rd32 p.1.2.1).sub p.2.1)) (rnd rd32 ((rd32 p.1.2.2).sub p.2.2)))).map Prod.fst)

/-- image/__init__.py:459-467: the centers of mass for the kept events -/
def comValues (rd32 rd64 : Rat → Fl) (n : Nat) (ev : List Ev) : Outcome (List Fl × List Fl) :=
  if ev.length > 0 then do
    let pos := ev.map Prod.fst
    let c0 ← quotients rd32 rd64 n .nan (bincountW rd64 pos (ev.map fun e => rd32 e.2.2) n) (PyImage.bincount pos n)
    let c1 ← quotients rd32 rd64 n .nan (bincountW rd64 pos (ev.map fun e => rd32 e.2.1) n) (PyImage.bincount pos n)
    .ok (c0, c1)
  else .ok (List.replicate n .nan, List.replicate n .nan)

/-- image/__init__.py:402-477 `com_v1_kernel`; the arrays of positions and events are one list of pairs. -/
def comV1Kernel (rd32 rd64 : Rat → Fl) (events : List (Nat × Nat)) (scanShape frameShape : List Nat) (crop : Option Rat)
    (init : Option (Num × Num)) : Outcome (List Fl × List Fl) :=
  match scanShape, frameShape with
  | [s0, s1], [f0, f1] =>
    if events.isEmpty then .ok (List.replicate (s0 * s1) .nan, List.replicate (s0 * s1) .nan)
    else do
      let ev ← cropEvents rd32 rd64 (s0 * s1) crop init
        (events.map fun p => (p.1, PyImage.decodeX f0 p.2, PyImage.decodeY f1 p.2))
      comValues rd32 rd64 (s0 * s1) ev
  | _, _ => .throw "ValueError"

/-- image/__init__.py:480-521 `_com_sparse_v1` -/
def comSparseV1 (rd32 rd64 : Rat → Fl) (a : SparseArray) (crop : Option Rat) (init : Option (Num × Num)) :
    Outcome (List Fl × List Fl) :=
  comV1Kernel rd32 rd64 (a.data.zipIdx.flatMap fun r => r.1.flatten.map fun e => (r.2, e)) a.scanShape a.frameShape crop init

end Stempy.RoundedCom
