import Verif.Model.RoundedCom

/-!
# `replace_nans` of `com_sparse` in floating point

The NaNs of an image of centers of mass are replaced by the `np.nanmean` of the image. NumPy does not specify in which order it adds the
pixels (it depends on the axes, the strides and the machine), so that the result is a relation: any order and any brackets.

Simplifications: as in `Model/RoundedCom`. The zero NumPy may start with is left out (to add it is exact).
-/

namespace Stempy.RoundedMean
open Numpy Sparse
open Stempy.FloatPixels (Fl)
open Stempy.IeeeRound (rnd)
open Stempy.PyImage (Num)

/-- `v` is a result of adding the numbers of `l` in some order, each sum of two being rounded. -/
inductive Adds (rd : Rat → Fl) : List Fl → Fl → Prop
  | one (v : Fl) : Adds rd [v] v
  | add {l a b : List Fl} {x y : Fl} : l.Perm (a ++ b) → Adds rd a x → Adds rd b y → Adds rd l (rnd rd (x.add y))

/-- `np.nanmean` of a `float32` image: the sum with zeros for the NaNs in single precision, divided by the number of the others in double
precision and stored in single precision. (NumPy, `_replace_nan` and `_divide_by_count` of `lib/_nanfunctions_impl.py`; the mean of no
pixels is NaN.) -/
def Nanmean (rd32 rd64 : Rat → Fl) (l : List Fl) (m : Fl) : Prop :=
  ∃ s, (Adds rd32 (l.map fun v => if v = .nan then .fin 0 else v) s ∨ l = [] ∧ s = .fin 0) ∧
    m = rnd rd32 (rnd rd64 (s.div (.fin ((l.filter fun v => v ≠ .nan).length : Nat))))

/-- `np.nan_to_num(v, nan=m)` for a `float32`: the infinities become the greatest and the least number. -/
def nanToNum (m : Fl) : Fl → Fl
  | .fin q => .fin q
  | .nan => m
  | .pinf => .fin ((2 ^ 24 - 1) * 2 ^ 104)
  | .ninf => .fin (-((2 ^ 24 - 1) * 2 ^ 104))

/-- image/__init__.py:571-574: `com` is `l` before and `out` after. -/
def ReplacedV0 (rd32 rd64 : Rat → Fl) (l out : List Fl) : Prop := ∃ m, Nanmean rd32 rd64 l m ∧ out = l.map (nanToNum m)

/-- image/__init__.py:471-475: only if there is a NaN. -/
def ReplacedV1 (rd32 rd64 : Rat → Fl) (l out : List Fl) : Prop :=
  if .nan ∈ l then ∃ m, Nanmean rd32 rd64 l m ∧ out = l.map fun v => if v = .nan then m else v
  else out = l

/-- image/__init__.py:524-576 `_com_sparse_v0` with `replace_nans`: `out` may be the result. The axes `(1, 2)` need a scan of two axes. -/
def ComV0 (rd32 rd64 : Rat → Fl) (a : SparseArray) (crop : Option Rat) (init : Option (Num × Num)) (out : List Fl × List Fl) : Prop :=
  ∃ com, RoundedCom.comSparseV0 rd32 rd64 a crop init = .ok com ∧ a.scanShape.length = 2 ∧
    ReplacedV0 rd32 rd64 com.1 out.1 ∧ ReplacedV0 rd32 rd64 com.2 out.2

/-- image/__init__.py:402-521 `_com_sparse_v1` with `replace_nans`: without events `com_v1_kernel` returns before (lines 416-417). -/
def ComV1 (rd32 rd64 : Rat → Fl) (a : SparseArray) (crop : Option Rat) (init : Option (Num × Num)) (out : List Fl × List Fl) : Prop :=
  ∃ com, RoundedCom.comSparseV1 rd32 rd64 a crop init = .ok com ∧
    if (a.data.flatMap fun frames => frames.flatten) = [] then out = com
    else ReplacedV1 rd32 rd64 com.1 out.1 ∧ ReplacedV1 rd32 rd64 com.2 out.2

end Stempy.RoundedMean
