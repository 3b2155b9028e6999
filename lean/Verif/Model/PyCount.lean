import Verif.Model.Electron

/-!
# python/stempy/image/__init__.py:170-352 `ImageArray`, `electron_count` and 378-399 `maximum_diffraction_pattern`, with the
overloads of python/image.cpp:484-613

The part of `electron_count` before the result is made into a sparse array (see C59 for the rest), for readers which are not
threaded; for threaded readers the options which reach C++. The memory layout of arrays is not part of this model (see C61),
arrays are lists of values. Numbers are rationals; NaN and infinite values are not modelled.
-/

namespace Stempy.PyCount
open Stempy.Image Stempy.Electron

/-- The conversions of numbers: `fits32` tells whether `_safe_cast` to `float32` accepts a number (it then keeps it, see C56),
`round32` is the conversion to `float32` of pybind11, `inv` is `numpy.power(x, -1)`. -/
structure Arith where
  fits32 : Rat → Bool
  round32 : Rat → Rat
  inv : Rat → Rat

/-- The attribute `_image` of an array. -/
inductive Attr where
  | missing
  | none
  | image (pixels : List Rat)
  deriving DecidableEq, Repr

/-- A numpy array: a plain one has no attribute `_image`, an `ImageArray` has. -/
structure NdArray where
  values : List Rat
  attr : Attr
  deriving DecidableEq, Repr

/-- image/__init__.py:181-194: the result of `calculate_average`. -/
def average (pixels : List Rat) : NdArray := ⟨pixels, .image pixels⟩

/-- image/__init__.py:176-178: an array derived from an array by numpy operations (`a - 1`, `a[::-1]`, `a.astype(t)`, …) or a changed
array has other values, and for an `ImageArray` `__array_finalize__` copies the attribute. -/
def derived (a : NdArray) (values : List Rat) : NdArray := { a with values := values }

/-- The argument `darkreference`: nothing, an array, or an image of C++. -/
inductive Dark where
  | none
  | array (a : NdArray)
  | image (pixels : List Rat)
  deriving DecidableEq, Repr

/-! ### Overloads -/

/-- Values which are passed to C++. A list of blocks of a `Reader` or a `PyReader`, the iterators of a reader (of the kind:
stream, sector or array), an array of `float32`, an image of `double`, and numbers. -/
inductive PyVal where
  | blocks (py : Bool) (b : List Block)
  | iter (kind : Nat)
  | array (v : List Rat)
  | image (v : List Rat)
  | int (z : Int)
  | float (r : Rat)

/-- Types of parameters: `vector<Block>&` or `vector<PyBlock>&`, iterators, `Image<float>&`, `py::array_t<float>`, `int`, `double`. -/
inductive CType where
  | blocks (py : Bool)
  | iter (kind : Nat)
  | imageFloat
  | array
  | int
  | double

/-- Values of parameters. -/
inductive CVal where
  | blocks (b : List Block)
  | iter
  | array (v : List Rat)
  | int (z : Int)
  | double (r : Rat)
  deriving DecidableEq

/-- Truncation of a number to an integer. -/
def truncate (r : Rat) : Int := if r < 0 then ⌈r⌉ else ⌊r⌋

/-- An `int`, if the integer is one. -/
def loadInt (z : Int) : Option CVal := if -2 ^ 31 ≤ z ∧ z < 2 ^ 31 then some (.int z) else none

/-- The conversion of an argument by pybind11, without or with implicit conversions. `Image<float>` is not a class which is
registered in the module, so there is no conversion to it. An array with one element converts to a number. In versions of
pybind11 which are `strict` an integer is not a `double` without conversion. -/
def load (A : Arith) (strict convert : Bool) : CType → PyVal → Option CVal
  | .blocks p, .blocks q b => if p = q ∨ b = [] then some (.blocks b) else none
  | .iter k, .iter l => if k = l then some .iter else none
  | .array, .array v => some (.array v)
  | .array, .image v => if convert then some (.array (v.map A.round32)) else none
  | .array, .int z => if convert then some (.array [A.round32 z]) else none
  | .array, .float r => if convert then some (.array [A.round32 r]) else none
  | .int, .int z => loadInt z
  | .int, .array [v] => if convert then loadInt (truncate v) else none
  | .double, .float r => some (.double r)
  | .double, .int z => if convert || !strict then some (.double z) else none
  | .double, .array [v] => if convert then some (.double v) else none
  | _, _ => none

/-- All arguments. -/
def loadAll (A : Arith) (strict convert : Bool) : List CType → List PyVal → Option (List CVal)
  | [], [] => some []
  | t :: ts, v :: vs => (load A strict convert t v).bind fun c => (loadAll A strict convert ts vs).map fun cs => c :: cs
  | _, _ => none

/-- The first overload that takes the arguments: at first without conversions, then with them. -/
def resolve (A : Arith) (strict : Bool) (overloads : List (List CType)) (args : List PyVal) : Outcome (List CVal) :=
  match overloads.findSome? fun o => loadAll A strict false o args with
  | some cs => .ok cs
  | none =>
    match overloads.findSome? fun o => loadAll A strict true o args with
    | some cs => .ok cs
    | none => .throw "TypeError"

/-- image.cpp:493-573 -/
def thresholdOverloads : List (List CType) := [
  [.blocks false, .imageFloat, .int, .double, .double, .array],
  [.blocks true, .imageFloat, .int, .double, .double, .array],
  [.blocks false, .array, .int, .double, .double, .array],
  [.blocks true, .array, .int, .double, .double, .array],
  [.blocks false, .imageFloat, .int, .double, .double],
  [.blocks true, .imageFloat, .int, .double, .double],
  [.blocks false, .array, .int, .double, .double],
  [.blocks true, .array, .int, .double, .double],
  [.blocks false, .int, .double, .double, .array],
  [.blocks true, .int, .double, .double, .array],
  [.blocks false, .int, .double, .double, .array],
  [.blocks true, .int, .double, .double, .array],
  [.blocks false, .int, .double, .double],
  [.blocks true, .int, .double, .double]]

/-- image.cpp:591-613: the kinds of iterators are 0 (stream), 1 (sector) and 2 (array). -/
def maximumOverloads : List (List CType) := [
  [.iter 0, .iter 0, .imageFloat],
  [.iter 0, .iter 0],
  [.iter 1, .iter 1, .imageFloat],
  [.iter 1, .iter 1],
  [.iter 2, .iter 2]]

/-- The arguments of `calculateThresholds`. -/
structure ThresholdArgs where
  blocks : List Block
  dark : Option (List Rat)
  samples : Int
  bgSigma : Rat
  xrSigma : Rat
  gain : Option (List Rat)
  deriving DecidableEq

/-- image.cpp:138-181: the parameters of the overload. -/
def thresholdArgs : List CVal → Outcome ThresholdArgs
  | [.blocks b, .array d, .int n, .double bg, .double xr, .array g] => .ok ⟨b, some d, n, bg, xr, some g⟩
  | [.blocks b, .array d, .int n, .double bg, .double xr] => .ok ⟨b, some d, n, bg, xr, none⟩
  | [.blocks b, .int n, .double bg, .double xr, .array g] => .ok ⟨b, none, n, bg, xr, some g⟩
  | [.blocks b, .int n, .double bg, .double xr] => .ok ⟨b, none, n, bg, xr, none⟩
  | _ => .throw "TypeError"

/-! ### electron_count -/

/-- A number of Python. -/
inductive Num where
  | int (z : Int)
  | float (r : Rat)
  deriving DecidableEq, Repr

def Num.val : Num → PyVal
  | .int z => .int z
  | .float r => .float r

/-- A reader: the kind of its blocks, all of its blocks, and the number of blocks which were read since the last reset. -/
structure Rdr where
  py : Bool
  blocks : List Block
  pos : Nat
  deriving DecidableEq

/-- `[next(reader) for i in range(k)]` -/
def Rdr.next (r : Rdr) (k : Nat) : Outcome (List Block × Rdr) :=
  if r.pos + k ≤ r.blocks.length then .ok ((r.blocks.drop r.pos).take k, { r with pos := r.pos + k })
  else .throw "StopIteration"

/-- The arguments of `electron_count`. -/
structure Args where
  dark : Dark
  samples : Int
  bgSigma : Num
  xrSigma : Num
  numBlocks : Nat
  scan : Nat × Nat
  gain : Option (List Rat)
  rowDark : Bool
  useMean : Bool

/-- image/__init__.py:718-728, for `float32`. -/
def safe32 (A : Arith) (v : List Rat) : Outcome (List Rat) := if v.all A.fits32 then .ok v else .throw "ValueError"

/-- image/__init__.py:243-247 -/
def castGain (A : Arith) : Option (List Rat) → Outcome (Option (List Rat))
  | none => .ok none
  | some g => do
    let g ← safe32 A (g.map A.inv)
    pure (some g)

/-- image/__init__.py:249-251: the cast array is derived from the array. -/
def castDark (A : Arith) : Dark → Outcome Dark
  | .array a => do
    let v ← safe32 A a.values
    pure (.array (derived a v))
  | d => .ok d

/-- image/__init__.py:279-280 -/
def unwrap : Dark → Dark
  | .array a =>
    match a.attr with
    | .missing => .array a
    | .none => .none
    | .image p => .image p
  | d => d

/-- image/__init__.py:282-289 -/
def thresholdCall (blocks : PyVal) (dark : Dark) (n : Int) (bg xr : Num) (gain : Option (List Rat)) : List PyVal :=
  let d := match dark with
    | .none => []
    | .array a => [.array a.values]
    | .image p => [.image p]
  let g := match gain with
    | none => []
    | some g => [.array g]
  [blocks] ++ d ++ [.int n, bg.val, xr.val] ++ g

/-- image.cpp:428-444 and 81-92 (for threaded readers 446-465 and 120-130): the pointer to the dark reference that is given as an
object. `None` becomes an array with one element. -/
def darkPointer (A : Arith) : Dark → Option (List Rat)
  | .none => none
  | .array a => if a.values.length > 1 then some a.values else none
  | .image p => if p.length > 1 then some (p.map A.round32) else none

/-- image.cpp:89-92 -/
def gainPointer : Option (List Rat) → Option (List Rat)
  | none => none
  | some g => if g.length > 1 then some g else none

/-- The results of `calculateThresholds` which are used: both thresholds and the optimized mean. -/
structure Found where
  bg : Rat
  xr : Rat
  mean : Rat

/-- electron.cpp:508-525 and image/__init__.py:316-326 -/
def countOptions (stat : Bool → List Rat → Outcome (Option Rat)) (args : Args) (f : Found) (dark gain : Option (List Rat)) : CountOptions where
  ft := if gain.isSome then .f32 else .u16
  bg := f.bg
  xr := f.xr
  dark := dark
  gain := gain
  rowDark := if args.rowDark then some (stat args.useMean) else none
  optMean := f.mean

/-- image/__init__.py:243-328 for a reader which is not threaded: the events, and the reader afterwards. `T` is
`calculateThresholds` and `stat` gives the statistic of the row dark correction. -/
def electronCount (A : Arith) (strict : Bool) (T : ThresholdArgs → Outcome Found)
    (stat : Bool → List Rat → Outcome (Option Rat)) (r : Rdr) (args : Args) :
    Outcome (((Nat × Nat) × List (List (List Nat))) × Rdr) := do
  let gain ← castGain A args.gain
  let dark ← castDark A args.dark
  let (blocks, r) ← r.next args.numBlocks
  let dark := unwrap dark
  let cs ← resolve A strict thresholdOverloads
    (thresholdCall (.blocks r.py blocks) dark args.samples args.bgSigma args.xrSigma gain)
  let ta ← thresholdArgs cs
  let f ← T ta
  let r := { r with pos := 0 }
  let o := countOptions stat args f (darkPointer A dark) (gainPointer gain)
  let res ← electronCountClassic (countFrameClassic o) (r.blocks.drop r.pos) args.scan
  pure (res, { r with pos := r.blocks.length })

/-- image/__init__.py:243-265 for a threaded reader: the dark reference and the gain that reach C++. -/
def threadedOptions (A : Arith) (args : Args) : Outcome (Option (List Rat) × Option (List Rat)) := do
  let gain ← castGain A args.gain
  let dark ← castDark A args.dark
  pure (darkPointer A dark, gainPointer gain)

/-- image/__init__.py:391-395: the parameters of `maximumDiffractionPattern`. -/
def maximumCall (A : Arith) (strict : Bool) (kind : Nat) : Dark → Outcome (List CVal)
  | .none => resolve A strict maximumOverloads [.iter kind, .iter kind]
  | .image _ => .throw "AttributeError"
  | .array a =>
    match a.attr with
    | .missing => .throw "AttributeError"
    | .none => .throw "TypeError"
    | .image p => resolve A strict maximumOverloads [.iter kind, .iter kind, .image p]

end Stempy.PyCount
