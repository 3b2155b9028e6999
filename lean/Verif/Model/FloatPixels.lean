import Verif.Model.Electron

/-!
# Counting of a frame with the special values of `float`

`Model/Electron` leaves the infinities and NaN out: a zero statistic of a half row is undefined there. Here are the same loops for
`FrameType = float` (which is used if there is a gain reference) with all kinds of values. Rounding and overflow are not modelled, and
there is one zero: the only division is by the statistic of pixel values which come from `uint16_t`, where a zero is positive.
-/

namespace Stempy.FloatPixels

/-- A value of type `float` or `double`. -/
inductive Fl where
  | fin (q : Rat)
  | pinf
  | ninf
  | nan
  deriving Repr, DecidableEq

namespace Fl

/-- The infinity with the sign of `q`; NaN for zero. -/
def signInf (q : Rat) : Fl := if 0 < q then .pinf else if q < 0 then .ninf else .nan

def neg : Fl → Fl
  | .fin q => .fin (-q)
  | .pinf => .ninf
  | .ninf => .pinf
  | .nan => .nan

def add : Fl → Fl → Fl
  | .nan, _ => .nan
  | _, .nan => .nan
  | .fin a, .fin b => .fin (a + b)
  | .fin _, b => b
  | a, .fin _ => a
  | .pinf, .pinf => .pinf
  | .ninf, .ninf => .ninf
  | _, _ => .nan

def sub (a b : Fl) : Fl := add a (neg b)

def mul : Fl → Fl → Fl
  | .nan, _ => .nan
  | _, .nan => .nan
  | .fin a, .fin b => .fin (a * b)
  | .fin a, .pinf => signInf a
  | .fin a, .ninf => signInf (-a)
  | .pinf, .fin b => signInf b
  | .ninf, .fin b => signInf (-b)
  | .pinf, .pinf => .pinf
  | .pinf, .ninf => .ninf
  | .ninf, .pinf => .ninf
  | .ninf, .ninf => .pinf

/-- Quotient; a zero divisor is positive. -/
def div : Fl → Fl → Fl
  | .nan, _ => .nan
  | _, .nan => .nan
  | .fin a, .fin b => if b = 0 then signInf a else .fin (a / b)
  | .fin _, _ => .fin 0
  | .pinf, .fin b => if b < 0 then .ninf else .pinf
  | .ninf, .fin b => if b < 0 then .pinf else .ninf
  | _, _ => .nan

/-- `a > b`: false if one of them is NaN. -/
def gt : Fl → Fl → Bool
  | .nan, _ => false
  | _, .nan => false
  | .fin a, .fin b => decide (a > b)
  | .pinf, b => decide (b ≠ .pinf)
  | _, .pinf => false
  | .ninf, _ => false
  | _, .ninf => true

/-- `a >= b`: false if one of them is NaN. -/
def ge : Fl → Fl → Bool
  | .nan, _ => false
  | _, .nan => false
  | a, b => !gt b a

end Fl

/-- electron.cpp:297-299, 551-554: the threshold step. -/
def threshold (bg xr v : Fl) : Fl := if bg.ge v || v.ge xr then .fin 0 else v

/-- The arguments of the counting of a frame. -/
structure Options where
  bg : Fl
  xr : Fl
  dark : Option (List Fl)
  gain : List Fl
  rowDark : Option (List Fl → Outcome Fl)
  optMean : Fl

/-- electron.cpp:287, 546: subtract the dark reference, if there is one. -/
def subDark (dark : Option (List Fl)) (j : Nat) (v : Fl) : Outcome Fl :=
  match dark with
  | none => .ok v
  | some d => (readAt d j).bind fun r => .ok (v.sub r)

/-- electron.cpp:541-555, one pixel without row dark correction. -/
def plainPixel (o : Options) (j : Nat) (v : Fl) : Outcome Fl := do
  let v ← subDark o.dark j v
  let g ← readAt o.gain j
  pure (threshold o.bg o.xr (v.mul g))

/-- electron.cpp:285-300, one pixel with row dark correction. -/
def rowPixel (o : Options) (stat : Fl) (j : Nat) (v : Fl) : Outcome Fl := do
  let v ← subDark o.dark j v
  let g ← readAt o.gain j
  pure (threshold o.bg o.xr ((v.mul (o.optMean.div stat)).mul g))

/-- A loop over the pixels `[start, start + len)`. -/
def forRange (start len : Nat) (f : Nat → Fl → Outcome Fl) (frame : List Fl) : Outcome (List Fl) :=
  (List.range len).foldlM (fun fr k => do
    let v ← readAt fr (start + k)
    let v' ← f (start + k) v
    writeAt fr (start + k) v') frame

/-- electron.cpp:282-302: `apply`. -/
def rowRange (o : Options) (statFunc : List Fl → Outcome Fl) (start len : Nat) (frame : List Fl) : Outcome (List Fl) :=
  if start + len ≤ frame.length then do
    let stat ← statFunc ((frame.drop start).take len)
    forRange start len (rowPixel o stat) frame
  else .ub

/-- electron.cpp:304-311: the loop over the rows; height and width are swapped as in the code. -/
def rowDark (o : Options) (statFunc : List Fl → Outcome Fl) (dims : Nat × Nat) (frame : List Fl) : Outcome (List Fl) :=
  (List.range dims.1).foldlM (fun fr row => do
    let i := (row * dims.2) % 2 ^ 32
    let fr ← rowRange o statFunc i (dims.2 / 2) fr
    rowRange o statFunc (i + dims.2 / 2) (dims.2 - dims.2 / 2) fr) frame

/-- electron.cpp:254-257: `mean`. -/
def meanStat (l : List Fl) : Outcome Fl := .ok ((l.foldl Fl.add (.fin 0)).div (.fin l.length))

/-- The finite values of a list; `none` if there is another value. -/
def finite : List Fl → Option (List Rat)
  | [] => some []
  | .fin q :: l => (finite l).map (q :: ·)
  | _ :: _ => none

/-- electron.cpp:260-273: `median`; `nth_element` of values with a NaN is undefined. The pixels are finite there. -/
def medianStat (nth : List Rat → Nat → List Rat) (l : List Fl) : Outcome Fl :=
  match finite l with
  | none => .ub
  | some v => (Electron.medianStat nth v).bind fun s =>
    match s with
    | some q => .ok (.fin q)
    | none => .ok .nan

/-- electron.cpp:527-561: the counting of a frame with `FrameType = float`. -/
def count (o : Options) (dims : Nat × Nat) (frame : List Fl) : Outcome (List Nat) := do
  let fr ← match o.rowDark with
    | some stat => rowDark o stat dims frame
    | none => forRange 0 ((dims.1 * dims.2) % 2 ^ 32) (plainPixel o) frame
  Electron.maximalPoints Fl.gt fr dims

/-- The pixels of a frame as `float`s, electron.cpp:621-627. -/
def ofPixels (frame : List Nat) : List Fl := frame.map fun v : Nat => .fin v

end Stempy.FloatPixels
