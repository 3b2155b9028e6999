import Verif.Model.Float32

/-!
# Counting of a frame in single precision

The loops of `Model/Electron` and `Model/FloatPixels` with every `float` operation rounded: `rd` is the rounding mode. Pixels of both frame
types are of type `Fl`; those of type `uint16_t` are natural numbers. References and the optimized mean are values of type `float`, the
thresholds of type `double`, with which a `float` is compared exactly. A product followed by another operation is rounded in between
(`FLT_EVAL_METHOD` 0; there is no sum of a product here which could be contracted).
-/

namespace Stempy.RoundedCounting
open Stempy.FloatPixels (Fl threshold forRange)
open Stempy.Electron (FT)

/-- The result of a `float` operation. -/
def rnd (rd : Rat → Fl) : Fl → Fl
  | .fin q => rd q
  | v => v

/-- Conversion of a `float` to `uint16_t`: truncation, undefined when the result is not representable. -/
def toU16 : Fl → Outcome Fl
  | .fin q => if q ≤ -1 ∨ 65536 ≤ q then .ub else if q < 0 then .ok (.fin 0) else .ok (.fin (⌊q⌋ : Int))
  | _ => .ub

/-- Difference of two `uint16_t` stored in a `uint16_t`: modulo 2^16. -/
def subU16 : Fl → Fl → Fl
  | .fin a, .fin b => .fin ((⌊a - b⌋ % 65536 : Int) : Rat)
  | _, _ => .nan

/-- Store of a `float` into a frame element. -/
def store (ft : FT) (v : Fl) : Outcome Fl :=
  match ft with
  | .u16 => toU16 v
  | .f32 => .ok v

/-- Read through a possibly null pointer to an array. -/
def readPtr (p : Option (List Fl)) (j : Nat) : Outcome Fl :=
  match p with
  | none => .ub
  | some l => readAt l j

structure Options where
  ft : FT
  bg : Rat
  xr : Rat
  dark : Option (List Fl)
  gain : Option (List Fl)
  rowDark : Option (List Fl → Outcome Fl)
  optMean : Fl

/-- electron.cpp:475-490, one pixel of the block-wise counting. -/
def classicPixel (rd : Rat → Fl) (o : Options) (j : Nat) (v : Fl) : Outcome Fl := do
  let d ← readPtr o.dark j
  let v ← match o.ft with
    | .u16 => toU16 (rnd rd (v.sub d))
    | .f32 => do
      let g ← readPtr o.gain j
      pure (rnd rd ((rnd rd (v.sub d)).mul g))
  pure (threshold (.fin o.bg) (.fin o.xr) v)

/-- electron.cpp:541-555, one pixel of the streaming counting. -/
def streamPixel (rd : Rat → Fl) (o : Options) (j : Nat) (v : Fl) : Outcome Fl := do
  let v ← match o.dark with
    | none => pure v
    | some dark => do
      let d ← readAt dark j
      match o.ft with
      | .u16 => do
        let d ← toU16 d
        pure (subU16 v d)
      | .f32 => pure (rnd rd (v.sub d))
  let v ← match o.ft with
    | .u16 => pure v
    | .f32 => do
      let g ← readPtr o.gain j
      pure (rnd rd (v.mul g))
  pure (threshold (.fin o.bg) (.fin o.xr) v)

/-- electron.cpp:285-300, one pixel with row dark correction. -/
def rowPixel (rd : Rat → Fl) (o : Options) (stat : Fl) (j : Nat) (v : Fl) : Outcome Fl := do
  let v ← match o.dark with
    | none => pure v
    | some dark => do
      let d ← readAt dark j
      store o.ft (rnd rd (v.sub d))
  let v ← store o.ft (rnd rd (v.mul (rnd rd (o.optMean.div stat))))
  let v ← match o.ft with
    | .u16 => pure v
    | .f32 => do
      let g ← readPtr o.gain j
      pure (rnd rd (v.mul g))
  pure (threshold (.fin o.bg) (.fin o.xr) v)

/-- electron.cpp:282-302: `apply`. -/
def rowRange (rd : Rat → Fl) (o : Options) (statFunc : List Fl → Outcome Fl) (start len : Nat) (frame : List Fl) :
    Outcome (List Fl) :=
  if start + len ≤ frame.length then do
    let stat ← statFunc ((frame.drop start).take len)
    forRange start len (rowPixel rd o stat) frame
  else .ub

/-- electron.cpp:304-311: the loop over the rows; height and width are swapped as in the code. -/
def rowDark (rd : Rat → Fl) (o : Options) (statFunc : List Fl → Outcome Fl) (dims : Nat × Nat) (frame : List Fl) :
    Outcome (List Fl) :=
  (List.range dims.1).foldlM (fun fr row => do
    let i := (row * dims.2) % 2 ^ 32
    let fr ← rowRange rd o statFunc i (dims.2 / 2) fr
    rowRange rd o statFunc (i + dims.2 / 2) (dims.2 - dims.2 / 2) fr) frame

/-- electron.cpp:254-257: `mean`. The sum starts with `0.0f`, so it is a `float`, as is the number of pixels. -/
def meanStat (rd : Rat → Fl) (l : List Fl) : Outcome Fl :=
  .ok (rnd rd ((l.foldl (fun s v => rnd rd (s.add v)) (.fin 0)).div (rd l.length)))

/-- electron.cpp:260-273: `median`. The sum of the middle two is a `float`, or an `int` which is converted to `float`. The pixels are finite. -/
def medianStat (rd : Rat → Fl) (nth : List Rat → Nat → List Rat) (l : List Fl) : Outcome Fl :=
  match FloatPixels.finite l with
  | none => .ub
  | some v => do
    let n := v.length / 2
    let u := nth v n
    let vn ← readAt u n
    if v.length % 2 = 1 then pure (rd vn)
    else
      match u.take n with
      | [] => .ub
      | a :: t => pure (rnd rd ((rd (t.foldl max a + vn)).div (.fin 2)))

/-- electron.cpp:527-561: the counting of a frame of the streaming path. -/
def countStream (rd : Rat → Fl) (o : Options) (dims : Nat × Nat) (frame : List Fl) : Outcome (List Nat) := do
  let fr ← match o.rowDark with
    | some stat => rowDark rd o stat dims frame
    | none => forRange 0 ((dims.1 * dims.2) % 2 ^ 32) (streamPixel rd o) frame
  Electron.maximalPoints Fl.gt fr dims

/-- electron.cpp:462-495: the counting of a frame of the block-wise path. -/
def countClassic (rd : Rat → Fl) (o : Options) (dims : Nat × Nat) (frame : List Fl) : Outcome (List Nat) := do
  let fr ← match o.rowDark with
    | some stat => rowDark rd o stat dims frame
    | none => forRange 0 ((dims.1 * dims.2) % 2 ^ 32) (classicPixel rd o) frame
  Electron.maximalPoints Fl.gt fr dims

end Stempy.RoundedCounting
