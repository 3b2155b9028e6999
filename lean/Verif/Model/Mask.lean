import Verif.Basic

/-!
Model of `stempy/mask.cpp`.
-/

namespace Stempy.Mask

/-- `static_cast<int>(round(d / 2.0))` for an unsigned `d` (mask.cpp:16,19; image.cpp:505,508).
`round` rounds half away from zero; `d/2.0` is exact in a double. The cast overflows (undefined
behaviour) only for `d = 2^32-1`. -/
def roundHalf (d : Nat) : Outcome Int := int32 (((d + 1) / 2 : Nat) : Int)

/-- Center defaulting, mask.cpp:15-19: a negative coordinate means "not given". -/
def defaultCenter (d : Nat) (c : Int) : Outcome Int :=
  if c < 0 then roundHalf d else .ok c

/-- `static_cast<int>(pow(r, 2.0))`, mask.cpp:21-22. `pow` is exact for a 32 bit argument (up to the
rounding of results above `2^53`, which are out of `int` range anyway). -/
def sqInt (r : Int) : Outcome Int := int32 (r * r)

/-- Mask value of element `i`, mask.cpp:24-31. The squared distance is a double in the code; it is an
exact integer here (rounding only concerns values above `2^53`, which stay above every `int`). -/
def maskValue (w : Nat) (inner2 outer2 cx cy : Int) (i : Nat) : Outcome Nat := do
  let x := toInt32 (i % w)
  let y := toInt32 (i / w)
  let dx ← int32 (x - cx)
  let dy ← int32 (y - cy)
  let d := dx * dx + dy * dy
  pure (if d ≥ inner2 ∧ d < outer2 then 0xFFFF else 0)

/-- `createAnnularMask`, mask.cpp:9-34. `Dimensions2D` is a pair of `uint32_t`: the number of
elements is computed modulo `2^32`. -/
def createAnnularMask (w h : Nat) (inner outer : Int) (cx cy : Int) : Outcome (List Nat) := do
  let n := (w * h) % 2 ^ 32
  let cx ← defaultCenter w cx
  let cy ← defaultCenter h cy
  let inner2 ← sqInt inner
  let outer2 ← sqInt outer
  (List.range n).mapM (maskValue w inner2 outer2 cx cy)

end Stempy.Mask
