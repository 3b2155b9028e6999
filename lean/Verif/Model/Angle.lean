import Verif.Model.LeastSquares
import Verif.Model.IeeeRound

/-!
# thirdparty/least-squares-cpp/include/lsq/math.h

`rd` is the rounding of the operations of `double`; `Fl.fin` for exact arithmetic.
-/

namespace Stempy.Angle
open Stempy.FloatPixels (Fl)
open Stempy.IeeeRound (rnd)
open Stempy.LeastSquares (While)

/-- math.h:18-21 `equals` -/
def equals (rd : Rat → Fl) (a b eps : Fl) : Bool :=
  eps.ge (match rnd rd (a.sub b) with
    | .fin q => .fin |q|
    | .ninf => .pinf
    | v => v)

/-- math.h:23-26 `iszero` -/
def iszero (rd : Rat → Fl) (a eps : Fl) : Bool := equals rd a (.fin 0) eps

/-- `2 * pi()`, where `pi` is the result of `pi()` (math.h:13-16) -/
def turn (rd : Rat → Fl) (pi : Fl) : Fl := rnd rd ((Fl.fin 2).mul pi)

/-- math.h:28-35 `normalizeAngle`: it returns `r`. -/
def NormalizeAngle (rd : Rat → Fl) (pi angle r : Fl) : Prop :=
  ∃ a, While (fun a : Fl => pi.neg.ge a = true) (fun a b => b = rnd rd (a.add (turn rd pi))) angle a ∧
    While (fun a : Fl => a.gt pi = true) (fun a b => b = rnd rd (a.sub (turn rd pi))) a r

end Stempy.Angle
