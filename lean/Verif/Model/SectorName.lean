import Verif.Basic
import Mathlib.Data.List.Infix

/-!
# The sector of a file, stempy/reader.cpp:280-289

File names are lists of characters without line breaks.
-/

namespace Stempy.SectorName

/-- A text occurs in a name. -/
def contains (t : List Char) (s : List Char) : Bool := s.tails.any fun r => t.isPrefixOf r

/-- The part `module(\d+).*\.data` of the regular expression at the begin of `s`: the digits. `\d+` takes as many digits as
possible; fewer cannot help, since no digit is part of `.data`. -/
def matchAt (s : List Char) : Option (List Char) :=
  if ['m', 'o', 'd', 'u', 'l', 'e'].isPrefixOf s then
    let r := s.drop 6
    let d := r.takeWhile Char.isDigit
    if d ≠ [] ∧ contains ['.', 'd', 'a', 't', 'a'] (r.dropWhile Char.isDigit) then some d else none
  else none

/-- The leading `.*` of the expression takes as much as possible, so the last place is used. -/
def lastMatch : List Char → Option (List Char)
  | [] => none
  | c :: s =>
    match lastMatch s with
    | some d => some d
    | none => matchAt (c :: s)

/-- `extractSector`, reader.cpp:280-289. `std::stoi` throws for numbers that are no `int`. -/
def extractSector (s : List Char) : Outcome Int :=
  match lastMatch s with
  | none => .ok (-1)
  | some d => if Nat.ofDigitChars 10 d 0 < 2 ^ 31 then .ok (Nat.ofDigitChars 10 d 0 : Nat) else .throw "stoi"

end Stempy.SectorName
