import Verif.Basic
import Mathlib.Data.List.Infix

/-! Names of electron count files: python/stempy/contrib/__init__.py.

A directory is the list of its names (`pathlib.Path.glob` looks at files and directories alike, in any order), names are lists of
characters. Scan numbers, scan ids and thresholds are natural numbers; a negative number is not modelled. -/

namespace Stempy.ScanPath

/-- Characters of a name. -/
abbrev Name := List Char

/-- `FileSuffix`, 6-9. -/
inductive Suffix where
  | standard
  | offsets
  | centered
  deriving DecidableEq

/-- The values of `FileSuffix`, 6-9. -/
def Suffix.text : Suffix → Name
  | .standard => []
  | .offsets => ['_', 'o', 'f', 'f', 's', 'e', 't', 's']
  | .centered => ['_', 'c', 'e', 'n', 't', 'e', 'r', 'e', 'd']

/-- `suffix_to_filetype`, 12-16. -/
def Suffix.filetype : Suffix → Name
  | .standard => ['h', '5']
  | .offsets => ['e', 'm', 'd']
  | .centered => ['h', '5']

/-- `{file_suffix.value}.{filetype}`. -/
def Suffix.tail (s : Suffix) : Name := s.text ++ '.' :: s.filetype

/-- `str(n)`. -/
def str (n : Nat) : Name := Nat.toDigits 10 n

/-- `str(n).zfill(5)`. -/
def zfill5 (n : Nat) : Name := List.replicate (5 - (str n).length) '0' ++ str n

/-- A part of a glob pattern. -/
inductive Tok where
  | chr (c : Char)
  | any
  | star
  deriving DecidableEq

/-- The pattern for a text without special characters. -/
def lit (l : Name) : List Tok := l.map .chr

/-- `fnmatch` of a pattern with a name: `?` is one character, `*` any number of them. -/
def glob : List Tok → Name → Bool
  | [], s => s.isEmpty
  | .chr c :: p, s =>
    match s with
    | [] => false
    | d :: t => decide (c = d) && glob p t
  | .any :: p, s =>
    match s with
    | [] => false
    | _ :: t => glob p t
  | .star :: p, s => s.tails.any (glob p)

/-- `split("_")`. -/
def split : Name → List Name
  | [] => [[]]
  | c :: s =>
    if c = '_' then [] :: split s
    else match split s with
      | [] => [[c]]
      | h :: t => (c :: h) :: t

/-- `pathlib.PurePath.stem`: the name without the part from the last dot, if that is neither at its begin nor at its end. -/
def stem (s : Name) : Name :=
  let ext := s.reverse.takeWhile (· ≠ '.')
  let n := s.length - ext.length - 1
  if ext.length = s.length ∨ n = 0 ∨ ext = [] then s else s.take n

/-- Whether a text is part of a name (`in`). -/
def contains (t s : Name) : Bool := s.tails.any fun r => t.isPrefixOf r

/-- Digits, at least one, as a number. -/
def digits (s : Name) : Option Nat := if s ≠ [] ∧ s.all Char.isDigit then some (Nat.ofDigitChars 10 s 0) else none

/-- `int(s)` for a text without underscores: with white space around and a sign. Digits other than those of ASCII are not
modelled. -/
def toInt (s : Name) : Outcome Int :=
  let r := ((s.dropWhile Char.isWhitespace).reverse.dropWhile Char.isWhitespace).reverse
  let v := match r with
    | '-' :: t => (digits t).map fun n => -Int.ofNat n
    | '+' :: t => (digits t).map Int.ofNat
    | t => (digits t).map Int.ofNat
  match v with
  | some n => .ok n
  | none => .throw "ValueError"

/-- A path with scan number and scan id. -/
abbrev Found := Name × Option Int × Option Int

/-- `check_only_one_filepath`, 19-25, and taking the first. -/
def onlyOne : List Name → Outcome Name
  | [] => .throw "FileNotFoundError"
  | [p] => .ok p
  | _ :: _ :: _ => .throw "ValueError"

/-- Pattern of `get_scan_path_version_0`, 62-72; `none` if neither number nor id is given (59-60). -/
def pattern0 (num id th : Option Nat) (s : Suffix) : Option (List Tok) :=
  match id, num with
  | some i, _ => some (.star :: lit (['_', 'i', 'd'] ++ str i) ++ .star :: lit s.tail)
  | none, some n =>
    match th with
    | some t => some (lit (['d', 'a', 't', 'a', '_', 's', 'c', 'a', 'n'] ++ str n ++ ['_', 't', 'h'] ++ str t ++
        ['_', 'e', 'l', 'e', 'c', 't', 'r', 'o', 'n', 's'] ++ s.tail))
    | none => some (lit (['d', 'a', 't', 'a', '_', 's', 'c', 'a', 'n'] ++ str n) ++ .star ::
        lit (['e', 'l', 'e', 'c', 't', 'r', 'o', 'n', 's'] ++ s.tail))
  | none, none => none

/-- Loop over the parts of the name, 79-84. -/
def parts0 : List Name → Option Int → Option Int → Outcome (Option Int × Option Int)
  | [], num, id => .ok (num, id)
  | p :: l, num, id =>
    if contains ['i', 'd'] p then (toInt (p.drop 2)).bind fun i => parts0 l num (some i)
    else if contains ['s', 'c', 'a', 'n'] p then (toInt (p.drop 4)).bind fun n => parts0 l (some n) id
    else parts0 l num id

/-- `get_scan_path_version_0`, 28-86. -/
def version0 (dir : List Name) (num id th : Option Nat) (s : Suffix) : Outcome Found :=
  match pattern0 num id th s with
  | none => .throw "TypeError"
  | some pat => (onlyOne (dir.filter (glob pat))).bind fun path =>
    (parts0 (split path) (num.map Int.ofNat) (id.map Int.ofNat)).bind fun r => .ok (path, r.1, r.2)

/-- Pattern of `get_scan_path_version_1`, 119-134. -/
def pattern1 (num id : Option Nat) (s : Suffix) : Option (List Tok) :=
  match id, num with
  | some i, _ => some (lit ['F', 'O', 'U', 'R', 'D', '_'] ++ .star :: lit ('_' :: zfill5 i ++ ['_']) ++
      .any :: .any :: .any :: .any :: .any :: lit s.tail)
  | none, some n => some (lit ['F', 'O', 'U', 'R', 'D', '_'] ++ .star :: .chr '_' :: .star :: lit ('_' :: zfill5 n ++ s.tail))
  | none, none => none

/-- `spl[i]` for a list. -/
def item (l : List Name) (i : Nat) : Outcome Name :=
  match l[i]? with
  | some x => .ok x
  | none => .throw "IndexError"

/-- Scan id and number in the name, 139-141. -/
def parts1 (path : Name) : Outcome Found :=
  let spl := split (stem path)
  (item spl 3).bind fun a => (toInt a).bind fun id => (item spl 4).bind fun b => (toInt b).bind fun num =>
    .ok (path, some num, some id)

/-- `get_scan_path_version_1`, 89-143. -/
def version1 (dir : List Name) (num id : Option Nat) (s : Suffix) : Outcome Found :=
  match pattern1 num id s with
  | none => .throw "TypeError"
  | some pat => (onlyOne (dir.filter (glob pat))).bind parts1

/-- Whether the exception is `FileNotFoundError`. -/
def notFound {α : Type} : Outcome α → Bool
  | .throw m => decide (m = "FileNotFoundError")
  | _ => false

/-- The loop over the versions, 196-207. -/
def tryVersions {α : Type} : List (Outcome α) → Outcome α
  | [] => .throw "FileNotFoundError"
  | o :: rest => if notFound o then tryVersions rest else o

/-- One version, 183-201. -/
def runVersion (dir : List Name) (num id th : Option Nat) (s : Suffix) : Nat → Outcome Found
  | 0 => version0 dir num id th s
  | 1 => version1 dir num id s
  | _ => .throw "NotImplementedError"

/-- `get_scan_path`, 146-207. -/
def getScanPath (dir : List Name) (num id th : Option Nat) (s : Suffix) (version : Option Nat) : Outcome Found :=
  tryVersions ((match version with | none => [1, 0] | some v => [v]).map (runVersion dir num id th s))

end Stempy.ScanPath
