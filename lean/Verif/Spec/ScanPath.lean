import Verif.Model.ScanPath

/-! What a request for an electron count file means, without patterns. -/

namespace Stempy.ScanPath

/-- The names requested in the naming version 1: by scan id, else by scan number. -/
def Requested1 (num id : Option Nat) (s : Suffix) (name : Name) : Prop :=
  match id, num with
  | some i, _ => ∃ u w : Name, w.length = 5 ∧
      name = ['F', 'O', 'U', 'R', 'D', '_'] ++ u ++ '_' :: zfill5 i ++ '_' :: w ++ s.tail
  | none, some n => ∃ u w : Name, name = ['F', 'O', 'U', 'R', 'D', '_'] ++ u ++ '_' :: w ++ '_' :: zfill5 n ++ s.tail
  | none, none => False

/-- The names requested in the naming version 0: by scan id, else by scan number (and threshold). -/
def Requested0 (num id th : Option Nat) (s : Suffix) (name : Name) : Prop :=
  match id, num with
  | some i, _ => ∃ u w : Name, name = u ++ ['_', 'i', 'd'] ++ str i ++ w ++ s.tail
  | none, some n =>
    match th with
    | some t => name = ['d', 'a', 't', 'a', '_', 's', 'c', 'a', 'n'] ++ str n ++ ['_', 't', 'h'] ++ str t ++
        ['_', 'e', 'l', 'e', 'c', 't', 'r', 'o', 'n', 's'] ++ s.tail
    | none => ∃ u : Name, name = ['d', 'a', 't', 'a', '_', 's', 'c', 'a', 'n'] ++ str n ++ u ++
        ['e', 'l', 'e', 'c', 't', 'r', 'o', 'n', 's'] ++ s.tail
  | none, none => False

/-- The names requested in a naming version. -/
def Requested (version : Nat) (num id th : Option Nat) (s : Suffix) (name : Name) : Prop :=
  (version = 1 ∧ Requested1 num id s name) ∨ (version = 0 ∧ Requested0 num id th s name)

/-- `FOURD_{date}_{time}_{id}_{num}{suffix}.{type}`: a name of version 1. -/
def name1 (date time : Name) (id num : Nat) (s : Suffix) : Name :=
  ['F', 'O', 'U', 'R', 'D', '_'] ++ date ++ '_' :: time ++ '_' :: zfill5 id ++ '_' :: zfill5 num ++ s.tail

/-- `data_scan{num}_id{id}_electrons{suffix}.{type}`: a name of version 0. -/
def name0 (id num : Nat) (s : Suffix) : Name :=
  ['d', 'a', 't', 'a', '_', 's', 'c', 'a', 'n'] ++ str num ++ ['_', 'i', 'd'] ++ str id ++
    ['_', 'e', 'l', 'e', 'c', 't', 'r', 'o', 'n', 's'] ++ s.tail

end Stempy.ScanPath
