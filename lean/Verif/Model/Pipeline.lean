import Verif.Basic

/-!
# python/stempy/pipeline/__init__.py:24-60: the decorators `pipeline` and `parameter`

Functions and the dictionaries `PARAMETERS` are objects, which are identified by their index in the heap: several functions
can have the same dictionary. `functools.wraps` copies the attributes of a function to the wrapper (the dictionary itself is
not copied). The parameters of a function are its names in order, without defaults of its own and without `*args`.
-/

namespace Stempy.Pipeline

variable {V : Type}

/-- The entry of a parameter in `PARAMETERS`. -/
structure Param (V : Type) where
  type : String
  label : Option String
  description : Option String
  default : V
  deriving DecidableEq

/-- The attributes set by `pipeline`. -/
structure Info where
  name : Option String
  description : Option String
  input : String
  output : String
  aggregation : String
  deriving DecidableEq

/-- What a function does: a function written with `def` and the names of its parameters, or the `_wrapper` of `parameter`. -/
inductive Code (V : Type) where
  | base (sig : List String)
  | wrap (name : String) (default : V) (inner : Code V)

/-- An ordered dictionary. -/
abbrev Dict (V : Type) := List (String × Param V)

/-- `d[name] = p`: in place if the name exists, else at the end. -/
def Dict.set (d : Dict V) (name : String) (p : Param V) : Dict V :=
  if d.any (·.1 = name) then d.map fun e => if e.1 = name then (name, p) else e else d ++ [(name, p)]

/-- A function object. -/
structure Func (V : Type) where
  code : Code V
  params : Option Nat
  info : Option Info

/-- All functions and dictionaries. -/
structure Heap (V : Type) where
  funcs : List (Func V)
  dicts : List (Dict V)

/-- pipeline/__init__.py:24-26 `_ensure_parameters` -/
def ensure (f : Func V) (dicts : List (Dict V)) : Func V × List (Dict V) :=
  match f.params with
  | some _ => (f, dicts)
  | none => ({ f with params := some dicts.length }, dicts ++ [[]])

/-- pipeline/__init__.py:28-41: the function itself is returned. -/
def pipeline (info : Info) (i : Nat) (h : Heap V) : Outcome (Nat × Heap V) := do
  let f ← readAt h.funcs i
  let fd := ensure { f with info := some info } h.dicts
  .ok (i, ⟨h.funcs.set i fd.1, fd.2⟩)

/-- pipeline/__init__.py:43-60: a new function is returned. -/
def parameter (name : String) (p : Param V) (i : Nat) (h : Heap V) : Outcome (Nat × Heap V) := do
  let f ← readAt h.funcs i
  let fd := ensure f h.dicts
  let k := fd.1.params.getD 0
  let d ← readAt fd.2 k
  .ok (h.funcs.length,
    ⟨h.funcs.set i fd.1 ++ [{ fd.1 with code := .wrap name p.default fd.1.code }], fd.2.set k (Dict.set d name p)⟩)

/-- A decorator. -/
inductive Decorator (V : Type) where
  | pipeline (info : Info)
  | parameter (name : String) (p : Param V)

/-- A decorator applied to a function. -/
def apply (h : Nat × Heap V) : Decorator V → Outcome (Nat × Heap V)
  | .pipeline info => pipeline info h.1 h.2
  | .parameter name p => parameter name p h.1 h.2

/-- `def` of a function with decorators, the one next to the `def` (which is applied first) is the first. -/
def define (sig : List String) (ds : List (Decorator V)) (h : Heap V) : Outcome (Nat × Heap V) :=
  ds.foldlM apply (h.funcs.length, ⟨h.funcs ++ [⟨.base sig, none, none⟩], h.dicts⟩)

/-- A module: definitions of functions one after the other, with the functions that are defined. -/
def defineAll : List (List String × List (Decorator V)) → Heap V → Outcome (List Nat × Heap V)
  | [], h => .ok ([], h)
  | x :: l, h => do
    let r ← define x.1 x.2 h
    let s ← defineAll l r.2
    .ok (r.1 :: s.1, s.2)

/-- `kwargs.get(name)` -/
def getArg (kwargs : List (String × V)) (name : String) : Option V := (kwargs.find? (·.1 = name)).map (·.2)

/-- The values of the parameters of a function called with positional and keyword arguments: a name that is not known or has
two values, and a missing value, are a TypeError. -/
def bindArgs (sig : List String) (args : List V) (kwargs : List (String × V)) : Outcome (List (String × V)) :=
  if args.length > sig.length then .throw "TypeError"
  else if kwargs.any (fun a => !(sig.drop args.length).contains a.1) then .throw "TypeError"
  else
    (sig.drop args.length).foldlM (fun acc n =>
      match getArg kwargs n with
      | some v => .ok (acc ++ [(n, v)])
      | none => .throw "TypeError") ((sig.take args.length).zip args)

/-- The call of a function: what the function written with `def` gets (pipeline/__init__.py:54-57). -/
def call : Code V → List V → List (String × V) → Outcome (List (String × V))
  | .base sig, args, kwargs => bindArgs sig args kwargs
  | .wrap name default inner, args, kwargs =>
    call inner args (if kwargs.any (·.1 = name) then kwargs else kwargs ++ [(name, default)])

/-- `f.PARAMETERS` of function `i`. -/
def parameters (h : Heap V) (i : Nat) : Option (Dict V) :=
  (h.funcs[i]?).bind fun f => f.params.bind fun k => h.dicts[k]?

end Stempy.Pipeline
