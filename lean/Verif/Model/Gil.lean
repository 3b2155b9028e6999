import Verif.Basic

/-!
Model of the Python references held by C++: `DataHolder` and `PyBlock` (python/pyreader.h:15-72, pyreader.cpp:6-59) and
the array arguments of the bound functions (python/image.cpp:137-180, 488-571).

Any number of threads. A `DataHolder` has a `std::shared_ptr<py::array_t>`; the shared counts are atomic, and the last
owner deletes the `py::array_t`, that is one `Py_DECREF`. Reference counts of Python are plain integers: a change is a load
followed by a store. Holders are numbered in the order of their construction, arrays in the order of their creation.
`gil_scoped_acquire` waits for the lock unless the thread has it already.
-/

namespace Stempy.Gil

abbrev Tid := Nat

/-- What a store to a reference count stands for: Python takes a reference, drops one, or C++ drops its one. -/
inductive Change where
  | incPy
  | decPy
  | decCpp
  deriving Repr, DecidableEq

/-- Atomic operations. -/
inductive Op where
  | acquire
  | release
  /-- `new py::array_t` of the array returned by `__getitem__`, in a new holder. -/
  | create
  /-- A new holder with the same pointer, or with the pointer of a holder which becomes empty. -/
  | copyNew (src : Nat)
  | moveNew (src : Nat)
  /-- Assignment of `shared_ptr`, `reset` of a `shared_ptr`. -/
  | assign (dst src : Nat)
  | moveAssign (dst src : Nat)
  | reset (dst : Nat)
  /-- The interpreter copies or drops a reference it has. -/
  | pyCopy (a : Nat)
  | pyDrop (a : Nat)
  /-- The two halves of a change of a reference count. -/
  | load (a : Nat)
  | store (a : Nat) (c : Change)
  deriving Repr, DecidableEq

/-- The state. The arrays are those below `next`. -/
structure State where
  /-- Owner of the lock. -/
  gil : Option Tid := none
  /-- Nested acquisitions of each thread. -/
  depth : Tid → Nat := fun _ => 0
  holders : List (Option Nat) := []
  next : Nat := 0
  /-- Shared count, reference count, and (ghost) the references C++ and Python have, for each array. -/
  strong : Nat → Nat := fun _ => 0
  refs : Nat → Int := fun _ => 0
  cpp : Nat → Nat := fun _ => 0
  py : Nat → Nat := fun _ => 0
  /-- Value loaded by each thread. -/
  reg : Tid → Int := fun _ => 0
  /-- Operations each thread is in the middle of. -/
  todo : Tid → List Op := fun _ => []

def update {β : Type} (f : Nat → β) (t : Nat) (b : β) : Nat → β := fun u => if u = t then b else f u

/-- What a holder refers to. -/
def State.holds (s : State) (h : Nat) : Option Nat := s.holders.getD h none

/-- The shared counts with one owner more, or one less, of what a holder refers to. -/
def inc (strong : Nat → Nat) : Option Nat → Nat → Nat
  | none => strong
  | some a => update strong a (strong a + 1)

def dec (strong : Nat → Nat) : Option Nat → Nat → Nat
  | none => strong
  | some a => update strong a (strong a - 1)

/-- What is left to do when an owner has gone and the counts are `strong`: delete the `py::array_t` if it was the last. -/
def gone (strong : Nat → Nat) : Option Nat → List Op
  | none => []
  | some a => if strong a = 0 then [.load a, .store a .decCpp] else []

/-- One operation of thread `t`; `none` if it has to wait. The second component is put in front of what is left to do.
Assignments to holders which do not exist do not occur, and do nothing here;
a `shared_ptr` moved to itself is unchanged. -/
def exec (t : Tid) (s : State) : Op → Option (State × List Op)
  | .acquire =>
    if s.gil = none ∨ s.gil = some t then
      some ({ s with gil := some t, depth := update s.depth t (s.depth t + 1) }, [])
    else none
  | .release =>
    some ({ s with gil := if s.depth t = 1 then none else s.gil, depth := update s.depth t (s.depth t - 1) }, [])
  | .create =>
    some ({ s with holders := s.holders ++ [some s.next], next := s.next + 1, strong := update s.strong s.next 1,
                   refs := update s.refs s.next 1, cpp := update s.cpp s.next 1 }, [])
  | .copyNew h =>
    some ({ s with holders := s.holders ++ [s.holds h], strong := inc s.strong (s.holds h) }, [])
  | .moveNew h => some ({ s with holders := s.holders.set h none ++ [s.holds h] }, [])
  | .assign d h =>
    if d < s.holders.length then
      let strong := dec (inc s.strong (s.holds h)) (s.holds d)
      some ({ s with holders := s.holders.set d (s.holds h), strong }, gone strong (s.holds d))
    else some (s, [])
  | .moveAssign d h =>
    if d < s.holders.length ∧ d ≠ h then
      let strong := dec s.strong (s.holds d)
      some ({ s with holders := (s.holders.set h none).set d (s.holds h), strong }, gone strong (s.holds d))
    else some (s, [])
  | .reset d =>
    let strong := dec s.strong (s.holds d)
    some ({ s with holders := s.holders.set d none, strong }, gone strong (s.holds d))
  | .pyCopy a => some (s, if 0 < s.cpp a + s.py a then [.load a, .store a .incPy] else [])
  | .pyDrop a => some (s, if 0 < s.py a then [.load a, .store a .decPy] else [])
  | .load a => some ({ s with reg := update s.reg t (s.refs a) }, [])
  | .store a .incPy =>
    some ({ s with refs := update s.refs a (s.reg t + 1), py := update s.py a (s.py a + 1) }, [])
  | .store a .decPy =>
    some ({ s with refs := update s.refs a (s.reg t - 1), py := update s.py a (s.py a - 1) }, [])
  | .store a .decCpp =>
    some ({ s with refs := update s.refs a (s.reg t - 1), cpp := update s.cpp a (s.cpp a - 1) }, [])

/-- The member functions of `DataHolder` and the uses of Python references in `PyReader` and by the interpreter. -/
inductive Call where
  /-- pyreader.h:18, 19: defaulted copy and move constructor. -/
  | copyCtor (src : Nat)
  | moveCtor (src : Nat)
  /-- pyreader.h:21-31, 33-43. -/
  | copyAssign (dst src : Nat)
  | moveAssign (dst src : Nat)
  /-- pyreader.h:45-50, 61-65: `reset` and the destructor, which calls it. -/
  | reset (dst : Nat)
  /-- pyreader.cpp:22-59: `read` acquires the lock, gets the array and constructs the block; at the end of the data
  the block is empty, which changes nothing. -/
  | read
  /-- Python code copying or dropping a reference, with the lock held. -/
  | pyCopy (a : Nat)
  | pyDrop (a : Nat)
  deriving Repr, DecidableEq

def Call.ops : Call → List Op
  | .copyCtor h => [.copyNew h]
  | .moveCtor h => [.moveNew h]
  | .copyAssign d h => if d = h then [] else [.acquire, .assign d h, .release]
  | .moveAssign d h => if d = h then [] else [.acquire, .moveAssign d h, .release]
  | .reset d => [.acquire, .reset d, .release]
  | .read => [.acquire, .create, .release]
  | .pyCopy a => [.acquire, .pyCopy a, .release]
  | .pyDrop a => [.acquire, .pyDrop a, .release]

/-- A call of `calculate_thresholds` with array arguments `as` (image.cpp:137-180, 494-571): the arguments are loaded with
the lock held, each taking a reference; `call_guard<gil_scoped_release>` releases it; the parameters of type
`py::array_t<float>` are moved from these references and destroyed when the function returns, which is before the guard
takes the lock again. -/
def thresholdsCall (as : List Nat) : List Op :=
  .acquire :: as.map .pyCopy ++ .release :: as.map .pyDrop

inductive Label where
  | begin (t : Tid)
  | run (t : Tid)
  deriving Repr, DecidableEq

/-- Any thread may start any of the calls in `calls` when it has finished the last one. -/
inductive Step (calls : List Op → Prop) : State → Label → State → Prop where
  | begin {s : State} {t : Tid} {ops : List Op} : s.todo t = [] → calls ops →
      Step calls s (.begin t) { s with todo := update s.todo t ops }
  | run {s s' : State} {t : Tid} {op : Op} {rest more : List Op} : s.todo t = op :: rest →
      exec t s op = some (s', more) →
      Step calls s (.run t) { s' with todo := update s.todo t (more ++ rest) }

/-- The calls of `DataHolder`, `PyReader` and the interpreter. -/
def memberCalls (ops : List Op) : Prop := ∃ c : Call, ops = c.ops

/-- ... and those of `calculate_thresholds` too. -/
def allCalls (ops : List Op) : Prop := memberCalls ops ∨ ∃ as, ops = thresholdsCall as

end Stempy.Gil
