import Verif.Basic

/-!
# python/stempy/io/__init__.py:177-210 `reader`, and the constructors of the readers

Which reader is made for the arguments. Of the files only matters whether they can be opened, and of the first block only whether there
is one. `version` is an integer of Python; `hardware` is the result of `std::thread::hardware_concurrency()`, below 2^31.
-/

namespace Stempy.ReaderFactory

/-- An open h5py file, or the names of files (`str` is one name): whether each can be opened. -/
inductive Path where
  | hdf5
  | files (opens : List Bool)
  deriving Repr, DecidableEq

/-- `**options`: `threads`, and whether there is any other name. -/
structure Options where
  threads : Option Int := none
  other : Bool := false
  deriving Repr, DecidableEq

/-- The readers, with their members `m_version` and `m_threads`. -/
inductive Made where
  | py
  | stream (version : Int)
  | sector (version : Int)
  | threaded (version threads : Int)
  | multiPass (version threads : Int)
  deriving Repr, DecidableEq

/-- pybind11: an argument of type `uint8_t` or `int` -/
def uint8 (v : Int) : Outcome Int := if 0 ≤ v ∧ v < 256 then .ok v else .throw "TypeError"

def int32 (v : Int) : Outcome Int := if -2 ^ 31 ≤ v ∧ v < 2 ^ 31 then .ok v else .throw "TypeError"

/-- reader.cpp:784-796 -/
def initNumberOfThreads (hardware : Nat) (threads : Int) : Int :=
  if threads < 1 then if hardware = 0 then 10 else hardware else threads

/-- reader.cpp:54-88: the first file is opened; `std::invalid_argument` is a `ValueError`. -/
def streamReader (opens : List Bool) (version : Int) : Outcome Made :=
  match opens with
  | [] => .throw "ValueError"
  | first :: _ => if first then .ok (.stream version) else .throw "ValueError"

/-- reader.cpp:290-315: the version is tested and all files are opened (531-555). -/
def sectorReader (opens : List Bool) (version : Int) (made : Made) : Outcome Made :=
  if version ≠ 4 ∧ version ≠ 5 then .throw "ValueError"
  else if opens.isEmpty then .throw "ValueError"
  else if opens.all id then .ok made else .throw "ValueError"

/-- The keyword arguments of io.cpp:117-125; `threads` is 0 if it is not given. -/
def threadsOf (o : Options) : Outcome Int :=
  if o.other then .throw "TypeError" else int32 (o.threads.getD 0)

/-- io/__init__.py:177-210 -/
def reader (hardware : Nat) (path : Path) (version : Int) (backend : Option String) (options : Options) : Outcome Made :=
  match path with
  | .hdf5 => .ok .py
  | .files opens =>
    if version = 4 ∨ version = 5 then
      if backend = some "thread" then do
        let threads ← threadsOf options
        sectorReader opens version (.threaded version (initNumberOfThreads hardware threads))
      else if backend = some "multi-pass" then
        if version ≠ 5 then .throw "Exception"
        else do
          let threads ← threadsOf options
          sectorReader opens 5 (.multiPass 5 (initNumberOfThreads hardware threads))
      else if backend = none then sectorReader opens version (.sector version)
      else .throw "ValueError"
    else do
      let v ← uint8 version
      streamReader opens v

/-- The first `next(reader)`, io/__init__.py:25-49, for files with a whole first block: `true` if it is returned. The threaded readers are
registered without `read` (io.cpp:116-135). reader.cpp:230-246: the version is tested when a block is read. -/
def next : Made → Outcome Bool
  | .py => .ok true
  | .stream version => if version = 1 ∨ version = 2 ∨ version = 3 then .ok true else .throw "ValueError"
  | .sector _ => .ok true
  | .threaded _ _ => .throw "AttributeError"
  | .multiPass _ _ => .throw "AttributeError"

end Stempy.ReaderFactory
