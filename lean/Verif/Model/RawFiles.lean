import Verif.Model.BlockPipeline
import Verif.Model.PyHistogram
import Verif.Model.Radial
import Verif.Model.Stack

/-!
# The functions on raw data of one `SectorReader`: python/stempy/image/__init__.py:15-124, 126-168, 181-195, 354-400

Each function reads the blocks between `begin()` and `end()` of the reader (reader.h:109-135, 212-213); nothing rewinds the reader but
`reset()` (python/io.cpp:96-110). The blocks are read at once here, in the code each is used when it is read. The arguments `scan_dimensions`
and `center` are tuples of integers.
-/

namespace Stempy.RawFiles
open Stempy.SectorReader Stempy.BlockPipeline
open Stempy.FloatPixels (Fl)
open Stempy.PyStem (Radii StemRun)

/-- A call. The width of the dark reference is zero if there is none. -/
inductive Call where
  | images (inner outer : Radii) (scan : Nat × Nat) (center : Int × Int)
  | histogram (rd : Rat → Fl) (numBins : Int) (inner outer : Radii) (scan : Nat × Nat) (center : Int × Int)
  | average
  | radial (scan : Nat × Nat) (center : Int × Int)
  | maximum (dark : Nat × List Rat)

/-- What a call returns or raises. -/
inductive Answer where
  | images (r : Outcome (List (List Nat)))
  | histogram (r : Outcome (List (List Fl × List Nat)))
  | average (r : Outcome (List Rat))
  | radial (r : Outcome (Nat × List Nat))
  | maximum (r : Outcome (List Rat))

def Answer.Returns : Answer → Prop
  | .images r => ∃ x, r = .ok x
  | .histogram r => ∃ x, r = .ok x
  | .average r => ∃ x, r = .ok x
  | .radial r => ∃ x, r = .ok x
  | .maximum r => ∃ x, r = .ok x

def Answer.Undefined : Answer → Prop
  | .images r => r = .ub
  | .histogram r => r = .ub
  | .average r => r = .ub
  | .radial r => r = .ub
  | .maximum r => r = .ub

/-- The answers of a call for the blocks which the iterators give. -/
def Answers (blocks : List Image.Block) : Call → Answer → Prop
  | .images inner outer scan center, a => ∃ r, StemRun (.reader blocks) inner outer scan center r ∧ a = .images r
  | .histogram rd n inner outer scan center, a =>
    ∃ r, PyHistogram.HistogramRun rd n (.blocks blocks) inner outer scan center r ∧ a = .histogram r
  | .average, a => a = .average (Image.calculateAverage blocks)
  | .radial scan center, a => ∃ r, Image.RadialRun blocks scan center r ∧ a = .radial r
  | .maximum dark, a => a = .maximum (Image.maximumDiffractionPattern blocks dark)

/-- A call with the reader in state `s`, and the state after it: all blocks are read if the call returns. If it raises, this is before or
after the loop over the blocks; `begin()` has then read the first one (reader.h:113-125), or all are read. -/
def Called (L : Layout (List Nat) (List Nat)) (c : Call) (s : State (List Nat) (List Nat)) (a : Answer) (t : State (List Nat) (List Nat)) :
    Prop :=
  match readToEnd L s with
  | .ok frames => Answers (frames.map toBlock) c a ∧
    ((∃ u, Reads L s frames u ∧ read L u = (.ok none, t)) ∨ (¬ a.Returns ∧ ∃ f, Reads L s [f] t))
  | .throw _ => ¬ a.Returns ∧ ¬ a.Undefined ∧ ∃ fs, Reads L s fs t
  | .ub => a.Undefined ∨ (¬ a.Returns ∧ ∃ f, Reads L s [f] t)

/-- What a program does with the reader. -/
inductive Op where
  | reset
  | call (c : Call) (a : Answer)

/-- The operations on the reader of `files`, one after the other; nothing can be said after undefined behaviour. -/
inductive Session (L : Layout (List Nat) (List Nat)) (files : List (Stream (List Nat))) :
    State (List Nat) (List Nat) → List Op → State (List Nat) (List Nat) → Prop where
  | nil (s) : Session L files s [] s
  | reset {s t ops} (h : Session L files (SectorReader.reset files s) ops t) : Session L files s (.reset :: ops) t
  | call {s t u c a ops} (h : Called L c s a t) (hd : ¬ a.Undefined) (h' : Session L files t ops u) : Session L files s (.call c a :: ops) u
  | undefined {s t c a} (h : Called L c s a t) (hd : a.Undefined) : Session L files s [.call c a] t

end Stempy.RawFiles
