import Verif.Model.FilePipeline
import Verif.Model.RawFiles

/-!
# The functions on raw data of one reader of stream files or of an HDF5 file

python/stempy/image/__init__.py:15-124, 126-168, 181-195, 267-328, 354-400 and python/stempy/io/__init__.py:24-62, for the readers of
`Model/FilePipeline`. As in `Model/RawFiles`, the blocks are read at once here, in the code each is used when it is read.
-/

namespace Stempy.FileSession
open Stempy.FilePipeline (Reader sample Counts)
open Stempy.BlockPipeline (Setup)
open Stempy.RawFiles (Call Answer Answers)

variable {S : Type}

/-- reader.h:109-135, pyreader.h:49-104: blocks read by the iterator, one after the other. -/
inductive Reads (R : Reader S) : S → List Image.Block → S → Prop where
  | nil (s : S) : Reads R s [] s
  | cons {s t u : S} {b : Image.Block} {bs : List Image.Block} : R.read s = (.ok (some b), t) → Reads R t bs u → Reads R s (b :: bs) u

/-- The state after the read that finds no more blocks. -/
def ToEnd (R : Reader S) (s : S) (blocks : List Image.Block) (t : S) : Prop := ∃ u, Reads R s blocks u ∧ R.read u = (.ok none, t)

/-- Reading fails after some blocks: the state then, or that of any time before. -/
def Fails (R : Reader S) (s t : S) : Prop := ∃ blocks u e v, Reads R s blocks u ∧ R.read u = (e, v) ∧ (∀ b, e ≠ .ok b) ∧
  (t = v ∨ ∃ blocks', Reads R s blocks' t)

/-- A call of one of the functions of `Model/RawFiles` with the reader in state `s`, and the state after it. All blocks are read if the call
returns. If it raises, this is before or after the loop over the blocks; `begin()` has then read the first one (reader.h:113-125), or all are
read. If the reading fails, the call does not return. -/
inductive Called (R : Reader S) (c : Call) (s : S) : Answer → S → Prop where
  | all {blocks : List Image.Block} {a : Answer} {t : S} : ToEnd R s blocks t → Answers blocks c a → Called R c s a t
  | raised {blocks : List Image.Block} {a : Answer} {b : Image.Block} {t v : S} : ToEnd R s blocks v → Answers blocks c a → ¬ a.Returns →
      R.read s = (.ok (some b), t) → Called R c s a t
  | failed {a : Answer} {t : S} : Fails R s t → ¬ a.Returns → Called R c s a t

/-- image/__init__.py:267-328: the result of `electron_count` and the state after it: all blocks are read, or the call raised before. -/
def Counted (R : Reader S) (o : Setup) (s : S) (r : Outcome ((Nat × Nat) × List (List (List Nat)))) (t : S) : Prop :=
  Counts R o s r ∧
  ((∃ blocks, ToEnd R (R.reset (sample R o.numBlocks s).2) blocks t) ∨
   ((∀ x, r ≠ .ok x) ∧ (t = (sample R o.numBlocks s).2 ∨ (∃ blocks, Reads R (R.reset (sample R o.numBlocks s).2) blocks t) ∨
    Fails R (R.reset (sample R o.numBlocks s).2) t)))

/-- What a program does with the reader: `reader.reset()`, `next(reader)`, and calls. -/
inductive Op where
  | reset
  | next (r : Outcome (Option Image.Block))
  | call (c : Call) (a : Answer)
  | count (o : Setup) (r : Outcome ((Nat × Nat) × List (List (List Nat))))

/-- One operation. -/
inductive Does (R : Reader S) : S → Op → S → Prop where
  | reset (s : S) : Does R s .reset (R.reset s)
  | next (s : S) : Does R s (.next (R.next s).1) (R.next s).2
  | call {s t : S} {c : Call} {a : Answer} : Called R c s a t → Does R s (.call c a) t
  | count {s t : S} {o : Setup} {r : Outcome ((Nat × Nat) × List (List (List Nat)))} : Counted R o s r t → Does R s (.count o r) t

/-- Undefined behaviour of an operation. -/
def Op.Undefined : Op → Prop
  | .reset => False
  | .next r => r = .ub
  | .call _ a => a.Undefined
  | .count _ r => r = .ub

/-- Operations one after the other; nothing can be said after undefined behaviour. -/
inductive Session (R : Reader S) : S → List Op → S → Prop where
  | nil (s : S) : Session R s [] s
  | step {s t u : S} {op : Op} {ops : List Op} : Does R s op t → ¬ op.Undefined → Session R t ops u → Session R s (op :: ops) u
  | undefined {s t : S} {op : Op} : Does R s op t → op.Undefined → Session R s [op] t

end Stempy.FileSession
