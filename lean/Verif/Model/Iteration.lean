import Verif.Model.StreamReader

/-!
# Iterating over the blocks of a stream

`BlockIterator` (stempy/reader.h:90-140, 162-168) and `ReaderMixin` (python/stempy/io/__init__.py:24-52). A block without data is
`none` in `StreamReader.read`; its header is the default one, so that its version is 0 (reader.h:54, 268).
-/

namespace Stempy.StreamReader

/-- reader.h:119-125: the iterator becomes the end iterator if the block has no data. -/
def nextCpp (version : Nat) : Rd (Option Block) := read version

/-- io/__init__.py:28-48: `None` (that is `StopIteration`) if the version of the header is 0. -/
def nextPy (version : Nat) : Rd (Option Block) := fun s =>
  match read version s with
  | (.ok none, t) => (.ok none, t)
  | (.ok (some b), t) => if b.header.version = 0 then (.ok none, t) else (.ok (some b), t)
  | (.throw m, t) => (.throw m, t)
  | (.ub, t) => (.ub, t)

/-- A `for` loop over the blocks: the blocks seen by the body, how the loop ended, and the state of the reader after it. -/
inductive Loop (next : Rd (Option Block)) : State → List Block → Outcome Unit → State → Prop where
  | done {s t : State} : next s = (.ok none, t) → Loop next s [] (.ok ()) t
  | throw {s t : State} {m : String} : next s = (.throw m, t) → Loop next s [] (.throw m) t
  | ub {s t : State} : next s = (.ub, t) → Loop next s [] .ub t
  | step {s t u : State} {b : Block} {bs : List Block} {r : Outcome Unit} :
      next s = (.ok (some b), t) → Loop next t bs r u → Loop next s (b :: bs) r u

end Stempy.StreamReader
