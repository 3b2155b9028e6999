import Verif.Model.ScanPath

/-!
Model of the choice of the output file in `examples/electron_count.py`.

The output directory is the list of its names. The scan number is a natural number; the threshold, the
counting and the attributes written afterwards are not part of the model.
-/

namespace Stempy.Example
open Stempy.ScanPath

/-- `'data_scan{}_id0000_electrons.h5'.format(scanNum)`, electron_count.py:102. -/
def resultName (n : Nat) : Name :=
  "data_scan".toList ++ str n ++ "_id0000_electrons.h5".toList

/-- `'{:03d}'.format(ii)`. -/
def pad3 (ii : Nat) : Name := List.replicate (3 - (str ii).length) '0' ++ str ii

/-- `outPath.with_name(outPath.stem + '_{:03d}.h5'.format(ii))`, electron_count.py:110. -/
def numberedName (n ii : Nat) : Name := stem (resultName n) ++ '_' :: pad3 ii ++ ".h5".toList

/-- The loop of electron_count.py:103-112: from `ii` and `outPath2` to the final `outPath2`. The `else`
branch is the case without a turn. -/
inductive Search (dir : List Name) (n : Nat) : Nat → Name → Name → Prop where
  | stop {ii : Nat} {p : Name} : p ∉ dir → Search dir n ii p p
  | next {ii : Nat} {p r : Name} : p ∈ dir → Search dir n (ii + 1) (numberedName n (ii + 1)) r →
      Search dir n ii p r

/-- The file written by the script, electron_count.py:102-115. -/
def Output (dir : List Name) (n : Nat) (r : Name) : Prop := Search dir n 0 (resultName n) r

/-- Some runs of the script for one scan, the names written so far in the order of writing. -/
inductive Runs (n : Nat) : List Name → Prop where
  | none : Runs n []
  | run {dir : List Name} {r : Name} : Runs n dir → Output dir n r → Runs n (dir ++ [r])

end Stempy.Example
