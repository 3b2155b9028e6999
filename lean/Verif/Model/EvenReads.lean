import Verif.Spec.Transition

/-!
# The order in which the threads read the streams: stempy/reader.h:292-325, 379-468, stempy/reader.cpp:798-831

`SectorStreamThreadedReader::readAll` keeps the streams in a priority queue on the number of reads ("to ensure that we read all the files
at the same ratio", reader.h:363-365; "we need to make sure they are all read evenly", reader.h:455-458). `Model/ThreadedReader` lets
the threads take any stream; here only the queue is modelled, with its order. Of two streams with the same number of reads any may be
taken (the heap decides). `readCount` is a natural number here; in the code it is a `uint32_t`.
-/

namespace Stempy.EvenReads

/-- reader.h:292-305. -/
structure Entry where
  file : Nat
  readCount : Nat
  deriving DecidableEq

/-- A thread of the pool. -/
inductive Worker where
  /-- reader.h:395-401 -/
  | free
  /-- reader.h:402-454: reads a record -/
  | reading (e : Entry)
  /-- reader.h:465-468: calls the function for the completed frames -/
  | calling
  deriving DecidableEq

structure State where
  queue : List Entry
  workers : List Worker

/-- reader.h:382-390; the queue in the order of `m_streams`. -/
def init (threads files : Nat) : State where
  queue := (List.range files).map fun i => ⟨i, 0⟩
  workers := List.replicate threads .free

inductive Label where
  /-- a record of the file is read -/
  | read (file : Nat)
  /-- the file is closed -/
  | close (file : Nat)
  | back (file : Nat)
  | call
  deriving DecidableEq

/-- reader.h:312-324: the top of the queue, an entry with the smallest `readCount`. -/
def Top (e : Entry) (queue : List Entry) : Prop := ∀ x ∈ queue, e.readCount ≤ x.readCount

/-- `records i` is the number of records of file `i`. -/
inductive Step (records : Nat → Nat) : State → Label → State → Prop where
  /-- reader.cpp:800-813, 830 -/
  | read {s : State} {pre post qpre qpost e} : s.workers = pre ++ .free :: post → s.queue = qpre ++ e :: qpost → Top e s.queue →
      e.readCount < records e.file →
      Step records s (.read e.file) ⟨qpre ++ qpost, pre ++ .reading e :: post⟩
  /-- reader.cpp:814-828: the stream is at its end -/
  | close {s : State} {pre post qpre qpost e} : s.workers = pre ++ .free :: post → s.queue = qpre ++ e :: qpost → Top e s.queue →
      records e.file ≤ e.readCount →
      Step records s (.close e.file) ⟨qpre ++ qpost, s.workers⟩
  /-- reader.h:459-463 -/
  | back {s : State} {pre post e} : s.workers = pre ++ .reading e :: post →
      Step records s (.back e.file) ⟨s.queue ++ [⟨e.file, e.readCount + 1⟩], pre ++ .calling :: post⟩
  /-- reader.h:466-468 -/
  | call {s : State} {pre post} : s.workers = pre ++ .calling :: post →
      Step records s .call ⟨s.queue, pre ++ .free :: post⟩

end Stempy.EvenReads
