import Verif.Model.EndToEnd
import Verif.Model.SectorStreams

/-!
# electronCount with a SectorStreamMultiPassThreadedReader from the bytes of the files: stempy/reader.h:683-757, 814-834, stempy/reader.cpp:854-894, stempy/electron.cpp:563-836

The first header, the header pass, the rewinding of the streams and the processing pass with the counting in the same threads,
on streams of bytes (`Model/SectorStreams`). `Model/EndToEnd` has the same on records.
-/

namespace Stempy.ByteCounting
open Stempy.SectorReader (Rec)
open Stempy.SectorFile (dataSize)
open Stempy.SectorStreams (IStream Streams Got opened plain readHeader readFirstHeader)
open Stempy.MultiPass (ScanMap update)
open Stempy.CountingReader (Call Label Inside)
open Stempy.EndToEnd (Setup)

variable {Θ : Type}

/-! ### Header pass -/

/-- As `MultiPass.HWorker`. The worker which has fetched the number of a stream is the only one to use it, so that the stream is
part of the worker. -/
inductive HWorker where
  | test
  | fetch
  /-- reader.cpp:869 -/
  | reading (i sector : Nat) (st : IStream)
  /-- reader.cpp:882-892 -/
  | store (i sector : Nat) (h : Rec Unit) (st : IStream)
  | exited

structure HState where
  processed : Nat
  map : ScanMap
  streams : Nat → IStream
  workers : List HWorker
  ub : Bool

/-- reader.h:721-733 -/
def hinit (threads lo : Nat) (streams : Nat → IStream) : HState where
  processed := lo
  map := fun _ => []
  streams := streams
  workers := List.replicate threads .test
  ub := false

/-- reader.cpp:854-894; `files` has the sectors of the streams. -/
inductive HStep (files : List (Nat × List UInt8)) (size hi : Nat) : HState → Unit → HState → Prop where
  | done {s : HState} {pre post} : s.workers = pre ++ .test :: post → hi ≤ s.processed →
      HStep files size hi s () { s with workers := pre ++ .exited :: post }
  | more {s : HState} {pre post} : s.workers = pre ++ .test :: post → s.processed < hi →
      HStep files size hi s () { s with workers := pre ++ .fetch :: post }
  | overrun {s : HState} {pre post} : s.workers = pre ++ .fetch :: post → hi ≤ s.processed →
      HStep files size hi s () { s with processed := s.processed + 1, workers := pre ++ .exited :: post }
  | fetch {s : HState} {pre post f} : s.workers = pre ++ .fetch :: post → s.processed < hi → files[s.processed]? = some f →
      HStep files size hi s () { s with
        processed := s.processed + 1
        workers := pre ++ .reading s.processed f.1 (s.streams s.processed) :: post }
  | badStream {s : HState} {pre post} : s.workers = pre ++ .fetch :: post → s.processed < hi → files[s.processed]? = none →
      HStep files size hi s () { s with ub := true }
  /-- reader.cpp:869: the end of the file -/
  | eof {s : HState} {pre post i sector st st'} : s.workers = pre ++ .reading i sector st :: post → st.peek = (none, st') →
      HStep files size hi s () { s with streams := update s.streams i st', workers := pre ++ .test :: post }
  /-- reader.cpp:869-881 -/
  | lookup {s : HState} {pre post i sector st c st' h st''} : s.workers = pre ++ .reading i sector st :: post →
      st.peek = (some c, st') → readHeader st' = (some h, st'') → h.pos < size →
      HStep files size hi s () { s with
        map := update s.map h.pos
          ((s.map h.pos).put h.frameNumber (((s.map h.pos).get h.frameNumber).getD fun _ => none))
        workers := pre ++ .store i sector h st'' :: post }
  /-- reader.cpp:871-876: an indeterminate header -/
  | badHeader {s : HState} {pre post i sector st c st' st''} : s.workers = pre ++ .reading i sector st :: post →
      st.peek = (some c, st') → readHeader st' = (none, st'') → HStep files size hi s () { s with ub := true }
  | badPosition {s : HState} {pre post i sector st c st' h st''} : s.workers = pre ++ .reading i sector st :: post →
      st.peek = (some c, st') → readHeader st' = (some h, st'') → size ≤ h.pos →
      HStep files size hi s () { s with ub := true }
  /-- reader.cpp:882-892 -/
  | store {s : HState} {pre post i sector h st off st' a} : s.workers = pre ++ .store i sector h st :: post → sector < 4 →
      st.tellg = (some off, st') → (s.map h.pos).get h.frameNumber = some a →
      HStep files size hi s () { s with
        map := update s.map h.pos ((s.map h.pos).put h.frameNumber (update a sector (some ⟨i, off⟩)))
        workers := pre ++ .reading i sector (st'.skip dataSize) :: post }
  | badTell {s : HState} {pre post i sector h st st'} : s.workers = pre ++ .store i sector h st :: post →
      st.tellg = (none, st') → HStep files size hi s () { s with ub := true }
  | badSector {s : HState} {pre post i sector h st} : s.workers = pre ++ .store i sector h st :: post → 4 ≤ sector →
      HStep files size hi s () { s with ub := true }

/-- reader.h:747-750 -/
def rewound (streams : Nat → IStream) : Nat → IStream := fun i => (streams i).seekg 0

/-! ### Processing pass and counting -/

/-- As `CountingReader.State`. -/
structure State (Θ : Type) where
  reader : SectorStreams.State
  counting : Streaming.State Θ

def init (K : Call (List Nat) Θ) (lo : Nat) (streams : Nat → IStream) : State Θ where
  reader :=
    { processed := lo
      locks := fun _ => false
      streams := ⟨streams, fun _ => []⟩
      workers := List.replicate K.threads .test
      delivered := [] }
  counting := Streaming.init K.params []

/-- As `CountingReader.Step`, with the reader on bytes. -/
inductive Step (K : Call (List Nat) Θ) (map : ScanMap) (hi : Nat) : State Θ → Label → State Θ → Prop where
  | read {x : State Θ} {r' : SectorStreams.State} {rpre rpost w w' cpre cpost} : x.counting.ub = false →
      SectorStreams.Step map hi x.reader () r' →
      x.reader.workers = rpre ++ w :: rpost → r'.workers = rpre ++ w' :: rpost → w' ≠ .exited →
      r'.delivered = x.reader.delivered →
      x.counting.workers = cpre ++ .idle :: cpost → cpre.length = rpre.length →
      Step K map hi x .reader { x with reader := r' }
  | deliver {x : State Θ} {r' : SectorStreams.State} {rpre rpost w w' cpre cpost b} : x.counting.ub = false →
      SectorStreams.Step map hi x.reader () r' →
      x.reader.workers = rpre ++ w :: rpost → r'.workers = rpre ++ w' :: rpost → w' ≠ .exited →
      r'.delivered = x.reader.delivered ++ [b] →
      x.counting.workers = cpre ++ .idle :: cpost → cpre.length = rpre.length →
      Step K map hi x .reader
        { reader := r', counting := { x.counting with workers := cpre ++ .got (K.tag (plain b)) :: cpost } }
  | finish {x : State Θ} {r' : SectorStreams.State} {rpre rpost w cpre cpost} : x.counting.ub = false →
      SectorStreams.Step map hi x.reader () r' →
      x.reader.workers = rpre ++ w :: rpost → r'.workers = rpre ++ .exited :: rpost →
      r'.delivered = x.reader.delivered →
      x.counting.workers = cpre ++ .idle :: cpost → cpre.length = rpre.length →
      Step K map hi x .reader
        { reader := r', counting := { x.counting with workers := cpre ++ .exited :: cpost } }
  | count {x : State Θ} {l c'} : Streaming.Step K.params x.counting l c' → Inside x.counting c' →
      Step K map hi x (.count l) { x with counting := c' }
  | join {x : State Θ} : x.counting.ub = false → x.counting.main = .join →
      (∀ w ∈ x.reader.workers, w = .exited) →
      Step K map hi x (.count .internal)
        { x with counting := { x.counting with main := .done (Streaming.padEvents x.counting.events) } }

/-! ### The call -/

/-- The streams when the files have been opened, reader.cpp:531-555. -/
def streamsOf (files : List (Nat × List UInt8)) : Nat → IStream :=
  fun i => opened (((files[i]?).map Prod.snd).getD [])

/-- electron.cpp:749-752 with the header of reader.h:613-619: the scan of the first header if none is given. -/
def withScan (o : Setup) (dims : Nat × Nat) : Setup :=
  { o with scan := if o.scan.1 = 0 ∨ o.scan.2 = 0 then dims else o.scan }

/-- The execution of `electronCount`: the header pass ends in `s`, the counting has come to `z`. `dims` are those of the first header. -/
structure Exec (o : Setup) (files : List (Nat × List UInt8)) (dims : Nat × Nat) (s : HState) (z : State (Rat × Rat × Rat)) : Prop where
  /-- reader.h:691-708 -/
  first : ∃ number st, readFirstHeader (streamsOf files 0) = .ok (dims, number, st) ∧
    Spec.Reach (HStep files (dims.1 * dims.2 % 2 ^ 32) files.length) (hinit o.threads 0 (update (streamsOf files) 0 st)) s
  /-- reader.h:735-738 -/
  waited : s.ub = false ∧ ∀ w ∈ s.workers, w = .exited
  /-- reader.h:747-757, 814-834 -/
  counting : Spec.Reach (Step (EndToEnd.call (withScan o dims)) s.map (dims.1 * dims.2 % 2 ^ 32))
    (init (EndToEnd.call (withScan o dims)) 0 (rewound s.streams)) z

end Stempy.ByteCounting
