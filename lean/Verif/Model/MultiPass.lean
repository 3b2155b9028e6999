import Verif.Model.SectorReader
import Verif.Model.SortedMap
import Verif.Spec.Transition

/-!
# SectorStreamMultiPassThreadedReader: stempy/reader.h:484-836, stempy/reader.cpp:833-894

Two passes over the sector files: `HStep` is the header pass (`readHeaders`), which builds the index, `PStep` is the
processing pass (`processFrames`). `lo`, `hi` are the bounds of the atomic counter: all streams resp. all scan
positions without MPI, the share of the rank with MPI. The counter is not subject to 32-bit overflow here.
Files are complete records (files that were cut are not modelled here).
-/

namespace Stempy.MultiPass
open Stempy.SectorReader (Rec)

variable {D : Type}

/-- Bytes of the header and the pixels of a sector (version 5): reader.cpp:331-368, reader.h:40. -/
def recordSize : Nat := 16 + 2 * (576 * 144)

structure File (D : Type) where
  sector : Nat
  records : List (Rec D)

/-- reader.h:484-495: `stream` stands for `sectorStream` (and `streamIndex`). -/
structure Loc where
  stream : Nat
  offset : Nat
  deriving DecidableEq

/-- `std::array<SectorLocation, 4>`; `none` is a null `sectorStream`. -/
abbrev Sectors := Nat → Option Loc

/-- `ScanMap`, reader.h:500. -/
abbrev ScanMap := Nat → SMap Sectors

def update {α : Type} (f : Nat → α) (k : Nat) (v : α) : Nat → α := fun j => if j = k then v else f j

/-! ### Header pass -/

inductive HWorker (D : Type) where
  /-- reader.cpp:857 -/
  | test
  /-- reader.cpp:858-863 -/
  | fetch
  /-- reader.cpp:869-881: before the next record of stream `i`, which is at the byte `at_` -/
  | reading (i sector : Nat) (rest : List (Rec D)) (at_ : Nat)
  /-- reader.cpp:882-892: with a reference to the array of the frame -/
  | store (i sector : Nat) (r : Rec D) (rest : List (Rec D)) (at_ : Nat)
  | exited

structure HState (D : Type) where
  processed : Nat
  map : ScanMap
  workers : List (HWorker D)
  ub : Bool

/-- reader.h:721-733 -/
def hinit (threads lo : Nat) : HState D where
  processed := lo
  map := fun _ => []
  workers := List.replicate threads .test
  ub := false

/-- Steps of the header pass over `files`, with `size` scan positions. -/
inductive HStep (files : List (File D)) (size hi : Nat) : HState D → Unit → HState D → Prop where
  | done {s : HState D} {pre post} : s.workers = pre ++ .test :: post → hi ≤ s.processed →
      HStep files size hi s () { s with workers := pre ++ .exited :: post }
  | more {s : HState D} {pre post} : s.workers = pre ++ .test :: post → s.processed < hi →
      HStep files size hi s () { s with workers := pre ++ .fetch :: post }
  /-- the counter has been incremented by others in between -/
  | overrun {s : HState D} {pre post} : s.workers = pre ++ .fetch :: post → hi ≤ s.processed →
      HStep files size hi s () { s with processed := s.processed + 1, workers := pre ++ .exited :: post }
  | fetch {s : HState D} {pre post f} : s.workers = pre ++ .fetch :: post → s.processed < hi →
      files[s.processed]? = some f →
      HStep files size hi s () { s with
        processed := s.processed + 1
        workers := pre ++ .reading s.processed f.sector f.records 0 :: post }
  | badStream {s : HState D} {pre post} : s.workers = pre ++ .fetch :: post → s.processed < hi →
      files[s.processed]? = none → HStep files size hi s () { s with ub := true }
  | eof {s : HState D} {pre post i sector at_} : s.workers = pre ++ .reading i sector [] at_ :: post →
      HStep files size hi s () { s with workers := pre ++ .test :: post }
  /-- with the mutex of the scan position, `frameMaps[header.frameNumber]` -/
  | lookup {s : HState D} {pre post i sector r rest at_} :
      s.workers = pre ++ .reading i sector (r :: rest) at_ :: post → r.pos < size →
      HStep files size hi s () { s with
        map := update s.map r.pos
          ((s.map r.pos).put r.frameNumber (((s.map r.pos).get r.frameNumber).getD fun _ => none))
        workers := pre ++ .store i sector r rest (at_ + 16) :: post }
  | badPosition {s : HState D} {pre post i sector r rest at_} :
      s.workers = pre ++ .reading i sector (r :: rest) at_ :: post → size ≤ r.pos →
      HStep files size hi s () { s with ub := true }
  /-- without a mutex: an element of the array; then the pixels are skipped -/
  | store {s : HState D} {pre post i sector r rest at_ a} :
      s.workers = pre ++ .store i sector r rest at_ :: post → sector < 4 →
      (s.map r.pos).get r.frameNumber = some a →
      HStep files size hi s () { s with
        map := update s.map r.pos
          ((s.map r.pos).put r.frameNumber (update a sector (some ⟨i, at_⟩)))
        workers := pre ++ .reading i sector rest (at_ + 2 * (576 * 144)) :: post }
  | badSector {s : HState D} {pre post i sector r rest at_} :
      s.workers = pre ++ .store i sector r rest at_ :: post → 4 ≤ sector →
      HStep files size hi s () { s with ub := true }

/-! ### Processing pass -/

/-- A block passed to the user function: the sectors read into the frame of zeros. -/
structure Block (D : Type) where
  pos : Nat
  frame : Nat
  items : List (Nat × D)
  complete : Bool

/-- The pixels of the record whose pixels begin at a byte of a file. -/
def dataAt (files : List (File D)) (i offset : Nat) : Option D :=
  match files[i]? with
  | none => none
  | some f => if offset % recordSize = 16 then (f.records[offset / recordSize]?).map (·.data) else none

inductive PWorker (D : Type) where
  /-- reader.h:655 -/
  | test
  /-- reader.h:656-661 -/
  | fetch
  /-- reader.h:676: frames of position `p` that are left -/
  | image (p : Nat) (fs : List Nat)
  /-- reader.h:631: sector `j` of the frame, `n` sectors found so far -/
  | sector (p f : Nat) (fs : List Nat) (j n : Nat) (acc : List (Nat × D))
  /-- reader.h:636-637: has locked the stream -/
  | seek (p f : Nat) (fs : List Nat) (j n : Nat) (acc : List (Nat × D)) (loc : Loc)
  /-- reader.h:638 -/
  | read (p f : Nat) (fs : List Nat) (j n : Nat) (acc : List (Nat × D)) (loc : Loc)
  | exited

/-- `locks i`: the mutex of stream `i` is taken; `at_ i`: position of stream `i`. -/
structure PState (D : Type) where
  processed : Nat
  locks : Nat → Bool
  at_ : Nat → Nat
  workers : List (PWorker D)
  delivered : List (Block D)

/-- reader.h:814-834; `processed` is `m_processed` at the call. -/
def pinit (threads processed : Nat) (at_ : Nat → Nat) : PState D where
  processed := processed
  locks := fun _ => false
  at_ := at_
  workers := List.replicate threads .test
  delivered := []

inductive PStep (files : List (File D)) (map : ScanMap) (hi : Nat) : PState D → Unit → PState D → Prop where
  | done {s : PState D} {pre post} : s.workers = pre ++ .test :: post → hi ≤ s.processed →
      PStep files map hi s () { s with workers := pre ++ .exited :: post }
  | more {s : PState D} {pre post} : s.workers = pre ++ .test :: post → s.processed < hi →
      PStep files map hi s () { s with workers := pre ++ .fetch :: post }
  | overrun {s : PState D} {pre post} : s.workers = pre ++ .fetch :: post → hi ≤ s.processed →
      PStep files map hi s () { s with processed := s.processed + 1, workers := pre ++ .exited :: post }
  | fetch {s : PState D} {pre post} : s.workers = pre ++ .fetch :: post → s.processed < hi →
      PStep files map hi s () { s with
        processed := s.processed + 1
        workers := pre ++ .image s.processed (map s.processed).keys :: post }
  | end_ {s : PState D} {pre post p} : s.workers = pre ++ .image p [] :: post →
      PStep files map hi s () { s with workers := pre ++ .test :: post }
  | frame {s : PState D} {pre post p f fs} : s.workers = pre ++ .image p (f :: fs) :: post →
      PStep files map hi s () { s with workers := pre ++ .sector p f fs 0 0 [] :: post }
  /-- reader.h:634, the sector is missing -/
  | missing {s : PState D} {pre post p f fs j n acc a} :
      s.workers = pre ++ .sector p f fs j n acc :: post → j < 4 → (map p).get f = some a → a j = none →
      PStep files map hi s () { s with workers := pre ++ .sector p f fs (j + 1) n acc :: post }
  /-- reader.h:636 -/
  | acquire {s : PState D} {pre post p f fs j n acc a loc} :
      s.workers = pre ++ .sector p f fs j n acc :: post → j < 4 → (map p).get f = some a → a j = some loc →
      s.locks loc.stream = false →
      PStep files map hi s () { s with
        locks := update s.locks loc.stream true
        workers := pre ++ .seek p f fs j n acc loc :: post }
  /-- reader.h:637 -/
  | seek {s : PState D} {pre post p f fs j n acc loc} :
      s.workers = pre ++ .seek p f fs j n acc loc :: post →
      PStep files map hi s () { s with
        at_ := update s.at_ loc.stream loc.offset
        workers := pre ++ .read p f fs j n acc loc :: post }
  /-- reader.h:638-640 -/
  | read {s : PState D} {pre post p f fs j n acc loc} :
      s.workers = pre ++ .read p f fs j n acc loc :: post →
      PStep files map hi s () { s with
        at_ := update s.at_ loc.stream (s.at_ loc.stream + 2 * (576 * 144))
        locks := update s.locks loc.stream false
        workers := pre ++ .sector p f fs (j + 1) (n + 1)
          (acc ++ ((dataAt files loc.stream (s.at_ loc.stream)).map fun d => (j, d)).toList) :: post }
  /-- reader.h:643-648 -/
  | deliver {s : PState D} {pre post p f fs n acc} :
      s.workers = pre ++ .sector p f fs 4 n acc :: post →
      PStep files map hi s () { s with
        delivered := s.delivered ++ [⟨p, f, acc, n == 4⟩]
        workers := pre ++ .image p fs :: post }

/-! ### Random access -/

/-- reader.h:606-649 in one thread. -/
def processFrame (files : List (File D)) (a : Sectors) (p f : Nat) : Block D :=
  { pos := p
    frame := f
    items := (List.range 4).flatMap fun j =>
      match a j with
      | none => []
      | some loc => ((dataAt files loc.stream loc.offset).map fun d => (j, d)).toList
    complete := ((List.range 4).filter fun j => (a j).isSome).length == 4 }

/-- The loop of reader.h:783-797: the frames given to the user function, and the outcome. -/
def readIndices (files : List (File D)) (m : SMap Sectors) (p : Nat) : List Nat → List (Block D) × Outcome Unit
  | [] => ([], .ok ())
  | idx :: idxs =>
    match m.keys[idx]? with
    | none => ([], .throw "invalid_argument")
    | some f =>
      match m.get f with
      | none => ([], .ub)
      | some a =>
        let r := readIndices files m p idxs
        (processFrame files a p f :: r.1, r.2)

/-- reader.h:758-799, with the scan map of `size` positions. -/
def readFrames (files : List (File D)) (map : ScanMap) (size p : Nat) (idxs : List Nat) :
    List (Block D) × Outcome Unit :=
  if p < size then readIndices files (map p) p idxs else ([], .throw "invalid_argument")

/-- reader.h:801-812: the blocks, unless there is an exception. -/
def loadFrames (files : List (File D)) (map : ScanMap) (size p : Nat) (idxs : List Nat) :
    Outcome (List (Block D)) :=
  match readFrames files map size p idxs with
  | (bs, .ok ()) => .ok bs
  | (_, .throw m) => .throw m
  | (_, .ub) => .ub

/-- reader.h:539-557, for a scan map of `size` positions; `cached` is `m_numFramesPerScan`. -/
def numFramesPerScan (map : ScanMap) (size cached : Nat) : Nat :=
  if cached ≠ 0 then cached
  else (List.range size).foldl (fun n p => if n < (map p).length then (map p).length else n) 0

/-! ### Calling `readAll` again -/

/-- A `std::future` of `m_futures`: `get` can be called once. -/
inductive Future where
  | pending
  | consumed
  deriving DecidableEq

/-- `future.get()` on all futures, reader.h:827-831: the state afterwards, and an exception (`future_error`) if one
of them was consumed before. -/
def getAll : List Future → List Future × Outcome Unit
  | [] => ([], .ok ())
  | .consumed :: fs => (.consumed :: fs, .throw "future_error")
  | .pending :: fs => let r := getAll fs; (.consumed :: r.1, r.2)

/-- reader.h:820-833: `readAll` adds a future per thread to those of the former call. -/
def readAllFutures (threads : Nat) (fs : List Future) : List Future × Outcome Unit :=
  getAll (fs ++ List.replicate threads .pending)

end Stempy.MultiPass
