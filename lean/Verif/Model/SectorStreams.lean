import Verif.Model.MultiPass
import Verif.Model.SectorFile

/-!
# The streams of SectorStreamMultiPassThreadedReader: stempy/reader.h:606-757, stempy/reader.cpp:331-368, 404-416, 520-529, 854-894

`MultiPass` works on lists of records. Here the files are bytes, read through `std::ifstream` with its state bits, so files that were
cut are included. Of the bits, `badbit` is left out: the operating system gives the bytes of the file. The functions of the stream
are those of the C++ standard, [istream.unformatted], as in libstdc++ (`bits/istream.tcc`).
-/

namespace Stempy.SectorStreams
open Stempy.SectorReader (Rec)
open Stempy.SectorFile (headerSize dataSize field parse)
open Stempy.StreamReader (decodeArray)
open Stempy.MultiPass (Loc Sectors ScanMap PWorker Block update)

/-! ### `std::ifstream` -/

/-- An open file: its bytes, the position, `eofbit` and `failbit`. -/
structure IStream where
  bytes : List UInt8
  pos : Nat
  eof : Bool
  fail : Bool

/-- `open`, reader.cpp:539-541. -/
def opened (bytes : List UInt8) : IStream := ⟨bytes, 0, false, false⟩

/-- `sentry(*this, true)`: an input function does nothing but set `failbit` unless the stream is `good()`. -/
def IStream.sentry (s : IStream) : Bool × IStream :=
  if s.eof || s.fail then (false, { s with fail := true }) else (true, s)

def IStream.peek (s : IStream) : Option UInt8 × IStream :=
  match s.sentry with
  | (false, s) => (none, s)
  | (true, s) =>
    match s.bytes[s.pos]? with
    | none => (none, { s with eof := true })
    | some c => (some c, s)

/-- `read(p, n)`: the bytes which are written to `p`. -/
def IStream.read (s : IStream) (n : Nat) : List UInt8 × IStream :=
  match s.sentry with
  | (false, s) => ([], s)
  | (true, s) =>
    let got := (s.bytes.drop s.pos).take n
    (got, { s with pos := s.pos + got.length, eof := decide (got.length < n), fail := decide (got.length < n) })

/-- `seekg(pos)`: `eofbit` is cleared before the sentry (since C++11). A position beyond the end is accepted. -/
def IStream.seekg (s : IStream) (pos : Nat) : IStream :=
  match { s with eof := false }.sentry with
  | (false, s) => s
  | (true, s) => { s with pos := pos }

/-- `seekg(d, cur)` -/
def IStream.skip (s : IStream) (d : Nat) : IStream :=
  match { s with eof := false }.sentry with
  | (false, s) => s
  | (true, s) => { s with pos := s.pos + d }

/-- `tellg()`; `none` is -1. -/
def IStream.tellg (s : IStream) : Option Nat × IStream :=
  match s.sentry with
  | (false, s) => (none, s)
  | (true, s) => (some s.pos, s)

/-! ### Headers -/

/-- reader.cpp:331-368. `none`: some of the bytes were not read and are indeterminate. -/
def readHeader (s : IStream) : Option (Rec Unit) × IStream :=
  let a := s.read 8
  let b := a.2.read 8
  (if a.1.length = 8 ∧ b.1.length = 8 then
    some ⟨field a.1 0 4, field a.1 4 4, field b.1 0 2, field b.1 2 2, field b.1 4 2, field b.1 6 2, ()⟩
   else none, b.2)

/-- One pass of the loop of reader.cpp:869-892 for a stream: nothing at the end of the file, else the header and the
location which are stored, and the stream. An indeterminate header is used as an index (reader.cpp:875-876). -/
def nextHeader (s : IStream) : Outcome (Option (Rec Unit × Nat) × IStream) :=
  match s.peek with
  | (none, s) => .ok (none, s)
  | (some _, s) =>
    match readHeader s with
    | (none, _) => .ub
    | (some h, s) =>
      match s.tellg with
      | (none, _) => .ub
      | (some off, s) => .ok (some (h, off), s.skip dataSize)

/-- The loop, with a bound for its number of passes. -/
def readHeaders : Nat → IStream → Outcome (List (Rec Unit × Nat) × IStream)
  | 0, s => .ok ([], s)
  | n + 1, s => do
    match ← nextHeader s with
    | (none, s) => .ok ([], s)
    | (some e, s) =>
      let (es, s) ← readHeaders n s
      .ok (e :: es, s)

/-- reader.h:691-707 for the first stream: the scan dimensions and the scan number, and the stream. -/
def readFirstHeader (s : IStream) : Outcome ((Nat × Nat) × Nat × IStream) :=
  match readHeader s with
  | (none, _) => .ub
  | (some h, s) => .ok ((h.width, h.height), h.scanNumber, s.seekg 0)

/-! ### Pixels -/

/-- The pixels written into the frame of zeros, reader.cpp:520-529 (as in `SectorFile.record`: missing ones are zero, an odd
last byte is the low byte of a pixel). -/
def pixels (bytes : List UInt8) : List Nat := decodeArray 2 (bytes.length.succ / 2) bytes

/-- What was read for a sector. `nth` is a history: the number of earlier reads of pixels from the same stream. -/
structure Got where
  data : List Nat
  nth : Nat

/-- What the user function sees of a block. -/
def plain (b : Block Got) : Block (List Nat) := ⟨b.pos, b.frame, b.items.map fun x => (x.1, x.2.data), b.complete⟩

/-- `log i` is a history: the offsets of the reads of pixels from stream `i`, in order. -/
structure Streams where
  stream : Nat → IStream
  log : Nat → List Nat

/-- The streams after the header pass, reader.h:747-750. -/
def Streams.init (files : List (Nat × List UInt8)) : Streams where
  stream := fun i => opened (((files[i]?).map Prod.snd).getD [])
  log := fun _ => []

/-- reader.h:638 -/
def Streams.seek (st : Streams) (loc : Loc) : Streams :=
  { st with stream := update st.stream loc.stream ((st.stream loc.stream).seekg loc.offset) }

/-- reader.h:639, reader.cpp:520-529 -/
def Streams.read (st : Streams) (loc : Loc) : Got × Streams :=
  let r := (st.stream loc.stream).read dataSize
  (⟨pixels r.1, (st.log loc.stream).length⟩,
    { stream := update st.stream loc.stream r.2
      log := update st.log loc.stream (st.log loc.stream ++ [loc.offset]) })

/-! ### Random access -/

/-- reader.h:631-642: sectors `j`, ... of the frame; `n` were found before. -/
def readSectors (a : Sectors) : List Nat → Nat → List (Nat × Got) → Streams → (List (Nat × Got) × Nat) × Streams
  | [], n, acc, st => ((acc, n), st)
  | j :: js, n, acc, st =>
    match a j with
    | none => readSectors a js n acc st
    | some loc =>
      let r := (st.seek loc).read loc
      readSectors a js (n + 1) (acc ++ [(j, r.1)]) r.2

/-- reader.h:606-649 -/
def processFrame (a : Sectors) (p f : Nat) (st : Streams) : Block Got × Streams :=
  let r := readSectors a (List.range 4) 0 [] st
  (⟨p, f, r.1.1, r.1.2 == 4⟩, r.2)

/-- The frames read one after the other by calls of `loadFrames` from one thread (reader.h:758-812), each with its position and number. -/
def processAll : List (Sectors × Nat × Nat) → Streams → List (Block Got) × Streams
  | [], st => ([], st)
  | (a, p, f) :: rest, st =>
    let r := processFrame a p f st
    let rs := processAll rest r.2
    (r.1 :: rs.1, rs.2)

/-! ### Processing pass -/

/-- As `MultiPass.PState`, with streams. -/
structure State where
  processed : Nat
  locks : Nat → Bool
  streams : Streams
  workers : List (PWorker Got)
  delivered : List (Block Got)

/-- reader.h:814-834 -/
def init (threads processed : Nat) (files : List (Nat × List UInt8)) : State where
  processed := processed
  locks := fun _ => false
  streams := .init files
  workers := List.replicate threads .test
  delivered := []

/-- reader.h:606-680: as `MultiPass.PStep`, but for `seek` and `read`. -/
inductive Step (map : ScanMap) (hi : Nat) : State → Unit → State → Prop where
  | done {s : State} {pre post} : s.workers = pre ++ .test :: post → hi ≤ s.processed →
      Step map hi s () { s with workers := pre ++ .exited :: post }
  | more {s : State} {pre post} : s.workers = pre ++ .test :: post → s.processed < hi →
      Step map hi s () { s with workers := pre ++ .fetch :: post }
  | overrun {s : State} {pre post} : s.workers = pre ++ .fetch :: post → hi ≤ s.processed →
      Step map hi s () { s with processed := s.processed + 1, workers := pre ++ .exited :: post }
  | fetch {s : State} {pre post} : s.workers = pre ++ .fetch :: post → s.processed < hi →
      Step map hi s () { s with
        processed := s.processed + 1
        workers := pre ++ .image s.processed (map s.processed).keys :: post }
  | end_ {s : State} {pre post p} : s.workers = pre ++ .image p [] :: post →
      Step map hi s () { s with workers := pre ++ .test :: post }
  | frame {s : State} {pre post p f fs} : s.workers = pre ++ .image p (f :: fs) :: post →
      Step map hi s () { s with workers := pre ++ .sector p f fs 0 0 [] :: post }
  | missing {s : State} {pre post p f fs j n acc a} :
      s.workers = pre ++ .sector p f fs j n acc :: post → j < 4 → (map p).get f = some a → a j = none →
      Step map hi s () { s with workers := pre ++ .sector p f fs (j + 1) n acc :: post }
  | acquire {s : State} {pre post p f fs j n acc a loc} :
      s.workers = pre ++ .sector p f fs j n acc :: post → j < 4 → (map p).get f = some a → a j = some loc →
      s.locks loc.stream = false →
      Step map hi s () { s with
        locks := update s.locks loc.stream true
        workers := pre ++ .seek p f fs j n acc loc :: post }
  | seek {s : State} {pre post p f fs j n acc loc} :
      s.workers = pre ++ .seek p f fs j n acc loc :: post →
      Step map hi s () { s with
        streams := s.streams.seek loc
        workers := pre ++ .read p f fs j n acc loc :: post }
  | read {s : State} {pre post p f fs j n acc loc} :
      s.workers = pre ++ .read p f fs j n acc loc :: post →
      Step map hi s () { s with
        streams := (s.streams.read loc).2
        locks := update s.locks loc.stream false
        workers := pre ++ .sector p f fs (j + 1) (n + 1) (acc ++ [(j, (s.streams.read loc).1)]) :: post }
  | deliver {s : State} {pre post p f fs n acc} :
      s.workers = pre ++ .sector p f fs 4 n acc :: post →
      Step map hi s () { s with
        delivered := s.delivered ++ [⟨p, f, acc, n == 4⟩]
        workers := pre ++ .image p fs :: post }

end Stempy.SectorStreams
