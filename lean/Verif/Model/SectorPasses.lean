import Verif.Model.SectorStreams
import Verif.Model.ThreadedReader

/-!
# Reading a sector file from the beginning to the end: stempy/reader.cpp:418-470, 491-529, 798-831, stempy/reader.h:395-463

`SectorReader` and `ThreadedReader` work on lists of records. Here a file is read through `std::ifstream` with its state bits
(`Model/SectorStreams`), in both layouts, into the memory of frames as bytes. A stream is used by one thread at a time: it is not in the
queue while a worker has it (`Model/ThreadedReader`). What the memory of the frame is at the time of a read is not said here; other files
are read into other parts of it.
-/

namespace Stempy.SectorPasses
open Stempy.SectorReader (Rec)
open Stempy.SectorStreams (IStream readHeader)

/-- The layout of the sectors. -/
inductive Version where
  | v4
  | v5
  deriving DecidableEq

/-- Bytes written to the memory of a frame. -/
def put (mem : List UInt8) (off : Nat) (bytes : List UInt8) : List UInt8 :=
  mem.take off ++ bytes ++ mem.drop (off + bytes.length)

/-- reader.cpp:509-517: one read for each row. -/
def readRows (sector : Nat) : List Nat → List UInt8 × IStream → List UInt8 × IStream
  | [], x => x
  | y :: ys, (mem, s) =>
    let r := s.read (144 * 2)
    readRows sector ys (put mem (2 * (576 * y + sector * 144)) r.1, r.2)

/-- reader.cpp:491-529: the memory of the frame and the stream afterwards. -/
def readSector : Version → Nat → List UInt8 → IStream → List UInt8 × IStream
  | .v4, sector, mem, s => readRows sector (List.range' 0 576) (mem, s)
  | .v5, sector, mem, s =>
    let r := s.read (576 * 144 * 2)
    (put mem (2 * (sector * 144 * 576)) r.1, r.2)

/-- One pass of the loop for a stream: reader.cpp:423-448 and 811-830 with reader.h:406-444. Nothing at the end of the file; else the
header, and the memory of the frame it says (`frame`) after the read. An indeterminate header is used as a key. -/
def nextRecord (v : Version) (sector : Nat) (frame : Rec Unit → List UInt8) (s : IStream) :
    Outcome (Option (Rec Unit × List UInt8) × IStream) :=
  match s.peek with
  | (none, s) => .ok (none, s)
  | (some _, s) =>
    match readHeader s with
    | (none, _) => .ub
    | (some h, s) =>
      let r := readSector v sector (frame h) s
      .ok (some (h, r.1), r.2)

/-- All passes over a stream: for each the header, and the memory of the frame before and after. -/
inductive Passes (v : Version) (sector : Nat) : IStream → List (Rec Unit × List UInt8 × List UInt8) → Outcome Unit → Prop where
  | done {s t : IStream} {frame} : nextRecord v sector frame s = .ok (none, t) → Passes v sector s [] (.ok ())
  | cut {s : IStream} {frame} : nextRecord v sector frame s = .ub → Passes v sector s [] .ub
  | step {s t : IStream} {frame h m l r} : nextRecord v sector frame s = .ok (some (h, m), t) → Passes v sector t l r →
      Passes v sector s ((h, frame h, m) :: l) r

end Stempy.SectorPasses
