import Verif.Model.SectorReader
import Verif.Model.StreamReader

/-!
# Bytes of sector files: stempy/reader.cpp:331-368 and 491-529, and dataCaptured: stempy/reader.cpp:569-632

`SectorReader` and `MultiPass` work on lists of records; `parse` gives the records of the bytes of a file.
-/

namespace Stempy.SectorFile
open Stempy.SectorReader (Rec Stream)
open Stempy.StreamReader (decodeLE decodeArray)

/-- reader.cpp:345-355: two 32 bit and four 16 bit values. -/
def headerSize : Nat := 16

/-- Bytes of the pixels of a sector: `SECTOR_DIMENSIONS_VERSION_4` and `_5` (reader.h:40-42) have the same product. -/
def dataSize : Nat := 2 * (144 * 576)

/-- Bytes `lo`, ..., `lo + k - 1` as a number. -/
def field (bytes : List UInt8) (lo k : Nat) : Nat := decodeLE ((bytes.drop lo).take k)

/-- reader.cpp:331-368. A file that ends inside of the pixels gives fewer pixels (an odd last byte is the low byte of a
pixel; the frame is filled with zeros before). -/
def record (bytes : List UInt8) : Rec (List Nat) where
  scanNumber := field bytes 0 4
  frameNumber := field bytes 4 4
  width := field bytes 8 2
  height := field bytes 10 2
  x := field bytes 12 2
  y := field bytes 14 2
  data := decodeArray 2 (((bytes.drop headerSize).take dataSize).length.succ / 2) ((bytes.drop headerSize).take dataSize)

/-- Records of a file, and whether it ends with an incomplete header. The loop is reader.cpp:418-470 for one of the
streams: `peek() == EOF` at the end. -/
def parse (bytes : List UInt8) : List (Rec (List Nat)) × Bool :=
  if _h : bytes = [] then ([], false)
  else if bytes.length < headerSize then ([], true)
  else
    let r := parse (bytes.drop (headerSize + dataSize))
    (record bytes :: r.1, r.2)
termination_by bytes.length
decreasing_by
  have : 0 < bytes.length := List.length_pos_iff.2 ‹_›
  simp only [List.length_drop, headerSize]
  omega

/-- An opened file. -/
def stream (sector : Int) (bytes : List UInt8) : Stream (List Nat) :=
  { sector := sector, records := (parse bytes).1, cut := (parse bytes).2 }

/-- reader.cpp:569-610 with the function of reader.cpp:617-624 for one file: number of sectors and the last scan
dimensions. `skip` is a `seekg`, which succeeds beyond the end of the file; then `peek` gives `EOF`. A header that was
cut leaves the dimensions uninitialised. -/
def captureFile (bytes : List UInt8) (acc : Nat × Nat × Nat) : Outcome (Nat × Nat × Nat) :=
  if h : bytes = [] then .ok acc
  else if bytes.length < headerSize then .ub
  else captureFile (bytes.drop (headerSize + dataSize)) (acc.1 + 1, field bytes 8 2, field bytes 10 2)
termination_by bytes.length
decreasing_by
  have : 0 < bytes.length := List.length_pos_iff.2 ‹_›
  simp only [List.length_drop, headerSize]
  omega

/-- The loop over the files, reader.cpp:572-609; `none` is a file that cannot be opened. -/
def captureFiles : List (Option (List UInt8)) → Nat × Nat × Nat → Outcome (Nat × Nat × Nat)
  | [], acc => .ok acc
  | none :: _, _ => .throw "Unable to open file"
  | some bytes :: files, acc => do
    let acc ← captureFile bytes acc
    captureFiles files acc

/-- reader.cpp:612-632: the numerator and the denominator (32 bit unsigned) of the result. -/
def dataCaptured (files : List (Option (List UInt8))) : Outcome (Nat × Nat) := do
  let (n, w, h) ← captureFiles files (0, 0, 0)
  .ok (n, w * h * 4 % 2 ^ 32)

end Stempy.SectorFile
