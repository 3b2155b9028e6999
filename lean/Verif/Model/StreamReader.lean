import Verif.Basic

/-!
# StreamReader: stempy/reader.cpp:49-276, stempy/reader.h:49-192

The stream reader goes through a list of binary files. A file that does not exist is `none`.

Simplifications:
* the host is little-endian, `sizeof(uint32_t) = 4`, `sizeof(uint16_t) = 2`;
* the files do not change while they are read, and memory allocation does not fail;
* the state of `std::ifstream` is: closed, or open with the bytes that are left. The flags `eofbit` and `failbit`
  are left out: both are set only by a read or `peek` at the end of a file, which is always followed by closing the
  stream (reader.cpp:74, 117, 233), and a successful `open` clears them;
* `m_curFileIndex` is replaced by the list of the files that were not opened yet. The stream is open exactly if the
  index points to the open file; `atEnd()` is "closed and no file left".
-/

namespace Stempy.StreamReader

/-- Content of a file, `none` if it cannot be opened. -/
abbrev File := Option (List UInt8)

/-- reader.h:49-68 (`complete` is never set here). -/
structure Header where
  scanDimensions : Nat × Nat := (0, 0)
  frameDimensions : Nat × Nat := (0, 0)
  imagesInBlock : Nat := 0
  version : Nat := 0
  timestamp : Nat := 0
  frameNumber : Nat := 0
  scanNumber : Nat := 0
  imageNumbers : List Nat := []
  deriving DecidableEq

/-- reader.h:70-88. `read` returns `none` for a block without data. -/
structure Block where
  header : Header
  data : List Nat
  deriving DecidableEq

/-- State of a reader. -/
structure State where
  stream : Option (List UInt8)
  left : List File
  deriving DecidableEq

/-- Operations may fail; the state survives an exception. -/
abbrev Rd (α : Type) := State → Outcome α × State

/-- Sequential composition. -/
def bind {α β : Type} (x : Rd α) (f : α → Rd β) : Rd β := fun s =>
  match x s with
  | (.ok a, t) => f a t
  | (.throw m, t) => (.throw m, t)
  | (.ub, t) => (.ub, t)

/-- reader.cpp:38-42: EofException -/
def eofException : String := "EOF Exception"

/-- Message of `openNextFile`, reader.cpp:86-88. -/
def cannotOpen : String := "Unable to open file"

/-- reader.cpp:69-92 `openNextFile`, the returned flag is not used by the callers. -/
def openNextFile : Rd Unit := fun s =>
  match s.left with
  | [] => (.ok (), ⟨none, []⟩)
  | none :: fs => (.throw cannotOpen, ⟨none, none :: fs⟩)
  | some f :: fs => (.ok (), ⟨some f, fs⟩)

/-- reader.cpp:55-67, constructor. -/
def create (files : List File) : Outcome State :=
  match files with
  | [] => .throw "No files provided to StreamReader!"
  | none :: _ => .throw cannotOpen
  | some f :: fs => .ok ⟨some f, fs⟩

/-- reader.cpp:106-122 `read(T*, size)`: a short read is repeated in the next file. `left` is the recursion
argument. -/
def readBytesFrom (size : Nat) : List File → Option (List UInt8) → Outcome (List UInt8) × State
  | [], none => (.throw eofException, ⟨none, []⟩)
  | [], some bytes =>
    if size ≤ bytes.length then (.ok (bytes.take size), ⟨some (bytes.drop size), []⟩)
    else (.throw eofException, ⟨none, []⟩)
  | none :: fs, none => (.throw cannotOpen, ⟨none, none :: fs⟩)
  | none :: fs, some bytes =>
    if size ≤ bytes.length then (.ok (bytes.take size), ⟨some (bytes.drop size), none :: fs⟩)
    else (.throw cannotOpen, ⟨none, none :: fs⟩)
  | some f :: fs, none => readBytesFrom size fs (some f)
  | some f :: fs, some bytes =>
    if size ≤ bytes.length then (.ok (bytes.take size), ⟨some (bytes.drop size), some f :: fs⟩)
    else readBytesFrom size fs (some f)

/-- reader.cpp:106-122 -/
def readBytes (size : Nat) : Rd (List UInt8) := fun s => readBytesFrom size s.left s.stream

/-- Value of bytes in little-endian order. -/
def decodeLE : List UInt8 → Nat
  | [] => 0
  | b :: bs => b.toNat + 256 * decodeLE bs

/-- The bytes seen as an array of `count` values of `k` bytes. -/
def decodeArray (k count : Nat) (bytes : List UInt8) : List Nat :=
  (List.range count).map fun i => decodeLE ((bytes.drop (k * i)).take k)

/-- reader.cpp:124-154. More than 1014 images do not fit into the header: the copy (reader.cpp:143-145) leaves the
array. -/
def headerVersion1 (h : List Nat) : Outcome Header :=
  let imagesInBlock := h.getD 0 0
  if 10 + imagesInBlock ≤ 1024 then
    .ok { imagesInBlock := imagesInBlock
          frameDimensions := (h.getD 2 0, h.getD 1 0)
          version := h.getD 3 0
          timestamp := h.getD 4 0
          imageNumbers := ((h.drop 10).take imagesInBlock).map fun n => (n + (2 ^ 32 - 1)) % 2 ^ 32 }
  else .ub

def readHeaderVersion1 : Rd Header :=
  bind (readBytes (1024 * 4)) fun bytes => fun s => (headerVersion1 (decodeArray 4 1024 bytes), s)

/-- reader.h:42 -/
def frameSide : Nat := 576

/-- reader.cpp:156-178. -/
def readHeaderVersion2 : Rd Header :=
  bind (readBytes 4) fun _ => fun s =>
    (.ok { imagesInBlock := 1600, frameDimensions := (frameSide, frameSide), version := 2
           imageNumbers := List.range 1600 }, s)

/-- reader.cpp:188-220. -/
def readHeaderVersion3 : Rd Header :=
  bind (readBytes (2 * 4)) fun numbers => bind (readBytes (4 * 2)) fun positions => fun s =>
    let n := decodeArray 4 2 numbers
    let p := decodeArray 2 4 positions
    (.ok { imagesInBlock := 1, frameDimensions := (frameSide, frameSide), version := 3
           scanNumber := n.getD 0 0, frameNumber := n.getD 1 0
           scanDimensions := (p.getD 0 0, p.getD 1 0)
           imageNumbers := [(p.getD 3 0 * p.getD 0 0 + p.getD 2 0) % 2 ^ 32] }, s)

/-- reader.cpp:240-254. -/
def readHeader (version : Nat) : Rd Header :=
  match version with
  | 1 => readHeaderVersion1
  | 2 => readHeaderVersion2
  | 3 => readHeaderVersion3
  | _ => fun s => (.throw "Unexpected version: ", s)

/-- Number of pixels of a block, 32 bit arithmetic: reader.cpp:258-259. -/
def dataSize (h : Header) : Nat :=
  (h.frameDimensions.1 * h.frameDimensions.2 * h.imagesInBlock) % 2 ^ 32

/-- reader.cpp:239-266, the `try` block. -/
def readBlock (version : Nat) : Rd (Option Block) := fun s =>
  let r := bind (readHeader version) (fun h =>
    bind (readBytes (dataSize h * 2)) fun bytes => fun s =>
      (.ok (some ⟨h, decodeArray 2 (dataSize h) bytes⟩), s)) s
  if r.1 = .throw eofException then (.throw "Unexpected EOF while processing stream.", r.2) else r

/-- reader.cpp:222-237: files that are at their end are skipped. -/
def readFrom (version : Nat) : List File → Option (List UInt8) → Outcome (Option Block) × State
  | [], none => (.ok none, ⟨none, []⟩)
  | [], some [] => (.ok none, ⟨none, []⟩)
  | none :: fs, none => (.throw cannotOpen, ⟨none, none :: fs⟩)
  | none :: fs, some [] => (.throw cannotOpen, ⟨none, none :: fs⟩)
  | some f :: fs, none => readFrom version fs (some f)
  | some f :: fs, some [] => readFrom version fs (some f)
  | left, some (b :: bs) => readBlock version ⟨some (b :: bs), left⟩

/-- reader.cpp:222-268 -/
def read (version : Nat) : Rd (Option Block) := fun s => readFrom version s.left s.stream

/-- reader.cpp:270-276 -/
def reset (files : List File) : State := ⟨none, files⟩

end Stempy.StreamReader
