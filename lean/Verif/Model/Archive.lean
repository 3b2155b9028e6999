import Verif.Spec.Bytes
import Verif.Model.MultiPass
import Verif.Model.StreamReader

/-!
# Serialization: stempy/reader_mpi.cpp:18-92 and 117-128, stempy/electron_mpi.cpp:27-37

cereal is external (thirdparty/cereal is not part of the checkout). Assumed of its binary archive: numbers are written
as their bytes (little-endian); a vector is its size (64 bit) and its elements; a map is its size and, in the order of
the keys, keys and values; an array is its elements; a pair is its two members (reader_mpi.cpp:38-54). Loading throws
(`none`) if there are not enough bytes.
-/

namespace Stempy.Archive
open Stempy.Spec (encodeLE)
open Stempy.StreamReader (decodeLE)
open Stempy.MultiPass (Sectors ScanMap update)

abbrev Bytes := List UInt8

abbrev Load (α : Type) := Bytes → Option (α × Bytes)

/-- `loadBinary` of a number of `k` bytes. -/
def loadNum (k : Nat) : Load Nat := fun bs =>
  if bs.length < k then none else some (decodeLE (bs.take k), bs.drop k)

/-- `n` elements. -/
def loadMany {α : Type} (f : Load α) : Nat → Load (List α)
  | 0 => fun bs => some ([], bs)
  | n + 1 => fun bs => do
    let (a, bs) ← f bs
    let (as, bs) ← loadMany f n bs
    some (a :: as, bs)

def saveVector {α : Type} (f : α → Bytes) (l : List α) : Bytes := encodeLE 8 l.length ++ l.flatMap f

def loadVector {α : Type} (f : Load α) : Load (List α) := fun bs => do
  let (n, bs) ← loadNum 8 bs
  loadMany f n bs

def savePair {α β : Type} (f : α → Bytes) (g : β → Bytes) (p : α × β) : Bytes := f p.1 ++ g p.2

def loadPair {α β : Type} (f : Load α) (g : Load β) : Load (α × β) := fun bs => do
  let (a, bs) ← f bs
  let (b, bs) ← g bs
  some ((a, b), bs)

/-- `std::map<uint32_t, α>` -/
def saveMap {α : Type} (f : α → Bytes) (m : SMap α) : Bytes := saveVector (savePair (encodeLE 4) f) m

/-- The entries are inserted one after the other. -/
def loadMap {α : Type} (f : Load α) : Load (SMap α) := fun bs => do
  let (l, bs) ← loadVector (loadPair (loadNum 4) f) bs
  some (l.foldl (fun m e => m.put e.1 e.2) [], bs)

/-! ### Blocks -/

/-- reader.h:49-68 -/
structure Header where
  scanDimensions : Nat × Nat
  frameDimensions : Nat × Nat
  imagesInBlock : Nat
  version : Nat
  timestamp : Nat
  frameNumber : Nat
  scanNumber : Nat
  imageNumbers : List Nat
  complete : List Bool

structure Block where
  header : Header
  data : List Nat

/-- reader_mpi.cpp:62-67, saving. -/
def saveHeader (h : Header) : Bytes :=
  savePair (encodeLE 4) (encodeLE 4) h.scanDimensions ++ (savePair (encodeLE 4) (encodeLE 4) h.frameDimensions ++
    (encodeLE 4 h.imagesInBlock ++ (encodeLE 4 h.frameNumber ++ saveVector (encodeLE 4) h.imageNumbers)))

/-- reader_mpi.cpp:62-67, loading into a default header (reader.h:50-55). -/
def loadHeader : Load Header := fun bs => do
  let (sd, bs) ← loadPair (loadNum 4) (loadNum 4) bs
  let (fd, bs) ← loadPair (loadNum 4) (loadNum 4) bs
  let (n, bs) ← loadNum 4 bs
  let (f, bs) ← loadNum 4 bs
  let (im, bs) ← loadVector (loadNum 4) bs
  some ({ scanDimensions := sd, frameDimensions := fd, imagesInBlock := n, version := 0, timestamp := 0,
          frameNumber := f, scanNumber := 0, imageNumbers := im, complete := [] }, bs)

/-- reader_mpi.cpp:69-76: the number of bytes is computed with 64 bits. -/
def saveBlock (b : Block) : Bytes :=
  saveHeader b.header ++
    (b.data.take (b.header.frameDimensions.1 * b.header.frameDimensions.2 * b.header.imagesInBlock)).flatMap (encodeLE 2)

/-- reader_mpi.cpp:78-86: the number of pixels is computed with 32 bits. -/
def loadBlock : Load Block := fun bs => do
  let (h, bs) ← loadHeader bs
  let (d, bs) ← loadMany (loadNum 2) (h.frameDimensions.1 * h.frameDimensions.2 * h.imagesInBlock % 2 ^ 32) bs
  some (⟨h, d⟩, bs)

/-! ### Events -/

/-- `SparseEventMap`, electron_mpi.cpp:19 -/
abbrev EventMap := SMap (List (List Nat))

def saveEvents : EventMap → Bytes := saveMap (saveVector (saveVector (encodeLE 4)))

def loadEvents : Load EventMap := loadMap (loadVector (loadVector (loadNum 4)))

/-! ### Scan maps -/

/-- The serialized part of a `SectorLocation`, reader.h:484-495: `sector` (16 bit), `streamIndex` (32 bit), `offset`
(64 bit). -/
structure Location where
  sector : Int
  streamIndex : Int
  offset : Nat

/-- Two's complement. -/
def saveInt (k : Nat) (i : Int) : Bytes := encodeLE k (i % (256 ^ k : Nat)).toNat

def loadInt (k : Nat) : Load Int := fun bs => do
  let (n, bs) ← loadNum k bs
  some (Int.bmod n (256 ^ k), bs)

/-- reader_mpi.cpp:88-92, 18-33 -/
def saveLocation (l : Location) : Bytes := saveInt 2 l.sector ++ (saveInt 4 l.streamIndex ++ encodeLE 8 l.offset)

def loadLocation : Load Location := fun bs => do
  let (s, bs) ← loadInt 2 bs
  let (i, bs) ← loadInt 4 bs
  let (o, bs) ← loadNum 8 bs
  some (⟨s, i, o⟩, bs)

/-- The four elements of the array; a sector without a stream has the default values -1, -1, 0. -/
def locations (a : Sectors) : List Location :=
  (List.range 4).map fun j =>
    match a j with
    | some loc => ⟨j, loc.stream, loc.offset⟩
    | none => ⟨-1, -1, 0⟩

/-- `SparseScanMap`, reader_mpi.cpp:58-59 -/
abbrev SparseScanMap := SMap (SMap (List Location))

def saveScanMap : SparseScanMap → Bytes := saveMap (saveMap fun a => a.flatMap saveLocation)

def loadScanMap : Load SparseScanMap := loadMap (loadMap (loadMany loadLocation 4))

end Stempy.Archive
