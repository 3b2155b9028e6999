import Verif.Basic

/-!
# SectorStreamReader: stempy/reader.cpp:280-633, stempy/reader.h:194-286

The four sectors of the detector are written into separate files. A file is modelled at the level of its records: a
record has a header of 16 bytes and the pixels of a sector. A file that was cut ends with a record with fewer pixels
than a sector has, or (`cut = true`) with an incomplete header; reading such a header leaves a part of
`headerNumbers`/`headerPositions` uninitialised (reader.cpp:344-356), which is undefined behaviour.

The reader is generic in the pixels: `Layout` has the frame of zeros and the placement of a sector. The two
layouts of the code are `version4` and `version5`.
-/

namespace Stempy.SectorReader

/-- Record of a sector file: header fields of reader.cpp:331-359 and the pixels. -/
structure Rec (D : Type) where
  scanNumber : Nat
  frameNumber : Nat
  width : Nat
  height : Nat
  x : Nat
  y : Nat
  data : D
  deriving DecidableEq

/-- `imageNumber`, reader.cpp:357-358, 32 bit unsigned. -/
def Rec.pos {D : Type} (r : Rec D) : Nat := (r.y * r.width + r.x) % 2 ^ 32

/-- An open file. `sector` is the module number of the file name, or -1 (reader.cpp:280-289). -/
structure Stream (D : Type) where
  sector : Int
  records : List (Rec D)
  cut : Bool := false
  deriving DecidableEq

/-- The frame of zeros, and the writing of the data of a sector into a frame. -/
structure Layout (D F : Type) where
  empty : F
  place : Nat → D → F → F

/-- A frame returned by the reader (`imageNumbers = [pos]`). `frameNumber` is not copied by the code. -/
structure Frame (F : Type) where
  scanNumber : Nat
  scanDimensions : Nat × Nat
  pos : Nat
  data : F
  deriving DecidableEq

/-- Entry of `m_frameCache`. -/
structure Slot (F : Type) where
  frame : Frame F
  count : Nat
  deriving DecidableEq

/-- `std::map<uint32_t, Frame>`: in increasing order of the keys. -/
abbrev Cache (F : Type) := List (Nat × Slot F)

def find {F : Type} (p : Nat) : Cache F → Option (Slot F)
  | [] => none
  | (q, s) :: c => if q = p then some s else find p c

def insert {F : Type} (p : Nat) (s : Slot F) : Cache F → Cache F
  | [] => [(p, s)]
  | (q, t) :: c => if p < q then (p, s) :: (q, t) :: c else if p = q then (p, s) :: c else (q, t) :: insert p s c

def erase {F : Type} (p : Nat) : Cache F → Cache F
  | [] => []
  | (q, t) :: c => if q = p then c else (q, t) :: erase p c

/-- reader.cpp:439-462: the slot of a record after reading the sector. -/
def addSector {D F : Type} (L : Layout D F) (sector : Nat) (r : Rec D) (old : Option (Slot F)) : Slot F :=
  match old with
  | none =>
    { frame := { scanNumber := r.scanNumber, scanDimensions := (r.width, r.height), pos := r.pos
                 data := L.place sector r.data L.empty }
      count := 1 }
  | some s => { frame := { s.frame with data := L.place sector r.data s.frame.data }, count := s.count + 1 }

/-- reader.cpp:437-470: a frame is returned when it has four sectors. -/
def feed {D F : Type} (L : Layout D F) (c : Cache F) (sector : Nat) (r : Rec D) : Cache F × Option (Frame F) :=
  let s := addSector L sector r (find r.pos c)
  if s.count = 4 then (erase r.pos c, some s.frame) else (insert r.pos s c, none)

/-- State of the reader: `visited ++ todo` is `m_streams`, and `m_streamsIterator` is at the first of `todo`. -/
structure State (D F : Type) where
  visited : List (Stream D)
  todo : List (Stream D)
  cache : Cache F

/-- Number of records and streams. -/
def work {D : Type} (ss : List (Stream D)) : Nat := (ss.map fun s => s.records.length + 1).sum

/-- reader.cpp:418-489. A sector number outside of 0-3 writes outside of the frame (reader.cpp:509-529). -/
def read {D F : Type} (L : Layout D F) (s : State D F) : Outcome (Option (Frame F)) × State D F :=
  match h1 : s.todo with
  | [] =>
    match h2 : s.visited with
    | [] =>
      match s.cache with
      | [] => (.ok none, s)
      | (_, slot) :: c => (.ok (some slot.frame), { s with cache := c })
    | v :: vs => read L { s with visited := [], todo := v :: vs }
  | st :: rest =>
    match h2 : st.records with
    | [] => if st.cut then (.ub, s) else read L { s with todo := rest }
    | r :: rs =>
      if 0 ≤ st.sector ∧ st.sector < 4 then
        match feed L s.cache st.sector.toNat r with
        | (c, some f) =>
          (.ok (some f), { visited := s.visited ++ [{ st with records := rs }], todo := rest, cache := c })
        | (c, none) => read L { visited := s.visited ++ [{ st with records := rs }], todo := rest, cache := c }
      else (.ub, s)
termination_by 2 * (work s.visited + work s.todo) + if s.todo = [] then 1 else 0
decreasing_by
  · simp [h1, h2, work]
  · simp only [h1, work, List.map_cons, List.sum_cons]
    split <;> simp <;> omega
  · simp only [h1, h2, work, List.map_cons, List.sum_cons, List.map_append, List.sum_append, List.map_nil,
      List.sum_nil, List.length_cons]
    split <;> simp <;> omega

/-- Constructor, reader.cpp:291-316, with files that can be opened. -/
def create {D F : Type} (files : List (Stream D)) : State D F := { visited := [], todo := files, cache := [] }

/-- reader.cpp:557-567: the streams are opened again, the cache is left as it is. -/
def reset {D F : Type} (files : List (Stream D)) (s : State D F) : State D F :=
  { visited := [], todo := files, cache := s.cache }

/-- Writes of pixel values, in order. -/
def writes (f : List Nat) (ws : List (Nat × Nat)) : List Nat := ws.foldl (fun f w => f.set w.1 w.2) f

/-- reader.cpp:509-518: column strips of 144x576, row after row; a short file ends the writing. -/
def place4 (sector : Nat) (data : List Nat) (f : List Nat) : List Nat :=
  writes f ((List.range 576).flatMap fun y => (List.range 144).filterMap fun j =>
    data[144 * y + j]?.map fun v => (576 * y + sector * 144 + j, v))

/-- reader.cpp:520-529: row strips of 576x144 are contiguous. -/
def place5 (sector : Nat) (data : List Nat) (f : List Nat) : List Nat :=
  writes f ((List.range (576 * 144)).filterMap fun j => data[j]?.map fun v => (sector * 144 * 576 + j, v))

def version4 : Layout (List Nat) (List Nat) := ⟨List.replicate (576 * 576) 0, place4⟩
def version5 : Layout (List Nat) (List Nat) := ⟨List.replicate (576 * 576) 0, place5⟩

end Stempy.SectorReader
