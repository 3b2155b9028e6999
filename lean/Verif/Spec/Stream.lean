import Verif.Spec.Bytes
import Verif.Model.StreamReader
import Mathlib.Data.List.Forall2

/-!
What a writer of format version 1, 2 or 3 puts into a file for a block, written down from the description of the
formats, without reference to the reader's decoding functions.
-/

namespace Stempy.Spec
open Stempy.StreamReader

/-- `Written v bytes b`: the bytes are a record of format version `v` of the block `b`. -/
inductive Written : Nat → List UInt8 → Block → Prop where
  /-- 1024 words: images, rows, columns, version, time stamp, five reserved words, the image numbers counted from 1,
  unused words; then the pixels. -/
  | v1 {rows cols version timestamp : Nat} {reserved numbers unused data : List Nat}
      (hn : 10 + numbers.length + unused.length = 1024) (hr : reserved.length = 5)
      (hw : ∀ x ∈ [rows, cols, version, timestamp] ++ reserved ++ unused, x < 2 ^ 32)
      (hnum : ∀ x ∈ numbers, x < 2 ^ 32)
      (hd : data.length = cols * rows * numbers.length) (hs : data.length < 2 ^ 32)
      (hp : ∀ x ∈ data, x < 2 ^ 16) :
      Written 1
        (encodeArray 4 ([numbers.length, rows, cols, version, timestamp] ++ reserved ++
          numbers.map (fun x => (x + 1) % 2 ^ 32) ++ unused) ++ encodeArray 2 data)
        ⟨{ imagesInBlock := numbers.length, frameDimensions := (cols, rows), version := version,
           timestamp := timestamp, imageNumbers := numbers }, data⟩
  /-- one word, which is not used, and the pixels of 1600 frames of 576x576; the frames are numbered from 0 -/
  | v2 {first : Nat} {data : List Nat} (hd : data.length = 576 * 576 * 1600)
      (hp : ∀ x ∈ data, x < 2 ^ 16) :
      Written 2 (encodeLE 4 first ++ encodeArray 2 data)
        ⟨{ imagesInBlock := 1600, frameDimensions := (576, 576), version := 2,
           imageNumbers := List.range 1600 }, data⟩
  /-- scan and frame number, scan shape and scan position, one frame of 576x576 -/
  | v3 {scan frame w h x y : Nat} {data : List Nat} (h1 : scan < 2 ^ 32) (h2 : frame < 2 ^ 32)
      (h3 : w < 2 ^ 16) (h4 : h < 2 ^ 16) (h5 : x < 2 ^ 16) (h6 : y < 2 ^ 16)
      (hd : data.length = 576 * 576) (hp : ∀ p ∈ data, p < 2 ^ 16) :
      Written 3 (encodeArray 4 [scan, frame] ++ encodeArray 2 [w, h, x, y] ++ encodeArray 2 data)
        ⟨{ imagesInBlock := 1, frameDimensions := (576, 576), version := 3, scanNumber := scan,
           frameNumber := frame, scanDimensions := (w, h), imageNumbers := [y * w + x] }, data⟩

/-- `Reads v s bs t`: reading from state `s` returns the blocks `bs` one after the other and leaves state `t`. -/
inductive Reads (v : Nat) : State → List Block → State → Prop where
  | nil (s : State) : Reads v s [] s
  | cons {s t u : State} {b : Block} {bs : List Block} :
      read v s = (.ok (some b), t) → Reads v t bs u → Reads v s (b :: bs) u

/-- The bytes of several records. -/
def Records (v : Nat) (bytes : List UInt8) (bs : List Block) : Prop :=
  ∃ rs : List (List UInt8), List.Forall₂ (Written v) rs bs ∧ bytes = rs.flatten

end Stempy.Spec
