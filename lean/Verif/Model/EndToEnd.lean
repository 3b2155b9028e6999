import Verif.Model.CountingReader
import Verif.Model.Electron
import Verif.Model.PyImage
import Verif.Model.SparseFile
import Mathlib.Logic.Equiv.List

/-!
# From sector files to STEM images

The parts are put together: the header pass and the counting with the multi-pass reader (`Model/MultiPass`, `Model/CountingReader`), the
counting of a frame (`Model/Electron`), the Python object (`Model/PyImage`), the HDF5 file (`Model/SparseFile`) and the STEM images
(`Model/Image`). The files are records here (`Model/SectorStreams` and C60, C83 have the bytes), the results of
`calculateThresholds` are an arbitrary function of the frames.
-/

namespace Stempy.EndToEnd
open Stempy.SectorReader (version5)

/-- The arguments of `electronCount`; `thresholds` gives the background threshold, the X-ray threshold and the optimized mean. -/
structure Setup where
  threads : Nat
  numBlocks : Nat
  scan : Nat × Nat
  dark : Option (List Rat)
  gain : Option (List Rat)
  rowDark : Option (List Rat → Outcome (Option Rat))
  thresholds : List (List Nat) → Rat × Rat × Rat

/-- reader.h:621-642: the sectors are read into a frame of zeros. -/
def frameOf (b : MultiPass.Block (List Nat)) : List Nat :=
  b.items.foldl (fun f i => version5.place i.1 i.2 f) version5.empty

/-- electron.cpp:615-632, 742-760: the frame is copied to a vector of `FrameType`, which is `float` if there is a gain
(electron.cpp:841-875). -/
def countFrame (o : Setup) (θ : Rat × Rat × Rat) (frame : List Nat) : Outcome (List Nat) :=
  Electron.countFrameStream
    { ft := if o.gain.isSome then .f32 else .u16
      bg := θ.1
      xr := θ.2.1
      dark := o.dark
      gain := o.gain
      rowDark := o.rowDark
      optMean := θ.2.2 } (576, 576) (frame.map fun v : Nat => (v : Rat))

/-- The call of `electronCount`. A frame which cannot be counted has no events here; the theorems show that there is none. -/
def call (o : Setup) : CountingReader.Call (List Nat) (Rat × Rat × Rat) where
  threads := o.threads
  numBlocks := o.numBlocks
  positions := o.scan.1 * o.scan.2
  threshold := fun S => o.thresholds (S.map frameOf)
  count := fun θ b =>
    match countFrame o θ (frameOf b) with
    | .ok events => events
    | _ => []
  code := fun b => Encodable.encode (b.pos, b.frame, b.items, b.complete)
  decode := fun n => (Encodable.decode (α := Nat × Nat × List (Nat × List Nat) × Bool) n).map fun x =>
    ⟨x.1, x.2.1, x.2.2.1, x.2.2.2⟩
  decode_code := by intro b; simp [Encodable.encodek]

/-- electron.cpp:813-816: `frameSize` is that of the first sample, the scan that of its header. -/
def countedData (o : Setup) (data : List (List (List Nat))) : PyImage.CountedData := ⟨data, o.scan, (576, 576)⟩

end Stempy.EndToEnd
