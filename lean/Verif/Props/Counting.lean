import Verif.Lemmas.Counting
import Verif.Props.Stack

/-!
C12, C13, C15: thresholding, block-wise counting, and agreement of the two counting paths.
-/

namespace Stempy.Props
open Stempy.Electron Stempy.Spec Stempy.Image

/-! ### C12 -/

/-- Frames and thresholds to which the thresholding theorems apply: a detector with at least two pixels and
sides below `2^16`, a frame of matching size, and a background threshold that is not negative. -/
structure FrameOK (w h : Nat) (frame : List Nat) (bg : Rat) : Prop where
  wlt : w < 65536
  hlt : h < 65536
  size : w * h < 2 ^ 32
  two : 1 < w * h
  len : frame.length = w * h
  bg0 : 0 ≤ bg

/-- pixels as stored in the frame vector -/
def pixels (frame : List Nat) : List Rat := frame.map fun v : Nat => (v : Rat)

/-- Corrected value with a gain: dark reference subtracted (if there is one), multiplied by the gain. -/
def floatValue (dark : Option (List Rat)) (gain : List Rat) (frame : List Nat) (j : Nat) : Rat :=
  ((frame.getD j 0 : Nat) - (match dark with | none => 0 | some d => d.getD j 0)) * gain.getD j 0

/-- Corrected value without gain in the streaming path: the truncated dark value is subtracted modulo
`2^16`. -/
def u16StreamValue (dark : Option (List Rat)) (frame : List Nat) (j : Nat) : Rat :=
  match dark with
  | none => (frame.getD j 0 : Nat)
  | some d => ((((frame.getD j 0 : Nat) : Int) - truncZero (d.getD j 0)) % 65536 : Int)

/-- Corrected value without gain in the block-wise path: the difference, truncated. -/
def u16ClassicValue (dark : List Rat) (frame : List Nat) (j : Nat) : Rat :=
  truncZero ((frame.getD j 0 : Nat) - dark.getD j 0)

private theorem pixels_get {frame : List Nat} {j : Nat} (hj : j < (pixels frame).length) :
    (pixels frame)[j] = ((frame.getD j 0 : Nat) : Rat) := by
  have : j < frame.length := by simpa [pixels] using hj
  simp [pixels, this]

private theorem readPtr_some {d : List Rat} {j n : Nat} (hd : d.length = n) (hj : j < n) :
    readPtr (some d) j = .ok (d.getD j 0) := by
  have : j < d.length := by omega
  simp [readPtr, readAt_lt this, this]

private theorem countFrameStream_eq {o : CountOptions} {w h : Nat} {frame : List Nat}
    (ok : FrameOK w h frame o.bg) (hrd : o.rowDark = none) (c : Nat → Rat)
    (hc : ∀ j, j < w * h → streamPixel o.ft o.bg o.xr o.dark o.gain j ((frame.getD j 0 : Nat) : Rat) =
      .ok (eligible o.bg o.xr (c j))) :
    ∃ events, countFrameStream o (w, h) (pixels frame) = .ok events ∧
      IsEventList o.bg o.xr w h c events := by
  unfold countFrameStream
  have hl : (pixels frame).length = w * h := by simp [pixels, ok.len]
  rw [hrd]
  simp only [Nat.mod_eq_of_lt ok.size]
  rw [forPixels_ok hl (fun j => eligible o.bg o.xr (c j)) (by
    intro j hj
    rw [pixels_get hj]
    exact hc j (by omega))]
  exact maximalPoints_eligible ok.wlt ok.hlt ok.size ok.two ok.bg0 c

private theorem countFrameClassic_eq {o : CountOptions} {w h : Nat} {frame : List Nat}
    (ok : FrameOK w h frame o.bg) (hrd : o.rowDark = none) (c : Nat → Rat)
    (hc : ∀ j, j < w * h → classicPixel o.ft o.bg o.xr o.dark o.gain j ((frame.getD j 0 : Nat) : Rat) =
      .ok (eligible o.bg o.xr (c j))) :
    ∃ events, countFrameClassic o (w, h) (pixels frame) = .ok events ∧
      IsEventList o.bg o.xr w h c events := by
  unfold countFrameClassic
  have hl : (pixels frame).length = w * h := by simp [pixels, ok.len]
  rw [hrd]
  simp only [Nat.mod_eq_of_lt ok.size]
  rw [forPixels_ok hl (fun j => eligible o.bg o.xr (c j)) (by
    intro j hj
    rw [pixels_get hj]
    exact hc j (by omega))]
  exact maximalPoints_eligible ok.wlt ok.hlt ok.size ok.two ok.bg0 c

/-- **C12** streaming path with a gain, with or without dark reference. -/
theorem C12_stream_gain {o : CountOptions} {w h : Nat} {frame : List Nat} {gain : List Rat}
    (ok : FrameOK w h frame o.bg) (hrd : o.rowDark = none) (hft : o.ft = .f32)
    (hg : o.gain = some gain) (hgl : gain.length = w * h)
    (hd : ∀ d, o.dark = some d → d.length = w * h) :
    ∃ events, countFrameStream o (w, h) (pixels frame) = .ok events ∧
      IsEventList o.bg o.xr w h (floatValue o.dark gain frame) events := by
  apply countFrameStream_eq ok hrd
  intro j hj
  unfold streamPixel floatValue
  rw [hft, hg, readPtr_some hgl hj]
  cases hdk : o.dark with
  | none => simp [thresholdPixel_eq]
  | some d =>
    simp only [readPtr_some (hd d hdk) hj, Outcome.ok_bind, Outcome.pure_eq, thresholdPixel_eq]

/-- **C12** streaming path without gain, with or without dark reference. -/
theorem C12_stream_u16 {o : CountOptions} {w h : Nat} {frame : List Nat}
    (ok : FrameOK w h frame o.bg) (hrd : o.rowDark = none) (hft : o.ft = .u16)
    (hd : ∀ d, o.dark = some d → d.length = w * h ∧ ∀ r ∈ d, -1 < r ∧ r < 65536) :
    ∃ events, countFrameStream o (w, h) (pixels frame) = .ok events ∧
      IsEventList o.bg o.xr w h (u16StreamValue o.dark frame) events := by
  apply countFrameStream_eq ok hrd
  intro j hj
  unfold streamPixel u16StreamValue
  rw [hft]
  cases hdk : o.dark with
  | none => simp [thresholdPixel_eq]
  | some d =>
    obtain ⟨h1, h2⟩ := hd d hdk
    have hm : d.getD j 0 ∈ d := by
      have : j < d.length := by omega
      simp [this]
    have h3 := h2 _ hm
    simp only [readPtr_some h1 hj, Outcome.ok_bind, Outcome.pure_eq, thresholdPixel_eq,
      toU16_ok h3.1 h3.2, wrapU16]
    have : (((frame.getD j 0 : Nat) : Rat) - (truncZero (d.getD j 0) : Rat)) =
        ((((frame.getD j 0 : Nat) : Int) - truncZero (d.getD j 0) : Int) : Rat) := by
      push_cast; rfl
    rw [this, Int.floor_intCast]

/-- **C12** block-wise path with gain and dark reference. -/
theorem C12_classic_gain {o : CountOptions} {w h : Nat} {frame : List Nat} {dark gain : List Rat}
    (ok : FrameOK w h frame o.bg) (hrd : o.rowDark = none) (hft : o.ft = .f32)
    (hg : o.gain = some gain) (hgl : gain.length = w * h)
    (hd : o.dark = some dark) (hdl : dark.length = w * h) :
    ∃ events, countFrameClassic o (w, h) (pixels frame) = .ok events ∧
      IsEventList o.bg o.xr w h (floatValue o.dark gain frame) events := by
  apply countFrameClassic_eq ok hrd
  intro j hj
  unfold classicPixel floatValue
  rw [hft, hg, hd, readPtr_some hgl hj, readPtr_some hdl hj]
  simp [thresholdPixel_eq]

/-- **C12** block-wise path without gain, with a dark reference that exceeds no pixel by 1 or more. -/
theorem C12_classic_u16 {o : CountOptions} {w h : Nat} {frame : List Nat} {dark : List Rat}
    (ok : FrameOK w h frame o.bg) (hrd : o.rowDark = none) (hft : o.ft = .u16)
    (hd : o.dark = some dark) (hdl : dark.length = w * h)
    (hr : ∀ j, j < w * h → -1 < ((frame.getD j 0 : Nat) : Rat) - dark.getD j 0 ∧
      ((frame.getD j 0 : Nat) : Rat) - dark.getD j 0 < 65536) :
    ∃ events, countFrameClassic o (w, h) (pixels frame) = .ok events ∧
      IsEventList o.bg o.xr w h (u16ClassicValue dark frame) events := by
  apply countFrameClassic_eq ok hrd
  intro j hj
  unfold classicPixel u16ClassicValue
  rw [hft, hd, readPtr_some hdl hj]
  have := hr j hj
  simp only [Outcome.ok_bind, Outcome.pure_eq, thresholdPixel_eq, toU16_ok this.1 this.2]

/-- **C12** (two pixels are needed): the only pixel of a 1x1 detector is always reported, even below the
background threshold. -/
theorem C12_single_pixel_exception : countFrameStream
    { ft := .u16, bg := 10, xr := 100, dark := none, gain := none, rowDark := none, optMean := 0 }
    (1, 1) (pixels [3]) = .ok [0] := by decide +kernel

/-- **C12** (the background threshold must not be negative): a pixel above the x-ray threshold becomes 0 and
is reported as an event next to a negative corrected value. -/
theorem C12_negative_threshold_exception : countFrameStream
    { ft := .f32, bg := -10, xr := 100, dark := some [0, 2], gain := some [1, 1], rowDark := none,
      optMean := 0 } (2, 1) (pixels [200, 1]) = .ok [0] := by decide +kernel

/-- **C12** Without a dark reference the block-wise path reads through a null pointer. -/
theorem C12_classic_no_dark_undefined (o : CountOptions) {w h : Nat} {frame : List Nat}
    (hrd : o.rowDark = none) (hd : o.dark = none) (hs : w * h < 2 ^ 32) (hpos : 0 < w * h) :
    countFrameClassic o (w, h) (pixels frame) = .ub := by
  unfold countFrameClassic
  rw [hrd]
  simp only [Nat.mod_eq_of_lt hs]
  obtain ⟨n, hn⟩ : ∃ n, w * h = n + 1 := ⟨w * h - 1, by omega⟩
  unfold forPixels
  rw [hn, List.range_succ_eq_map, List.foldlM_cons]
  have : ∀ v, classicPixel o.ft o.bg o.xr o.dark o.gain 0 v = .ub := by
    intro v; unfold classicPixel; rw [hd]; rfl
  cases hr : readAt (pixels frame) 0 with
  | ok v => simp [this]
  | throw m => exact absurd hr (NoThrow.readAt _ _ m)
  | ub => simp

example : FrameOK 3 2 [9, 1, 5, 1, 1, 1] 0 := by constructor <;> norm_num

/-- All three cases of the thresholds in one frame: a background pixel, an x-ray and two events. -/
example : countFrameStream
    { ft := .u16, bg := 2, xr := 50, dark := some [1, 1, 1, 1, 1, 1], gain := none, rowDark := none,
      optMean := 0 } (3, 2) (pixels [4, 3, 51, 1, 1, 6]) =
    .ok [0, 5] := by decide +kernel

/-! ### C13 -/

private theorem copyFrame_ok {w h : Nat} {fs : List Frame} (hlen : ∀ f ∈ fs, f.2.length = w * h)
    (hwh : w * h < 2 ^ 32) (hsz : fs.length * (w * h) ≤ 2 ^ 32) (hpos : 0 < w * h) {i : Nat} {f : Frame}
    (hf : fs[i]? = some f) :
    copyFrame (fs.map (·.2)).flatten (w, h) i = .ok (pixels f.2) := by
  have hi : i < fs.length := (List.getElem?_eq_some_iff.1 hf).1
  have hle : (i + 1) * (w * h) ≤ fs.length * (w * h) := Nat.mul_le_mul_right _ hi
  have e : (i + 1) * (w * h) = i * (w * h) + w * h := by ring
  have hlt : i * w * h < 2 ^ 32 := by rw [Nat.mul_assoc]; omega
  have hfl : ((fs.map (·.2)).flatten).length = fs.length * (w * h) := by
    rw [flatten_uniform_length _ (w * h) (List.forall_mem_map.2 hlen)]; simp
  unfold copyFrame
  simp only [Nat.mod_eq_of_lt hwh, Nat.mod_eq_of_lt hlt]
  rw [if_pos (by rw [hfl, Nat.mul_assoc]; omega)]
  congr 1
  unfold pixels
  congr 1
  have hfm := hlen f (List.mem_of_getElem? hf)
  apply List.ext_getElem?
  intro j
  by_cases hj : j < w * h
  · rw [List.getElem?_take_of_lt hj, List.getElem?_drop, Nat.mul_assoc,
      flatten_uniform_getElem? _ _ (List.forall_mem_map.2 hlen) _ _ hj]
    simp [hf]
  · rw [List.getElem?_eq_none (by rw [List.length_take]; omega), List.getElem?_eq_none (by omega)]

/-- The events stored for a position: those of the last frame read there, or no events. -/
def lastEvents (cf : List Nat → List Nat) (fs : List Frame) (p : Nat) : List Nat :=
  match (fs.filter fun f => f.1 = p).getLast? with
  | none => []
  | some f => cf f.2

private theorem lastEvents_append (cf : List Nat → List Nat) (fs : List Frame) (f : Frame) (p : Nat) :
    lastEvents cf (fs ++ [f]) p = if f.1 = p then cf f.2 else lastEvents cf fs p := by
  unfold lastEvents
  rw [List.filter_append]
  by_cases h : f.1 = p
  · simp [h]
  · simp [h]

/-- Block-wise counting applies the per-frame counting to each frame; `cf` is its result. -/
structure ClassicOK (w h W H : Nat) (bs : List (List Frame))
    (count : Nat × Nat → List Rat → Outcome (List Nat)) (cf : List Nat → List Nat) : Prop
    extends StackBlocksOK w h bs where
  pos : 0 < w * h
  Wpos : 0 < W
  Hpos : 0 < H
  scan : W * H < 2 ^ 32
  inScan : ∀ f ∈ bs.flatten, f.1 < W * H
  counts : ∀ f ∈ bs.flatten, count (w, h) (pixels f.2) = .ok (cf f.2)

private theorem classic_block {w h P : Nat} {count : Nat × Nat → List Rat → Outcome (List Nat)}
    {cf : List Nat → List Nat} (hs : Nat × Nat) {fs pre : List Frame}
    (hlen : ∀ f ∈ fs, f.2.length = w * h) (hwh : w * h < 2 ^ 32)
    (hsz : fs.length * (w * h) ≤ 2 ^ 32) (hpos : 0 < w * h) (hin : ∀ f ∈ fs, f.1 < P)
    (hcount : ∀ f ∈ fs, count (w, h) (pixels f.2) = .ok (cf f.2)) :
    (List.range (mkBlock hs (w, h) fs).imagesInBlock).foldlM (fun events i => do
          let frame ← copyFrame (mkBlock hs (w, h) fs).data (w, h) i
          let ev ← count (w, h) frame
          let n ← readAt (mkBlock hs (w, h) fs).imageNumbers i
          let cell ← readAt events n
          let cell ← writeAt cell 0 ev
          writeAt events n cell) ((List.range P).map fun p => [lastEvents cf pre p]) =
      .ok ((List.range P).map fun p => [lastEvents cf (pre ++ fs) p]) := by
  simp only [mkBlock]
  obtain ⟨r, h1, h2⟩ := foldlM_range_inv fs.length (fun (events : List (List (List Nat))) i => do
          let frame ← copyFrame (fs.map (·.2)).flatten (w, h) i
          let ev ← count (w, h) frame
          let n ← readAt (fs.map (·.1)) i
          let cell ← readAt events n
          let cell ← writeAt cell 0 ev
          writeAt events n cell)
    (fun k ev => ev = (List.range P).map fun p => [lastEvents cf (pre ++ fs.take k) p])
    ((List.range P).map fun p => [lastEvents cf pre p]) (by simp)
    (by
      rintro k hk ev rfl
      have hm : fs[k] ∈ fs := List.getElem_mem hk
      have hg : fs[k]? = some fs[k] := List.getElem?_eq_getElem hk
      have hp := hin _ hm
      have r1 : readAt (fs.map (·.1)) k = .ok fs[k].1 := by
        rw [readAt_eq_ok]; simp [hk]
      have r2 : readAt ((List.range P).map fun p => [lastEvents cf (pre ++ fs.take k) p]) fs[k].1 =
          .ok [lastEvents cf (pre ++ fs.take k) fs[k].1] := by
        rw [readAt_eq_ok]; simp [hp]
      simp only [copyFrame_ok hlen hwh hsz hpos hg, hcount _ hm, r1, r2, Outcome.ok_bind]
      rw [writeAt_lt (by simp), Outcome.ok_bind, writeAt_lt (by simpa using hp)]
      refine ⟨_, rfl, ?_⟩
      apply List.ext_getElem?
      intro p
      have htake : pre ++ fs.take (k + 1) = (pre ++ fs.take k) ++ [fs[k]] := by
        rw [List.take_add_one, hg]; simp
      rw [htake]
      simp only [lastEvents_append]
      by_cases hpk : p = fs[k].1
      · subst hpk
        rw [List.getElem?_set_self (by simpa using hp)]
        simp [hp]
      · rw [List.getElem?_set_ne (fun h => hpk h.symm)]
        by_cases hpP : p < P
        · simp [hpP, if_neg (fun h : fs[k].1 = p => hpk h.symm)]
        · simp [hpP])
  rw [h1, h2, List.take_length]

/-- **C13** Block-wise electron counting returns one frame per scan position, holding the events of the last
frame read for this position, and no events when there is none. -/
theorem C13_classic {w h W H : Nat} {bs : List (List Frame)}
    {count : Nat × Nat → List Rat → Outcome (List Nat)} {cf : List Nat → List Nat} (hs : Nat × Nat)
    (ok : ClassicOK w h W H bs count cf) :
    electronCountClassic count (bs.map (mkBlock hs (w, h))) (W, H) =
      .ok ((W, H), (List.range (W * H)).map fun p => [lastEvents cf bs.flatten p]) := by
  obtain ⟨fs, bs', rfl⟩ := List.exists_cons_of_ne_nil ok.blocks
  have hW := ok.Wpos
  have hH := ok.Hpos
  have e : electronCountClassic count ((fs :: bs').map (mkBlock hs (w, h))) (W, H) =
      (do
      let events ← ((fs :: bs').map (mkBlock hs (w, h))).foldlM (fun events b =>
        (List.range b.imagesInBlock).foldlM (fun events i => do
          let frame ← copyFrame b.data (w, h) i
          let ev ← count (w, h) frame
          let n ← readAt b.imageNumbers i
          let cell ← readAt events n
          let cell ← writeAt cell 0 ev
          writeAt events n cell) events) (List.replicate ((W * H) % 2 ^ 32) [[]])
      pure ((W, H), events)) := by
    have c1 : ¬ (W = 0 ∨ H = 0) := by omega
    unfold electronCountClassic
    simp only [List.map_cons, if_neg c1]
    rfl
  rw [e]
  have key : ∀ (l : List (List Frame)) (pre : List Frame), (∀ b ∈ l, b ∈ fs :: bs') →
      (l.map (mkBlock hs (w, h))).foldlM (fun events b =>
        (List.range b.imagesInBlock).foldlM (fun events i => do
          let frame ← copyFrame b.data (w, h) i
          let ev ← count (w, h) frame
          let n ← readAt b.imageNumbers i
          let cell ← readAt events n
          let cell ← writeAt cell 0 ev
          writeAt events n cell) events)
        ((List.range (W * H)).map fun p => [lastEvents cf pre p]) =
      .ok ((List.range (W * H)).map fun p => [lastEvents cf (pre ++ l.flatten) p]) := by
    intro l
    induction l with
    | nil => intro pre _; simp
    | cons b l ih =>
      intro pre hmem
      have hb := hmem b (by simp)
      have hfl : ∀ f ∈ b, f ∈ (fs :: bs').flatten := fun f hf => List.mem_flatten.2 ⟨b, hb, hf⟩
      rw [List.map_cons, List.foldlM_cons, classic_block hs (ok.len b hb) ok.size
        (ok.blockSize b hb) ok.pos (fun f hf => ok.inScan f (hfl f hf))
        (fun f hf => ok.counts f (hfl f hf)), Outcome.ok_bind,
        ih (pre ++ b) (fun c hc => hmem c (by simp [hc]))]
      simp
  have hinit : (List.replicate ((W * H) % 2 ^ 32) [[]] : List (List (List Nat))) =
      (List.range (W * H)).map fun p => [lastEvents cf [] p] := by
    rw [Nat.mod_eq_of_lt ok.scan]
    simp [lastEvents]
  rw [hinit, key (fs :: bs') [] (by simp)]
  simp

/-- **C13** reading of `C13_classic` for a position with exactly one frame, and without frame. -/
theorem C13_once {cf : List Nat → List Nat} {fs : List Frame} {p : Nat} :
    (∀ px, fs.filter (fun f => f.1 = p) = [(p, px)] → lastEvents cf fs p = cf px) ∧
    ((∀ f ∈ fs, f.1 ≠ p) → lastEvents cf fs p = []) := by
  unfold lastEvents
  constructor
  · intro px h; rw [h]; rfl
  · intro h
    have : fs.filter (fun f => decide (f.1 = p)) = [] := by
      rw [List.filter_eq_nil_iff]; intro f hf; simpa using h f hf
    rw [this]; rfl

/-- **C13** an earlier frame at the same position is lost. -/
theorem C13_duplicate_lost {cf : List Nat → List Nat} (pre post : List Frame) (p : Nat) (px : List Nat)
    (h : ∀ f ∈ post, f.1 ≠ p) : lastEvents cf (pre ++ (p, px) :: post) p = cf px := by
  unfold lastEvents
  have : post.filter (fun f => decide (f.1 = p)) = [] := by
    rw [List.filter_eq_nil_iff]; intro f hf; simpa using h f hf
  rw [List.filter_append, List.filter_cons, this]
  simp

/-- **C13** and **C12** together: block-wise counting with dark reference and gain stores at each scan position
that received exactly one frame the event list of that frame. -/
theorem C13_events {o : CountOptions} {w h W H : Nat} {bs : List (List Frame)} {dark gain : List Rat}
    (hs : Nat × Nat) (sok : StackBlocksOK w h bs) (hw : w < 65536) (hh : h < 65536)
    (h2 : 1 < w * h) (hbg : 0 ≤ o.bg) (hW : 0 < W) (hH : 0 < H) (hWH : W * H < 2 ^ 32)
    (hin : ∀ f ∈ bs.flatten, f.1 < W * H) (hrd : o.rowDark = none) (hft : o.ft = .f32)
    (hg : o.gain = some gain) (hgl : gain.length = w * h)
    (hd : o.dark = some dark) (hdl : dark.length = w * h) :
    ∃ events : List (List (List Nat)),
      electronCountClassic (countFrameClassic o) (bs.map (mkBlock hs (w, h))) (W, H) =
        .ok ((W, H), events) ∧ events.length = W * H ∧
      ∀ p px, bs.flatten.filter (fun f => f.1 = p) = [(p, px)] →
        ∃ ev, events[p]? = some [ev] ∧
          IsEventList o.bg o.xr w h (floatValue o.dark gain px) ev := by
  let cf : List Nat → List Nat := fun px =>
    match countFrameClassic o (w, h) (pixels px) with | .ok ev => ev | _ => []
  have fok : ∀ f ∈ bs.flatten, FrameOK w h f.2 o.bg := fun f hf =>
    ⟨hw, hh, sok.size, h2, sok.lenFlat f hf, hbg⟩
  have cok : ClassicOK w h W H bs (countFrameClassic o) cf :=
    { sok with
      pos := by omega
      Wpos := hW
      Hpos := hH
      scan := hWH
      inScan := hin
      counts := by
        intro f hf
        obtain ⟨ev, e1, _⟩ := C12_classic_gain (fok f hf) hrd hft hg hgl hd hdl
        simp only [cf, e1] }
  refine ⟨_, C13_classic hs cok, by simp, ?_⟩
  intro p px honce
  have hm : (p, px) ∈ bs.flatten := by
    have : (p, px) ∈ bs.flatten.filter (fun f => decide (f.1 = p)) := by rw [honce]; simp
    exact (List.mem_filter.1 this).1
  obtain ⟨ev, e1, e2⟩ := C12_classic_gain (fok _ hm) hrd hft hg hgl hd hdl
  have hp := hin _ hm
  refine ⟨ev, ?_, e2⟩
  have hcf : cf px = ev := by simp only [cf]; rw [e1]
  simp only [List.getElem?_map, List.getElem?_range hp, Option.map_some]
  rw [C13_once.1 px honce, hcf]

/-- **C13** errors: no blocks, no scan size. -/
theorem C13_errors (count : Nat × Nat → List Rat → Outcome (List Nat)) (scan : Nat × Nat) :
    electronCountClassic count [] scan = .throw "No blocks to read!" ∧
    ∀ b bs, (scan.1 = 0 ∨ scan.2 = 0) → (b.scanDims.1 = 0 ∨ b.scanDims.2 = 0) →
      electronCountClassic count (b :: bs) scan = .throw "No scan image size provided." := by
  refine ⟨rfl, ?_⟩
  intro b bs h1 h2
  unfold electronCountClassic
  simp only [if_pos h1, if_pos h2]

/-- **C13** A frame outside of the scan is written out of bounds. -/
theorem C13_out_of_scan : electronCountClassic (fun _ _ => .ok []) [mkBlock (1, 1) (1, 1) [(5, [1])]] (1, 1) =
    .ub := by decide +kernel

example : ClassicOK 2 1 2 1 [[(1, [3, 4])], [(1, [5, 1])]] (fun _ _ => .ok [7]) (fun _ => [7]) := by
  constructor
  · constructor <;> simp
  all_goals simp

/-! ### C15 -/

/-- **C15** With a gain (or with row dark correction) the two paths compute the same, provided there is a dark
reference. -/
theorem C15_gain_partial (o : CountOptions) (dims : Nat × Nat) (frame : List Rat)
    (hd : o.dark ≠ none) (h : o.ft = .f32 ∨ o.rowDark ≠ none) :
    countFrameClassic o dims frame = countFrameStream o dims frame := by
  unfold countFrameClassic countFrameStream
  cases hr : o.rowDark with
  | some s => rfl
  | none =>
    have hf : o.ft = .f32 := by
      rcases h with h | h
      · exact h
      · exact absurd hr h
    have : classicPixel o.ft o.bg o.xr o.dark o.gain = streamPixel o.ft o.bg o.xr o.dark o.gain := by
      funext j v
      unfold classicPixel streamPixel
      obtain ⟨d, hd⟩ := Option.ne_none_iff_exists'.1 hd
      rw [hf, hd]
      cases h1 : readPtr (some d) j with
      | ok a => cases h2 : readPtr o.gain j <;> simp
      | throw m => simp
      | ub => simp
    simp only [this]

/-- **C15** Without gain the two paths agree when the dark reference is integral and nowhere above the
pixel. -/
theorem C15_u16_partial (o : CountOptions) {w h : Nat} {frame : List Nat} {dark : List Nat}
    (hd : o.dark = some (pixels dark)) (hs : w * h < 2 ^ 32) (hl : frame.length = w * h)
    (hdl : dark.length = w * h) (hft : o.ft = .u16)
    (hpx : ∀ v ∈ frame, v < 65536)
    (hle : ∀ j, j < w * h → dark.getD j 0 ≤ frame.getD j 0) :
    countFrameClassic o (w, h) (pixels frame) = countFrameStream o (w, h) (pixels frame) := by
  unfold countFrameClassic countFrameStream
  cases hr : o.rowDark with
  | some s => rfl
  | none =>
    have hlp : (pixels frame).length = w * h := by simp [pixels, hl]
    have key : ∀ j, j < w * h →
        classicPixel o.ft o.bg o.xr o.dark o.gain j ((frame.getD j 0 : Nat) : Rat) =
          .ok (eligible o.bg o.xr ((frame.getD j 0 - dark.getD j 0 : Nat) : Rat)) ∧
        streamPixel o.ft o.bg o.xr o.dark o.gain j ((frame.getD j 0 : Nat) : Rat) =
          .ok (eligible o.bg o.xr ((frame.getD j 0 - dark.getD j 0 : Nat) : Rat)) := by
      intro j hj
      have hjf : j < frame.length := by omega
      have hv : frame.getD j 0 < 65536 := hpx _ (by simp [hjf])
      have hle' := hle j hj
      have hrd : readPtr (some (pixels dark)) j = .ok ((dark.getD j 0 : Nat) : Rat) := by
        rw [readPtr_some (n := w * h) (by simp [pixels, hdl]) hj]
        have : j < dark.length := by omega
        simp [pixels, this]
      generalize hF : frame.getD j 0 = F at *
      generalize hD : dark.getD j 0 = D at *
      have hcast : (F : Rat) - (D : Rat) = ((F - D : Nat) : Rat) := by
        rw [Nat.cast_sub hle']
      have htz : ∀ n : Nat, truncZero (n : Rat) = n := by
        intro n
        unfold truncZero
        rw [if_neg (not_lt.2 (Nat.cast_nonneg n)), Int.floor_natCast]
      have hu : ∀ n : Nat, n < 65536 → toU16 (n : Rat) = .ok (n : Rat) := by
        intro n hn
        have h0 : (0 : Rat) ≤ n := Nat.cast_nonneg n
        rw [toU16_ok (by linarith) (by exact_mod_cast hn), htz]
        simp
      constructor
      · unfold classicPixel
        rw [hft, hd, hrd]
        simp only [Outcome.ok_bind, Outcome.pure_eq, hcast, hu _ (show F - D < 65536 by omega),
          thresholdPixel_eq]
      · unfold streamPixel
        rw [hft, hd]
        simp only [hrd, Outcome.ok_bind, Outcome.pure_eq, hu _ (show D < 65536 by omega), hcast,
          thresholdPixel_eq, wrapU16]
        have : (⌊((F - D : Nat) : Rat)⌋ % 65536 : Int) = ((F - D : Nat) : Int) := by
          rw [Int.floor_natCast]; omega
        rw [this]
        simp
    simp only [Nat.mod_eq_of_lt hs]
    rw [forPixels_ok hlp _ (fun j hj => by rw [pixels_get hj]; exact (key j (by omega)).1),
      forPixels_ok hlp _ (fun j hj => by rw [pixels_get hj]; exact (key j (by omega)).2)]

/-- **C15** is false in general. With a fractional dark value (5 - 2.5) the block-wise path truncates the
difference and the streaming path the dark value. -/
theorem C15_fractional_dark_disagrees :
    let o : CountOptions :=
      { ft := .u16, bg := 2, xr := 100, dark := some [5 / 2, 0], gain := none, rowDark := none,
        optMean := 0 }
    countFrameClassic o (2, 1) (pixels [5, 0]) = .ok [] ∧
      countFrameStream o (2, 1) (pixels [5, 0]) = .ok [0] := by decide +kernel

/-- **C15** is false in general. When the dark value exceeds the pixel, the streaming path wraps around and may
report the pixel, while the block-wise path has undefined behaviour (conversion of a negative value). -/
theorem C15_dark_above_pixel_disagrees :
    let o : CountOptions :=
      { ft := .u16, bg := 2, xr := 70000, dark := some [1, 0], gain := none, rowDark := none,
        optMean := 0 }
    countFrameClassic o (2, 1) (pixels [0, 5]) = .ub ∧
      countFrameStream o (2, 1) (pixels [0, 5]) = .ok [0] := by decide +kernel

/-- the agreement theorem applies to a frame with an integral dark reference -/
example :
    let o : CountOptions :=
      { ft := .u16, bg := 2, xr := 70000, dark := some (pixels [1, 5]), gain := none, rowDark := none,
        optMean := 0 }
    countFrameClassic o (2, 1) (pixels [7, 5]) = countFrameStream o (2, 1) (pixels [7, 5]) :=
  C15_u16_partial _ (w := 2) (h := 1) rfl (by norm_num) rfl rfl rfl (by decide) (by decide)

end Stempy.Props
