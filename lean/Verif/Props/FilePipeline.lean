import Verif.Model.FilePipeline
import Verif.Props.StreamReader
import Verif.Props.RawFile
import Verif.Props.EndToEnd
import Verif.Props.Iteration

/-!
C88: block-wise counting of stream files and of HDF5 files of raw data.
-/

namespace Stempy.Props
open Stempy.Spec Stempy.FilePipeline
open Stempy.Electron (CountOptions countFrameClassic electronCountClassic)

/-! ### Specification -/

/-- The frames of a block of the formats 1 to 3 with frames of `w × h` pixels. -/
def blockFrames (w h : Nat) (b : StreamReader.Block) : List Spec.Frame :=
  (List.range b.header.imageNumbers.length).map fun i => (b.header.imageNumbers.getD i 0, (b.data.drop (i * (w * h))).take (w * h))

/-- A frame in a scan of `W` columns. -/
def toScan (W : Nat) (f : Spec.Frame) : ScanFrame := ⟨f.1 % W, f.1 / W, 0, f.2⟩

/-- What is stated of the counting of `frames`: the only result has at each position the events of the last frame of the position (none, if
there is no frame), and if no position has two frames, the array and, for square frames, the file and the images are those of the frames. -/
structure CountedFrames {S : Type} (R : Reader S) (o : BlockPipeline.Setup) (s : S) (options : CountOptions) (w h W H : Nat)
    (frames : List Spec.Frame) (value : List Nat → Nat → Rat) (events : List (List (List Nat))) (ev : List Nat → List Nat) : Prop where
  result : ∀ r, Counts R o s r ↔ r = .ok ((W, H), events)
  length : events.length = W * H
  counted : ∀ f ∈ frames, IsEventList options.bg options.xr w h (value f.2) (ev f.2)
  last : ∀ p < W * H, events[p]? = some [((frames.filter fun f => f.1 = p).getLast?.map fun f => ev f.2).getD []]
  images : (frames.map fun f => f.1).Nodup → w = h → Results W H ⟨events, (W, H), (w, h)⟩ (frames.map (toScan W)) (fun f => ev f.pixels) w

/-! ### The call -/

private theorem readAll_unique {S : Type} {R : Reader S} {s : S} {r r' : Outcome (List Image.Block)} (h : ReadAll R s r) (h' : ReadAll R s r') :
    r = r' := by
  induction h generalizing r' with
  | done e => cases h' with
    | done => rfl
    | throw e' => rw [e] at e'; simp at e'
    | ub e' => rw [e] at e'; simp at e'
    | step e' => rw [e] at e'; simp at e'
  | throw e => cases h' with
    | done e' => rw [e] at e'; simp at e'
    | throw e' => rw [e] at e'; simp at e'; rw [e'.1]
    | ub e' => rw [e] at e'; simp at e'
    | step e' => rw [e] at e'; simp at e'
  | ub e => cases h' with
    | done e' => rw [e] at e'; simp at e'
    | throw e' => rw [e] at e'; simp at e'
    | ub => rfl
    | step e' => rw [e] at e'; simp at e'
  | step e _ ih => cases h' with
    | done e' => rw [e] at e'; simp at e'
    | throw e' => rw [e] at e'; simp at e'
    | ub e' => rw [e] at e'; simp at e'
    | step e' h2 =>
      rw [e] at e'
      simp at e'
      obtain ⟨rfl, rfl⟩ := e'
      rw [ih h2]

private theorem readAll_congr {S : Type} {R : Reader S} {s s' : S} {r : Outcome (List Image.Block)} (h : ReadAll R s r)
    (e : R.read s' = R.read s) : ReadAll R s' r := by
  cases h with
  | done h => exact .done (e.trans h)
  | throw h => exact .throw (e.trans h)
  | ub h => exact .ub (e.trans h)
  | step h h2 => exact .step (e.trans h) h2

private theorem classic_scan {w h W H : Nat} {count : Nat × Nat → List Rat → Outcome (List Nat)} {blocks : List Image.Block}
    {bs : List (List Spec.Frame)} (hb2 : List.Forall₂ (fun b fs => ∃ d, b = mkBlock d (w, h) fs) blocks bs) {scan : Nat × Nat}
    (hW : 0 < W) (hH : 0 < H) (hscan : scan = (W, H) ∨ ((scan.1 = 0 ∨ scan.2 = 0) ∧ ∀ b ∈ blocks.head?, b.scanDims = (W, H))) :
    electronCountClassic count blocks scan = electronCountClassic count (bs.map (mkBlock (W, H) (w, h))) (W, H) := by
  have key : ∀ {blocks : List Image.Block} {bs : List (List Spec.Frame)},
      List.Forall₂ (fun b fs => ∃ d, b = mkBlock d (w, h) fs) blocks bs → ∀ events : List (List (List Nat)),
      blocks.foldlM (fun events b =>
        (List.range b.imagesInBlock).foldlM (fun events i => do
          let frame ← Electron.copyFrame b.data (w, h) i
          let ev ← count (w, h) frame
          let m ← readAt b.imageNumbers i
          let cell ← readAt events m
          let cell ← writeAt cell 0 ev
          writeAt events m cell) events) events =
      (bs.map (mkBlock (W, H) (w, h))).foldlM (fun events b =>
        (List.range b.imagesInBlock).foldlM (fun events i => do
          let frame ← Electron.copyFrame b.data (w, h) i
          let ev ← count (w, h) frame
          let m ← readAt b.imageNumbers i
          let cell ← readAt events m
          let cell ← writeAt cell 0 ev
          writeAt events m cell) events) events := by
    intro blocks bs hb2
    induction hb2 with
    | nil => intro _; rfl
    | cons hb _ ih =>
      intro events
      obtain ⟨d, rfl⟩ := hb
      rw [List.map_cons, List.foldlM_cons, List.foldlM_cons]
      refine congrArg₂ _ rfl (funext fun e => ih e)
  cases hb2 with
  | nil => rfl
  | @cons b fs blocks bs hb hb3 =>
    have hk := key (.cons hb hb3)
    obtain ⟨d, rfl⟩ := hb
    have hs : (if scan.1 = 0 ∨ scan.2 = 0 then (mkBlock d (w, h) fs).scanDims else scan) = (W, H) := by
      rcases hscan with rfl | ⟨h0, hd⟩
      · rw [if_neg (by simp; omega)]
      · rw [if_pos h0]
        exact hd _ (by simp)
    have h0 : ¬ ((W, H).1 = 0 ∨ (W, H).2 = 0) := by simp; omega
    rw [electronCountClassic, List.map_cons, electronCountClassic]
    simp only [hs]
    rw [if_neg h0, if_neg h0, if_neg h0]
    have := hk (List.replicate ((W * H) % 2 ^ 32) [[]])
    rw [List.map_cons] at this
    exact congrArg (fun x : Outcome (List (List (List Nat))) => x.bind fun events => Outcome.ok ((W, H), events)) this

private theorem counted_frames {S : Type} {R : Reader S} {o : BlockPipeline.Setup} {s t : S} {sampled blocks : List Image.Block}
    {options : CountOptions} {w h W H : Nat} {bs : List (List Spec.Frame)} {value : List Nat → Nat → Rat}
    (hs : FilePipeline.sample R o.numBlocks s = (.ok sampled, t)) (ho : o.options sampled = .ok options)
    (hread : ReadAll R (R.reset t) (.ok blocks)) (hblk : List.Forall₂ (fun b fs => ∃ d, b = mkBlock d (w, h) fs) blocks bs)
    (sok : StackBlocksOK w h bs) (hn : 1 < w * h) (hW : 0 < W) (hH : 0 < H) (hWH : W * H < 2 ^ 32)
    (hscan : o.scan = (W, H) ∨ ((o.scan.1 = 0 ∨ o.scan.2 = 0) ∧ ∀ b ∈ blocks.head?, b.scanDims = (W, H)))
    (hin : ∀ f ∈ bs.flatten, f.1 < W * H)
    (hcount : ∀ f ∈ bs.flatten, ∃ ev, countFrameClassic options (w, h) (pixels f.2) = .ok ev ∧
      IsEventList options.bg options.xr w h (value f.2) ev) :
    ∃ events ev, CountedFrames R o s options w h W H bs.flatten value events ev := by
  let cf : List Nat → List Nat := fun px =>
    match countFrameClassic options (w, h) (pixels px) with | .ok ev => ev | _ => []
  have hcf : ∀ f ∈ bs.flatten, countFrameClassic options (w, h) (pixels f.2) = .ok (cf f.2) ∧
      IsEventList options.bg options.xr w h (value f.2) (cf f.2) := by
    intro f hf
    obtain ⟨ev, e1, e2⟩ := hcount f hf
    have : cf f.2 = ev := by simp only [cf, e1]
    rw [this]
    exact ⟨e1, e2⟩
  have cok : ClassicOK w h W H bs (countFrameClassic options) cf :=
    { sok with
      pos := by omega
      Wpos := hW
      Hpos := hH
      scan := hWH
      inScan := hin
      counts := fun f hf => (hcf f hf).1 }
  have hlast : ∀ p < W * H, ((List.range (W * H)).map fun p => [lastEvents cf bs.flatten p])[p]? =
      some [((bs.flatten.filter fun f => f.1 = p).getLast?.map fun f => cf f.2).getD []] := by
    intro p hp
    rw [List.getElem?_map, List.getElem?_range hp, Option.map_some]
    unfold lastEvents
    cases (bs.flatten.filter fun f => f.1 = p).getLast? <;> rfl
  refine ⟨_, cf, ?_, ?_, fun f hf => (hcf f hf).2, hlast, ?_⟩
  · intro r
    unfold Counts
    rw [hs]
    simp only [ho]
    constructor
    · rintro ⟨r', h1, rfl⟩
      rw [← readAll_unique hread h1]
      exact (classic_scan hblk hW hH hscan).trans (C13_classic (W, H) cok)
    · rintro rfl
      exact ⟨_, hread, ((classic_scan hblk hW hH hscan).trans (C13_classic (W, H) cok)).symm⟩
  · simp
  · intro hnd hsq
    subst hsq
    refine results_of_rows (m := 1) (Nat.le_of_lt sok.size) (by simp) (Nat.mul_pos hW hH) hWH ?_ ?_
    · intro X Y hX hY
      have hp := flat_lt hX hY
      rw [hlast _ hp]
      have hfil : ((bs.flatten.map (toScan W)).filter fun f => f.x = X ∧ f.y = Y) =
          (bs.flatten.filter fun f => f.1 = Y * W + X).map (toScan W) := by
        rw [List.filter_map]
        congr 1
        refine List.filter_congr fun f _ => ?_
        simp only [Function.comp, toScan]
        refine decide_eq_decide.2 ⟨?_, ?_⟩
        · rintro ⟨rfl, rfl⟩
          rw [Nat.mul_comm, Nat.div_add_mod]
        · intro e
          rw [e]
          exact ⟨flat_mod Y hX, flat_div Y hX⟩
      rw [hfil, List.map_map]
      cases hl : bs.flatten.filter fun f => f.1 = Y * W + X with
      | nil => exact ⟨[], by simp, by simp, rfl⟩
      | cons f l =>
        have : l = [] := by
          have h1 : ((bs.flatten.filter fun f => f.1 = Y * W + X).map fun f => f.1).Nodup :=
            hnd.sublist (List.filter_sublist.map _)
          have hmem : ∀ g ∈ f :: l, g.1 = Y * W + X := by
            intro g hg
            rw [← hl] at hg
            simpa using (List.mem_filter.1 hg).2
          rw [hl] at h1
          cases l with
          | nil => rfl
          | cons g l =>
            rw [List.map_cons, List.map_cons, List.nodup_cons] at h1
            rw [hmem f (by simp), hmem g (by simp)] at h1
            simp at h1
        subst this
        exact ⟨[cf f.2], by simp [toScan], by simp, rfl⟩
    · intro f hf
      obtain ⟨g, hg, rfl⟩ := List.mem_map.1 hf
      exact ⟨(hcf g hg).2.onDetector, (hcf g hg).2.sorted.imp (fun h => Nat.ne_of_lt h)⟩

/-! ### Chunks of the pixels -/

private theorem chunk_flatten (m : Nat) (k : Nat) (l : List Nat) (h : l.length = k * m) :
    ((List.range k).map fun i => (l.drop (i * m)).take m).flatten = l := by
  induction k generalizing l with
  | zero =>
    have : l = [] := List.length_eq_zero_iff.1 (by simpa using h)
    simp [this]
  | succ k ih =>
    rw [List.range_succ_eq_map, List.map_cons, List.flatten_cons, List.map_map]
    have h1 : (List.range k).map ((fun i => (l.drop (i * m)).take m) ∘ Nat.succ) =
        (List.range k).map fun i => ((l.drop m).drop (i * m)).take m := by
      refine List.map_congr_left fun i _ => ?_
      simp only [Function.comp]
      rw [List.drop_drop]
      congr 2
      rw [Nat.succ_mul]
      omega
    rw [h1, ih (l.drop m) (by rw [List.length_drop, h, Nat.succ_mul]; omega), Nat.zero_mul, List.drop_zero, List.take_append_drop]

private theorem written_sizes {v : Nat} {bytes : List UInt8} {b : StreamReader.Block} (h : Written v bytes b) :
    b.header.imagesInBlock = b.header.imageNumbers.length ∧
    b.data.length = b.header.imageNumbers.length * (b.header.frameDimensions.1 * b.header.frameDimensions.2) ∧
    b.data.length ≤ 2 ^ 32 ∧ ∀ x ∈ b.data, x < 65536 := by
  cases h with
  | v1 hn hr hw hnum hd hs hp => exact ⟨rfl, by rw [hd]; exact Nat.mul_comm _ _, Nat.le_of_lt hs, hp⟩
  | v2 hd hp => exact ⟨by simp, by simp only [List.length_range]; rw [hd], by rw [hd]; norm_num, hp⟩
  | v3 h1 h2 h3 h4 h5 h6 hd hp => exact ⟨by simp, by simp only [List.length_singleton]; rw [hd], by rw [hd]; norm_num, hp⟩

private theorem chunk_length {m k i : Nat} {l : List Nat} (h : l.length = k * m) (hi : i < k) : ((l.drop (i * m)).take m).length = m := by
  rw [List.length_take, List.length_drop, h]
  have : (i + 1) * m ≤ k * m := Nat.mul_le_mul_right m hi
  rw [Nat.succ_mul] at this
  omega

theorem written_frames {v w h : Nat} {bytes : List UInt8} {b : StreamReader.Block} (hwr : Written v bytes b)
    (hn : b.header.frameDimensions = (w, h)) :
    (∃ d, ofStream b = mkBlock d (w, h) (blockFrames w h b)) ∧ (blockFrames w h b).length * (w * h) ≤ 2 ^ 32 ∧
    ∀ f ∈ blockFrames w h b, f.2.length = w * h ∧ ∀ x ∈ f.2, x < 65536 := by
  obtain ⟨h1, h2, h3, h4⟩ := written_sizes hwr
  rw [hn] at h2
  simp only at h2
  refine ⟨⟨b.header.scanDimensions, ?_⟩, ?_, ?_⟩
  · unfold ofStream mkBlock blockFrames
    rw [hn, h1]
    simp only [List.length_map, List.length_range, List.map_map, Function.comp_def]
    rw [chunk_flatten (w * h) _ b.data h2]
    have : (List.range b.header.imageNumbers.length).map (fun i => b.header.imageNumbers.getD i 0) = b.header.imageNumbers := by
      refine List.ext_getElem (by simp) fun i h1 h2 => ?_
      simp [h2]
    rw [this]
  · unfold blockFrames
    rw [List.length_map, List.length_range, ← h2]
    exact h3
  · intro f hf
    unfold blockFrames at hf
    obtain ⟨i, hi, rfl⟩ := List.mem_map.1 hf
    refine ⟨chunk_length h2 (List.mem_range.1 hi), fun x hx => h4 x ?_⟩
    exact List.mem_of_mem_drop (List.mem_of_mem_take hx)

/-! ### Stream files -/

private theorem reads_readAll {v : Nat} {files : List StreamReader.File} {s t : StreamReader.State} {bs : List StreamReader.Block}
    (h : Spec.Reads v s bs t) {u : StreamReader.State} (he : StreamReader.read v t = (.ok none, u)) :
    ReadAll (streamReader v files) s (.ok (bs.map ofStream)) := by
  induction h with
  | nil s =>
    refine .done (t := u) ?_
    show convert (StreamReader.read v s) = _
    rw [he]
    rfl
  | @cons s t _ b bs h1 _ ih =>
    have := ReadAll.step (R := streamReader v files) (s := s) (t := t) (b := ofStream b) (by
      show convert (StreamReader.read v s) = _
      rw [h1]
      rfl) (ih he)
    exact this

private theorem reset_readAll {v : Nat} {f : List UInt8} {files : List (List UInt8)} {bss : List (List StreamReader.Block)}
    (hf : List.Forall₂ (Records v) (f :: files) bss) (s : StreamReader.State) :
    ReadAll (streamReader v ((f :: files).map some)) ((streamReader v ((f :: files).map some)).reset s)
      (.ok (bss.flatten.map ofStream)) := by
  obtain ⟨s0, t, h1, h2, h3, _⟩ := C21_round_trip hf
  have h4 := reads_readAll (files := (f :: files).map some) h2 h3
  have : s0 = ⟨some f, files.map some⟩ := by
    have h1 : (Outcome.ok ⟨some f, files.map some⟩ : Outcome StreamReader.State) = .ok s0 := h1
    injection h1 with h1
    exact h1.symm
  subst this
  exact readAll_congr h4 rfl

theorem records_all {v : Nat} {files : List (List UInt8)} {bss : List (List StreamReader.Block)}
    (hf : List.Forall₂ (Records v) files bss) : ∀ b ∈ bss.flatten, ∃ bytes, Written v bytes b := by
  induction hf with
  | nil => simp
  | cons h1 _ ih =>
    intro b hb
    rw [List.flatten_cons, List.mem_append] at hb
    rcases hb with hb | hb
    · obtain ⟨rs, h, e⟩ := h1
      clear ih e
      induction h with
      | nil => cases hb
      | cons hw _ ih2 =>
        rcases List.mem_cons.1 hb with rfl | hb
        · exact ⟨_, hw⟩
        · exact ih2 hb
    · exact ih b hb

private theorem stream_counted {v w h W H : Nat} {files : List (List UInt8)} {bss : List (List StreamReader.Block)}
    (hf : List.Forall₂ (Records v) files bss) (hn : ∀ b ∈ bss.flatten, b.header.frameDimensions = (w, h)) (hn2 : 1 < w * h)
    (hw16 : w < 65536) (hh16 : h < 65536) (hne : bss.flatten ≠ []) (hW : 0 < W) (hH : 0 < H) (hWH : W * H < 2 ^ 32) {o : BlockPipeline.Setup}
    (hscan : o.scan = (W, H) ∨ ((o.scan.1 = 0 ∨ o.scan.2 = 0) ∧ ∀ b ∈ bss.flatten.head?, b.header.scanDimensions = (W, H)))
    (hin : ∀ b ∈ bss.flatten, ∀ p ∈ b.header.imageNumbers, p < W * H) (s : StreamReader.State) {t : StreamReader.State}
    {sampled : List Image.Block} (hs : FilePipeline.sample (streamReader v (files.map some)) o.numBlocks s = (.ok sampled, t))
    {options : CountOptions} (ho : o.options sampled = .ok options) {value : List Nat → Nat → Rat}
    (hcount : ∀ px : List Nat, px.length = w * h → (∀ x ∈ px, x < 65536) →
      ∃ ev, countFrameClassic options (w, h) (pixels px) = .ok ev ∧ IsEventList options.bg options.xr w h (value px) ev) :
    ∃ events ev, CountedFrames (streamReader v (files.map some)) o s options w h W H (bss.flatten.map (blockFrames w h)).flatten value events ev := by
  have hrec := records_all hf
  have hfr : ∀ b ∈ bss.flatten, (∃ d, ofStream b = mkBlock d (w, h) (blockFrames w h b)) ∧ (blockFrames w h b).length * (w * h) ≤ 2 ^ 32 ∧
      ∀ f ∈ blockFrames w h b, f.2.length = w * h ∧ ∀ x ∈ f.2, x < 65536 := by
    intro b hb
    obtain ⟨bytes, hwr⟩ := hrec b hb
    exact written_frames hwr (hn b hb)
  have hread : ReadAll (streamReader v (files.map some)) ((streamReader v (files.map some)).reset t) (.ok (bss.flatten.map ofStream)) := by
    cases hf with
    | nil => simp at hne
    | cons h1 h2 => exact reset_readAll (.cons h1 h2) t
  have hblk : List.Forall₂ (fun b fs => ∃ d, b = mkBlock d (w, h) fs) (bss.flatten.map ofStream) (bss.flatten.map (blockFrames w h)) := by
    rw [List.forall₂_map_left_iff, List.forall₂_map_right_iff, List.forall₂_same]
    exact fun b hb => (hfr b hb).1
  have hmem : ∀ f ∈ (bss.flatten.map (blockFrames w h)).flatten, ∃ b ∈ bss.flatten, f ∈ blockFrames w h b := by
    intro f hf
    obtain ⟨l, h1, h2⟩ := List.mem_flatten.1 hf
    obtain ⟨b, h3, rfl⟩ := List.mem_map.1 h1
    exact ⟨b, h3, h2⟩
  refine counted_frames hs ho hread hblk ⟨by simpa using hne, ?_, ?_, ?_⟩ hn2 hW hH hWH ?_ ?_ ?_
  · calc w * h ≤ 65535 * 65535 := Nat.mul_le_mul (by omega) (by omega)
      _ < 2 ^ 32 := by norm_num
  · intro fs h1 f h2
    obtain ⟨b, h3, rfl⟩ := List.mem_map.1 h1
    exact ((hfr b h3).2.2 f h2).1
  · intro fs h1
    obtain ⟨b, h3, rfl⟩ := List.mem_map.1 h1
    exact (hfr b h3).2.1
  · refine hscan.imp id fun hs0 => ⟨hs0.1, ?_⟩
    intro b hb
    rw [List.head?_map] at hb
    cases hh : bss.flatten.head? with
    | none => rw [hh] at hb; simp at hb
    | some c =>
      rw [hh] at hb
      simp only [Option.map_some, Option.mem_def, Option.some.injEq] at hb
      subst hb
      exact hs0.2 c hh
  · intro f hf
    obtain ⟨b, h1, h2⟩ := hmem f hf
    refine hin b h1 _ ?_
    unfold blockFrames at h2
    obtain ⟨i, hi, rfl⟩ := List.mem_map.1 h2
    have hi := List.mem_range.1 hi
    have e : b.header.imageNumbers.getD i 0 = b.header.imageNumbers[i] := by simp [hi]
    simp only [e]
    exact List.getElem_mem hi
  · intro f hf
    obtain ⟨b, h1, h2⟩ := hmem f hf
    exact hcount f.2 ((hfr b h1).2.2 f h2).1 ((hfr b h1).2.2 f h2).2

/-! ### HDF5 files -/

/-- Uses of a reader: blocks read in Python or C++, and rewinds. -/
inductive Used {S : Type} (R : Reader S) : S → S → Prop where
  | refl (s : S) : Used R s s
  | read {s t : S} : Used R s t → Used R s (R.read t).2
  | next {s t : S} : Used R s t → Used R s (R.next t).2
  | reset {s t : S} : Used R s t → Used R s (R.reset t)

theorem readHdf5_reset (r : RawFile.Reader) (s : PyReader.State) : PyReader.reset (readHdf5 r s).2 = PyReader.reset s := by
  unfold readHdf5 PyReader.read
  split_ifs with h
  · rfl
  · simp only
    cases h2 : (List.range' s.current ((if (s.current + s.blockSize) % 2 ^ 32 > s.total then s.total else (s.current + s.blockSize) % 2 ^ 32)
      - s.current)).mapM (readAt s.imageNumbers) <;> rfl

private theorem used_reset {r : RawFile.Reader} {s t : PyReader.State} (h : Used (hdf5Reader r) s t) :
    PyReader.reset t = PyReader.reset s := by
  induction h with
  | refl => rfl
  | read _ ih => exact (readHdf5_reset r _).trans ih
  | next _ ih => exact (readHdf5_reset r _).trans ih
  | reset _ ih => exact ih

private theorem sample_used {S : Type} {R : Reader S} {s0 : S} (n : Nat) : ∀ {s : S}, Used R s0 s → Used R s0 (FilePipeline.sample R n s).2 := by
  induction n with
  | zero => exact fun h => h
  | succ n ih =>
    intro s h
    have h1 := Used.next h
    unfold FilePipeline.sample
    rcases h2 : R.next s with ⟨a, t⟩
    rw [h2] at h1
    rcases a with b | m | _
    · cases b with
      | none => exact h1
      | some b =>
        simp only
        have := ih h1
        rcases h3 : FilePipeline.sample R n t with ⟨c, u⟩
        rw [h3] at this
        rcases c with c | m | _ <;> exact this
    · exact h1
    · exact h1

/-- A block of an HDF5 file as an argument of the counting. -/
def hdf5Block (r : RawFile.Reader) (x : List (List Nat) × List Nat) : Image.Block :=
  ⟨r.scanDims, (r.stack.width, r.stack.height), x.2.length, x.2, x.1.flatten⟩

private theorem readAll_hdf5 (r : RawFile.Reader) (fuel : Nat) {s t : PyReader.State} {blocks : List (List (List Nat) × List Nat)}
    (h : PyReader.readAll r.stack.frames fuel s = .ok (blocks, true, t)) :
    ReadAll (hdf5Reader r) s (.ok (blocks.map (hdf5Block r))) := by
  induction fuel generalizing s blocks with
  | zero => simp [PyReader.readAll] at h
  | succ fuel ih =>
    simp only [PyReader.readAll] at h
    cases hr : PyReader.read r.stack.frames s with
    | throw m => rw [hr] at h; simp at h
    | ub => rw [hr] at h; simp at h
    | ok x =>
      obtain ⟨b, s'⟩ := x
      rw [hr] at h
      simp only [Outcome.ok_bind] at h
      cases b with
      | end_ =>
        simp only [Outcome.ok.injEq, Prod.mk.injEq] at h
        rw [← h.1]
        refine .done (t := s') ?_
        show readHdf5 r s = _
        unfold readHdf5
        rw [hr]
      | frames d ids =>
        simp only at h
        cases hr2 : PyReader.readAll r.stack.frames fuel s' with
        | throw m => rw [hr2] at h; simp at h
        | ub => rw [hr2] at h; simp at h
        | ok y =>
          obtain ⟨rest, e, s2⟩ := y
          rw [hr2] at h
          simp only [Outcome.ok_bind, Outcome.ok.injEq, Prod.mk.injEq] at h
          obtain ⟨rfl, rfl, rfl⟩ := h
          have := ReadAll.step (R := hdf5Reader r) (s := s) (t := s') (b := hdf5Block r (d, ids)) (by
            show readHdf5 r s = _
            unfold readHdf5
            rw [hr]
            rfl) (ih hr2)
          exact this

/-- The frames of an HDF5 file with their positions; without positions they are numbered from 0. -/
def hdf5Frames (f : RawFile.File) (data : RawFile.Stack) : List Spec.Frame :=
  (RawFile.positionsOf data f.positions).zip data.frames

private theorem hdf5_counted {f : RawFile.File} {data : RawFile.Stack} {r : RawFile.Reader} {w h W H : Nat} (hr : RawFile.getReader f = .ok r)
    (hfr : f.frames = some data) (hp : ∀ p ∈ f.positions, p.length = data.frames.length) (h32 : data.frames.length + 32 ≤ 2 ^ 32)
    (hw : data.width = w) (hh : data.height = h) (hlen : ∀ px ∈ data.frames, px.length = w * h) (hpx : ∀ px ∈ data.frames, ∀ x ∈ px, x < 65536)
    (hn2 : 1 < w * h) (hblock : 32 * (w * h) ≤ 2 ^ 32) (hne : data.frames ≠ []) (hW : 0 < W) (hH : 0 < H) (hWH : W * H < 2 ^ 32)
    {o : BlockPipeline.Setup} (hscan : o.scan = (W, H) ∨ ((o.scan.1 = 0 ∨ o.scan.2 = 0) ∧ r.scanDims = (W, H)))
    (hin : ∀ p ∈ RawFile.positionsOf data f.positions, p < W * H) {s t : PyReader.State} (hu : Used (hdf5Reader r) r.state s)
    {sampled : List Image.Block} (hs : FilePipeline.sample (hdf5Reader r) o.numBlocks s = (.ok sampled, t))
    {options : CountOptions} (ho : o.options sampled = .ok options) {value : List Nat → Nat → Rat}
    (hcount : ∀ px : List Nat, px.length = w * h → (∀ x ∈ px, x < 65536) →
      ∃ ev, countFrameClassic options (w, h) (pixels px) = .ok ev ∧ IsEventList options.bg options.xr w h (value px) ev) :
    ∃ events ev, CountedFrames (hdf5Reader r) o s options w h W H (hdf5Frames f data) value events ev := by
  have hrs : r.stack = data ∧ r.state = PyReader.getHdf5Reader data.frames f.positions := by
    unfold RawFile.getReader at hr
    rw [hfr] at hr
    simp only at hr
    cases hd : RawFile.scanDimensions f with
    | throw m => rw [hd] at hr; simp at hr
    | ub => rw [hd] at hr; simp at hr
    | ok d =>
      rw [hd] at hr
      simp only [Outcome.ok_bind, Outcome.ok.injEq] at hr
      subst hr
      exact ⟨rfl, rfl⟩
  have hlenp : (RawFile.positionsOf data f.positions).length = data.frames.length := by
    unfold RawFile.positionsOf
    cases hpos : f.positions with
    | none => simp
    | some p => exact hp p hpos
  have hstate : r.state = PyReader.create (RawFile.positionsOf data f.positions) 32 data.frames.length := by
    rw [hrs.2]
    unfold PyReader.getHdf5Reader RawFile.positionsOf
    cases f.positions <;> rfl
  obtain ⟨blocks, u, h1, h2, h3, h4, _⟩ := C37_all_frames data.frames (RawFile.positionsOf data f.positions) 32 (by omega) hlenp h32
    (data.frames.length + 32) (by omega)
  have ht : PyReader.reset t = r.state := by
    have h5 : Used (hdf5Reader r) r.state t := by
      have := sample_used o.numBlocks hu
      rw [hs] at this
      exact this
    rw [used_reset h5, hstate]
    rfl
  have hread : ReadAll (hdf5Reader r) ((hdf5Reader r).reset t) (.ok (blocks.map (hdf5Block r))) := by
    have : (hdf5Reader r).reset t = r.state := ht
    rw [this, hstate]
    refine readAll_hdf5 r (data.frames.length + 32) (t := u) ?_
    rw [hrs.1]
    exact h1
  have hmem : ∀ x ∈ blocks, ∀ px ∈ x.1, px ∈ data.frames := by
    intro x hx px hpx
    rw [← h2]
    exact List.mem_flatten.2 ⟨x.1, List.mem_map.2 ⟨x, hx, rfl⟩, hpx⟩
  have hzip : (blocks.map fun x => x.2.zip x.1).flatten = hdf5Frames f data := by
    unfold hdf5Frames
    rw [← h2, ← h3]
    clear h1 h2 h3 hmem hread
    induction blocks with
    | nil => rfl
    | cons x l ih =>
      rw [List.map_cons, List.flatten_cons, ih (fun x hx => h4 x (by simp [hx])), List.map_cons, List.map_cons, List.flatten_cons,
        List.flatten_cons, List.zip_append (h4 x (by simp)).1.symm]
  have hblk : List.Forall₂ (fun b fs => ∃ d, b = mkBlock d (w, h) fs) (blocks.map (hdf5Block r)) (blocks.map fun x => x.2.zip x.1) := by
    rw [List.forall₂_map_left_iff, List.forall₂_map_right_iff, List.forall₂_same]
    intro x hx
    have hl := (h4 x hx).1
    refine ⟨r.scanDims, ?_⟩
    unfold hdf5Block mkBlock
    rw [hrs.1, hw, hh, List.length_zip, hl, Nat.min_self]
    have e1 : (x.2.zip x.1).map (fun f => f.1) = x.2 := List.map_fst_zip (by omega)
    have e2 : (x.2.zip x.1).map (fun f => f.2) = x.1 := List.map_snd_zip (by omega)
    rw [e1, e2]
  have hframe : ∀ g ∈ hdf5Frames f data, g.1 ∈ RawFile.positionsOf data f.positions ∧ g.2 ∈ data.frames := by
    intro g hg
    exact List.of_mem_zip hg
  rw [← hzip]
  refine counted_frames hs ho hread hblk ⟨?_, by omega, ?_, ?_⟩ hn2 hW hH hWH ?_ ?_ ?_
  · intro h0
    rw [List.map_eq_nil_iff] at h0
    rw [h0] at h2
    exact hne h2.symm
  · intro fs hfs g hg
    obtain ⟨x, hx, rfl⟩ := List.mem_map.1 hfs
    exact hlen _ (hmem x hx _ (List.of_mem_zip hg).2)
  · intro fs hfs
    obtain ⟨x, hx, rfl⟩ := List.mem_map.1 hfs
    refine le_trans (Nat.mul_le_mul_right _ ?_) hblock
    rw [List.length_zip]
    have := (h4 x hx).2.2
    omega
  · refine hscan.imp id fun hs0 => ⟨hs0.1, ?_⟩
    intro b hb
    have hb := List.mem_of_mem_head? hb
    obtain ⟨x, _, rfl⟩ := List.mem_map.1 hb
    exact hs0.2
  · intro g hg
    rw [hzip] at hg
    exact hin _ (hframe g hg).1
  · intro g hg
    rw [hzip] at hg
    exact hcount _ (hlen _ (hframe g hg).2) (hpx _ (hframe g hg).2)

/-! ### Thresholds -/

private theorem sample_all {S : Type} {R : Reader S} {s : S} {r : Outcome (List Image.Block)}
    (h : ReadAll { R with read := R.next } s r) : ∀ blocks, r = .ok blocks → ∀ k,
    (k ≤ blocks.length → ∃ t, FilePipeline.sample R k s = (.ok (blocks.take k), t)) ∧
    (blocks.length < k → ∃ t, FilePipeline.sample R k s = (.throw "StopIteration", t)) := by
  induction h with
  | @done s t e =>
    intro blocks hb k
    have e : R.next s = (.ok none, t) := e
    injection hb with hb
    subst hb
    cases k with
    | zero => exact ⟨fun _ => ⟨s, rfl⟩, fun h => by simp at h⟩
    | succ k => exact ⟨fun h => by simp at h, fun _ => ⟨t, by unfold FilePipeline.sample; rw [e]⟩⟩
  | throw => intro blocks hb; cases hb
  | ub => intro blocks hb; cases hb
  | @step s t b r e _ ih =>
    intro blocks hb k
    have e : R.next s = (.ok (some b), t) := e
    cases r with
    | throw m => simp [Outcome.bind] at hb
    | ub => simp [Outcome.bind] at hb
    | ok bs =>
      simp only [Outcome.bind, Outcome.ok.injEq] at hb
      subst hb
      cases k with
      | zero => exact ⟨fun _ => ⟨s, rfl⟩, fun h => by simp at h⟩
      | succ k =>
        obtain ⟨h1, h2⟩ := ih bs rfl k
        constructor
        · intro hk
          obtain ⟨u, hu⟩ := h1 (by simpa using hk)
          exact ⟨u, by unfold FilePipeline.sample; rw [e]; simp only [hu, List.take_succ_cons]⟩
        · intro hk
          obtain ⟨u, hu⟩ := h2 (by simpa using hk)
          exact ⟨u, by unfold FilePipeline.sample; rw [e]; simp only [hu]⟩

private theorem reads_nextAll {v : Nat} {files : List StreamReader.File} {s t : StreamReader.State} {bs : List StreamReader.Block}
    (h : Spec.Reads v s bs t) {u : StreamReader.State} (he : StreamReader.read v t = (.ok none, u)) :
    ReadAll { streamReader v files with read := (streamReader v files).next } s
      (.ok ((bs.takeWhile fun b => b.header.version ≠ 0).map ofStream)) := by
  induction h with
  | nil s =>
    refine .done (t := u) ?_
    show convert (StreamReader.nextPy v s) = _
    unfold StreamReader.nextPy
    rw [he]
    rfl
  | @cons s t _ b bs h1 _ ih =>
    by_cases h0 : b.header.version = 0
    · rw [List.takeWhile_cons_of_neg (by simpa using h0)]
      refine .done (t := t) ?_
      show convert (StreamReader.nextPy v s) = _
      unfold StreamReader.nextPy
      rw [h1]
      simp only [h0, if_true]
      rfl
    · rw [List.takeWhile_cons_of_pos (by simpa using h0)]
      have := ReadAll.step (R := { streamReader v files with read := (streamReader v files).next }) (s := s) (t := t) (b := ofStream b) (by
        show convert (StreamReader.nextPy v s) = _
        unfold StreamReader.nextPy
        rw [h1]
        simp only [if_neg h0]
        rfl) (ih he)
      exact this

private theorem counts_stop {S : Type} {R : Reader S} {o : BlockPipeline.Setup} {s t : S}
    (h : FilePipeline.sample R o.numBlocks s = (.throw "StopIteration", t)) (r : Outcome ((Nat × Nat) × List (List (List Nat)))) :
    Counts R o s r ↔ r = .throw "StopIteration" := by
  unfold Counts
  rw [h]

/-! ### C88 -/

/-- **C88** Stream files, with gain and dark reference: whatever was read from the files before the call and for the thresholds, all
frames of all blocks of all files are counted, each at its position. -/
theorem C88_stream {v w h W H : Nat} {files : List (List UInt8)} {bss : List (List StreamReader.Block)}
    (hf : List.Forall₂ (Records v) files bss) (hn : ∀ b ∈ bss.flatten, b.header.frameDimensions = (w, h)) (hn2 : 1 < w * h)
    (hw16 : w < 65536) (hh16 : h < 65536) (hne : bss.flatten ≠ []) (hW : 0 < W) (hH : 0 < H) (hWH : W * H < 2 ^ 32) {o : BlockPipeline.Setup}
    (hscan : o.scan = (W, H) ∨ ((o.scan.1 = 0 ∨ o.scan.2 = 0) ∧ ∀ b ∈ bss.flatten.head?, b.header.scanDimensions = (W, H)))
    (hin : ∀ b ∈ bss.flatten, ∀ p ∈ b.header.imageNumbers, p < W * H) (s : StreamReader.State) {t : StreamReader.State}
    {sampled : List Image.Block} (hs : FilePipeline.sample (streamReader v (files.map some)) o.numBlocks s = (.ok sampled, t))
    {options : CountOptions} (ho : o.options sampled = .ok options) (hbg : 0 ≤ options.bg) (hrd : options.rowDark = none)
    (hft : options.ft = .f32) {dark gain : List Rat} (hg : options.gain = some gain) (hgl : gain.length = w * h)
    (hd : options.dark = some dark) (hdl : dark.length = w * h) :
    ∃ events ev, CountedFrames (streamReader v (files.map some)) o s options w h W H (bss.flatten.map (blockFrames w h)).flatten
      (floatValue options.dark gain) events ev :=
  stream_counted hf hn hn2 hw16 hh16 hne hW hH hWH hscan hin s hs ho fun px hpx _ =>
    C12_classic_gain ⟨hw16, hh16, lt_of_le_of_lt (Nat.mul_le_mul (by omega) (by omega) : w * h ≤ 65535 * 65535) (by norm_num), hn2, hpx, hbg⟩
      hrd hft hg hgl hd hdl

private theorem u16_range {m : Nat} {px : List Nat} {dark : List Rat} (hpx : px.length = m) (hpv : ∀ x ∈ px, x < 65536)
    (hdl : dark.length = m) (hdv : ∀ r ∈ dark, -1 < r ∧ r < 1) :
    ∀ j, j < m → -1 < ((px.getD j 0 : Nat) : Rat) - dark.getD j 0 ∧ ((px.getD j 0 : Nat) : Rat) - dark.getD j 0 < 65536 := by
  intro j hj
  have hj1 : j < dark.length := by omega
  have hj2 : j < px.length := by omega
  have e1 : dark.getD j 0 = dark[j] := by simp [hj1]
  have e2 : px.getD j 0 = px[j] := by simp [hj2]
  rw [e1, e2]
  have b1 := hdv _ (List.getElem_mem hj1)
  have b2 : ((px[j] : Nat) : Rat) ≤ 65535 := by
    have := hpv _ (List.getElem_mem hj2)
    exact_mod_cast (by omega : px[j] ≤ 65535)
  have b3 : (0 : Rat) ≤ ((px[j] : Nat) : Rat) := Nat.cast_nonneg _
  constructor <;> linarith [b1.1, b1.2]

/-- **C88** Stream files without gain, for a dark reference between -1 and 1. -/
theorem C88_stream_u16 {v w h W H : Nat} {files : List (List UInt8)} {bss : List (List StreamReader.Block)}
    (hf : List.Forall₂ (Records v) files bss) (hn : ∀ b ∈ bss.flatten, b.header.frameDimensions = (w, h)) (hn2 : 1 < w * h)
    (hw16 : w < 65536) (hh16 : h < 65536) (hne : bss.flatten ≠ []) (hW : 0 < W) (hH : 0 < H) (hWH : W * H < 2 ^ 32) {o : BlockPipeline.Setup}
    (hscan : o.scan = (W, H) ∨ ((o.scan.1 = 0 ∨ o.scan.2 = 0) ∧ ∀ b ∈ bss.flatten.head?, b.header.scanDimensions = (W, H)))
    (hin : ∀ b ∈ bss.flatten, ∀ p ∈ b.header.imageNumbers, p < W * H) (s : StreamReader.State) {t : StreamReader.State}
    {sampled : List Image.Block} (hs : FilePipeline.sample (streamReader v (files.map some)) o.numBlocks s = (.ok sampled, t))
    {options : CountOptions} (ho : o.options sampled = .ok options) (hbg : 0 ≤ options.bg) (hrd : options.rowDark = none)
    (hft : options.ft = .u16) {dark : List Rat} (hd : options.dark = some dark) (hdl : dark.length = w * h)
    (hdv : ∀ r ∈ dark, -1 < r ∧ r < 1) :
    ∃ events ev, CountedFrames (streamReader v (files.map some)) o s options w h W H (bss.flatten.map (blockFrames w h)).flatten
      (u16ClassicValue dark) events ev :=
  stream_counted hf hn hn2 hw16 hh16 hne hW hH hWH hscan hin s hs ho fun px hpx hpv =>
    C12_classic_u16 ⟨hw16, hh16, lt_of_le_of_lt (Nat.mul_le_mul (by omega) (by omega) : w * h ≤ 65535 * 65535) (by norm_num), hn2, hpx, hbg⟩
      hrd hft hd hdl (u16_range hpx hpv hdl hdv)

/-- **C88** HDF5 files, with gain and dark reference: whatever was read from the file before the call and for the thresholds, all frames
are counted, each at its position. -/
theorem C88_hdf5 {f : RawFile.File} {data : RawFile.Stack} {r : RawFile.Reader} {w h W H : Nat} (hr : RawFile.getReader f = .ok r)
    (hfr : f.frames = some data) (hp : ∀ p ∈ f.positions, p.length = data.frames.length) (h32 : data.frames.length + 32 ≤ 2 ^ 32)
    (hw : data.width = w) (hh : data.height = h) (hlen : ∀ px ∈ data.frames, px.length = w * h) (hpx : ∀ px ∈ data.frames, ∀ x ∈ px, x < 65536)
    (hn2 : 1 < w * h) (hblock : 32 * (w * h) ≤ 2 ^ 32) (hw16 : w < 65536) (hh16 : h < 65536) (hne : data.frames ≠ []) (hW : 0 < W) (hH : 0 < H) (hWH : W * H < 2 ^ 32)
    {o : BlockPipeline.Setup} (hscan : o.scan = (W, H) ∨ ((o.scan.1 = 0 ∨ o.scan.2 = 0) ∧ r.scanDims = (W, H)))
    (hin : ∀ p ∈ RawFile.positionsOf data f.positions, p < W * H) {s t : PyReader.State} (hu : Used (hdf5Reader r) r.state s)
    {sampled : List Image.Block} (hs : FilePipeline.sample (hdf5Reader r) o.numBlocks s = (.ok sampled, t))
    {options : CountOptions} (ho : o.options sampled = .ok options) (hbg : 0 ≤ options.bg) (hrd : options.rowDark = none)
    (hft : options.ft = .f32) {dark gain : List Rat} (hg : options.gain = some gain) (hgl : gain.length = w * h)
    (hd : options.dark = some dark) (hdl : dark.length = w * h) :
    ∃ events ev, CountedFrames (hdf5Reader r) o s options w h W H (hdf5Frames f data) (floatValue options.dark gain) events ev := by
  exact hdf5_counted hr hfr hp h32 hw hh hlen hpx hn2 hblock hne hW hH hWH hscan hin hu hs ho fun px hpx _ =>
    C12_classic_gain ⟨hw16, hh16, by omega, hn2, hpx, hbg⟩ hrd hft hg hgl hd hdl

/-- **C88** HDF5 files without gain, for a dark reference between -1 and 1. -/
theorem C88_hdf5_u16 {f : RawFile.File} {data : RawFile.Stack} {r : RawFile.Reader} {w h W H : Nat} (hr : RawFile.getReader f = .ok r)
    (hfr : f.frames = some data) (hp : ∀ p ∈ f.positions, p.length = data.frames.length) (h32 : data.frames.length + 32 ≤ 2 ^ 32)
    (hw : data.width = w) (hh : data.height = h) (hlen : ∀ px ∈ data.frames, px.length = w * h) (hpx : ∀ px ∈ data.frames, ∀ x ∈ px, x < 65536)
    (hn2 : 1 < w * h) (hblock : 32 * (w * h) ≤ 2 ^ 32) (hw16 : w < 65536) (hh16 : h < 65536) (hne : data.frames ≠ []) (hW : 0 < W) (hH : 0 < H) (hWH : W * H < 2 ^ 32)
    {o : BlockPipeline.Setup} (hscan : o.scan = (W, H) ∨ ((o.scan.1 = 0 ∨ o.scan.2 = 0) ∧ r.scanDims = (W, H)))
    (hin : ∀ p ∈ RawFile.positionsOf data f.positions, p < W * H) {s t : PyReader.State} (hu : Used (hdf5Reader r) r.state s)
    {sampled : List Image.Block} (hs : FilePipeline.sample (hdf5Reader r) o.numBlocks s = (.ok sampled, t))
    {options : CountOptions} (ho : o.options sampled = .ok options) (hbg : 0 ≤ options.bg) (hrd : options.rowDark = none)
    (hft : options.ft = .u16) {dark : List Rat} (hd : options.dark = some dark) (hdl : dark.length = w * h)
    (hdv : ∀ r ∈ dark, -1 < r ∧ r < 1) :
    ∃ events ev, CountedFrames (hdf5Reader r) o s options w h W H (hdf5Frames f data) (u16ClassicValue dark) events ev := by
  exact hdf5_counted hr hfr hp h32 hw hh hlen hpx hn2 hblock hne hW hH hWH hscan hin hu hs ho fun px hpx hpv =>
    C12_classic_u16 ⟨hw16, hh16, by omega, hn2, hpx, hbg⟩ hrd hft hd hdl (u16_range hpx hpv hdl hdv)

/-- **C88** The blocks for the thresholds, for a new reader of stream files: the first blocks, as long as there are enough of them before
a block with version 0 in its header (which only format 1 can have); otherwise the call ends with StopIteration. -/
theorem C88_stream_sample {v : Nat} {f : List UInt8} {files : List (List UInt8)} {bss : List (List StreamReader.Block)}
    (hf : List.Forall₂ (Records v) (f :: files) bss) {s : StreamReader.State} (hs : StreamReader.create ((f :: files).map some) = .ok s)
    (o : BlockPipeline.Setup) :
    (o.numBlocks ≤ (bss.flatten.takeWhile fun b => b.header.version ≠ 0).length →
      ∃ t, FilePipeline.sample (streamReader v ((f :: files).map some)) o.numBlocks s = (.ok ((bss.flatten.take o.numBlocks).map ofStream), t)) ∧
    ((bss.flatten.takeWhile fun b => b.header.version ≠ 0).length < o.numBlocks →
      ∀ r, Counts (streamReader v ((f :: files).map some)) o s r ↔ r = .throw "StopIteration") := by
  obtain ⟨s0, t, h1, h2, h3, _⟩ := C21_round_trip hf
  have h1 : s0 = s := by
    have := h1.symm.trans hs
    injection this
  subst h1
  obtain ⟨h4, h5⟩ := sample_all (reads_nextAll (files := (f :: files).map some) h2 h3) _ rfl o.numBlocks
  rw [List.length_map] at h4 h5
  constructor
  · intro hk
    obtain ⟨u, hu⟩ := h4 hk
    refine ⟨u, hu.trans ?_⟩
    rw [← List.map_take]
    have : ∀ (l : List StreamReader.Block) (k : Nat) (p : StreamReader.Block → Bool), k ≤ (l.takeWhile p).length →
        (l.takeWhile p).take k = l.take k := by
      intro l
      induction l with
      | nil => intro k p _; rfl
      | cons a l ih =>
        intro k p hk
        cases k with
        | zero => rfl
        | succ k =>
          by_cases hp : p a
          · rw [List.takeWhile_cons_of_pos hp] at hk ⊢
            rw [List.take_succ_cons, List.take_succ_cons, ih k p (by simpa using hk)]
          · rw [List.takeWhile_cons_of_neg hp] at hk
            simp at hk
    rw [this _ _ _ hk]
  · intro hk
    obtain ⟨u, hu⟩ := h5 hk
    exact counts_stop hu

/-- **C88** The blocks for the thresholds, for a new reader of an HDF5 file: if there are enough blocks of 32 frames (the last may have
less), the call gets them; otherwise it ends with StopIteration. -/
theorem C88_hdf5_sample {f : RawFile.File} {data : RawFile.Stack} {r : RawFile.Reader} (hr : RawFile.getReader f = .ok r)
    (hfr : f.frames = some data) (hp : ∀ p ∈ f.positions, p.length = data.frames.length) (h32 : data.frames.length + 32 ≤ 2 ^ 32)
    (o : BlockPipeline.Setup) :
    (o.numBlocks * 32 < data.frames.length + 32 →
      ∃ sampled t, FilePipeline.sample (hdf5Reader r) o.numBlocks r.state = (.ok sampled, t) ∧ sampled.length = o.numBlocks) ∧
    (data.frames.length + 32 ≤ o.numBlocks * 32 → ∀ x, Counts (hdf5Reader r) o r.state x ↔ x = .throw "StopIteration") := by
  have hrs : r.stack = data ∧ r.state = PyReader.getHdf5Reader data.frames f.positions := by
    unfold RawFile.getReader at hr
    rw [hfr] at hr
    simp only at hr
    cases hd : RawFile.scanDimensions f with
    | throw m => rw [hd] at hr; simp at hr
    | ub => rw [hd] at hr; simp at hr
    | ok d =>
      rw [hd] at hr
      simp only [Outcome.ok_bind, Outcome.ok.injEq] at hr
      subst hr
      exact ⟨rfl, rfl⟩
  have hlenp : (RawFile.positionsOf data f.positions).length = data.frames.length := by
    unfold RawFile.positionsOf
    cases hpos : f.positions with
    | none => simp
    | some p => exact hp p hpos
  have hstate : r.state = PyReader.create (RawFile.positionsOf data f.positions) 32 data.frames.length := by
    rw [hrs.2]
    unfold PyReader.getHdf5Reader RawFile.positionsOf
    cases f.positions <;> rfl
  obtain ⟨blocks, u, h1, _⟩ := C37_all_frames data.frames (RawFile.positionsOf data f.positions) 32 (by omega) hlenp h32
    (data.frames.length + 32) (by omega)
  have hc := C37_block_count _ _ 32 (by omega) hlenp h32 _ (by omega) h1
  have hread : ReadAll (hdf5Reader r) r.state (.ok (blocks.map (hdf5Block r))) := by
    rw [hstate]
    refine readAll_hdf5 r (data.frames.length + 32) (t := u) ?_
    rw [hrs.1]
    exact h1
  obtain ⟨h4, h5⟩ := sample_all (R := hdf5Reader r) hread _ rfl o.numBlocks
  rw [List.length_map] at h4 h5
  constructor
  · intro hk
    have hk : o.numBlocks ≤ blocks.length := by omega
    obtain ⟨t, ht⟩ := h4 hk
    exact ⟨_, t, ht, by simp [hk]⟩
  · intro hk
    obtain ⟨t, ht⟩ := h5 (by omega)
    exact counts_stop ht

/-- **C88** In format 2 every block has the frames 0 to 1599: of several blocks, only the frames of the last one are in the result. -/
theorem C88_format2 {W H : Nat} {files : List (List UInt8)} {bss : List (List StreamReader.Block)} {bs : List StreamReader.Block}
    {b : StreamReader.Block} (hf : List.Forall₂ (Records 2) files bss) (hb : bss.flatten = bs ++ [b]) {o : BlockPipeline.Setup}
    {s : StreamReader.State} {options : CountOptions} {value : List Nat → Nat → Rat} {events : List (List (List Nat))}
    {ev : List Nat → List Nat} (h : CountedFrames (streamReader 2 (files.map some)) o s options 576 576 W H
      (bss.flatten.map (blockFrames 576 576)).flatten value events ev) {p : Nat} (hp : p < 1600) (hW : p < W * H) :
    events[p]? = some [ev ((b.data.drop (p * (576 * 576))).take (576 * 576))] := by
  rw [h.last p hW, hb, List.map_append, List.flatten_append, List.filter_append, List.map_singleton, List.flatten_singleton]
  obtain ⟨bytes, hw⟩ := records_all hf b (by rw [hb]; simp)
  have hnum : b.header.imageNumbers = List.range 1600 := by
    cases hw with
    | v2 _ _ => simp only
  have hfil : (blockFrames 576 576 b).filter (fun f => f.1 = p) = [(p, (b.data.drop (p * (576 * 576))).take (576 * 576))] := by
    unfold blockFrames
    rw [hnum, List.length_range, List.filter_map]
    have : (List.range 1600).filter ((fun f : Spec.Frame => decide (f.1 = p)) ∘
        fun i => ((List.range 1600).getD i 0, (b.data.drop (i * (576 * 576))).take (576 * 576))) = (List.range 1600).filter (fun i => i = p) := by
      refine List.filter_congr fun i hi => ?_
      have hi := List.mem_range.1 hi
      have : (List.range 1600).getD i 0 = i := by
        rw [List.getD_eq_getElem?_getD, List.getElem?_range hi]
        rfl
      simp only [Function.comp, this]
    rw [this, List.filter_eq]
    rw [List.count_eq_one_of_mem List.nodup_range (List.mem_range.2 hp)]
    have : (List.range 1600).getD p 0 = p := by
      rw [List.getD_eq_getElem?_getD, List.getElem?_range hp]
      rfl
    simp only [List.replicate_one, List.map_singleton, this]
  rw [hfil, List.getLast?_append]
  rfl

/-- **C88** An error of the computation of the options from the sampled blocks is the only result of the call: no frame is counted. -/
theorem C88_options {S : Type} {R : Reader S} {o : BlockPipeline.Setup} {s t : S} {sampled : List Image.Block}
    (hs : FilePipeline.sample R o.numBlocks s = (.ok sampled, t)) (r : Outcome ((Nat × Nat) × List (List (List Nat)))) :
    (∀ m, o.options sampled = .throw m → (Counts R o s r ↔ r = .throw m)) ∧ (o.options sampled = .ub → (Counts R o s r ↔ r = .ub)) := by
  refine ⟨fun m hm => ?_, fun hm => ?_⟩ <;> simp only [Counts, hs, hm]

/-- **C88** Files without blocks: the call fails. -/
theorem C88_empty {v : Nat} {f : List UInt8} {files : List (List UInt8)} {bss : List (List StreamReader.Block)}
    (hf : List.Forall₂ (Records v) (f :: files) bss) (hne : bss.flatten = []) {s : StreamReader.State}
    (hs : StreamReader.create ((f :: files).map some) = .ok s) (o : BlockPipeline.Setup) {options : CountOptions} (ho : o.options [] = .ok options)
    (r : Outcome ((Nat × Nat) × List (List (List Nat)))) :
    Counts (streamReader v ((f :: files).map some)) o s r ↔
      r = if o.numBlocks = 0 then .throw "No blocks to read!" else .throw "StopIteration" := by
  by_cases h0 : o.numBlocks = 0
  · rw [if_pos h0]
    have hread := reset_readAll hf s
    rw [hne] at hread
    unfold Counts
    rw [h0]
    simp only [FilePipeline.sample, ho]
    constructor
    · rintro ⟨r', h1, rfl⟩
      rw [← readAll_unique hread h1]
      rfl
    · rintro rfl
      exact ⟨_, hread, rfl⟩
  · rw [if_neg h0]
    exact (C88_stream_sample hf hs o).2 (by rw [hne]; simp; omega) r

/-! ### Examples -/

/-- A block of two frames of 2x2 pixels, and one of one frame. -/
def demoBlocks : List StreamReader.Block :=
  [⟨{ imagesInBlock := 2, frameDimensions := (2, 2), version := 1, timestamp := 7, imageNumbers := [2, 0] }, [20, 0, 0, 0, 0, 0, 0, 30]⟩,
   ⟨{ imagesInBlock := 1, frameDimensions := (2, 2), version := 1, timestamp := 8, imageNumbers := [1] }, [0, 40, 0, 0]⟩]

private def demoOptions : CountOptions := ⟨.f32, 10, 1000, some [0, 0, 0, 0], some [1, 1, 1, 1], none, 0⟩

private def demoFileSetup (k : Nat) : BlockPipeline.Setup := ⟨k, (3, 1), fun _ => .ok demoOptions⟩

theorem demo_records : ∃ bytes, Records 1 bytes demoBlocks :=
  ⟨_, _, .cons (.v1 (rows := 2) (cols := 2) (version := 1) (timestamp := 7) (reserved := [0, 0, 0, 0, 0]) (numbers := [2, 0])
      (unused := List.replicate 1012 0) (data := [20, 0, 0, 0, 0, 0, 0, 30]) (by rw [List.length_replicate]; rfl) rfl (by
        intro x hx
        rw [List.mem_append, List.mem_replicate] at hx
        simp at hx
        omega) (by simp) rfl (by simp) (by simp))
    (.cons (.v1 (rows := 2) (cols := 2) (version := 1) (timestamp := 8) (reserved := [0, 0, 0, 0, 0]) (numbers := [1])
      (unused := List.replicate 1013 0) (data := [0, 40, 0, 0]) (by rw [List.length_replicate]; rfl) rfl (by
        intro x hx
        rw [List.mem_append, List.mem_replicate] at hx
        simp at hx
        omega) (by simp) rfl (by simp) (by simp)) .nil), rfl⟩

/-- The hypotheses of `C88_stream` can be met: a block for the thresholds, two blocks in a file, and an empty file. -/
example : ∃ bytes s t sampled events ev, StreamReader.create [some bytes, some []] = .ok s ∧
    FilePipeline.sample (streamReader 1 [some bytes, some []]) 1 s = (.ok sampled, t) ∧ sampled.length = 1 ∧
    CountedFrames (streamReader 1 [some bytes, some []]) (demoFileSetup 1) s demoOptions 2 2 3 1
      [(2, [20, 0, 0, 0]), (0, [0, 0, 0, 30]), (1, [0, 40, 0, 0])] (floatValue (some [0, 0, 0, 0]) [1, 1, 1, 1]) events ev ∧
    Results 3 1 ⟨events, (3, 1), (2, 2)⟩ [⟨2, 0, 0, [20, 0, 0, 0]⟩, ⟨0, 0, 0, [0, 0, 0, 30]⟩, ⟨1, 0, 0, [0, 40, 0, 0]⟩]
      (fun f => ev f.pixels) 2 := by
  obtain ⟨bytes, hb⟩ := demo_records
  have hf : List.Forall₂ (Records 1) [bytes, []] [demoBlocks, []] := .cons hb (.cons ⟨[], .nil, rfl⟩ .nil)
  obtain ⟨t, ht⟩ := (C88_stream_sample hf rfl (demoFileSetup 1)).1 (by decide)
  obtain ⟨events, ev, h⟩ := C88_stream (w := 2) (h := 2) (W := 3) (H := 1) hf (by decide) (by decide) (by decide) (by decide) (by decide) (by decide)
    (by decide) (by decide) (o := demoFileSetup 1) (.inl rfl) (by decide) _ ht (options := demoOptions) rfl (by norm_num [demoOptions]) rfl rfl rfl rfl rfl rfl
  exact ⟨bytes, _, t, _, events, ev, rfl, ht, rfl, h, h.images (by decide) rfl⟩

/-- Three frames of 4x1 pixels in an HDF5 file. -/
private def demoHdf5 : RawFile.File :=
  { frames := some ⟨1, 4, [[20, 0, 0, 0], [0, 0, 0, 30], [0, 40, 0, 0]]⟩, scanDims := some (3, 1), positions := some [2, 0, 1] }

/-- The hypotheses of `C88_hdf5` can be met: a block was read before the call, and one for the thresholds after a rewind. -/
example : ∃ r s t sampled events ev, RawFile.getReader demoHdf5 = .ok r ∧ s = PyReader.reset (readHdf5 r r.state).2 ∧
    FilePipeline.sample (hdf5Reader r) 1 s = (.ok sampled, t) ∧ sampled.length = 1 ∧
    CountedFrames (hdf5Reader r) (demoFileSetup 1) s demoOptions 4 1 3 1 [(2, [20, 0, 0, 0]), (0, [0, 0, 0, 30]), (1, [0, 40, 0, 0])]
      (floatValue (some [0, 0, 0, 0]) [1, 1, 1, 1]) events ev := by
  have hr : RawFile.getReader demoHdf5 = .ok ⟨_, _, _⟩ := rfl
  obtain ⟨sampled, t, ht, hl⟩ := (C88_hdf5_sample hr rfl (by simp [demoHdf5]) (by simp) (demoFileSetup 1)).1 (by decide)
  obtain ⟨events, ev, h⟩ := C88_hdf5 (w := 4) (h := 1) (W := 3) (H := 1) hr rfl (by simp [demoHdf5]) (by simp) rfl rfl (by decide) (by decide)
    (by decide) (by decide) (by decide) (by decide) (by decide) (by decide) (by decide) (by decide) (o := demoFileSetup 1) (.inl rfl) (by decide)
    (.reset (.read (.refl _))) ht (options := demoOptions) rfl (by norm_num [demoOptions]) rfl rfl rfl rfl rfl rfl
  exact ⟨_, _, t, _, events, ev, hr, rfl, ht, hl, h⟩

end Stempy.Props
