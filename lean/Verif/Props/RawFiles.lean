import Verif.Model.RawFiles
import Verif.Props.BlockPipeline
import Verif.Props.PyHistogram
import Verif.Props.Radial
import Verif.Props.Stack

/-!
# C99: images, histograms, averages, maxima and radial sums of the raw data in sector files
-/

namespace Stempy.Props
open Stempy.Spec Stempy.BlockPipeline Stempy.Image Stempy.RawFiles Stempy.IeeeRound
open Stempy.SectorReader (Rec Layout State Reads read create reset assemble at' openGroup)
open Stempy.PyStem (Radii Input StemRun IsImages DataOK Presents Means C67_dense C67_run_exists)
open Stempy.SafeCast (float64)
open Stempy.FloatPixels (Fl)

namespace RawFiles
open PyHist RoundedHist

/-! ### Specification -/

/-- Frames with the numbers of their scan positions. -/
def numbered (W : Nat) (all : List ScanFrame) : List Spec.Frame := all.map fun f => (f.y * W + f.x, f.pixels)

/-- The scan dimensions are given, or they are not and are those `d` in the headers. -/
def ScanArg (W H : Nat) (d scan : Nat × Nat) : Prop := scan = (W, H) ∨ ((scan.1 = 0 ∨ scan.2 = 0) ∧ d = (W, H))

/-- Radii and center that need no more than 32 bits. -/
structure RadiiOK (w h : Nat) (inner outer : List Int) (cx cy : Int) : Prop where
  some : inner ≠ []
  same : inner.length = outer.length
  geo : ∀ r ∈ inner.zip outer, GeometryOK w h r.1 r.2 cx cy

/-- Arguments that can be used with frames of `w × h` pixels and a scan of `W × H` positions, with the scan dimensions `d` in the headers. -/
def Valid (w h W H : Nat) (d : Nat × Nat) : Call → Prop
  | .images ri ro scan (cx, cy) => ScanArg W H d scan ∧ ∃ inner outer, Means ri inner ∧ Means ro outer ∧ RadiiOK w h inner outer cx cy
  | .histogram rd n ri ro scan (cx, cy) => ScanArg W H d scan ∧ Rounds float64 rd ∧ 0 < n ∧ n < 2 ^ 31 - 1 ∧
    ∃ inner outer, ri = .many inner ∧ ro = .many outer ∧ RadiiOK w h inner outer cx cy
  | .average => True
  | .radial scan (cx, cy) => ScanArg W H d scan ∧ W * H ≤ 2 ^ 31 ∧ W * H * (maxRadius (w, h) (effCenter w cx) (effCenter h cy) + 1) < 2 ^ 32
  | .maximum dark => dark.1 ≠ 0 → dark.2.length = w * h

/-- The histograms of frames: edges and numbers of scan positions between them. -/
def IsHistograms (rd : Rat → Fl) (n : Nat) (w h W H : Nat) (fs : List Spec.Frame) (inner outer : List Int) (cx cy : Int)
    (out : List (List Fl × List Nat)) : Prop :=
  out.length = inner.length ∧ ∀ (k : Nat) (a b : Int), (inner.zip outer)[k]? = some (a, b) →
    ∃ (edge : Nat → Rat) (freq : List Nat) (lo hi : Nat) (L : Rat),
      out[k]? = some ((List.range (n + 1)).map fun i => Fl.fin (edge i), freq) ∧
      Range ((List.range (W * H)).map (valueAt w h a b cx cy fs)) lo hi ∧
      rd (((hi : Rat) - lo) / n) = .fin L ∧
      (∀ i ≤ n, ∃ q, rd (i * L) = .fin q ∧ rd (lo + q) = .fin (edge i)) ∧
      freq.length = n ∧
      ∀ j < n, freq[j]? = some ((List.range (W * H)).countP fun p =>
        decide (edge j ≤ (valueAt w h a b cx cy fs p : Rat) ∧ ((valueAt w h a b cx cy fs p : Rat) < edge (j + 1) ∨
          (j + 1 = n ∧ (valueAt w h a b cx cy fs p : Rat) = edge n))))

/-- The answer of a call is that for the given frames. -/
def Right (w h W H : Nat) (fs : List Spec.Frame) : Call → Answer → Prop
  | .images ri ro _ (cx, cy), a => ∃ images, a = .images (.ok images) ∧
    ∀ inner outer, Means ri inner → Means ro outer → IsImages w h W H fs inner outer cx cy images
  | .histogram rd n ri ro _ (cx, cy), a => ∃ out, a = .histogram (.ok out) ∧
    ∀ inner outer, Means ri inner → Means ro outer → IsHistograms rd n.toNat w h W H fs inner outer cx cy out
  | .average, a => ∃ img, a = .average (.ok img) ∧ img.length = w * h ∧
    ∀ j, j < w * h → img[j]? = some (((fs.map fun f => f.2.getD j 0).sum : Nat) / (fs.length : Rat))
  | .radial _ (cx, cy), a => ∃ radii mem, a = .radial (.ok (radii, mem)) ∧ mem.length = W * H * radii ∧
    (∀ x y, x < w → y < h → ∃ rr, rr < radii ∧ isRadius (effCenter w cx) (effCenter h cy) x y rr) ∧
    ∀ rr p, rr < radii → p < W * H → mem[rr * (W * H) + p]? = some ((fs.map fun f => if f.1 = p then
      ringSum w h (effCenter w cx) (effCenter h cy) rr f.2 else 0).sum % 2 ^ 64)
  | .maximum dark, a => ∃ img, a = .maximum (.ok img) ∧ img.length = w * h ∧
    ∀ j, j < w * h → ∃ m, IsMaxOf (fs.map fun f => f.2.getD j 0) m ∧
      img[j]? = some ((m : Rat) - if dark.1 = 0 then 0 else dark.2.getD j 0)

/-- The answer of a call when there is nothing left to read: an error, or for the averages and maxima undefined behaviour. -/
def Spent : Call → Answer → Prop
  | .images .., a => a = .images (.throw "No blocks to read!")
  | .histogram .., a => a = .histogram (.throw "No blocks to read!")
  | .average, a => a = .average .ub
  | .radial .., a => a = .radial (.throw "No blocks to read!")
  | .maximum _, a => a = .maximum .ub

/-! ### The frames of the files -/

/-- **C99** A new reader gives one frame for each position of which there is a record, with the sectors of all of its records. -/
theorem C99_frames (v4 : Bool) {files : List (SectorReader.Stream (List Nat))} {W H : Nat} (hf : BlockFiles files W H) (hsz : W * H ≤ 2 ^ 32) :
    ∃ (all : List ScanFrame) (frames : List (SectorReader.Frame (List Nat))), readToEnd (layout v4) (create files) = .ok frames ∧
      IsPositions v4 files all ∧ frames.map toBlock = (all.map fun f => [(f.y * W + f.x, f.pixels)]).map (mkBlock (W, H) (576, 576)) ∧
      ∀ f ∈ all, f.x < W ∧ f.y < H ∧ ∀ v ∈ f.pixels, v < 65536 := by
  obtain ⟨gs, g1, g2, g3, g4⟩ := last_frame (layout v4) hf.good (t := create files) (SectorReader.invFeed_nil (layout v4))
  have ho : ∀ p, openGroup ([] : List (Nat × Rec (List Nat))) p = [] := fun p => by simp [openGroup, at']
  simp only [ho, List.nil_append] at g2 g3 g4
  -- the positions
  have hp : ∀ p, at' p (arrival [] files) ≠ [] → 0 < W ∧ p % W < W ∧ p / W < H ∧ p / W * W + p % W = p ∧
      Position files (p % W) (p / W) p := by
    intro p hne
    obtain ⟨i, l, hil⟩ := List.exists_cons_of_ne_nil hne
    have hi : i ∈ at' p (arrival [] files) := by simp [hil]
    obtain ⟨hi1, hi2⟩ := List.mem_filter.1 hi
    obtain ⟨f, hfm, hr, _⟩ := (mem_arrival i).1 hi1
    have hin := hf.scan f hfm _ hr
    have e := (pos_coordinates (y := i.2.y) hin hsz hin.2.2.1).2 ⟨rfl, rfl⟩
    have e2 : i.2.pos = p := by simpa using hi2
    have hW : 0 < W := by have := hin.2.2.1; omega
    have hm : p % W = i.2.x := by rw [← e2, e, Nat.mul_comm, Nat.mul_add_mod, Nat.mod_eq_of_lt hin.2.2.1]
    have hd : p / W = i.2.y := by rw [← e2, e, Nat.mul_comm, Nat.mul_add_div hW, Nat.div_eq_of_lt hin.2.2.1, Nat.add_zero]
    refine ⟨hW, hm ▸ hin.2.2.1, hd ▸ hin.2.2.2, by rw [Nat.mul_comm]; exact Nat.div_add_mod p W, ?_⟩
    have P := position hf hsz (y := p / W) (x := p % W) (hm ▸ hin.2.2.1)
    rwa [Nat.mul_comm, Nat.div_add_mod] at P
  have hA4 : ∀ p, (at' p (arrival [] files)).length ≤ 4 := by
    intro p
    by_cases h0 : at' p (arrival [] files) = []
    · simp [h0]
    · have P := (hp p h0).2.2.2.2
      have := (List.subperm_of_subset P.nodup (l₂ := List.range 4) (by
        intro sec hsec
        obtain ⟨i, hi, rfl⟩ := List.mem_map.1 hsec
        exact List.mem_range.2 (P.four i hi))).length_le
      simpa using this
  have hone : ∀ p, (gs.filter fun g => g.1 = p).length ≤ 1 := by
    intro p
    rw [g4 p]
    have := hA4 p
    omega
  have hnd : (gs.map fun g => g.1).Nodup := by
    rw [List.nodup_iff_count_le_one]
    intro p
    have := hone p
    rw [List.count, List.countP_map, List.countP_eq_length_filter]
    refine le_trans (le_of_eq ?_) this
    congr 1
  have hgroup : ∀ g ∈ gs, at' g.1 (arrival [] files) ≠ [] ∧ g.2 = at' g.1 (arrival [] files) := by
    intro g hg
    obtain ⟨hne, hall⟩ := g2 g hg
    obtain ⟨i, l, hil⟩ := List.exists_cons_of_ne_nil hne
    have hA : at' g.1 (arrival [] files) ≠ [] := List.ne_nil_of_mem (hall i (by simp [hil]))
    refine ⟨hA, ?_⟩
    have h1 := hone g.1
    have hm : g ∈ gs.filter fun g' => g'.1 = g.1 := List.mem_filter.2 ⟨hg, by simp⟩
    have h3 := g3 g.1
    rw [if_neg hA] at h3
    match hl : gs.filter fun g' => decide (g'.1 = g.1) with
    | [] => rw [hl] at hm; simp at hm
    | [g'] =>
      rw [hl] at hm h3
      have e : g = g' := List.mem_singleton.1 hm
      rw [← e] at h3
      simp only [List.getLast?_singleton, Option.some.injEq] at h3
      have e2 : g.2 = lastGroup (at' g.1 (arrival [] files)) := congrArg Prod.snd h3
      rw [e2]
      unfold lastGroup
      have := hA4 g.1
      rw [show 4 * (((at' g.1 (arrival [] files)).length - 1) / 4) = 0 by omega]
      rfl
    | _ :: _ :: _ => rw [hl] at h1; simp at h1
  have hframe : ∀ g ∈ gs, IsFrame v4 (FileRecord files (g.1 % W) (g.1 / W)) (assemble (layout v4) g.1 g.2).data := by
    intro g hg
    obtain ⟨hne, hA⟩ := hgroup g hg
    have P := (hp g.1 hne).2.2.2.2
    rw [hA]
    exact (assemble_isFrame v4 g.1 _ P.four (fun i hi j hj e => List.inj_on_of_nodup_map P.nodup hi hj e)).congr P.mem
  let mk : Nat × List (Nat × Rec (List Nat)) → ScanFrame := fun g => ⟨g.1 % W, g.1 / W, 0, (assemble (layout v4) g.1 g.2).data⟩
  refine ⟨gs.map mk, _, g1, ⟨?_, ?_, ?_⟩, ?_, ?_⟩
  · rw [List.map_map]
    refine List.Nodup.of_map (fun q : Nat × Nat => q.2 * W + q.1) ?_
    rw [List.map_map]
    have : gs.map ((fun q : Nat × Nat => q.2 * W + q.1) ∘ ((fun f : ScanFrame => (f.x, f.y)) ∘ mk)) = gs.map fun g => g.1 := by
      refine List.map_congr_left fun g hg => ?_
      exact (hp g.1 (hgroup g hg).1).2.2.2.1
    rw [this]
    exact hnd
  · intro x y
    constructor
    · rintro ⟨f, hfm, rfl, rfl⟩
      obtain ⟨g, hg, rfl⟩ := List.mem_map.1 hfm
      obtain ⟨hne, _⟩ := hgroup g hg
      obtain ⟨i, l, hil⟩ := List.exists_cons_of_ne_nil hne
      exact ⟨i.1, i.2, ((hp g.1 hne).2.2.2.2.mem i.1 i.2).1 (by simp [hil])⟩
    · rintro ⟨sec, r, hr⟩
      obtain ⟨f, hfm, hrf, _, hrx, hry⟩ := hr
      have hin := hf.scan f hfm r hrf
      have hx : x < W := hrx ▸ hin.2.2.1
      have hA : at' (y * W + x) (arrival [] files) ≠ [] := by
        have P := position hf hsz (y := y) hx
        exact List.ne_nil_of_mem ((P.mem sec r).2 ⟨f, hfm, hrf, by assumption, hrx, hry⟩)
      have h3 := g3 (y * W + x)
      rw [if_neg hA] at h3
      have hg := (List.mem_filter.1 (List.mem_of_getLast? h3)).1
      refine ⟨_, List.mem_map_of_mem hg, ?_, ?_⟩
      · show (y * W + x) % W = x
        rw [Nat.mul_comm, Nat.mul_add_mod, Nat.mod_eq_of_lt hx]
      · show (y * W + x) / W = y
        rw [Nat.mul_comm, Nat.mul_add_div (by omega), Nat.div_eq_of_lt hx, Nat.add_zero]
  · intro f hfm
    obtain ⟨g, hg, rfl⟩ := List.mem_map.1 hfm
    exact hframe g hg
  · rw [List.map_map, List.map_map, List.map_map]
    refine List.map_congr_left fun g hg => ?_
    obtain ⟨hne, hA⟩ := hgroup g hg
    have h1 := (hp g.1 hne).2.2.2.1
    have hdim : (assemble (layout v4) g.1 g.2).scanDimensions = (W, H) := by
      rw [hA]
      obtain ⟨i, l, hil⟩ := List.exists_cons_of_ne_nil hne
      have hi : i ∈ at' g.1 (arrival [] files) := by simp [hil]
      obtain ⟨f, hfm, hr, _⟩ := (mem_arrival i).1 (List.mem_filter.1 hi).1
      have hin := hf.scan f hfm _ hr
      simp [assemble, hil, hin.1, hin.2.1]
    simp only [Function.comp, toBlock, mkBlock, hdim, mk, h1]
    simp [assemble]
  · intro f hfm
    obtain ⟨g, hg, rfl⟩ := List.mem_map.1 hfm
    obtain ⟨hne, hA⟩ := hgroup g hg
    obtain ⟨_, h1, h2, _, P⟩ := hp g.1 hne
    exact ⟨h1, h2, (hframe g hg).values (fun sec r hr => P.values _ ((P.mem sec r).2 hr))⟩

/-- The pixels of the records are all pixels. -/
theorem frame_unique {v4 : Bool} {recs : Nat → Rec (List Nat) → Prop} {px px' : List Nat} (h : IsFrame v4 recs px) (h' : IsFrame v4 recs px') :
    px = px' := by
  refine List.ext_getElem? fun j => ?_
  by_cases hj : j < 576 * 576
  · rw [show j = 576 * (j / 576) + j % 576 by omega]
    by_cases hr : ∃ r, recs (sectorAt v4 (j % 576) (j / 576)) r
    · obtain ⟨r, hr⟩ := hr
      rw [h.pixel _ _ (by omega) (by omega) r hr, h'.pixel _ _ (by omega) (by omega) r hr]
    · have hn : ∀ r, ¬ recs (sectorAt v4 (j % 576) (j / 576)) r := fun r hr' => hr ⟨r, hr'⟩
      rw [h.zero _ _ (by omega) (by omega) hn, h'.zero _ _ (by omega) (by omega) hn]
  · rw [List.getElem?_eq_none (by rw [h.size]; omega), List.getElem?_eq_none (by rw [h'.size]; omega)]

/-- There is only one list of frames, up to its order. -/
theorem numbered_perm {v4 : Bool} {files : List (SectorReader.Stream (List Nat))} {all all' : List ScanFrame} (W : Nat)
    (h : IsPositions v4 files all) (h' : IsPositions v4 files all') : (numbered W all).Perm (numbered W all') := by
  let tr : ScanFrame → (Nat × Nat) × List Nat := fun f => ((f.x, f.y), f.pixels)
  have hsub : ∀ {l l' : List ScanFrame}, IsPositions v4 files l → IsPositions v4 files l' → ∀ t ∈ l.map tr, t ∈ l'.map tr := by
    intro l l' hl hl' t ht
    obtain ⟨f, hf, rfl⟩ := List.mem_map.1 ht
    obtain ⟨f', hf', hx, hy⟩ := (hl'.iff f.x f.y).2 ((hl.iff f.x f.y).1 ⟨f, hf, rfl, rfl⟩)
    refine List.mem_map.2 ⟨f', hf', ?_⟩
    have e := hl'.frame f' hf'
    rw [hx, hy] at e
    simp only [tr, hx, hy, frame_unique e (hl.frame f hf)]
  have hnd : ∀ {l : List ScanFrame}, IsPositions v4 files l → (l.map tr).Nodup := by
    intro l hl
    refine List.Nodup.of_map Prod.fst ?_
    rw [List.map_map]
    exact hl.once
  have hp : (all.map tr).Perm (all'.map tr) := (List.perm_ext_iff_of_nodup (hnd h) (hnd h')).2 fun t => ⟨hsub h h' t, hsub h' h t⟩
  have := hp.map fun t : (Nat × Nat) × List Nat => (t.1.2 * W + t.1.1, t.2)
  rw [List.map_map, List.map_map] at this
  exact this

theorem valueAt_perm {w h : Nat} {a b cx cy : Int} {fs fs' : List Spec.Frame} (hp : fs.Perm fs') (hn : (fs.map (·.1)).Nodup) (p : Nat) :
    valueAt w h a b cx cy fs p = valueAt w h a b cx cy fs' p := by
  have key : ∀ {l : List Spec.Frame}, (l.map (·.1)).Nodup → ∀ f, l.find? (fun f => f.1 = p) = some f ↔ f ∈ l ∧ f.1 = p := by
    intro l hl f
    constructor
    · intro e
      exact ⟨List.mem_of_find?_eq_some e, by simpa using List.find?_some e⟩
    · rintro ⟨h1, h2⟩
      cases e : l.find? fun f => f.1 = p with
      | none => exact absurd h2 (by simpa using List.find?_eq_none.1 e f h1)
      | some g =>
        have h3 : g.1 = p := by simpa using List.find?_some e
        rw [List.inj_on_of_nodup_map hl h1 (List.mem_of_find?_eq_some e) (h2.trans h3.symm)]
  have e : fs.find? (fun f => f.1 = p) = fs'.find? (fun f => f.1 = p) := by
    apply Option.ext
    intro f
    rw [key hn, key ((hp.map _).nodup_iff.1 hn), hp.mem_iff]
  unfold valueAt
  rw [e]

/-- The right answer does not depend on the order of the frames. -/
theorem Right.perm {w h W H : Nat} {fs fs' : List Spec.Frame} (hp : fs.Perm fs') (hn : (fs.map (·.1)).Nodup) {c : Call} {a : Answer}
    (hr : Right w h W H fs c a) : Right w h W H fs' c a := by
  cases c with
  | images ri ro scan center =>
    obtain ⟨cx, cy⟩ := center
    obtain ⟨images, h1, h2⟩ := hr
    refine ⟨images, h1, fun inner outer hi ho => ?_⟩
    obtain ⟨a1, a2, a3, a4⟩ := h2 inner outer hi ho
    exact ⟨a1, a2, fun k a b hk p px hm => a3 k a b hk p px (hp.mem_iff.2 hm),
      fun k a b hk p hpp hno => a4 k a b hk p hpp (fun f hf => hno f (hp.mem_iff.1 hf))⟩
  | histogram rd n ri ro scan center =>
    obtain ⟨cx, cy⟩ := center
    obtain ⟨out, h1, h2⟩ := hr
    refine ⟨out, h1, fun inner outer hi ho => ?_⟩
    have := h2 inner outer hi ho
    unfold IsHistograms at this ⊢
    have e : ∀ a b, valueAt w h a b cx cy fs = valueAt w h a b cx cy fs' := fun a b => funext fun p => valueAt_perm hp hn p
    simp only [e] at this
    exact this
  | average =>
    obtain ⟨img, h1, h2, h3⟩ := hr
    refine ⟨img, h1, h2, fun j hj => ?_⟩
    rw [h3 j hj, (hp.map _).sum_eq, hp.length_eq]
  | radial scan center =>
    obtain ⟨cx, cy⟩ := center
    obtain ⟨radii, mem, h1, h2, h3, h4⟩ := hr
    refine ⟨radii, mem, h1, h2, h3, fun rr p hr hpp => ?_⟩
    rw [h4 rr p hr hpp, (hp.map _).sum_eq]
  | maximum dark =>
    obtain ⟨img, h1, h2, h3⟩ := hr
    refine ⟨img, h1, h2, fun j hj => ?_⟩
    obtain ⟨m, ⟨a1, a2⟩, h5⟩ := h3 j hj
    refine ⟨m, ⟨fun v hv => a1 v ((hp.map _).mem_iff.2 hv), a2.imp id fun hm => (hp.map _).mem_iff.1 hm⟩, h5⟩

/-! ### Calls -/

theorem radial_exists (blocks : List Block) (scan : Nat × Nat) (center : Int × Int) : ∃ r, RadialRun blocks scan center r := by
  cases blocks with
  | nil => exact ⟨_, rfl⟩
  | cons first bs =>
    simp only [RadialRun]
    generalize (if scan.1 = 0 ∨ scan.2 = 0 then first.scanDims else scan) = sc
    split
    · exact ⟨_, rfl⟩
    · split
      · split
        · exact ⟨_, _, Interleave.sequential _, rfl⟩
        all_goals exact ⟨_, rfl⟩
      all_goals exact ⟨_, rfl⟩

theorem radial_size (b : Block) (bs : List Block) (scan : Nat × Nat) (h : scan.1 = 0 ∨ scan.2 = 0) (center : Int × Int)
    (r : Outcome (Nat × List Nat)) : RadialRun (b :: bs) scan center r ↔ RadialRun (b :: bs) b.scanDims center r := by
  unfold RadialRun
  simp only [if_pos h, ite_self]

/-- Frames of `w × h` pixels of a scan, as a reader gives them. -/
structure FramesOK (w h W H : Nat) (fs : List Spec.Frame) : Prop where
  some : fs ≠ []
  wlt : w < 2 ^ 31
  hlt : h < 2 ^ 31
  size : w * h < 2 ^ 32
  count : fs.length + 32 ≤ 2 ^ 32
  len : ∀ f ∈ fs, f.2.length = w * h
  px : ∀ f ∈ fs, ∀ v ∈ f.2, v < 65536
  pos : ∀ f ∈ fs, f.1 < W * H

/-- The calls for which no two frames may have the same position. -/
def NeedsOnce : Call → Prop
  | .images .. => True
  | .histogram .. => True
  | _ => False

theorem once_length {W H : Nat} {fs : List Spec.Frame} (hpos : ∀ f ∈ fs, f.1 < W * H) (once : (fs.map (·.1)).Nodup) : fs.length ≤ W * H := by
  have := (List.subperm_of_subset once (l₂ := List.range (W * H)) (by
    intro p hp
    obtain ⟨f, hf, rfl⟩ := List.mem_map.1 hp
    exact List.mem_range.2 (hpos f hf))).length_le
  simpa using this

theorem FramesOK.data {w h W H : Nat} {fs : List Spec.Frame} (ok : FramesOK w h W H fs) (once : (fs.map (·.1)).Nodup) (hsz : W * H < 2 ^ 32)
    {inner outer : List Int} {cx cy : Int} (hr : RadiiOK w h inner outer cx cy) : DataOK w h W H fs inner outer cx cy :=
  ⟨ok.some, ⟨ok.len, ok.px, ok.pos⟩, once, hr.some, hr.same, hr.geo, hsz⟩

theorem FramesOK.pos' {w h W H : Nat} {fs : List Spec.Frame} (ok : FramesOK w h W H fs) : 0 < W ∧ 0 < H := by
  obtain ⟨f, hf⟩ := List.exists_mem_of_ne_nil fs ok.some
  have := ok.pos f hf
  have h1 : 0 < W * H := by omega
  exact ⟨Nat.pos_of_mul_pos_right h1, Nat.pos_of_mul_pos_left h1⟩

theorem presents (w h : Nat) {W H : Nat} {d scan : Nat × Nat} (hs : ScanArg W H d scan) (bs : List (List Spec.Frame)) :
    Presents w h W H bs.flatten (.reader (bs.map (mkBlock d (w, h)))) scan :=
  .reader bs d scan rfl hs

/-- The answer of a call with valid arguments, for frames in blocks. -/
theorem answer_right {w h W H : Nat} {d : Nat × Nat} (hsz : W * H < 2 ^ 32) {bs : List (List Spec.Frame)} (ok : FramesOK w h W H bs.flatten)
    (hblock : ∀ l ∈ bs, l.length * (w * h) ≤ 2 ^ 32) {c : Call} (hv : Valid w h W H d c)
    (once : NeedsOnce c → (bs.flatten.map (·.1)).Nodup) {a : Answer}
    (ha : Answers (bs.map (mkBlock d (w, h))) c a) : Right w h W H bs.flatten c a := by
  have hbs : bs ≠ [] := by rintro rfl; exact ok.some rfl
  have hstack : StackBlocksOK w h bs :=
    ⟨hbs, ok.size, fun fs hfs f hf => ok.len f (List.mem_flatten.2 ⟨fs, hfs, hf⟩), hblock⟩
  cases c with
  | images ri ro scan center =>
    obtain ⟨cx, cy⟩ := center
    obtain ⟨hs, inner, outer, hi, ho, hr⟩ := hv
    obtain ⟨r, h1, rfl⟩ := ha
    obtain ⟨images, rfl, h3⟩ := C67_dense hi ho (ok.data (once trivial) hsz hr) (presents w h hs bs) ok.count h1
    refine ⟨images, rfl, fun inner' outer' hi' ho' => ?_⟩
    have e1 : inner' = inner := by cases hi <;> cases hi' <;> rfl
    have e2 : outer' = outer := by cases ho <;> cases ho' <;> rfl
    rw [e1, e2]
    exact h3
  | histogram rd n ri ro scan center =>
    obtain ⟨cx, cy⟩ := center
    obtain ⟨hs, hrd, hn, hn', inner, outer, rfl, rfl, hr⟩ := hv
    obtain ⟨r, h1, rfl⟩ := ha
    obtain ⟨k, rfl⟩ : ∃ k : Nat, n = k := ⟨n.toNat, by omega⟩
    obtain ⟨out, rfl, h3⟩ := C98_histogram (src := .blocks (bs.map (mkBlock d (w, h)))) hrd (ok.data (once trivial) hsz hr)
      (presents w h hs bs) ok.count (by omega) (by omega) h1
    refine ⟨out, rfl, fun inner' outer' hi' ho' => ?_⟩
    cases hi'
    cases ho'
    exact h3
  | average =>
    obtain ⟨img, h1, h2, h3⟩ := C07_average d hstack ok.some
    cases ha
    exact ⟨img, by rw [h1], h2, h3⟩
  | radial scan center =>
    obtain ⟨cx, cy⟩ := center
    obtain ⟨hs, h31, hm⟩ := hv
    obtain ⟨r, h1, rfl⟩ := ha
    have h1 : RadialRun (bs.map (mkBlock d (w, h))) (W, H) (cx, cy) r := by
      rcases hs with rfl | ⟨hs, rfl⟩
      · exact h1
      · cases bs with
        | nil => exact absurd rfl hbs
        | cons b bs => exact (radial_size _ _ scan hs _ r).1 h1
    obtain ⟨radii, mem, rfl, h2⟩ := C08_radial d ⟨hbs, ok.wlt, ok.hlt, ok.size, ok.pos'.1, ok.pos'.2, h31, hm,
      hstack.len, fun fs hfs f hf => ok.pos f (List.mem_flatten.2 ⟨fs, hfs, hf⟩)⟩ h1
    exact ⟨radii, mem, rfl, h2⟩
  | maximum dark =>
    obtain ⟨img, h1, h2, h3⟩ := C09_maximum d hstack dark hv
    cases ha
    exact ⟨img, by rw [h1], h2, h3⟩

/-- There is an answer. -/
theorem answer_exists {w h W H : Nat} {d : Nat × Nat} (hsz : W * H < 2 ^ 32) {bs : List (List Spec.Frame)} (ok : FramesOK w h W H bs.flatten)
    {c : Call} (hv : Valid w h W H d c) (once : NeedsOnce c → (bs.flatten.map (·.1)).Nodup) :
    ∃ a, Answers (bs.map (mkBlock d (w, h))) c a := by
  cases c with
  | images ri ro scan center =>
    obtain ⟨cx, cy⟩ := center
    obtain ⟨hs, inner, outer, hi, ho, hr⟩ := hv
    obtain ⟨r, h⟩ := C67_run_exists hi ho (ok.data (once trivial) hsz hr) (presents w h hs bs) ok.count
    exact ⟨_, r, h, rfl⟩
  | histogram rd n ri ro scan center =>
    obtain ⟨cx, cy⟩ := center
    obtain ⟨hs, hrd, hn, hn', inner, outer, rfl, rfl, hr⟩ := hv
    obtain ⟨r, h⟩ := C98_run_exists (rd := rd) (src := .blocks (bs.map (mkBlock d (w, h)))) (ok.data (once trivial) hsz hr)
      (presents w h hs bs) ok.count n
    exact ⟨_, r, h, rfl⟩
  | average => exact ⟨_, rfl⟩
  | radial scan center =>
    obtain ⟨r, h⟩ := radial_exists (bs.map (mkBlock d (w, h))) scan center
    exact ⟨_, r, h, rfl⟩
  | maximum dark => exact ⟨_, rfl⟩

/-- Without blocks. -/
theorem answer_spent {w h W H : Nat} {d : Nat × Nat} {c : Call} (hv : Valid w h W H d c) {a : Answer} : Answers [] c a ↔ Spent c a := by
  cases c with
  | images ri ro scan center =>
    constructor
    · rintro ⟨r, h, rfl⟩
      exact congrArg Answer.images h
    · intro h
      exact ⟨_, rfl, h⟩
  | histogram rd n ri ro scan center =>
    obtain ⟨cx, cy⟩ := center
    obtain ⟨_, _, _, _, inner, outer, rfl, rfl, _⟩ := hv
    constructor
    · rintro ⟨r, ⟨r', h, rfl⟩, rfl⟩
      rw [show r' = .throw "No blocks to read!" from h]
      rfl
    · intro h
      exact ⟨_, ⟨_, rfl, rfl⟩, h⟩
  | average => exact Iff.rfl
  | radial scan center =>
    constructor
    · rintro ⟨r, h, rfl⟩
      exact congrArg Answer.radial h
    · intro h
      exact ⟨_, rfl, h⟩
  | maximum dark => exact Iff.rfl

theorem Right.returns {w h W H : Nat} {fs : List Spec.Frame} {c : Call} {a : Answer} (hr : Right w h W H fs c a) : a.Returns := by
  cases c with
  | images ri ro scan center => obtain ⟨x, rfl, _⟩ := hr; exact ⟨x, rfl⟩
  | histogram rd n ri ro scan center => obtain ⟨x, rfl, _⟩ := hr; exact ⟨x, rfl⟩
  | average => obtain ⟨x, rfl, _⟩ := hr; exact ⟨x, rfl⟩
  | radial scan center => obtain ⟨x, y, rfl, _⟩ := hr; exact ⟨_, rfl⟩
  | maximum dark => obtain ⟨x, rfl, _⟩ := hr; exact ⟨x, rfl⟩

theorem returns_defined {a : Answer} (h : a.Returns) : ¬ a.Undefined := by
  cases a <;> obtain ⟨x, rfl⟩ := h <;> intro h <;> cases h

/-- A read that reports the end leaves nothing to read. -/
theorem read_end {D F : Type} (L : Layout D F) {s t : State D F} (h : read L s = (.ok none, t)) : t = ⟨[], [], []⟩ := by
  obtain ⟨vs, todo, c⟩ := s
  generalize hn : 2 * (SectorReader.work vs + SectorReader.work todo) + (if todo = [] then 1 else 0) = n
  induction n using Nat.strongRecOn generalizing vs todo c with
  | _ n ih =>
    subst hn
    cases todo with
    | nil =>
      cases vs with
      | nil =>
        rw [SectorReader.read] at h
        cases c with
        | nil => exact ((Prod.mk.inj h).2).symm
        | cons e c => simp at h
      | cons v vs =>
        rw [SectorReader.read] at h
        exact ih _ (by simp [SectorReader.work]) [] (v :: vs) c h rfl
    | cons st rest =>
      rw [SectorReader.read] at h
      simp only at h
      split at h
      · rename_i hr
        split at h
        · simp at h
        · exact ih _ (by simp [SectorReader.work, hr]; split <;> omega) vs rest c h rfl
      · rename_i r rs hr
        split at h
        · split at h
          · simp at h
          · exact ih _ (by simp [SectorReader.work, hr]; split <;> omega) _ rest _ h rfl
        · simp at h

theorem read_empty {D F : Type} (L : Layout D F) : read L (⟨[], [], []⟩ : State D F) = (.ok none, ⟨[], [], []⟩) := by
  rw [SectorReader.read]

theorem readToEnd_empty {D F : Type} (L : Layout D F) : readToEnd L (⟨[], [], []⟩ : State D F) = .ok [] := by
  rw [readToEnd]
  split
  · rfl
  all_goals (rename_i h; rw [read_empty] at h; simp at h)

/-! ### Sessions -/

/-- The answers in a session are right when the reader is new or was rewound since the call before (`fresh`), else the calls find
nothing to read. -/
def Correct (W H : Nat) (fs : List Spec.Frame) : Bool → List Op → Prop
  | _, [] => True
  | _, .reset :: ops => Correct W H fs true ops
  | fresh, .call c a :: ops => (if fresh then Right 576 576 W H fs c a else Spent c a) ∧ Correct W H fs false ops

variable {v4 : Bool} {files : List (SectorReader.Stream (List Nat))} {W H : Nat} {all : List ScanFrame}

private theorem files_frames (hf : BlockFiles files W H) (hsz : W * H + 32 ≤ 2 ^ 32) (hne : ∃ f ∈ files, f.records ≠ [])
    (hall : IsPositions v4 files all) : ∃ (bs : List (List Spec.Frame)) (frames : List (SectorReader.Frame (List Nat))),
      readToEnd (layout v4) (create files) = .ok frames ∧ frames.map toBlock = bs.map (mkBlock (W, H) (576, 576)) ∧
      FramesOK 576 576 W H bs.flatten ∧ (bs.flatten.map (·.1)).Nodup ∧ (∀ l ∈ bs, l.length * (576 * 576) ≤ 2 ^ 32) ∧
      bs.flatten.Perm (numbered W all) := by
  obtain ⟨all', frames, h1, h2, h3, h4⟩ := C99_frames v4 hf (by omega)
  have hflat : (all'.map fun f => [(f.y * W + f.x, f.pixels)]).flatten = numbered W all' := by
    unfold numbered
    clear h1 h2 h3 h4
    induction all' with
    | nil => rfl
    | cons f l ih => simp only [List.map_cons, List.flatten_cons, ih]; rfl
  have once : ((numbered W all').map (·.1)).Nodup := by
    unfold numbered
    rw [List.map_map]
    have e : all'.map ((fun x : Spec.Frame => x.1) ∘ fun f : ScanFrame => (f.y * W + f.x, f.pixels)) =
        (all'.map fun f => (f.x, f.y)).map fun q : Nat × Nat => q.2 * W + q.1 := by rw [List.map_map]; rfl
    rw [e]
    refine List.Nodup.map_on ?_ h2.once
    intro a ha b hb hab
    obtain ⟨f, hf1, rfl⟩ := List.mem_map.1 ha
    obtain ⟨g, hg1, rfl⟩ := List.mem_map.1 hb
    have hfx := (h4 f hf1).1
    have hgx := (h4 g hg1).1
    simp only at hab
    have e1 : f.x = g.x := by
      have := congrArg (· % W) hab
      simpa [Nat.mul_comm _ W, Nat.mul_add_mod, Nat.mod_eq_of_lt hfx, Nat.mod_eq_of_lt hgx] using this
    have e2 : f.y = g.y := by
      rw [e1] at hab
      exact Nat.eq_of_mul_eq_mul_right (by omega : 0 < W) (by omega)
    rw [e1, e2]
  have hpos : ∀ f ∈ numbered W all', f.1 < W * H := by
    intro f hf1
    obtain ⟨g, hg, rfl⟩ := List.mem_map.1 hf1
    exact flat_lt (h4 g hg).1 (h4 g hg).2.1
  refine ⟨_, frames, h1, h3, ?_, by rw [hflat]; exact once, ?_, ?_⟩
  · rw [hflat]
    refine ⟨?_, by norm_num, by norm_num, by norm_num, ?_, ?_, ?_, hpos⟩
    · obtain ⟨f, hfm, hr⟩ := hne
      obtain ⟨r, rs, hrs⟩ := List.exists_cons_of_ne_nil hr
      have := (hf.good f hfm).1
      obtain ⟨g, hg, _⟩ := (h2.iff r.x r.y).2 ⟨f.sector.toNat, r, f, hfm, by simp [hrs], by omega, rfl, rfl⟩
      exact List.ne_nil_of_mem (List.mem_map_of_mem hg)
    · have := once_length hpos once
      omega
    · intro f hf1
      obtain ⟨g, hg, rfl⟩ := List.mem_map.1 hf1
      exact (h2.frame g hg).size
    · intro f hf1
      obtain ⟨g, hg, rfl⟩ := List.mem_map.1 hf1
      exact (h4 g hg).2.2
  · intro l hl
    obtain ⟨f, _, rfl⟩ := List.mem_map.1 hl
    norm_num
  · rw [hflat]
    exact numbered_perm W h2 hall

/-- **C99** Any program that calls these functions with a reader of sector files, with valid arguments, in any order and any number of times,
for all schedules of the threads: a call with a new reader, or one that was rewound after the call before, gives the images, histograms,
average, radial sums or maxima of the frames that are in the files; every other call gives an error, or for averages and maxima undefined
behaviour. -/
theorem C99_session (hf : BlockFiles files W H) (hsz : W * H + 32 ≤ 2 ^ 32) (hne : ∃ f ∈ files, f.records ≠ [])
    (hall : IsPositions v4 files all) {ops : List Op} {t : State (List Nat) (List Nat)}
    (hv : ∀ c a, Op.call c a ∈ ops → Valid 576 576 W H (W, H) c) (hs : Session (layout v4) files (create files) ops t) :
    Correct W H (numbered W all) true ops := by
  obtain ⟨bs, frames, h1, h2, h3, once, h4, h5⟩ := files_frames hf hsz hne hall
  have hcall : ∀ {c a}, Valid 576 576 W H (W, H) c → ∀ {t}, Called (layout v4) c (create files) a t → Right 576 576 W H (numbered W all) c a ∧ t = ⟨[], [], []⟩ := by
    intro c a hv t hc
    unfold Called at hc
    rw [h1] at hc
    obtain ⟨ha, ht⟩ := hc
    rw [h2] at ha
    have hr := answer_right (by omega) h3 h4 hv (fun _ => once) ha
    refine ⟨hr.perm h5 once, ?_⟩
    rcases ht with ⟨u, _, hu⟩ | ⟨hn, _⟩
    · exact read_end _ hu
    · exact absurd hr.returns hn
  have hspent : ∀ {c a}, Valid 576 576 W H (W, H) c → ∀ {t}, Called (layout v4) c ⟨[], [], []⟩ a t → Spent c a ∧ t = ⟨[], [], []⟩ := by
    intro c a hv t hc
    unfold Called at hc
    rw [readToEnd_empty] at hc
    obtain ⟨ha, ht⟩ := hc
    refine ⟨(answer_spent hv).1 ha, ?_⟩
    rcases ht with ⟨u, _, hu⟩ | ⟨_, f, hr⟩
    · exact read_end _ hu
    · cases hr with
      | cons h _ => rw [read_empty] at h; simp at h
  have main : ∀ {s ops t}, Session (layout v4) files s ops t → (∀ c a, Op.call c a ∈ ops → Valid 576 576 W H (W, H) c) →
      ∀ fresh : Bool, s = (if fresh then create files else ⟨[], [], []⟩) → Correct W H (numbered W all) fresh ops := by
    intro s ops t hs
    induction hs with
    | nil s => intro _ _ _; trivial
    | reset h ih =>
      intro hv fresh he
      refine ih (fun c a hm => hv c a (by simp [hm])) true ?_
      cases fresh <;> rw [he] <;> rfl
    | call h hd h' ih =>
      intro hv fresh he
      have hvc := hv _ _ (List.mem_cons_self ..)
      cases fresh with
      | true =>
        obtain ⟨a1, a2⟩ := hcall hvc (he ▸ h)
        exact ⟨a1, ih (fun c a hm => hv c a (by simp [hm])) false a2⟩
      | false =>
        obtain ⟨a1, a2⟩ := hspent hvc (he ▸ h)
        exact ⟨a1, ih (fun c a hm => hv c a (by simp [hm])) false a2⟩
    | undefined h hd =>
      intro hv fresh he
      have hvc := hv _ _ (List.mem_cons_self ..)
      cases fresh with
      | true => exact ⟨(hcall hvc (he ▸ h)).1, trivial⟩
      | false => exact ⟨(hspent hvc (he ▸ h)).1, trivial⟩
  exact main hs hv true rfl

/-- **C99** (sessions exist) Any valid calls, with a rewind after each. -/
theorem C99_session_exists (hf : BlockFiles files W H) (hsz : W * H + 32 ≤ 2 ^ 32) (hne : ∃ f ∈ files, f.records ≠ [])
    (calls : List Call) (hv : ∀ c ∈ calls, Valid 576 576 W H (W, H) c) :
    ∃ answers : List Answer, answers.length = calls.length ∧
      Session (layout v4) files (create files) ((calls.zip answers).flatMap fun x => [.call x.1 x.2, .reset]) (create files) := by
  obtain ⟨all, _, _, hall, _⟩ := C99_frames v4 hf (by omega)
  obtain ⟨bs, frames, h1, h2, h3, once, h4, h5⟩ := files_frames hf hsz hne hall
  induction calls with
  | nil => exact ⟨[], rfl, .nil _⟩
  | cons c calls ih =>
    obtain ⟨answers, i1, i2⟩ := ih (fun c hc => hv c (by simp [hc]))
    obtain ⟨a, ha⟩ := answer_exists (by omega) h3 (hv c (by simp)) (fun _ => once)
    obtain ⟨u, v, hu, hv'⟩ := readToEnd_reads frames _ h1
    refine ⟨a :: answers, by simp [i1], ?_⟩
    have hr := answer_right (by omega) h3 h4 (hv c (by simp)) (fun _ => once) ha
    have hc : Called (layout v4) c (create files) a v := by
      unfold Called
      rw [h1]
      exact ⟨h2 ▸ ha, .inl ⟨u, hu, hv'⟩⟩
    rw [List.zip_cons_cons, List.flatMap_cons]
    refine .call hc (returns_defined hr.returns) (.reset ?_)
    rw [read_end _ hv']
    exact i2

/-! ### A rewind before the end -/

/-- **C99** After any reads and a rewind, the number of frames of each position: it is read twice if it has more than four sectors
together with those that were in the cache. -/
theorem C99_twice (v4 : Bool) (hf : BlockFiles files W H) (hsz : W * H ≤ 2 ^ 32) {before : List (SectorReader.Frame (List Nat))}
    {s : State (List Nat) (List Nat)} (hb : Reads (layout v4) (create files) before s) :
    ∃ frames, readToEnd (layout v4) (reset files s) = .ok frames ∧ ∀ x y, x < W → y < H →
      frames.countP (fun f => f.pos = y * W + x) = (cached s (y * W + x) + (readOrder files x y).length + 3) / 4 := by
  obtain ⟨h, hinv, _⟩ := reads_cache hf.good hb
  obtain ⟨gs, g1, _, _, g4⟩ := last_frame (layout v4) hf.good hinv
  refine ⟨_, g1, fun x y hx hy => ?_⟩
  have P := position hf hsz (y := y) hx
  have hk : cached s (y * W + x) = (openGroup h (y * W + x)).length := by
    unfold cached
    rw [hinv.find]
    split
    · rename_i hnil; simp [hnil]
    · rfl
  have hn : (at' (y * W + x) (arrival [] files)).length = (readOrder files x y).length := by rw [← P.order, List.length_map]
  have := g4 (y * W + x)
  rw [List.length_append, hn, ← hk, ← List.countP_eq_length_filter] at this
  rw [← this, List.countP_map]
  rfl

theorem demo_rewound (L : Layout (List Nat) (List Nat)) (a b : List Nat) :
    ∃ f t, Reads L (create (demoFiles a b)) [f] t ∧ readToEnd L (reset (demoFiles a b) t) = .ok
      [assemble L 0 [(1, mkRec 0 b), (2, mkRec 0 b), (3, mkRec 0 b), (0, mkRec 0 b)],
       assemble L 1 [(0, mkRec 1 a), (0, mkRec 1 a), (1, mkRec 1 a), (2, mkRec 1 a)], assemble L 1 [(3, mkRec 1 a)]] := by
  have h : ∃ f t, read L (create (demoFiles a b)) = (.ok (some f), t) ∧ t.cache = [(1, ⟨⟨0, (2, 1), 1, L.place 0 a L.empty⟩, 1⟩)] := by
    simp [create, demoFiles, mkRec, SectorReader.read, SectorReader.feed, SectorReader.addSector, SectorReader.find, SectorReader.insert,
      SectorReader.erase, Rec.pos]
  obtain ⟨f, t, h1, h2⟩ := h
  refine ⟨f, t, .cons h1 (.nil _), ?_⟩
  rw [reset, readToEnd_eq L [] (demoFiles a b) t.cache (by
    intro st hst
    simp only [List.nil_append, demoFiles, List.mem_cons, List.not_mem_nil, or_false] at hst
    rcases hst with rfl | rfl | rfl | rfl <;> simp), h2]
  simp [arrival, demoFiles, mkRec, SectorReader.feedAll, SectorReader.feed, SectorReader.addSector, SectorReader.find, SectorReader.insert,
    SectorReader.erase, Rec.pos, assemble]

theorem average_three (d0 d1 d2 : List Nat) (h0 : d0.length = 576 * 576) (h1 : d1.length = 576 * 576) (h2 : d2.length = 576 * 576)
    (p0 : d0.getD 1000 0 = 0) (p1 : d1.getD 1000 0 = 100) (p2 : d2.getD 1000 0 = 0) :
    ∃ img, calculateAverage [mkBlock (2, 1) (576, 576) [(0, d0)], mkBlock (2, 1) (576, 576) [(1, d1)],
      mkBlock (2, 1) (576, 576) [(1, d2)]] = .ok img ∧ img[1000]? = some (100 / 3) := by
  have hstack : StackBlocksOK 576 576 [[(0, d0)], [(1, d1)], [(1, d2)]] := by
    refine ⟨by simp, by norm_num, ?_, ?_⟩
    · intro fs hfs f hf
      simp only [List.mem_cons, List.not_mem_nil, or_false] at hfs
      rcases hfs with rfl | rfl | rfl <;> rw [List.mem_singleton.1 hf] <;> assumption
    · intro fs hfs
      simp only [List.mem_cons, List.not_mem_nil, or_false] at hfs
      rcases hfs with rfl | rfl | rfl <;> simp
  obtain ⟨img, a1, a2, a3⟩ := C07_average (2, 1) hstack (by simp)
  refine ⟨img, a1, ?_⟩
  rw [a3 1000 (by norm_num)]
  simp only [List.flatten_cons, List.flatten_nil, List.cons_append, List.nil_append, List.map_cons, List.map_nil, p0, p1, p2]
  norm_num

theorem block_assemble (L : Layout (List Nat) (List Nat)) (p : Nat) (i : Nat × Rec (List Nat)) (l : List (Nat × Rec (List Nat)))
    (hw : i.2.width = 2) (hh : i.2.height = 1) :
    toBlock (assemble L p (i :: l)) = mkBlock (2, 1) (576, 576) [(p, (assemble L p (i :: l)).data)] := by
  simp [toBlock, mkBlock, assemble, hw, hh]

theorem demo_average (a b : List Nat) (ha : a.length = 144 * 576) (hb : b.length = 144 * 576) (a1 : a[1000]? = some 100)
    (b1 : b[1000]? = some 0) : ∃ f t img, Reads (layout false) (create (demoFiles a b)) [f] t ∧
    (∃ frames, readToEnd (layout false) (reset (demoFiles a b) t) = .ok frames ∧ calculateAverage (frames.map toBlock) = .ok img) ∧
    img[1000]? = some (100 / 3) := by
  obtain ⟨f, t, hr, ht⟩ := demo_rewound (layout false) a b
  have hpx : ∀ {recs : Nat → Rec (List Nat) → Prop} {px : List Nat}, IsFrame false recs px → ∀ r v, recs 0 r → r.data[1000]? = some v →
      px.getD 1000 0 = v := by
    intro recs px hp r v hv hr
    have := hp.pixel 424 1 (by decide) (by decide) r hv
    rw [show indexAt false 424 1 = 1000 from rfl, List.getD_eq_getElem?_getD, hr] at this
    rw [List.getD_eq_getElem?_getD, show 1000 = 576 * 1 + 424 from rfl, this]
    rfl
  have hzero : ∀ {recs : Nat → Rec (List Nat) → Prop} {px : List Nat}, IsFrame false recs px → (∀ r, ¬ recs 0 r) → px.getD 1000 0 = 0 := by
    intro recs px hp hv
    have := hp.zero 424 1 (by decide) (by decide) hv
    rw [List.getD_eq_getElem?_getD, show 1000 = 576 * 1 + 424 from rfl, this]
    rfl
  have hfr : ∀ (p : Nat) (r : Rec (List Nat)) (secs : List Nat), (∀ s ∈ secs, s < 4) → r.data.length = 144 * 576 →
      IsFrame false (fun sec r' => (sec, r') ∈ secs.map fun s => (s, r)) (assemble (layout false) p (secs.map fun s => (s, r))).data := by
    intro p r secs hs hl
    refine assemble_isFrame false p _ ?_ ?_
    · intro i hi
      obtain ⟨s, h, rfl⟩ := List.mem_map.1 hi
      exact hs s h
    · intro i hi j hj e
      obtain ⟨s, h, rfl⟩ := List.mem_map.1 hi
      obtain ⟨s', h', rfl⟩ := List.mem_map.1 hj
      simp only at e
      rw [e]
  have f0 := hfr 0 (mkRec 0 b) [1, 2, 3, 0] (by decide) hb
  have f1 := hfr 1 (mkRec 1 a) [0, 0, 1, 2] (by decide) ha
  have f2 := hfr 1 (mkRec 1 a) [3] (by decide) ha
  obtain ⟨img, h1, h2⟩ := average_three _ _ _ f0.size f1.size f2.size (hpx f0 (mkRec 0 b) 0 (by simp) b1) (hpx f1 (mkRec 1 a) 100 (by simp) a1)
    (hzero f2 (by simp))
  refine ⟨f, t, img, hr, ⟨_, ht, ?_⟩, h2⟩
  rw [← h1]
  simp only [List.map_cons, List.map_nil]
  rw [block_assemble _ _ _ _ rfl rfl, block_assemble _ _ _ _ rfl rfl, block_assemble _ _ _ _ rfl rfl]

theorem bright_rewound : ∃ f t img, Reads (layout false) (create brightDemo) [f] t ∧
    (∃ frames, readToEnd (layout false) (reset brightDemo t) = .ok frames ∧ calculateAverage (frames.map toBlock) = .ok img) ∧
    img[1000]? = some (100 / 3) := by
  have hlen : ∀ v, (brightSector v).length = 144 * 576 := by
    intro v
    rw [brightSector, List.length_append, List.length_cons, List.length_replicate, List.length_replicate]
  have hat : ∀ v, (brightSector v)[1000]? = some v := by
    intro v
    rw [bright_at _ _ (by decide), if_pos rfl]
  exact demo_average (brightSector 100) (brightSector 0) (hlen 100) (hlen 0) (hat 100) (hat 0)

/-- **C99** does not hold after a call that raised: `create_stem_images` with one inner and two outer radii raises an error when the first
block was read; the rewind leaves a sector in the cache, and the average that is computed then counts a position twice. -/
theorem C99_failed_false : ∃ (img : List Rat) (t : State (List Nat) (List Nat)) (all : List ScanFrame),
    Session (layout false) brightDemo (create brightDemo)
      [.call (.images (.one 1) (.many [2, 3]) (0, 0) (-1, -1)) (.images (.throw "innerRadii and outerRadii are not the same size!")),
       .reset, .call .average (.average (.ok img))] t ∧
    IsPositions false brightDemo all ∧ ¬ Right 576 576 2 1 (numbered 2 all) .average (.average (.ok img)) := by
  obtain ⟨all, frames, h1, h2, h3, h4⟩ := C99_frames false brightDemo_ok (by decide)
  obtain ⟨f, t, img, hr, ⟨frames', ht, ha⟩, himg⟩ := bright_rewound
  obtain ⟨u, v, hu, hv⟩ := readToEnd_reads _ _ ht
  refine ⟨img, v, all, ?_, h2, ?_⟩
  · refine .call (t := t) ?_ (by intro h; cases h) (.reset (.call ?_ (by intro h; cases h) (.nil _)))
    · unfold Called
      rw [h1]
      simp only
      refine ⟨⟨_, ?_, rfl⟩, .inr ⟨(by rintro ⟨x, hx⟩; cases hx), f, hr⟩⟩
      have hne : all ≠ [] := by
        obtain ⟨g, hg, _⟩ := (h2.iff 1 0).2 ⟨0, mkRec 1 (brightSector 100), _, List.mem_cons_self .., List.mem_cons_self .., rfl, rfl, rfl⟩
        exact List.ne_nil_of_mem hg
      rw [h3]
      obtain ⟨g, l, rfl⟩ := List.exists_cons_of_ne_nil hne
      simp [StemRun, DenseRun, validateDense, Radii.toList]
    · unfold Called
      rw [ht]
      exact ⟨congrArg Answer.average ha.symm, .inl ⟨u, hu, hv⟩⟩
  · rintro ⟨img', e, _, b2⟩
    have e : img = img' := Outcome.ok.inj (Answer.average.inj e)
    rw [e, b2 1000 (by norm_num)] at himg
    have himg := Option.some.inj himg
    have hlen2 : (numbered 2 all).length ≤ 2 := by
      have hnd := h2.once
      have := (List.subperm_of_subset hnd (l₂ := [(0, 0), (1, 0)]) (by
        intro q hq
        obtain ⟨g, hg, rfl⟩ := List.mem_map.1 hq
        have := h4 g hg
        simp
        omega)).length_le
      simpa [numbered] using this
    generalize ((numbered 2 all).map fun f => f.2.getD 1000 0).sum = S at himg
    generalize (numbered 2 all).length = n at himg hlen2
    have : n = 0 ∨ n = 1 ∨ n = 2 := by omega
    rcases this with rfl | rfl | rfl
    · norm_num at himg
    · have : (S : Rat) * 3 = 100 := by rw [Nat.cast_one, div_one] at himg; rw [himg]; norm_num
      have : S * 3 = 100 := by exact_mod_cast this
      omega
    · have : (S : Rat) * 3 = 200 := by
        rw [div_eq_div_iff (by norm_num) (by norm_num)] at himg
        rw [himg]; norm_num
      have : S * 3 = 200 := by exact_mod_cast this
      omega

private theorem read_cut (L : Layout (List Nat) (List Nat)) (s : State (List Nat) (List Nat)) (h : ∃ st ∈ s.visited ++ s.todo, st.cut = true) :
    (read L s).1 = .ub ∨ ∃ f, (read L s).1 = .ok (some f) ∧ ∃ st ∈ (read L s).2.visited ++ (read L s).2.todo, st.cut = true := by
  fun_induction read L s with
  | case1 s h1 h2 h3 => simp [h1, h2] at h
  | case2 s h1 h2 p slot c h3 => simp [h1, h2] at h
  | case3 s h1 v vs h2 ih => exact ih (by simpa [h1, h2] using h)
  | case4 s st rest h1 h2 hc => exact .inl rfl
  | case5 s st rest h1 h2 hc ih =>
    refine ih ?_
    obtain ⟨x, hx, hx'⟩ := h
    rw [h1, List.mem_append, List.mem_cons] at hx
    rcases hx with hx | rfl | hx
    · exact ⟨x, by simp [hx], hx'⟩
    · exact absurd hx' hc
    · exact ⟨x, by simp [hx], hx'⟩
  | case6 s st rest h1 r rs h2 hs c f hf =>
    refine .inr ⟨f, rfl, ?_⟩
    obtain ⟨x, hx, hx'⟩ := h
    rw [h1, List.mem_append, List.mem_cons] at hx
    rcases hx with hx | rfl | hx
    · exact ⟨x, by simp [hx], hx'⟩
    · exact ⟨{ x with records := rs }, by simp, hx'⟩
    · exact ⟨x, by simp [hx], hx'⟩
  | case7 s st rest h1 r rs h2 hs c hf ih =>
    refine ih ?_
    obtain ⟨x, hx, hx'⟩ := h
    rw [h1, List.mem_append, List.mem_cons] at hx
    rcases hx with hx | rfl | hx
    · exact ⟨x, by simp [hx], hx'⟩
    · exact ⟨{ x with records := rs }, by simp, hx'⟩
    · exact ⟨x, by simp [hx], hx'⟩
  | case8 s st rest h1 r rs h2 hs => exact .inl rfl

private theorem readToEnd_cut (L : Layout (List Nat) (List Nat)) (s : State (List Nat) (List Nat)) (h : ∃ st ∈ s.visited ++ s.todo, st.cut = true) :
    readToEnd L s = .ub := by
  fun_induction readToEnd L s with
  | case1 s t hr =>
    rcases read_cut L s h with h' | ⟨f, h', _⟩ <;> rw [hr] at h' <;> simp at h'
  | case2 s f t hr ih =>
    rcases read_cut L s h with h' | ⟨f, _, h'⟩
    · rw [hr] at h'; simp at h'
    · rw [hr] at h'; rw [ih h']; rfl
  | case3 s m t hr =>
    rcases read_cut L s h with h' | ⟨f, h', _⟩ <;> rw [hr] at h' <;> simp at h'
  | case4 s t hr => rfl

/-- **C99** does not hold if a file ends within a header: no call returns, in any session, however many frames are complete. What was read of the
header is used (reader.cpp:434-447), so a call has undefined behaviour, unless it raises an error before. -/
theorem C99_cut_false (L : Layout (List Nat) (List Nat)) {files : List (SectorReader.Stream (List Nat))} (hcut : ∃ f ∈ files, f.cut = true)
    {ops : List Op} {t : State (List Nat) (List Nat)} (hs : Session L files (create files) ops t) :
    ∀ c a, Op.call c a ∈ ops → ¬ a.Returns := by
  have hno : ∀ a : Answer, a.Undefined → ¬ a.Returns := by
    intro a h
    cases a <;> simp only [Answer.Undefined] at h <;> subst h <;> rintro ⟨x, hx⟩ <;> cases hx
  have hc : ∀ {c a s t}, (∃ st ∈ s.visited ++ s.todo, st.cut = true) → Called L c s a t → ¬ a.Returns ∧
      (¬ a.Undefined → ∃ st ∈ t.visited ++ t.todo, st.cut = true) := by
    intro c a s t hI h
    unfold Called at h
    rw [readToEnd_cut L s hI] at h
    rcases h with h | ⟨h, f, hf⟩
    · exact ⟨hno a h, fun h' => absurd h h'⟩
    · refine ⟨h, fun _ => ?_⟩
      cases hf with
      | cons h1 h2 =>
        cases h2
        rcases read_cut L s hI with h' | ⟨f, _, h'⟩
        · rw [h1] at h'; simp at h'
        · rwa [h1] at h'
  have main : ∀ {s ops t}, Session L files s ops t → (∃ st ∈ s.visited ++ s.todo, st.cut = true) → ∀ c a, Op.call c a ∈ ops → ¬ a.Returns := by
    intro s ops t hs
    induction hs with
    | nil s => intro _ c a hm; cases hm
    | reset h ih =>
      intro _ c a hm
      refine ih (by simpa [reset] using hcut) c a (by simpa using hm)
    | call h hd h' ih =>
      intro hI c a hm
      obtain ⟨g1, g2⟩ := hc hI h
      rcases List.mem_cons.1 hm with hm | hm
      · cases hm; exact g1
      · exact ih (g2 hd) c a hm
    | undefined h hd =>
      intro hI c a hm
      cases List.mem_singleton.1 hm
      exact (hc hI h).1
  exact main hs (by simpa [create] using hcut)

/-- The hypothesis can be met: the last file ends within a header; the average has undefined behaviour. -/
example : ∃ (files : List (SectorReader.Stream (List Nat))) (t : State (List Nat) (List Nat)), (∃ f ∈ files, f.cut = true) ∧
    (∃ f ∈ files, f.records ≠ []) ∧ Session (layout false) files (create files) [.call .average (.average .ub)] t := by
  refine ⟨[⟨0, [mkRec 1 (brightSector 100)], false⟩, ⟨1, [], true⟩], create [], ⟨_, .tail _ (.head _), rfl⟩, ⟨_, List.mem_cons_self .., by simp⟩,
    .undefined ?_ rfl⟩
  unfold Called
  rw [readToEnd_cut _ _ ⟨⟨1, [], true⟩, by simp [create], rfl⟩]
  exact .inl rfl

/-- The hypotheses of `C99_session` hold for these files and a session with several calls. -/
example : ∃ (ops : List Op) (t : State (List Nat) (List Nat)) (all : List ScanFrame), BlockFiles brightDemo 2 1 ∧ IsPositions true brightDemo all ∧
    (∀ c a, Op.call c a ∈ ops → Valid 576 576 2 1 (2, 1) c) ∧ Session (layout true) brightDemo (create brightDemo) ops t ∧ ops.length = 6 := by
  have hne : ∃ f ∈ brightDemo, f.records ≠ [] := ⟨_, List.mem_cons_self .., by simp⟩
  have hv : ∀ c ∈ [Call.average, .images (.one 0) (.many [40]) (2, 1) (-1, -1), .maximum (0, [])], Valid 576 576 2 1 (2, 1) c := by
    intro c hc
    simp only [List.mem_cons, List.not_mem_nil, or_false] at hc
    rcases hc with rfl | rfl | rfl
    · trivial
    · refine ⟨.inl rfl, [0], [40], .one 0, .many _, ⟨by simp, rfl, ?_⟩⟩
      intro r hr
      rw [show r = (0, 40) by simpa using hr]
      constructor <;> norm_num
    · intro h; exact absurd rfl h
  obtain ⟨all, _, _, hall, _⟩ := C99_frames true brightDemo_ok (by decide)
  obtain ⟨answers, h1, h2⟩ := C99_session_exists (v4 := true) brightDemo_ok (by decide) hne _ hv
  refine ⟨_, _, all, brightDemo_ok, hall, ?_, h2, ?_⟩
  · intro c a hm
    obtain ⟨x, hx, hm⟩ := List.mem_flatMap.1 hm
    simp only [List.mem_cons, List.not_mem_nil, or_false, Op.call.injEq, reduceCtorEq] at hm
    rw [hm.1]
    exact hv _ (List.of_mem_zip hx).1
  · match answers, h1 with
    | [_, _, _], _ => rfl

end RawFiles
end Stempy.Props
