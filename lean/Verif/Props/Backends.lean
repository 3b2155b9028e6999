import Verif.Props.BlockPipeline
import Verif.Props.CountPaths

/-!
C89: counting the same sector files with the block-wise reader and with the multi-pass reader.
-/

namespace Stempy.Props
open Stempy.Spec Stempy.BlockPipeline
open Stempy.SectorReader (Rec State Reads create version5)
open Stempy.MultiPass (File HState HStep hinit)
open Stempy.Electron (CountOptions)

/-! ### Specification -/

/-- The same files for the multi-pass reader. -/
def sectorFiles (files : List (SectorReader.Stream (List Nat))) : List (File (List Nat)) :=
  files.map fun f => ⟨f.sector.toNat, f.records⟩

/-- All records of a position have the same frame number. -/
def OneFrame (files : List (SectorReader.Stream (List Nat))) : Prop :=
  ∀ f ∈ files, ∀ g ∈ files, ∀ r ∈ f.records, ∀ r' ∈ g.records, r.x = r'.x → r.y = r'.y → r.frameNumber = r'.frameNumber

/-- Counted data of which the frames, also after saving and loading, and the STEM images are the same. -/
structure SameResults (W H : Nat) (data data' : PyImage.CountedData) : Prop where
  results : ∃ py py', PyImage.toPython data = .ok py ∧ PyImage.toPython data' = .ok py' ∧
    ∀ (V : Type) (d : SparseFile.Tree V), d.Valid → ∃ f m a f' m' a',
      SparseFile.write py.array d = .ok f ∧ SparseFile.read f true = .ok (a, m) ∧
      SparseFile.write py'.array d = .ok f' ∧ SparseFile.read f' true = .ok (a', m') ∧
      (∀ X Y, X < W → Y < H → ∃ frame frame', Sparse.expand a [Y, X] = .ok frame ∧ Sparse.expand a' [Y, X] = .ok frame' ∧
        ∀ c l, c < 576 → l < 576 → ∃ v, frame[l * 576 + c]? = some v ∧ frame'[l * 576 + c]? = some v) ∧
      ∀ (inner outer : List Int) (cx cy : Int), inner ≠ [] → inner.length = outer.length →
        (∀ r ∈ inner.zip outer, GeometryOK 576 576 r.1 r.2 cx cy) →
        ∃ images, PyImage.createStemImages py inner outer (cx, cy) = .ok images ∧
          PyImage.createStemImages py' inner outer (cx, cy) = .ok images ∧
          PyImage.createStemImages ⟨a, none⟩ inner outer (cx, cy) = .ok images ∧
          PyImage.createStemImages ⟨a', none⟩ inner outer (cx, cy) = .ok images

/-! ### Equal events give equal results -/

private theorem sameResults {W H : Nat} {data data' : PyImage.CountedData} {all all' : List ScanFrame} {ev ev' : ScanFrame → List Nat}
    (hr : Results W H data all ev) (hr' : Results W H data' all' ev')
    (he : ∀ X Y, X < W → Y < H → (all'.filter fun f => f.x = X ∧ f.y = Y).map ev' = (all.filter fun f => f.x = X ∧ f.y = Y).map ev) :
    SameResults W H data data' := by
  obtain ⟨py, p1, p2⟩ := hr.results
  obtain ⟨py', q1, q2⟩ := hr'.results
  refine ⟨py, py', p1, q1, ?_⟩
  intro V d hd
  obtain ⟨f, m, a, w1, w2, w3, w4⟩ := p2 V d hd
  obtain ⟨f', m', a', v1, v2, v3, v4⟩ := q2 V d hd
  refine ⟨f, m, a, f', m', a', w1, w2, v1, v2, ?_, ?_⟩
  · intro X Y hX hY
    obtain ⟨fr, x1, x2⟩ := w3 X Y hX hY
    obtain ⟨fr', y1, y2⟩ := v3 X Y hX hY
    refine ⟨fr, fr', x1, y1, fun c l hc hl => ⟨_, x2 c l hc hl, ?_⟩⟩
    rw [y2 c l hc hl]
    have e := congrArg (List.countP fun ev => decide (l * 576 + c ∈ ev)) (he X Y hX hY)
    rw [List.countP_map, List.countP_map] at e
    exact congrArg some e
  · intro inner outer cx cy hne hlen hgeo
    obtain ⟨images, k1, i1, i2, i3, i4⟩ := w4 inner outer cx cy hne hlen hgeo
    obtain ⟨images', k2, j1, j2, j3, j4⟩ := v4 inner outer cx cy hne hlen hgeo
    have e : images' = images := by
      refine List.ext_getElem? fun k => ?_
      by_cases hk : k < inner.length
      · have hk1 : k < images.length := by omega
        have hk2 : k < images'.length := by omega
        rw [List.getElem?_eq_getElem hk1, List.getElem?_eq_getElem hk2]
        congr 1
        have l1 := i3 _ (List.getElem_mem hk1)
        have l2 := j3 _ (List.getElem_mem hk2)
        have hz : k < (inner.zip outer).length := by rw [List.length_zip]; omega
        refine List.ext_getElem? fun p => ?_
        by_cases hp : p < W * H
        · have hW : 0 < W := Nat.pos_of_ne_zero fun h => by simp [h] at hp
          have hX : p % W < W := Nat.mod_lt _ hW
          have hY : p / W < H := Nat.div_lt_of_lt_mul hp
          have e1 := i4 k _ _ (List.getElem?_eq_getElem hz) (p % W) (p / W) hX hY
          have e2 := j4 k _ _ (List.getElem?_eq_getElem hz) (p % W) (p / W) hX hY
          have ep : p / W * W + p % W = p := by rw [Nat.mul_comm]; exact Nat.div_add_mod p W
          rw [ep] at e1 e2
          simp only [pixelAt, List.getElem?_eq_getElem hk1, List.getElem?_eq_getElem hk2, Option.bind_some] at e1 e2
          rw [e1, e2]
          have e3 := congrArg (List.map fun ev => annulusHits 576 (inner.zip outer)[k].1 (inner.zip outer)[k].2 (effCenter 576 cx)
            (effCenter 576 cy) ev) (he _ _ hX hY)
          rw [List.map_map, List.map_map] at e3
          exact congrArg some (congrArg (fun l : List Nat => 65535 * l.sum % 2 ^ 64) e3)
        · rw [List.getElem?_eq_none (by omega), List.getElem?_eq_none (by omega)]
      · rw [List.getElem?_eq_none (by omega), List.getElem?_eq_none (by omega)]
    rw [e] at k2 j1
    exact ⟨images, i1, j1, k1, k2⟩

/-! ### The frames of the two readers -/

theorem hasRecord_sectorFiles {files : List (SectorReader.Stream (List Nat))} {x y n sec : Nat} {r : Rec (List Nat)} (hf : GoodFiles files) :
    HasRecord (sectorFiles files) x y n sec r ↔ FileRecord files x y sec r ∧ r.frameNumber = n := by
  constructor
  · rintro ⟨file, h1, h2, h3, h4, h5, h6⟩
    obtain ⟨f, hfm, rfl⟩ := List.mem_map.1 h1
    have := (hf f hfm).1
    exact ⟨⟨f, hfm, h2, by simp only at h3; omega, h4, h5⟩, h6⟩
  · rintro ⟨⟨f, hfm, h2, h3, h4, h5⟩, h6⟩
    exact ⟨_, List.mem_map.2 ⟨f, hfm, rfl⟩, h2, by simp only; omega, h4, h5, h6⟩

theorem filesOk_sectorFiles {files : List (SectorReader.Stream (List Nat))} {W H : Nat} (hf : WholeFiles files W H) (hsz : W * H ≤ 2 ^ 32) :
    FilesOk (sectorFiles files) W H := by
  refine ⟨?_, ?_, ?_, ?_⟩
  · intro f hfm
    obtain ⟨g, hg, rfl⟩ := List.mem_map.1 hfm
    have := (hf.good g hg).1
    simp only
    omega
  · intro f hfm
    obtain ⟨g, hg, rfl⟩ := List.mem_map.1 hfm
    exact hf.scan g hg
  · intro f hfm
    obtain ⟨g, hg, rfl⟩ := List.mem_map.1 hfm
    exact hf.whole g hg
  · intro i j r i' j' r' p n sec _ _ _ _ h h'
    obtain ⟨file, h1, h2, h3, _, h5⟩ := h
    obtain ⟨file', h1', h2', h3', _, h5'⟩ := h'
    rw [sectorFiles, List.getElem?_map, Option.map_eq_some_iff] at h1 h1'
    obtain ⟨f, g1, rfl⟩ := h1
    obtain ⟨f', g1', rfl⟩ := h1'
    have hm := List.mem_of_getElem? g1
    have hm' := List.mem_of_getElem? g1'
    have hr := List.mem_of_getElem? h2
    have hr' := List.mem_of_getElem? h2'
    have s1 := hf.scan f hm r hr
    have s2 := hf.scan f' hm' r' hr'
    have hxy := (pos_coordinates (y := r.y) s1 hsz s1.2.2.1).2 ⟨rfl, rfl⟩
    have hxy' := (pos_coordinates (y := r.y) s2 hsz s1.2.2.1).1 (by rw [h3', ← h3, hxy])
    have hsec : f.sector = f'.sector := by
      have := (hf.good f hm).1
      have := (hf.good f' hm').1
      simp only at h5 h5'
      omega
    obtain ⟨n1, n2⟩ := List.nodup_flatMap.1 hf.once
    have hi : i = i' := by
      by_contra hne
      have hl := (List.getElem?_eq_some_iff.1 g1)
      have hl' := (List.getElem?_eq_some_iff.1 g1')
      obtain ⟨b1, c1⟩ := hl
      obtain ⟨b2, c2⟩ := hl'
      have key : ∀ {a b : Nat} (ha : a < files.length) (hb : b < files.length), a < b →
          List.Disjoint (files[a].records.map fun r => (files[a].sector, r.x, r.y)) (files[b].records.map fun r => (files[b].sector, r.x, r.y)) :=
        fun ha hb hab => List.pairwise_iff_getElem.1 n2 _ _ ha hb hab
      have m1 : (f.sector, r.x, r.y) ∈ files[i].records.map fun r => (files[i].sector, r.x, r.y) := by
        rw [c1]; exact List.mem_map.2 ⟨r, hr, rfl⟩
      have m2 : (f.sector, r.x, r.y) ∈ files[i'].records.map fun r => (files[i'].sector, r.x, r.y) := by
        rw [c2]; exact List.mem_map.2 ⟨r', hr', by simp only [hsec, hxy'.1, hxy'.2]⟩
      rcases Nat.lt_or_gt_of_ne hne with hlt | hlt
      · exact key b1 b2 hlt m1 m2
      · exact key b2 b1 hlt m2 m1
    subst hi
    rw [g1] at g1'
    cases g1'
    refine ⟨rfl, ?_⟩
    have nd := n1 f hm
    obtain ⟨b1, c1⟩ := List.getElem?_eq_some_iff.1 h2
    obtain ⟨b2, c2⟩ := List.getElem?_eq_some_iff.1 h2'
    simp only at b1 b2 c1 c2
    refine (List.Nodup.getElem_inj_iff nd (i := j) (j := j') (hi := by simpa using b1) (hj := by simpa using b2)).1 ?_
    simp only [List.getElem_map, c1, c2, hxy'.1, hxy'.2]

private theorem nil_or_singleton {α : Type} {l : List α} (hn : l.Nodup) (h : ∀ a ∈ l, ∀ b ∈ l, a = b) : l = [] ∨ ∃ a, l = [a] := by
  match l with
  | [] => exact .inl rfl
  | [a] => exact .inr ⟨a, rfl⟩
  | a :: b :: l =>
    have := h a (by simp) b (by simp)
    subst this
    simp at hn

private theorem whole_pixel {files : List (SectorReader.Stream (List Nat))} (hw : ∀ f ∈ files, ∀ r ∈ f.records, r.data.length = 144 * 576)
    {x y sec i : Nat} {r : Rec (List Nat)} (hr : FileRecord files x y sec r) (hi : i < 144 * 576) : some (r.data.getD i 0) = r.data[i]? := by
  obtain ⟨f, h1, h2, _⟩ := hr
  rw [List.getElem?_eq_getElem (by rw [hw f h1 r h2]; exact hi), List.getD_eq_getElem?_getD, List.getElem?_eq_getElem (by rw [hw f h1 r h2]; exact hi)]
  rfl

/-- The frames of a position are the same for both readers. -/
theorem same_frames {files : List (SectorReader.Stream (List Nat))} (hf : GoodFiles files)
    (hw : ∀ f ∈ files, ∀ r ∈ f.records, r.data.length = 144 * 576) (hone : OneFrame files) {all all' : List ScanFrame}
    (h : IsPositions false files all) (h' : IsScan (sectorFiles files) all') (X Y : Nat) :
    ((all.filter fun f => f.x = X ∧ f.y = Y) = [] ∧ (all'.filter fun f => f.x = X ∧ f.y = Y) = []) ∨
    ∃ f ∈ all, ∃ f' ∈ all', (all.filter fun f => f.x = X ∧ f.y = Y) = [f] ∧ (all'.filter fun f => f.x = X ∧ f.y = Y) = [f'] ∧
      f.pixels = f'.pixels := by
  have hnum : ∀ f ∈ all', ∀ sec r, FileRecord files f.x f.y sec r → r.frameNumber = f.number := by
    intro f hfm sec r hr
    obtain ⟨sec', r', hr'⟩ := (h'.iff f.x f.y f.number).1 ⟨f, hfm, rfl, rfl, rfl⟩
    obtain ⟨⟨g, a1, a2, a3, a4, a5⟩, b⟩ := (hasRecord_sectorFiles hf).1 hr'
    obtain ⟨g', a1', a2', a3', a4', a5'⟩ := hr
    rw [← b]
    exact hone g' a1' g a1 r a2' r' a2 (by rw [a4, a4']) (by rw [a5, a5'])
  have c1 := nil_or_singleton (l := all.filter fun f => f.x = X ∧ f.y = Y) (h.once.of_map.filter _) (by
    intro a ha b hb
    simp only [List.mem_filter, decide_eq_true_eq] at ha hb
    exact List.inj_on_of_nodup_map h.once ha.1 hb.1 (by rw [ha.2.1, ha.2.2, hb.2.1, hb.2.2]))
  have c2 := nil_or_singleton (l := all'.filter fun f => f.x = X ∧ f.y = Y) (h'.once.of_map.filter _) (by
    intro a ha b hb
    simp only [List.mem_filter, decide_eq_true_eq] at ha hb
    obtain ⟨sec, r, hr⟩ := (h'.iff a.x a.y a.number).1 ⟨a, ha.1, rfl, rfl, rfl⟩
    have hr := (hasRecord_sectorFiles hf).1 hr
    have := hnum b hb.1 sec r (by rw [hb.2.1, hb.2.2, ← ha.2.1, ← ha.2.2]; exact hr.1)
    exact List.inj_on_of_nodup_map h'.once ha.1 hb.1 (by rw [ha.2.1, ha.2.2, hb.2.1, hb.2.2, ← hr.2, this]))
  have e1 : (all.filter fun f => f.x = X ∧ f.y = Y) = [] ↔ ¬ ∃ sec r, FileRecord files X Y sec r := by
    rw [← h.iff, List.filter_eq_nil_iff]
    constructor
    · rintro a ⟨f, hfm, hx⟩
      exact a f hfm (by simpa using hx)
    · intro a f hfm hx
      exact a ⟨f, hfm, by simpa using hx⟩
  have e2 : (all'.filter fun f => f.x = X ∧ f.y = Y) = [] ↔ ¬ ∃ sec r, FileRecord files X Y sec r := by
    rw [List.filter_eq_nil_iff]
    constructor
    · rintro a ⟨sec, r, hr⟩
      obtain ⟨f, hfm, f1, f2, _⟩ := (h'.iff X Y r.frameNumber).2 ⟨sec, r, (hasRecord_sectorFiles hf).2 ⟨hr, rfl⟩⟩
      exact a f hfm (by simp [f1, f2])
    · intro a f hfm hx
      obtain ⟨sec, r, hr⟩ := (h'.iff f.x f.y f.number).1 ⟨f, hfm, rfl, rfl, rfl⟩
      simp only [decide_eq_true_eq] at hx
      rw [hx.1, hx.2] at hr
      exact a ⟨sec, r, ((hasRecord_sectorFiles hf).1 hr).1⟩
  rcases c1 with c1 | ⟨f, c1⟩
  · exact .inl ⟨c1, e2.2 (e1.1 c1)⟩
  · rcases c2 with c2 | ⟨f', c2⟩
    · exact .inl ⟨e1.2 (e2.1 c2), c2⟩
    · right
      have m1 : f ∈ all.filter fun f => f.x = X ∧ f.y = Y := by rw [c1]; simp
      have m2 : f' ∈ all'.filter fun f => f.x = X ∧ f.y = Y := by rw [c2]; simp
      simp only [List.mem_filter, decide_eq_true_eq] at m1 m2
      refine ⟨f, m1.1, f', m2.1, c1, c2, ?_⟩
      have hfr := h.frame f m1.1
      refine List.ext_getElem? fun i => ?_
      by_cases hi : i < 576 * 576
      · have hi' : i = 576 * (i / 576) + i % 576 := (Nat.div_add_mod i 576).symm
        have hc : i % 576 < 576 := Nat.mod_lt _ (by omega)
        have hl : i / 576 < 576 := by omega
        rw [hi']
        by_cases hr : ∃ r, FileRecord files f.x f.y (i / 576 / 144) r
        · obtain ⟨r, hr⟩ := hr
          rw [hfr.pixel _ _ hc hl r hr, h'.pixel f' m2.1 _ _ hc hl r ?_]
          · exact whole_pixel (i := 576 * (i / 576 % 144) + i % 576) hw hr (by omega)
          · have hr' : FileRecord files f'.x f'.y (i / 576 / 144) r := by rw [m2.2.1, m2.2.2, ← m1.2.1, ← m1.2.2]; exact hr
            exact (hasRecord_sectorFiles hf).2 ⟨hr', hnum f' m2.1 _ r hr'⟩
        · rw [hfr.zero _ _ hc hl (fun r hr' => hr ⟨r, hr'⟩), h'.zero f' m2.1 _ _ hc hl ?_]
          rintro ⟨r, hr'⟩
          refine hr ⟨r, ?_⟩
          rw [m1.2.1, m1.2.2, ← m2.2.1, ← m2.2.2]
          exact ((hasRecord_sectorFiles hf).1 hr').1
      · rw [List.getElem?_eq_none (by rw [hfr.size]; omega), List.getElem?_eq_none (by rw [h'.size f' m2.1]; omega)]

/-! ### Agreement -/

private theorem agree {files : List (SectorReader.Stream (List Nat))} {W H : Nat} (hf : WholeFiles files W H) (hone : OneFrame files)
    {o' : EndToEnd.Setup} {value' : Rat → List Nat → Nat → Rat} {all all' S : List ScanFrame} {ev ev' : ScanFrame → List Nat}
    {data data' : PyImage.CountedData} {bg xr : Rat} {value : List Nat → Nat → Rat}
    (h : IsPositions false files all) (he : ∀ f ∈ all, IsEventList bg xr 576 576 (value f.pixels) (ev f)) (hr : Results W H data all ev)
    (h' : Counted o' (sectorFiles files) value' all' S ev') (hr' : Results W H data' all' ev')
    (hbg : (o'.thresholds (S.map fun f => f.pixels)).1 = bg) (hxr : (o'.thresholds (S.map fun f => f.pixels)).2.1 = xr)
    (hv : ∀ f ∈ all, ∀ q j, j < 576 * 576 → value' q f.pixels j = value f.pixels j) : SameResults W H data data' := by
  refine sameResults hr hr' fun X Y _ _ => ?_
  rcases same_frames hf.good hf.whole hone h h'.scan X Y with ⟨e1, e2⟩ | ⟨f, hfm, f', hfm', e1, e2, e3⟩
  · rw [e1, e2]; rfl
  · rw [e1, e2]
    have b := h'.events f' hfm'
    rw [hbg, hxr, ← e3] at b
    rw [List.map_singleton, List.map_singleton, events_unique (hv f hfm _) b (he f hfm)]

/-- The frames which the multi-pass reader takes for the thresholds: `number` complete frames of the files. -/
structure IsSample (files : List (File (List Nat))) (number : Nat) (S : List ScanFrame) : Prop where
  length : S.length = number
  frames : ∃ all, IsScan files all ∧ S.Subperm all
  complete : ∀ f ∈ S, ∀ sec < 4, ∃ r, HasRecord files f.x f.y f.number sec r

private theorem Counted.isSample {files : List (File (List Nat))}
    {o' : EndToEnd.Setup} {value' : Rat → List Nat → Nat → Rat} {all' S : List ScanFrame} {ev' : ScanFrame → List Nat}
    (h' : Counted o' files value' all' S ev') : IsSample files o'.numBlocks S :=
  ⟨h'.samples, ⟨_, h'.scan, h'.sub⟩, h'.complete⟩

/-- **C89** With dark reference and gain: the block-wise counting of sector files and the counting with the multi-pass reader give the same
frames and the same images for the same thresholds, for all numbers of threads and schedules, if no position has records of more than one
frame and the cache of the block-wise reader does not hold too much of a position when it is rewound. Missing for the full statement:
other contents of the cache, for which it is false (`C89_lost`, `C89_false`). -/
theorem C89_gain_partial (o : BlockPipeline.Setup) (files : List (SectorReader.Stream (List Nat))) (W H : Nat)
    (hf : WholeFiles files W H) (hone : OneFrame files) (hsz : W * H < 2 ^ 32) (hpos : 0 < W * H)
    (hscan : o.scan = (W, H) ∨ o.scan.1 = 0 ∨ o.scan.2 = 0)
    {before blocks : List (SectorReader.Frame (List Nat))} {s t : State (List Nat) (List Nat)} (hb : Reads version5 (create files) before s)
    (hs : sample version5 o.numBlocks s = (.ok blocks, t)) {options : CountOptions} (ho : o.options (blocks.map toBlock) = .ok options)
    (hbg : 0 ≤ options.bg) (hrd : options.rowDark = none) (hft : options.ft = .f32) {dark gain : List Rat} (hg : options.gain = some gain)
    (hgl : gain.length = 576 * 576) (hd : options.dark = some dark) (hdl : dark.length = 576 * 576)
    (hne : ∃ f ∈ files, f.records ≠ [])
    (hcache : ∀ x y, x < W → y < H → cached t (y * W + x) + (readOrder files x y).length ≤ 4)
    (o' : EndToEnd.Setup) (hg' : o'.gain = some gain) (hd' : o'.dark = some dark) (hrd' : o'.rowDark = none)
    (hbg' : ∀ S : List (List Nat), S.length = o'.numBlocks → 0 ≤ (o'.thresholds S).1) (hscan' : o'.scan = (W, H))
    (hthreads : 0 < o'.threads) (n : Nat) (hn : 0 < n) {s' : HState (List Nat)}
    (hs' : Reach (HStep (sectorFiles files) (W * H) (sectorFiles files).length) (hinit n 0) s') (hex : ∀ w ∈ s'.workers, w = .exited)
    (at_ : Nat → Nat) {z : CountingReader.State (List Nat) (Rat × Rat × Rat)}
    (h : Reach (CountingReader.Step (EndToEnd.call o') (sectorFiles files) s'.map (W * H)) (CountingReader.init (EndToEnd.call o') 0 at_) z)
    {data : List (List (List Nat))} (hz : z.counting.main = .done data) :
    ∃ events S, BlockPipeline.electronCount version5 o files s = .ok ((W, H), events) ∧ IsSample (sectorFiles files) o'.numBlocks S ∧
      ((o'.thresholds (S.map fun f => f.pixels)).1 = options.bg → (o'.thresholds (S.map fun f => f.pixels)).2.1 = options.xr →
        SameResults W H ⟨events, (W, H), (576, 576)⟩ (EndToEnd.countedData o' data)) := by
  obtain ⟨events, all, ev, a1, a2, a3, a4⟩ := C87_images_partial false o files W H hf.toBlockFiles hsz hpos hscan hb hs ho hbg hrd hft hg hgl hd hdl hne hcache
  obtain ⟨all', S, ev', b1, b2⟩ := C85_images_gain o' gain hg' hgl hrd' (by rintro d e; rw [hd'] at e; cases e; exact hdl) hbg' (sectorFiles files)
    W H hscan' (filesOk_sectorFiles hf (Nat.le_of_lt hsz)) hsz hpos hthreads n hn hs' hex at_ h hz
  refine ⟨events, S, a1, b1.isSample, fun e1 e2 => agree hf hone a2 a3 a4 b1 b2 e1 e2 ?_⟩
  intro f _ q j _
  rw [hd, hd']

/-- **C89** The same without gain, for a dark reference of values above -1 and not above 0 (zeros, for example). For others the two paths
of the counting themselves are different (`C15_iff`, `C15_dark_above`). -/
theorem C89_u16_partial (o : BlockPipeline.Setup) (files : List (SectorReader.Stream (List Nat))) (W H : Nat)
    (hf : WholeFiles files W H) (hone : OneFrame files) (hsz : W * H < 2 ^ 32) (hpos : 0 < W * H)
    (hscan : o.scan = (W, H) ∨ o.scan.1 = 0 ∨ o.scan.2 = 0)
    {before blocks : List (SectorReader.Frame (List Nat))} {s t : State (List Nat) (List Nat)} (hb : Reads version5 (create files) before s)
    (hs : sample version5 o.numBlocks s = (.ok blocks, t)) {options : CountOptions} (ho : o.options (blocks.map toBlock) = .ok options)
    (hbg : 0 ≤ options.bg) (hrd : options.rowDark = none) (hft : options.ft = .u16) {dark : List Rat}
    (hd : options.dark = some dark) (hdl : dark.length = 576 * 576) (hdv : ∀ r ∈ dark, -1 < r ∧ r ≤ 0)
    (hne : ∃ f ∈ files, f.records ≠ [])
    (hcache : ∀ x y, x < W → y < H → cached t (y * W + x) + (readOrder files x y).length ≤ 4)
    (o' : EndToEnd.Setup) (hg' : o'.gain = none) (hd' : o'.dark = some dark ∨ o'.dark = none) (hrd' : o'.rowDark = none)
    (hbg' : ∀ S : List (List Nat), S.length = o'.numBlocks → 0 ≤ (o'.thresholds S).1) (hscan' : o'.scan = (W, H))
    (hthreads : 0 < o'.threads) (n : Nat) (hn : 0 < n) {s' : HState (List Nat)}
    (hs' : Reach (HStep (sectorFiles files) (W * H) (sectorFiles files).length) (hinit n 0) s') (hex : ∀ w ∈ s'.workers, w = .exited)
    (at_ : Nat → Nat) {z : CountingReader.State (List Nat) (Rat × Rat × Rat)}
    (h : Reach (CountingReader.Step (EndToEnd.call o') (sectorFiles files) s'.map (W * H)) (CountingReader.init (EndToEnd.call o') 0 at_) z)
    {data : List (List (List Nat))} (hz : z.counting.main = .done data) :
    ∃ events S, BlockPipeline.electronCount version5 o files s = .ok ((W, H), events) ∧ IsSample (sectorFiles files) o'.numBlocks S ∧
      ((o'.thresholds (S.map fun f => f.pixels)).1 = options.bg → (o'.thresholds (S.map fun f => f.pixels)).2.1 = options.xr →
        SameResults W H ⟨events, (W, H), (576, 576)⟩ (EndToEnd.countedData o' data)) := by
  obtain ⟨events, all, ev, a1, a2, a3, a4⟩ := C87_images_u16_partial false o files W H hf.toBlockFiles hsz hpos hscan hb hs ho hbg hrd hft hd hdl
    (fun r hr => ⟨(hdv r hr).1, lt_of_le_of_lt (hdv r hr).2 one_pos⟩) hne hcache
  obtain ⟨all', S, ev', b1, b2⟩ := C85_images o' hg' hrd' (by
      rintro d e
      rcases hd' with hd' | hd' <;> rw [hd'] at e <;> cases e
      exact ⟨hdl, fun r hr => ⟨(hdv r hr).1, lt_of_le_of_lt (hdv r hr).2 (by norm_num)⟩⟩) hbg' (sectorFiles files)
    W H hscan' (filesOk_sectorFiles hf (Nat.le_of_lt hsz)) hsz hpos hthreads n hn hs' hex at_ h hz
  refine ⟨events, S, a1, b1.isSample, fun e1 e2 => agree hf hone a2 a3 a4 b1 b2 e1 e2 ?_⟩
  intro f hfm q j hj
  have hfr := a2.frame f hfm
  have hjf : j < f.pixels.length := by rw [hfr.size]; exact hj
  have hv : f.pixels.getD j 0 < 65536 := hfr.values (by
    rintro sec r ⟨file, h4, h5, _⟩
    exact hf.values file h4 r h5) _ (by simp [hjf])
  have hjd : j < dark.length := by omega
  have hd0 := hdv (dark.getD j 0) (by simp [hjd])
  have hv0 : (0 : Rat) ≤ (f.pixels.getD j 0 : Nat) := Nat.cast_nonneg _
  have key := C15_values hv hd0.1 (by linarith [hd0.2])
  rw [if_neg (by rintro ⟨a, _⟩; exact absurd a (not_lt.2 hd0.2)), Int.add_zero] at key
  unfold u16ClassicValue
  rcases hd' with hd' | hd' <;> rw [hd'] <;> unfold u16StreamValue <;> simp only
  · rw [key]
  · rw [← key]
    have : truncZero (dark.getD j 0) = 0 := by
      unfold truncZero
      split
      · rw [Int.ceil_eq_iff]; constructor <;> push_cast <;> linarith [hd0.1, hd0.2]
      · rw [Int.floor_eq_iff]; constructor <;> push_cast <;> linarith [hd0.1, hd0.2]
    have e : ((f.pixels.getD j 0 : Nat) : Int) % 65536 = (f.pixels.getD j 0 : Nat) := by omega
    rw [this, Int.sub_zero, e, Int.cast_natCast]

/-- **C89** If the four files have the same positions in the same order, the two ways of counting agree, for any number of blocks for the
thresholds, and if blocks were read before the call. -/
theorem C89_in_step (o : BlockPipeline.Setup) (files : List (SectorReader.Stream (List Nat))) (W H : Nat)
    (hf : WholeFiles files W H) (hone : OneFrame files) (hst : InStep files) (hsz : W * H < 2 ^ 32) (hpos : 0 < W * H)
    (hscan : o.scan = (W, H) ∨ o.scan.1 = 0 ∨ o.scan.2 = 0)
    {before blocks : List (SectorReader.Frame (List Nat))} {s t : State (List Nat) (List Nat)} (hb : Reads version5 (create files) before s)
    (hs : sample version5 o.numBlocks s = (.ok blocks, t)) {options : CountOptions} (ho : o.options (blocks.map toBlock) = .ok options)
    (hbg : 0 ≤ options.bg) (hrd : options.rowDark = none) (hft : options.ft = .f32) {dark gain : List Rat} (hg : options.gain = some gain)
    (hgl : gain.length = 576 * 576) (hd : options.dark = some dark) (hdl : dark.length = 576 * 576)
    (hne : ∃ f ∈ files, f.records ≠ [])
    (o' : EndToEnd.Setup) (hg' : o'.gain = some gain) (hd' : o'.dark = some dark) (hrd' : o'.rowDark = none)
    (hbg' : ∀ S : List (List Nat), S.length = o'.numBlocks → 0 ≤ (o'.thresholds S).1) (hscan' : o'.scan = (W, H))
    (hthreads : 0 < o'.threads) (n : Nat) (hn : 0 < n) {s' : HState (List Nat)}
    (hs' : Reach (HStep (sectorFiles files) (W * H) (sectorFiles files).length) (hinit n 0) s') (hex : ∀ w ∈ s'.workers, w = .exited)
    (at_ : Nat → Nat) {z : CountingReader.State (List Nat) (Rat × Rat × Rat)}
    (h : Reach (CountingReader.Step (EndToEnd.call o') (sectorFiles files) s'.map (W * H)) (CountingReader.init (EndToEnd.call o') 0 at_) z)
    {data : List (List (List Nat))} (hz : z.counting.main = .done data) :
    ∃ events S, BlockPipeline.electronCount version5 o files s = .ok ((W, H), events) ∧ IsSample (sectorFiles files) o'.numBlocks S ∧
      ((o'.thresholds (S.map fun f => f.pixels)).1 = options.bg → (o'.thresholds (S.map fun f => f.pixels)).2.1 = options.xr →
        SameResults W H ⟨events, (W, H), (576, 576)⟩ (EndToEnd.countedData o' data)) :=
  C89_gain_partial o files W H hf hone hsz hpos hscan hb hs ho hbg hrd hft hg hgl hd hdl hne
    (inStep_cached (v4 := false) hf.toBlockFiles hst (Nat.le_of_lt hsz) hb hs) o' hg' hd' hrd' hbg' hscan' hthreads n hn hs' hex at_ h hz

/-! ### Disagreement -/

private theorem SameResults.counts {W H : Nat} {data data' : PyImage.CountedData} {all all' : List ScanFrame} {ev ev' : ScanFrame → List Nat}
    (hs : SameResults W H data data') (hr : Results W H data all ev) (hr' : Results W H data' all' ev') {X Y c l : Nat} (hX : X < W) (hY : Y < H)
    (hc : c < 576) (hl : l < 576) :
    (all.filter fun f => f.x = X ∧ f.y = Y).countP (fun f => decide (l * 576 + c ∈ ev f)) =
      (all'.filter fun f => f.x = X ∧ f.y = Y).countP (fun f => decide (l * 576 + c ∈ ev' f)) := by
  obtain ⟨py, py', p1, p2, p3⟩ := hs.results
  obtain ⟨f, m, a, f', m', a', a1, a2, a3, a4, a5, _⟩ := p3 Nat .nil (by simp [SparseFile.Tree.Valid])
  obtain ⟨q, q1, q2⟩ := hr.results
  obtain ⟨q', q1', q2'⟩ := hr'.results
  obtain ⟨g, k, b, b1, b2, b3, _⟩ := q2 Nat .nil (by simp [SparseFile.Tree.Valid])
  obtain ⟨g', k', b', b1', b2', b3', _⟩ := q2' Nat .nil (by simp [SparseFile.Tree.Valid])
  rw [p1] at q1; cases q1
  rw [p2] at q1'; cases q1'
  rw [a1] at b1; cases b1
  rw [a3] at b1'; cases b1'
  rw [a2] at b2; cases b2
  rw [a4] at b2'; cases b2'
  obtain ⟨fr, fr', c1, c2, c3⟩ := a5 X Y hX hY
  obtain ⟨gr, d1, d2⟩ := b3 X Y hX hY
  obtain ⟨gr', d1', d2'⟩ := b3' X Y hX hY
  rw [c1] at d1; cases d1
  rw [c2] at d1'; cases d1'
  obtain ⟨v, e1, e2⟩ := c3 c l hc hl
  have h1 := d2 c l hc hl
  have h2 := d2' c l hc hl
  rw [e1] at h1
  rw [e2] at h2
  rw [← Option.some.inj h1, ← Option.some.inj h2]

/-- The results of data with one list of events for each position. -/
private theorem single_results {W H : Nat} {events : List (List (List Nat))} (hlen : events.length = W * H) (hpos : 0 < W * H)
    (hsz : W * H < 2 ^ 32)
    (he : ∀ x y, x < W → y < H → ∃ ev, events[y * W + x]? = some [ev] ∧ (∀ e ∈ ev, e < 576 * 576) ∧ ev.Nodup) :
    ∃ all ev, Results W H ⟨events, (W, H), (576, 576)⟩ all ev ∧ ∀ X Y, X < W → Y < H →
      ∃ f, (all.filter fun f => f.x = X ∧ f.y = Y) = [f] ∧ events[Y * W + X]? = some [ev f] := by
  have hW : 0 < W := Nat.pos_of_mul_pos_right hpos
  let mk : Nat → ScanFrame := fun p => ⟨p % W, p / W, 0, []⟩
  let ev : ScanFrame → List Nat := fun f => ((events[f.y * W + f.x]?).getD []).headD []
  have hmk : ∀ X Y, X < W → Y < H → ev (mk (Y * W + X)) = ((events[Y * W + X]?).getD []).headD [] := by
    intro X Y hX _
    simp only [ev, mk, flat_mod Y hX, flat_div Y hX]
  have hfil : ∀ X Y, X < W → Y < H → (((List.range (W * H)).map mk).filter fun f => f.x = X ∧ f.y = Y) = [mk (Y * W + X)] := by
    intro X Y hX hY
    rw [List.filter_map]
    have := filter_range (W * H) (Y * W + X) (flat_lt hX hY) (fun _ => true)
    rw [if_pos rfl] at this
    have e : (List.range (W * H)).filter ((fun f : ScanFrame => decide (f.x = X ∧ f.y = Y)) ∘ mk) =
        (List.range (W * H)).filter (fun p => decide (p = Y * W + X) && true) := by
      refine List.filter_congr fun p _ => ?_
      rw [Bool.and_true]
      simp only [Function.comp, mk]
      refine decide_eq_decide.2 ⟨?_, ?_⟩
      · rintro ⟨rfl, rfl⟩
        rw [Nat.mul_comm, Nat.div_add_mod]
      · rintro rfl
        exact ⟨flat_mod Y hX, flat_div Y hX⟩
    rw [e, this, List.map_singleton]
  refine ⟨(List.range (W * H)).map mk, ev, ?_, ?_⟩
  · refine results_of_rows (m := 1) (by decide) hlen hpos hsz ?_ ?_
    · intro X Y hX hY
      obtain ⟨e, e1, _⟩ := he X Y hX hY
      rw [hfil X Y hX hY]
      refine ⟨[e], ?_, by simp, ?_⟩
      · rw [List.map_singleton, hmk X Y hX hY, e1]
        exact List.Perm.refl _
      · rw [e1]; rfl
    · intro f hf
      obtain ⟨p, hp, rfl⟩ := List.mem_map.1 hf
      have hp := List.mem_range.1 hp
      have hX := Nat.mod_lt p hW
      have hY := Nat.div_lt_of_lt_mul hp
      obtain ⟨e, e1, e2⟩ := he _ _ hX hY
      have := hmk _ _ hX hY
      rw [e1] at this
      rw [Nat.mul_comm, Nat.div_add_mod] at this
      rw [this]
      exact e2
  · intro X Y hX hY
    obtain ⟨e, e1, _⟩ := he X Y hX hY
    refine ⟨_, hfil X Y hX hY, ?_⟩
    rw [hmk X Y hX hY, e1]
    rfl

/-- **C89** is false: if at the rewind the cache of the block-wise reader holds too much of a position, then the two ways of counting do not
give the same results whenever the frame of the position has an event in the strip of one of the `4 - k` sectors which are read first (for
a gain and a dark reference which are not negative). -/
theorem C89_lost (o : BlockPipeline.Setup) (files : List (SectorReader.Stream (List Nat))) (W H : Nat)
    (hf : WholeFiles files W H) (hone : OneFrame files) (hsz : W * H < 2 ^ 32)
    (hscan : o.scan = (W, H) ∨ o.scan.1 = 0 ∨ o.scan.2 = 0)
    {before blocks : List (SectorReader.Frame (List Nat))} {s t : State (List Nat) (List Nat)} (hb : Reads version5 (create files) before s)
    (hs : sample version5 o.numBlocks s = (.ok blocks, t)) {options : CountOptions} (ho : o.options (blocks.map toBlock) = .ok options)
    (hbg : 0 ≤ options.bg) (hrd : options.rowDark = none) (hft : options.ft = .f32) {dark gain : List Rat} (hg : options.gain = some gain)
    (hgl : gain.length = 576 * 576) (hd : options.dark = some dark) (hdl : dark.length = 576 * 576)
    (hg0 : ∀ r ∈ gain, 0 ≤ r) (hd0 : ∀ r ∈ dark, 0 ≤ r) {x y : Nat} (hx : x < W) (hy : y < H)
    (hcache : 4 < cached t (y * W + x) + (readOrder files x y).length)
    {px ev : List Nat} (hpx : IsFrame false (FileRecord files x y) px)
    (hev : IsEventList options.bg options.xr 576 576 (floatValue (some dark) gain px) ev) {c l : Nat} (hc : c < 576) (hl : l < 576)
    (hsec : l / 144 ∈ (readOrder files x y).take (4 - cached t (y * W + x))) (hmem : l * 576 + c ∈ ev)
    (o' : EndToEnd.Setup) (hg' : o'.gain = some gain) (hd' : o'.dark = some dark) (hrd' : o'.rowDark = none)
    (hθ : ∀ S : List (List Nat), S.length = o'.numBlocks → (o'.thresholds S).1 = options.bg ∧ (o'.thresholds S).2.1 = options.xr)
    (hscan' : o'.scan = (W, H))
    (hthreads : 0 < o'.threads) (n : Nat) (hn : 0 < n) {s' : HState (List Nat)}
    (hs' : Reach (HStep (sectorFiles files) (W * H) (sectorFiles files).length) (hinit n 0) s') (hex : ∀ w ∈ s'.workers, w = .exited)
    (at_ : Nat → Nat) {z : CountingReader.State (List Nat) (Rat × Rat × Rat)}
    (h : Reach (CountingReader.Step (EndToEnd.call o') (sectorFiles files) s'.map (W * H)) (CountingReader.init (EndToEnd.call o') 0 at_) z)
    {data : List (List (List Nat))} (hz : z.counting.main = .done data) :
    ∃ events, BlockPipeline.electronCount version5 o files s = .ok ((W, H), events) ∧
      ¬ SameResults W H ⟨events, (W, H), (576, 576)⟩ (EndToEnd.countedData o' data) := by
  have hpos : 0 < W * H := Nat.mul_pos (by omega) (by omega)
  have hcount : ∀ px : List Nat, px.length = 576 * 576 → (∀ v ∈ px, v < 65536) →
      ∃ ev, Electron.countFrameClassic options (576, 576) (pixels px) = .ok ev ∧
        IsEventList options.bg options.xr 576 576 (floatValue options.dark gain px) ev := fun px hpx _ =>
    C12_classic_gain ⟨by norm_num, by norm_num, by norm_num, by norm_num, hpx, hbg⟩ hrd hft hg hgl hd hdl
  obtain ⟨events, ev0, l1, l2, l3⟩ := C87_lost false o files W H hf.toBlockFiles hsz hscan hb hs ho hbg hrd hft hg hgl hd hdl hg0 hd0 hx hy hcache
  have hne : ∃ f ∈ files, f.records ≠ [] := by
    obtain ⟨r, file, h4, h5, _⟩ : ∃ r, FileRecord files x y (l / 144) r := by
      by_contra hno
      have hz0 := hpx.zero c l hc hl (fun r hr => hno ⟨r, hr⟩)
      have hv := ((hev.mem c l hc hl).1 hmem).1.1
      have hz' : px.getD (l * 576 + c) 0 = 0 := by
        rw [List.getD_eq_getElem?_getD, Nat.mul_comm, hz0]; rfl
      unfold floatValue at hv
      rw [hz'] at hv
      have hj : l * 576 + c < 576 * 576 := by omega
      have g0 : 0 ≤ gain.getD (l * 576 + c) 0 := by
        have hj' : l * 576 + c < gain.length := by omega
        rw [show gain.getD (l * 576 + c) 0 = gain[l * 576 + c] by simp [hj']]
        exact hg0 _ (List.getElem_mem _)
      have d0 : 0 ≤ dark.getD (l * 576 + c) 0 := by
        have hj' : l * 576 + c < dark.length := by omega
        rw [show dark.getD (l * 576 + c) 0 = dark[l * 576 + c] by simp [hj']]
        exact hd0 _ (List.getElem_mem _)
      have : ((0 : Nat) - dark.getD (l * 576 + c) 0) * gain.getD (l * 576 + c) 0 ≤ 0 := by
        refine mul_nonpos_of_nonpos_of_nonneg ?_ g0
        simpa using d0
      exact absurd (lt_of_lt_of_le hv this) (not_lt.2 hbg)
    exact ⟨file, h4, List.ne_nil_of_mem h5⟩
  refine ⟨events, l1, fun hsame => ?_⟩
  obtain ⟨events', m1, m2, m3⟩ := C87_exact false o files W H hf.toBlockFiles hsz hpos hscan hb hs ho
    (fun px a b => by obtain ⟨ev, e, _⟩ := hcount px a b; exact ⟨ev, e⟩) hne
  rw [l1] at m1
  cases m1
  obtain ⟨all, ev1, r1, r2⟩ := single_results m2 hpos hsz (by
    intro x y hx hy
    obtain ⟨ev, e1, e2⟩ := m3 x y hx hy
    refine ⟨ev, e1, ?_⟩
    by_cases ho : readOrder files x y = []
    · rw [e2.none ho]; simp
    · have hex : ∃ px, px.length = 576 * 576 ∧ (∀ v ∈ px, v < 65536) ∧ Electron.countFrameClassic options (576, 576) (pixels px) = .ok ev := by
        by_cases hk : cached t (y * W + x) + (readOrder files x y).length ≤ 4
        · obtain ⟨px, p1, p2⟩ := e2.all ho hk
          exact ⟨px, p1.size, p1.values (by rintro sec r ⟨file, h4, h5, _⟩; exact hf.values file h4 r h5), p2⟩
        · obtain ⟨px, p1, p2⟩ := e2.lost (by omega)
          exact ⟨px, p1.size, p1.values (by rintro sec r ⟨_, file, h4, h5, _⟩; exact hf.values file h4 r h5), p2⟩
      obtain ⟨px, p1, p2, p3⟩ := hex
      obtain ⟨ev', q1, q2⟩ := hcount px p1 p2
      rw [p3] at q1
      cases q1
      exact ⟨q2.onDetector, q2.sorted.imp fun h => Nat.ne_of_lt h⟩)
  obtain ⟨all', S, ev', b1, b2⟩ := C85_images_gain o' gain hg' hgl hrd' (by rintro d e; rw [hd'] at e; cases e; exact hdl)
    (fun S hS => (hθ S hS).1 ▸ hbg) (sectorFiles files)
    W H hscan' (filesOk_sectorFiles hf (Nat.le_of_lt hsz)) hsz hpos hthreads n hn hs' hex at_ h hz
  have hcnt := hsame.counts r1 b2 hx hy hc hl
  obtain ⟨f, f1, f2⟩ := r2 x y hx hy
  rw [l2] at f2
  have f3 : ev1 f = ev0 := by
    have := Option.some.inj f2
    simpa using this.symm
  have h0 : l * 576 + c ∉ ev0 := l3 c l hc hl hsec
  rw [f1, List.countP_singleton, f3, if_neg (by simpa using h0)] at hcnt
  -- the frame of the multi-pass reader
  obtain ⟨r, hr⟩ : ∃ r, FileRecord files x y (l / 144) r := by
    obtain ⟨_, _, e2⟩ := m3 x y hx hy
    exact (e2.sectors _).1 (List.mem_of_mem_take hsec)
  obtain ⟨f', g1, g2, g3, g4⟩ := (b1.scan.iff x y r.frameNumber).2 ⟨_, r, (hasRecord_sectorFiles hf.good).2 ⟨hr, rfl⟩⟩
  have hpix : px = f'.pixels := by
    refine List.ext_getElem? fun i => ?_
    by_cases hi : i < 576 * 576
    · have hi' : i = 576 * (i / 576) + i % 576 := (Nat.div_add_mod i 576).symm
      have hc : i % 576 < 576 := Nat.mod_lt _ (by omega)
      have hl : i / 576 < 576 := by omega
      have hnum : ∀ sec r', FileRecord files x y sec r' → r'.frameNumber = r.frameNumber := by
        rintro sec r' ⟨file, a1, a2, _, a4, a5⟩
        obtain ⟨file', a1', a2', _, a4', a5'⟩ := hr
        exact hone file a1 file' a1' r' a2 r a2' (by rw [a4, a4']) (by rw [a5, a5'])
      rw [hi']
      by_cases hr' : ∃ r, FileRecord files x y (i / 576 / 144) r
      · obtain ⟨r', hr'⟩ := hr'
        rw [hpx.pixel _ _ hc hl r' hr', b1.scan.pixel f' g1 _ _ hc hl r' ?_]
        · exact whole_pixel (i := 576 * (i / 576 % 144) + i % 576) hf.whole hr' (by omega)
        · rw [g2, g3, g4]
          exact (hasRecord_sectorFiles hf.good).2 ⟨hr', hnum _ r' hr'⟩
      · rw [hpx.zero _ _ hc hl (fun r h => hr' ⟨r, h⟩), b1.scan.zero f' g1 _ _ hc hl ?_]
        rintro ⟨r'', h''⟩
        rw [g2, g3] at h''
        exact hr' ⟨r'', ((hasRecord_sectorFiles hf.good).1 h'').1⟩
    · rw [List.getElem?_eq_none (by rw [hpx.size]; omega), List.getElem?_eq_none (by rw [b1.scan.size f' g1]; omega)]
  have hθ' := hθ (S.map fun f => f.pixels) (by rw [List.length_map]; exact b1.samples)
  have hb := b1.events f' g1
  rw [hθ'.1, hθ'.2, ← hpix, hd'] at hb
  have : l * 576 + c ∈ ev' f' := by
    rw [events_unique (fun _ _ => rfl) hb hev]
    exact hmem
  have hpos' : 0 < (all'.filter fun f => f.x = x ∧ f.y = y).countP (fun f => decide (l * 576 + c ∈ ev' f)) :=
    List.countP_pos_iff.2 ⟨f', List.mem_filter.2 ⟨g1, by simp [g2, g3]⟩, by simpa using this⟩
  omega

/-! ### Examples -/

/-- The call with the multi-pass reader: three threads, one frame for the thresholds. -/
def plainStream : EndToEnd.Setup :=
  ⟨3, 1, (2, 1), some (List.replicate (576 * 576) 0), some (List.replicate (576 * 576) 1), none, fun _ => (10, 1000, 0)⟩

private theorem bright_event {px ev : List Nat} (hp : IsFrame false (FileRecord brightDemo 1 0) px)
    (he : IsEventList plainOptions.bg plainOptions.xr 576 576
      (floatValue (some (List.replicate (576 * 576) 0)) (List.replicate (576 * 576) 1) px) ev) : 1 * 576 + 424 ∈ ev := by
  have hfr : ∀ c l, c < 576 → l < 3 → px[576 * l + c]? = some (if 576 * l + c = 1000 then 100 else 0) := by
    intro c l hc hl
    rw [hp.pixel c l hc (by omega) (mkRec 1 (brightSector 100)) ⟨_, List.mem_cons_self .., List.mem_cons_self .., by
      rw [show sectorAt false c l = l / 144 from rfl, Nat.div_eq_of_lt (by omega)]; rfl, rfl, rfl⟩]
    rw [show indexAt false c l = 576 * (l % 144) + c from rfl, Nat.mod_eq_of_lt (by omega), List.getD_eq_getElem?_getD]
    rw [show (mkRec 1 (brightSector 100)).data[576 * l + c]? = _ from bright_at 100 (576 * l + c) (by omega)]
    rfl
  have hval : ∀ c l, c < 576 → l < 3 → floatValue (some (List.replicate (576 * 576) 0)) (List.replicate (576 * 576) 1) px (l * 576 + c) =
      if 576 * l + c = 1000 then 100 else 0 := by
    intro c l hc hl
    have h1 : ∀ r : Rat, (List.replicate (576 * 576) r).getD (l * 576 + c) 0 = r := by
      intro r
      rw [List.getD_eq_getElem?_getD, List.getElem?_replicate, if_pos (by omega)]
      rfl
    have h2 : px.getD (l * 576 + c) 0 = if 576 * l + c = 1000 then 100 else 0 := by
      rw [List.getD_eq_getElem?_getD, Nat.mul_comm l, hfr c l hc hl]
      rfl
    unfold floatValue
    simp only
    rw [h1, h1, h2]
    split <;> norm_num
  refine (he.mem 424 1 (by decide) (by decide)).2 ⟨?_, ?_⟩
  · rw [hval 424 1 (by decide) (by decide)]
    norm_num [plainOptions]
  · intro x' y' hx' hy' hn
    obtain ⟨n1, n2, n3, n4, n5⟩ := hn
    rw [hval 424 1 (by decide) (by decide), hval x' y' hx' (by omega), if_neg (by omega), if_pos rfl]
    norm_num [eligible, plainOptions]

/-- There is an execution of the counting with the multi-pass reader, for files of a scan of two positions with one complete frame each. -/
private theorem stream_exists {files : List (SectorReader.Stream (List Nat))} (hf : WholeFiles files 2 1) (hone : OneFrame files)
    (hc : ∀ sec < 4, ∃ r, FileRecord files 0 0 sec r) :
    ∃ s z data, Reach (HStep (sectorFiles files) (2 * 1) (sectorFiles files).length) (hinit 2 0) s ∧ (∀ w ∈ s.workers, w = .exited) ∧
      Reach (CountingReader.Step (EndToEnd.call plainStream) (sectorFiles files) s.map (2 * 1))
        (CountingReader.init (EndToEnd.call plainStream) 0 fun _ => 0) z ∧ z.counting.main = .done data := by
  have hnum : ∀ x y n n' sec sec' r r', HasRecord (sectorFiles files) x y n sec r → HasRecord (sectorFiles files) x y n' sec' r' → n = n' := by
    intro x y n n' sec sec' r r' h h'
    obtain ⟨⟨f, a1, a2, _, a4, a5⟩, rfl⟩ := (hasRecord_sectorFiles hf.good).1 h
    obtain ⟨⟨f', b1, b2, _, b4, b5⟩, rfl⟩ := (hasRecord_sectorFiles hf.good).1 h'
    exact hone f a1 f' b1 r a2 r' b2 (by rw [a4, b4]) (by rw [a5, b5])
  obtain ⟨r0, hr0⟩ := hc 0 (by decide)
  refine C85_exists plainStream (sectorFiles files) 2 1 rfl (filesOk_sectorFiles hf (by decide)) (by decide) (by decide) 2 (by decide) (fun _ => 0)
    hnum (by decide) ⟨[(0, 0, r0.frameNumber)], by simp, by exact Nat.le_refl 1, ?_⟩
  intro k hk sec hsec
  rw [List.mem_singleton] at hk
  subst hk
  obtain ⟨r, hr⟩ := hc sec hsec
  have h1 := (hasRecord_sectorFiles hf.good).2 ⟨hr, rfl⟩
  have h0 := (hasRecord_sectorFiles hf.good).2 ⟨hr0, rfl⟩
  rw [hnum _ _ _ _ _ _ _ _ h1 h0] at h1
  exact ⟨r, h1⟩

/-- **C89** is false: there are files and an execution for which the two ways of counting give different results for the same thresholds. -/
theorem C89_false : ∃ (s : HState (List Nat)) (z : CountingReader.State (List Nat) (Rat × Rat × Rat)) (data events : List (List (List Nat))),
    WholeFiles brightDemo 2 1 ∧ OneFrame brightDemo ∧
    Reach (HStep (sectorFiles brightDemo) (2 * 1) (sectorFiles brightDemo).length) (hinit 2 0) s ∧ (∀ w ∈ s.workers, w = .exited) ∧
    Reach (CountingReader.Step (EndToEnd.call plainStream) (sectorFiles brightDemo) s.map (2 * 1))
      (CountingReader.init (EndToEnd.call plainStream) 0 fun _ => 0) z ∧ z.counting.main = .done data ∧
    BlockPipeline.electronCount version5 (plainSetup 1) brightDemo (create brightDemo) = .ok ((2, 1), events) ∧
    ¬ SameResults 2 1 ⟨events, (2, 1), (576, 576)⟩ (EndToEnd.countedData plainStream data) := by
  have hone : OneFrame brightDemo := by
    have hz : ∀ f ∈ brightDemo, ∀ r ∈ f.records, r.frameNumber = 0 := by
      intro f hf
      simp only [brightDemo, demoFiles, List.mem_cons, List.not_mem_nil, or_false] at hf
      rcases hf with rfl | rfl | rfl | rfl <;> simp [mkRec]
    intro f hf g hg r hr r' hr' _ _
    rw [hz f hf r hr, hz g hg r' hr']
  obtain ⟨s, z, data, h1, h2, h3, h4⟩ := stream_exists brightDemo_whole hone (by
    intro sec hsec
    refine ⟨mkRec 0 (brightSector 0), ?_⟩
    have c : sec = 0 ∨ sec = 1 ∨ sec = 2 ∨ sec = 3 := by omega
    rcases c with rfl | rfl | rfl | rfl
    · exact ⟨_, List.mem_cons_self .., List.mem_cons_of_mem _ (List.mem_cons_self ..), rfl, rfl, rfl⟩
    · exact ⟨_, List.mem_cons_of_mem _ (List.mem_cons_self ..), List.mem_cons_self .., rfl, rfl, rfl⟩
    · exact ⟨_, List.mem_cons_of_mem _ (List.mem_cons_of_mem _ (List.mem_cons_self ..)), List.mem_cons_self .., rfl, rfl, rfl⟩
    · exact ⟨_, List.mem_cons_of_mem _ (List.mem_cons_of_mem _ (List.mem_cons_of_mem _ (List.mem_cons_self ..))), List.mem_cons_self .., rfl, rfl, rfl⟩)
  have hcount : ∀ px : List Nat, px.length = 576 * 576 → ∃ ev, Electron.countFrameClassic plainOptions (576, 576) (pixels px) = .ok ev ∧
      IsEventList plainOptions.bg plainOptions.xr 576 576 (floatValue plainOptions.dark (List.replicate (576 * 576) 1) px) ev := fun px hpx =>
    C12_classic_gain ⟨by norm_num, by norm_num, by norm_num, by norm_num, hpx, by norm_num [plainOptions]⟩ rfl rfl rfl
      (by rw [List.length_replicate]) rfl (by rw [List.length_replicate])
  obtain ⟨_, _, _, b3⟩ := C87_exact false (plainSetup 0) brightDemo 2 1 brightDemo_ok (by decide) (by decide) (.inl rfl) (.nil _)
    (blocks := []) rfl (options := plainOptions) rfl (fun px a _ => by obtain ⟨ev, e, _⟩ := hcount px a; exact ⟨ev, e⟩)
    ⟨_, List.mem_cons_self .., by simp⟩
  obtain ⟨_, _, b5⟩ := b3 1 0 (by decide) (by decide)
  obtain ⟨px, p1, _⟩ := b5.all (by rw [brightDemo_order]; simp) (by rw [brightDemo_order]; decide)
  obtain ⟨ev, _, p4⟩ := hcount px p1.size
  obtain ⟨b, t, hs1, hk⟩ := demo_sample version5 (brightSector 100) (brightSector 0)
  obtain ⟨events, e1, e2⟩ := C89_lost (plainSetup 1) brightDemo 2 1 brightDemo_whole hone (by decide) (.inl rfl) (.nil _) hs1 (options := plainOptions)
    rfl (by norm_num [plainOptions]) rfl rfl rfl (by rw [List.length_replicate]) rfl (by rw [List.length_replicate])
    (by intro r hr; rw [List.eq_of_mem_replicate hr]; norm_num) (by intro r hr; rw [List.eq_of_mem_replicate hr])
    (x := 1) (y := 0) (by decide) (by decide) (by rw [brightDemo_order, show 0 * 2 + 1 = 1 from rfl, hk]; decide) p1 p4
    (c := 424) (l := 1) (by decide) (by decide) (by rw [brightDemo_order, show 0 * 2 + 1 = 1 from rfl, hk]; decide) (bright_event p1 p4)
    plainStream rfl rfl rfl (fun S _ => ⟨rfl, rfl⟩) rfl (by decide) 2 (by decide) h1 h2 _ h3 h4
  exact ⟨s, z, data, events, brightDemo_whole, hone, h1, h2, h3, h4, e1, e2⟩

/-- The hypotheses of `C89_in_step` can be met: files with two positions, one block or frame for the thresholds. -/
example : ∃ (data events : List (List (List Nat))),
    BlockPipeline.electronCount version5 (plainSetup 1) stepDemo (create stepDemo) = .ok ((2, 1), events) ∧
    SameResults 2 1 ⟨events, (2, 1), (576, 576)⟩ (EndToEnd.countedData plainStream data) := by
  obtain ⟨h1, h2, h3, blocks, t, h4, _⟩ := stepDemo_ok
  have hall : ∀ f ∈ stepDemo, f.records = [mkRec 0 (brightSector 20), mkRec 1 (brightSector 30)] := by
    intro f hf
    simp only [stepDemo, List.map_cons, List.map_nil, List.mem_cons, List.not_mem_nil, or_false] at hf
    rcases hf with rfl | rfl | rfl | rfl <;> rfl
  have hone : OneFrame stepDemo := by
    have hz : ∀ f ∈ stepDemo, ∀ r ∈ f.records, r.frameNumber = 0 := by
      intro f hf
      rw [hall f hf]
      simp [mkRec]
    intro f hf g hg r hr r' hr' _ _
    rw [hz f hf r hr, hz g hg r' hr']
  obtain ⟨s, z, data, s1, s2, s3, s4⟩ := stream_exists h1 hone (by
    intro sec hsec
    refine ⟨mkRec 0 (brightSector 20), ?_⟩
    have hm : sec ∈ [2, 0, 3, 1] := by
      have c : sec = 0 ∨ sec = 1 ∨ sec = 2 ∨ sec = 3 := by omega
      rcases c with rfl | rfl | rfl | rfl <;> simp
    exact ⟨_, List.mem_map.2 ⟨sec, hm, rfl⟩, List.mem_cons_self .., rfl, rfl, rfl⟩)
  obtain ⟨events, S, a1, _, a3⟩ := C89_in_step (plainSetup 1) stepDemo 2 1 h1 hone h2 (by decide) (by decide) (.inl rfl) (.nil _) h4
    (options := plainOptions) rfl (by norm_num [plainOptions]) rfl rfl rfl (by rw [List.length_replicate]) rfl (by rw [List.length_replicate]) h3
    plainStream rfl rfl rfl (by intro S _; norm_num [plainStream]) rfl (by decide) 2 (by decide) s1 s2 _ s3 s4
  exact ⟨data, events, a1, a3 rfl rfl⟩

end Stempy.Props
