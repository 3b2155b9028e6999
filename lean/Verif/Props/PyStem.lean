import Verif.Model.PyStem
import Verif.Props.RawFile
import Verif.Props.StemSparse

/-!
C67: `create_stem_images` in Python for all kinds of input.
-/

namespace Stempy.PyStem
open Stempy.Image Stempy.Spec Stempy.Props Stempy.RawFile

/-- What is meant by the radii: a number is the list with this number. -/
inductive Means : Radii → List Int → Prop where
  | one (r : Int) : Means (.one r) [r]
  | many (l : List Int) : Means (.many l) l

private theorem Means.eq {r : Radii} {l : List Int} (h : Means r l) : r.toList = l := by cases h <;> rfl

/-- The STEM images of the frames `fs` with scan positions, of a detector of `w × h` pixels and a scan of `W × H` positions:
the sums over the annulus at the positions with a frame, 0 at the others. -/
structure IsImages (w h W H : Nat) (fs : List Frame) (inner outer : List Int) (cx cy : Int) (images : List (List Nat)) :
    Prop where
  number : images.length = inner.length
  size : ∀ img ∈ images, img.length = W * H
  sum : ∀ (k : Nat) (a b : Int), (inner.zip outer)[k]? = some (a, b) → ∀ (p : Nat) (px : List Nat), (p, px) ∈ fs →
    pixelAt images k p = some (annulusSum w h a b (effCenter w cx) (effCenter h cy) px)
  zero : ∀ (k : Nat) (a b : Int), (inner.zip outer)[k]? = some (a, b) → ∀ p, p < W * H → (∀ f ∈ fs, f.1 ≠ p) →
    pixelAt images k p = some 0

/-- Data and arguments: at least one frame, frames of the right size, positions in the scan and different, as many inner as
outer radii. -/
structure DataOK (w h W H : Nat) (fs : List Frame) (inner outer : List Int) (cx cy : Int) : Prop where
  some : fs ≠ []
  frames : StackOK w h (W * H) fs
  once : (fs.map (·.1)).Nodup
  radii : inner ≠ []
  same : inner.length = outer.length
  geo : ∀ r ∈ inner.zip outer, GeometryOK w h r.1 r.2 cx cy
  scan : W * H < 2 ^ 32

theorem DataOK.pos {w h W H : Nat} {fs : List Frame} {inner outer : List Int} {cx cy : Int}
    (ok : DataOK w h W H fs inner outer cx cy) : 0 < W ∧ 0 < H := by
  obtain ⟨f, hf⟩ := List.exists_mem_of_ne_nil fs ok.some
  have := ok.frames.pos f hf
  constructor
  · rcases Nat.eq_zero_or_pos W with h | h
    · rw [h, Nat.zero_mul] at this; omega
    · exact h
  · rcases Nat.eq_zero_or_pos H with h | h
    · rw [h, Nat.mul_zero] at this; omega
    · exact h

private theorem radii_geo {w h W H : Nat} {fs : List Frame} {inner outer : List Int} {cx cy : Int}
    (ok : DataOK w h W H fs inner outer cx cy) : w * h < 2 ^ 32 := by
  have h1 := ok.radii
  have h2 := ok.same
  have h3 := ok.geo
  cases inner with
  | nil => exact absurd rfl h1
  | cons a l =>
    cases outer with
    | nil => simp at h2
    | cons b m => exact (h3 (a, b) (by simp)).size

private theorem blocks_ne {w h W H : Nat} {bs : List (List Frame)} {fs : List Frame} {inner outer : List Int} {cx cy : Int}
    (hbs : bs.flatten = fs) (ok : DataOK w h W H fs inner outer cx cy) : bs ≠ [] := by
  intro e; rw [e] at hbs; exact ok.some hbs.symm

private theorem denseOK {w h W H : Nat} {bs : List (List Frame)} {fs : List Frame} {inner outer : List Int} {cx cy : Int}
    (hbs : bs.flatten = fs) (ok : DataOK w h W H fs inner outer cx cy) : DenseOK w h W H bs inner outer cx cy := by
  refine ⟨blocks_ne hbs ok, ok.radii, ok.same, ok.geo, radii_geo ok, ok.scan, ok.pos.1, ok.pos.2, ?_⟩
  intro l hl
  have hsub : ∀ f ∈ l, f ∈ fs := fun f hf => hbs ▸ List.mem_flatten.2 ⟨l, hl, hf⟩
  exact ⟨fun f hf => ok.frames.len f (hsub f hf), fun f hf => ok.frames.px f (hsub f hf),
    fun f hf => ok.frames.pos f (hsub f hf)⟩

/-- The scan dimensions are given as argument, or by the first block. -/
private theorem dense_scan {w h W H : Nat} {bs : List (List Frame)} {fs : List Frame} {inner outer : List Int} {cx cy : Int}
    (hbs : bs.flatten = fs) (ok : DataOK w h W H fs inner outer cx cy) {hs scan : Nat × Nat}
    (hscan : scan = (W, H) ∨ (¬ sizeKnown scan ∧ hs = (W, H))) {r : Outcome (List (List Nat))} :
    DenseRun (bs.map (mkBlock hs (w, h))) inner outer scan (cx, cy) r ↔
    DenseRun (bs.map (mkBlock hs (w, h))) inner outer (W, H) (cx, cy) r := by
  have hne := blocks_ne hbs ok
  rcases hscan with e | ⟨h1, h2⟩
  · rw [e]
  · cases bs with
    | nil => exact absurd rfl hne
    | cons b bs =>
      rw [List.map_cons, C05_dense_size h1 r, show (mkBlock hs (w, h) b).scanDims = hs from rfl, h2]

/-- Frames (position and pixels) in blocks. -/
private theorem dense {w h W H : Nat} {bs : List (List Frame)} {fs : List Frame} {inner outer : List Int} {cx cy : Int}
    (hbs : bs.flatten = fs) (ok : DataOK w h W H fs inner outer cx cy) (hs scan : Nat × Nat)
    (hscan : scan = (W, H) ∨ (¬ sizeKnown scan ∧ hs = (W, H))) {r : Outcome (List (List Nat))}
    (hr : DenseRun (bs.map (mkBlock hs (w, h))) inner outer scan (cx, cy) r) :
    ∃ images, r = .ok images ∧ IsImages w h W H fs inner outer cx cy images := by
  have dok := denseOK hbs ok
  have hr := (dense_scan hbs ok hscan).1 hr
  obtain ⟨images, h1, h2, h3, h4⟩ := C02_dense dok hs hr
  refine ⟨images, h1, ⟨h2, h3, ?_, ?_⟩⟩
  · intro k a b hk p px hpx
    refine (h4 k a b hk p (ok.frames.pos _ hpx)).1 px ?_
    rw [hbs]
    have key : ∀ (l : List Frame), (l.map (·.1)).Nodup → (p, px) ∈ l →
        l.filter (fun f => decide (f.1 = p)) = [(p, px)] := by
      intro l
      induction l with
      | nil => intro _ h; cases h
      | cons x l ih =>
        intro hnd hmem
        rw [List.map_cons, List.nodup_cons] at hnd
        rcases List.mem_cons.1 hmem with e | e
        · subst e
          rw [List.filter_cons_of_pos (by simp)]
          congr 1
          rw [List.filter_eq_nil_iff]
          intro f hf hfp
          exact hnd.1 (List.mem_map.2 ⟨f, hf, by simpa using hfp⟩)
        · rw [List.filter_cons_of_neg, ih hnd.2 e]
          intro hx
          exact hnd.1 (List.mem_map.2 ⟨(p, px), e, by simpa using (of_decide_eq_true hx).symm⟩)
    exact key fs ok.once hpx
  · intro k a b hk p hp hno
    exact (h4 k a b hk p hp).2 (by rw [hbs]; exact hno)

/-- There is only one result. -/
theorem IsImages.unique {w h W H : Nat} {fs fs' : List Frame} {inner outer : List Int} {cx cy : Int}
    {images images' : List (List Nat)} (same : inner.length = outer.length) (hp : ∀ f, f ∈ fs ↔ f ∈ fs')
    (hi : IsImages w h W H fs inner outer cx cy images) (hi' : IsImages w h W H fs' inner outer cx cy images') :
    images = images' := by
  apply List.ext_getElem (by rw [hi.number, hi'.number])
  intro k hk hk'
  have hz : ∃ ab, (inner.zip outer)[k]? = some ab := by
    refine ⟨_, List.getElem?_eq_getElem ?_⟩
    rw [List.length_zip, ← same, Nat.min_self, ← hi.number]; exact hk
  obtain ⟨⟨a, b⟩, hz⟩ := hz
  have hl := hi.size images[k] (List.getElem_mem hk)
  have hl' := hi'.size images'[k] (List.getElem_mem hk')
  apply List.ext_getElem?
  intro p
  by_cases hlt : p < W * H
  · have e : pixelAt images k p = pixelAt images' k p := by
      by_cases hex : ∃ f ∈ fs, f.1 = p
      · obtain ⟨⟨q, px⟩, hf, rfl⟩ := hex
        rw [hi.sum k a b hz q px hf, hi'.sum k a b hz q px ((hp _).1 hf)]
      · have h0 : ∀ f ∈ fs, f.1 ≠ p := fun f hf e => hex ⟨f, hf, e⟩
        rw [hi.zero k a b hz p hlt h0, hi'.zero k a b hz p hlt (fun f hf => h0 f ((hp f).2 hf))]
    simpa [pixelAt, List.getElem?_eq_getElem hk, List.getElem?_eq_getElem hk'] using e
  · rw [List.getElem?_eq_none (by omega), List.getElem?_eq_none (by omega)]

/-- The ways to give the frames `fs` of `w × h` pixels and a scan of `W × H` positions to `create_stem_images`: a reader
with any grouping in blocks, an array (positions are the indexes), and a file with or without positions. The scan dimensions
are the argument, or, if one of the arguments is 0, those of the file. -/
inductive Presents (w h W H : Nat) (fs : List Frame) : Input → Nat × Nat → Prop where
  | reader (bs : List (List Frame)) (hs scan : Nat × Nat) (hbs : bs.flatten = fs)
      (hscan : scan = (W, H) ∨ ((scan.1 = 0 ∨ scan.2 = 0) ∧ hs = (W, H))) :
      Presents w h W H fs (.reader (bs.map (mkBlock hs (w, h)))) scan
  | array (hpos : fs.map (·.1) = List.range fs.length) :
      Presents w h W H fs (.array ⟨h, w, fs.map (·.2)⟩) (W, H)
  | file (f : File) (scan d : Nat × Nat) (hframes : f.frames = some ⟨h, w, fs.map (·.2)⟩)
      (hpos : fs.map (·.1) = positionsOf ⟨h, w, fs.map (·.2)⟩ f.positions)
      (hd : f.scanDims = some d ∨ (f.scanDims = none ∧ ∃ s, f.stem = some s ∧ d = (s.images.width, s.images.height)))
      (hscan : scan = (W, H) ∨ ((scan.1 = 0 ∨ scan.2 = 0) ∧ d = (W, H))) :
      Presents w h W H fs (.file f) scan

private theorem zip_flatten {α β : Type} (l : List (List α × List β)) (hl : ∀ x ∈ l, x.1.length = x.2.length) :
    (l.map fun x => x.2.zip x.1).flatten = (l.map (·.2)).flatten.zip (l.map (·.1)).flatten := by
  induction l with
  | nil => rfl
  | cons x l ih =>
    simp only [List.map_cons, List.flatten_cons]
    rw [ih (fun y hy => hl y (by simp [hy])), List.zip_append (hl x (by simp)).symm]

/-- The run for a `PyReader` is one of blocks with the frames. -/
private theorem pyRun {w h : Nat} {fs : List Frame} (ids : List Nat) (hids : fs.map (·.1) = ids) (d scan : Nat × Nat)
    (h32 : fs.length + 32 ≤ 2 ^ 32) (inner outer : List Int) (center : Int × Int) :
    ∃ bs : List (List Frame), bs.flatten = fs ∧ ∀ res : Outcome (List (List Nat)),
      PyRun ⟨⟨h, w, fs.map (·.2)⟩, PyReader.create ids 32 (fs.map (·.2)).length, d⟩ inner outer scan center res ↔
      DenseRun (bs.map (mkBlock d (w, h))) inner outer scan center res := by
  obtain ⟨blocks, s, h1, h2, h3, h4, _⟩ := C37_all_frames (fs.map (·.2)) ids 32 (by omega) (by rw [← hids]; simp)
    (by simpa using h32) ((fs.map (·.2)).length + 1) (by omega)
  refine ⟨blocks.map fun x => x.2.zip x.1, ?_, ?_⟩
  · rw [zip_flatten blocks (fun x hx => (h4 x hx).1), h2, h3, ← hids]
    rw [← List.unzip_fst, ← List.unzip_snd, List.zip_unzip]
  · intro res
    unfold PyRun readerBlocks
    rw [h1]
    simp only [Outcome.ok_bind]
    have e : (blocks.map fun x => x.2.zip x.1).map (mkBlock d (w, h)) = blocks.map (toBlock (w, h) d) := by
      rw [List.map_map]
      apply List.map_congr_left
      intro x hx
      have hl := (h4 x hx).1
      simp only [Function.comp, mkBlock, toBlock]
      congr 1
      · simp [hl]
      · rw [← List.unzip_fst, List.unzip_zip (by omega)]
      · rw [← List.unzip_snd, List.unzip_zip (by omega)]
    rw [e]

/-- What a presentation does: the dense computation for some grouping in blocks. -/
private theorem presents {w h W H : Nat} {fs : List Frame} {inner outer : Radii} {cx cy : Int}
    (ok : DataOK w h W H fs inner.toList outer.toList cx cy) {input : Input} {scan : Nat × Nat}
    (hin : Presents w h W H fs input scan) (h32 : fs.length + 32 ≤ 2 ^ 32) :
    ∃ (bs : List (List Frame)) (hs : Nat × Nat), bs.flatten = fs ∧
      (scan = (W, H) ∨ (¬ sizeKnown scan ∧ hs = (W, H))) ∧ ∀ r, StemRun input inner outer scan (cx, cy) r ↔
        DenseRun (bs.map (mkBlock hs (w, h))) inner.toList outer.toList scan (cx, cy) r := by
  have hsize : ∀ {hs scan : Nat × Nat}, (scan = (W, H) ∨ ((scan.1 = 0 ∨ scan.2 = 0) ∧ hs = (W, H))) →
      (scan = (W, H) ∨ (¬ sizeKnown scan ∧ hs = (W, H))) := by
    intro hs scan hscan
    rcases hscan with e | ⟨e, e2⟩
    · exact Or.inl e
    · refine Or.inr ⟨?_, e2⟩
      simp only [sizeKnown]
      rcases e with e | e <;> simp [e]
  cases hin with
  | reader bs hs scan hbs hscan => exact ⟨bs, hs, hbs, hsize hscan, fun r => Iff.rfl⟩
  | array hpos =>
    have hp := ok.pos
    obtain ⟨bs, h1, h2⟩ := pyRun (w := w) (h := h) (fs := fs) (List.range (fs.map (·.2)).length) (by rw [hpos]; simp) (W, H) (W, H) h32
      inner.toList outer.toList (cx, cy)
    refine ⟨bs, (W, H), h1, Or.inl rfl, fun r => ?_⟩
    unfold StemRun
    simp only
    rw [if_neg (by simp; omega)]
    exact h2 r
  | file f scan d hframes hpos hd hscan =>
    have hd' : scanDimensions f = .ok d := by
      unfold scanDimensions
      rcases hd with e | ⟨e, s, e2, e3⟩
      · rw [e]
      · rw [e, e2, e3]
    have hg : getReader f = .ok ⟨⟨h, w, fs.map (·.2)⟩,
        PyReader.create (fs.map (·.1)) 32 (fs.map (·.2)).length, d⟩ := by
      unfold getReader
      rw [hframes]
      simp only
      rw [hd', Outcome.ok_bind, hpos]
      unfold PyReader.getHdf5Reader positionsOf
      cases f.positions <;> rfl
    obtain ⟨bs, h1, h2⟩ := pyRun (w := w) (h := h) (fs := fs) _ rfl d scan h32 inner.toList outer.toList (cx, cy)
    refine ⟨bs, d, h1, hsize hscan, fun r => ?_⟩
    unfold StemRun
    simp only
    rw [hg]
    exact h2 r

/-- **C67** Frames given in any of these ways: every run ends normally with the STEM images of the frames. -/
theorem C67_dense {w h W H : Nat} {fs : List Frame} {ri ro : Radii} {inner outer : List Int} (hi : Means ri inner)
    (ho : Means ro outer) {cx cy : Int}
    (ok : DataOK w h W H fs inner outer cx cy) {input : Input} {scan : Nat × Nat}
    (hin : Presents w h W H fs input scan) (h32 : fs.length + 32 ≤ 2 ^ 32) {r : Outcome (List (List Nat))}
    (hr : StemRun input ri ro scan (cx, cy) r) :
    ∃ images, r = .ok images ∧ IsImages w h W H fs inner outer cx cy images := by
  cases hi.eq
  cases ho.eq
  obtain ⟨bs, hs, h1, h2, h3⟩ := presents ok hin h32
  exact dense h1 ok hs scan h2 ((h3 r).1 hr)

/-- **C67** (runs exist) -/
theorem C67_run_exists {w h W H : Nat} {fs : List Frame} {ri ro : Radii} {inner outer : List Int} (hi : Means ri inner)
    (ho : Means ro outer) {cx cy : Int}
    (ok : DataOK w h W H fs inner outer cx cy) {input : Input} {scan : Nat × Nat}
    (hin : Presents w h W H fs input scan) (h32 : fs.length + 32 ≤ 2 ^ 32) :
    ∃ r, StemRun input ri ro scan (cx, cy) r := by
  cases hi.eq
  cases ho.eq
  obtain ⟨bs, hs, h1, h2, h3⟩ := presents ok hin h32
  obtain ⟨r, hr⟩ := C02_run_exists (denseOK h1 ok) hs
  exact ⟨r, (h3 r).2 ((dense_scan h1 ok h2).2 hr)⟩

/-- **C67** The images do not depend on the way the frames are given, nor on their order, nor on the threads: two runs for
two presentations of the same frames give the same result. -/
theorem C67_same {w h W H : Nat} {fs fs' : List Frame} (hp : fs.Perm fs') {ri ro : Radii} {inner outer : List Int} (hi : Means ri inner)
    (ho : Means ro outer) {cx cy : Int}
    (ok : DataOK w h W H fs inner outer cx cy) {i i' : Input} {scan scan' : Nat × Nat}
    (hin : Presents w h W H fs i scan) (hin' : Presents w h W H fs' i' scan') (h32 : fs.length + 32 ≤ 2 ^ 32)
    {r r' : Outcome (List (List Nat))} (hr : StemRun i ri ro scan (cx, cy) r)
    (hr' : StemRun i' ri ro scan' (cx, cy) r') : r = r' := by
  have ok' : DataOK w h W H fs' inner outer cx cy := by
    refine { ok with some := ?_, frames := ?_, once := ?_ }
    · intro e; rw [e] at hp; exact ok.some hp.eq_nil
    · exact ⟨fun f hf => ok.frames.len f (hp.mem_iff.2 hf), fun f hf => ok.frames.px f (hp.mem_iff.2 hf),
        fun f hf => ok.frames.pos f (hp.mem_iff.2 hf)⟩
    · exact (hp.map _).nodup_iff.1 ok.once
  obtain ⟨a, h1, h2⟩ := C67_dense hi ho ok hin h32 hr
  obtain ⟨b, h3, h4⟩ := C67_dense hi ho ok' hin' (by rw [← hp.length_eq]; exact h32) hr'
  rw [h1, h3, h2.unique ok.same (fun f => hp.mem_iff) h4]

/-- **C67** A file made with `save_raw_data` gives the images of the data that was saved. -/
theorem C67_saved {w h W H : Nat} {fs : List Frame} {ri ro : Radii} {inner outer : List Int} (hi : Means ri inner)
    (ho : Means ro outer) {cx cy : Int}
    (ok : DataOK w h W H fs inner outer cx cy) (h32 : fs.length + 32 ≤ 2 ^ 32)
    (scan : Nat × Nat) (hscan : scan = (W, H) ∨ scan.1 = 0 ∨ scan.2 = 0) (f : File)
    (hf : saveRaw {} ⟨h, w, fs.map (·.2)⟩ (some (W, H)) (some (fs.map (·.1))) = (.ok (), f))
    {r : Outcome (List (List Nat))} (hr : StemRun (.file f) ri ro scan (cx, cy) r) :
    ∃ images, r = .ok images ∧ IsImages w h W H fs inner outer cx cy images := by
  have hf2 := congrArg Prod.snd hf
  simp only [saveRaw] at hf2
  subst hf2
  exact C67_dense hi ho ok (.file _ scan (W, H) rfl rfl (Or.inl rfl) (by
    rcases hscan with e | e
    · exact Or.inl e
    · exact Or.inr ⟨e, rfl⟩)) h32 hr

/-! ### Events -/

/-- The STEM images of events: 65535 times the number of events in the annulus (in 64 bits). -/
structure IsCounts (w h W H : Nat) (events : List (List Nat)) (inner outer : List Int) (cx cy : Int)
    (images : List (List Nat)) : Prop where
  number : images.length = inner.length
  size : ∀ img ∈ images, img.length = W * H
  count : ∀ (k : Nat) (a b : Int), (inner.zip outer)[k]? = some (a, b) → ∀ (p : Nat) (ev : List Nat), events[p]? = some ev →
    pixelAt images k p = some ((65535 * annulusHits w a b (effCenter w cx) (effCenter h cy) ev) % 2 ^ 64)

/-- Events of all positions of a scan of `W × H` positions. -/
structure EventsOK (w h W H : Nat) (events : List (List Nat)) (inner outer : List Int) (cx cy : Int) : Prop where
  radii : inner ≠ []
  same : inner.length = outer.length
  geo : ∀ r ∈ inner.zip outer, GeometryOK w h r.1 r.2 cx cy
  scan : W * H < 2 ^ 32
  positions : events.length = W * H
  inside : ∀ ev ∈ events, ∀ e ∈ ev, e < w * h

/-- The ways to give events to `create_stem_images`, several frames at a position being together all of its events: the
result of electron counting, a sparse array (with square frames), an object with the attributes of it, and arrays. -/
inductive Gives (w h W H : Nat) (events : List (List Nat)) : Input → Nat × Nat → Prop where
  | counted (a : Sparse.SparseArray) (data : List (List (List Nat))) (scan : Nat × Nat)
      (hd : data.map List.flatten = events) : Gives w h W H events (.sparse ⟨a, some ⟨data, (W, H), (w, h)⟩⟩) scan
  | sparse (a : Sparse.SparseArray) (scan : Nat × Nat) (hw : w = h) (hd : a.data.map List.flatten = events)
      (hs : a.scanShape = [H, W]) (hf : a.frameShape = [h, w]) : Gives w h W H events (.sparse ⟨a, none⟩) scan
  | like1 (scan : Nat × Nat) : Gives w h W H events (.like1 events (W, H) (w, h)) scan
  | like2 (data : List (List (List Nat))) (scan : Nat × Nat) (hd : data.map List.flatten = events) :
      Gives w h W H events (.like2 data (W, H) (w, h)) scan
  | events1 : Gives w h W H events (.events1 events (w, h)) (W, H)
  | events2 (data : List (List (List Nat))) (hd : data.map List.flatten = events) :
      Gives w h W H events (.events2 data (w, h)) (W, H)

private theorem sparse_counts {w h W H : Nat} {events : List (List Nat)} {data : List (List (List Nat))}
    {inner outer : List Int} {cx cy : Int} (ok : EventsOK w h W H events inner outer cx cy)
    (hd : data.map List.flatten = events) :
    ∃ images, createSTEMImagesSparse data inner outer (W, H) (w, h) (cx, cy) = .ok images ∧
      IsCounts w h W H events inner outer cx cy images := by
  have hl : data.length = events.length := by rw [← hd]; simp
  obtain ⟨images, h1, h2, h3, h4⟩ := C03_sparse (w := w) (h := h) (W := W) (H := H) (sparse := data)
    (inner := inner) (outer := outer) (cx := cx) (cy := cy) ⟨ok.radii, ok.same, ok.geo, ok.scan,
      by rw [hl, ok.positions], fun frames hframes fr hfr e he => ok.inside frames.flatten (by
        rw [← hd]; exact List.mem_map.2 ⟨frames, hframes, rfl⟩) e (List.mem_flatten.2 ⟨fr, hfr, he⟩)⟩
  refine ⟨images, h1, h2, h3, ?_⟩
  intro k a b hk p ev hev
  rw [← hd, List.getElem?_map] at hev
  cases hp : data[p]? with
  | none => rw [hp] at hev; cases hev
  | some frames =>
    rw [hp] at hev
    simp only [Option.map_some, Option.some.injEq] at hev
    rw [h4 k a b hk p frames hp, hev]

/-- **C67** Events given in any of these ways give the images of the events. -/
theorem C67_events {w h W H : Nat} {events : List (List Nat)} {ri ro : Radii} {inner outer : List Int} (hi : Means ri inner)
    (ho : Means ro outer) {cx cy : Int}
    (ok : EventsOK w h W H events inner outer cx cy) {input : Input} {scan : Nat × Nat}
    (hin : Gives w h W H events input scan) {r : Outcome (List (List Nat))}
    (hr : StemRun input ri ro scan (cx, cy) r) :
    ∃ images, r = .ok images ∧ IsCounts w h W H events inner outer cx cy images := by
  cases hi.eq
  cases ho.eq
  cases hin with
  | counted a data scan hd =>
    obtain ⟨images, h1, h2⟩ := sparse_counts ok hd
    exact ⟨images, Eq.trans hr h1, h2⟩
  | sparse a scan hw hd hs hf =>
    obtain ⟨images, h1, h2⟩ := sparse_counts ok hd
    refine ⟨images, Eq.trans hr ?_, h2⟩
    unfold PyImage.createStemImages
    simp only
    rw [hs, hf]
    simp only
    subst hw
    exact h1
  | like1 scan =>
    have hd : (asArrays events).map List.flatten = events := by
      unfold asArrays
      rw [List.map_map]
      conv => rhs; rw [← List.map_id events]
      apply List.map_congr_left
      intro e _
      simp only [Function.comp, id]
      have key : ∀ l : List Nat, (l.map fun x => [x]).flatten = l := by
        intro l
        induction l with
        | nil => rfl
        | cons x l ih => rw [List.map_cons, List.flatten_cons, ih]; rfl
      exact key e
    obtain ⟨images, h1, h2⟩ := sparse_counts ok hd
    exact ⟨images, Eq.trans hr h1, h2⟩
  | like2 data scan hd =>
    obtain ⟨images, h1, h2⟩ := sparse_counts ok hd
    exact ⟨images, Eq.trans hr h1, h2⟩
  | events1 =>
    have hd : (newAxis events).map List.flatten = events := by
      unfold newAxis
      rw [List.map_map]
      conv => rhs; rw [← List.map_id events]
      apply List.map_congr_left
      intro e _
      simp
    obtain ⟨images, h1, h2⟩ := sparse_counts ok hd
    exact ⟨images, Eq.trans hr h1, h2⟩
  | events2 data hd =>
    obtain ⟨images, h1, h2⟩ := sparse_counts ok hd
    exact ⟨images, Eq.trans hr h1, h2⟩

/-! ### Radii and errors -/

/-- **C67** Missing scan dimensions are an error for arrays of frames, for files which do not have them, and for readers
whose blocks do not have them; so are inputs of other types and threaded readers. -/
theorem C67_errors (inner outer : Radii) (center : Int × Int) :
    (∀ s r, StemRun (.array s) inner outer (0, 0) center r → ∃ m, r = .throw m) ∧
    (∀ f scan r, f.frames = none ∨ (f.scanDims = none ∧ f.stem = none) → StemRun (.file f) inner outer scan center r →
      ∃ m, r = .throw m) ∧
    (∀ blocks r, (∀ b ∈ blocks, b.scanDims.1 = 0 ∨ b.scanDims.2 = 0) → StemRun (.reader blocks) inner outer (0, 0) center r →
      ∃ m, r = .throw m) ∧
    (∀ scan r, StemRun .other inner outer scan center r → ∃ m, r = .throw m) ∧
    (∀ scan r, StemRun .threaded inner outer scan center r → ∃ m, r = .throw m) := by
  refine ⟨fun s r hr => ?_, fun f scan r hf hr => ?_, fun blocks r hb hr => ?_, fun scan r hr => ⟨_, hr⟩,
    fun scan r hr => ⟨_, hr⟩⟩
  · unfold StemRun at hr
    simp only at hr
    exact ⟨_, hr⟩
  · obtain ⟨m, hm⟩ := C66_missing f hf
    unfold StemRun at hr
    simp only at hr
    rw [hm] at hr
    exact ⟨_, hr⟩
  · unfold StemRun at hr
    simp only at hr
    unfold DenseRun at hr
    have : ∃ m, validateDense blocks inner.toList outer.toList (0, 0) = .throw m := by
      unfold validateDense
      cases blocks with
      | nil => exact ⟨_, rfl⟩
      | cons b bs =>
        simp only
        by_cases h1 : (inner.toList.isEmpty || outer.toList.isEmpty) = true
        · rw [if_pos h1]; exact ⟨_, rfl⟩
        · rw [if_neg h1]
          by_cases h2 : inner.toList.length ≠ outer.toList.length
          · rw [if_pos h2]; exact ⟨_, rfl⟩
          · rw [if_neg h2]
            refine ⟨"No scan image size provided.", ?_⟩
            rw [if_pos (by simpa using hb b (by simp))]
    obtain ⟨m, hm⟩ := this
    rw [hm] at hr
    exact ⟨_, hr⟩

private theorem foldlM_mask (mask : List Nat) (fr : List Nat) (acc : Nat) :
    (∃ v, fr.foldlM (fun acc pos => do let m ← readAt mask pos; pure ((acc + m) % 2 ^ 64)) acc = .ok v) ∨
    fr.foldlM (fun acc pos => do let m ← readAt mask pos; pure ((acc + m) % 2 ^ 64)) acc = Outcome.ub := by
  induction fr generalizing acc with
  | nil => exact Or.inl ⟨acc, rfl⟩
  | cons e fr ih =>
    rw [List.foldlM_cons]
    by_cases h : e < mask.length
    · rw [readAt_lt h]
      simp only [Outcome.ok_bind, Outcome.pure_eq]
      exact ih _
    · rw [readAt_ub.2 (by omega)]
      exact Or.inr rfl

/-- **C67** is false for arrays of events without scan dimensions: there is no error, the image of no pixels is written. It
happens for all events and for all radii. -/
theorem C67_no_scan_false {w h : Nat} {ev : List Nat} {rest : List (List Nat)} {ri ro : Radii} {inner outer : List Int} (hi : Means ri inner)
    (ho : Means ro outer) {cx cy : Int}
    (radii : inner ≠ []) (same : inner.length = outer.length)
    (geo : ∀ r ∈ inner.zip outer, GeometryOK w h r.1 r.2 cx cy) (r : Outcome (List (List Nat))) :
    StemRun (.events1 (ev :: rest) (w, h)) ri ro (0, 0) (cx, cy) r ↔ r = .ub := by
  cases hi.eq
  cases ho.eq
  have hout : ro.toList ≠ [] := by
    intro e; rw [e] at same; exact radii (List.length_eq_zero_iff.1 (by simpa using same))
  have e : createSTEMImagesSparse (newAxis (ev :: rest)) ri.toList ro.toList (0, 0) (w, h) (cx, cy) = .ub := by
    unfold createSTEMImagesSparse
    rw [if_neg (by simp [radii, hout]), if_neg (by simp [same]), makeMasks_eq geo, Outcome.ok_bind]
    obtain ⟨x, l, hx⟩ : ∃ x l, ri.toList.zip ro.toList = x :: l := by
      cases hz : ri.toList.zip ro.toList with
      | nil => 
        exfalso
        have := congrArg List.length hz
        rw [List.length_zip, ← same, Nat.min_self] at this
        exact radii (List.length_eq_zero_iff.1 (by simpa using this))
      | cons x l => exact ⟨x, l, rfl⟩
    rw [hx, List.map_cons, List.mapM_cons]
    have : ∀ mask : List Nat, calculateSTEMValuesSparse (newAxis (ev :: rest)) mask [] = .ub := by
      intro mask
      unfold calculateSTEMValuesSparse newAxis
      rw [List.map_cons, List.zipIdx_cons, List.foldlM_cons, List.foldlM_cons]
      rcases foldlM_mask mask ev 0 with ⟨v, hv⟩ | hv
      · simp only at hv ⊢
        rw [hv]; rfl
      · simp only at hv ⊢
        rw [hv]; rfl
    show (calculateSTEMValuesSparse (newAxis (ev :: rest)) _ [] >>= _) = _
    rw [this]
    rfl
  show r = _ ↔ _
  rw [e]

/-- Two frames of 2x1 pixels at the positions 1 and 0. -/
example : DataOK 2 1 2 1 [(1, [5, 6]), (0, [7, 8])] [0] [3] (-1) (-1) := by
  refine ⟨by simp, ⟨by simp, by simp, by simp⟩, by decide, by simp, rfl, ?_, by norm_num⟩
  intro r hr
  have : r = (0, 3) := by simpa using hr
  subst this
  constructor <;> norm_num

/-- The ways to give them: a reader with two blocks, and a file. -/
example : Presents 2 1 2 1 [(1, [5, 6]), (0, [7, 8])]
      (.reader ([[(1, [5, 6])], [(0, [7, 8])]].map (mkBlock (2, 1) (2, 1)))) (0, 0) ∧
    Presents 2 1 2 1 [(1, [5, 6]), (0, [7, 8])]
      (.file ⟨some ⟨1, 2, [[5, 6], [7, 8]]⟩, none, some [1, 0], some ⟨⟨1, 2, []⟩, []⟩⟩) (0, 0) ∧
    Presents 2 1 2 1 [(0, [7, 8]), (1, [5, 6])] (.array ⟨1, 2, [[7, 8], [5, 6]]⟩) (2, 1) :=
  ⟨.reader _ _ _ rfl (Or.inr ⟨Or.inl rfl, rfl⟩),
    .file _ _ (2, 1) rfl rfl (Or.inr ⟨rfl, _, rfl, rfl⟩) (Or.inr ⟨Or.inl rfl, rfl⟩), .array (by decide)⟩

example : EventsOK 2 1 2 1 [[0, 1, 1], []] [0] [3] (-1) (-1) := by
  refine ⟨by simp, rfl, ?_, by norm_num, rfl, by simp⟩
  intro r hr
  have : r = (0, 3) := by simpa using hr
  subst this
  constructor <;> norm_num

end Stempy.PyStem
