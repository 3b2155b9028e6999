import Verif.Model.EndToEnd
import Verif.Props.CountingReader
import Verif.Props.Counting
import Verif.Props.RowDark
import Verif.Props.CountedArray
import Verif.Props.SparseFile
import Verif.Props.SectorReader

/-!
C85: STEM images of the counted data of a scan, from the sector files on.
-/

namespace Stempy.Props
open Stempy.Spec Stempy.EndToEnd
open Stempy.MultiPass (File Block HState HStep hinit)
open Stempy.SectorReader (Rec version5)

/-! ### Specification -/

/-- A frame of the scan: column and row of its position, its number, and its pixels. -/
structure ScanFrame where
  x : Nat
  y : Nat
  number : Nat
  pixels : List Nat

/-- Record `r` is in a file of sector `sec`, and of the given position and frame. -/
def HasRecord (files : List (File (List Nat))) (x y number sec : Nat) (r : Rec (List Nat)) : Prop :=
  ∃ file ∈ files, r ∈ file.records ∧ file.sector = sec ∧ r.x = x ∧ r.y = y ∧ r.frameNumber = number

/-- The frames of the files: one for every position and frame number of which there is a record, with the pixels of its records in the
strips of the sectors and zeros in the strips of sectors that are missing. -/
structure IsScan (files : List (File (List Nat))) (all : List ScanFrame) : Prop where
  once : (all.map fun f => (f.x, f.y, f.number)).Nodup
  iff : ∀ x y n, (∃ f ∈ all, f.x = x ∧ f.y = y ∧ f.number = n) ↔ ∃ sec r, HasRecord files x y n sec r
  size : ∀ f ∈ all, f.pixels.length = 576 * 576
  pixel : ∀ f ∈ all, ∀ c l, c < 576 → l < 576 → ∀ r, HasRecord files f.x f.y f.number (l / 144) r →
    f.pixels[576 * l + c]? = r.data[576 * (l % 144) + c]?
  zero : ∀ f ∈ all, ∀ c l, c < 576 → l < 576 → (¬ ∃ r, HasRecord files f.x f.y f.number (l / 144) r) →
    f.pixels[576 * l + c]? = some 0

/-- Files of a scan of `W` columns and `H` rows that are whole: all records are of the scan and have the pixels of a sector, and no two
are of the same position, frame and sector. -/
structure FilesOk (files : List (File (List Nat))) (W H : Nat) : Prop where
  sectors : ∀ f ∈ files, f.sector < 4
  scan : ∀ f ∈ files, ∀ r ∈ f.records, InScan W H r
  size : ∀ f ∈ files, ∀ r ∈ f.records, r.data.length = 144 * 576
  once : DistinctRecords files 0 files.length

/-! ### Frames of the blocks -/

theorem frameOf_length (b : Block (List Nat)) : (frameOf b).length = 576 * 576 := by
  have h : ∀ (l : List (Nat × List Nat)) (f : List Nat), f.length = 576 * 576 →
      (l.foldl (fun f i => version5.place i.1 i.2 f) f).length = 576 * 576 := by
    intro l
    induction l with
    | nil => exact fun f hf => hf
    | cons i l ih =>
      intro f hf
      rw [List.foldl_cons]
      refine ih _ ?_
      rw [version5_place, SectorReader.place5, writes_length, hf]
  exact h _ _ version5_length

theorem frameOf_get (b : Block (List Nat)) (hs : (b.items.map fun i => i.1).Nodup) (h4 : ∀ i ∈ b.items, i.1 < 4)
    {c l : Nat} (hc : c < 576) (hl : l < 576) :
    (∀ d, (l / 144, d) ∈ b.items → d.length = 144 * 576 → (frameOf b)[576 * l + c]? = d[576 * (l % 144) + c]?) ∧
    ((∀ d, (l / 144, d) ∉ b.items) → (frameOf b)[576 * l + c]? = some 0) := by
  let g : List (Nat × Rec (List Nat)) := b.items.map fun i => (i.1, ⟨0, 0, 0, 0, 0, 0, i.2⟩)
  have e : frameOf b = g.foldl (fun f i => version5.place i.1 i.2.data f) version5.empty := by
    simp only [frameOf, g, List.foldl_map]
  have h := fold_place (L := version5) (own := l / 144) (idx := 576 * (l % 144) + c)
    (by intro s d f; rw [version5_place]; exact writes_length _ _)
    (by rw [version5_place]; exact fun s hs data f hf => C25_place_v5 hs hc hl data f hf) g
    (by simpa [g, List.map_map, Function.comp_def] using hs)
    (by
      intro i hi
      obtain ⟨j, hj, rfl⟩ := List.mem_map.1 hi
      exact h4 j hj)
    version5.empty version5_length
  rw [← e] at h
  have hz : version5.empty[576 * l + c]? = some 0 := by
    rw [version5, List.getElem?_replicate, if_pos (by omega)]
  constructor
  · intro d hd hlen
    cases hfind : g.find? (fun i => decide (i.1 = l / 144)) with
    | none =>
      have := List.find?_eq_none.1 hfind (l / 144, ⟨0, 0, 0, 0, 0, 0, d⟩) (List.mem_map.2 ⟨_, hd, rfl⟩)
      simp at this
    | some i =>
      rw [hfind] at h
      have hi := List.mem_of_find?_eq_some hfind
      have hi2 : i.1 = l / 144 := by simpa using List.find?_some hfind
      obtain ⟨j, hj, rfl⟩ := List.mem_map.1 hi
      have hjd : j = (l / 144, d) := by
        refine List.inj_on_of_nodup_map hs hj hd ?_
        simpa using hi2
      subst hjd
      have hlt : 576 * (l % 144) + c < d.length := by rw [hlen]; omega
      rw [h]
      simp only [List.getElem?_eq_getElem hlt, Option.some_or]
  · intro hn
    cases hfind : g.find? (fun i => decide (i.1 = l / 144)) with
    | none => rw [hfind] at h; rw [h]; exact hz
    | some i =>
      have hi := List.mem_of_find?_eq_some hfind
      have hi2 : i.1 = l / 144 := by simpa using List.find?_some hfind
      obtain ⟨j, hj, rfl⟩ := List.mem_map.1 hi
      refine absurd ?_ (hn j.2)
      have : j = (l / 144, j.2) := by rw [← hi2]
      rw [← this]
      exact hj

theorem hasRecord_iff {files : List (File (List Nat))} {W H : Nat} (hf : FilesOk files W H) (hsz : W * H ≤ 2 ^ 32) {x y n sec : Nat}
    {r : Rec (List Nat)} (hx : x < W) :
    (∃ i j, IsRecord files i j r (y * W + x) n sec) ↔ HasRecord files x y n sec r := by
  constructor
  · rintro ⟨i, j, file, h1, h2, h3, h4, h5⟩
    have hm := List.mem_of_getElem? h1
    have hr := List.mem_of_getElem? h2
    obtain ⟨e1, e2⟩ := (pos_coordinates (hf.scan file hm r hr) hsz hx).1 h3
    exact ⟨file, hm, hr, h5, e1, e2, h4⟩
  · rintro ⟨file, hm, hr, h5, e1, e2, h4⟩
    obtain ⟨i, h1⟩ := List.getElem?_of_mem hm
    obtain ⟨j, h2⟩ := List.getElem?_of_mem hr
    exact ⟨i, j, file, h1, h2, (pos_coordinates (hf.scan file hm r hr) hsz hx).2 ⟨e1, e2⟩, h4, h5⟩

/-- The frame of a block. -/
def ofBlock (W : Nat) (b : Block (List Nat)) : ScanFrame := ⟨b.pos % W, b.pos / W, b.frame, frameOf b⟩


private theorem isScan {files : List (File (List Nat))} {W H : Nat} (hf : FilesOk files W H) (hsz : W * H ≤ 2 ^ 32) (hW : 0 < W)
    {all : List (Block (List Nat))} (h1 : (all.map fun b => (b.pos, b.frame)).Nodup)
    (h2 : ∀ p f, (∃ b ∈ all, b.pos = p ∧ b.frame = f) ↔ ∃ i j r sec, IsRecord files i j r p f sec)
    (h3 : ∀ b ∈ all, BlockOk files 0 files.length b) : IsScan files (all.map (ofBlock W)) := by
  have hp : ∀ p : Nat, p / W * W + p % W = p := fun p => by rw [Nat.mul_comm]; exact Nat.div_add_mod p W
  have hrec : ∀ (b : Block (List Nat)) sec r, (∃ i j, IsRecord files i j r b.pos b.frame sec) ↔
      HasRecord files (b.pos % W) (b.pos / W) b.frame sec r := by
    intro b sec r
    rw [← hasRecord_iff hf hsz (Nat.mod_lt _ hW), hp]
  have hitems : ∀ b ∈ all, ∀ sec d, (sec, d) ∈ b.items ↔
      ∃ r, HasRecord files (b.pos % W) (b.pos / W) b.frame sec r ∧ r.data = d := by
    intro b hb sec d
    rw [(h3 b hb).items]
    constructor
    · rintro ⟨_, i, j, r, _, _, h, e⟩
      exact ⟨r, (hrec b sec r).1 ⟨i, j, h⟩, e⟩
    · rintro ⟨r, h, e⟩
      obtain ⟨i, j, h'⟩ := (hrec b sec r).2 h
      obtain ⟨file, hfile, _, hsec, _⟩ := h
      have hi : i < files.length := by
        obtain ⟨_, h'', _⟩ := h'
        exact (List.getElem?_eq_some_iff.1 h'').1
      exact ⟨hsec ▸ hf.sectors file hfile, i, j, r, Nat.zero_le _, hi, h', e⟩
  have h4 : ∀ b ∈ all, ∀ i ∈ b.items, i.1 < 4 := by
    intro b hb i hi
    exact (((h3 b hb).items i.1 i.2).1 hi).1
  refine ⟨?_, ?_, ?_, ?_, ?_⟩
  · have e : (all.map (ofBlock W)).map (fun f => (f.x, f.y, f.number)) =
        (all.map fun b => (b.pos, b.frame)).map fun k => (k.1 % W, k.1 / W, k.2) := by
      simp [List.map_map, Function.comp_def, ofBlock]
    rw [e]
    refine List.Nodup.map ?_ h1
    rintro ⟨p, f⟩ ⟨q, g⟩ h
    simp only [Prod.mk.injEq] at h
    obtain ⟨e1, e2, e3⟩ := h
    have := hp p
    have hq := hp q
    rw [e1, e2] at this
    rw [Prod.mk.injEq]
    exact ⟨by rw [← this, hq], e3⟩
  · intro x y n
    constructor
    · rintro ⟨f, hfm, rfl, rfl, rfl⟩
      obtain ⟨b, hb, rfl⟩ := List.mem_map.1 hfm
      obtain ⟨i, j, r, sec, h⟩ := (h2 b.pos b.frame).1 ⟨b, hb, rfl, rfl⟩
      exact ⟨sec, r, (hrec b sec r).1 ⟨i, j, h⟩⟩
    · rintro ⟨sec, r, h⟩
      have hx : x < W := by
        obtain ⟨file, hm, hr, _, rfl, _⟩ := h
        exact (hf.scan file hm r hr).2.2.1
      obtain ⟨i, j, h'⟩ := (hasRecord_iff hf hsz hx).2 h
      obtain ⟨b, hb, e1, e2⟩ := (h2 (y * W + x) n).2 ⟨i, j, r, sec, h'⟩
      refine ⟨ofBlock W b, List.mem_map_of_mem hb, ?_, ?_, e2⟩
      · simp only [ofBlock, e1]
        exact flat_mod y hx
      · simp only [ofBlock, e1]
        exact flat_div y hx
  · intro f hfm
    obtain ⟨b, _, rfl⟩ := List.mem_map.1 hfm
    exact frameOf_length b
  · intro f hfm c l hc hl r hr
    obtain ⟨b, hb, rfl⟩ := List.mem_map.1 hfm
    refine (frameOf_get b (h3 b hb).once (h4 b hb) hc hl).1 r.data ((hitems b hb _ _).2 ⟨r, hr, rfl⟩) ?_
    obtain ⟨file, hm, hrm, _⟩ := hr
    exact hf.size file hm r hrm
  · intro f hfm c l hc hl hn
    obtain ⟨b, hb, rfl⟩ := List.mem_map.1 hfm
    refine (frameOf_get b (h3 b hb).once (h4 b hb) hc hl).2 ?_
    intro d hd
    obtain ⟨r, hr, _⟩ := (hitems b hb _ _).1 hd
    exact hn ⟨r, hr⟩

/-! ### The pipeline -/

private theorem hits_append (w : Nat) (a b cx cy : Int) (l l' : List Nat) :
    annulusHits w a b cx cy (l ++ l') = annulusHits w a b cx cy l + annulusHits w a b cx cy l' := by
  simp [annulusHits, List.countP_append]

private theorem hits_flatten (w : Nat) (a b cx cy : Int) (l : List (List Nat)) :
    annulusHits w a b cx cy l.flatten = (l.map (annulusHits w a b cx cy)).sum := by
  induction l with
  | nil => simp [annulusHits]
  | cons x l ih => rw [List.flatten_cons, hits_append, ih]; simp

/-- What the theorems below state of the data which were counted: the frames `all` of the files, frames `S` of which the thresholds
are computed, and the events `ev` of the frames, as `value` gives the pixel values after dark reference, row dark correction (for the given
optimized mean) and gain. -/
structure Counted (o : Setup) (files : List (File (List Nat))) (value : Rat → List Nat → Nat → Rat) (all S : List ScanFrame)
    (ev : ScanFrame → List Nat) : Prop where
  scan : IsScan files all
  samples : S.length = o.numBlocks
  sub : S.Subperm all
  complete : ∀ f ∈ S, ∀ sec < 4, ∃ r, HasRecord files f.x f.y f.number sec r
  counted : ∀ f ∈ all, countFrame o (o.thresholds (S.map fun f => f.pixels)) f.pixels = .ok (ev f)
  events : ∀ f ∈ all, IsEventList (o.thresholds (S.map fun f => f.pixels)).1 (o.thresholds (S.map fun f => f.pixels)).2.1 576 576
    (value (o.thresholds (S.map fun f => f.pixels)).2.2 f.pixels) (ev f)

/-- What the theorems below state of the results: the array of the counted data, also after it was saved and loaded, has in the frame of a
position the events of the frames of the files at this position, and a pixel of a STEM image is 65535 times their number in the annulus. -/
structure Results (W H : Nat) (data : PyImage.CountedData) (all : List ScanFrame) (ev : ScanFrame → List Nat) (n : Nat := 576) : Prop where
  results : ∃ py, PyImage.toPython data = .ok py ∧
    ∀ (V : Type) (d : SparseFile.Tree V), d.Valid → ∃ f m a, SparseFile.write py.array d = .ok f ∧
      SparseFile.read f true = .ok (a, m) ∧
      (∀ X Y, X < W → Y < H → ∃ frame, Sparse.expand a [Y, X] = .ok frame ∧ ∀ c l, c < n → l < n →
        frame[l * n + c]? = some ((all.filter fun f => f.x = X ∧ f.y = Y).countP fun f => decide (l * n + c ∈ ev f))) ∧
      ∀ (inner outer : List Int) (cx cy : Int), inner ≠ [] → inner.length = outer.length →
        (∀ r ∈ inner.zip outer, GeometryOK n n r.1 r.2 cx cy) →
        ∃ images, PyImage.createStemImages ⟨a, none⟩ inner outer (cx, cy) = .ok images ∧
          PyImage.createStemImages py inner outer (cx, cy) = .ok images ∧ images.length = inner.length ∧
          (∀ img ∈ images, img.length = W * H) ∧
          ∀ (k : Nat) (r0 r1 : Int), (inner.zip outer)[k]? = some (r0, r1) → ∀ X Y, X < W → Y < H →
            pixelAt images k (Y * W + X) = some (65535 * ((all.filter fun f => f.x = X ∧ f.y = Y).map fun f =>
              annulusHits n r0 r1 (effCenter n cx) (effCenter n cy) (ev f)).sum % 2 ^ 64)

/-- The number of frames with an event does not depend on the order of the frames or the empty frames. -/
private theorem countP_stored {α : Type} {stored : List (List Nat)} {l : List α} {ev : α → List Nat} (h : stored.Perm (l.map ev))
    (n q : Nat) : (stored ++ List.replicate n []).countP (fun fr => decide (q ∈ fr)) = l.countP fun f => decide (q ∈ ev f) := by
  rw [List.countP_append, List.countP_replicate, if_neg (by simp), Nat.add_zero, h.countP_eq, List.countP_map]
  rfl

private theorem hits_stored {α : Type} {stored : List (List Nat)} {l : List α} {ev : α → List Nat} (h : stored.Perm (l.map ev))
    (n w : Nat) (a b cx cy : Int) : annulusHits w a b cx cy (stored ++ List.replicate n []).flatten =
      (l.map fun f => annulusHits w a b cx cy (ev f)).sum := by
  rw [List.flatten_append, hits_append, hits_flatten, (h.map _).sum_nat, List.map_map]
  have : (List.replicate n ([] : List Nat)).flatten = [] := by simp
  rw [this]
  simp [annulusHits, Function.comp_def]

/-- The results for data in which the row of a position has the events of its frames and else empty frames. -/
theorem results_of_rows {W H m n : Nat} (hn : n * n ≤ 2 ^ 32) {data : List (List (List Nat))} {all : List ScanFrame} {ev : ScanFrame → List Nat}
    (hlen : data.length = W * H) (hpos : 0 < W * H) (hsz : W * H < 2 ^ 32)
    (hrow : ∀ X Y, X < W → Y < H → ∃ stored : List (List Nat),
      stored.Perm ((all.filter fun f => f.x = X ∧ f.y = Y).map ev) ∧ stored.length ≤ m ∧
      data[Y * W + X]? = some (stored ++ List.replicate (m - stored.length) []))
    (hev : ∀ f ∈ all, (∀ e ∈ ev f, e < n * n) ∧ (ev f).Nodup) : Results W H ⟨data, (W, H), (n, n)⟩ all ev n := by
  refine ⟨?_⟩
  have hW : 0 < W := Nat.pos_of_mul_pos_right hpos
  have hrows : ∀ row ∈ data, row.length = m ∧ ∀ fr ∈ row, (∀ e ∈ fr, e < n * n) ∧ fr.Nodup := by
    intro row hr
    obtain ⟨p, hp⟩ := List.getElem?_of_mem hr
    have hpl : p < W * H := by rw [← hlen]; exact (List.getElem?_eq_some_iff.1 hp).1
    obtain ⟨stored, g1, g2, g3⟩ := hrow (p % W) (p / W) (Nat.mod_lt _ hW) (Nat.div_lt_of_lt_mul hpl)
    rw [Nat.mul_comm, Nat.div_add_mod, hp] at g3
    have e := Option.some.inj g3
    subst e
    refine ⟨by simp; omega, ?_⟩
    intro fr hfr
    rcases List.mem_append.1 hfr with hfr | hfr
    · obtain ⟨f, hf, rfl⟩ := List.mem_map.1 (g1.subset hfr)
      exact hev f (List.mem_filter.1 hf).1
    · rw [List.eq_of_mem_replicate hfr]
      simp
  have hok : PyImage.CountedOK ⟨data, (W, H), (n, n)⟩ m W H n n :=
    ⟨rfl, rfl, hlen, hpos, fun row hr => (hrows row hr).1, fun row hr fr hfr => ((hrows row hr).2 fr hfr).1,
      fun row hr fr hfr => ((hrows row hr).2 fr hfr).2⟩
  have hwf := PyImage.toPython_wf hok
  refine ⟨_, PyImage.toPython_ok hok, ?_⟩
  intro V d hdv
  obtain ⟨f, mm, hw, hr, _⟩ := SparseFile.C47_round_trip_partial (V := V)
    (⟨data, m, [H, W], [n, n], true, false⟩ : Sparse.SparseArray) hwf H W n n rfl rfl hn
    (by rw [Nat.mul_comm]; exact hpos) d hdv
  refine ⟨f, mm, _, hw, hr, ?_, ?_⟩
  · intro X Y hX hY
    have hp : Y * W + X < Numpy.prod [H, W] := by
      have := flat_lt hX hY
      simp only [Numpy.prod, Nat.mul_one]
      rwa [Nat.mul_comm H W]
    have hidx : Numpy.unravel [H, W] (Y * W + X) = [Y, X] := by
      simp only [Numpy.unravel, Numpy.prod, Nat.mul_one, Nat.div_one]
      rw [flat_div Y hX, flat_mod Y hX]
    have he := Sparse.expand_ok hwf hp
    rw [hidx] at he
    refine ⟨_, he, ?_⟩
    intro c l hc hl
    have hq : l * n + c < Numpy.prod [n, n] := by
      simp only [Numpy.prod, Nat.mul_one]
      exact flat_lt hc hl
    rw [List.getElem?_map, List.getElem?_range hq, Option.map_some]
    congr 1
    obtain ⟨stored, g1, g2, g3⟩ := hrow X Y hX hY
    rw [← countP_stored g1 (m - stored.length)]
    have hg : data.getD (Y * W + X) [] = stored ++ List.replicate (m - stored.length) [] := by
      rw [List.getD_eq_getElem?_getD, g3, Option.getD_some]
    simp only [Sparse.eventCount, hg]
    rw [Numpy.countP_mem]
    intro fr hfr
    exact ((hrows _ (List.mem_of_getElem? g3)).2 fr hfr).2
  · intro inner outer cx cy hne hlen' hgeo
    have hsp : SparseOK n n W H data inner outer cx cy :=
      ⟨hne, hlen', hgeo, hsz, hlen, fun row hr fr hfr => ((hrows row hr).2 fr hfr).1⟩
    obtain ⟨images, i1, i2, i3, i4⟩ := C03_sparse hsp
    refine ⟨images, i1, ?_, i2, i3, ?_⟩
    · simp only [PyImage.createStemImages, ]
      exact i1
    · intro k r0 r1 hk X Y hX hY
      obtain ⟨stored, g1, g2, g3⟩ := hrow X Y hX hY
      rw [i4 k r0 r1 hk _ _ g3, hits_stored g1]

/-- Every frame of the files can be counted, and the events are the local maxima of the values. -/
def CountsFrames (o : Setup) (files : List (File (List Nat))) (value : Rat → List Nat → Nat → Rat) : Prop :=
  ∀ θ all, IsScan files all → ∀ f ∈ all, 0 ≤ θ.1 → ∃ ev, countFrame o θ f.pixels = .ok ev ∧
    IsEventList θ.1 θ.2.1 576 576 (value θ.2.2 f.pixels) ev

theorem records_inside {files : List (File (List Nat))} {W H : Nat} (hf : FilesOk files W H) (hsz : W * H ≤ 2 ^ 32) :
    ∀ f ∈ files, ∀ r ∈ f.records, r.pos < W * H := by
  intro f hfm r hr
  have hin := hf.scan f hfm r hr
  have := (pos_coordinates (y := r.y) hin hsz hin.2.2.1).2 ⟨rfl, rfl⟩
  rw [this]
  exact flat_lt hin.2.2.1 hin.2.2.2

/-- What `C82_files` states of the counted data is enough for the images. -/
theorem images_of_counted (o : Setup) (value : Rat → List Nat → Nat → Rat)
    (hbg : ∀ S : List (List Nat), S.length = o.numBlocks → 0 ≤ (o.thresholds S).1)
    (files : List (File (List Nat))) (hcount : CountsFrames o files value) (W H : Nat) (hscan : o.scan = (W, H))
    (hf : FilesOk files W H) (hsz : W * H < 2 ^ 32) (hpos : 0 < W * H) {data : List (List (List Nat))}
    (hC : ∃ all : List (Block (List Nat)), (all.map fun b => (b.pos, b.frame)).Nodup ∧
      (∀ p f, (∃ b ∈ all, b.pos = p ∧ b.frame = f) ↔ ∃ i j r sec, IsRecord files i j r p f sec) ∧
      (∀ b ∈ all, BlockOk files 0 files.length b) ∧
      data.length = (call o).positions ∧
      ∃ S : List (Block (List Nat)), S.length = (call o).numBlocks ∧ (∀ b ∈ S, b.complete = true) ∧ S.Subperm all ∧
        ∃ m, ∀ p, p < (call o).positions → ∃ stored : List (List Nat),
          stored.Perm ((all.filter fun b => b.pos = p).map ((call o).count ((call o).threshold S))) ∧ stored.length ≤ m ∧
          data[p]? = some (stored ++ List.replicate (m - stored.length) [])) :
    ∃ all S ev, Counted o files value all S ev ∧ Results W H (countedData o data) all ev := by
  have hW : 0 < W := Nat.pos_of_mul_pos_right hpos
  have hP : (call o).positions = W * H := by simp [call, hscan]
  obtain ⟨blocks, h1, h2, h3, hlen, S, hS1, hS2, hS3, m, hstored⟩ := hC
  rw [hP] at hlen hstored
  have hS1 : S.length = o.numBlocks := hS1
  have hall := isScan hf (Nat.le_of_lt hsz) hW h1 h2 h3
  let θ := o.thresholds ((S.map (ofBlock W)).map fun f => f.pixels)
  have hθ : (call o).threshold S = θ := by
    simp [call, θ, List.map_map, Function.comp_def, ofBlock]
  have hθ0 : 0 ≤ θ.1 := hbg _ (by simpa using hS1)
  let ev : ScanFrame → List Nat := fun f =>
    match countFrame o θ f.pixels with
    | .ok events => events
    | _ => []
  have hev : ∀ f ∈ blocks.map (ofBlock W), countFrame o θ f.pixels = .ok (ev f) ∧
      IsEventList θ.1 θ.2.1 576 576 (value θ.2.2 f.pixels) (ev f) := by
    intro f hfm
    obtain ⟨e, he1, he2⟩ := hcount θ _ hall f hfm hθ0
    have : ev f = e := by simp only [ev, he1]
    rw [this]
    exact ⟨he1, he2⟩
  have hsub : (S.map (ofBlock W)).Subperm (blocks.map (ofBlock W)) := by
    obtain ⟨l, g1, g2⟩ := hS3
    exact ⟨_, g1.map _, g2.map _⟩
  have hcev : ∀ b, (call o).count ((call o).threshold S) b = ev (ofBlock W b) := by
    intro b
    rw [hθ]
    rfl
  refine ⟨blocks.map (ofBlock W), S.map (ofBlock W), ev, ⟨hall, by simpa using hS1, hsub, ?_, ?_, ?_⟩, ?_⟩
  · intro f hfm sec hsec
    obtain ⟨b, hb, rfl⟩ := List.mem_map.1 hfm
    have hb' := hS3.subset hb
    obtain ⟨i, j, r, _, _, hr⟩ := (h3 b hb').complete.1 (hS2 b hb) sec hsec
    refine ⟨r, (hasRecord_iff hf (Nat.le_of_lt hsz) (Nat.mod_lt _ hW)).1 ⟨i, j, ?_⟩⟩
    simp only [ofBlock]
    rw [Nat.mul_comm, Nat.div_add_mod]
    exact hr
  · intro f hfm
    exact (hev f hfm).1
  · intro f hfm
    exact (hev f hfm).2
  -- the rows of the data
  have hfilter : ∀ X Y, X < W → ((blocks.map (ofBlock W)).filter fun f => f.x = X ∧ f.y = Y) =
      (blocks.filter fun b => b.pos = Y * W + X).map (ofBlock W) := by
    intro X Y hX
    rw [List.filter_map]
    congr 1
    refine List.filter_congr fun b _ => ?_
    have e : (b.pos % W = X ∧ b.pos / W = Y) ↔ b.pos = Y * W + X := ?_
    · exact decide_eq_decide.2 e
    constructor
    · rintro ⟨rfl, rfl⟩
      rw [Nat.mul_comm, Nat.div_add_mod]
    · intro e
      rw [e]
      exact ⟨flat_mod Y hX, flat_div Y hX⟩
  have hrow : ∀ X Y, X < W → Y < H → ∃ stored : List (List Nat),
      stored.Perm (((blocks.map (ofBlock W)).filter fun f => f.x = X ∧ f.y = Y).map ev) ∧ stored.length ≤ m ∧
      data[Y * W + X]? = some (stored ++ List.replicate (m - stored.length) []) := by
    intro X Y hX hY
    obtain ⟨stored, g1, g2, g3⟩ := hstored (Y * W + X) (flat_lt hX hY)
    refine ⟨stored, ?_, g2, g3⟩
    rw [hfilter X Y hX, List.map_map]
    refine g1.trans (List.Perm.of_eq (List.map_congr_left fun b _ => hcev b))
  have hcd : countedData o data = ⟨data, (W, H), (576, 576)⟩ := by simp [countedData, hscan]
  rw [hcd]
  exact results_of_rows (by decide) hlen hpos hsz hrow (fun f hfm => ⟨(hev f hfm).2.onDetector, (hev f hfm).2.sorted.imp (fun h => Nat.ne_of_lt h)⟩)

private theorem pipeline (o : Setup) (value : Rat → List Nat → Nat → Rat)
    (hbg : ∀ S : List (List Nat), S.length = o.numBlocks → 0 ≤ (o.thresholds S).1)
    (files : List (File (List Nat))) (hcount : CountsFrames o files value)
    (W H : Nat) (hscan : o.scan = (W, H)) (hf : FilesOk files W H) (hsz : W * H < 2 ^ 32)
    (hpos : 0 < W * H) (hthreads : 0 < o.threads) (n : Nat) (hn : 0 < n) {s : HState (List Nat)}
    (hs : Reach (HStep files (W * H) files.length) (hinit n 0) s) (hex : ∀ w ∈ s.workers, w = .exited)
    (at_ : Nat → Nat) {z : CountingReader.State (List Nat) (Rat × Rat × Rat)}
    (h : Reach (CountingReader.Step (call o) files s.map (W * H)) (CountingReader.init (call o) 0 at_) z)
    {data : List (List (List Nat))} (hd : z.counting.main = .done data) :
    ∃ all S ev, Counted o files value all S ev ∧ Results W H (countedData o data) all ev := by
  have hP : (call o).positions = W * H := by simp [call, hscan]
  refine images_of_counted o value hbg files hcount W H hscan hf hsz hpos ?_
  exact C82_files (call o) hthreads files n hn hf.sectors (by rw [hP]; exact records_inside hf (Nat.le_of_lt hsz)) hf.once
    (by rw [hP]; exact hs) hex at_ (by rw [hP]; exact h) hd

/-- Without gain and row dark correction. -/
theorem counts_plain (o : Setup) (hg : o.gain = none) (hrd : o.rowDark = none)
    (hdark : ∀ d, o.dark = some d → d.length = 576 * 576 ∧ ∀ r ∈ d, -1 < r ∧ r < 65536) (files : List (File (List Nat))) :
    CountsFrames o files fun _ => u16StreamValue o.dark := by
  intro θ all hall f hfm h0
  have hl := hall.size f hfm
  unfold countFrame
  rw [hg, hrd]
  exact C12_stream_u16 (o := { ft := .u16, bg := θ.1, xr := θ.2.1, dark := o.dark, gain := none, rowDark := none, optMean := θ.2.2 })
    ⟨by omega, by omega, by omega, by omega, hl, h0⟩ rfl rfl hdark

/-- With a gain. -/
theorem counts_gain (o : Setup) (gain : List Rat) (hg : o.gain = some gain) (hgl : gain.length = 576 * 576)
    (hrd : o.rowDark = none) (hdark : ∀ d, o.dark = some d → d.length = 576 * 576) (files : List (File (List Nat))) :
    CountsFrames o files fun _ => floatValue o.dark gain := by
  intro θ all hall f hfm h0
  have hl := hall.size f hfm
  unfold countFrame
  rw [hg, hrd]
  exact C12_stream_gain (o := { ft := .f32, bg := θ.1, xr := θ.2.1, dark := o.dark, gain := some gain, rowDark := none, optMean := θ.2.2 })
    ⟨by omega, by omega, by omega, by omega, hl, h0⟩ rfl rfl rfl hgl hdark

/-- With a gain and row dark correction. -/
theorem counts_rowdark (o : Setup) (gain : List Rat) (hg : o.gain = some gain) (hgl : gain.length = 576 * 576)
    {statFunc : List Rat → Outcome (Option Rat)} {stat : List Rat → Rat} (hrd : o.rowDark = some statFunc)
    (hstat : ∀ l, l ≠ [] → statFunc l = .ok (some (stat l))) (hdark : ∀ d, o.dark = some d → d.length = 576 * 576)
    (files : List (File (List Nat)))
    (hnz : ∀ all, IsScan files all → ∀ f ∈ all, ∀ x y, x < 576 → y < 576 → stat (halfRow 576 (pixels f.pixels) x y) ≠ 0) :
    CountsFrames o files fun optMean frame j => rowDarkFloat optMean o.dark gain
      (stat (halfRow 576 (pixels frame) (j % 576) (j / 576))) j (frame.getD j 0 : Nat) := by
  intro θ all hall f hfm h0
  have hl := hall.size f hfm
  unfold countFrame
  rw [hg, hrd]
  obtain ⟨ev, e1, _, e2⟩ := C12_rowdark_gain
    (o := { ft := .f32, bg := θ.1, xr := θ.2.1, dark := o.dark, gain := some gain, rowDark := some statFunc, optMean := θ.2.2 })
    ⟨by omega, by omega, by omega, by omega, hl, h0⟩ rfl rfl hstat rfl hgl hdark (hnz all hall f hfm)
  refine ⟨ev, e1, e2.sorted, e2.onDetector, ?_⟩
  have hp : ∀ j, j < 576 * 576 → (pixels f.pixels).getD j 0 = (f.pixels.getD j 0 : Nat) := by
    intro j hj
    have : j < f.pixels.length := by omega
    simp [pixels, this]
  intro x y hx hy
  rw [e2.mem x y hx hy]
  simp only
  rw [hp _ (flat_lt hx hy)]
  refine and_congr Iff.rfl ?_
  constructor
  · intro g x' y' a1 a2 a3
    have := g x' y' a1 a2 a3
    rwa [hp _ (flat_lt a1 a2)] at this
  · intro g x' y' a1 a2 a3
    have := g x' y' a1 a2 a3
    rwa [hp _ (flat_lt a1 a2)]

/-- **C85** When the counting of a scan with the multi-pass reader returns (without gain and row dark correction, with or without dark
reference), the images computed from the data, also after saving and loading them, are those of the frames in the sector files: every
frame of which there is a record is counted once at its position, with thresholds of `numBlocks` complete frames, and every
pixel of an image is 65535 times the number of the events of the frames of its position in the annulus (modulo `2^64`). For all files,
numbers of threads and schedules. -/
theorem C85_images (o : Setup) (hg : o.gain = none) (hrd : o.rowDark = none)
    (hdark : ∀ d, o.dark = some d → d.length = 576 * 576 ∧ ∀ r ∈ d, -1 < r ∧ r < 65536)
    (hbg : ∀ S : List (List Nat), S.length = o.numBlocks → 0 ≤ (o.thresholds S).1)
    (files : List (File (List Nat))) (W H : Nat) (hscan : o.scan = (W, H)) (hf : FilesOk files W H) (hsz : W * H < 2 ^ 32)
    (hpos : 0 < W * H) (hthreads : 0 < o.threads) (n : Nat) (hn : 0 < n) {s : HState (List Nat)}
    (hs : Reach (HStep files (W * H) files.length) (hinit n 0) s) (hex : ∀ w ∈ s.workers, w = .exited)
    (at_ : Nat → Nat) {z : CountingReader.State (List Nat) (Rat × Rat × Rat)}
    (h : Reach (CountingReader.Step (call o) files s.map (W * H)) (CountingReader.init (call o) 0 at_) z)
    {data : List (List (List Nat))} (hd : z.counting.main = .done data) :
    ∃ all S ev, Counted o files (fun _ => u16StreamValue o.dark) all S ev ∧ Results W H (countedData o data) all ev := by
  exact pipeline o _ hbg files (counts_plain o hg hrd hdark files) W H hscan hf hsz hpos hthreads n hn hs hex at_ h hd

/-- **C85** The same with a gain. -/
theorem C85_images_gain (o : Setup) (gain : List Rat) (hg : o.gain = some gain) (hgl : gain.length = 576 * 576)
    (hrd : o.rowDark = none) (hdark : ∀ d, o.dark = some d → d.length = 576 * 576)
    (hbg : ∀ S : List (List Nat), S.length = o.numBlocks → 0 ≤ (o.thresholds S).1)
    (files : List (File (List Nat))) (W H : Nat) (hscan : o.scan = (W, H)) (hf : FilesOk files W H) (hsz : W * H < 2 ^ 32)
    (hpos : 0 < W * H) (hthreads : 0 < o.threads) (n : Nat) (hn : 0 < n) {s : HState (List Nat)}
    (hs : Reach (HStep files (W * H) files.length) (hinit n 0) s) (hex : ∀ w ∈ s.workers, w = .exited)
    (at_ : Nat → Nat) {z : CountingReader.State (List Nat) (Rat × Rat × Rat)}
    (h : Reach (CountingReader.Step (call o) files s.map (W * H)) (CountingReader.init (call o) 0 at_) z)
    {data : List (List (List Nat))} (hd : z.counting.main = .done data) :
    ∃ all S ev, Counted o files (fun _ => floatValue o.dark gain) all S ev ∧ Results W H (countedData o data) all ev := by
  exact pipeline o _ hbg files (counts_gain o gain hg hgl hrd hdark files) W H hscan hf hsz hpos hthreads n hn hs hex at_ h hd

/-- **C85** The same with a gain and row dark correction, if no half row of a frame has the statistic zero (`C86_missing_sector_false` is
about other frames); `stat` is what the function for the statistic computes, the mean (`C14_mean`) or the median (`C14_median`). -/
theorem C85_images_rowdark (o : Setup) (gain : List Rat) (hg : o.gain = some gain) (hgl : gain.length = 576 * 576)
    {statFunc : List Rat → Outcome (Option Rat)} {stat : List Rat → Rat} (hrd : o.rowDark = some statFunc)
    (hstat : ∀ l, l ≠ [] → statFunc l = .ok (some (stat l))) (hdark : ∀ d, o.dark = some d → d.length = 576 * 576)
    (hbg : ∀ S : List (List Nat), S.length = o.numBlocks → 0 ≤ (o.thresholds S).1)
    (files : List (File (List Nat)))
    (hnz : ∀ all, IsScan files all → ∀ f ∈ all, ∀ x y, x < 576 → y < 576 → stat (halfRow 576 (pixels f.pixels) x y) ≠ 0)
    (W H : Nat) (hscan : o.scan = (W, H)) (hf : FilesOk files W H) (hsz : W * H < 2 ^ 32)
    (hpos : 0 < W * H) (hthreads : 0 < o.threads) (n : Nat) (hn : 0 < n) {s : HState (List Nat)}
    (hs : Reach (HStep files (W * H) files.length) (hinit n 0) s) (hex : ∀ w ∈ s.workers, w = .exited)
    (at_ : Nat → Nat) {z : CountingReader.State (List Nat) (Rat × Rat × Rat)}
    (h : Reach (CountingReader.Step (call o) files s.map (W * H)) (CountingReader.init (call o) 0 at_) z)
    {data : List (List (List Nat))} (hd : z.counting.main = .done data) :
    ∃ all S ev, Counted o files (fun optMean frame j => rowDarkFloat optMean o.dark gain
      (stat (halfRow 576 (pixels frame) (j % 576) (j / 576))) j (frame.getD j 0 : Nat)) all S ev ∧
      Results W H (countedData o data) all ev := by
  exact pipeline o _ hbg files (counts_rowdark o gain hg hgl hrd hstat hdark files hnz) W H hscan hf hsz hpos hthreads n hn hs hex at_ h hd

/-! ### Values and schedules -/

/-- **C85** The value is exact if there are less than `2^29` frames. -/
theorem C85_exact {o : Setup} {files : List (File (List Nat))} {value : Rat → List Nat → Nat → Rat} {all S : List ScanFrame}
    {ev : ScanFrame → List Nat} (h : Counted o files value all S ev) (hl : all.length < 2 ^ 29) (X Y : Nat) (r0 r1 cx cy : Int) :
    65535 * ((all.filter fun f => f.x = X ∧ f.y = Y).map fun f => annulusHits 576 r0 r1 cx cy (ev f)).sum % 2 ^ 64 =
      65535 * ((all.filter fun f => f.x = X ∧ f.y = Y).map fun f => annulusHits 576 r0 r1 cx cy (ev f)).sum := by
  have h1 : ∀ f ∈ all, annulusHits 576 r0 r1 cx cy (ev f) ≤ 331776 := by
    intro f hf
    have he := h.events f hf
    have : (ev f).length ≤ 576 * 576 := by
      have hn : (ev f).Nodup := he.sorted.imp fun h => Nat.ne_of_lt h
      have hs : (ev f) ⊆ List.range (576 * 576) := fun e he' => List.mem_range.2 (he.onDetector e he')
      simpa using (hn.subperm hs).length_le
    exact Nat.le_trans List.countP_le_length this
  have h2 : ∀ l : List ScanFrame, (∀ f ∈ l, f ∈ all) →
      (l.map fun f => annulusHits 576 r0 r1 cx cy (ev f)).sum ≤ 331776 * l.length := by
    intro l
    induction l with
    | nil => simp
    | cons f l ih =>
      intro hl
      have := ih fun g hg => hl g (by simp [hg])
      have := h1 f (hl f (by simp))
      simp only [List.map_cons, List.sum_cons, List.length_cons]
      omega
  have h3 := h2 (all.filter fun f => f.x = X ∧ f.y = Y) fun f hf => (List.mem_filter.1 hf).1
  have h4 := List.length_filter_le (fun f : ScanFrame => decide (f.x = X ∧ f.y = Y)) all
  exact Nat.mod_eq_of_lt (by omega)

/-- The frames are determined by the files, up to their order. -/
theorem IsScan.perm {files : List (File (List Nat))} {all all' : List ScanFrame} (h : IsScan files all) (h' : IsScan files all') :
    all.Perm all' := by
  have key : ∀ {a b : List ScanFrame}, IsScan files a → IsScan files b → ∀ f ∈ a, f ∈ b := by
    intro a b ha hb f hf
    obtain ⟨g, hg, e1, e2, e3⟩ := (hb.iff f.x f.y f.number).2 ((ha.iff f.x f.y f.number).1 ⟨f, hf, rfl, rfl, rfl⟩)
    have hp : f.pixels = g.pixels := by
      refine List.ext_getElem? fun i => ?_
      by_cases hi : i < 576 * 576
      · have hi' : i = 576 * (i / 576) + i % 576 := (Nat.div_add_mod i 576).symm
        have hc : i % 576 < 576 := Nat.mod_lt _ (by omega)
        have hl : i / 576 < 576 := by omega
        rw [hi']
        by_cases hr : ∃ r, HasRecord files f.x f.y f.number (i / 576 / 144) r
        · obtain ⟨r, hr⟩ := hr
          rw [ha.pixel f hf _ _ hc hl r hr, hb.pixel g hg _ _ hc hl r (by rw [e1, e2, e3]; exact hr)]
        · rw [ha.zero f hf _ _ hc hl hr, hb.zero g hg _ _ hc hl (by rw [e1, e2, e3]; exact hr)]
      · rw [List.getElem?_eq_none (by rw [ha.size f hf]; omega), List.getElem?_eq_none (by rw [hb.size g hg]; omega)]
    have : f = g := by
      cases f; cases g
      simp only at e1 e2 e3 hp
      subst e1 e2 e3 hp
      rfl
    rw [this]
    exact hg
  refine (List.perm_ext_iff_of_nodup h.once.of_map h'.once.of_map).2 fun f => ⟨key h h' f, key h' h f⟩

/-- The order of the files does not matter. -/
theorem IsScan.reorder {files files' : List (File (List Nat))} {all : List ScanFrame} (hm : ∀ f, f ∈ files' ↔ f ∈ files)
    (h : IsScan files' all) : IsScan files all := by
  have e : ∀ x y n sec r, HasRecord files' x y n sec r ↔ HasRecord files x y n sec r := by
    intro x y n sec r
    simp only [HasRecord, hm]
  refine ⟨h.once, ?_, h.size, ?_, ?_⟩
  · intro x y n
    rw [h.iff]
    simp only [e]
  · intro f hf c l hc hl r hr
    exact h.pixel f hf c l hc hl r ((e _ _ _ _ _).2 hr)
  · intro f hf c l hc hl hn
    refine h.zero f hf c l hc hl ?_
    simpa only [e] using hn

/-- **C85** The images do not depend on the schedule, the numbers of threads, the order of the files or the frames which were sampled, as
long as the thresholds are the same. -/
theorem C85_same_images {o o' : Setup} {files files' : List (File (List Nat))} (hfiles : ∀ f, f ∈ files' ↔ f ∈ files) {value value' : Rat → List Nat → Nat → Rat} {W H : Nat}
    {all S all' S' : List ScanFrame} {ev ev' : ScanFrame → List Nat} {data data' : List (List (List Nat))}
    (hdark : o'.dark = o.dark) (hgain : o'.gain = o.gain) (hrd : o'.rowDark = o.rowDark)
    (hθ : o'.thresholds (S'.map fun f => f.pixels) = o.thresholds (S.map fun f => f.pixels))
    (h : Counted o files value all S ev) (h' : Counted o' files' value' all' S' ev')
    (hr : Results W H (countedData o data) all ev) (hr' : Results W H (countedData o' data') all' ev')
    (inner outer : List Int) (cx cy : Int) (hne : inner ≠ []) (hlen : inner.length = outer.length)
    (hgeo : ∀ r ∈ inner.zip outer, GeometryOK 576 576 r.1 r.2 cx cy) :
    ∃ py py', PyImage.toPython (countedData o data) = .ok py ∧ PyImage.toPython (countedData o' data') = .ok py' ∧
      ∃ images, PyImage.createStemImages py inner outer (cx, cy) = .ok images ∧
        PyImage.createStemImages py' inner outer (cx, cy) = .ok images := by
  obtain ⟨py, p1, p2⟩ := hr.results
  obtain ⟨py', q1, q2⟩ := hr'.results
  obtain ⟨_, _, _, _, _, _, p3⟩ := p2 Nat .nil (by simp [SparseFile.Tree.Valid])
  obtain ⟨_, _, _, _, _, _, q3⟩ := q2 Nat .nil (by simp [SparseFile.Tree.Valid])
  obtain ⟨images, _, i1, i2, i3, i4⟩ := p3 inner outer cx cy hne hlen hgeo
  obtain ⟨images', _, j1, j2, j3, j4⟩ := q3 inner outer cx cy hne hlen hgeo
  have hperm := h.scan.perm (h'.scan.reorder hfiles)
  have hev : ∀ f ∈ all, ev' f = ev f := by
    intro f hf
    have e1 := h.counted f hf
    have e2 := h'.counted f (hperm.subset hf)
    have e3 : countFrame o' (o'.thresholds (S'.map fun f => f.pixels)) f.pixels =
        countFrame o (o.thresholds (S.map fun f => f.pixels)) f.pixels := by
      rw [hθ]
      simp only [countFrame, hdark, hgain, hrd]
    rw [e1, e2] at e3
    exact Outcome.ok.inj e3
  have e : images' = images := by
    refine List.ext_getElem? fun k => ?_
    by_cases hk : k < inner.length
    · have hk1 : k < images.length := by omega
      have hk2 : k < images'.length := by omega
      rw [List.getElem?_eq_getElem hk1, List.getElem?_eq_getElem hk2]
      congr 1
      have l1 := i3 _ (List.getElem_mem hk1)
      have l2 := j3 _ (List.getElem_mem hk2)
      have hz : k < (inner.zip outer).length := by rw [List.length_zip]; omega
      refine List.ext_getElem? fun p => ?_
      by_cases hp : p < W * H
      · have hW : 0 < W := Nat.pos_of_ne_zero fun h => by simp [h] at hp
        have hX : p % W < W := Nat.mod_lt _ hW
        have hY : p / W < H := Nat.div_lt_of_lt_mul hp
        have e1 := i4 k _ _ (List.getElem?_eq_getElem hz) (p % W) (p / W) hX hY
        have e2 := j4 k _ _ (List.getElem?_eq_getElem hz) (p % W) (p / W) hX hY
        have ep : p / W * W + p % W = p := by rw [Nat.mul_comm]; exact Nat.div_add_mod p W
        rw [ep] at e1 e2
        simp only [pixelAt, List.getElem?_eq_getElem hk1, List.getElem?_eq_getElem hk2, Option.bind_some] at e1 e2
        rw [e1, e2]
        congr 3
        rw [((hperm.filter _).map _).sum_nat]
        congr 1
        refine List.map_congr_left fun f hf => ?_
        rw [hev f (hperm.symm.subset (List.mem_filter.1 hf).1)]
      · rw [List.getElem?_eq_none (by omega), List.getElem?_eq_none (by omega)]
    · rw [List.getElem?_eq_none (by omega), List.getElem?_eq_none (by omega)]
  exact ⟨py, py', p1, q1, images, i1, by rw [j1, e]⟩

/-! ### There are such executions -/

/-- **C85** Files with at most one frame at a position and at least `numBlocks` complete frames can be counted: after every execution of
the header pass there is an execution of the counting to the end. -/
theorem C85_returns (o : Setup) (files : List (File (List Nat))) (W H : Nat) (hscan : o.scan = (W, H)) (hf : FilesOk files W H)
    (hsz : W * H < 2 ^ 32) (hthreads : 0 < o.threads) (n : Nat) (hn : 0 < n) (at_ : Nat → Nat)
    (hone : ∀ x y n n' sec sec' r r', HasRecord files x y n sec r → HasRecord files x y n' sec' r' → n = n') (hN : 0 < o.numBlocks)
    (hC : ∃ L : List (Nat × Nat × Nat), L.Nodup ∧ o.numBlocks ≤ L.length ∧
      ∀ k ∈ L, ∀ sec < 4, ∃ r, HasRecord files k.1 k.2.1 k.2.2 sec r)
    {s : HState (List Nat)} (hs : Reach (HStep files (W * H) files.length) (hinit n 0) s) (he : ∀ w ∈ s.workers, w = .exited) :
    ∃ z data, Reach (CountingReader.Step (call o) files s.map (W * H)) (CountingReader.init (call o) 0 at_) z ∧
      z.counting.main = .done data := by
  have hle : W * H ≤ 2 ^ 32 := Nat.le_of_lt hsz
  have hP : (call o).positions = W * H := by simp [call, hscan]
  have hrpos : ∀ f ∈ files, ∀ r ∈ f.records, r.pos < W * H := by
    intro f hfm r hr
    have hin := hf.scan f hfm r hr
    rw [(pos_coordinates (y := r.y) hin hle hin.2.2.1).2 ⟨rfl, rfl⟩]
    exact flat_lt hin.2.2.1 hin.2.2.2
  have hrec : ∀ {i j r p f sec}, IsRecord files i j r p f sec → p < W * H ∧ HasRecord files (p % W) (p / W) f sec r := by
    intro i j r p f sec h
    obtain ⟨file, h1, h2, h3, h4, h5⟩ := h
    have hm := List.mem_of_getElem? h1
    have hr := List.mem_of_getElem? h2
    have hp := hrpos file hm r hr
    have hW : 0 < W := Nat.lt_of_le_of_lt (Nat.zero_le _) (hf.scan file hm r hr).2.2.1
    refine ⟨h3 ▸ hp, (hasRecord_iff hf hle (Nat.mod_lt _ hW)).1 ⟨i, j, file, h1, h2, ?_, h4, h5⟩⟩
    rw [Nat.mul_comm, Nat.div_add_mod]
    exact h3
  have hidx := (C28_index files (W * H) 0 files.length n (Nat.le_refl _) hf.sectors hrpos hf.once hn hs).2 he
  exact C82_exists (call o) hthreads files s.map 0 files.length 0 (W * H) at_ hidx
    (by
      intro i j r i' j' r' p f f' sec sec' _ _ _ _ _ _ h h'
      exact hone _ _ _ _ _ _ _ _ (hrec h).2 (hrec h').2)
    (by intro i j r p f sec _ hp _ _ _; rw [hP]; exact hp) hN
    (by
      obtain ⟨L, hL1, hL2, hL3⟩ := hC
      refine ⟨L.map fun k => (k.2.1 * W + k.1, k.2.2), ?_, by rw [List.length_map]; exact hL2, ?_⟩
      · refine List.Nodup.map_on ?_ hL1
        rintro ⟨x, y, f⟩ h1 ⟨x', y', f'⟩ h2 e
        obtain ⟨r, file, hm, hr, _, e1, e2, _⟩ := hL3 _ h1 0 (by omega)
        obtain ⟨r', file', hm', hr', _, e1', e2', _⟩ := hL3 _ h2 0 (by omega)
        have hx := (hf.scan file hm r hr).2.2.1
        have hx' := (hf.scan file' hm' r' hr').2.2.1
        simp only at e1 e1'
        rw [e1] at hx
        rw [e1'] at hx'
        simp only [Prod.mk.injEq] at e
        have m1 := flat_mod y hx
        have m2 := flat_mod y' hx'
        have d1 := flat_div y hx
        have d2 := flat_div y' hx'
        rw [e.1] at m1 d1
        simp only [Prod.mk.injEq]
        exact ⟨by rw [← m1, m2], by rw [← d1, d2], e.2⟩
      · intro k hk
        obtain ⟨⟨x, y, f⟩, hk', rfl⟩ := List.mem_map.1 hk
        simp only
        have hr := hL3 _ hk'
        simp only at hr
        have hrr : ∀ sec < 4, ∃ i j r, IsRecord files i j r (y * W + x) f sec := by
          intro sec hsec
          obtain ⟨r, h⟩ := hr sec hsec
          have hx : x < W := by
            obtain ⟨file, hm, hrm, _, rfl, _⟩ := h
            exact (hf.scan file hm r hrm).2.2.1
          obtain ⟨i, j, h⟩ := (hasRecord_iff hf hle hx).2 h
          exact ⟨i, j, r, h⟩
        obtain ⟨i, j, r, h⟩ := hrr 0 (by omega)
        refine ⟨Nat.zero_le _, (hrec h).1, fun sec hsec => ?_⟩
        obtain ⟨i, j, r, h⟩ := hrr sec hsec
        refine ⟨i, j, r, Nat.zero_le _, ?_, h⟩
        obtain ⟨file, h1, _⟩ := h
        exact (List.getElem?_eq_some_iff.1 h1).1)

/-- **C85** And there is an execution of the header pass to the end. -/
theorem C85_exists (o : Setup) (files : List (File (List Nat))) (W H : Nat) (hscan : o.scan = (W, H)) (hf : FilesOk files W H)
    (hsz : W * H < 2 ^ 32) (hthreads : 0 < o.threads) (n : Nat) (hn : 0 < n) (at_ : Nat → Nat)
    (hone : ∀ x y n n' sec sec' r r', HasRecord files x y n sec r → HasRecord files x y n' sec' r' → n = n') (hN : 0 < o.numBlocks)
    (hC : ∃ L : List (Nat × Nat × Nat), L.Nodup ∧ o.numBlocks ≤ L.length ∧
      ∀ k ∈ L, ∀ sec < 4, ∃ r, HasRecord files k.1 k.2.1 k.2.2 sec r) :
    ∃ s z data, Reach (HStep files (W * H) files.length) (hinit n 0) s ∧ (∀ w ∈ s.workers, w = .exited) ∧
      Reach (CountingReader.Step (call o) files s.map (W * H)) (CountingReader.init (call o) 0 at_) z ∧
      z.counting.main = .done data := by
  obtain ⟨s, hs, he⟩ := C28_exists files (W * H) 0 files.length n (Nat.le_refl _) hf.sectors (by
    intro f hfm r hr
    have hin := hf.scan f hfm r hr
    rw [(pos_coordinates (y := r.y) hin (Nat.le_of_lt hsz) hin.2.2.1).2 ⟨rfl, rfl⟩]
    exact flat_lt hin.2.2.1 hin.2.2.2) hf.once
  obtain ⟨z, data, hz, hd⟩ := C85_returns o files W H hscan hf hsz hthreads n hn at_ hone hN hC hs he
  exact ⟨s, z, data, hs, he, hz, hd⟩

/-! ### Example -/

/-- The pixels of a sector with one bright pixel. -/
def brightSector (v : Nat) : List Nat := List.replicate 1000 0 ++ v :: List.replicate 81943 0

/-- Four sector files of a scan of 2 × 1 positions: the first has the complete frame 7, the second frame 8 without sectors 0, 1 and 3. -/
def brightFiles : List (File (List Nat)) :=
  [⟨0, [⟨1, 7, 2, 1, 0, 0, brightSector 50⟩]⟩, ⟨1, [⟨1, 7, 2, 1, 0, 0, brightSector 60⟩]⟩,
    ⟨2, [⟨1, 8, 2, 1, 1, 0, brightSector 70⟩, ⟨1, 7, 2, 1, 0, 0, brightSector 80⟩]⟩, ⟨3, [⟨1, 7, 2, 1, 0, 0, brightSector 90⟩]⟩]

def brightSetup : Setup := ⟨3, 1, (2, 1), none, none, none, fun _ => (10, 1000, 0)⟩

theorem brightFiles_record {x y n sec : Nat} {r : Rec (List Nat)} (h : HasRecord brightFiles x y n sec r) :
    x = 0 ∧ y = 0 ∧ n = 7 ∨ x = 1 ∧ y = 0 ∧ n = 8 := by
  obtain ⟨file, hm, hr, _, rfl, rfl, rfl⟩ := h
  simp only [brightFiles, List.mem_cons, List.not_mem_nil, or_false] at hm
  rcases hm with rfl | rfl | rfl | rfl <;> simp only [List.mem_cons, List.not_mem_nil, or_false] at hr
  · subst hr; simp
  · subst hr; simp
  · rcases hr with rfl | rfl <;> simp
  · subst hr; simp

theorem brightFiles_ok : FilesOk brightFiles 2 1 := by
  have hlen : ∀ v, (brightSector v).length = 144 * 576 := by
    intro v
    rw [brightSector, List.length_append, List.length_cons, List.length_replicate, List.length_replicate]
  refine ⟨?_, ?_, ?_, ?_⟩
  · intro f hf
    simp only [brightFiles, List.mem_cons, List.not_mem_nil, or_false] at hf
    rcases hf with rfl | rfl | rfl | rfl <;> simp
  · intro f hf r hr
    simp only [brightFiles, List.mem_cons, List.not_mem_nil, or_false] at hf
    rcases hf with rfl | rfl | rfl | rfl <;> simp only [List.mem_cons, List.not_mem_nil, or_false] at hr
    · subst hr; simp [InScan]
    · subst hr; simp [InScan]
    · rcases hr with rfl | rfl <;> simp [InScan]
    · subst hr; simp [InScan]
  · intro f hf r hr
    simp only [brightFiles, List.mem_cons, List.not_mem_nil, or_false] at hf
    rcases hf with rfl | rfl | rfl | rfl <;> simp only [List.mem_cons, List.not_mem_nil, or_false] at hr
    · subst hr; exact hlen _
    · subst hr; exact hlen _
    · rcases hr with rfl | rfl <;> exact hlen _
    · subst hr; exact hlen _
  · have key : ∀ {i j p f sec : Nat} {r : Rec (List Nat)}, IsRecord brightFiles i j r p f sec →
        i = sec ∧ (f = 7 ∧ (sec = 2 → j = 1) ∧ (sec ≠ 2 → j = 0) ∨ f = 8 ∧ j = 0) := by
      intro i j p f sec r h
      obtain ⟨file, h1, h2, h3, h4, h5⟩ := h
      rcases i with _ | _ | _ | _ | i <;>
        simp only [brightFiles, List.getElem?_cons_zero, List.getElem?_cons_succ, List.getElem?_nil, Option.some.injEq,
          reduceCtorEq] at h1 <;>
        subst h1 <;> rcases j with _ | _ | j <;>
          simp only [List.getElem?_cons_zero, List.getElem?_cons_succ, List.getElem?_nil, Option.some.injEq, reduceCtorEq] at h2 <;>
          subst h2 <;> simp only at h4 h5 <;> omega
    intro i j r i' j' r' p f sec _ _ _ _ h h'
    have h1 := key h
    have h2 := key h'
    omega

/-- The hypotheses of the theorems can be met, for counting with three threads and the headers read by two. -/
example : ∃ s z data, Reach (HStep brightFiles (2 * 1) brightFiles.length) (hinit 2 0) s ∧ (∀ w ∈ s.workers, w = .exited) ∧
    Reach (CountingReader.Step (call brightSetup) brightFiles s.map (2 * 1)) (CountingReader.init (call brightSetup) 0 fun _ => 0) z ∧
    z.counting.main = .done data ∧ ∃ all S ev, Counted brightSetup brightFiles (fun _ => u16StreamValue none) all S ev ∧
      Results 2 1 (countedData brightSetup data) all ev ∧ all.length < 2 ^ 29 := by
  obtain ⟨s, z, data, h1, h2, h3, h4⟩ := C85_exists brightSetup brightFiles 2 1 rfl brightFiles_ok (by decide) (by decide) 2 (by decide)
    (fun _ => 0)
    (by
      intro x y n n' sec sec' r r' h h'
      have := brightFiles_record h
      have := brightFiles_record h'
      omega)
    (by decide)
    (by
      refine ⟨[(0, 0, 7)], by simp, by simp [brightSetup], ?_⟩
      intro k hk sec hsec
      rw [List.mem_singleton] at hk
      subst hk
      have c : sec = 0 ∨ sec = 1 ∨ sec = 2 ∨ sec = 3 := by omega
      rcases c with rfl | rfl | rfl | rfl
      · exact ⟨_, _, List.mem_cons_self .., List.mem_cons_self .., rfl, rfl, rfl, rfl⟩
      · exact ⟨_, _, List.mem_cons_of_mem _ (List.mem_cons_self ..), List.mem_cons_self .., rfl, rfl, rfl, rfl⟩
      · exact ⟨_, _, List.mem_cons_of_mem _ (List.mem_cons_of_mem _ (List.mem_cons_self ..)),
          List.mem_cons_of_mem _ (List.mem_cons_self ..), rfl, rfl, rfl, rfl⟩
      · exact ⟨_, _, List.mem_cons_of_mem _ (List.mem_cons_of_mem _ (List.mem_cons_of_mem _ (List.mem_cons_self ..))),
          List.mem_cons_self .., rfl, rfl, rfl, rfl⟩)
  obtain ⟨all, S, ev, c1, c2⟩ := C85_images brightSetup rfl rfl (by intro d h; cases h) (by intro S _; simp [brightSetup]) brightFiles 2 1 rfl
    brightFiles_ok (by decide) (by decide) (by decide) 2 (by decide) h1 h2 _ h3 h4
  refine ⟨s, z, data, h1, h2, h3, h4, all, S, ev, c1, c2, ?_⟩
  have hsub : (all.map fun f => (f.x, f.y, f.number)) ⊆ [(0, 0, 7), (1, 0, 8)] := by
    intro k hk
    obtain ⟨f, hf, rfl⟩ := List.mem_map.1 hk
    obtain ⟨sec, r, h⟩ := (c1.scan.iff f.x f.y f.number).1 ⟨f, hf, rfl, rfl, rfl⟩
    rcases brightFiles_record h with ⟨e1, e2, e3⟩ | ⟨e1, e2, e3⟩ <;> simp [e1, e2, e3]
  have := (c1.scan.once.subperm hsub).length_le
  simp only [List.length_map, List.length_cons, List.length_nil] at this
  omega

/-- Four sector files of one frame, in which all pixels are 1. -/
def flatFiles : List (File (List Nat)) := (List.range 4).map fun k => ⟨k, [⟨1, 7, 1, 1, 0, 0, List.replicate (144 * 576) 1⟩]⟩

def flatSetup : Setup := ⟨2, 1, (1, 1), none, some (List.replicate (576 * 576) 1), some Electron.meanStat, fun _ => (10, 1000, 3)⟩

private theorem flatFiles_record {x y n sec : Nat} {r : Rec (List Nat)} : HasRecord flatFiles x y n sec r ↔
    sec < 4 ∧ r = ⟨1, 7, 1, 1, 0, 0, List.replicate (144 * 576) 1⟩ ∧ x = 0 ∧ y = 0 ∧ n = 7 := by
  constructor
  · rintro ⟨file, hm, hr, h1, h2, h3, h4⟩
    obtain ⟨k, hk, rfl⟩ := List.mem_map.1 hm
    rw [List.mem_singleton] at hr
    subst hr
    exact ⟨h1 ▸ List.mem_range.1 hk, rfl, h2.symm, h3.symm, h4.symm⟩
  · rintro ⟨h1, rfl, rfl, rfl, rfl⟩
    exact ⟨_, List.mem_map.2 ⟨sec, List.mem_range.2 h1, rfl⟩, List.mem_singleton.2 rfl, rfl, rfl, rfl, rfl⟩

private theorem flatFiles_ok : FilesOk flatFiles 1 1 := by
  refine ⟨?_, ?_, ?_, ?_⟩
  · intro f hf
    obtain ⟨k, hk, rfl⟩ := List.mem_map.1 hf
    exact List.mem_range.1 hk
  · intro f hf r hr
    obtain ⟨k, hk, rfl⟩ := List.mem_map.1 hf
    rw [List.mem_singleton] at hr
    subst hr
    simp [InScan]
  · intro f hf r hr
    obtain ⟨k, hk, rfl⟩ := List.mem_map.1 hf
    rw [List.mem_singleton] at hr
    subst hr
    exact List.length_replicate
  · have key : ∀ {i j p f sec : Nat} {r : Rec (List Nat)}, IsRecord flatFiles i j r p f sec → i = sec ∧ j = 0 := by
      rintro i j p f sec r ⟨file, h1, h2, _, _, h5⟩
      unfold flatFiles at h1
      rw [List.getElem?_map] at h1
      obtain ⟨k, hk, rfl⟩ := Option.map_eq_some_iff.1 h1
      obtain ⟨hi, hk⟩ := List.getElem?_eq_some_iff.1 hk
      rw [List.getElem_range] at hk
      have := (List.getElem?_eq_some_iff.1 h2).1
      rw [List.length_singleton] at this
      exact ⟨hk.trans h5, by omega⟩
    intro i j r i' j' r' p f sec _ _ _ _ h h'
    have h1 := key h
    have h2 := key h'
    omega

private theorem flatFiles_mean {all : List ScanFrame} (hall : IsScan flatFiles all) {f : ScanFrame} (hf : f ∈ all) {x y : Nat}
    (hy : y < 576) :
    (halfRow 576 (pixels f.pixels) x y).sum / (halfRow 576 (pixels f.pixels) x y).length ≠ 0 := by
  obtain ⟨sec, r, h⟩ := (hall.iff f.x f.y f.number).1 ⟨f, hf, rfl, rfl, rfl⟩
  obtain ⟨_, _, e1, e2, e3⟩ := flatFiles_record.1 h
  have hone : ∀ c, c < 576 → (pixels f.pixels).getD (y * 576 + c) 0 = 1 := by
    intro c hc
    have hp := hall.pixel f hf c y hc hy _ (flatFiles_record.2 ⟨by omega, rfl, e1, e2, e3⟩)
    rw [List.getElem?_replicate, if_pos (by omega), Nat.mul_comm] at hp
    rw [List.getD_eq_getElem?_getD, pixels, List.getElem?_map, hp]
    simp
  have hrow : halfRow 576 (pixels f.pixels) x y = List.replicate (halfLen 576 x) 1 := by
    rw [List.eq_replicate_iff]
    refine ⟨by simp [halfRow], ?_⟩
    intro b hb
    obtain ⟨k, hk, rfl⟩ := List.mem_map.1 hb
    have hk := List.mem_range.1 hk
    rw [Nat.add_assoc]
    refine hone _ ?_
    unfold halfStart halfLen at *
    split <;> rename_i hh
    · rw [if_pos hh] at hk; omega
    · rw [if_neg hh] at hk; omega
  have hlen : ((halfLen 576 x : Nat) : Rat) ≠ 0 := by
    have : halfLen 576 x ≠ 0 := by unfold halfLen; split <;> omega
    exact_mod_cast this
  rw [hrow, List.sum_replicate, List.length_replicate]
  simpa using hlen

/-- The hypotheses of the theorem with row dark correction can be met. -/
example : ∃ s z data, Reach (HStep flatFiles (1 * 1) flatFiles.length) (hinit 2 0) s ∧ (∀ w ∈ s.workers, w = .exited) ∧
    Reach (CountingReader.Step (call flatSetup) flatFiles s.map (1 * 1)) (CountingReader.init (call flatSetup) 0 fun _ => 0) z ∧
    z.counting.main = .done data ∧ ∃ all S ev, Counted flatSetup flatFiles (fun optMean frame j => rowDarkFloat optMean none
      (List.replicate (576 * 576) 1) ((halfRow 576 (pixels frame) (j % 576) (j / 576)).sum /
        (halfRow 576 (pixels frame) (j % 576) (j / 576)).length) j (frame.getD j 0 : Nat)) all S ev ∧
      Results 1 1 (countedData flatSetup data) all ev := by
  obtain ⟨s, z, data, h1, h2, h3, h4⟩ := C85_exists flatSetup flatFiles 1 1 rfl flatFiles_ok (by decide) (by decide) 2 (by decide)
    (fun _ => 0)
    (by
      intro x y n n' sec sec' r r' h h'
      have := flatFiles_record.1 h
      have := flatFiles_record.1 h'
      omega)
    (by decide)
    (by
      refine ⟨[(0, 0, 7)], by simp, Nat.le_refl 1, ?_⟩
      intro k hk sec hsec
      rw [List.mem_singleton] at hk
      subst hk
      exact ⟨_, flatFiles_record.2 ⟨hsec, rfl, rfl, rfl, rfl⟩⟩)
  obtain ⟨all, S, ev, c⟩ := C85_images_rowdark flatSetup _ rfl List.length_replicate (stat := fun l => l.sum / l.length) rfl C14_mean
    (by intro d h; cases h) (by intro S _; show (0 : Rat) ≤ 10; decide) flatFiles (fun all hall f hf x y _ hy => flatFiles_mean hall hf hy)
    1 1 rfl flatFiles_ok (by decide) (by decide) (by decide) 2 (by decide) h1 h2 _ h3 h4
  exact ⟨s, z, data, h1, h2, h3, h4, all, S, ev, c⟩

end Stempy.Props
