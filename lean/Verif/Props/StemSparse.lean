import Verif.Props.StemDense

/-!
C03, C04, C05: STEM images from electron-counted data, additivity, argument validation.
-/

namespace Stempy.Props
open Stempy.Mask Stempy.Spec Stempy.Image

theorem countP_mask_sum {w h : Nat} {inner outer cx cy : Int} (l : List Nat) :
    (l.map (maskFn w h inner outer cx cy)).sum =
      65535 * annulusHits w inner outer (effCenter w cx) (effCenter h cy) l := by
  induction l with
  | nil => rfl
  | cons e l ih =>
    unfold annulusHits at *
    rw [List.map_cons, List.sum_cons, ih, List.countP_cons, maskFn]
    simp only [decide_eq_true_eq]
    split <;> omega

/-- STEM values of one position: a fold over its frames touches only pixel `i`. -/
theorem sparse_position {w h : Nat} {inner outer cx cy : Int} (i : Nat)
    (frames : List (List Nat)) (hev : ∀ fr ∈ frames, ∀ e ∈ fr, e < w * h) :
    ∀ (image : List Nat), i < image.length → (∀ v ∈ image, v < 2 ^ 64) →
    frames.foldlM (fun image frame => do
      let values ← frame.foldlM (fun acc pos => do
        let m ← readAt ((List.range (w * h)).map (maskFn w h inner outer cx cy)) pos
        pure ((acc + m) % 2 ^ 64)) 0
      let old ← readAt image i
      writeAt image i ((old + values) % 2 ^ 64)) image =
    .ok (image.set i ((image.getD i 0 + 65535 * annulusHits w inner outer (effCenter w cx)
      (effCenter h cy) frames.flatten) % 2 ^ 64)) := by
  induction frames with
  | nil =>
    intro image hi hb
    have hlt := hb _ (List.getElem_mem hi)
    simp [annulusHits, hi]
    rw [Nat.mod_eq_of_lt (by simpa using hlt)]; simp
  | cons fr frames ih =>
    intro image hi hb
    rw [List.foldlM_cons]
    have hinner : fr.foldlM (fun acc pos => do
        let m ← readAt ((List.range (w * h)).map (maskFn w h inner outer cx cy)) pos
        pure ((acc + m) % 2 ^ 64)) 0 = .ok ((65535 * annulusHits w inner outer (effCenter w cx)
      (effCenter h cy) fr) % 2 ^ 64) := by
      rw [foldlM_ok (g := fun acc pos => (acc + maskFn w h inner outer cx cy pos) % 2 ^ 64)
        (I := fun _ => True) (hs := trivial)]
      · rw [foldl_add_mod _ _ _ _ (by norm_num), Nat.zero_add, countP_mask_sum]
      · intro s _ e he
        have hlt := hev fr (by simp) e he
        refine ⟨?_, trivial⟩
        have : readAt ((List.range (w * h)).map (maskFn w h inner outer cx cy)) e =
            .ok (maskFn w h inner outer cx cy e) := by
          rw [readAt_eq_ok, List.getElem?_map, List.getElem?_range hlt]; rfl
        rw [this]; rfl
    rw [hinner, Outcome.ok_bind, readAt_lt hi, Outcome.ok_bind, writeAt_lt hi, Outcome.ok_bind,
      ih (fun fr h => hev fr (by simp [h])) _ (by simpa using hi)]
    · congr 1
      rw [List.set_set]
      congr 1
      simp only [List.getD_eq_getElem?_getD, List.getElem?_set_self hi, Option.getD_some,
        List.getElem?_eq_getElem hi]
      have : annulusHits w inner outer (effCenter w cx) (effCenter h cy) (fr :: frames).flatten =
          annulusHits w inner outer (effCenter w cx) (effCenter h cy) fr +
          annulusHits w inner outer (effCenter w cx) (effCenter h cy) frames.flatten := by
        simp [annulusHits, List.countP_append]
      rw [this]
      omega
    · intro v hv
      rcases List.mem_or_eq_of_mem_set hv with h | h
      · exact hb v h
      · subst h; exact Nat.mod_lt _ (by norm_num)

theorem sparse_all {w h : Nat} {inner outer cx cy : Int} (sparse : List (List (List Nat)))
    (hev : ∀ frames ∈ sparse, ∀ fr ∈ frames, ∀ e ∈ fr, e < w * h) :
    ∀ (s : Nat) (image : List Nat), s + sparse.length ≤ image.length →
      (∀ v ∈ image, v < 2 ^ 64) →
    ∃ final, (sparse.zipIdx s).foldlM (fun image pi =>
      pi.1.foldlM (fun image frame => do
        let values ← frame.foldlM (fun acc pos => do
          let m ← readAt ((List.range (w * h)).map (maskFn w h inner outer cx cy)) pos
          pure ((acc + m) % 2 ^ 64)) 0
        let old ← readAt image pi.2
        writeAt image pi.2 ((old + values) % 2 ^ 64)) image) image = .ok final ∧
      final.length = image.length ∧
      ∀ p, final[p]? = if s ≤ p then (match sparse[p - s]? with
          | some frames => (image[p]?).map fun v => (v + 65535 *
              annulusHits w inner outer (effCenter w cx) (effCenter h cy) frames.flatten) % 2 ^ 64
          | none => image[p]?) else image[p]? := by
  induction sparse with
  | nil => intro s image _ _; exact ⟨image, rfl, rfl, by simp⟩
  | cons frames sparse ih =>
    intro s image hlen hb
    simp only [List.length_cons] at hlen
    rw [List.zipIdx_cons, List.foldlM_cons,
      sparse_position s frames (hev frames (by simp)) image (by omega) hb, Outcome.ok_bind]
    obtain ⟨final, h1, h2, h3⟩ := ih (fun f hf => hev f (by simp [hf])) (s + 1)
      (image.set s ((image.getD s 0 + 65535 * annulusHits w inner outer (effCenter w cx)
        (effCenter h cy) frames.flatten) % 2 ^ 64))
      (by rw [List.length_set]; omega) (by
        intro v hv
        rcases List.mem_or_eq_of_mem_set hv with h | h
        · exact hb v h
        · subst h; exact Nat.mod_lt _ (by norm_num))
    refine ⟨final, h1, by simpa using h2, ?_⟩
    intro p
    rw [h3 p]
    have hs : s < image.length := by omega
    by_cases hps : p = s
    · subst hps
      rw [if_neg (by omega), if_pos (Nat.le_refl _), List.getElem?_set_self hs]
      simp [hs]
    · by_cases hle : s ≤ p
      · rw [if_pos (by omega), if_pos hle]
        have : p - s = (p - (s + 1)) + 1 := by omega
        rw [this, List.getElem?_cons_succ, List.getElem?_set_ne (by omega)]
      · rw [if_neg (by omega), if_neg hle, List.getElem?_set_ne (by omega)]

/-- The arguments of a well-formed sparse STEM computation. -/
structure SparseOK (w h W H : Nat) (sparse : List (List (List Nat))) (inner outer : List Int)
    (cx cy : Int) : Prop where
  radii : inner ≠ []
  same : inner.length = outer.length
  geo : ∀ r ∈ inner.zip outer, GeometryOK w h r.1 r.2 cx cy
  scan : W * H < 2 ^ 32
  positions : sparse.length = W * H
  events : ∀ frames ∈ sparse, ∀ fr ∈ frames, ∀ e ∈ fr, e < w * h

/-- **C03**. Pixel `p` of the image for radii `(a,b)` is 65535 times the number of events of all
frames of position `p` inside the annulus (in 64 bit arithmetic). -/
theorem C03_sparse {w h W H : Nat} {sparse : List (List (List Nat))} {inner outer : List Int}
    {cx cy : Int} (ok : SparseOK w h W H sparse inner outer cx cy) :
    ∃ images : List (List Nat),
      createSTEMImagesSparse sparse inner outer (W, H) (w, h) (cx, cy) = .ok images ∧
      images.length = inner.length ∧ (∀ img ∈ images, img.length = W * H) ∧
      ∀ (k : Nat) (a b : Int), (inner.zip outer)[k]? = some (a, b) →
        ∀ (p : Nat) (frames : List (List Nat)), sparse[p]? = some frames →
        pixelAt images k p = some
          ((65535 * annulusHits w a b (effCenter w cx) (effCenter h cy) frames.flatten) % 2 ^ 64) := by
  have hout : outer ≠ [] := by
    intro h; have := ok.same; rw [h] at this
    exact ok.radii (List.length_eq_zero_iff.1 (by simpa using this))
  have hz : ∀ v ∈ List.replicate (W * H) 0, v < 2 ^ 64 := by
    intro v hv; rw [List.eq_of_mem_replicate hv]; norm_num
  have key : ∀ a b, ∃ final, calculateSTEMValuesSparse sparse
      ((List.range (w * h)).map (maskFn w h a b cx cy)) (List.replicate (W * H) 0) = .ok final ∧
      final.length = W * H ∧ ∀ (p : Nat) (frames : List (List Nat)), sparse[p]? = some frames → final[p]? = some
        ((65535 * annulusHits w a b (effCenter w cx) (effCenter h cy) frames.flatten) % 2 ^ 64) := by
    intro a b
    obtain ⟨final, h1, h2, h3⟩ := sparse_all (inner := a) (outer := b) (cx := cx) (cy := cy)
      sparse ok.events 0 (List.replicate (W * H) 0) (by simp [ok.positions]) hz
    refine ⟨final, h1, by simpa using h2, ?_⟩
    intro p frames hp
    have hlt : p < W * H := by
      have := (List.getElem?_eq_some_iff.1 hp).1; rw [ok.positions] at this; exact this
    rw [h3 p]
    simp [hp, hlt]
  choose final hf using key
  refine ⟨(inner.zip outer).map fun r => final r.1 r.2, ?_, by simp [ok.same], ?_, ?_⟩
  · unfold createSTEMImagesSparse
    simp only [ok.same, ne_eq, not_true_eq_false, if_false]
    rw [if_neg (by simp [ok.radii, hout]), makeMasks_eq ok.geo, Outcome.ok_bind,
      Nat.mod_eq_of_lt ok.scan]
    apply mapM_map_ok
    intro r _
    exact (hf r.1 r.2).1
  · intro img himg
    obtain ⟨r, _, rfl⟩ := List.mem_map.1 himg
    exact (hf r.1 r.2).2.1
  · intro k a b hk p frames hp
    unfold pixelAt
    rw [List.getElem?_map, hk]
    exact (hf a b).2.2 p frames hp

/-- **C03** corollary: as long as the number of events stays below `2^48` the value is exact. -/
theorem C03_sparse_exact {w h W H : Nat} {sparse : List (List (List Nat))} {inner outer : List Int}
    {cx cy : Int} (ok : SparseOK w h W H sparse inner outer cx cy) {images : List (List Nat)}
    (hr : createSTEMImagesSparse sparse inner outer (W, H) (w, h) (cx, cy) = .ok images)
    {k : Nat} {a b : Int} (hk : (inner.zip outer)[k]? = some (a, b)) {p : Nat}
    {frames : List (List Nat)} (hp : sparse[p]? = some frames)
    (hsmall : frames.flatten.length < 2 ^ 48) :
    pixelAt images k p = some
      (65535 * annulusHits w a b (effCenter w cx) (effCenter h cy) frames.flatten) := by
  obtain ⟨images', h1, _, _, h4⟩ := C03_sparse ok
  rw [h1] at hr
  cases hr
  rw [h4 k a b hk p frames hp, Nat.mod_eq_of_lt]
  have : annulusHits w a b (effCenter w cx) (effCenter h cy) frames.flatten ≤
      frames.flatten.length := List.countP_le_length
  omega

/-- An event outside of the detector is undefined behaviour (read past the mask). -/
theorem C03_out_of_range : createSTEMImagesSparse [[[6]]] [0] [1] (1, 1) (3, 2) (0, 0) = .ub := by
  decide

example : SparseOK 3 2 2 1 [[[0, 4], [4, 4]], [[]]] [0, 1] [1, 3] (-1) 0 := by
  constructor
  · simp
  · rfl
  · intro r hr
    have : r = (0, 1) ∨ r = (1, 3) := by simpa using hr
    rcases this with rfl | rfl <;> constructor <;> norm_num
  · norm_num
  · rfl
  · decide

/-! ### C04 -/

theorem annulus_split {a b c cx cy : Int} (ha : 0 ≤ a) (hab : a ≤ b) (hbc : b ≤ c) (x y : Nat) :
    (inAnnulus a c cx cy x y ↔ inAnnulus a b cx cy x y ∨ inAnnulus b c cx cy x y) ∧
    ¬ (inAnnulus a b cx cy x y ∧ inAnnulus b c cx cy x y) := by
  have h1 : a ^ 2 ≤ b ^ 2 := by nlinarith
  have h2 : b ^ 2 ≤ c ^ 2 := by nlinarith
  unfold inAnnulus
  constructor
  · constructor
    · rintro ⟨h3, h4⟩
      rcases lt_or_ge (dist2 cx cy x y) (b ^ 2) with h | h
      · exact Or.inl ⟨h3, h⟩
      · exact Or.inr ⟨h, h4⟩
    · rintro (⟨h3, h4⟩ | ⟨h3, h4⟩) <;> constructor <;> omega
  · rintro ⟨⟨_, h3⟩, ⟨h4, _⟩⟩; omega

/-- **C04** (masks): adjacent annuli partition the big one, as masks. -/
theorem C04_masks {w h : Nat} {a b c cx cy : Int} (ha : 0 ≤ a) (hab : a ≤ b) (hbc : b ≤ c)
    (g1 : GeometryOK w h a b cx cy) (g2 : GeometryOK w h b c cx cy) {m1 m2 m : List Nat}
    (h1 : createAnnularMask w h a b cx cy = .ok m1)
    (h2 : createAnnularMask w h b c cx cy = .ok m2)
    (h3 : createAnnularMask w h a c cx cy = .ok m) :
    m = List.zipWith (· + ·) m1 m2 ∧ ∀ i : Nat, m1[i]? = some 0 ∨ m2[i]? = some 0 ∨ w * h ≤ i := by
  have g3 : GeometryOK w h a c cx cy := { g1 with outer_lt := g2.outer_lt }
  rw [createAnnularMask_eq g1] at h1
  rw [createAnnularMask_eq g2] at h2
  rw [createAnnularMask_eq g3] at h3
  cases h1; cases h2; cases h3
  constructor
  · rw [List.zipWith_map, List.zipWith_self]
    apply List.map_congr_left
    intro i _
    have := annulus_split (cx := effCenter w cx) (cy := effCenter h cy) ha hab hbc (i % w) (i / w)
    by_cases p : inAnnulus a b (effCenter w cx) (effCenter h cy) (i % w) (i / w) <;>
    by_cases q : inAnnulus b c (effCenter w cx) (effCenter h cy) (i % w) (i / w) <;>
    simp_all
  · intro i
    by_cases hi : i < w * h
    · have := annulus_split (cx := effCenter w cx) (cy := effCenter h cy) ha hab hbc (i % w) (i / w)
      rw [List.getElem?_map, List.getElem?_map, List.getElem?_range hi]
      by_cases p : inAnnulus a b (effCenter w cx) (effCenter h cy) (i % w) (i / w) <;>
      by_cases q : inAnnulus b c (effCenter w cx) (effCenter h cy) (i % w) (i / w) <;>
      simp_all
    · right; right; omega

theorem annulusSum_add {w h : Nat} {a b c cx cy : Int} (ha : 0 ≤ a) (hab : a ≤ b) (hbc : b ≤ c)
    (px : List Nat) : annulusSum w h a c cx cy px =
      annulusSum w h a b cx cy px + annulusSum w h b c cx cy px := by
  unfold annulusSum
  rw [← sum_map_add']
  congr 1
  apply List.map_congr_left
  intro y _
  rw [← sum_map_add']
  congr 1
  apply List.map_congr_left
  intro x _
  have := annulus_split (cx := cx) (cy := cy) ha hab hbc x y
  by_cases p : inAnnulus a b cx cy x y <;> by_cases q : inAnnulus b c cx cy x y <;> simp_all

theorem annulusHits_add {w : Nat} {a b c cx cy : Int} (ha : 0 ≤ a) (hab : a ≤ b) (hbc : b ≤ c)
    (l : List Nat) : annulusHits w a c cx cy l =
      annulusHits w a b cx cy l + annulusHits w b c cx cy l := by
  unfold annulusHits
  induction l with
  | nil => rfl
  | cons e l ih =>
    simp only [List.countP_cons, ih, decide_eq_true_eq]
    have := annulus_split (cx := cx) (cy := cy) ha hab hbc (e % w) (e / w)
    by_cases p : inAnnulus a b cx cy (e % w) (e / w) <;>
    by_cases q : inAnnulus b c cx cy (e % w) (e / w) <;> simp_all <;> omega

/-- **C04** (dense images): for radius pairs `(a,b)`, `(b,c)`, `(a,c)` in one request, in every run
the third image is the sum of the first two at every position supplied at most once. -/
theorem C04_dense {w h W H : Nat} {bs : List (List Frame)} {a b c cx cy : Int}
    (ha : 0 ≤ a) (hab : a ≤ b) (hbc : b ≤ c)
    (ok : DenseOK w h W H bs [a, b, a] [b, c, c] cx cy) (hs : Nat × Nat)
    {r : Outcome (List (List Nat))}
    (hr : DenseRun (bs.map (mkBlock hs (w, h))) [a, b, a] [b, c, c] (W, H) (cx, cy) r)
    {p : Nat} (hp : p < W * H) (honce : (bs.flatten.filter (fun f => f.1 = p)).length ≤ 1) :
    ∃ images u v, r = .ok images ∧ pixelAt images 0 p = some u ∧ pixelAt images 1 p = some v ∧
      pixelAt images 2 p = some (u + v) := by
  obtain ⟨images, h1, _, _, h4⟩ := C02_dense ok hs hr
  have e0 := h4 0 a b rfl p hp
  have e1 := h4 1 b c rfl p hp
  have e2 := h4 2 a c rfl p hp
  rcases hl : bs.flatten.filter (fun f => decide (f.1 = p)) with _ | ⟨⟨q, px⟩, _ | ⟨y, l⟩⟩
  · have hno : ∀ f ∈ bs.flatten, f.1 ≠ p := by
      have := List.filter_eq_nil_iff.1 hl
      intro f hf; simpa using this f hf
    exact ⟨images, 0, 0, h1, e0.2 hno, e1.2 hno, e2.2 hno⟩
  · have hq : q = p := by
      have : (q, px) ∈ bs.flatten.filter (fun f => decide (f.1 = p)) := by rw [hl]; simp
      simpa using (List.mem_filter.1 this).2
    subst hq
    refine ⟨images, _, _, h1, e0.1 px hl, e1.1 px hl, ?_⟩
    rw [e2.1 px hl, annulusSum_add ha hab hbc]
  · rw [hl] at honce; simp at honce

/-- **C04** (sparse images), in 64 bit arithmetic. -/
theorem C04_sparse {w h W H : Nat} {sparse : List (List (List Nat))} {a b c cx cy : Int}
    (ha : 0 ≤ a) (hab : a ≤ b) (hbc : b ≤ c)
    (ok : SparseOK w h W H sparse [a, b, a] [b, c, c] cx cy) {p : Nat} (hp : p < W * H) :
    ∃ images u v,
      createSTEMImagesSparse sparse [a, b, a] [b, c, c] (W, H) (w, h) (cx, cy) = .ok images ∧
      pixelAt images 0 p = some u ∧ pixelAt images 1 p = some v ∧
      pixelAt images 2 p = some ((u + v) % 2 ^ 64) := by
  obtain ⟨images, h1, _, _, h4⟩ := C03_sparse ok
  have hp' : p < sparse.length := by rw [ok.positions]; exact hp
  have hsp : sparse[p]? = some sparse[p] := List.getElem?_eq_getElem hp'
  refine ⟨images, _, _, h1, h4 0 a b rfl p _ hsp, h4 1 b c rfl p _ hsp, ?_⟩
  rw [h4 2 a c rfl p _ hsp, annulusHits_add ha hab hbc, Nat.mul_add, Nat.add_mod]

/-! ### C05 -/

/-- A scan size is known when neither dimension is 0. -/
def sizeKnown (s : Nat × Nat) : Prop := s.1 ≠ 0 ∧ s.2 ≠ 0

instance (s : Nat × Nat) : Decidable (sizeKnown s) := by unfold sizeKnown; infer_instance

/-- What the dense call reports, stated as a priority list over the raw arguments; `scan` is the size
given by the user, `hdr` the one in the header of the first block. -/
def denseError (noBlocks : Bool) (inner outer : List Int) (scan hdr : Nat × Nat) : Option String :=
  if noBlocks then some "No blocks to read!"
  else if inner = [] ∨ outer = [] then some "innerRadii or outerRadii are empty!"
  else if inner.length ≠ outer.length then some "innerRadii and outerRadii are not the same size!"
  else if ¬ sizeKnown scan ∧ ¬ sizeKnown hdr then some "No scan image size provided."
  else none

theorem validateDense_cases (blocks : List Block) (inner outer : List Int) (scan : Nat × Nat) :
    match denseError blocks.isEmpty inner outer scan
      ((blocks.head?.map (·.scanDims)).getD (0, 0)) with
    | some msg => validateDense blocks inner outer scan = .throw msg
    | none => ∃ first rest, blocks = first :: rest ∧ validateDense blocks inner outer scan =
        .ok (first, if sizeKnown scan then scan else first.scanDims) := by
  cases blocks with
  | nil => simp [denseError, validateDense]
  | cons b bs =>
    show match denseError false inner outer scan b.scanDims with
      | some msg => validateDense (b :: bs) inner outer scan = .throw msg
      | none => ∃ first rest, b :: bs = first :: rest ∧
          validateDense (b :: bs) inner outer scan =
          .ok (first, if sizeKnown scan then scan else first.scanDims)
    unfold denseError validateDense
    simp only [Bool.false_eq_true, if_false, Bool.or_eq_true, List.isEmpty_iff]
    by_cases h1 : inner = [] ∨ outer = []
    · rw [if_pos h1, if_pos h1]
    · rw [if_neg h1, if_neg h1]
      by_cases h2 : inner.length ≠ outer.length
      · rw [if_pos h2, if_pos h2]
      · rw [if_neg h2, if_neg h2]
        by_cases h3 : scan.1 = 0 ∨ scan.2 = 0
        · have k3 : ¬ sizeKnown scan := by unfold sizeKnown; omega
          rw [if_pos h3]
          by_cases h4 : b.scanDims.1 = 0 ∨ b.scanDims.2 = 0
          · have k4 : ¬ sizeKnown b.scanDims := by unfold sizeKnown; omega
            rw [if_pos ⟨k3, k4⟩, if_pos h4]
          · have k4 : sizeKnown b.scanDims := by unfold sizeKnown; omega
            rw [if_neg (fun h => h.2 k4), if_neg h4]
            exact ⟨b, bs, rfl, by rw [if_neg k3]⟩
        · have k3 : sizeKnown scan := by unfold sizeKnown; omega
          rw [if_neg h3, if_neg (fun h => h.1 k3), if_neg h3]
          exact ⟨b, bs, rfl, by rw [if_pos k3]⟩

/-- **C05** (dense): the call fails with the first applicable error of the priority list, in every
run, whatever else is wrong with the data; nothing is read from the blocks. -/
theorem C05_dense_error {blocks : List Block} {inner outer : List Int} {scan : Nat × Nat}
    {center : Int × Int} {msg : String}
    (he : denseError blocks.isEmpty inner outer scan
      ((blocks.head?.map (·.scanDims)).getD (0, 0)) = some msg)
    (r : Outcome (List (List Nat))) :
    DenseRun blocks inner outer scan center r ↔ r = .throw msg := by
  have hv := validateDense_cases blocks inner outer scan
  rw [he] at hv
  unfold DenseRun
  rw [hv]

/-- **C05** (dense, converse): when no error applies, no run reports an exception. -/
theorem C05_dense_no_error {blocks : List Block} {inner outer : List Int} {scan : Nat × Nat}
    {center : Int × Int}
    (he : denseError blocks.isEmpty inner outer scan
      ((blocks.head?.map (·.scanDims)).getD (0, 0)) = none)
    {r : Outcome (List (List Nat))} (hr : DenseRun blocks inner outer scan center r) :
    ∀ msg, r ≠ .throw msg := by
  have hv := validateDense_cases blocks inner outer scan
  rw [he] at hv
  obtain ⟨first, rest, _, hp⟩ := hv
  unfold DenseRun at hr
  rw [hp] at hr
  simp only at hr
  intro msg hmsg
  subst hmsg
  have hcenter : ∀ d c, NoThrow (defaultCenter d c) := by
    intro d c; unfold defaultCenter roundHalf; split
    · exact .int32 _
    · exact .ok _
  have nt_mask : NoThrow (makeMasks first.frameDims inner outer center) := by
    unfold makeMasks
    refine .mapM _ _ fun a => ?_
    unfold createAnnularMask
    refine .bind (hcenter _ _) fun _ => .bind (hcenter _ _) fun _ => .bind (.int32 _) fun _ =>
      .bind (.int32 _) fun _ => .mapM _ _ fun i => ?_
    unfold maskValue
    exact .bind (.int32 _) fun _ => .bind (.int32 _) fun _ => .pure _
  split at hr
  · rename_i m hm; exact nt_mask m hm
  · cases hr
  · rename_i masks _
    split at hr
    · rename_i m hm
      revert m
      suffices h : NoThrow (denseTasks blocks masks
          ((first.frameDims.1 * first.frameDims.2) % 2 ^ 32)) from fun m hm _ => h m hm
      unfold denseTasks
      refine .bind (.mapM _ _ fun b => .mapM _ _ fun mk => ?_) fun _ => .pure _
      unfold taskWrites
      refine .mapM _ _ fun i => .bind ?_ fun _ => .bind (.readAt _ _) fun _ => .pure _
      unfold calculateSTEMValues
      exact .foldlM _ _ (fun s i => .bind (.readAt _ _) fun _ => .bind (.readAt _ _) fun _ =>
        .pure _) _
    · cases hr
    · obtain ⟨tr, _, htr⟩ := hr
      refine NoThrow.foldlM tr applyWrite (fun s a => ?_) _ msg htr.symm
      unfold applyWrite
      exact .bind (.readAt _ _) fun _ => .bind (.writeAt _ _ _) fun _ => .pure _

/-- **C05** (dense): the size in effect is the user's when known, else the header's: a run with no
scan size given is the run with the header's size given. -/
theorem C05_dense_size {b : Block} {bs : List Block} {inner outer : List Int} {scan : Nat × Nat}
    {center : Int × Int} (h : ¬ sizeKnown scan) (r : Outcome (List (List Nat))) :
    DenseRun (b :: bs) inner outer scan center r ↔
      DenseRun (b :: bs) inner outer b.scanDims center r := by
  have hs : scan.1 = 0 ∨ scan.2 = 0 := by unfold sizeKnown at h; omega
  have : validateDense (b :: bs) inner outer scan =
      validateDense (b :: bs) inner outer b.scanDims := by
    unfold validateDense
    simp only [if_pos hs, ite_self]
  unfold DenseRun
  rw [this]

private theorem foldlM_inv {α σ : Type} (f : σ → α → Outcome σ) (I : σ → Prop)
    (h : ∀ s a t, I s → f s a = .ok t → I t) (l : List α) (s t : σ) (hs : I s) (hr : l.foldlM f s = .ok t) : I t := by
  induction l generalizing s with
  | nil => rw [List.foldlM_nil] at hr; cases hr; exact hs
  | cons a l ih =>
    rw [List.foldlM_cons] at hr
    cases hf : f s a with
    | ok u => rw [hf, Outcome.ok_bind] at hr; exact ih u (h s a u hs hf) hr
    | throw m => rw [hf] at hr; cases hr
    | ub => rw [hf] at hr; cases hr

private theorem mapM_forall₂ {α β : Type} {f : α → Outcome β} {l : List α} {r : List β} (h : l.mapM f = .ok r) :
    List.Forall₂ (fun a b => f a = .ok b) l r := by
  induction l generalizing r with
  | nil => cases h; exact .nil
  | cons a l ih =>
    rw [List.mapM_cons] at h
    cases hf : f a with
    | ok b =>
      rw [hf, Outcome.ok_bind] at h
      cases hm : l.mapM f with
      | ok bs => rw [hm] at h; cases h; exact .cons hf (ih hm)
      | throw m => rw [hm] at h; cases h
      | ub => rw [hm] at h; cases h
    | throw m => rw [hf] at h; cases h
    | ub => rw [hf] at h; cases h

private theorem writeAt_length {l r : List Nat} {i a : Nat} (h : writeAt l i a = .ok r) : r.length = l.length := by
  unfold writeAt at h
  split at h
  · cases h; simp
  · cases h

/-- **C05** (dense): without an error, every image list produced by a run has one image for each radius pair, of the size of the
scan in effect. (Which pair belongs to which image: `C02_dense`.) -/
theorem C05_dense_images {b : Block} {bs : List Block} {inner outer : List Int} {scan : Nat × Nat}
    {center : Int × Int} {images : List (List Nat)} (hr : DenseRun (b :: bs) inner outer scan center (.ok images))
    {W H : Nat} (hs : (W, H) = if sizeKnown scan then scan else b.scanDims) (hsz : W * H < 2 ^ 32) :
    images.length = inner.length ∧ images.length = outer.length ∧ ∀ img ∈ images, img.length = W * H := by
  have hv := validateDense_cases (b :: bs) inner outer scan
  cases he : denseError (b :: bs).isEmpty inner outer scan (((b :: bs).head?.map (·.scanDims)).getD (0, 0)) with
  | some msg =>
    rw [he] at hv
    unfold DenseRun at hr
    rw [hv] at hr
    cases hr
  | none =>
    rw [he] at hv
    obtain ⟨first, rest, hb, hp⟩ := hv
    cases hb
    rw [← hs] at hp
    have hlen : inner.length = outer.length := by
      unfold denseError at he
      simp only [List.isEmpty_cons, Bool.false_eq_true, if_false] at he
      by_contra hne
      rw [if_pos hne] at he
      split at he <;> cases he
    unfold DenseRun at hr
    rw [hp] at hr
    simp only at hr
    have key : Shape inner.length (W * H) images := by
      split at hr
      · cases hr
      · cases hr
      · split at hr
        · cases hr
        · cases hr
        · obtain ⟨tr, _, htr⟩ := hr
          refine foldlM_inv applyWrite (Shape inner.length (W * H)) ?_ tr _ _ (zeroImages_shape _ (W, H) hsz) htr.symm
          intro s op t hsh h
          unfold applyWrite at h
          cases h1 : readAt s op.1 with
          | throw m => rw [h1] at h; cases h
          | ub => rw [h1] at h; cases h
          | ok img =>
            rw [h1, Outcome.ok_bind] at h
            cases h2 : writeAt img op.2.1 op.2.2 with
            | throw m => rw [h2] at h; cases h
            | ub => rw [h2] at h; cases h
            | ok img' =>
              rw [h2, Outcome.ok_bind] at h
              cases h
              refine ⟨by rw [List.length_set]; exact hsh.1, ?_⟩
              intro x hx
              rcases List.mem_or_eq_of_mem_set hx with hx | rfl
              · exact hsh.2 x hx
              · rw [writeAt_length h2]
                unfold readAt at h1
                split at h1
                · rename_i a ha
                  cases h1
                  exact hsh.2 _ (List.mem_of_getElem? ha)
                · cases h1
    exact ⟨key.1, key.1.trans hlen, key.2⟩

/-- **C05** (sparse, converse): if the radii are not empty and of the same number there is no exception, and the result has
one image for each radius pair, of the size of the scan; image `k` is that of the call with the pair `k` alone. -/
theorem C05_sparse_images {sparse : List (List (List Nat))} {inner outer : List Int} {scan frame : Nat × Nat}
    {center : Int × Int} (h0 : inner ≠ []) (hlen : inner.length = outer.length) :
    (∀ msg, createSTEMImagesSparse sparse inner outer scan frame center ≠ .throw msg) ∧
    ∀ images, createSTEMImagesSparse sparse inner outer scan frame center = .ok images →
      images.length = inner.length ∧ images.length = outer.length ∧
      (scan.1 * scan.2 < 2 ^ 32 → ∀ img ∈ images, img.length = scan.1 * scan.2) ∧
      ∀ (k : Nat) (a b : Int) (img : List Nat), inner[k]? = some a → outer[k]? = some b → images[k]? = some img →
        createSTEMImagesSparse sparse [a] [b] scan frame center = .ok [img] := by
  have ho : outer ≠ [] := by
    intro h; rw [h] at hlen; exact h0 (List.length_eq_zero_iff.1 hlen)
  have hun : ∀ (inner outer : List Int), inner ≠ [] → outer ≠ [] → inner.length = outer.length →
      createSTEMImagesSparse sparse inner outer scan frame center = (do
        let masks ← makeMasks frame inner outer center
        masks.mapM fun m => calculateSTEMValuesSparse sparse m (List.replicate ((scan.1 * scan.2) % 2 ^ 32) 0)) := by
    intro inner outer h1 h2 h3
    unfold createSTEMImagesSparse
    rw [if_neg (by simp [h1, h2]), if_neg (by simpa using h3)]
  have hcenter : ∀ d c, NoThrow (defaultCenter d c) := by
    intro d c; unfold defaultCenter roundHalf; split
    · exact .int32 _
    · exact .ok _
  have nt_mask : NoThrow (makeMasks frame inner outer center) := by
    unfold makeMasks
    refine .mapM _ _ fun a => ?_
    unfold createAnnularMask
    refine .bind (hcenter _ _) fun _ => .bind (hcenter _ _) fun _ => .bind (.int32 _) fun _ =>
      .bind (.int32 _) fun _ => .mapM _ _ fun i => ?_
    unfold maskValue
    exact .bind (.int32 _) fun _ => .bind (.int32 _) fun _ => .pure _
  rw [hun inner outer h0 ho hlen]
  constructor
  · refine NoThrow.bind nt_mask fun masks => .mapM _ _ fun m => ?_
    unfold calculateSTEMValuesSparse
    refine .foldlM _ _ (fun s a => .foldlM _ _ (fun s b => .bind (.foldlM _ _ (fun s c => .bind (.readAt _ _) fun _ => .pure _) _)
      fun _ => .bind (.readAt _ _) fun _ => .writeAt _ _ _) _) _
  · intro images h
    cases hm : makeMasks frame inner outer center with
    | throw m => rw [hm] at h; cases h
    | ub => rw [hm] at h; cases h
    | ok masks =>
      rw [hm, Outcome.ok_bind] at h
      have f1 := mapM_forall₂ h
      have f2 := mapM_forall₂ hm
      have l1 : masks.length = inner.length := by
        rw [← f2.length_eq, List.length_zip, ← hlen, Nat.min_self]
      have l2 : images.length = inner.length := by rw [← f1.length_eq, l1]
      refine ⟨l2, l2.trans hlen, ?_, ?_⟩
      · intro hsz img himg
        obtain ⟨k, hk, rfl⟩ := List.mem_iff_getElem.1 himg
        have hmi := (List.forall₂_iff_get.1 f1).2 k (by omega) hk
        simp only [List.get_eq_getElem] at hmi
        generalize masks[k]'(by omega) = m at hmi
        unfold calculateSTEMValuesSparse at hmi
        refine foldlM_inv _ (fun l : List Nat => l.length = scan.1 * scan.2) ?_ _ _ _
          (by simp only [List.length_replicate]; exact Nat.mod_eq_of_lt hsz) hmi
        intro s a t hs ht
        refine foldlM_inv _ (fun l : List Nat => l.length = scan.1 * scan.2) ?_ _ _ _ hs ht
        intro s' fr t' hs' ht'
        cases h1 : List.foldlM (fun acc pos => (do
            let m ← readAt m pos
            pure ((acc + m) % 2 ^ 64) : Outcome Nat)) 0 fr with
        | throw m => rw [h1] at ht'; cases ht'
        | ub => rw [h1] at ht'; cases ht'
        | ok v =>
          rw [h1, Outcome.ok_bind] at ht'
          cases h2 : readAt s' a.2 with
          | throw m => rw [h2] at ht'; cases ht'
          | ub => rw [h2] at ht'; cases ht'
          | ok old =>
            rw [h2, Outcome.ok_bind] at ht'
            rw [writeAt_length ht', hs']
      · intro k a b img ha hb hi
        have hk : k < images.length := (List.getElem?_eq_some_iff.1 hi).1
        have e1 : (inner.zip outer)[k]? = some (a, b) := by
          rw [List.getElem?_zip_eq_some]; exact ⟨ha, hb⟩
        obtain ⟨hk1, e1'⟩ := List.getElem?_eq_some_iff.1 e1
        have g1 := (List.forall₂_iff_get.1 f1).2 k (by omega) hk
        have g2 := (List.forall₂_iff_get.1 f2).2 k hk1 (by omega)
        simp only [List.get_eq_getElem] at g1 g2
        rw [e1'] at g2
        obtain ⟨_, hi'⟩ := List.getElem?_eq_some_iff.1 hi
        rw [hun [a] [b] (by simp) (by simp) rfl]
        unfold makeMasks
        simp only [List.zip_cons_cons, List.zip_nil_right, List.mapM_cons, List.mapM_nil, g2, Outcome.ok_bind, Outcome.pure_eq, g1, hi']

/-- **C05** (sparse): error decision of the sparse call. -/
theorem C05_sparse_error {sparse : List (List (List Nat))} {inner outer : List Int}
    {scan frame : Nat × Nat} {center : Int × Int} :
    (inner = [] ∨ outer = [] → createSTEMImagesSparse sparse inner outer scan frame center =
      .throw "innerRadii or outerRadii are empty!") ∧
    (inner ≠ [] → outer ≠ [] → inner.length ≠ outer.length →
      createSTEMImagesSparse sparse inner outer scan frame center =
      .throw "innerRadii and outerRadii are not the same size!") := by
  constructor
  · intro h
    unfold createSTEMImagesSparse
    rw [if_pos (by simpa using h)]
  · intro h1 h2 h3
    unfold createSTEMImagesSparse
    rw [if_neg (by simp [h1, h2]), if_pos h3]

example : denseError false [1, 2] [3] (0, 4) (0, 0) =
    some "innerRadii and outerRadii are not the same size!" := by decide
example : denseError false [1] [3] (0, 4) (5, 5) = none := by decide
example : denseError false [1] [3] (0, 4) (5, 0) = some "No scan image size provided." := by decide

end Stempy.Props
