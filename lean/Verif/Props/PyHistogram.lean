import Verif.Model.PyHistogram
import Verif.Props.PyStem
import Verif.Props.RoundedHistogram

/-!
# C98: `create_stem_histogram` counts the scan positions

The result for a reader is stated with the sums of the frames over the annuli, without the images in between.
-/

namespace Stempy.Props
open Stempy.FloatPixels (Fl)
open Stempy.SafeCast (Format float64)
open Stempy.IeeeRound
open Stempy.Image Stempy.Spec
open Stempy.PyStem (Radii Input StemRun IsImages DataOK Presents Means C67_dense C67_run_exists)
open Stempy.PyHistogram

namespace PyHist
open RoundedHist

variable {rd : Rat → Fl}

/-- The value at scan position `p`: the sum over the annulus of the frame at `p`, 0 if there is none. -/
def valueAt (w h : Nat) (a b cx cy : Int) (fs : List Frame) (p : Nat) : Nat :=
  match fs.find? fun f => f.1 = p with
  | some f => annulusSum w h a b (effCenter w cx) (effCenter h cy) f.2
  | none => 0

/-- The values at all scan positions. -/
def valuesOf (w h W H : Nat) (a b cx cy : Int) (fs : List Frame) : List Nat :=
  (List.range (W * H)).map (valueAt w h a b cx cy fs)

theorem same_fin (a b : Rat) : same (.fin a) (.fin b) = decide (a = b) := by
  unfold same Fl.ge Fl.gt
  rcases lt_trichotomy a b with h | h | h
  · simp [h, ne_of_lt h]
  · simp [h]
  · simp [h, ne_of_gt h]

theorem edge_fin (h : Rounds float64 rd) {lo hi n : Nat} (hl : lo ≤ hi) (hh : hi < 2 ^ 64) (hn : 0 < n) (hn' : n < 2 ^ 31) {i : Nat}
    (hi' : i ≤ n) :
    PyHistogram.edge rd (rd lo) (rnd rd ((rnd rd ((rd hi).sub (rd lo))).div (.fin n))) i = .fin (RoundedHist.edge rd lo hi n i) := by
  have l64 : lo < 2 ^ 64 := lt_of_le_of_lt hl hh
  have e1 := (of_pow h (k := 64) (by omega) (Nat.cast_nonneg lo) (cast_le l64)).1
  have e2 := (of_pow h (k := 64) (by omega) (Nat.cast_nonneg hi) (cast_le hh)).1
  have e3 := (of_pow h (k := 64) (by omega) (diff h hl hh).1 (diff h hl hh).2).1
  have e4 := (of_pow h (k := 64) (by omega) (quot h hl hh hn).1 (quot h hl hh hn).2).1
  have hz : (n : Rat) ≠ 0 := by exact_mod_cast Nat.ne_of_gt hn
  have hin : i < 2 ^ 31 := by omega
  have e5 : rnd rd ((rnd rd ((rd hi).sub (rd lo))).div (.fin n)) = .fin (len rd lo hi n) := by
    rw [e1, e2]
    show rnd rd ((rnd rd (.fin (val (rd hi) + -val (rd lo)))).div (.fin n)) = _
    rw [← sub_eq_add_neg]
    show rnd rd ((rd (val (rd hi) - val (rd lo))).div (.fin n)) = _
    rw [e3]
    show rnd rd (if (n : Rat) = 0 then _ else _) = _
    rw [if_neg hz]
    exact e4
  have pb := prod_bound (len_bound h hl hh hn) hin
  have sb := sum_bound h hl hh hn hin
  have e6 := (of_pow h (k := 95) (by omega) pb.1 pb.2).1
  have e7 := (of_pow h (k := 96) (by omega) sb.1 sb.2).1
  rw [e5]
  unfold PyHistogram.edge
  show rnd rd ((rd lo).add (rd (i * len rd lo hi n))) = _
  rw [e6, e1]
  exact e7

theorem container_eq (h : Rounds float64 rd) {values : List Nat} {lo hi n : Nat} (r : Range values lo hi) (hh : hi < 2 ^ 64) (hn : 0 < n)
    (hn' : n < 2 ^ 31 - 1) :
    PyHistogram.getContainer rd values n = .ok ((List.range (n + 1)).map fun i => Fl.fin (RoundedHist.edge rd lo hi n i)) := by
  unfold PyHistogram.getContainer
  rw [minmax_eq r]
  simp only [Outcome.ok_bind]
  rw [if_neg (by omega), show ((n : Int) + 1).toNat = n + 1 by omega]
  congr 1
  apply List.map_congr_left
  intro i hi'
  have := List.mem_range.1 hi'
  exact_mod_cast edge_fin h r.le hh hn (by omega) (by omega)

theorem histValue_eq (n : Nat) (bins : List Rat) (freq : List Nat) (q : Rat) :
    PyHistogram.histValue n (bins.map Fl.fin) freq (.fin q) = Histogram.histValue n bins freq q := by
  have hr : ∀ j, readAt (bins.map Fl.fin) j = (readAt bins j).bind fun b => .ok (Fl.fin b) := by
    intro j
    unfold readAt
    rw [List.getElem?_map]
    cases bins[j]? <;> rfl
  have step : (fun (freq : List Nat) (j : Nat) => do
      let b ← readAt (bins.map Fl.fin) j
      if (Fl.fin q).ge b then do
        let b' ← readAt (bins.map Fl.fin) (j + 1)
        if b'.gt (.fin q) then Histogram.bump freq j else pure freq
      else pure freq) = (fun (freq : List Nat) (j : Nat) => do
      let b ← readAt bins j
      if b ≤ q then do
        let b' ← readAt bins (j + 1)
        if q < b' then Histogram.bump freq j else pure freq
      else pure freq) := by
    funext freq j
    rw [hr j, hr (j + 1)]
    cases readAt bins j with
    | throw m => rfl
    | ub => rfl
    | ok b =>
      show (if (Fl.fin q).ge (Fl.fin b) then _ else _) = if b ≤ q then _ else _
      by_cases hb : b ≤ q
      · rw [if_pos (by unfold Fl.ge Fl.gt; simpa using hb), if_pos hb]
        cases readAt bins (j + 1) with
        | throw m => rfl
        | ub => rfl
        | ok b' =>
          show (if (Fl.fin b').gt (Fl.fin q) then _ else _) = if q < b' then _ else _
          by_cases hb' : q < b'
          · rw [if_pos (by unfold Fl.gt; simpa using hb'), if_pos hb']
          · rw [if_neg (by unfold Fl.gt; simpa using hb'), if_neg hb']
      · rw [if_neg (by unfold Fl.ge Fl.gt; simpa using hb), if_neg hb]
  unfold PyHistogram.histValue Histogram.histValue
  rw [step]
  congr 1
  funext freq
  rw [hr n]
  cases readAt bins n with
  | throw m => rfl
  | ub => rfl
  | ok bn =>
    show (if same (.fin q) (.fin bn) = true then _ else _) = if q = bn then _ else _
    rw [same_fin]
    by_cases hq : q = bn
    · rw [if_pos (by simpa using hq), if_pos hq]
    · rw [if_neg (by simpa using hq), if_neg hq]

theorem histogram_eq (h : Rounds float64 rd) {values : List Nat} (hv : ∀ v ∈ values, v < 2 ^ 64) (n : Nat) (bins : List Rat) :
    PyHistogram.createSTEMHistogram rd values n (bins.map Fl.fin) =
      Histogram.createSTEMHistogram (values.map fun v : Nat => val (rd v)) n bins := by
  unfold PyHistogram.createSTEMHistogram Histogram.createSTEMHistogram
  rw [if_neg (by omega), Int.toNat_natCast]
  have : (values.map fun v : Nat => rd v) = (values.map fun v : Nat => val (rd v)).map Fl.fin := by
    rw [List.map_map]
    apply List.map_congr_left
    intro v hv'
    exact (of_pow h (k := 64) (by omega) (Nat.cast_nonneg v) (cast_le (hv v hv'))).1
  rw [this, List.foldlM_map]
  congr 1
  funext freq q
  exact histValue_eq n bins freq q

theorem sum_le (l : List Nat) {c : Nat} (h : ∀ x ∈ l, x ≤ c) : l.sum ≤ l.length * c := by
  induction l with
  | nil => simp
  | cons x l ih =>
    have h1 := h x (by simp)
    have h2 := ih fun y hy => h y (by simp [hy])
    rw [List.sum_cons, List.length_cons, Nat.succ_mul]
    omega

theorem annulusSum_le (w h : Nat) (a b cx cy : Int) {px : List Nat} (hp : ∀ v ∈ px, v < 65536) :
    annulusSum w h a b cx cy px ≤ w * h * 65535 := by
  have hg : ∀ i, px.getD i 0 ≤ 65535 := by
    intro i
    rw [List.getD_eq_getElem?_getD]
    cases hi : px[i]? with
    | none => simp
    | some v => exact Nat.le_of_lt_succ (hp v (List.mem_of_getElem? hi))
  unfold annulusSum
  refine le_trans (sum_le _ (c := w * 65535) ?_) ?_
  · intro x hx
    obtain ⟨y, _, rfl⟩ := List.mem_map.1 hx
    refine le_trans (sum_le _ (c := 65535) ?_) (by simp)
    intro x hx
    obtain ⟨z, _, rfl⟩ := List.mem_map.1 hx
    split
    · exact hg _
    · omega
  · rw [List.length_map, List.length_range, Nat.mul_comm w h, Nat.mul_assoc]

variable {w h W H n : Nat} {fs : List Frame} {inner outer : List Int} {cx cy : Int}

theorem valueAt_lt (ok : DataOK w h W H fs inner outer cx cy) {k : Nat} {a b : Int} (hk : (inner.zip outer)[k]? = some (a, b)) (p : Nat) :
    valueAt w h a b cx cy fs p < 2 ^ 48 := by
  have hs := (ok.geo _ (List.mem_of_getElem? hk)).size
  unfold valueAt
  cases hf : fs.find? fun f => f.1 = p with
  | none => simp
  | some f =>
    have := annulusSum_le w h a b (effCenter w cx) (effCenter h cy) (ok.frames.px f (List.mem_of_find?_eq_some hf))
    show annulusSum w h a b (effCenter w cx) (effCenter h cy) f.2 < _
    omega

/-- The images of the frames, position by position. -/
theorem images_eq (ok : DataOK w h W H fs inner outer cx cy) {images : List (List Nat)}
    (him : IsImages w h W H fs inner outer cx cy images) {k : Nat} {a b : Int} (hk : (inner.zip outer)[k]? = some (a, b)) :
    images[k]? = some (valuesOf w h W H a b cx cy fs) := by
  have hkn : k < images.length := by
    have := (List.getElem?_eq_some_iff.1 hk).1
    rw [him.number]
    simp at this
    omega
  rw [List.getElem?_eq_getElem hkn]
  congr 1
  have hsz := him.size _ (List.getElem_mem hkn)
  apply List.ext_getElem?
  intro p
  have hpx : pixelAt images k p = images[k][p]? := by
    unfold pixelAt
    rw [List.getElem?_eq_getElem hkn]
    rfl
  rw [← hpx]
  by_cases hp : p < W * H
  · unfold valuesOf
    rw [List.getElem?_map, List.getElem?_range hp]
    show _ = some (valueAt w h a b cx cy fs p)
    unfold valueAt
    cases hf : fs.find? fun f => f.1 = p with
    | none =>
      refine him.zero k a b hk p hp ?_
      intro f hf'
      have := List.find?_eq_none.1 hf f hf'
      simpa using this
    | some f =>
      have e : f.1 = p := by simpa using List.find?_some hf
      refine him.sum k a b hk p f.2 ?_
      rw [← e]
      exact List.mem_of_find?_eq_some hf
  · rw [hpx, List.getElem?_eq_none (by omega), List.getElem?_eq_none (by simp [valuesOf]; omega)]

theorem exists_range (l : List Nat) (hl : l ≠ []) : ∃ lo hi, Range l lo hi := by
  induction l with
  | nil => exact absurd rfl hl
  | cons x l ih =>
    by_cases hn : l = []
    · subst hn
      exact ⟨x, x, by simp, by simp, by simp, by simp⟩
    · obtain ⟨lo, hi, h1, h2, h3, h4⟩ := ih hn
      refine ⟨min x lo, max x hi, ?_, ?_, ?_, ?_⟩
      · rcases min_choice x lo with e | e <;> rw [e] <;> simp [h1]
      · rcases max_choice x hi with e | e <;> rw [e] <;> simp [h2]
      · intro v hv
        rcases List.mem_cons.1 hv with rfl | hv
        · exact min_le_left _ _
        · exact le_trans (min_le_right _ _) (h3 v hv)
      · intro v hv
        rcases List.mem_cons.1 hv with rfl | hv
        · exact le_max_left _ _
        · exact le_trans (h4 v hv) (le_max_right _ _)

theorem valuesOf_range (ok : DataOK w h W H fs inner outer cx cy) (a b : Int) : ∃ lo hi, Range (valuesOf w h W H a b cx cy fs) lo hi := by
  apply exists_range
  have := Nat.mul_pos ok.pos.1 ok.pos.2
  intro e
  have := congrArg List.length e
  simp only [valuesOf, List.length_map, List.length_range, List.length_nil] at this
  omega

theorem range_lt (ok : DataOK w h W H fs inner outer cx cy) {k : Nat} {a b : Int} (hk : (inner.zip outer)[k]? = some (a, b)) {lo hi : Nat}
    (r : Range (valuesOf w h W H a b cx cy fs) lo hi) : hi < 2 ^ 48 := by
  obtain ⟨p, _, rfl⟩ := List.mem_map.1 r.hi_mem
  exact valueAt_lt ok hk p

/-- The edges and numbers for one list of values. -/
theorem one (hr : Rounds float64 rd) {values : List Nat} {lo hi : Nat} (r : Range values lo hi) (hh : hi < 2 ^ 48) (hn : 0 < n)
    (hn' : n < 2 ^ 31 - 1) :
    PyHistogram.getContainer rd values n = .ok ((List.range (n + 1)).map fun i => Fl.fin (RoundedHist.edge rd lo hi n i)) ∧
    PyHistogram.createSTEMHistogram rd values n ((List.range (n + 1)).map fun i => Fl.fin (RoundedHist.edge rd lo hi n i)) =
      .ok ((List.range n).map fun j => values.countP fun v : Nat => inBin n (RoundedHist.edge rd lo hi n) j (v : Rat)) := by
  have h64 : hi < 2 ^ 64 := lt_trans hh (by norm_num)
  have hv : ∀ v ∈ values, v < 2 ^ 64 := fun v hv => lt_of_le_of_lt (r.le_hi v hv) h64
  refine ⟨container_eq hr r h64 hn hn', ?_⟩
  rw [show ((List.range (n + 1)).map fun i => Fl.fin (RoundedHist.edge rd lo hi n i)) =
    ((List.range (n + 1)).map (RoundedHist.edge rd lo hi n)).map Fl.fin by rw [List.map_map]; rfl, histogram_eq hr hv,
    C06_bins _ n hn _ fun i j hij hj => edge_mono hr r.le h64 hn hij (by omega)]
  congr 1
  apply List.map_congr_left
  intro j _
  rw [List.countP_map]
  apply List.countP_congr
  intro v hv
  have e : val (rd v) = v := val_fix hr (has_int (lt_of_le_of_lt (r.le_hi v hv) (lt_trans hh (by norm_num))))
  simp only [Function.comp_apply, e]

/-- Every run is the histogram of the images of the frames. -/
theorem run_images (ok : DataOK w h W H fs inner outer cx cy) {src : Source} {scan : Nat × Nat}
    (hin : Presents w h W H fs src.input scan) (h32 : fs.length + 32 ≤ 2 ^ 32) (m : Int) {res : Outcome (List (List Fl × List Nat))}
    (hr : HistogramRun rd m src (.many inner) (.many outer) scan (cx, cy) res) :
    ∃ images, IsImages w h W H fs inner outer cx cy images ∧ res = histograms rd m images := by
  have key : ∃ r, StemRun src.input (.many inner) (.many outer) scan (cx, cy) r ∧ res = r.bind (histograms rd m) := by
    cases src with
    | threaded => cases hin
    | blocks bs => exact hr
    | hdf5 f => exact hr
  obtain ⟨r, h1, h2⟩ := key
  obtain ⟨images, rfl, h3⟩ := C67_dense (Means.many inner) (Means.many outer) ok hin h32 h1
  exact ⟨images, h3, h2⟩

theorem images_list (ok : DataOK w h W H fs inner outer cx cy) {images : List (List Nat)}
    (him : IsImages w h W H fs inner outer cx cy images) :
    images = (inner.zip outer).map fun r => valuesOf w h W H r.1 r.2 cx cy fs := by
  apply List.ext_getElem?
  intro k
  cases hk : (inner.zip outer)[k]? with
  | none =>
    rw [List.getElem?_map, hk]
    have := List.getElem?_eq_none_iff.1 hk
    have e := ok.same
    rw [List.length_zip] at this
    exact List.getElem?_eq_none (by rw [him.number]; omega)
  | some r => rw [List.getElem?_map, hk, images_eq ok him hk]; rfl

theorem mapM_getElem? {α β : Type} {f : α → Outcome β} {l : List α} {out : List β} (h : l.mapM f = .ok out) {k : Nat} {x : α} {y : β}
    (hk : l[k]? = some x) (hy : f x = .ok y) : out[k]? = some y := by
  induction l generalizing out k with
  | nil => simp at hk
  | cons a l ih =>
    rw [List.mapM_cons] at h
    cases ha : f a with
    | throw m => rw [ha] at h; cases h
    | ub => rw [ha] at h; cases h
    | ok b =>
      rw [ha, Outcome.ok_bind] at h
      cases hl : l.mapM f with
      | throw m => rw [hl] at h; cases h
      | ub => rw [hl] at h; cases h
      | ok bs =>
        rw [hl, Outcome.ok_bind] at h
        cases h
        cases k with
        | zero =>
          simp only [List.getElem?_cons_zero, Option.some.injEq] at hk
          subst hk
          rw [hy] at ha
          cases ha
          rfl
        | succ k => exact ih hl (by simpa using hk)

end PyHist

open PyHist RoundedHist

variable {rd : Rat → Fl} {w h W H n : Nat} {fs : List Frame} {inner outer : List Int} {cx cy : Int}

/-- **C98** In any rounding mode, for frames in blocks of any size or in an HDF5 file, and for all schedules of the threads:
`create_stem_histogram` returns for each pair of radii `n + 1` edges and `n` numbers. With `lo` and `hi` the least and the largest sum of
a frame over the annulus (0 for a position without a frame), edge `i` is `lo + i * ((hi - lo) / n)` with each operation rounded, and number
`j` is the number of scan positions whose sum is at least edge `j` and below edge `j + 1`, or equal to the last edge for the last bin. -/
theorem C98_histogram (hrd : Rounds float64 rd) (ok : DataOK w h W H fs inner outer cx cy) {src : Source} {scan : Nat × Nat}
    (hin : Presents w h W H fs src.input scan) (h32 : fs.length + 32 ≤ 2 ^ 32) (hn : 0 < n) (hn' : n < 2 ^ 31 - 1)
    {res : Outcome (List (List Fl × List Nat))}
    (hr : HistogramRun rd n src (.many inner) (.many outer) scan (cx, cy) res) :
    ∃ out, res = .ok out ∧ out.length = inner.length ∧ ∀ (k : Nat) (a b : Int), (inner.zip outer)[k]? = some (a, b) →
      ∃ (edge : Nat → Rat) (freq : List Nat) (lo hi : Nat) (L : Rat),
        out[k]? = some ((List.range (n + 1)).map fun i => Fl.fin (edge i), freq) ∧
        Range ((List.range (W * H)).map (valueAt w h a b cx cy fs)) lo hi ∧
        rd (((hi : Rat) - lo) / n) = .fin L ∧
        (∀ i ≤ n, ∃ q, rd (i * L) = .fin q ∧ rd (lo + q) = .fin (edge i)) ∧
        freq.length = n ∧
        ∀ j < n, freq[j]? = some ((List.range (W * H)).countP fun p =>
          decide (edge j ≤ (valueAt w h a b cx cy fs p : Rat) ∧ ((valueAt w h a b cx cy fs p : Rat) < edge (j + 1) ∨
            (j + 1 = n ∧ (valueAt w h a b cx cy fs p : Rat) = edge n)))) := by
  obtain ⟨images, him, rfl⟩ := run_images ok hin h32 n hr
  rw [images_list ok him]
  have each : ∀ r ∈ inner.zip outer, ∃ o lo hi, Range (valuesOf w h W H r.1 r.2 cx cy fs) lo hi ∧ hi < 2 ^ 48 ∧
      o = ((List.range (n + 1)).map fun i => Fl.fin (RoundedHist.edge rd lo hi n i),
        (List.range n).map fun j => (valuesOf w h W H r.1 r.2 cx cy fs).countP fun v : Nat =>
          decide (inBin n (RoundedHist.edge rd lo hi n) j (v : Rat))) ∧
      (if (n : Int) < -2 ^ 31 ∨ 2 ^ 31 ≤ (n : Int) then (.throw "TypeError" : Outcome (List Fl × List Nat))
        else do
          let bins ← PyHistogram.getContainer rd (valuesOf w h W H r.1 r.2 cx cy fs) n
          let freq ← PyHistogram.createSTEMHistogram rd (valuesOf w h W H r.1 r.2 cx cy fs) n bins
          .ok (bins, freq)) = .ok o := by
    rintro ⟨a, b⟩ hab
    obtain ⟨k, hk⟩ := List.getElem?_of_mem hab
    obtain ⟨lo, hi, r⟩ := valuesOf_range ok a b
    have hh := range_lt ok hk r
    obtain ⟨e1, e2⟩ := one hrd r hh hn hn'
    refine ⟨_, lo, hi, r, hh, rfl, ?_⟩
    rw [if_neg (by omega), e1, Outcome.ok_bind, e2, Outcome.ok_bind]
  have hex : ∃ out, histograms rd n ((inner.zip outer).map fun r => valuesOf w h W H r.1 r.2 cx cy fs) = .ok out ∧
      out.length = inner.length ∧ ∀ (k : Nat) (r : Int × Int), (inner.zip outer)[k]? = some r → ∃ o lo hi, out[k]? = some o ∧
        Range (valuesOf w h W H r.1 r.2 cx cy fs) lo hi ∧ hi < 2 ^ 48 ∧
        o = ((List.range (n + 1)).map fun i => Fl.fin (RoundedHist.edge rd lo hi n i),
          (List.range n).map fun j => (valuesOf w h W H r.1 r.2 cx cy fs).countP fun v : Nat =>
            decide (inBin n (RoundedHist.edge rd lo hi n) j (v : Rat))) := by
    have each' : ∀ r : Int × Int, ∃ o : List Fl × List Nat, r ∈ inner.zip outer → ∃ lo hi,
        Range (valuesOf w h W H r.1 r.2 cx cy fs) lo hi ∧ hi < 2 ^ 48 ∧
        o = ((List.range (n + 1)).map fun i => Fl.fin (RoundedHist.edge rd lo hi n i),
          (List.range n).map fun j => (valuesOf w h W H r.1 r.2 cx cy fs).countP fun v : Nat =>
            decide (inBin n (RoundedHist.edge rd lo hi n) j (v : Rat))) ∧
        (if (n : Int) < -2 ^ 31 ∨ 2 ^ 31 ≤ (n : Int) then (.throw "TypeError" : Outcome (List Fl × List Nat))
          else do
            let bins ← PyHistogram.getContainer rd (valuesOf w h W H r.1 r.2 cx cy fs) n
            let freq ← PyHistogram.createSTEMHistogram rd (valuesOf w h W H r.1 r.2 cx cy fs) n bins
            .ok (bins, freq)) = .ok o := by
      intro r
      by_cases hr : r ∈ inner.zip outer
      · obtain ⟨o, x⟩ := each r hr
        exact ⟨o, fun _ => x⟩
      · exact ⟨([], []), fun hr' => absurd hr' hr⟩
    choose g hg using each'
    refine ⟨(inner.zip outer).map g, ?_, by simp [ok.same], ?_⟩
    · unfold histograms
      refine mapM_map_ok _ _ _ _ ?_
      intro r hr
      obtain ⟨_, _, _, _, _, e⟩ := hg r hr
      exact e
    · intro k r hk
      obtain ⟨lo, hi, h1, h2, h3, _⟩ := hg r (List.mem_of_getElem? hk)
      exact ⟨g r, lo, hi, by rw [List.getElem?_map, hk]; rfl, h1, h2, h3⟩
  obtain ⟨out, o1, o2, o3⟩ := hex
  refine ⟨out, o1, o2, ?_⟩
  intro k a b hk
  obtain ⟨o, lo, hi, c1, c2, c3, c4⟩ := o3 k (a, b) hk
  have h53 : hi < 2 ^ 53 := lt_trans c3 (by norm_num)
  have l53 : lo < 2 ^ 53 := lt_of_le_of_lt c2.le h53
  have h64 : hi < 2 ^ 64 := lt_trans c3 (by norm_num)
  have evlo : val (rd lo) = lo := val_fix hrd (has_int l53)
  have ed : val (rd (val (rd hi) - val (rd lo))) = (hi : Rat) - lo := by
    rw [evlo, val_fix hrd (has_int h53), ← Nat.cast_sub c2.le, val_fix hrd (has_int (by omega))]
  refine ⟨RoundedHist.edge rd lo hi n, _, lo, hi, len rd lo hi n, by rw [c1, c4], c2, ?_, ?_, by simp, ?_⟩
  · have q := quot hrd c2.le h64 hn
    have := (of_pow hrd (k := 64) (by omega) q.1 q.2).1
    rw [show len rd lo hi n = val (rd (val (rd (val (rd hi) - val (rd lo))) / n)) from rfl]
    rw [ed] at this ⊢
    exact this
  · intro i hi'
    have pb := prod_bound (len_bound hrd c2.le h64 hn) (i := i) (by omega)
    have sb := sum_bound hrd c2.le h64 hn (i := i) (by omega)
    refine ⟨val (rd (i * len rd lo hi n)), (of_pow hrd (k := 95) (by omega) pb.1 pb.2).1, ?_⟩
    have := (of_pow hrd (k := 96) (by omega) sb.1 sb.2).1
    unfold RoundedHist.edge
    rw [evlo] at this ⊢
    exact this
  · intro j hj
    rw [List.getElem?_map, List.getElem?_range hj]
    show some _ = some _
    congr 1
    simp only [valuesOf, List.countP_map]
    rfl

/-- **C98** Runs exist. -/
theorem C98_run_exists (ok : DataOK w h W H fs inner outer cx cy) {src : Source} {scan : Nat × Nat}
    (hin : Presents w h W H fs src.input scan) (h32 : fs.length + 32 ≤ 2 ^ 32) (m : Int) :
    ∃ res, HistogramRun rd m src (.many inner) (.many outer) scan (cx, cy) res := by
  obtain ⟨r, hr⟩ := C67_run_exists (Means.many inner) (Means.many outer) ok hin h32
  cases src with
  | threaded => cases hin
  | blocks bs => exact ⟨_, r, hr, rfl⟩
  | hdf5 f => exact ⟨_, r, hr, rfl⟩

/-- **C98** The result does not depend on the order and grouping of the frames, on the kind of reader or on the threads. -/
theorem C98_same {fs' : List Frame} (hp : fs.Perm fs') (ok : DataOK w h W H fs inner outer cx cy) {src src' : Source} {scan scan' : Nat × Nat}
    (hin : Presents w h W H fs src.input scan) (hin' : Presents w h W H fs' src'.input scan') (h32 : fs.length + 32 ≤ 2 ^ 32) (m : Int)
    {res res' : Outcome (List (List Fl × List Nat))}
    (hr : HistogramRun rd m src (.many inner) (.many outer) scan (cx, cy) res)
    (hr' : HistogramRun rd m src' (.many inner) (.many outer) scan' (cx, cy) res') : res = res' := by
  have ok' : DataOK w h W H fs' inner outer cx cy := by
    refine { ok with some := ?_, frames := ?_, once := ?_ }
    · intro e; rw [e] at hp; exact ok.some hp.eq_nil
    · exact ⟨fun f hf => ok.frames.len f (hp.mem_iff.2 hf), fun f hf => ok.frames.px f (hp.mem_iff.2 hf),
        fun f hf => ok.frames.pos f (hp.mem_iff.2 hf)⟩
    · exact (hp.map _).nodup_iff.1 ok.once
  obtain ⟨i, h1, rfl⟩ := run_images ok hin h32 m hr
  obtain ⟨i', h2, rfl⟩ := run_images ok' hin' (by rw [← hp.length_eq]; exact h32) m hr'
  rw [h1.unique ok.same (fun f => hp.mem_iff) h2]

/-- **C98** Every scan position is counted once, except perhaps those with the largest sum (see `C94_false`), and then none of them is. -/
theorem C98_total (hrd : Rounds float64 rd) (ok : DataOK w h W H fs inner outer cx cy) {src : Source} {scan : Nat × Nat}
    (hin : Presents w h W H fs src.input scan) (h32 : fs.length + 32 ≤ 2 ^ 32) (hn : 0 < n) (hn' : n < 2 ^ 31 - 1)
    {out : List (List Fl × List Nat)}
    (hr : HistogramRun rd n src (.many inner) (.many outer) scan (cx, cy) (.ok out)) {k : Nat} {a b : Int} {edges : List Fl} {freq : List Nat}
    (hk : (inner.zip outer)[k]? = some (a, b)) (ho : out[k]? = some (edges, freq)) :
    freq.sum = W * H ∨ ∃ hi, (∀ p < W * H, valueAt w h a b cx cy fs p ≤ hi) ∧
      freq.sum + (List.range (W * H)).countP (fun p => valueAt w h a b cx cy fs p = hi) = W * H := by
  obtain ⟨images, him, e⟩ := run_images ok hin h32 n hr
  obtain ⟨lo, hi, r⟩ := valuesOf_range ok a b
  have hh := range_lt ok hk r
  have h64 : hi < 2 ^ 64 := lt_trans hh (by norm_num)
  have hv : ∀ v ∈ valuesOf w h W H a b cx cy fs, v < 2 ^ 64 := fun v hv => lt_of_le_of_lt (r.le_hi v hv) h64
  obtain ⟨e1, e2⟩ := one hrd r hh hn hn'
  have hk' := images_eq ok him hk
  have e3 : out[k]? = some ((List.range (n + 1)).map fun i => Fl.fin (RoundedHist.edge rd lo hi n i),
      (List.range n).map fun j => (valuesOf w h W H a b cx cy fs).countP fun v : Nat =>
        decide (inBin n (RoundedHist.edge rd lo hi n) j (v : Rat))) := by
    refine mapM_getElem? e.symm hk' ?_
    rw [if_neg (by omega), e1, Outcome.ok_bind, e2, Outcome.ok_bind]
  rw [e3] at ho
  have hf : freq = (List.range n).map fun j => (valuesOf w h W H a b cx cy fs).countP fun v : Nat =>
      decide (inBin n (RoundedHist.edge rd lo hi n) j (v : Rat)) := (congrArg Prod.snd (Option.some.inj ho)).symm
  obtain ⟨bins, f, g1, g2, g3⟩ := C94_lost hrd r (lt_trans hh (by norm_num)) hn hn'
  rw [RoundedHist.container_eq hrd r h64 hn hn'] at g1
  cases g1
  rw [RoundedHist.histogram_eq hrd hv, ← PyHist.histogram_eq hrd hv, List.map_map] at g2
  have g4 : f = freq := by
    rw [hf]
    exact Outcome.ok.inj (g2.symm.trans e2)
  subst g4
  have hlen : (valuesOf w h W H a b cx cy fs).length = W * H := by simp [valuesOf]
  rw [hlen] at g3
  rcases g3 with g | g
  · exact Or.inl g
  · refine Or.inr ⟨hi, ?_, ?_⟩
    · intro p hp
      exact r.le_hi _ (List.mem_map.2 ⟨p, List.mem_range.2 hp, rfl⟩)
    · refine Eq.trans ?_ g
      congr 1
      unfold valuesOf
      rw [List.count_eq_countP, List.countP_map]
      apply List.countP_congr
      intro p _
      simp

/-- **C98** If the number of bins divides the range of the sums over annulus `k`, its edges and numbers are exact and every scan position is
counted. -/
theorem C98_exact (hrd : Rounds float64 rd) (ok : DataOK w h W H fs inner outer cx cy) {src : Source} {scan : Nat × Nat}
    (hin : Presents w h W H fs src.input scan) (h32 : fs.length + 32 ≤ 2 ^ 32) (hn : 0 < n) (hn' : n < 2 ^ 31 - 1)
    {out : List (List Fl × List Nat)}
    (hr : HistogramRun rd n src (.many inner) (.many outer) scan (cx, cy) (.ok out)) {k : Nat} {a b : Int}
    (hk : (inner.zip outer)[k]? = some (a, b)) {lo c : Nat} (r : Range ((List.range (W * H)).map (valueAt w h a b cx cy fs)) lo (lo + n * c)) :
    ∃ freq, out[k]? = some ((List.range (n + 1)).map fun i => Fl.fin ((lo + i * c : Nat) : Rat), freq) ∧ freq.sum = W * H ∧ freq.length = n ∧
      ∀ j < n, freq[j]? = some ((List.range (W * H)).countP fun p =>
        decide (lo + j * c ≤ valueAt w h a b cx cy fs p ∧ (valueAt w h a b cx cy fs p < lo + (j + 1) * c ∨
          (j + 1 = n ∧ valueAt w h a b cx cy fs p = lo + n * c)))) := by
  have r' : Range (valuesOf w h W H a b cx cy fs) lo (lo + n * c) := r
  have hh := range_lt ok hk r'
  have h64 : lo + n * c < 2 ^ 64 := lt_trans hh (by norm_num)
  have hz : (n : Rat) ≠ 0 := by exact_mod_cast Nat.ne_of_gt hn
  have hcn : c ≤ n * c := Nat.le_mul_of_pos_left c hn
  have hlen : len rd lo (lo + n * c) n = c := by
    unfold len
    rw [val_fix hrd (has_int (lt_trans hh (by norm_num))), val_fix hrd (has_int (n := lo) (by omega)), ← Nat.cast_sub (by omega),
      Nat.add_sub_cancel_left, val_fix hrd (has_int (by omega)), Nat.cast_mul, mul_div_cancel_left₀ _ hz, val_fix hrd (has_int (by omega))]
  have hedge : ∀ i ≤ n, RoundedHist.edge rd lo (lo + n * c) n i = ((lo + i * c : Nat) : Rat) := by
    intro i hi
    have hic : i * c ≤ n * c := Nat.mul_le_mul_right c hi
    unfold RoundedHist.edge
    rw [hlen, ← Nat.cast_mul, val_fix hrd (has_int (n := i * c) (by omega)), val_fix hrd (has_int (n := lo) (by omega)), ← Nat.cast_add,
      val_fix hrd (has_int (by omega))]
  obtain ⟨images, him, e⟩ := run_images ok hin h32 n hr
  obtain ⟨e1, e2⟩ := one hrd r' hh hn hn'
  have hk' := images_eq ok him hk
  have e3 : out[k]? = some ((List.range (n + 1)).map fun i => Fl.fin (RoundedHist.edge rd lo (lo + n * c) n i),
      (List.range n).map fun j => (valuesOf w h W H a b cx cy fs).countP fun v : Nat =>
        decide (inBin n (RoundedHist.edge rd lo (lo + n * c) n) j (v : Rat))) := by
    refine mapM_getElem? e.symm hk' ?_
    rw [if_neg (by omega), e1, Outcome.ok_bind, e2, Outcome.ok_bind]
  have hmap : ((List.range (n + 1)).map fun i => Fl.fin (RoundedHist.edge rd lo (lo + n * c) n i)) =
      (List.range (n + 1)).map fun i => Fl.fin ((lo + i * c : Nat) : Rat) := by
    apply List.map_congr_left
    intro i hi
    have := List.mem_range.1 hi
    rw [hedge i (by omega)]
  refine ⟨_, by rw [e3, hmap], ?_, by simp, ?_⟩
  · have hv : ∀ v ∈ valuesOf w h W H a b cx cy fs, v < 2 ^ 64 := fun v hv => lt_of_le_of_lt (r'.le_hi v hv) h64
    obtain ⟨bins, f, g1, g2, g3⟩ := C94_divides hrd r' (lt_trans hh (by norm_num)) hn hn' ⟨c, Nat.add_sub_cancel_left lo _⟩
    rw [RoundedHist.container_eq hrd r' h64 hn hn'] at g1
    cases g1
    rw [RoundedHist.histogram_eq hrd hv, ← PyHist.histogram_eq hrd hv, List.map_map] at g2
    rw [← Outcome.ok.inj (g2.symm.trans e2), g3]
    simp [valuesOf]
  · intro j hj
    rw [List.getElem?_map, List.getElem?_range hj]
    show some _ = some _
    congr 1
    simp only [valuesOf, List.countP_map]
    apply List.countP_congr
    intro p _
    simp only [Function.comp_apply, decide_eq_true_eq]
    unfold inBin
    rw [hedge j (by omega), hedge (j + 1) (by omega), hedge n le_rfl]
    norm_cast

/-- **C98** Arguments which are not accepted: threaded readers, radii which are numbers, numbers of bins which are negative or do not fit
an `int`. With no bins the result is one edge which is not a number. With the largest `int` the loop over the edges overflows. -/
theorem C98_errors (hrd : Rounds float64 rd) (ok : DataOK w h W H fs inner outer cx cy) {src : Source} {scan : Nat × Nat}
    (hin : Presents w h W H fs src.input scan) (h32 : fs.length + 32 ≤ 2 ^ 32) (m : Int) (ri ro : Radii) (x : Int)
    (res : Outcome (List (List Fl × List Nat))) :
    (HistogramRun rd m .threaded ri ro scan (cx, cy) res ↔ res = .throw "AttributeError") ∧
    (HistogramRun rd m src (.one x) ro scan (cx, cy) res ↔ res = .throw "TypeError") ∧
    (HistogramRun rd m src (.many inner) (.one x) scan (cx, cy) res ↔ res = .throw "TypeError") ∧
    (HistogramRun rd m src (.many inner) (.many outer) scan (cx, cy) res →
      ((m < -2 ^ 31 ∨ 2 ^ 31 ≤ m) → res = .throw "TypeError") ∧
      (-2 ^ 31 ≤ m → m < 0 → res = .throw "ValueError") ∧
      (m = 0 → res = .ok (List.replicate inner.length ([.nan], []))) ∧
      (m = 2 ^ 31 - 1 → res = .ub)) := by
  refine ⟨Iff.rfl, ?_, ?_, ?_⟩
  · cases src with
    | threaded => cases hin
    | blocks bs => exact Iff.rfl
    | hdf5 f => exact Iff.rfl
  · cases src with
    | threaded => cases hin
    | blocks bs => exact Iff.rfl
    | hdf5 f => exact Iff.rfl
  · intro hr
    obtain ⟨images, him, rfl⟩ := run_images ok hin h32 m hr
    have hne : ∃ img rest, images = img :: rest := by
      cases images with
      | nil =>
        have := him.number
        have h0 := ok.radii
        exact absurd (List.length_eq_zero_iff.1 this.symm) h0
      | cons a l => exact ⟨a, l, rfl⟩
    have hrange : ∀ img ∈ images, ∃ lo hi, Range img lo hi ∧ hi < 2 ^ 48 := by
      intro img hi
      rw [images_list ok him] at hi
      obtain ⟨⟨a, b⟩, hab, rfl⟩ := List.mem_map.1 hi
      obtain ⟨k, hk⟩ := List.getElem?_of_mem hab
      obtain ⟨lo, hi, r⟩ := valuesOf_range ok a b
      exact ⟨lo, hi, r, range_lt ok hk r⟩
    obtain ⟨img, rest, himg⟩ := hne
    obtain ⟨lo, hi, r, hh⟩ := hrange img (by rw [himg]; simp)
    refine ⟨?_, ?_, ?_, ?_⟩
    · intro hm
      rw [himg]
      unfold histograms
      rw [List.mapM_cons, if_pos hm]
      rfl
    · intro h1 h2
      rw [himg]
      unfold histograms
      rw [List.mapM_cons, if_neg (by omega)]
      unfold PyHistogram.getContainer PyHistogram.createSTEMHistogram
      rw [minmax_eq r]
      simp only [Outcome.ok_bind]
      rw [if_neg (by omega)]
      simp only [Outcome.ok_bind]
      rw [if_pos h2]
      rfl
    · intro h0
      subst h0
      have hone : ∀ img ∈ images, (if (0 : Int) < -2 ^ 31 ∨ 2 ^ 31 ≤ (0 : Int) then (.throw "TypeError" : Outcome (List Fl × List Nat))
          else do
            let bins ← PyHistogram.getContainer rd img 0
            let freq ← PyHistogram.createSTEMHistogram rd img 0 bins
            .ok (bins, freq)) = .ok ([.nan], []) := by
        intro img hi
        obtain ⟨lo, hi, r, hh⟩ := hrange img hi
        have h64 : hi < 2 ^ 64 := lt_trans hh (by norm_num)
        have e1 := (of_pow hrd (k := 64) (by omega) (Nat.cast_nonneg lo) (cast_le (lt_of_le_of_lt r.le h64))).1
        have e2 := (of_pow hrd (k := 64) (by omega) (Nat.cast_nonneg hi) (cast_le h64)).1
        have e3 := (of_pow hrd (k := 64) (by omega) (diff hrd r.le h64).1 (diff hrd r.le h64).2).1
        rw [if_neg (by omega)]
        have hc : PyHistogram.getContainer rd img 0 = .ok [.nan] := by
          unfold PyHistogram.getContainer
          rw [minmax_eq r]
          simp only [Outcome.ok_bind]
          rw [if_neg (by omega)]
          show Outcome.ok [PyHistogram.edge rd (rd lo) (rnd rd ((rnd rd ((rd hi).sub (rd lo))).div (.fin ((0 : Int) : Rat)))) 0] = _
          congr 2
          have e4 : rnd rd ((rnd rd ((rd hi).sub (rd lo))).div (.fin ((0 : Int) : Rat))) =
              rnd rd (Fl.signInf (val (rd (val (rd hi) - val (rd lo))))) := by
            congr 1
            rw [e1, e2]
            show (rnd rd (.fin (val (rd hi) + -val (rd lo)))).div (.fin ((0 : Int) : Rat)) = _
            rw [← sub_eq_add_neg]
            show (rd (val (rd hi) - val (rd lo))).div (.fin ((0 : Int) : Rat)) = _
            rw [e3]
            simp [Fl.div, val]
          rw [e4, e1]
          unfold PyHistogram.edge Fl.signInf
          split
          · show rnd rd ((Fl.fin _).add (rnd rd (Fl.signInf ((0 : Nat) : Rat)))) = _
            rw [show Fl.signInf ((0 : Nat) : Rat) = .nan by simp [Fl.signInf]]
            rfl
          · split
            · show rnd rd ((Fl.fin _).add (rnd rd (Fl.signInf (-((0 : Nat) : Rat))))) = _
              rw [show Fl.signInf (-((0 : Nat) : Rat)) = .nan by simp [Fl.signInf]]
              rfl
            · rfl
        rw [hc, Outcome.ok_bind]
        have hh : PyHistogram.createSTEMHistogram rd img 0 [.nan] = .ok [] := by
          unfold PyHistogram.createSTEMHistogram
          rw [if_neg (by omega)]
          have : ∀ l : List Fl, l.foldlM (PyHistogram.histValue (0 : Int).toNat [.nan]) [] = .ok [] := by
            intro l
            induction l with
            | nil => rfl
            | cons v l ih =>
              rw [List.foldlM_cons]
              have : PyHistogram.histValue (0 : Int).toNat [.nan] [] v = .ok [] := by
                show (if same v .nan then _ else _) = _
                rw [if_neg (by cases v <;> simp [same, Fl.ge])]
                rfl
              rw [this, Outcome.ok_bind, ih]
          exact this _
        rw [hh]
        rfl
      unfold histograms
      rw [mapM_ok images _ (fun _ => ([.nan], [])) hone, List.map_const', him.number]
    · intro h1
      subst h1
      rw [himg]
      unfold histograms
      rw [List.mapM_cons, if_neg (by omega)]
      unfold PyHistogram.getContainer
      rw [minmax_eq r]
      simp only [Outcome.ok_bind]
      rw [if_pos trivial]
      rfl

/-! ### Examples -/

/-- Two frames and a scan of three positions: the third position counts as 0. -/
example : ∃ res, HistogramRun (nearest float64) 2 (.blocks ([[(1, [5, 6]), (0, [7, 8])]].map (mkBlock (3, 1) (2, 1)))) (.many [0]) (.many [3]) (0, 0)
    (-1, -1) res :=
  have ok : DataOK 2 1 3 1 [(1, [5, 6]), (0, [7, 8])] [0] [3] (-1) (-1) := by
    refine ⟨by simp, ⟨by simp, by simp, by simp⟩, by decide, by simp, rfl, ?_, by norm_num⟩
    intro r hr
    have : r = (0, 3) := by simpa using hr
    subst this
    constructor <;> norm_num
  C98_run_exists ok (.reader [[(1, [5, 6]), (0, [7, 8])]] (3, 1) (0, 0) rfl (Or.inr ⟨Or.inl rfl, rfl⟩)) (by simp) 2

example : (List.range 3).map (valueAt 2 1 0 3 (-1) (-1) [(1, [5, 6]), (0, [7, 8])]) = [15, 11, 0] := by decide

end Stempy.Props
