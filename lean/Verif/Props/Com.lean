import Verif.Lemmas.Com
import Verif.Props.SparseReduce

/-! C50: centers of mass. -/

namespace Stempy.PyImage
open Numpy Sparse

/-- A data set of a two-dimensional scan with frames of `h` rows and `w` columns. -/
structure Counted (a : SparseArray) (s0 s1 h w : Nat) : Prop where
  wf : WF a
  scan : a.scanShape = [s0, s1]
  frame : a.frameShape = [h, w]
  frames : 0 < a.numFrames

theorem Counted.lt {a : SparseArray} {s0 s1 h w : Nat} (ha : Counted a s0 s1 h w) :
    ∀ row ∈ a.data, ∀ fr ∈ row, ∀ e ∈ fr, e < h * w := by
  intro row hr fr hf e he
  have := ha.wf.lt row hr fr hf e he
  rw [ha.frame] at this
  simpa [prod] using this

theorem Counted.ne {a : SparseArray} {s0 s1 h w : Nat} (ha : Counted a s0 s1 h w) : ∀ row ∈ a.data, row ≠ [] := by
  intro row hr h0
  have h1 := ha.wf.frames row hr
  have h2 := ha.frames
  rw [h0] at h1
  simp at h1
  omega

/-- The positions which have a center of mass, with their centers. -/
def centers (a : SparseArray) (n w : Nat) (crop : Option Rat) (init : Option (Rat × Rat)) : List (Rat × Rat) :=
  (List.range n).filterMap fun p => centerOfMass w crop init (eventsAt a p)

/-- What is stored at a position without center of mass. -/
def filler (replace : Bool) (l : List Rat) : Option Rat :=
  if replace = true ∧ l ≠ [] then some (l.sum / (l.length : Nat)) else none

theorem filterMap_map_some {α β γ : Type} (l : List α) (f : α → Option β) (g : β → γ) :
    (l.map fun p => (f p).map g).filterMap id = (l.filterMap f).map g := by
  induction l with
  | nil => rfl
  | cons x l ih =>
    rw [List.map_cons, List.filterMap_cons, List.filterMap_cons]
    cases hx : f x with
    | none => simpa using ih
    | some b =>
      simp only [Option.map_some, id, List.map_cons]
      exact congrArg _ ih

theorem images_get (replace : Bool) (n : Nat) (f : Nat → Option (Rat × Rat)) (g : Rat × Rat → Rat) {p : Nat} (hp : p < n) :
    (if replace then replaceNans (((List.range n).map f).map fun v => v.map g)
      else ((List.range n).map f).map fun v => v.map g)[p]? =
      some (((f p).map g).or (filler replace (((List.range n).filterMap f).map g))) := by
  cases replace with
  | false => simp [hp, filler]
  | true =>
    have h1 : nanmean (((List.range n).map f).map fun v => v.map g) =
        filler true (((List.range n).filterMap f).map g) := by
      unfold nanmean filler
      rw [List.map_map]
      have := filterMap_map_some (List.range n) f g
      simp only [Function.comp_def]
      rw [this]
      by_cases h0 : (List.range n).filterMap f = []
      · simp [h0]
      · rw [if_neg (by simpa using h0), if_pos ⟨trivial, by simpa using h0⟩]
    simp only [if_true, replaceNans]
    rw [h1]
    simp [hp]

/-- **C50** for square frames: both implementations give column and row of the mean of the events of each position (in the disc,
if there is a crop radius); positions without such an event get the mean over the others, or `NaN`. An integer center for
cropping is at most 32768 (`uint32` arithmetic, see `C50_large_center`), and the frame at most 32768 wide.
Missing: other frame shapes, see `C50_not_square`. -/
theorem C50_square_partial (a : SparseArray) (s0 s1 w : Nat) (ha : Counted a s0 s1 w w) (hw : w ≤ 32768) (version : Nat)
    (hv : version = 0 ∨ version = 1) (crop : Option Rat) (init : Option (Num × Num)) (hi : InitNear init) (replace : Bool) :
    ∃ com, comSparse version a crop init replace = .ok com ∧ com.1.length = s0 * s1 ∧ com.2.length = s0 * s1 ∧
      ∀ p < s0 * s1,
        com.1[p]? = some (((centerOfMass w crop (initVal init) (eventsAt a p)).map Prod.fst).or
          (filler replace ((centers a (s0 * s1) w crop (initVal init)).map Prod.fst))) ∧
        com.2[p]? = some (((centerOfMass w crop (initVal init) (eventsAt a p)).map Prod.snd).or
          (filler replace ((centers a (s0 * s1) w crop (initVal init)).map Prod.snd))) := by
  have heq : comSparse version a crop init replace = .ok (images replace ((List.range (s0 * s1)).map fun p =>
      centerOfMass w crop (initVal init) (eventsAt a p))) := by
    simp only [centerOfMass_eq]
    rcases hv with rfl | rfl
    · exact comSparseV0_eq ha.wf.length ha.scan ha.frame ha.ne ha.lt hw crop hi replace
    · exact comSparseV1_eq ha.wf.length ha.scan ha.frame ha.lt crop init replace
  refine ⟨_, heq, ?_, ?_, ?_⟩
  · cases replace <;> simp [images, replaceNans]
  · cases replace <;> simp [images, replaceNans]
  · intro p hp
    have h1 := images_get replace (s0 * s1) (fun p => centerOfMass w crop (initVal init) (eventsAt a p)) Prod.fst hp
    have h2 := images_get replace (s0 * s1) (fun p => centerOfMass w crop (initVal init) (eventsAt a p)) Prod.snd hp
    unfold centers
    rw [← h1, ← h2]
    cases replace <;> exact ⟨rfl, rfl⟩

/-- **C50**: the two implementations give the same result for every frame shape. -/
theorem C50_versions_agree (a : SparseArray) (s0 s1 h w : Nat) (ha : Counted a s0 s1 h w) (hw : w ≤ 32768)
    (crop : Option Rat) (init : Option (Num × Num)) (hi : InitNear init) (replace : Bool) :
    comSparse 0 a crop init replace = comSparse 1 a crop init replace := by
  have h0 := comSparseV0_eq ha.wf.length ha.scan ha.frame ha.ne ha.lt hw crop hi replace
  have h1 := comSparseV1_eq ha.wf.length ha.scan ha.frame ha.lt crop init replace
  exact h0.trans h1.symm

/-- **C50**: the shortcuts for powers of two agree with division and remainder. -/
theorem C50_shortcut (f e : Nat) (hf : 0 < f) : decodeX f e = e / f ∧ decodeY f e = e % f :=
  ⟨decodeX_eq (by omega) e, decodeY_eq (by omega) e⟩

theorem sum_mul_indicator (l : List Nat) (hl : l.Nodup) (f : Nat → Nat) (e : Nat) :
    (l.map fun q => if q = e then f q else 0).sum = if e ∈ l then f e else 0 := by
  induction l with
  | nil => simp
  | cons x l ih =>
    obtain ⟨h1, h2⟩ := List.nodup_cons.1 hl
    rw [List.map_cons, List.sum_cons, ih h2]
    by_cases hx : x = e
    · subst hx; simp [h1]
    · have : ¬ e = x := fun h => hx h.symm
      simp [hx, this]

/-- A sum over the events, pixel by pixel. -/
theorem sum_mul_count (l : List Nat) (n : Nat) (f : Nat → Nat) (h : ∀ e ∈ l, e < n) :
    ((List.range n).map fun q => f q * l.count q).sum = (l.map f).sum := by
  induction l with
  | nil => simp
  | cons e l ih =>
    have h1 : ((List.range n).map fun q => f q * (e :: l).count q) =
        (List.range n).map fun q => f q * l.count q + if q = e then f q else 0 := by
      apply List.map_congr_left
      intro q _
      rw [List.count_cons]
      by_cases hq : e = q
      · subst hq; simp; ring
      · have : ¬ q = e := fun h => hq h.symm
        simp [hq, this]
    rw [h1, sum_map_add', ih fun x hx => h x (by simp [hx]), sum_mul_indicator _ List.nodup_range]
    have := h e (by simp)
    simp [this, Nat.add_comm]

theorem flatMap_range' {α : Type} (h w : Nat) (f : Nat → Nat → α) :
    ((List.range h).flatMap fun y => (List.range w).map fun x => f y x) =
      (List.range (h * w)).map fun i => f (i / w) (i % w) := by
  rw [← flatMap_range h w, List.map_flatMap]
  have : ∀ y ∈ List.range h, ((List.range w).map fun x => f y x) =
      (((List.range w).map fun j => y * w + j).map fun i => f (i / w) (i % w)) := by
    intro y _
    rw [List.map_map]
    apply List.map_congr_left
    intro x hx
    have hx := List.mem_range.1 hx
    simp only [Function.comp]
    rw [flat_div y hx, flat_mod y hx]
  rw [List.flatMap_def, List.flatMap_def, List.map_congr_left this]

/-- **C50**: the dense implementation gives column and row of the mean of the events for the dense frames, for every frame
shape. -/
theorem C50_dense (a : SparseArray) (s0 s1 h w : Nat) (ha : Counted a s0 s1 h w) :
    ∃ com, comDense ⟨[s0 * s1, h, w], (dense a).flat⟩ = .ok com ∧ com.1.length = s0 * s1 ∧ com.2.length = s0 * s1 ∧
      ∀ p < s0 * s1,
        com.1[p]? = some ((centerOfMass w none none (eventsAt a p)).map Prod.fst) ∧
        com.2[p]? = some ((centerOfMass w none none (eventsAt a p)).map Prod.snd) := by
  refine ⟨_, rfl, by simp, by simp, ?_⟩
  intro p hp
  have hprod : prod a.scanShape = s0 * s1 := by rw [ha.scan]; simp [prod]
  have hfp : prod a.frameShape = h * w := by rw [ha.frame]; simp [prod]
  have hpiece : (((dense a).flat.drop (p * (h * w))).take (h * w)) = (List.range (h * w)).map fun q => eventCount a p q := by
    apply List.ext_getElem?
    intro i
    rw [List.getElem?_take]
    by_cases hi : i < h * w
    · rw [if_pos hi, List.getElem?_drop]
      have := dense_getElem? a (p := p) (q := i) (by omega) (by omega)
      rw [hfp] at this
      rw [this]
      simp [hi]
    · rw [if_neg hi]
      simp [hi]
  have hlt : ∀ e ∈ eventsAt a p, e < h * w := by
    intro e he
    obtain ⟨fr, hfr, he2⟩ := List.mem_flatten.1 he
    exact ha.lt _ (getD_mem a.data p [] (by rw [ha.wf.length]; omega)) fr hfr e he2
  have hmm : ((List.range (h * w)).map fun q => eventCount a p q).sum = (eventsAt a p).length :=
    sum_count (eventsAt a p) _ hlt
  have hcoord : ∀ f : Nat → Nat, (List.zipWith (· * ·) ((List.range (h * w)).map f)
      ((List.range (h * w)).map fun q => eventCount a p q)).sum = ((eventsAt a p).map f).sum := by
    intro f
    rw [List.zipWith_map, List.zipWith_self]
    exact sum_mul_count (eventsAt a p) _ f hlt
  have hyy := flatMap_range' h w fun y _ => y
  have hxx := flatMap_range' h w fun _ x => x
  simp only [List.map_map, List.getElem?_map, List.getElem?_range hp, Option.map_some, Function.comp]
  simp only [hyy, hxx, hpiece, hmm, hcoord]
  unfold centerOfMass kept average
  by_cases h0 : eventsAt a p = []
  · simp [h0]
  · have : ¬ (eventsAt a p).length = 0 := by simpa using h0
    simp [h0]

/-- The array with one scan position, one frame and one event. -/
def single (h w e : Nat) : SparseArray := ⟨[[[e]]], 1, [1, 1], [h, w], true, false⟩

theorem single_counted {h w e : Nat} (he : e < h * w) : Counted (single h w e) 1 1 h w := by
  refine ⟨⟨.inr rfl, rfl, ?_, ?_, ?_⟩, rfl, rfl, by simp [single]⟩
  · simp [single]
  · simpa [single, prod] using he
  · simp [single]

/-- **C50 is violated for every frame that is not square**: there is an event for which both sparse implementations give a wrong
row. -/
theorem C50_not_square (h w : Nat) (hh : 0 < h) (hw : 0 < w) (hne : h ≠ w) (version : Nat)
    (hv : version = 0 ∨ version = 1) : ∃ a, Counted a 1 1 h w ∧
      ∃ r : Rat, ∃ c c' r' : Rat, comSparse version a none none false = .ok ([some c], [some r]) ∧
        centerOfMass w none none (eventsAt a 0) = some (c', r') ∧ r ≠ r' := by
  obtain ⟨e, he, hdiv⟩ : ∃ e, e < h * w ∧ e / h ≠ e / w := by
    rcases Nat.lt_or_gt_of_ne hne with hlt | hlt
    · refine ⟨h, ?_, ?_⟩
      · calc h = h * 1 := by ring
          _ < h * w := Nat.mul_lt_mul_of_pos_left (by omega) hh
      · rw [Nat.div_self hh, Nat.div_eq_of_lt hlt]; simp
    · refine ⟨w, ?_, ?_⟩
      · calc w = 1 * w := by ring
          _ < h * w := Nat.mul_lt_mul_of_pos_right (by omega) hw
      · rw [Nat.div_self hw, Nat.div_eq_of_lt hlt]; simp
  have ha := single_counted he
  refine ⟨single h w e, ha, (e / h : Nat), (e % w : Nat), (e % w : Nat), (e / w : Nat), ?_, ?_, ?_⟩
  · have h1 : comSparse 1 (single h w e) none none false = .ok ([some ((e % w : Nat) : Rat)], [some ((e / h : Nat) : Rat)]) := by
      have := comSparseV1_eq ha.wf.length ha.scan ha.frame ha.lt none none false
      rw [show comSparse 1 (single h w e) none none false = comSparseV1 (single h w e) none none false from rfl, this]
      simp [images, comXY, keptXY, eventsAt, single, average]
    have h0 : comSparse 0 (single h w e) none none false = .ok ([some ((e % w : Nat) : Rat)], [some ((e / h : Nat) : Rat)]) := by
      simp [comSparse, comSparseV0, single, concatenate, comPosition, mean, pure]
    rcases hv with rfl | rfl
    · exact h0
    · exact h1
  · simp [centerOfMass, kept, eventsAt, single, average]
  · exact_mod_cast hdiv

/-- **C50** (the bound on integer centers is needed): the difference of an event to a center wraps around, so that an event at a
distance of 65536 pixels is taken for one in the disc. -/
theorem C50_large_center : comSparse 0 (single 1 1 0) (some 1) (some (.int 65536, .int 0)) false = .ok ([some 0], [some 0]) ∧
    centerOfMass 1 (some 1) (some (65536, 0)) (eventsAt (single 1 1 0) 0) = none := by
  constructor <;> decide +kernel

/-- A data set for the hypotheses of the theorems: two positions, two frames each, one position without events in the disc. -/
def comSample : SparseArray := ⟨[[[0, 5], [5]], [[], [8]]], 2, [1, 2], [3, 3], true, false⟩

theorem comSample_counted : Counted comSample 1 2 3 3 := by
  refine ⟨⟨.inr rfl, rfl, ?_, ?_, ?_⟩, rfl, rfl, by simp [comSample]⟩ <;> simp [comSample, prod]

example : comSparse 0 comSample (some 1) (some (.int 1, .float (3 / 2))) true =
    .ok ([some 2, some 2], [some 1, some 1]) := by decide +kernel

example : comSparse 1 comSample none none false = .ok ([some (4 / 3), some 2], [some (2 / 3), some 2]) := by decide +kernel

end Stempy.PyImage
