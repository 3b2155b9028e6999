import Verif.Model.PyCount
import Mathlib.Tactic.NormNum

/-!
C70: the dark reference given to `electron_count`; C71: the arguments of the functions of C++.
-/

namespace Stempy.PyCount
open Stempy.Image Stempy.Electron

/-! ### C71 -/

/-- The number that a number of Python is. -/
def IsNum (v : Num) (q : Rat) : Prop := v = .float q ∨ ∃ z : Int, v = .int z ∧ q = z

/-- What the dark reference means: nothing, the values of an array, or the pixels of an image as numbers of type `float`. -/
inductive IsDark (A : Arith) : Dark → Option (List Rat) → Prop where
  | none : IsDark A .none none
  | array (a : NdArray) : IsDark A (.array a) (some a.values)
  | image (p : List Rat) : IsDark A (.image p) (some (p.map A.round32))

set_option linter.unusedSimpArgs false
set_option maxHeartbeats 1000000

private theorem binding_array (A : Arith) (strict py : Bool) (b : List Block) (a : NdArray) (n : Int) (bg xr : Num)
    (gain : Option (List Rat)) (qb qx : Rat) (hb : IsNum bg qb) (hx : IsNum xr qx) (hn : -2 ^ 31 ≤ n ∧ n < 2 ^ 31) :
    (resolve A strict thresholdOverloads (thresholdCall (.blocks py b) (.array a) n bg xr gain)).bind thresholdArgs =
      .ok ⟨b, some a.values, n, qb, qx, gain⟩ := by
  have hl : loadInt n = some (.int n) := by rw [loadInt, if_pos hn]
  have hb' : (b = [] ∨ b ≠ []) := by by_cases h : b = [] <;> simp [h]
  rcases hb with rfl | ⟨z, rfl, rfl⟩ <;> rcases hx with rfl | ⟨w, rfl, rfl⟩ <;> cases gain <;>
    cases strict <;> cases py <;> rcases hb' with h | h <;>
    simp [resolve, thresholdOverloads, thresholdCall, Num.val, loadAll, load, hl, thresholdArgs, Outcome.bind, h]

private theorem binding_image (A : Arith) (strict py : Bool) (b : List Block) (p : List Rat) (n : Int) (bg xr : Num)
    (gain : Option (List Rat)) (qb qx : Rat) (hb : IsNum bg qb) (hx : IsNum xr qx) (hn : -2 ^ 31 ≤ n ∧ n < 2 ^ 31) :
    (resolve A strict thresholdOverloads (thresholdCall (.blocks py b) (.image p) n bg xr gain)).bind thresholdArgs =
      .ok ⟨b, some (p.map A.round32), n, qb, qx, gain⟩ := by
  have hl : loadInt n = some (.int n) := by rw [loadInt, if_pos hn]
  have hb' : (b = [] ∨ b ≠ []) := by by_cases h : b = [] <;> simp [h]
  rcases hb with rfl | ⟨z, rfl, rfl⟩ <;> rcases hx with rfl | ⟨w, rfl, rfl⟩ <;> cases gain <;>
    cases strict <;> cases py <;> rcases hb' with h | h <;>
    simp [resolve, thresholdOverloads, thresholdCall, Num.val, loadAll, load, hl, thresholdArgs, Outcome.bind, h]

private theorem binding_none (A : Arith) (strict py : Bool) (b : List Block) (n : Int) (bg xr : Num)
    (gain : Option (List Rat)) (qb qx : Rat) (hb : IsNum bg qb) (hx : IsNum xr qx) (hn : -2 ^ 31 ≤ n ∧ n < 2 ^ 31)
    (ok : (∀ g, gain = some g → g.length ≠ 1) ∨ (∃ q, bg = .float q) ∨ strict = false) :
    (resolve A strict thresholdOverloads (thresholdCall (.blocks py b) .none n bg xr gain)).bind thresholdArgs =
      .ok ⟨b, none, n, qb, qx, gain⟩ := by
  have hl : loadInt n = some (.int n) := by rw [loadInt, if_pos hn]
  have hb' : (b = [] ∨ b ≠ []) := by by_cases h : b = [] <;> simp [h]
  cases gain with
  | none =>
    rcases hb with rfl | ⟨z, rfl, rfl⟩ <;> rcases hx with rfl | ⟨w, rfl, rfl⟩ <;> cases strict <;> cases py <;>
    rcases hb' with h | h <;>
    simp [resolve, thresholdOverloads, thresholdCall, Num.val, loadAll, load, hl, thresholdArgs, Outcome.bind, h]
  | some g =>
    match g, ok with
    | [], _ =>
      rcases hb with rfl | ⟨z, rfl, rfl⟩ <;> rcases hx with rfl | ⟨w, rfl, rfl⟩ <;> cases strict <;> cases py <;>
      rcases hb' with h | h <;>
      simp [resolve, thresholdOverloads, thresholdCall, Num.val, loadAll, load, hl, thresholdArgs, Outcome.bind, h]
    | [v], ok =>
      rcases hb with rfl | ⟨z, rfl, rfl⟩ <;> rcases hx with rfl | ⟨w, rfl, rfl⟩ <;> cases strict <;> cases py <;>
      rcases hb' with h | h <;> simp at ok <;>
      simp [resolve, thresholdOverloads, thresholdCall, Num.val, loadAll, load, hl, thresholdArgs, Outcome.bind, h]
    | v :: w :: g, _ =>
      rcases hb with rfl | ⟨z, rfl, rfl⟩ <;> rcases hx with rfl | ⟨w, rfl, rfl⟩ <;> cases strict <;> cases py <;>
      rcases hb' with h | h <;>
      simp [resolve, thresholdOverloads, thresholdCall, Num.val, loadAll, load, hl, thresholdArgs, Outcome.bind, h]

/-- **C71** `calculate_thresholds` gets the blocks, the dark reference, the number of samples, the factors and the gain as
the parameters they are meant for, whatever is left out, for blocks of both kinds, and for factors which are integers or
not. Not proved for a gain with one element without a dark reference and an integer as the factor of the background. -/
theorem C71_thresholds_partial (A : Arith) (strict py : Bool) (b : List Block) (dark : Dark) (n : Int) (bg xr : Num)
    (gain : Option (List Rat)) (d : Option (List Rat)) (qb qx : Rat) (hd : IsDark A dark d) (hb : IsNum bg qb) (hx : IsNum xr qx)
    (hn : -2 ^ 31 ≤ n ∧ n < 2 ^ 31)
    (ok : d ≠ none ∨ (∀ g, gain = some g → g.length ≠ 1) ∨ (∃ q, bg = .float q) ∨ strict = false) :
    (resolve A strict thresholdOverloads (thresholdCall (.blocks py b) dark n bg xr gain)).bind thresholdArgs =
      .ok ⟨b, d, n, qb, qx, gain⟩ := by
  cases hd with
  | none => exact binding_none A strict py b n bg xr gain qb qx hb hx hn (by simpa using ok)
  | array a => exact binding_array A strict py b a n bg xr gain qb qx hb hx hn
  | image p => exact binding_image A strict py b p n bg xr gain qb qx hb hx hn

/-- Non-vacuity. -/
example (A : Arith) : IsDark A (.array ⟨[1, 2], .missing⟩) (some [1, 2]) ∧ IsNum (.int 4) 4 ∧ IsNum (.float (9 / 2)) (9 / 2) :=
  ⟨.array _, .inr ⟨4, rfl, by norm_num⟩, .inl rfl⟩

/-- For that gain the number of samples becomes the dark reference, the factors become the number of samples and the
factor of the background, and the gain becomes the factor of the X-rays. -/
theorem C71_one_element_false (A : Arith) (py : Bool) (b : List Block) (n z : Int) (xr : Num) (g qx : Rat) (hx : IsNum xr qx)
    (hz : -2 ^ 31 ≤ z ∧ z < 2 ^ 31) :
    (resolve A true thresholdOverloads (thresholdCall (.blocks py b) .none n (.int z) xr (some [g]))).bind thresholdArgs =
      .ok ⟨b, some [A.round32 n], z, qx, g, none⟩ := by
  have hl : loadInt z = some (.int z) := by rw [loadInt, if_pos hz]
  have hb' : (b = [] ∨ b ≠ []) := by by_cases h : b = [] <;> simp [h]
  rcases hx with rfl | ⟨w, rfl, rfl⟩ <;> cases py <;> rcases hb' with h | h <;>
    simp [resolve, thresholdOverloads, thresholdCall, Num.val, loadAll, load, hl, thresholdArgs, Outcome.bind, h]

/-- `maximum_diffraction_pattern` without a dark reference works for all three kinds of readers. -/
theorem C71_maximum (A : Arith) (strict : Bool) (kind : Nat) (h : kind < 3) : maximumCall A strict kind .none = .ok [.iter, .iter] := by
  have : kind = 0 ∨ kind = 1 ∨ kind = 2 := by omega
  rcases this with rfl | rfl | rfl <;> simp [maximumCall, resolve, maximumOverloads, loadAll, load]

/-- With a dark reference it always raises an exception, whatever the dark reference and the reader: there is no conversion from
`Image<double>`, the type of the images of `calculate_average`, to `Image<float>`. -/
theorem C71_maximum_dark_false (A : Arith) (strict : Bool) (kind : Nat) (dark : Dark) (h : dark ≠ .none) :
    ∃ m, maximumCall A strict kind dark = .throw m := by
  cases dark with
  | none => exact absurd rfl h
  | image p => exact ⟨_, rfl⟩
  | array a =>
    obtain ⟨v, attr⟩ := a
    cases attr with
    | missing => exact ⟨_, rfl⟩
    | none => exact ⟨_, rfl⟩
    | image p =>
      refine ⟨"TypeError", ?_⟩
      simp only [maximumCall, resolve, maximumOverloads, List.findSome?, loadAll, load]
      by_cases h0 : (0 = kind) <;> by_cases h1 : (1 = kind) <;> by_cases h2 : (2 = kind) <;> simp [h0, h1, h2]

/-! ### C70 -/

/-- The gain that is multiplied with: nothing, or the inverse of each value. -/
inductive IsGain (A : Arith) : Option (List Rat) → Option (List Rat) → Prop where
  | none : IsGain A none none
  | some (g : List Rat) (h : 1 < g.length) (fits : ∀ q ∈ g, A.fits32 (A.inv q) = true) : IsGain A (some g) (some (g.map A.inv))

/-- The counting which is meant: the thresholds are found from the given blocks with the dark reference `d1` and the gain, and
all blocks are counted with these thresholds, the dark reference `d2` and the gain. -/
def Counted (T : ThresholdArgs → Outcome Found) (stat : Bool → List Rat → Outcome (Option Rat)) (all sample : List Block)
    (args : Args) (qb qx : Rat) (d1 d2 g : Option (List Rat)) : Outcome ((Nat × Nat) × List (List (List Nat))) := do
  let f ← T ⟨sample, d1, args.samples, qb, qx, g⟩
  electronCountClassic (countFrameClassic {
    ft := if g = none then .u16 else .f32
    bg := f.bg
    xr := f.xr
    dark := d2
    gain := g
    rowDark := if args.rowDark then some (stat args.useMean) else none
    optMean := f.mean }) all args.scan

/-- What the function does for a dark reference that is looked up to be `u`. -/
private theorem run (A : Arith) (strict : Bool) (T : ThresholdArgs → Outcome Found)
    (stat : Bool → List Rat → Outcome (Option Rat)) (r : Rdr) (args : Args) (qb qx : Rat) (hb : IsNum args.bgSigma qb)
    (hx : IsNum args.xrSigma qx) (hn : -2 ^ 31 ≤ args.samples ∧ args.samples < 2 ^ 31) (g : Option (List Rat))
    (hg : IsGain A args.gain g) (hr : r.pos + args.numBlocks ≤ r.blocks.length) (c : Dark) (hc : castDark A args.dark = .ok c)
    (d : Option (List Rat)) (hd : IsDark A (unwrap c) d) :
    electronCount A strict T stat r args = (do
      let res ← Counted T stat r.blocks ((r.blocks.drop r.pos).take args.numBlocks) args qb qx d (darkPointer A (unwrap c)) g
      pure (res, { r with pos := r.blocks.length })) := by
  have hgc : castGain A args.gain = .ok g ∧ gainPointer g = g ∧ ∀ l, g = some l → l.length ≠ 1 := by
    cases hgain : args.gain with
    | none =>
      rw [hgain] at hg
      cases hg
      exact ⟨rfl, rfl, by simp⟩
    | some v =>
      rw [hgain] at hg
      cases hg with
      | some _ h fits =>
        refine ⟨?_, ?_, ?_⟩
        · rw [castGain, safe32, if_pos (by rw [List.all_map, List.all_eq_true]; exact fits)]; rfl
        · rw [gainPointer, if_pos (by rw [List.length_map]; exact h)]
        · intro l hl
          injection hl with hl
          rw [← hl, List.length_map]
          omega
  have hres := C71_thresholds_partial A strict r.py ((r.blocks.drop r.pos).take args.numBlocks) (unwrap c) args.samples
    args.bgSigma args.xrSigma g d qb qx hd hb hx hn (.inr (.inl hgc.2.2))
  unfold electronCount
  rw [hgc.1, Outcome.ok_bind, hc, Outcome.ok_bind, Rdr.next, if_pos hr, Outcome.ok_bind]
  simp only []
  rw [show ∀ {β : Type} (F : ThresholdArgs → Outcome β) x, (do let cs ← x; let ta ← thresholdArgs cs; F ta) =
    (x.bind thresholdArgs) >>= F from fun F x => by cases x <;> rfl, hres, Outcome.ok_bind]
  unfold Counted
  cases hT : T ⟨(r.blocks.drop r.pos).take args.numBlocks, d, args.samples, qb, qx, g⟩ with
  | throw m => rfl
  | ub => rfl
  | ok f =>
    simp only [Outcome.ok_bind, List.drop_zero]
    have : countOptions stat args f (darkPointer A (unwrap c)) (gainPointer g) = {
        ft := if g = none then .u16 else .f32
        bg := f.bg
        xr := f.xr
        dark := darkPointer A (unwrap c)
        gain := g
        rowDark := if args.rowDark then some (stat args.useMean) else none
        optMean := f.mean } := by
      rw [countOptions, hgc.2.1]
      cases g <;> rfl
    rw [this]

/-- **C70** For a plain array as the dark reference: the thresholds are found from the next blocks of the reader with its values as the
dark reference, and all blocks of the reader are counted with them. -/
theorem C70_array (A : Arith) (strict : Bool) (T : ThresholdArgs → Outcome Found)
    (stat : Bool → List Rat → Outcome (Option Rat)) (r : Rdr) (args : Args) (qb qx : Rat) (hb : IsNum args.bgSigma qb)
    (hx : IsNum args.xrSigma qx) (hn : -2 ^ 31 ≤ args.samples ∧ args.samples < 2 ^ 31) (g : Option (List Rat))
    (hg : IsGain A args.gain g) (hr : r.pos + args.numBlocks ≤ r.blocks.length) (a : NdArray)
    (ha : args.dark = .array a) (plain : a.attr = .missing) (h1 : 1 < a.values.length)
    (fits : ∀ q ∈ a.values, A.fits32 q = true) :
    electronCount A strict T stat r args = (do
      let res ← Counted T stat r.blocks ((r.blocks.drop r.pos).take args.numBlocks) args qb qx (some a.values) (some a.values) g
      pure (res, { r with pos := r.blocks.length })) := by
  have hc : castDark A args.dark = .ok (.array a) := by
    rw [ha, castDark, safe32, if_pos (List.all_eq_true.2 fits)]; rfl
  have hu : unwrap (.array a) = .array a := by
    rw [unwrap, plain]
  rw [run A strict T stat r args qb qx hb hx hn g hg hr _ hc (some a.values) (by rw [hu]; exact .array a), hu, darkPointer, if_pos h1]

/-- For the result of `calculate_average` as it is, the values of which have type `float` without loss. -/
theorem C70_average (A : Arith) (strict : Bool) (T : ThresholdArgs → Outcome Found)
    (stat : Bool → List Rat → Outcome (Option Rat)) (r : Rdr) (args : Args) (qb qx : Rat) (hb : IsNum args.bgSigma qb)
    (hx : IsNum args.xrSigma qx) (hn : -2 ^ 31 ≤ args.samples ∧ args.samples < 2 ^ 31) (g : Option (List Rat))
    (hg : IsGain A args.gain g) (hr : r.pos + args.numBlocks ≤ r.blocks.length) (p : List Rat)
    (ha : args.dark = .array (average p)) (h1 : 1 < p.length)
    (fits : ∀ q ∈ p, A.fits32 q = true) (exact : ∀ q, A.fits32 q = true → A.round32 q = q) :
    electronCount A strict T stat r args = (do
      let res ← Counted T stat r.blocks ((r.blocks.drop r.pos).take args.numBlocks) args qb qx (some p) (some p) g
      pure (res, { r with pos := r.blocks.length })) := by
  have hc : castDark A args.dark = .ok (.array (average p)) := by
    rw [ha, castDark]
    show (safe32 A p >>= _) = _
    rw [safe32, if_pos (List.all_eq_true.2 fits)]; rfl
  have hp : p.map A.round32 = p := by
    conv_rhs => rw [← List.map_id p]
    exact List.map_congr_left fun q hq => exact q (fits q hq)
  have hd := IsDark.image (A := A) p
  rw [hp] at hd
  rw [run A strict T stat r args qb qx hb hx hn g hg hr _ hc (some p) hd]
  show (Counted T stat r.blocks _ args qb qx _ (darkPointer A (.image p)) g >>= _) = _
  rw [darkPointer, if_pos h1, hp]

/-- For an image of C++, the pixels of which are converted to `float`. -/
theorem C70_image (A : Arith) (strict : Bool) (T : ThresholdArgs → Outcome Found)
    (stat : Bool → List Rat → Outcome (Option Rat)) (r : Rdr) (args : Args) (qb qx : Rat) (hb : IsNum args.bgSigma qb)
    (hx : IsNum args.xrSigma qx) (hn : -2 ^ 31 ≤ args.samples ∧ args.samples < 2 ^ 31) (g : Option (List Rat))
    (hg : IsGain A args.gain g) (hr : r.pos + args.numBlocks ≤ r.blocks.length) (p : List Rat) (ha : args.dark = .image p)
    (h1 : 1 < p.length) :
    electronCount A strict T stat r args = (do
      let res ← Counted T stat r.blocks ((r.blocks.drop r.pos).take args.numBlocks) args qb qx (some (p.map A.round32))
        (some (p.map A.round32)) g
      pure (res, { r with pos := r.blocks.length })) := by
  have hc : castDark A args.dark = .ok (.image p) := by rw [ha]; rfl
  rw [run A strict T stat r args qb qx hb hx hn g hg hr _ hc _ (IsDark.image (A := A) p)]
  show (Counted T stat r.blocks _ args qb qx _ (darkPointer A (.image p)) g >>= _) = _
  rw [darkPointer, if_pos h1]

/-- Values which are not numbers of type `float` are refused, as for every kind of reader. -/
theorem C70_refused (A : Arith) (strict : Bool) (T : ThresholdArgs → Outcome Found)
    (stat : Bool → List Rat → Outcome (Option Rat)) (r : Rdr) (args : Args) (a : NdArray) (ha : args.dark = .array a)
    (h : ∃ q ∈ a.values, A.fits32 q = false) :
    electronCount A strict T stat r args = .throw "ValueError" ∧ threadedOptions A args = .throw "ValueError" := by
  have hs : ∀ v : List Rat, (∃ q ∈ v, A.fits32 q = false) → safe32 A v = .throw "ValueError" := by
    intro v ⟨q, hq, hf⟩
    rw [safe32, if_neg]
    rw [List.all_eq_true]
    intro hc
    rw [hc q hq] at hf
    exact Bool.noConfusion hf
  have hc : castDark A args.dark = .throw "ValueError" := by
    rw [ha, castDark, hs _ h]; rfl
  have hg : castGain A args.gain = .throw "ValueError" ∨ ∃ g, castGain A args.gain = .ok g := by
    cases args.gain with
    | none => exact .inr ⟨_, rfl⟩
    | some g =>
      rw [castGain]
      unfold safe32
      split
      · exact .inr ⟨_, rfl⟩
      · exact .inl rfl
  unfold electronCount threadedOptions
  rcases hg with hg | ⟨g, hg⟩
  · rw [hg]; exact ⟨rfl, rfl⟩
  · rw [hg, Outcome.ok_bind, Outcome.ok_bind, hc]; exact ⟨rfl, rfl⟩

/-- With a threaded reader the values of the array reach C++, whatever its attributes. -/
theorem C70_threaded (A : Arith) (args : Args) (g : Option (List Rat)) (hg : IsGain A args.gain g) (a : NdArray)
    (ha : args.dark = .array a) (h1 : 1 < a.values.length) (fits : ∀ q ∈ a.values, A.fits32 q = true) :
    threadedOptions A args = .ok (some a.values, g) := by
  have hc : castDark A args.dark = .ok (.array a) := by
    rw [ha, castDark, safe32, if_pos (List.all_eq_true.2 fits)]; rfl
  have hgc : castGain A args.gain = .ok g ∧ gainPointer g = g := by
    cases hgain : args.gain with
    | none =>
      rw [hgain] at hg
      cases hg
      exact ⟨rfl, rfl⟩
    | some v =>
      rw [hgain] at hg
      cases hg with
      | some _ h fits =>
        refine ⟨?_, ?_⟩
        · rw [castGain, safe32, if_pos (by rw [List.all_map, List.all_eq_true]; exact fits)]; rfl
        · rw [gainPointer, if_pos (by rw [List.length_map]; exact h)]
  rw [threadedOptions, hgc.1, Outcome.ok_bind, hc, Outcome.ok_bind, hgc.2, darkPointer, if_pos h1]
  rfl

/-- For an array that was made from the average image by any operation of numpy, the values of the array are not used: the average
image is subtracted. -/
theorem C70_derived_false (A : Arith) (strict : Bool) (T : ThresholdArgs → Outcome Found)
    (stat : Bool → List Rat → Outcome (Option Rat)) (r : Rdr) (args : Args) (qb qx : Rat) (hb : IsNum args.bgSigma qb)
    (hx : IsNum args.xrSigma qx) (hn : -2 ^ 31 ≤ args.samples ∧ args.samples < 2 ^ 31) (g : Option (List Rat))
    (hg : IsGain A args.gain g) (hr : r.pos + args.numBlocks ≤ r.blocks.length) (p v : List Rat)
    (ha : args.dark = .array (derived (average p) v)) (h1 : 1 < p.length) (fits : ∀ q ∈ v, A.fits32 q = true) :
    electronCount A strict T stat r args = (do
      let res ← Counted T stat r.blocks ((r.blocks.drop r.pos).take args.numBlocks) args qb qx (some (p.map A.round32))
        (some (p.map A.round32)) g
      pure (res, { r with pos := r.blocks.length })) := by
  have hc : castDark A args.dark = .ok (.array (derived (average p) v)) := by
    rw [ha, castDark]
    show (safe32 A v >>= _) = _
    rw [safe32, if_pos (List.all_eq_true.2 fits)]; rfl
  rw [run A strict T stat r args qb qx hb hx hn g hg hr _ hc _ (IsDark.image (A := A) p)]
  show (Counted T stat r.blocks _ args qb qx _ (darkPointer A (.image p)) g >>= _) = _
  rw [darkPointer, if_pos h1]

/-- For an `ImageArray` that was made from a plain array nothing is subtracted for the thresholds, and the counting reads through a
null pointer. -/
theorem C70_no_image_false (A : Arith) (strict : Bool) (T : ThresholdArgs → Outcome Found)
    (stat : Bool → List Rat → Outcome (Option Rat)) (r : Rdr) (args : Args) (qb qx : Rat) (hb : IsNum args.bgSigma qb)
    (hx : IsNum args.xrSigma qx) (hn : -2 ^ 31 ≤ args.samples ∧ args.samples < 2 ^ 31) (g : Option (List Rat))
    (hg : IsGain A args.gain g) (hr : r.pos + args.numBlocks ≤ r.blocks.length) (v : List Rat)
    (ha : args.dark = .array ⟨v, .none⟩) (fits : ∀ q ∈ v, A.fits32 q = true) :
    electronCount A strict T stat r args = (do
      let res ← Counted T stat r.blocks ((r.blocks.drop r.pos).take args.numBlocks) args qb qx none none g
      pure (res, { r with pos := r.blocks.length })) := by
  have hc : castDark A args.dark = .ok (.array ⟨v, .none⟩) := by
    rw [ha, castDark]
    show (safe32 A v >>= _) = _
    rw [safe32, if_pos (List.all_eq_true.2 fits)]; rfl
  rw [run A strict T stat r args qb qx hb hx hn g hg hr _ hc none (IsDark.none (A := A))]
  rfl

/-- A second call with the same arguments raises `StopIteration`: the reader is not reset at the end of the first one. -/
theorem C70_twice_false (A : Arith) (strict : Bool) (T : ThresholdArgs → Outcome Found)
    (stat : Bool → List Rat → Outcome (Option Rat)) (r r' : Rdr) (args : Args) (res : (Nat × Nat) × List (List (List Nat)))
    (h : electronCount A strict T stat r args = .ok (res, r')) (h0 : 0 < args.numBlocks) :
    electronCount A strict T stat r' args = .throw "StopIteration" := by
  unfold electronCount at h ⊢
  cases hg : castGain A args.gain with
  | throw m => rw [hg] at h; simp at h
  | ub => rw [hg] at h; simp at h
  | ok g =>
    rw [hg, Outcome.ok_bind] at h
    rw [Outcome.ok_bind]
    cases hc : castDark A args.dark with
    | throw m => rw [hc] at h; simp at h
    | ub => rw [hc] at h; simp at h
    | ok c =>
      rw [hc, Outcome.ok_bind] at h
      rw [Outcome.ok_bind]
      have hpos : r'.pos = r'.blocks.length := by
        unfold Rdr.next at h
        split at h
        · rw [Outcome.ok_bind] at h
          simp only [] at h
          cases hcs : resolve A strict thresholdOverloads (thresholdCall (.blocks r.py ((r.blocks.drop r.pos).take args.numBlocks))
              (unwrap c) args.samples args.bgSigma args.xrSigma g) with
          | throw m => rw [hcs] at h; simp at h
          | ub => rw [hcs] at h; simp at h
          | ok cs =>
            rw [hcs, Outcome.ok_bind] at h
            cases hta : thresholdArgs cs with
            | throw m => rw [hta] at h; simp at h
            | ub => rw [hta] at h; simp at h
            | ok ta =>
              rw [hta, Outcome.ok_bind] at h
              cases hT : T ta with
              | throw m => rw [hT] at h; simp at h
              | ub => rw [hT] at h; simp at h
              | ok f =>
                rw [hT, Outcome.ok_bind] at h
                generalize hE : electronCountClassic _ _ _ = e at h
                cases e with
                | throw m => simp at h
                | ub => simp at h
                | ok x =>
                  simp only [Outcome.ok_bind, Outcome.pure_eq, Outcome.ok.injEq, Prod.mk.injEq] at h
                  rw [← h.2]
        · simp at h
      rw [Rdr.next, if_neg (by omega)]
      rfl

/-- A reader with one block of one frame with 3 x 3 pixels, exact conversions, and arguments with a dark reference. -/
private def exA : Arith := ⟨fun _ => true, id, fun q => q⁻¹⟩
private def exReader : Rdr := ⟨false, [⟨(1, 1), (3, 3), 1, [0], [1, 1, 1, 1, 9, 1, 1, 1, 1]⟩], 0⟩
private def exArgs (d : Dark) : Args := ⟨d, 1, .int 4, .float 10, 1, (0, 0), none, false, true⟩
private def exT : ThresholdArgs → Outcome Found := fun _ => .ok ⟨1, 100, 0⟩
private def zeros : List Rat := List.replicate 9 0

/-- Non-vacuity: the hypotheses of the theorems above are met. -/
example : IsNum (exArgs .none).bgSigma 4 ∧ IsNum (exArgs .none).xrSigma 10 ∧ IsGain exA (exArgs .none).gain none ∧
    exReader.pos + (exArgs .none).numBlocks ≤ exReader.blocks.length ∧ 1 < zeros.length ∧
    IsGain exA (some [2, 4]) (some [1 / 2, 1 / 4]) := by
  refine ⟨.inr ⟨4, rfl, by norm_num⟩, .inl rfl, .none, by decide, by decide, ?_⟩
  have : (some [1 / 2, 1 / 4] : Option (List Rat)) = some (([2, 4] : List Rat).map exA.inv) := by
    simp [exA]
  rw [this]
  exact .some _ (by decide) (fun _ _ => rfl)

/-- The values matter: the plain array with the values 0, except 9 in the center, leaves no event, the array with the same values
that was made from the average image 0 leaves one. -/
example :
    electronCount exA true exT (fun _ _ => .ok none) exReader (exArgs (.array ⟨zeros.set 4 9, .missing⟩)) =
      .ok (((1, 1), [[[]]]), { exReader with pos := 1 }) ∧
    electronCount exA true exT (fun _ _ => .ok none) exReader (exArgs (.array (derived (average zeros) (zeros.set 4 9)))) =
      .ok (((1, 1), [[[4]]]), { exReader with pos := 1 }) := by
  constructor <;> decide +kernel

end Stempy.PyCount
