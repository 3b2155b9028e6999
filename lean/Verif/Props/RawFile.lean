import Verif.Model.RawFile
import Verif.Props.PyReader

/-!
C66: files of raw data.
-/

namespace Stempy.RawFile
open Stempy.PyReader

/-- The scan positions of the frames: those given, or 0, 1, 2, … -/
def positionsOf (data : Stack) (positions : Option (List Nat)) : List Nat :=
  match positions with
  | none => List.range data.frames.length
  | some p => p

/-- **C66** Raw data saved with scan dimensions, and with one scan position for every frame or none, to a file without raw
data: reading the file gives all frames in their order, with the positions, and the scan dimensions. -/
theorem C66_round_trip (f : File) (data : Stack) (d : Nat × Nat) (positions : Option (List Nat)) (hf : f.frames = none)
    (hp : f.positions = none) (hl : ∀ p ∈ positions, p.length = data.frames.length)
    (h32 : data.frames.length + 32 ≤ 2 ^ 32) (fuel : Nat) (hfuel : data.frames.length + 32 ≤ 32 * fuel) :
    ∃ (f' : File) (r : Reader), saveRaw f data (some d) positions = (.ok (), f') ∧ getReader f' = .ok r ∧ r.scanDims = d ∧
      r.stack = data ∧
      ∃ blocks s, readAll r.stack.frames fuel r.state = .ok (blocks, true, s) ∧
        (blocks.map (·.1)).flatten = data.frames ∧ (blocks.map (·.2)).flatten = positionsOf data positions := by
  refine ⟨{ f with frames := some data, scanDims := some d, positions := positions },
    ⟨data, getHdf5Reader data.frames positions, d⟩, ?_, rfl, rfl, rfl, ?_⟩
  · cases positions with
    | none => simp [saveRaw, hf, hp]
    | some p => simp [saveRaw, hf, hp]
  · obtain ⟨bs, s, h1, h2, h3⟩ := Props.C37_hdf5 data.frames positions hl h32 fuel hfuel
    exact ⟨bs, s, h1, h2, by rw [h3]; rfl⟩

/-- **C66** Without scan dimensions they are the width and height of STEM images saved before or after. -/
theorem C66_fallback (f : File) (data images : Stack) (names : List String) (positions : Option (List Nat))
    (hf : f.frames = none) (hp : f.positions = none) (hs : f.stem = none) (hn : images.frames.length = names.length) :
    ∃ (f1 f2 : File) (r : Reader), saveRaw f data none positions = (.ok (), f1) ∧
      saveStem f1 images names = (.ok (), f2) ∧ getReader f2 = .ok r ∧ r.scanDims = (images.width, images.height) ∧
      r.stack = data ∧
      ∃ f1', saveStem f images names = (.ok (), f1') ∧ saveRaw f1' data none positions = (.ok (), f2) := by
  refine ⟨{ f with frames := some data, scanDims := none, positions := positions },
    { f with frames := some data, scanDims := none, positions := positions, stem := some ⟨images, names⟩ },
    ⟨data, getHdf5Reader data.frames positions, (images.width, images.height)⟩, ?_, ?_, rfl, rfl, rfl,
    { f with stem := some ⟨images, names⟩ }, ?_, ?_⟩
  · cases positions <;> simp [saveRaw, hf, hp]
  · simp [saveStem, hs, hn]
  · simp [saveStem, hs, hn]
  · cases positions <;> simp [saveRaw, hf, hp]

/-- **C66** Without scan dimensions and without STEM images, and without frames, reading raises an exception. -/
theorem C66_missing (f : File) (h : f.frames = none ∨ (f.scanDims = none ∧ f.stem = none)) :
    ∃ m, getReader f = .throw m := by
  refine ⟨"KeyError", ?_⟩
  unfold getReader
  rcases h with h | ⟨h1, h2⟩
  · rw [h]
  · cases f.frames with
    | none => rfl
    | some s => simp only [scanDimensions, h1, h2]; rfl

/-- **C66** Nothing is ever overwritten: whatever is in the file, a data set that exists is the same after saving, whether
it succeeds or not. -/
theorem C66_no_overwrite (f : File) (data images : Stack) (dims : Option (Nat × Nat)) (positions : Option (List Nat))
    (names : List String) (f' : File) (h : f' = (saveRaw f data dims positions).2 ∨ f' = (saveStem f images names).2) :
    (∀ s, f.frames = some s → f'.frames = some s ∧ f'.scanDims = f.scanDims) ∧
    (∀ p, f.positions = some p → f'.positions = some p) ∧ (∀ s, f.stem = some s → f'.stem = some s) := by
  rcases h with rfl | rfl
  · unfold saveRaw
    cases hf : f.frames with
    | some s => simp [hf]
    | none =>
      cases positions with
      | none => simp
      | some p => cases hp : f.positions <;> simp
  · unfold saveStem
    by_cases hn : images.frames.length ≠ names.length
    · rw [if_pos hn]; simp
    · rw [if_neg hn]
      cases hs : f.stem <;> simp [hs]

/-- **C66** Saving data a second time raises an exception, and the file is unchanged. -/
theorem C66_twice (f : File) :
    (∀ data dims positions, f.frames.isSome → ∃ m, saveRaw f data dims positions = (.throw m, f)) ∧
    (∀ images names, f.stem.isSome → ∃ m, saveStem f images names = (.throw m, f)) := by
  constructor
  · intro data dims positions h
    exact ⟨_, by unfold saveRaw; rw [if_pos h]⟩
  · intro images names h
    unfold saveStem
    by_cases hn : images.frames.length ≠ names.length
    · exact ⟨_, by rw [if_pos hn]⟩
    · exact ⟨_, by rw [if_neg hn, if_pos h]⟩

/-- **C66** STEM images are stored with their names, of which there must be one for every image. -/
theorem C66_stem (f : File) (images : Stack) (names : List String) (hs : f.stem = none) :
    (images.frames.length = names.length →
      saveStem f images names = (.ok (), { f with stem := some ⟨images, names⟩ })) ∧
    (images.frames.length ≠ names.length → ∃ m, saveStem f images names = (.throw m, f)) := by
  constructor
  · intro h; simp [saveStem, h, hs]
  · intro h; exact ⟨_, by unfold saveStem; rw [if_pos h]⟩

private theorem mapM_ub {α β : Type} (g : α → Outcome β) (l : List α) (hg : ∀ x ∈ l, g x = .ub ∨ ∃ v, g x = .ok v)
    (x : α) (hx : x ∈ l) (hu : g x = .ub) : l.mapM g = .ub := by
  induction l with
  | nil => cases hx
  | cons a l ih =>
    rw [List.mapM_cons]
    rcases hg a (by simp) with h | ⟨v, h⟩
    · rw [h]; rfl
    · rw [h, Outcome.ok_bind, ih (fun y hy => hg y (by simp [hy])) ?_]
      · rfl
      · rcases List.mem_cons.1 hx with e | e
        · rw [e, h] at hu; cases hu
        · exact e

private theorem readAll_ub {F : Type} (frames : List F) (ids : List Nat) (b : Nat) (hb : 0 < b)
    (hids : ids.length < frames.length) (h32 : frames.length + b ≤ 2 ^ 32) (fuel cur : Nat) (hcur : cur ≤ ids.length)
    (hfuel : frames.length + b ≤ cur + b * fuel) : readAll frames fuel ⟨ids, b, frames.length, cur⟩ = .ub := by
  induction fuel generalizing cur with
  | zero => omega
  | succ fuel ih =>
    have hmod : (cur + b) % 2 ^ 32 = cur + b := Nat.mod_eq_of_lt (by omega)
    by_cases hin : cur + b ≤ ids.length
    · have hok : (List.range' cur b).mapM (readAt ids) = .ok ((List.range' cur b).map fun i => ids.getD i 0) := by
        apply mapM_ok
        intro i hi
        simp at hi
        rw [readAt_lt (by omega), List.getD_eq_getElem?_getD, List.getElem?_eq_getElem (by omega)]
        rfl
      simp only [readAll, PyReader.read]
      rw [if_neg (by omega), hmod, if_neg (by omega), show cur + b - cur = b by omega, hok]
      simp only [Outcome.ok_bind]
      rw [ih (cur + b) hin (by rw [Nat.mul_succ] at hfuel; omega)]
      rfl
    · simp only [readAll, PyReader.read]
      rw [if_neg (by omega), hmod]
      obtain ⟨up, hup⟩ : ∃ up, up = if cur + b > frames.length then frames.length else cur + b := ⟨_, rfl⟩
      rw [← hup]
      have : ids.length < up := by rw [hup]; split <;> omega
      rw [mapM_ub (readAt ids) _ (fun x _ => ?_) ids.length (by simp; omega) (readAt_ub.2 (Nat.le_refl _))]
      · rfl
      · by_cases h : x < ids.length
        · exact Or.inr ⟨_, readAt_lt h⟩
        · exact Or.inl (readAt_ub.2 (by omega))

/-- The number of scan positions is not checked when saving: with fewer positions than frames the data is saved, and reading
the file reads memory outside of the positions. -/
theorem C66_few_positions (f : File) (data : Stack) (d : Nat × Nat) (p : List Nat) (hf : f.frames = none)
    (hp : f.positions = none) (hl : p.length < data.frames.length) (h32 : data.frames.length + 32 ≤ 2 ^ 32) (fuel : Nat)
    (hfuel : data.frames.length + 32 ≤ 32 * fuel) :
    ∃ (f' : File) (r : Reader), saveRaw f data (some d) (some p) = (.ok (), f') ∧ getReader f' = .ok r ∧
      readAll r.stack.frames fuel r.state = .ub :=
  ⟨{ f with frames := some data, scanDims := some d, positions := some p }, ⟨data, getHdf5Reader data.frames (some p), d⟩,
    by simp [saveRaw, hf, hp], rfl, readAll_ub data.frames p 32 (by omega) hl h32 fuel 0 (by omega) (by omega)⟩

/-- Three frames of 1x2 pixels, not sorted. -/
example : (getReader (saveRaw {} ⟨1, 2, [[1, 2], [3, 4], [5, 6]]⟩ (some (3, 1)) (some [2, 0, 1])).2).bind
    (fun r => readAll r.stack.frames 2 r.state) =
    .ok ([([[1, 2], [3, 4], [5, 6]], [2, 0, 1])], true, ⟨[2, 0, 1], 32, 3, 3⟩) := by rfl

/-- Two STEM images of width 3 and height 1; raw data without scan dimensions. -/
example : (getReader (saveStem (saveRaw {} ⟨1, 1, [[7], [8], [9]]⟩ none none).2
    ⟨1, 3, [[1, 2, 3], [4, 5, 6]]⟩ ["bright", "dark"]).2).bind (fun r => .ok r.scanDims) = .ok (3, 1) := by rfl

end Stempy.RawFile
