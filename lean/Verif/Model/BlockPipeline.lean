import Verif.Lemmas.SectorReader
import Verif.Model.Electron

/-!
# `electron_count` with a sector reader: python/stempy/image/__init__.py:267-328

The blocks for the thresholds are read from the reader, then the reader is rewound and all of its blocks are counted. The conversions of
the arguments and the overloads are in `Model/PyCount` (C57), which has a list of blocks in place of the reader; here the reader is
that of `Model/SectorReader` and the results of `calculate_thresholds` with the options are an arbitrary function of the blocks.
-/

namespace Stempy.BlockPipeline
open Stempy.SectorReader
open Stempy.Electron (CountOptions electronCountClassic countFrameClassic)

/-- reader.cpp:439-470, python/io.cpp: a frame as a block with one image of 576x576 pixels. -/
def toBlock (f : Frame (List Nat)) : Image.Block where
  scanDims := f.scanDimensions
  frameDims := (576, 576)
  imagesInBlock := 1
  imageNumbers := [f.pos]
  data := f.data

/-- image/__init__.py:275-277 with io/__init__.py:28-33: `[next(reader) for i in range(n)]`. -/
def sample {D F : Type} (L : Layout D F) : Nat → State D F → Outcome (List (Frame F)) × State D F
  | 0, s => (.ok [], s)
  | n + 1, s =>
    match read L s with
    | (.ok (some f), t) =>
      match sample L n t with
      | (.ok fs, u) => (.ok (f :: fs), u)
      | r => r
    | (.ok none, t) => (.throw "StopIteration", t)
    | (.throw m, t) => (.throw m, t)
    | (.ub, t) => (.ub, t)

/-- Records that are left, twice, and frames in the cache. -/
def left {D F : Type} (s : State D F) : Nat := 2 * ((s.visited ++ s.todo).map fun st => st.records.length).sum + s.cache.length

theorem erase_length {F : Type} (p : Nat) (c : Cache F) : (erase p c).length ≤ c.length := by
  induction c with
  | nil => simp [erase]
  | cons e c ih =>
    simp only [erase]
    split
    · simp
    · simp only [List.length_cons]; omega

theorem insert_length {F : Type} (p : Nat) (s : Slot F) (c : Cache F) : (insert p s c).length ≤ c.length + 1 := by
  induction c with
  | nil => simp [SectorReader.insert]
  | cons e c ih =>
    simp only [SectorReader.insert]
    split
    · simp
    · split
      · simp
      · simp only [List.length_cons]; omega

theorem read_left {D F : Type} (L : Layout D F) (s : State D F) : ∀ {f t}, read L s = (.ok (some f), t) → left t < left s := by
  obtain ⟨vs, todo, c⟩ := s
  generalize hn : 2 * (work vs + work todo) + (if todo = [] then 1 else 0) = n
  induction n using Nat.strongRecOn generalizing vs todo c with
  | _ n ih =>
    subst hn
    intro f t h
    cases todo with
    | nil =>
      cases vs with
      | nil =>
        rw [SectorReader.read] at h
        cases c with
        | nil => simp at h
        | cons e c =>
          simp only [Prod.mk.injEq] at h
          obtain ⟨_, rfl⟩ := h
          simp [left]
      | cons v vs =>
        rw [SectorReader.read] at h
        have := ih _ (by simp [work]) [] (v :: vs) c rfl h
        simpa [left] using this
    | cons st rest =>
      cases h2 : st.records with
      | nil =>
        cases hc : st.cut with
        | true =>
          obtain ⟨a, b, d⟩ := st
          simp only at h2 hc
          subst h2 hc
          rw [SectorReader.read] at h
          simp at h
        | false =>
          rw [read_erase L vs rest st c h2 hc] at h
          have := ih _ (by
            simp only [work, List.map_cons, List.sum_cons]
            split <;> simp <;> omega) vs rest c rfl h
          simp [left, h2] at this ⊢
          omega
      | cons r rs =>
        by_cases hs : 0 ≤ st.sector ∧ st.sector < 4
        · rw [read_record L vs rest st c r rs h2 hs] at h
          cases hfd : feed L c st.sector.toNat r with
          | mk c' o =>
            have hlen : c'.length ≤ c.length + 1 := by
              unfold feed at hfd
              simp only at hfd
              split at hfd
              · cases hfd; exact Nat.le_succ_of_le (erase_length _ _)
              · cases hfd; exact insert_length _ _ _
            rw [hfd] at h
            cases o with
            | some g =>
              simp only [Prod.mk.injEq] at h
              obtain ⟨_, rfl⟩ := h
              simp [left, h2]
              omega
            | none =>
              have := ih _ (by
                simp only [work, List.map_cons, List.sum_cons, List.map_append, List.sum_append, List.map_nil,
                  List.sum_nil, h2, List.length_cons]
                split <;> simp <;> omega) _ _ c' rfl h
              simp [left, h2] at this ⊢
              omega
        · obtain ⟨a, b, d⟩ := st
          simp only at h2 hs
          subst h2
          rw [SectorReader.read] at h
          simp [hs] at h

/-- reader.h:109-135: from `begin()` to `end()`. -/
def readToEnd {D F : Type} (L : Layout D F) (s : State D F) : Outcome (List (Frame F)) :=
  match h : read L s with
  | (.ok none, _) => .ok []
  | (.ok (some f), t) => do
    let fs ← readToEnd L t
    pure (f :: fs)
  | (.throw m, _) => .throw m
  | (.ub, _) => .ub
termination_by left s
decreasing_by exact read_left L s h

/-- The arguments: `options` are the options for the thresholds which `calculate_thresholds` finds in the blocks. -/
structure Setup where
  numBlocks : Nat
  scan : Nat × Nat
  options : List Image.Block → Outcome CountOptions

/-- image/__init__.py:275-328: the reader of `files` is in state `s`. The blocks are read at once here, in the code each is counted when it is read. -/
def electronCount (L : Layout (List Nat) (List Nat)) (o : Setup) (files : List (Stream (List Nat))) (s : State (List Nat) (List Nat)) :
    Outcome ((Nat × Nat) × List (List (List Nat))) :=
  match sample L o.numBlocks s with
  | (.ok blocks, t) => do
    let options ← o.options (blocks.map toBlock)
    let frames ← readToEnd L (reset files t)
    electronCountClassic (countFrameClassic options) (frames.map toBlock) o.scan
  | (.throw m, _) => .throw m
  | (.ub, _) => .ub

end Stempy.BlockPipeline
