import Verif.Lemmas.Compat
import Verif.Spec.Dense
import Mathlib.Tactic.ByContra

/-! # C39: conversion of old file formats -/

namespace Stempy.Compat
open Numpy

theorem maxOf_counts {l : List Nat} (h : l ≠ []) :
    ∃ k, maxOf (counts l) = .ok k ∧ (∀ q, l.count q ≤ k) ∧ ∃ q ∈ l, l.count q = k := by
  obtain ⟨k, hk⟩ : ∃ k, maxOf (counts l) = .ok k := by
    cases hc : counts l with
    | nil =>
      exfalso
      obtain ⟨x, l', rfl⟩ := List.exists_cons_of_ne_nil h
      have : x ∈ unique (x :: l') := (mem_unique _ _).2 (by simp)
      rw [counts, List.map_eq_nil_iff] at hc
      rw [hc] at this
      simp at this
    | cons x c => exact ⟨_, rfl⟩
  obtain ⟨h1, h2⟩ := maxOf_spec.1 hk
  refine ⟨k, hk, ?_, ?_⟩
  · intro q
    by_cases hq : q ∈ l
    · exact h2 _ (List.mem_map.2 ⟨q, (mem_unique l q).2 hq, rfl⟩)
    · rw [List.count_eq_zero_of_not_mem hq]; omega
  · obtain ⟨q, hq, hqk⟩ := List.mem_map.1 h1
    exact ⟨q, (mem_unique l q).1 hq, hqk⟩

theorem v2ToV3_ok (data : List (List Nat)) (positions scanShape : List Nat) (hne : positions ≠ [])
    (hlt : ∀ q ∈ positions, q < prod scanShape) :
    ∃ k, v2ToV3 data positions scanShape =
        .ok ((List.range (prod scanShape)).map fun p => pad k (framesAt data positions p), k) ∧
      (∀ q, positions.count q ≤ k) ∧ ∃ q ∈ positions, positions.count q = k := by
  obtain ⟨k, h1, h2, h3⟩ := maxOf_counts hne
  refine ⟨k, ?_, h2, h3⟩
  rw [v2ToV3, h1, Outcome.ok_bind, place_ok _ _ _ _ hlt]
  rfl

/-- C39, version 2: any number of frames per position and any order of the positions. Every position gets its frames in the order
of the file and then empty frames; the number of frames is the smallest possible. -/
theorem C39_v2 (data : List (List Nat)) (positions scanShape : List Nat) (hne : positions ≠ [])
    (hl : data.length = positions.length) (hlt : ∀ q ∈ positions, q < prod scanShape) :
    ∃ r k, toV3 2 data positions scanShape = .ok (r, k) ∧ r.length = prod scanShape ∧ (∀ row ∈ r, row.length = k) ∧
      (∃ p, p < prod scanShape ∧ (framesAt data positions p).length = k) ∧
      ∀ p, p < prod scanShape → ∃ m, r[p]? = some (framesAt data positions p ++ List.replicate m []) := by
  obtain ⟨k, h1, h2, q, hq, hqk⟩ := v2ToV3_ok data positions scanShape hne hlt
  refine ⟨_, k, h1, by simp, ?_, ⟨q, hlt q hq, by rw [framesAt_length _ _ hl]; exact hqk⟩, ?_⟩
  · intro row hrow
    obtain ⟨p, -, rfl⟩ := List.mem_map.1 hrow
    exact length_pad _ _
  · intro p hp
    refine ⟨k - (framesAt data positions p).length, ?_⟩
    rw [List.getElem?_map, List.getElem?_range hp, Option.map_some, pad_eq]
    rw [framesAt_length _ _ hl]
    exact h2 p

theorem framesAt_range (data : List (List Nat)) (p : Nat) (hp : p < data.length) :
    framesAt data (List.range data.length) p = [data.getD p []] := by
  have hlen : (framesAt data (List.range data.length) p).length = 1 := by
    rw [framesAt_length _ _ (by simp), List.count_eq_one_of_mem List.nodup_range (List.mem_range.2 hp)]
  obtain ⟨fr, hfr⟩ := List.length_eq_one_iff.1 hlen
  rw [hfr]
  have hm : data.getD p [] ∈ framesAt data (List.range data.length) p := by
    unfold framesAt
    refine List.mem_map.2 ⟨(data.getD p [], p), List.mem_filter.2 ⟨?_, by simp⟩, rfl⟩
    rw [List.mem_iff_getElem]
    exact ⟨p, by simpa using hp, by simp [hp]⟩
  rw [hfr] at hm
  rw [List.mem_singleton.1 hm]

theorem framesAt_range_ge (data : List (List Nat)) (p : Nat) (hp : data.length ≤ p) :
    framesAt data (List.range data.length) p = [] := by
  rw [← List.length_eq_zero_iff, framesAt_length _ _ (by simp), List.count_eq_zero_of_not_mem]
  simpa using hp

/-- C39, version 1: frame `i` belongs to scan position `i`, and may hold events several times. The frames of a position in the
result have the same events with the same multiplicities, and no frame has an event twice; positions without a frame in the file
have empty frames only. -/
theorem C39_v1 (data : List (List Nat)) (scanShape : List Nat) (hne : data ≠ []) (hl : data.length ≤ prod scanShape) :
    ∃ r k, toV3 1 data (List.range data.length) scanShape = .ok (r, k) ∧ r.length = prod scanShape ∧
      (∀ row ∈ r, row.length = k) ∧ (∀ row ∈ r, ∀ fr ∈ row, fr.Nodup) ∧
      ∀ p, p < prod scanShape → ∃ row, r[p]? = some row ∧ row.flatten.Perm (data.getD p []) := by
  have hpos : List.range data.length ≠ [] := by
    intro h
    apply hne
    have := congrArg List.length h
    simpa using this
  have hrange : ∀ q ∈ List.range data.length, q < prod scanShape := fun q hq => by
    have := List.mem_range.1 hq
    omega
  have hget : ∀ p, (framesAt data (List.range data.length) p).flatten = data.getD p [] := by
    intro p
    by_cases hp : p < data.length
    · rw [framesAt_range data p hp]; simp
    · rw [framesAt_range_ge data p (by omega)]
      simp [List.getElem?_eq_none (show data.length ≤ p by omega)]
  show ∃ r k, v1ToV3 data (List.range data.length) scanShape = .ok (r, k) ∧ _
  unfold v1ToV3 v1ToV2
  by_cases hv : isV1 data scanShape = true
  · rw [if_pos hv]
    have hsl := length_separate data (List.range data.length) (by simp)
    have hsne : (separate data (List.range data.length)).2 ≠ [] := by
      unfold separate
      simp only
      exact List.append_ne_nil_of_left_ne_nil hpos _
    obtain ⟨k, h1, h2, q, hq, hqk⟩ := v2ToV3_ok (separate data (List.range data.length)).1
      (separate data (List.range data.length)).2 scanShape hsne fun q hq => hrange q (separate_mem _ _ q hq)
    refine ⟨_, k, h1, by simp, ?_, ?_, ?_⟩
    · intro row hrow
      obtain ⟨p, -, rfl⟩ := List.mem_map.1 hrow
      exact length_pad _ _
    · intro row hrow fr hfr
      obtain ⟨p, -, rfl⟩ := List.mem_map.1 hrow
      rcases mem_pad hfr with hfr | rfl
      · exact nodup_separate _ _ fr (mem_framesAt hfr)
      · exact List.nodup_nil
    · intro p hp
      refine ⟨_, by rw [List.getElem?_map, List.getElem?_range hp, Option.map_some], ?_⟩
      rw [flatten_pad (by rw [framesAt_length _ _ hsl]; exact h2 p), framesAt_separate _ _ (by simp), ← hget p]
      exact perm_separate _
  · rw [if_neg hv]
    have hnd : ∀ fr ∈ data, fr.Nodup := by
      intro fr hfr
      unfold isV1 at hv
      rw [if_neg (by omega)] at hv
      rw [← length_unique_eq]
      by_contra hc
      exact hv (List.any_eq_true.2 ⟨fr, hfr, by simpa using hc⟩)
    obtain ⟨k, h1, h2, -⟩ := v2ToV3_ok data (List.range data.length) scanShape hpos hrange
    refine ⟨_, k, h1, by simp, ?_, ?_, ?_⟩
    · intro row hrow
      obtain ⟨p, -, rfl⟩ := List.mem_map.1 hrow
      exact length_pad _ _
    · intro row hrow fr hfr
      obtain ⟨p, -, rfl⟩ := List.mem_map.1 hrow
      rcases mem_pad hfr with hfr | rfl
      · exact hnd fr (mem_framesAt hfr)
      · exact List.nodup_nil
    · intro p hp
      refine ⟨_, by rw [List.getElem?_map, List.getElem?_range hp, Option.map_some], ?_⟩
      rw [flatten_pad (by rw [framesAt_length _ _ (by simp)]; exact h2 p), hget p]

/-- Version 1 whose frames hold no event twice, or with more frames than scan positions, is taken as version 2: the positions of
the file count. -/
theorem C39_v1_as_v2 (data : List (List Nat)) (positions scanShape : List Nat)
    (h : prod scanShape < data.length ∨ ∀ fr ∈ data, fr.Nodup) :
    toV3 1 data positions scanShape = toV3 2 data positions scanShape := by
  have hv : isV1 data scanShape = false := by
    unfold isV1
    rcases h with h | h
    · rw [if_pos h]
    · split
      · rfl
      · rw [Bool.eq_false_iff]
        intro hc
        obtain ⟨fr, hfr, h1⟩ := List.any_eq_true.1 hc
        have := (length_unique_eq fr).2 (h fr hfr)
        simp [this] at h1
  show v1ToV3 _ _ _ = v2ToV3 _ _ _
  unfold v1ToV3 v1ToV2
  rw [hv]; rfl

/-- The result of the conversion is a sparse array in the current format, with the events of the file. -/
theorem C39_array (data : List (List Nat)) (scanShape frameShape : List Nat) (hne : data ≠ []) (hl : data.length ≤ prod scanShape)
    (hs : scanShape.length = 2) (hlt : ∀ fr ∈ data, ∀ e ∈ fr, e < prod frameShape) :
    ∃ r k, toV3 1 data (List.range data.length) scanShape = .ok (r, k) ∧
      Sparse.WF { data := r, numFrames := k, scanShape := scanShape, frameShape := frameShape } ∧
      ∀ p q, p < prod scanShape → Sparse.eventCount
        { data := r, numFrames := k, scanShape := scanShape, frameShape := frameShape } p q = (data.getD p []).count q := by
  obtain ⟨r, k, h1, h2, h3, h4, h5⟩ := C39_v1 data scanShape hne hl
  refine ⟨r, k, h1, ⟨.inr hs, h2, h3, ?_, h4⟩, ?_⟩
  · intro row hrow fr hfr e he
    obtain ⟨p, hp, hpr⟩ := List.mem_iff_getElem.1 hrow
    obtain ⟨row', hr, hperm⟩ := h5 p (by rw [← h2]; exact hp)
    rw [List.getElem?_eq_getElem hp, hpr] at hr
    injection hr with hr
    subst hr
    have he2 := hperm.mem_iff.1 (List.mem_flatten.2 ⟨fr, hfr, he⟩)
    by_cases hp2 : p < data.length
    · rw [List.getD_eq_getElem?_getD, List.getElem?_eq_getElem hp2] at he2
      exact hlt _ (List.getElem_mem hp2) e he2
    · rw [List.getD_eq_getElem?_getD, List.getElem?_eq_none (by omega)] at he2
      simp at he2
  · intro p q hp
    obtain ⟨row, hr, hperm⟩ := h5 p hp
    unfold Sparse.eventCount
    rw [List.getD_eq_getElem?_getD, hr]
    exact hperm.count_eq q

/-- A file without frames is refused. -/
theorem C39_empty (scanShape : List Nat) : toV3 2 [] [] scanShape = .throw "ValueError" := rfl

/-- The positions of a version 1 file with repeated events are ignored: the events of position 1 end up at position 0. -/
theorem C39_v1_positions : toV3 1 [[7, 7], [5]] [1, 0] [1, 2] = .ok ([[[7], [7]], [[5], []]], 2) ∧
    framesAt [[7, 7], [5]] [1, 0] 1 = [[7, 7]] := by decide

/-- Two frames at position 1, given out of order, and none at position 2. -/
example : toV3 2 [[1, 2], [7], [3], [1]] [1, 0, 1, 3] [2, 2] = .ok ([[[7], []], [[1, 2], [3]], [[], []], [[1], []]], 2) ∧
    (∀ q ∈ [1, 0, 1, 3], q < prod [2, 2]) := by decide

/-- A frame with an event three times. -/
example : toV3 1 [[4, 2, 4, 4], [], [1, 1]] (List.range 3) [2, 2] =
    .ok ([[[2, 4], [4], [4]], [[], [], []], [[1], [1], []], [[], [], []]], 3) := by decide

end Stempy.Compat
