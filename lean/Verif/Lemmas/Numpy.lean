import Verif.Model.Numpy
import Mathlib.Data.List.Nodup
import Mathlib.Data.List.Count
import Mathlib.Data.List.Perm.Subperm
import Mathlib.Tactic.Linarith
import Mathlib.Tactic.Ring

/-! # Facts about the NumPy operations -/

namespace Stempy.Numpy

theorem gather_ok {α : Type} (l : List α) (idx : List Nat) (d : α) (h : ∀ i ∈ idx, i < l.length) :
    gather l idx = .ok (idx.map fun i => l.getD i d) := by
  refine mapM_ok _ _ _ fun i hi => ?_
  have := h i hi
  simp [this]

theorem gather_throw {α : Type} (l : List α) (idx : List Nat) (h : ∃ i ∈ idx, l.length ≤ i) :
    gather l idx = .throw "IndexError" := by
  induction idx with
  | nil => simp at h
  | cons i idx ih =>
    rw [gather, List.mapM_cons]
    by_cases hi : i < l.length
    · have h2 : ∃ i ∈ idx, l.length ≤ i := by
        obtain ⟨j, hj, hlt⟩ := h
        rcases List.mem_cons.1 hj with rfl | hj
        · omega
        · exact ⟨j, hj, hlt⟩
      have := ih h2
      rw [gather] at this
      rw [this]
      simp [hi]
    · have hn : l[i]? = none := by simp; omega
      rw [hn]; rfl

theorem scatter_map {α : Type} (f : Nat → α) (idx : List Nat) (l : List α) (h : ∀ i ∈ idx, i < l.length) (d : α) :
    scatter l idx (idx.map f) = .ok ((List.range l.length).map fun q => if q ∈ idx then f q else l.getD q d) := by
  induction idx generalizing l with
  | nil =>
    simp only [scatter, List.zip_nil_left, List.foldlM_nil, Outcome.pure_eq, List.not_mem_nil, if_false]
    congr 1
    apply List.ext_getElem
    · simp
    · intro i h1 h2; simp [h1]
  | cons i idx ih =>
    have hi : i < l.length := h i (by simp)
    have h2 : scatter l (i :: idx) ((i :: idx).map f) = scatter (l.set i (f i)) idx (idx.map f) := by
      simp only [scatter, List.map_cons, List.zip_cons_cons, List.foldlM_cons, if_pos hi, Outcome.ok_bind]
    rw [h2, ih (l.set i (f i)) (fun j hj => by rw [List.length_set]; exact h j (by simp [hj])), List.length_set]
    congr 1
    refine List.map_congr_left fun q hq => ?_
    have hq := List.mem_range.1 hq
    by_cases hm : q ∈ idx
    · simp [hm]
    · simp only [hm, if_false, List.mem_cons, or_false]
      by_cases hqi : q = i
      · subst hqi; simp [hq]
      · rw [if_neg hqi]; simp [Ne.symm hqi]

theorem increment_ok (l idx : List Nat) (h : ∀ i ∈ idx, i < l.length) :
    increment l idx = .ok ((List.range l.length).map fun q => l.getD q 0 + if q ∈ idx then 1 else 0) := by
  rw [increment, gather_ok l idx 0 h, Outcome.ok_bind, List.map_map, scatter_map _ idx l h 0]
  congr 1
  refine List.map_congr_left fun q hq => ?_
  by_cases hm : q ∈ idx <;> simp [hm]

/-- Frames are added one after the other. -/
theorem increments_ok (n : Nat) (frames : List (List Nat)) (f : Nat → Nat) (h : ∀ fr ∈ frames, ∀ e ∈ fr, e < n) :
    frames.foldlM increment ((List.range n).map f) =
      .ok ((List.range n).map fun q => f q + frames.countP fun fr => decide (q ∈ fr)) := by
  induction frames generalizing f with
  | nil => simp
  | cons fr frames ih =>
    rw [List.foldlM_cons, increment_ok _ _ (by simpa using h fr (by simp)), Outcome.ok_bind]
    have h2 : ((List.range ((List.range n).map f).length).map fun q =>
        ((List.range n).map f).getD q 0 + if q ∈ fr then 1 else 0) =
        (List.range n).map fun q => f q + if q ∈ fr then 1 else 0 := by
      rw [List.length_map, List.length_range]
      refine List.map_congr_left fun q hq => ?_
      have hq := List.mem_range.1 hq
      simp [hq]
    rw [h2, ih _ (fun fr2 hfr => h fr2 (by simp [hfr]))]
    congr 1
    refine List.map_congr_left fun q _ => ?_
    rw [List.countP_cons]
    by_cases hm : q ∈ fr <;> (simp [hm]; try omega)

theorem replicate_eq_map (n : Nat) (x : Nat) : List.replicate n x = (List.range n).map fun _ => x := by
  rw [List.map_const', List.length_range]

/-- Without duplicates in a frame the number of frames with the event is the number of events. -/
theorem countP_mem (frames : List (List Nat)) (q : Nat) (h : ∀ fr ∈ frames, fr.Nodup) :
    (frames.countP fun fr => decide (q ∈ fr)) = frames.flatten.count q := by
  induction frames with
  | nil => rfl
  | cons fr frames ih =>
    rw [List.countP_cons, List.flatten_cons, List.count_append, ih fun f hf => h f (by simp [hf])]
    by_cases hm : q ∈ fr
    · rw [List.count_eq_one_of_mem (h fr (by simp)) hm]; simp [hm]; omega
    · rw [List.count_eq_zero_of_not_mem hm]; simp [hm]

theorem mem_insertSorted (x y : Nat) (l : List Nat) : y ∈ insertSorted x l ↔ y = x ∨ y ∈ l := by
  induction l with
  | nil => simp [insertSorted]
  | cons z l ih =>
    rw [insertSorted]
    split
    · simp
    · split
      · rename_i h; subst h; simp
      · simp only [List.mem_cons, ih]
        constructor
        · rintro (h | h | h) <;> simp [h]
        · rintro (h | h | h) <;> simp [h]

theorem sorted_insertSorted (x : Nat) (l : List Nat) (h : l.Pairwise (· < ·)) : (insertSorted x l).Pairwise (· < ·) := by
  induction l with
  | nil => simp [insertSorted]
  | cons z l ih =>
    rw [insertSorted]
    have hz := List.pairwise_cons.1 h
    split
    · rename_i hx
      refine List.pairwise_cons.2 ⟨fun y hy => ?_, h⟩
      rcases List.mem_cons.1 hy with rfl | hy
      · exact hx
      · exact lt_trans hx (hz.1 y hy)
    · split
      · exact h
      · refine List.pairwise_cons.2 ⟨fun y hy => ?_, ih hz.2⟩
        rcases (mem_insertSorted _ _ _).1 hy with rfl | hy
        · omega
        · exact hz.1 y hy

theorem mem_unique (l : List Nat) (x : Nat) : x ∈ unique l ↔ x ∈ l := by
  induction l with
  | nil => simp [unique]
  | cons y l ih =>
    have : unique (y :: l) = insertSorted y (unique l) := rfl
    rw [this, mem_insertSorted, ih, List.mem_cons]

theorem sorted_unique (l : List Nat) : (unique l).Pairwise (· < ·) := by
  induction l with
  | nil => simp [unique]
  | cons y l ih => exact sorted_insertSorted _ _ ih

theorem nodup_unique (l : List Nat) : (unique l).Nodup :=
  (sorted_unique l).imp fun h => Nat.ne_of_lt h

theorem length_unique_le (l : List Nat) : (unique l).length ≤ l.length :=
  (List.Nodup.subperm (nodup_unique l) fun x hx => (mem_unique l x).1 hx).length_le

theorem length_unique_eq (l : List Nat) : (unique l).length = l.length ↔ l.Nodup := by
  constructor
  · intro h
    have hs := List.Nodup.subperm (nodup_unique l) fun x hx => (mem_unique l x).1 hx
    exact (hs.perm_of_length_le h.ge).nodup_iff.1 (nodup_unique l)
  · intro h
    refine le_antisymm (length_unique_le l) ?_
    exact (List.Nodup.subperm h fun x hx => (mem_unique l x).2 hx).length_le

theorem foldl_max (l : List Nat) (x : Nat) : l.foldl max x = max x (l.foldl max 0) := by
  induction l generalizing x with
  | nil => simp
  | cons y l ih => rw [List.foldl_cons, List.foldl_cons, ih (max x y), ih (max 0 y)]; simp [max_assoc]

theorem le_foldl_max {l : List Nat} {x y : Nat} (h : x ≤ y ∨ ∃ z ∈ l, x ≤ z) : x ≤ l.foldl max y := by
  induction l generalizing y with
  | nil => simpa using h
  | cons z l ih =>
    rw [List.foldl_cons]
    apply ih
    rcases h with h | ⟨w, hw, h⟩
    · left; omega
    · rcases List.mem_cons.1 hw with rfl | hw
      · left; omega
      · exact .inr ⟨w, hw, h⟩

theorem foldl_max_mem (l : List Nat) (y : Nat) : l.foldl max y = y ∨ l.foldl max y ∈ l := by
  induction l generalizing y with
  | nil => simp
  | cons z l ih =>
    rw [List.foldl_cons]
    rcases ih (max y z) with h | h
    · rcases max_choice y z with h2 | h2
      · left; rw [h, h2]
      · right; rw [h, h2]; simp
    · right; simp [h]

/-- The maximum is an element and an upper bound. -/
theorem maxOf_spec {l : List Nat} {m : Nat} : maxOf l = .ok m ↔ m ∈ l ∧ ∀ x ∈ l, x ≤ m := by
  cases l with
  | nil => simp [maxOf]
  | cons x l =>
    simp only [maxOf, Outcome.ok.injEq]
    constructor
    · rintro rfl
      constructor
      · rcases foldl_max_mem l x with h | h
        · rw [h]; simp
        · simp [h]
      · intro y hy
        apply le_foldl_max
        rcases List.mem_cons.1 hy with rfl | hy
        · exact .inl le_rfl
        · exact .inr ⟨y, hy, le_rfl⟩
    · rintro ⟨h1, h2⟩
      refine le_antisymm ?_ ?_
      · rcases foldl_max_mem l x with h | h
        · rw [h]; exact h2 x (by simp)
        · exact h2 _ (by simp [h])
      · apply le_foldl_max
        rcases List.mem_cons.1 h1 with rfl | h1
        · exact .inl le_rfl
        · exact .inr ⟨m, h1, le_rfl⟩

theorem foldl_min_mem (l : List Nat) (y : Nat) : l.foldl min y = y ∨ l.foldl min y ∈ l := by
  induction l generalizing y with
  | nil => simp
  | cons z l ih =>
    rw [List.foldl_cons]
    rcases ih (min y z) with h | h
    · rcases min_choice y z with h2 | h2
      · left; rw [h, h2]
      · right; rw [h, h2]; simp
    · right; simp [h]

theorem foldl_min_le {l : List Nat} {x y : Nat} (h : y ≤ x ∨ ∃ z ∈ l, z ≤ x) : l.foldl min y ≤ x := by
  induction l generalizing y with
  | nil => simpa using h
  | cons z l ih =>
    rw [List.foldl_cons]
    apply ih
    rcases h with h | ⟨w, hw, h⟩
    · left; omega
    · rcases List.mem_cons.1 hw with rfl | hw
      · left; omega
      · exact .inr ⟨w, hw, h⟩

theorem minOf_spec {l : List Nat} {m : Nat} : minOf l = .ok m ↔ m ∈ l ∧ ∀ x ∈ l, m ≤ x := by
  cases l with
  | nil => simp [minOf]
  | cons x l =>
    simp only [minOf, Outcome.ok.injEq]
    constructor
    · rintro rfl
      constructor
      · rcases foldl_min_mem l x with h | h
        · rw [h]; simp
        · simp [h]
      · intro y hy
        apply foldl_min_le
        rcases List.mem_cons.1 hy with rfl | hy
        · exact .inl le_rfl
        · exact .inr ⟨y, hy, le_rfl⟩
    · rintro ⟨h1, h2⟩
      refine le_antisymm ?_ ?_
      · apply foldl_min_le
        rcases List.mem_cons.1 h1 with rfl | h1
        · exact .inl le_rfl
        · exact .inr ⟨m, h1, le_rfl⟩
      · rcases foldl_min_mem l x with h | h
        · rw [h]; exact h2 x (by simp)
        · exact h2 _ (by simp [h])

theorem prod_append (s t : List Nat) : prod (s ++ t) = prod s * prod t := by
  induction s with
  | nil => simp [prod]
  | cons n s ih => simp [prod, ih, Nat.mul_assoc]

theorem prod_take_drop (s : List Nat) (k : Nat) : prod (s.take k) * prod (s.drop k) = prod s := by
  rw [← prod_append, List.take_append_drop]

end Stempy.Numpy
