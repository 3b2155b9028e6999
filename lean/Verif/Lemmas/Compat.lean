import Verif.Model.Compat
import Verif.Lemmas.Numpy
import Verif.Lemmas.Loop
import Mathlib.Data.List.Perm.Basic

/-! # Facts about separating duplicates and placing frames -/

namespace Stempy.Compat
open Numpy

/-- The frames with scan position `p`, in the order of the file. -/
def framesAt (data : List (List Nat)) (positions : List Nat) (p : Nat) : List (List Nat) :=
  ((data.zip positions).filter fun x => x.2 = p).map fun x => x.1

/-- `k` frames: the given ones, then empty ones. -/
def pad (k : Nat) (l : List (List Nat)) : List (List Nat) := l.take k ++ List.replicate (k - l.length) []

theorem count_extraRows (row : List Nat) (x k fuel : Nat) :
    (extraRows row k fuel).flatten.count x = min fuel (row.count x - (k + 1)) := by
  induction fuel generalizing k with
  | zero => simp [extraRows]
  | succ fuel ih =>
    unfold extraRows
    split
    · rw [List.flatten_cons, List.count_append, ih]
      by_cases hx : row.count x > k + 1
      · have hm : x ∈ (unique row).filter fun x => row.count x > k + 1 := by
          rw [List.mem_filter]
          exact ⟨(mem_unique row x).2 (List.count_pos_iff.1 (by omega)), by simpa using hx⟩
        rw [List.count_eq_one_of_mem ((nodup_unique row).filter _) hm]
        omega
      · rw [List.count_eq_zero_of_not_mem]
        · omega
        · intro hm
          have := (List.mem_filter.1 hm).2
          simp at this; omega
    · rename_i h
      simp only [List.any_eq_true, decide_eq_true_eq, not_exists, not_and] at h
      have : row.count x ≤ k + 1 := by
        by_contra hc
        exact h x ((mem_unique row x).2 (List.count_pos_iff.1 (by omega))) (by omega)
      rw [Nat.sub_eq_zero_of_le this]; simp

/-- The row without duplicates and the extra rows together have the events of the row. -/
theorem perm_extraRows (row : List Nat) : (unique row ++ (extraRows row 0 row.length).flatten).Perm row := by
  rw [List.perm_iff_count]
  intro x
  rw [List.count_append, count_extraRows]
  have hle := List.count_le_length (l := row) (a := x)
  by_cases hx : x ∈ row
  · have := List.count_pos_iff.2 hx
    rw [List.count_eq_one_of_mem (nodup_unique row) ((mem_unique row x).2 hx)]
    omega
  · rw [List.count_eq_zero_of_not_mem (fun h => hx ((mem_unique row x).1 h)), List.count_eq_zero_of_not_mem hx]
    simp

theorem nodup_extraRows (row : List Nat) (k fuel : Nat) : ∀ fr ∈ extraRows row k fuel, fr.Nodup := by
  induction fuel generalizing k with
  | zero => simp [extraRows]
  | succ fuel ih =>
    unfold extraRows
    split
    · intro fr hfr
      rcases List.mem_cons.1 hfr with rfl | h
      · exact (nodup_unique row).filter _
      · exact ih _ _ h
    · simp

/-- No duplicates, no extra rows. -/
theorem extraRows_nodup {row : List Nat} (h : row.Nodup) (fuel : Nat) : extraRows row 0 fuel = [] := by
  cases fuel with
  | zero => rfl
  | succ fuel =>
    unfold extraRows
    rw [if_neg]
    simp only [List.any_eq_true, decide_eq_true_eq, not_exists, not_and]
    intro x _
    have := List.nodup_iff_count_le_one.1 h x
    omega

theorem framesAt_append {d d' : List (List Nat)} {p p' : List Nat} (h : d.length = p.length) (q : Nat) :
    framesAt (d ++ d') (p ++ p') q = framesAt d p q ++ framesAt d' p' q := by
  unfold framesAt
  rw [List.zip_append h, List.filter_append, List.map_append]

theorem framesAt_map (f : List Nat → List Nat) (d : List (List Nat)) (p : List Nat) (q : Nat) :
    framesAt (d.map f) p q = (framesAt d p q).map f := by
  unfold framesAt
  rw [List.zip_map_left, List.filter_map, List.map_map, List.map_map]
  rfl

theorem framesAt_extra (f : List Nat → List (List Nat)) (d : List (List Nat)) (p : List Nat) (h : d.length = p.length) (q : Nat) :
    framesAt (d.flatMap f) ((d.zip p).flatMap fun x => (f x.1).map fun _ => x.2) q = (framesAt d p q).flatMap f := by
  induction d generalizing p with
  | nil => rfl
  | cons a d ih =>
    cases p with
    | nil => simp at h
    | cons b p =>
      rw [List.flatMap_cons, List.zip_cons_cons, List.flatMap_cons, framesAt_append (by simp), ih p (by simpa using h)]
      have h2 : framesAt (f a) ((f a).map fun _ => b) q = if b = q then f a else [] := by
        unfold framesAt
        have : (f a).zip ((f a).map fun _ => b) = (f a).map fun x => (x, b) := by
          generalize f a = l
          induction l with
          | nil => rfl
          | cons y l ih => rw [List.map_cons, List.zip_cons_cons, ih, List.map_cons]
        rw [this, List.filter_map, List.map_map]
        by_cases hb : b = q
        · simp [hb, Function.comp_def]
        · simp [hb, Function.comp_def]
      rw [h2]
      unfold framesAt
      simp only [List.zip_cons_cons, List.filter_cons]
      by_cases hb : b = q
      · simp [hb]
      · simp [hb]

/-- Frames at a position after the separation: those of before without duplicates, then the extra rows. -/
theorem framesAt_separate (d : List (List Nat)) (p : List Nat) (h : d.length = p.length) (q : Nat) :
    framesAt (separate d p).1 (separate d p).2 q =
      (framesAt d p q).map unique ++ (framesAt d p q).flatMap fun row => extraRows row 0 row.length := by
  unfold separate
  rw [framesAt_append (by simpa using h), framesAt_map, framesAt_extra _ _ _ h]

theorem length_separate (d : List (List Nat)) (p : List Nat) (h : d.length = p.length) :
    (separate d p).1.length = (separate d p).2.length := by
  unfold separate
  simp only [List.length_append, List.length_map, h]
  congr 1
  induction d generalizing p with
  | nil => rfl
  | cons a d ih =>
    cases p with
    | nil => simp at h
    | cons b p =>
      simp only [List.flatMap_cons, List.zip_cons_cons, List.length_append, List.length_map]
      rw [ih p (by simpa using h)]

theorem separate_mem (d : List (List Nat)) (p : List Nat) (q : Nat) (h : q ∈ (separate d p).2) : q ∈ p := by
  unfold separate at h
  rcases List.mem_append.1 h with h | h
  · exact h
  · obtain ⟨x, hx, h⟩ := List.mem_flatMap.1 h
    obtain ⟨_, -, rfl⟩ := List.mem_map.1 h
    exact (List.of_mem_zip hx).2

theorem nodup_separate (d : List (List Nat)) (p : List Nat) : ∀ fr ∈ (separate d p).1, fr.Nodup := by
  intro fr h
  unfold separate at h
  rcases List.mem_append.1 h with h | h
  · obtain ⟨x, -, rfl⟩ := List.mem_map.1 h
    exact nodup_unique x
  · obtain ⟨x, -, h⟩ := List.mem_flatMap.1 h
    exact nodup_extraRows _ _ _ fr h

theorem perm_separate (l : List (List Nat)) :
    (l.map unique ++ l.flatMap fun row => extraRows row 0 row.length).flatten.Perm l.flatten := by
  rw [List.flatten_append]
  induction l with
  | nil => simp
  | cons row l ih =>
    simp only [List.map_cons, List.flatten_cons, List.flatMap_cons, List.flatten_append]
    have h1 : (unique row ++ (l.map unique).flatten ++ ((extraRows row 0 row.length).flatten ++
        (l.flatMap fun row => extraRows row 0 row.length).flatten)).Perm
        ((unique row ++ (extraRows row 0 row.length).flatten) ++ ((l.map unique).flatten ++
        (l.flatMap fun row => extraRows row 0 row.length).flatten)) := by
      rw [List.perm_iff_count]
      intro x
      simp only [List.count_append]
      omega
    exact h1.trans ((perm_extraRows row).append ih)

theorem framesAt_length (d : List (List Nat)) (p : List Nat) (h : d.length = p.length) (q : Nat) :
    (framesAt d p q).length = p.count q := by
  unfold framesAt
  rw [List.length_map, ← List.countP_eq_length_filter]
  have : p = (d.zip p).map Prod.snd := (List.map_snd_zip (by omega)).symm
  conv_rhs => rw [this, List.count_eq_countP, List.countP_map]
  apply List.countP_congr
  intro x _
  simp

/-- The slots of a position after some frames. -/
def slots (k : Nat) (l : List (List Nat)) : List (Option (List Nat)) :=
  (l.take k).map some ++ List.replicate (k - l.length) none

theorem putFirst_map_some (d : List Nat) (l : List (List Nat)) (r : List (Option (List Nat))) :
    putFirst d (l.map some ++ r) = l.map some ++ putFirst d r := by
  induction l with
  | nil => rfl
  | cons x l ih => simp [putFirst, ih]

theorem putFirst_slots (k : Nat) (d : List Nat) (l : List (List Nat)) : putFirst d (slots k l) = slots k (l ++ [d]) := by
  unfold slots
  rw [putFirst_map_some]
  by_cases h : l.length < k
  · have h1 : k - l.length = (k - (l.length + 1)) + 1 := by omega
    rw [h1, List.replicate_succ]
    simp only [putFirst, List.length_append, List.length_singleton]
    rw [List.take_of_length_le (by omega), List.take_of_length_le (by simp; omega)]
    simp
  · have h1 : k - l.length = 0 := by omega
    have h2 : k - (l ++ [d]).length = 0 := by simp; omega
    rw [h1, h2, List.take_append_of_le_length (by omega)]
    rfl

theorem place_fold (n k : Nat) (done rest : List (List Nat × Nat)) (h : ∀ x ∈ rest, x.2 < n) :
    rest.foldlM placeOne
      ((List.range n).map fun p => slots k ((done.filter fun x => x.2 = p).map fun x => x.1)) =
      (.ok ((List.range n).map fun p => slots k (((done ++ rest).filter fun x => x.2 = p).map fun x => x.1)) :
        Outcome (List (List (Option (List Nat))))) := by
  induction rest generalizing done with
  | nil => simp only [List.append_nil]; rfl
  | cons x rest ih =>
    have hx : x.2 < n := h x (by simp)
    rw [List.foldlM_cons]
    have h1 : ((List.range n).map fun p => slots k ((done.filter fun x => x.2 = p).map fun x => x.1))[x.2]? =
        some (slots k ((done.filter fun y => y.2 = x.2).map fun x => x.1)) := by
      simp [hx]
    have h3 : placeOne ((List.range n).map fun p => slots k ((done.filter fun x => x.2 = p).map fun x => x.1)) x =
        .ok (((List.range n).map fun p => slots k ((done.filter fun x => x.2 = p).map fun x => x.1)).set x.2
          (putFirst x.1 (slots k ((done.filter fun y => y.2 = x.2).map fun x => x.1)))) := by
      rw [placeOne, h1]
    rw [h3, Outcome.ok_bind]
    have h2 : ((List.range n).map fun p => slots k ((done.filter fun x => x.2 = p).map fun x => x.1)).set x.2
        (putFirst x.1 (slots k ((done.filter fun y => y.2 = x.2).map fun x => x.1))) =
        (List.range n).map fun p => slots k (((done ++ [x]).filter fun x => x.2 = p).map fun x => x.1) := by
      apply List.ext_getElem
      · simp
      · intro i h3 h4
        simp only [List.length_map, List.length_range] at h4
        rw [List.getElem_set]
        by_cases hi : x.2 = i
        · subst hi
          rw [if_pos rfl, putFirst_slots]
          simp
        · rw [if_neg hi]
          simp [List.filter_cons, hi]
    rw [h2, ih (done ++ [x]) fun y hy => h y (List.mem_cons_of_mem _ hy)]
    simp

theorem place_ok (n k : Nat) (data : List (List Nat)) (positions : List Nat) (h : ∀ q ∈ positions, q < n) :
    place n k data positions = .ok ((List.range n).map fun p => pad k (framesAt data positions p)) := by
  have h0 := place_fold n k [] (data.zip positions) fun x hx => h _ (List.of_mem_zip hx).2
  have h1 : (List.replicate n (List.replicate k (none : Option (List Nat)))) =
      (List.range n).map fun p => slots k ((([] : List (List Nat × Nat)).filter fun x => x.2 = p).map fun x => x.1) := by
    simp [slots, List.map_const']
  unfold place
  rw [h1, h0, Outcome.ok_bind, List.map_map, List.nil_append]
  congr 1
  refine List.map_congr_left fun p _ => ?_
  simp only [Function.comp, slots, pad, framesAt, List.map_append, List.map_map, List.map_replicate, Option.getD_none]
  congr 1
  exact List.map_id' _

theorem pad_eq {k : Nat} {l : List (List Nat)} (h : l.length ≤ k) : pad k l = l ++ List.replicate (k - l.length) [] := by
  unfold pad
  rw [List.take_of_length_le h]

theorem length_pad (k : Nat) (l : List (List Nat)) : (pad k l).length = k := by
  unfold pad
  simp; omega

theorem flatten_pad {k : Nat} {l : List (List Nat)} (h : l.length ≤ k) : (pad k l).flatten = l.flatten := by
  rw [pad_eq h, List.flatten_append]
  simp

theorem mem_pad {k : Nat} {l : List (List Nat)} {fr : List Nat} (h : fr ∈ pad k l) : fr ∈ l ∨ fr = [] := by
  unfold pad at h
  rcases List.mem_append.1 h with h | h
  · exact .inl (List.mem_of_mem_take h)
  · exact .inr (List.eq_of_mem_replicate h)

theorem mem_framesAt {d : List (List Nat)} {p : List Nat} {q : Nat} {fr : List Nat} (h : fr ∈ framesAt d p q) : fr ∈ d := by
  unfold framesAt at h
  obtain ⟨x, hx, rfl⟩ := List.mem_map.1 h
  exact (List.of_mem_zip (List.mem_filter.1 hx).1).1

end Stempy.Compat
