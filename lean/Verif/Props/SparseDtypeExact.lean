import Verif.Props.SparseDtype

/-!
# C77: exactly when the dense array, the maxima and the minima in an unsigned type are right
-/

namespace Stempy.Sparse
open Numpy

/-- C77: the dense array in an unsigned type has every count modulo 2 ^ bits. -/
theorem C77_dense (b : Nat) (a : SparseArray) (ha : WF a) :
    denseT (.uint b) a = .ok ⟨(dense a).shape, (dense a).flat.map fun n => n % 2 ^ b⟩ := by
  unfold denseT
  rw [mapM_ok _ _ (fun frames : List (List Nat) => (List.range (prod a.frameShape)).map fun q => frames.flatten.count q % 2 ^ b)]
  · rw [Outcome.ok_bind]
    congr 2
    rw [map_data a ha]
    simp only [dense, List.flatMap_def, List.map_flatten, List.map_map]
    congr 1
    refine List.map_congr_left fun p _ => ?_
    simp only [Function.comp, List.map_map]
    rfl
  · intro frames hr
    rw [replicate_eq_map, incrementsT_ok _ _ _ _ (ha.lt frames hr)]
    congr 1
    refine List.map_congr_left fun q _ => ?_
    rw [countUp_uint _ _ _ (Nat.two_pow_pos b), Nat.zero_add, countP_mem _ _ (ha.nodup frames hr)]

/-- C77: it is the dense array exactly if every count fits the type. -/
theorem C77_dense_iff (b : Nat) (a : SparseArray) (ha : WF a) :
    denseT (.uint b) a = .ok (dense a) ↔
      ∀ p, p < prod a.scanShape → ∀ q, q < prod a.frameShape → eventCount a p q < 2 ^ b := by
  rw [C77_dense b a ha]
  have h := map_mod_eq_iff (dense a).flat id (2 ^ b) (Nat.two_pow_pos b)
  simp only [List.map_id, id] at h
  have e : (Outcome.ok (⟨(dense a).shape, (dense a).flat.map fun n => n % 2 ^ b⟩ : NArray Nat) = .ok (dense a)) ↔
      ((dense a).flat.map fun n => n % 2 ^ b) = (dense a).flat := by
    constructor
    · intro e; injection e with e; exact congrArg NArray.flat e
    · intro e; rw [e]
  rw [e, h]
  simp only [dense, List.mem_flatMap, List.mem_map, List.mem_range]
  constructor
  · intro h p hp q hq; exact h _ ⟨p, hp, q, hq, rfl⟩
  · rintro h _ ⟨p, hp, q, hq, rfl⟩; exact h p hp q hq

/-! ### Maximum over the scan axes -/

/-- The maxima in the type: converted after each scan position. -/
theorem maxScanT_eq (b n : Nat) (data : List (List (List Nat))) (f : Nat → Nat)
    (h : ∀ row ∈ data, ∀ fr ∈ row, ∀ e ∈ fr, e < n) (hne : ∀ row ∈ data, 0 < row.length) (hf : ∀ q, f q < 2 ^ b) :
    data.foldlM (fun r frames => do
      let c ← concatenate frames
      let old ← gather r (unique c)
      scatter r (unique c) ((List.zipWith Max.max old (counts c)).map (DType.uint b).store)) ((List.range n).map f) =
      .ok ((List.range n).map fun q => (data.map fun row => row.flatten.count q).foldl (fun r c => Max.max r c % 2 ^ b) (f q)) := by
  induction data generalizing f with
  | nil => simp
  | cons row data ih =>
    have hlt : ∀ e ∈ unique row.flatten, e < n := by
      intro e he
      obtain ⟨fr, hfr, he⟩ := List.mem_flatten.1 ((mem_unique _ _).1 he)
      exact h row (by simp) fr hfr e he
    rw [List.foldlM_cons, concatenate_ok (hne row (by simp)), Outcome.ok_bind,
      gather_ok _ _ 0 (by simpa using hlt), Outcome.ok_bind]
    have hz : (List.zipWith Max.max ((unique row.flatten).map fun i => ((List.range n).map f).getD i 0)
        (counts row.flatten)).map (DType.uint b).store =
        (unique row.flatten).map fun i => Max.max (f i) (row.flatten.count i) % 2 ^ b := by
      rw [counts, List.zipWith_map, List.zipWith_self, List.map_map]
      refine List.map_congr_left fun e he => ?_
      simp [hlt e he, DType.store]
    rw [hz, scatter_map _ _ _ (by simpa using hlt) 0, Outcome.ok_bind]
    have hs : ((List.range ((List.range n).map f).length).map fun q => if q ∈ unique row.flatten then
        Max.max (f q) (row.flatten.count q) % 2 ^ b else ((List.range n).map f).getD q 0) =
        (List.range n).map fun q => Max.max (f q) (row.flatten.count q) % 2 ^ b := by
      rw [List.length_map, List.length_range]
      refine List.map_congr_left fun q hq => ?_
      split
      · rfl
      · rename_i hm
        rw [mem_unique] at hm
        rw [List.count_eq_zero_of_not_mem hm]
        simp [List.mem_range.1 hq, Nat.mod_eq_of_lt (hf q)]
    rw [hs, ih _ (fun r hr => h r (by simp [hr])) (fun r hr => hne r (by simp [hr])) fun q => Nat.mod_lt _ (Nat.two_pow_pos b)]
    rfl

theorem foldl_max_lt {l : List Nat} {m s : Nat} : l.foldl Max.max s < m ↔ s < m ∧ ∀ x ∈ l, x < m := by
  induction l generalizing s with
  | nil => simp
  | cons x l ih =>
    rw [List.foldl_cons, ih, List.forall_mem_cons]
    constructor
    · rintro ⟨h1, h2⟩; exact ⟨by omega, by omega, h2⟩
    · rintro ⟨h1, h2, h3⟩; exact ⟨by omega, h3⟩

theorem foldl_max_mod {l : List Nat} {m s : Nat} (hm : 0 < m) (hs : s < m) :
    l.foldl (fun r c => Max.max r c % m) s < m ∧
      ((∀ x ∈ l, x < m) → l.foldl (fun r c => Max.max r c % m) s = l.foldl Max.max s) := by
  induction l generalizing s with
  | nil => exact ⟨hs, fun _ => rfl⟩
  | cons x l ih =>
    obtain ⟨h1, h2⟩ := ih (s := Max.max s x % m) (Nat.mod_lt _ hm)
    refine ⟨h1, fun h => ?_⟩
    have hx := h x (by simp)
    rw [List.foldl_cons, List.foldl_cons, h2 fun y hy => h y (by simp [hy]), Nat.mod_eq_of_lt (by omega)]

/-- C77: the maxima over the scan axes are those of the dense array exactly if every count fits the type. -/
theorem C77_max_scan_iff (b : Nat) (a : SparseArray) (ha : WF a) (hk : 0 < a.numFrames) (hs : 0 < prod a.scanShape) :
    maxScanT (.uint b) a = reduce maxOf (dense a) (scanAxes a) ↔
      ∀ p, p < prod a.scanShape → ∀ q, q < prod a.frameShape → eventCount a p q < 2 ^ b := by
  rw [maxScanT, replicate_eq_map, maxScanT_eq _ _ _ _ ha.lt (row_pos ha hk) (fun _ => Nat.two_pow_pos b), Outcome.ok_bind, reduce_scan,
    mapM_ok _ _ (fun q => (a.data.map fun row => row.flatten.count q).foldl Max.max 0), Outcome.ok_bind]
  · have e : ∀ q, (a.data.map fun row => row.flatten.count q).foldl (fun r c => Max.max r c % 2 ^ b) 0 =
        (a.data.map fun row => row.flatten.count q).foldl Max.max 0 ↔ ∀ p, p < prod a.scanShape → eventCount a p q < 2 ^ b := by
      intro q
      rw [map_data a ha]
      obtain ⟨h1, h2⟩ := foldl_max_mod (l := (List.range (prod a.scanShape)).map fun p => (a.data.getD p []).flatten.count q)
        (Nat.two_pow_pos b) (Nat.two_pow_pos b)
      have h3 : (∀ x ∈ (List.range (prod a.scanShape)).map fun p => (a.data.getD p []).flatten.count q, x < 2 ^ b) ↔
          ∀ p, p < prod a.scanShape → eventCount a p q < 2 ^ b := by
        simp only [List.mem_map, List.mem_range]
        constructor
        · intro h p hp; exact h _ ⟨p, hp, rfl⟩
        · rintro h _ ⟨p, hp, rfl⟩; exact h p hp
      rw [← h3]
      constructor
      · intro h
        rw [h] at h1
        exact (foldl_max_lt.1 h1).2
      · exact h2
    constructor
    · intro h p hp q hq
      injection h with h
      have h := congrArg NArray.flat h
      simp only [List.map_inj_left, List.mem_range] at h
      exact (e q).1 (h q hq) p hp
    · intro h
      congr 2
      refine List.map_congr_left fun q hq => ?_
      exact (e q).2 fun p hp => h p hp q (List.mem_range.1 hq)
  · intro q _
    rw [map_data a ha, maxOf_ne]
    · rfl
    · simp; omega

/-! ### Minimum over the scan axes -/

theorem minScanT_eq (b n : Nat) (data : List (List (List Nat))) (f : Nat → Nat)
    (h : ∀ row ∈ data, ∀ fr ∈ row, ∀ e ∈ fr, e < n) (hne : ∀ row ∈ data, 0 < row.length) :
    data.foldlM (fun r frames => do
      let c ← concatenate frames
      let expanded ← scatter (List.replicate n 0) (unique c) ((counts c).map (DType.uint b).store)
      .ok (List.zipWith Min.min r expanded)) ((List.range n).map f) =
      .ok ((List.range n).map fun q => (data.map fun row => row.flatten.count q % 2 ^ b).foldl Min.min (f q)) := by
  induction data generalizing f with
  | nil => simp
  | cons row data ih =>
    have hlt : ∀ e ∈ unique row.flatten, e < n := by
      intro e he
      obtain ⟨fr, hfr, he⟩ := List.mem_flatten.1 ((mem_unique _ _).1 he)
      exact h row (by simp) fr hfr e he
    rw [List.foldlM_cons, concatenate_ok (hne row (by simp)), Outcome.ok_bind, counts, List.map_map,
      scatter_map _ _ _ (by simpa using hlt) 0, Outcome.ok_bind, Outcome.ok_bind]
    have hs : List.zipWith Min.min ((List.range n).map f) ((List.range (List.replicate n 0).length).map fun q =>
        if q ∈ unique row.flatten then ((DType.uint b).store ∘ fun x => row.flatten.count x) q else (List.replicate n 0).getD q 0) =
        (List.range n).map fun q => Min.min (f q) (row.flatten.count q % 2 ^ b) := by
      rw [List.length_replicate, List.zipWith_map, List.zipWith_self]
      refine List.map_congr_left fun q hq => ?_
      split
      · rfl
      · rename_i hm
        rw [mem_unique] at hm
        rw [List.count_eq_zero_of_not_mem hm]
        simp [List.mem_range.1 hq]
    rw [hs, ih _ (fun r hr => h r (by simp [hr])) fun r hr => hne r (by simp [hr])]
    rfl

/-- C77: the minima over the scan axes are those of the dense array exactly if for every pixel there is a count which fits the type
and is not above any count converted to the type. -/
theorem C77_min_scan_iff (b : Nat) (a : SparseArray) (ha : WF a) (hk : 0 < a.numFrames) (hs : 0 < prod a.scanShape) :
    minScanT (.uint b) a = reduce minOf (dense a) (scanAxes a) ↔
      ∀ q, q < prod a.frameShape → ∃ p, p < prod a.scanShape ∧ ∀ p', p' < prod a.scanShape → eventCount a p q ≤ eventCount a p' q % 2 ^ b := by
  have hmin : ∀ q, ∃ m, minOf ((List.range (prod a.scanShape)).map fun p => eventCount a p q) = .ok m := by
    intro q
    cases h : (List.range (prod a.scanShape)).map fun p => eventCount a p q with
    | nil => simp at h; omega
    | cons x l => exact ⟨_, rfl⟩
  choose M hM using hmin
  have hT : ∀ q, minOf ((List.range (prod a.scanShape)).map fun p => eventCount a p q % 2 ^ b) =
      .ok ((a.data.map fun row => row.flatten.count q % 2 ^ b).foldl Min.min (2 ^ b - 1)) := by
    intro q
    rw [map_data a ha, foldl_min_eq (m := 2 ^ b - 1)]
    · rfl
    · simp; omega
    · intro x hx
      obtain ⟨p, hp, rfl⟩ := List.mem_map.1 hx
      have := Nat.mod_lt (eventCount a p q) (Nat.two_pow_pos b)
      omega
  rw [reduce_scan, minScanT]
  simp only [DType.max, Outcome.ok_bind]
  rw [replicate_eq_map _ (2 ^ b - 1), minScanT_eq _ _ _ _ ha.lt (row_pos ha hk), Outcome.ok_bind, mapM_ok _ _ M fun q _ => hM q,
    Outcome.ok_bind]
  have e : ∀ q, (a.data.map fun row => row.flatten.count q % 2 ^ b).foldl Min.min (2 ^ b - 1) = M q ↔
      ∃ p, p < prod a.scanShape ∧ ∀ p', p' < prod a.scanShape → eventCount a p q ≤ eventCount a p' q % 2 ^ b := by
    intro q
    obtain ⟨m1, m2⟩ := minOf_spec.1 (hM q)
    have m2 : ∀ p, p < prod a.scanShape → M q ≤ eventCount a p q :=
      fun p hp => m2 _ (List.mem_map.2 ⟨p, List.mem_range.2 hp, rfl⟩)
    obtain ⟨p0, hp0, hm1⟩ := List.mem_map.1 m1
    have hp0 := List.mem_range.1 hp0
    have hTq := minOf_spec (m := M q) (l := (List.range (prod a.scanShape)).map fun p => eventCount a p q % 2 ^ b)
    rw [hT q] at hTq
    constructor
    · intro h
      obtain ⟨-, t2⟩ := hTq.1 (by rw [h])
      refine ⟨p0, hp0, fun p' hp' => ?_⟩
      rw [hm1]
      exact t2 _ (List.mem_map.2 ⟨p', List.mem_range.2 hp', rfl⟩)
    · rintro ⟨p, hp, h⟩
      have e1 : eventCount a p q % 2 ^ b = eventCount a p q :=
        Nat.le_antisymm (Nat.mod_le _ _) (h p hp)
      have e2 : eventCount a p q = M q := by
        refine Nat.le_antisymm ?_ (m2 p hp)
        rw [← hm1]
        exact (h p0 hp0).trans (Nat.mod_le _ _)
      have := hTq.2 ⟨List.mem_map.2 ⟨p, List.mem_range.2 hp, by rw [e1, e2]⟩, fun x hx => by
        obtain ⟨p', hp', rfl⟩ := List.mem_map.1 hx
        rw [← e2]
        exact h p' (List.mem_range.1 hp')⟩
      injection this
  constructor
  · intro h q hq
    injection h with h
    have h := congrArg NArray.flat h
    simp only [List.map_inj_left, List.mem_range] at h
    exact (e q).1 (h q hq)
  · intro h
    congr 2
    refine List.map_congr_left fun q hq => ?_
    exact (e q).2 (h q (List.mem_range.1 hq))

/-! ### Over the frame axes -/

theorem mapM_frame_iff {α : Type} (L : List α) (f : α → Outcome Nat) (v : α → Nat) (m : Nat) (h : ∀ x ∈ L, f x = .ok (v x)) (hm : 0 < m) :
    (L.mapM fun x => do let n ← f x; Outcome.ok (n % m)) = L.mapM f ↔ ∀ x ∈ L, v x < m := by
  rw [mapM_ok _ _ v h, mapM_ok _ _ (fun x => v x % m) fun x hx => by rw [h x hx]; rfl, ← map_mod_eq_iff L v m hm]
  constructor
  · intro e; injection e
  · intro e; rw [e]

/-- C77: over the frame axes the maxima are those of the dense array exactly if every count fits the type (with an event at every scan
position, otherwise see `C41_max_frame_false`), the minima exactly if every scan position has a count which does. -/
theorem C77_extrema_frame_iff (b : Nat) (a : SparseArray) (ha : WF a) (hk : 0 < a.numFrames) (hf : 0 < prod a.frameShape) :
    ((∀ p, p < prod a.scanShape → (a.data.getD p []).flatten ≠ []) →
      (maxFrameT (.uint b) a = reduce maxOf (dense a) (frameAxes a) ↔
        ∀ p, p < prod a.scanShape → ∀ q, q < prod a.frameShape → eventCount a p q < 2 ^ b)) ∧
    (minFrameT (.uint b) a = reduce minOf (dense a) (frameAxes a) ↔
      ∀ p, p < prod a.scanShape → ∃ q, q < prod a.frameShape ∧ eventCount a p q < 2 ^ b) := by
  have hne : ∀ p, ((List.range (prod a.frameShape)).map fun q => eventCount a p q) ≠ [] := by
    intro p; simp; omega
  have okIff : ∀ (l l' : Outcome (List Nat)), ((do let x ← l; Outcome.ok (⟨a.scanShape, x⟩ : NArray Nat)) = (do
      let x ← l'; Outcome.ok ⟨a.scanShape, x⟩)) ↔ l = l' := by
    intro l l'
    constructor
    · intro h
      cases l <;> cases l' <;> simp_all [Outcome.ok_bind]
    · rintro rfl; rfl
  constructor
  · intro hev
    have hv : ∀ p ∈ List.range (prod a.scanShape), maxOf ((List.range (prod a.frameShape)).map fun q => eventCount a p q) =
        .ok (((List.range (prod a.frameShape)).map fun q => eventCount a p q).foldl Max.max 0) := fun p _ => maxOf_ne (hne p)
    rw [reduce_frame, maxFrameT, perPosition_eq a ha, okIff]
    have e : ((List.range (prod a.scanShape)).mapM fun p => do
        let c ← concatenate (a.data.getD p [])
        let m ← maxOf (counts c)
        Outcome.ok ((DType.uint b).store m)) = ((List.range (prod a.scanShape)).mapM fun p => do
          let n ← maxOf ((List.range (prod a.frameShape)).map fun q => eventCount a p q)
          Outcome.ok (n % 2 ^ b)) := by
      refine mapM_congr' _ _ _ fun p hp => ?_
      have hp := List.mem_range.1 hp
      rw [concatenate_ok (getD_pos ha hk hp), Outcome.ok_bind, maxFrame_row (events_lt ha hp) (hev p hp)]
      rfl
    rw [e, mapM_frame_iff _ _ _ _ hv (Nat.two_pow_pos b)]
    refine forall_congr' fun p => ?_
    rw [List.mem_range]
    refine imp_congr_right fun _ => ?_
    rw [foldl_max_lt]
    simp only [List.mem_map, List.mem_range]
    constructor
    · rintro ⟨-, h⟩ q hq; exact h _ ⟨q, hq, rfl⟩
    · intro h
      refine ⟨Nat.two_pow_pos b, ?_⟩
      rintro _ ⟨q, hq, rfl⟩
      exact h q hq
  · have hmin : ∀ p, ∃ m, minOf ((List.range (prod a.frameShape)).map fun q => eventCount a p q) = .ok m := by
      intro p
      cases h : (List.range (prod a.frameShape)).map fun q => eventCount a p q with
      | nil => exact absurd h (hne p)
      | cons x l => exact ⟨_, rfl⟩
    choose M hM using hmin
    rw [reduce_frame, minFrameT]
    show perPosition a (2 ^ b - 1) _ = _ ↔ _
    rw [perPosition_eq a ha, okIff]
    have e : ((List.range (prod a.scanShape)).mapM fun p => do
        let c ← concatenate (a.data.getD p [])
        if (counts c).length < prod a.frameShape then Outcome.ok 0
        else do
          let x ← minOf (counts c)
          Outcome.ok ((DType.uint b).store x)) = ((List.range (prod a.scanShape)).mapM fun p => do
          let n ← minOf ((List.range (prod a.frameShape)).map fun q => eventCount a p q)
          Outcome.ok (n % 2 ^ b)) := by
      refine mapM_congr' _ _ _ fun p hp => ?_
      have hp := List.mem_range.1 hp
      rw [concatenate_ok (getD_pos ha hk hp), Outcome.ok_bind]
      have := minFrame_row (events_lt ha hp)
      rw [show minOf ((List.range (prod a.frameShape)).map fun q => eventCount a p q) = _ from this.symm]
      split
      · simp [Outcome.ok_bind]
      · rfl
    rw [e, mapM_frame_iff _ _ M _ (fun p _ => hM p) (Nat.two_pow_pos b)]
    refine forall_congr' fun p => ?_
    rw [List.mem_range]
    refine imp_congr_right fun _ => ?_
    obtain ⟨m1, m2⟩ := minOf_spec.1 (hM p)
    constructor
    · intro h
      obtain ⟨q, hq, hqM⟩ := List.mem_map.1 m1
      exact ⟨q, List.mem_range.1 hq, by rw [hqM]; exact h⟩
    · rintro ⟨q, hq, h⟩
      exact Nat.lt_of_le_of_lt (m2 _ (List.mem_map.2 ⟨q, List.mem_range.2 hq, rfl⟩)) h

/-- Two scan positions, 5 and 2 frames with an event of pixel 0, and types of 2 and 3 bits: the maximum and the minimum in 2 bits are wrong. -/
example :
    let a : SparseArray := { data := [List.replicate 5 [0], [[0], [0], [1], [], []]], numFrames := 5, scanShape := [2], frameShape := [1, 2] }
    WF a ∧ 0 < a.numFrames ∧ 0 < prod a.scanShape ∧ 0 < prod a.frameShape ∧ (∀ p, p < prod a.scanShape → (a.data.getD p []).flatten ≠ []) ∧
    maxScanT (.uint 2) a = .ok ⟨[1, 2], [2, 1]⟩ ∧ minScanT (.uint 2) a = .ok ⟨[1, 2], [1, 0]⟩ ∧
    denseT (.uint 2) a = .ok ⟨[2, 1, 2], [1, 0, 2, 1]⟩ ∧
    maxScanT (.uint 3) a = .ok ⟨[1, 2], [5, 1]⟩ ∧ minScanT (.uint 3) a = .ok ⟨[1, 2], [2, 0]⟩ ∧
    maxFrameT (.uint 2) a = .ok ⟨[2], [1, 2]⟩ ∧ minFrameT (.uint 2) a = .ok ⟨[2], [0, 1]⟩ := by
  refine ⟨⟨by decide, by decide, by decide, by decide, by decide⟩, by decide, by decide, by decide, by decide, ?_⟩
  decide +kernel

end Stempy.Sparse
