import Verif.Props.SparseBin
import Verif.Props.Compat

/-! # C43: binning detector pixels -/

namespace Stempy.Sparse
open Numpy Compat

theorem framesAt_replicate (row : List (List Nat)) (s p : Nat) :
    framesAt row (List.replicate row.length s) p = if s = p then row else [] := by
  unfold framesAt
  have h : row.zip (List.replicate row.length s) = row.map fun x => (x, s) := by
    induction row with
    | nil => rfl
    | cons y l ih => rw [List.length_cons, List.replicate_succ, List.zip_cons_cons, ih, List.map_cons]
  rw [h, List.filter_map, List.map_map]
  by_cases hb : s = p
  · simp [hb, Function.comp_def]
  · simp [hb, Function.comp_def]

/-- The frames of a position in the raveled data. -/
theorem framesAt_flatten (rows : List (List (List Nat))) (k s p : Nat) (h : ∀ row ∈ rows, row.length = k) :
    framesAt rows.flatten ((List.range' s rows.length).flatMap fun q => List.replicate k q) p =
      if s ≤ p then rows.getD (p - s) [] else [] := by
  induction rows generalizing s with
  | nil => simp [framesAt]
  | cons row rows ih =>
    have hk := h row (by simp)
    rw [List.flatten_cons, List.length_cons, List.range'_succ, List.flatMap_cons, framesAt_append (by simp [hk]),
      ih _ fun r hr => h r (List.mem_cons_of_mem _ hr), ← hk, framesAt_replicate]
    by_cases h1 : s = p
    · subst h1
      simp
    · by_cases h2 : s ≤ p
      · rw [if_neg h1, if_pos (by omega), if_pos h2]
        have : p - s = (p - (s + 1)) + 1 := by omega
        rw [this]
        simp
      · rw [if_neg h1, if_neg (by omega), if_neg h2]; simp

theorem binFrames_eq (a : SparseArray) (ha : WF a) (b f0 f1 : Nat) (hb : 0 < b) (hf : a.frameShape = [f0, f1])
    (h0 : b ∣ f0) (h1 : b ∣ f1) :
    ∃ r k, binFrames a b = .ok { a with data := r, numFrames := k, frameShape := [f0 / b, f1 / b] } ∧
      r.length = prod a.scanShape ∧ (∀ row ∈ r, row.length = k) ∧ (∀ row ∈ r, ∀ fr ∈ row, fr.Nodup) ∧
      ∀ p, p < prod a.scanShape → ∃ row, r[p]? = some row ∧
        row.flatten.Perm ((a.data.getD p []).flatten.map (binEvent f0 f1 b)) := by
  set rows := a.data.flatten.map fun frame => frame.map (binEvent f0 f1 b) with hrows
  set positions := (List.range (prod a.scanShape)).flatMap fun p => List.replicate a.numFrames p with hpos
  have hrlen : rows.length = positions.length := by
    rw [hrows, List.length_map, flatten_uniform_length _ _ ha.frames, ha.length, hpos, List.length_flatMap]
    simp
  have hplt : ∀ q ∈ positions, q < prod a.scanShape := by
    intro q hq
    obtain ⟨p, hp, hq⟩ := List.mem_flatMap.1 hq
    rw [List.eq_of_mem_replicate hq]
    exact List.mem_range.1 hp
  have hat : ∀ p, framesAt rows positions p = (a.data.getD p []).map fun frame => frame.map (binEvent f0 f1 b) := by
    intro p
    rw [hrows, framesAt_map, hpos, List.range_eq_range', ← ha.length, framesAt_flatten _ _ _ _ ha.frames]
    simp
  have hsl := length_separate rows positions hrlen
  have hslt : ∀ q ∈ (separate rows positions).2, q < prod a.scanShape := fun q hq => hplt q (separate_mem _ _ q hq)
  -- the number of frames is sufficient
  obtain ⟨k, hk, hcount⟩ : ∃ k, (if (separate rows positions).1.length > rows.length then
      maxOf (counts (separate rows positions).2) else .ok a.numFrames) = .ok k ∧
      ∀ p, p < prod a.scanShape → (separate rows positions).2.count p ≤ k := by
    by_cases hc : (separate rows positions).1.length > rows.length
    · rw [if_pos hc]
      obtain ⟨k, hk, h2, -⟩ := maxOf_counts (l := (separate rows positions).2) (by
        intro h
        rw [h] at hsl
        simp at hsl
        rw [hsl] at hc
        simp at hc)
      exact ⟨k, hk, fun p _ => h2 p⟩
    · rw [if_neg hc]
      refine ⟨_, rfl, fun p hp => ?_⟩
      rw [← framesAt_length _ _ hsl, framesAt_separate _ _ hrlen, List.length_append, List.length_map, hat p, List.length_map]
      have hno : rows.flatMap (fun row => extraRows row 0 row.length) = [] := by
        have : (separate rows positions).1.length = rows.length + (rows.flatMap fun row => extraRows row 0 row.length).length := by
          unfold separate; simp
        rw [← List.length_eq_zero_iff]; omega
      rw [List.flatMap_eq_nil_iff] at hno
      have h3 : (framesAt rows positions p).flatMap (fun row => extraRows row 0 row.length) = [] := by
        rw [List.flatMap_eq_nil_iff]
        exact fun x hx => hno x (mem_framesAt hx)
      rw [← hat p, h3, List.length_nil, Nat.add_zero, ha.frames _ (getD_mem _ _ _ (by rw [ha.length]; exact hp))]
  refine ⟨(List.range (prod a.scanShape)).map fun p =>
    pad k (framesAt (separate rows positions).1 (separate rows positions).2 p), k, ?_, ?_, ?_, ?_, ?_⟩
  · unfold binFrames
    rw [if_neg (by omega), if_pos (by simp [hf, Nat.mod_eq_zero_of_dvd h0, Nat.mod_eq_zero_of_dvd h1]), hf]
    simp only
    rw [← hrows, ← hpos]
    have hin : ∀ k', .ok k' = (Outcome.ok k : Outcome Nat) → (do
        let result ← place (prod a.scanShape) k' (separate rows positions).1 (separate rows positions).2
        SparseArray.init { a with data := result, numFrames := k', frameShape := [f0 / b, f1 / b] }) =
        .ok { a with
          data := (List.range (prod a.scanShape)).map fun p =>
            pad k (framesAt (separate rows positions).1 (separate rows positions).2 p)
          numFrames := k
          frameShape := [f0 / b, f1 / b] } := by
      intro k' hk'
      injection hk' with hk'
      subst hk'
      rw [place_ok _ _ _ _ hslt, Outcome.ok_bind]
      unfold SparseArray.init
      rw [if_pos]
      simp
    split
    · rename_i hc
      rw [if_pos hc] at hk
      rw [hk, Outcome.ok_bind]
      exact hin k rfl
    · rename_i hc
      rw [if_neg hc] at hk
      exact hin _ hk
  · simp
  · intro row hrow
    obtain ⟨p, -, rfl⟩ := List.mem_map.1 hrow
    exact length_pad _ _
  · intro row hrow fr hfr
    obtain ⟨p, -, rfl⟩ := List.mem_map.1 hrow
    rcases mem_pad hfr with hfr | rfl
    · exact nodup_separate _ _ fr (mem_framesAt hfr)
    · exact List.nodup_nil
  · intro p hp
    refine ⟨_, by rw [List.getElem?_map, List.getElem?_range hp, Option.map_some], ?_⟩
    rw [flatten_pad (by rw [framesAt_length _ _ hsl]; exact hcount p hp), framesAt_separate _ _ hrlen, hat p,
      List.map_flatten]
    exact perm_separate _

/-- C43, any frame shape: at every scan position every event is moved by `binEvent` and none is lost or added. -/
theorem C43_events (a : SparseArray) (ha : WF a) (b f0 f1 : Nat) (hb : 0 < b) (hf : a.frameShape = [f0, f1])
    (h0 : b ∣ f0) (h1 : b ∣ f1) :
    ∃ r, binFrames a b = .ok r ∧ r.scanShape = a.scanShape ∧ r.frameShape = [f0 / b, f1 / b] ∧
      r.sparseSlicing = a.sparseSlicing ∧ r.allowFullExpand = a.allowFullExpand ∧
      r.data.length = prod a.scanShape ∧ (∀ row ∈ r.data, row.length = r.numFrames) ∧
      (∀ row ∈ r.data, ∀ fr ∈ row, fr.Nodup) ∧
      ∀ p, p < prod a.scanShape → ∃ row, r.data[p]? = some row ∧
        row.flatten.Perm ((a.data.getD p []).flatten.map (binEvent f0 f1 b)) := by
  obtain ⟨r, k, h2, h3, h4, h5, h6⟩ := binFrames_eq a ha b f0 f1 hb hf h0 h1
  exact ⟨_, h2, rfl, rfl, rfl, rfl, h3, h4, h5, h6⟩

theorem binEvent_mem {b n R C e : Nat} (hb : 0 < b) (hn : 0 < n) (hC : C < n) :
    binEvent (n * b) (n * b) b e = R * n + C ↔ e ∈ block b (n * b) R C := by
  have hnb : 0 < n * b := Nat.mul_pos hn hb
  unfold binEvent block
  rw [Nat.mul_div_cancel _ hb]
  have hlt : e % (n * b) / b < n := by
    rw [Nat.div_lt_iff_lt_mul hb]
    exact Nat.mod_lt _ hnb
  simp only [List.mem_flatMap, List.mem_map, List.mem_range]
  constructor
  · intro h
    have hR : e / (n * b) / b = R := by
      have := congrArg (· / n) h
      simpa [flat_div _ hlt, flat_div _ hC] using this
    have hC2 : e % (n * b) / b = C := by
      have := congrArg (· % n) h
      simpa [flat_mod _ hlt, flat_mod _ hC] using this
    refine ⟨e / (n * b) % b, Nat.mod_lt _ hb, e % (n * b) % b, Nat.mod_lt _ hb, ?_⟩
    have e1 : R * b + e / (n * b) % b = e / (n * b) := by rw [← hR, Nat.mul_comm]; exact Nat.div_add_mod _ _
    have e2 : C * b + e % (n * b) % b = e % (n * b) := by rw [← hC2, Nat.mul_comm]; exact Nat.div_add_mod _ _
    rw [e1, e2, Nat.mul_comm]
    exact Nat.div_add_mod _ _
  · rintro ⟨u, hu, v, hv, rfl⟩
    have hcol : C * b + v < n * b := by
      calc C * b + v < C * b + b := by omega
        _ = (C + 1) * b := by ring
        _ ≤ n * b := Nat.mul_le_mul_right _ hC
    rw [flat_div _ hcol, flat_mod _ hcol, flat_div _ hu, flat_div _ hv]

theorem nodup_block {b n R C : Nat} (hC : C < n) : (block b (n * b) R C).Nodup := by
  have h := (block_perm b (R + 1) n).nodup_iff.2 List.nodup_range
  rw [List.nodup_flatMap] at h
  have h2 := h.1 R (by simp)
  rw [List.nodup_flatMap] at h2
  exact h2.1 C (by simpa using hC)

theorem count_map_binEvent {b n R C : Nat} (hb : 0 < b) (hn : 0 < n) (hC : C < n) (l : List Nat) :
    (l.map (binEvent (n * b) (n * b) b)).count (R * n + C) =
      ((List.range b).map fun u => ((List.range b).map fun v => l.count ((R * b + u) * (n * b) + (C * b + v))).sum).sum := by
  have h : (l.map (binEvent (n * b) (n * b) b)).count (R * n + C) = ((block b (n * b) R C).map fun p => l.count p).sum := by
    induction l with
    | nil => simp
    | cons e l ih =>
      rw [List.map_cons, List.count_cons, ih]
      simp only [List.count_cons]
      rw [sum_map_add']
      congr 1
      have h2 := binEvent_mem (e := e) (R := R) hb hn hC
      have h3 : ((block b (n * b) R C).map fun p => if (e == p) = true then 1 else 0).sum = (block b (n * b) R C).count e := by
        generalize block b (n * b) R C = l
        induction l with
        | nil => rfl
        | cons y l ih =>
          rw [List.map_cons, List.sum_cons, ih, List.count_cons]
          by_cases hy : e = y
          · subst hy; simp; omega
          · have hy2 : ¬ y = e := fun h => hy h.symm
            simp [hy, hy2]
      rw [h3]
      by_cases hm : e ∈ block b (n * b) R C
      · rw [List.count_eq_one_of_mem (nodup_block hC) hm, if_pos (by simpa using h2.2 hm)]
      · rw [List.count_eq_zero_of_not_mem hm, if_neg (by simpa using fun h => hm (h2.1 h))]
  rw [h, block, List.map_flatMap, List.flatMap_def, List.sum_flatten, List.map_map]
  simp [Function.comp_def]

/-- C43 for square frames. Every count of the result is the sum of the counts in the square of pixels, and the number of events at
every scan position does not change. Missing: other frame shapes, for which this is false (`C43_not_square`). -/
theorem C43_bin_frames_partial (a : SparseArray) (ha : WF a) (b f : Nat) (hb : 0 < b) (hf : a.frameShape = [f, f]) (h : b ∣ f) :
    ∃ r, binFrames a b = .ok r ∧ WF r ∧ r.scanShape = a.scanShape ∧ r.frameShape = [f / b, f / b] ∧
      (∀ p R C, p < prod a.scanShape → R < f / b → C < f / b → eventCount r p (R * (f / b) + C) =
        ((List.range b).map fun u => ((List.range b).map fun v => eventCount a p ((R * b + u) * f + (C * b + v))).sum).sum) ∧
      ∀ p, p < prod a.scanShape → (r.data.getD p []).flatten.length = (a.data.getD p []).flatten.length := by
  obtain ⟨r, h1, h2, h3, -, -, h4, h5, h6, h7⟩ := C43_events a ha b f f hb hf h h
  obtain ⟨n, rfl⟩ := h
  rw [Nat.mul_comm b n] at *
  rw [Nat.mul_div_cancel _ hb] at *
  refine ⟨r, h1, ⟨by rw [h2]; exact ha.ndim, by rw [h4, h2], h5, ?_, h6⟩, h2, h3, ?_, ?_⟩
  · intro row hrow fr hfr e he
    obtain ⟨p, hp, hpr⟩ := List.mem_iff_getElem.1 hrow
    obtain ⟨row', hr, hperm⟩ := h7 p (by rw [← h4]; exact hp)
    rw [List.getElem?_eq_getElem hp, hpr] at hr
    injection hr with hr
    subst hr
    obtain ⟨e0, he0, rfl⟩ := List.mem_map.1 (hperm.mem_iff.1 (List.mem_flatten.2 ⟨fr, hfr, he⟩))
    obtain ⟨fr0, hfr0, he0⟩ := List.mem_flatten.1 he0
    have hlt := ha.lt _ (getD_mem _ _ _ (by rw [ha.length, ← h4]; exact hp)) fr0 hfr0 e0 he0
    rw [hf] at hlt
    rw [h3]
    simp only [prod, Nat.mul_one] at hlt ⊢
    have hpos : 0 < n * b := by
      rcases Nat.eq_zero_or_pos (n * b) with h | h
      · rw [h] at hlt; simp at hlt
      · exact h
    unfold binEvent
    rw [Nat.mul_div_cancel _ hb]
    have i1 : e0 / (n * b) / b < n := by
      rw [Nat.div_lt_iff_lt_mul hb, Nat.div_lt_iff_lt_mul hpos]
      exact hlt
    have i2 : e0 % (n * b) / b < n := by
      rw [Nat.div_lt_iff_lt_mul hb]
      exact Nat.mod_lt _ hpos
    exact flat_lt i2 i1
  · intro p R C hp hR hC
    obtain ⟨row, hr, hperm⟩ := h7 p hp
    unfold eventCount
    rw [List.getD_eq_getElem?_getD, hr, Option.getD_some, hperm.count_eq, count_map_binEvent hb (by omega) hC]
  · intro p hp
    obtain ⟨row, hr, hperm⟩ := h7 p hp
    rw [List.getD_eq_getElem?_getD, hr, Option.getD_some, hperm.length_eq, List.length_map]

/-- For every frame that is not square the event in the last pixel is not moved to the last pixel, and if there are more columns
than rows it leaves the frame. -/
theorem C43_not_square (b f0 f1 : Nat) (hb : 0 < b) (h0 : b ∣ f0) (h1 : b ∣ f1) (hp0 : 0 < f0) (hp1 : 0 < f1) (hne : f0 ≠ f1) :
    binEvent f0 f1 b (f0 * f1 - 1) ≠ (f0 / b) * (f1 / b) - 1 ∧
    (f0 < f1 → (f0 / b) * (f1 / b) ≤ binEvent f0 f1 b (f0 * f1 - 1)) := by
  obtain ⟨m, rfl⟩ := h0
  obtain ⟨n, rfl⟩ := h1
  have hm : 0 < m := Nat.pos_of_mul_pos_left hp0
  have hn : 0 < n := Nat.pos_of_mul_pos_left hp1
  have hmn : m ≠ n := fun h => hne (by rw [h])
  have e1 : (b * m * (b * n) - 1) / (b * m) = b * n - 1 := by
    have : b * m * (b * n) - 1 = (b * n - 1) * (b * m) + (b * m - 1) := by
      obtain ⟨x, hx⟩ : ∃ x, b * n = x + 1 := ⟨b * n - 1, by omega⟩
      obtain ⟨y, hy⟩ : ∃ y, b * m = y + 1 := ⟨b * m - 1, by omega⟩
      rw [hx, hy, Nat.add_sub_cancel, Nat.add_sub_cancel]
      have : (y + 1) * (x + 1) = x * (y + 1) + y + 1 := by ring
      omega
    rw [this, flat_div _ (by omega)]
  have e2 : (b * m * (b * n) - 1) % (b * n) = b * n - 1 := by
    have : b * m * (b * n) - 1 = (b * m - 1) * (b * n) + (b * n - 1) := by
      obtain ⟨x, hx⟩ : ∃ x, b * n = x + 1 := ⟨b * n - 1, by omega⟩
      obtain ⟨y, hy⟩ : ∃ y, b * m = y + 1 := ⟨b * m - 1, by omega⟩
      rw [hx, hy, Nat.add_sub_cancel, Nat.add_sub_cancel]
      have : (y + 1) * (x + 1) = y * (x + 1) + x + 1 := by ring
      omega
    rw [this, flat_mod _ (by omega)]
  have e3 : (b * n - 1) / b = n - 1 := by
    obtain ⟨x, rfl⟩ : ∃ x, n = x + 1 := ⟨n - 1, by omega⟩
    have : b * (x + 1) - 1 = x * b + (b - 1) := by
      have : b * (x + 1) = x * b + b := by ring
      omega
    rw [this, flat_div _ (by omega), Nat.add_sub_cancel]
  unfold binEvent
  rw [e1, e2, e3, Nat.mul_div_cancel_left _ hb, Nat.mul_div_cancel_left _ hb]
  obtain ⟨x, rfl⟩ : ∃ x, n = x + 1 := ⟨n - 1, by omega⟩
  rw [Nat.add_sub_cancel]
  have e4 : m * (x + 1) = x * m + m := by ring
  rw [e4]
  refine ⟨by omega, fun hlt => ?_⟩
  have : m < x + 1 := Nat.lt_of_mul_lt_mul_left hlt
  omega

/-- The square of pixels is summed: a 2 x 2 frame. -/
example :
    let a : SparseArray := { data := [[[0, 1, 3], [1]], [[], [2]]], numFrames := 2, scanShape := [1, 2], frameShape := [2, 2] }
    WF a ∧ binFrames a 2 = .ok { a with data := [[[0], [0], [0], [0]], [[], [0], [], []]], numFrames := 4, frameShape := [1, 1] } := by
  refine ⟨⟨.inr rfl, rfl, by decide, by decide, by decide⟩, by decide⟩

/-- A frame of one row and two columns: the second pixel leaves the frame. -/
example : binEvent 1 2 1 1 = 2 := by decide

end Stempy.Sparse
