import Verif.Props.Com
import Mathlib.Tactic.Positivity

/-! C52: radial sums of sparse data. -/

namespace Stempy.PyImage
open Numpy Sparse

/-- Radial bin `k` of `n`: the distance is at least `k` and below `k + 1`; the outermost bin has its outer edge, too. -/
def inBin (n k : Nat) (d2 : Rat) : Bool :=
  decide ((k : Rat) ^ 2 ≤ d2 ∧ (d2 < ((k + 1 : Nat) : Rat) ^ 2 ∨ (k + 1 = n ∧ d2 = ((k + 1 : Nat) : Rat) ^ 2)))

theorem countP_split {α : Type} (l : List α) (p q r : α → Bool) (h : ∀ a ∈ l, (r a ↔ (p a ∨ q a)) ∧ ¬ (p a ∧ q a)) :
    l.countP r = l.countP p + l.countP q := by
  induction l with
  | nil => rfl
  | cons a l ih =>
    have h1 := h a (by simp)
    have h2 := ih fun b hb => h b (by simp [hb])
    simp only [List.countP_cons, h2]
    cases hp : p a <;> cases hq : q a <;> cases hr : r a <;> simp_all
    all_goals omega

/-- Number of values left of edge `k`. -/
def below (d2 : List Rat) (n k : Nat) : Nat :=
  if k = n then d2.countP fun d => sqrtLe d n else d2.countP fun d => sqrtLt d k

theorem below_succ {d2 : List Rat} (h : ∀ d ∈ d2, 0 ≤ d) {n k : Nat} (hk : k < n) :
    below d2 n (k + 1) = below d2 n k + d2.countP (inBin n k) := by
  have hk0 : (0 : Rat) ≤ (k : Rat) := by positivity
  have hk1 : (0 : Rat) < ((k + 1 : Nat) : Rat) := by positivity
  unfold below
  rw [if_neg (by omega : ¬ k = n)]
  have hlow : ∀ d : Rat, 0 ≤ d → (sqrtLt d k = true ↔ d < (k : Rat) ^ 2) := by
    intro d hd
    unfold sqrtLt
    rw [decide_eq_true_iff, pow_two]
    constructor
    · exact fun h => h.2
    · intro hlt
      refine ⟨?_, hlt⟩
      rcases lt_or_eq_of_le hk0 with h | h
      · exact h
      · rw [← h] at hlt; simp at hlt; linarith
  have hsq : (k : Rat) ^ 2 < ((k + 1 : Nat) : Rat) ^ 2 := by push_cast; nlinarith
  by_cases hn : k + 1 = n
  · rw [if_pos hn]
    apply countP_split
    intro d hd
    have h0 := h d hd
    rw [hlow d h0]
    have h1 : sqrtLe d n = true ↔ d ≤ ((k + 1 : Nat) : Rat) ^ 2 := by
      unfold sqrtLe; rw [decide_eq_true_iff, ← hn, pow_two]
      exact ⟨fun h => h.2, fun h => ⟨hk1.le, h⟩⟩
    rw [h1]
    unfold inBin
    rw [decide_eq_true_iff]
    constructor
    · constructor
      · intro hle
        rcases lt_or_ge d ((k : Rat) ^ 2) with hlt | hge
        · exact .inl hlt
        · refine .inr ⟨hge, ?_⟩
          rcases lt_or_eq_of_le hle with h | h
          · exact .inl h
          · exact .inr ⟨hn, h⟩
      · rintro (h | ⟨_, h | ⟨_, h⟩⟩) <;> linarith
    · rintro ⟨h1, h2, _⟩
      linarith
  · rw [if_neg hn]
    apply countP_split
    intro d hd
    have h0 := h d hd
    rw [hlow d h0]
    have h1 : sqrtLt d ((k + 1 : Nat) : Rat) = true ↔ d < ((k + 1 : Nat) : Rat) ^ 2 := by
      unfold sqrtLt; rw [decide_eq_true_iff, pow_two]
      exact ⟨fun h => h.2, fun h => ⟨hk1, h⟩⟩
    rw [h1]
    unfold inBin
    rw [decide_eq_true_iff]
    constructor
    · constructor
      · intro hlt
        rcases lt_or_ge d ((k : Rat) ^ 2) with hlt2 | hge
        · exact .inl hlt2
        · exact .inr ⟨hge, .inl hlt⟩
      · rintro (h | ⟨_, h | ⟨h, _⟩⟩)
        · linarith
        · exact h
        · exact absurd h hn
    · rintro ⟨h1, h2, _⟩
      linarith

theorem histogram_eq {d2 : List Rat} (h : ∀ d ∈ d2, 0 ≤ d) (n : Nat) :
    histogramSqrt d2 n = (List.range n).map fun k => d2.countP (inBin n k) := by
  unfold histogramSqrt
  apply List.map_congr_left
  intro k hk
  have := below_succ h (List.mem_range.1 hk)
  unfold below at this
  simp only
  omega

theorem sum_bins {d2 : List Rat} (h : ∀ d ∈ d2, 0 ≤ d) {n : Nat} (hn : 0 < n) :
    ((List.range n).map fun k => d2.countP (inBin n k)).sum = d2.countP fun d => decide (d ≤ (n : Rat) ^ 2) := by
  have key : ∀ m ≤ n, below d2 n m = ((List.range m).map fun k => d2.countP (inBin n k)).sum := by
    intro m
    induction m with
    | zero =>
      intro _
      have : ∀ d, sqrtLt d 0 = false := by intro d; simp [sqrtLt]
      simp [below, hn.ne, this]
    | succ m ih =>
      intro hm
      rw [below_succ h (by omega), ih (by omega), List.range_succ]
      simp
  rw [← key n (Nat.le_refl _)]
  unfold below
  rw [if_pos rfl]
  apply List.countP_congr
  intro d _
  have : (0 : Rat) ≤ (n : Rat) := by positivity
  simp [sqrtLe, this, pow_two]

/-- Squared distance of an event to the center. -/
theorem eventDist2_nonneg (w : Nat) (c : Rat × Rat) (e : Nat) : 0 ≤ eventDist2 w c e := by unfold eventDist2; positivity

/-- **C52**: for every scan position and every radial bin, the result is the number of the events of the position whose distance
lies in the bin. -/
theorem C52_bins (a : SparseArray) (s0 s1 h w : Nat) (ha : WF a) (hs : a.scanShape = [s0, s1]) (hf : a.frameShape = [h, w])
    (c : Rat × Rat) :
    radialSumSparse a c = .ok ⟨[s0, s1, max h w / 2], (List.range (s0 * s1)).flatMap fun p =>
      (List.range (max h w / 2)).map fun k => (eventsAt a p).countP fun e => inBin (max h w / 2) k (eventDist2 w c e)⟩ := by
  have hlen : a.data.length = s0 * s1 := by rw [ha.length, hs]; simp [prod]
  have hlt : ∀ row ∈ a.data, ∀ fr ∈ row, ∀ e ∈ fr, e < h * w := by
    intro row hr fr hfr e he
    have := ha.lt row hr fr hfr e he
    rw [hf] at this
    simpa [prod] using this
  unfold radialSumSparse
  rw [hs, hf]
  simp only
  generalize max h w / 2 = n
  have key : ∀ row ∈ a.data, row.foldlM (radialFrame h w n c) (List.replicate n 0) =
      .ok ((List.range n).map fun k => row.flatten.countP fun e => inBin n k (eventDist2 w c e)) := by
    intro row hrow
    rw [replicate_eq_map]
    have : ∀ (l : List (List Nat)) (f : Nat → Nat), (∀ fr ∈ l, fr ∈ row) → l.foldlM (radialFrame h w n c) ((List.range n).map f) =
      .ok ((List.range n).map fun k => f k + l.flatten.countP fun e => inBin n k (eventDist2 w c e)) := by
      intro l
      induction l with
      | nil => intro f _; simp
      | cons fr l ih =>
        intro f hl
        rw [List.foldlM_cons, radialFrame, if_pos]
        · simp only
          rw [histogram_eq, List.zipWith_map, List.zipWith_self, Outcome.ok_bind, ih _ fun x hx => hl x (by simp [hx])]
          · congr 1
            apply List.map_congr_left
            intro k _
            rw [List.countP_map, List.flatten_cons, List.countP_append, Nat.add_assoc]
            rfl
          · intro d hd
            obtain ⟨e, _, rfl⟩ := List.mem_map.1 hd
            exact eventDist2_nonneg w c e
        · rw [List.all_eq_true]
          intro e he
          simpa using hlt row hrow fr (hl fr (by simp)) e he
    have := this row (fun _ => 0) fun _ h => h
    simpa using this
  rw [mapM_ok _ _ _ key, Outcome.ok_bind, if_pos (by simpa using hlen)]
  congr 2
  rw [← List.flatMap_def]
  have hd : a.data = (List.range (s0 * s1)).map fun p => a.data.getD p [] := by
    rw [← hlen, map_getD_range]
  conv_lhs => rw [hd]
  rw [List.flatMap_map]
  rfl

/-- **C52**: each event at a distance of at most the number of bins is in exactly one bin, the others in none. -/
theorem C52_one_bin (n : Nat) (hn : 0 < n) (w : Nat) (c : Rat × Rat) (e : Nat) :
    (eventDist2 w c e ≤ (n : Rat) ^ 2 → ∃! k, k < n ∧ inBin n k (eventDist2 w c e) = true) ∧
    ((n : Rat) ^ 2 < eventDist2 w c e → ∀ k < n, inBin n k (eventDist2 w c e) = false) := by
  have h0 := eventDist2_nonneg w c e
  generalize eventDist2 w c e = d at *
  have hs := sum_bins (d2 := [d]) (by simpa using h0) hn
  have h1 : ∀ k, List.countP (inBin n k) [d] = if inBin n k d then 1 else 0 := by intro k; simp [List.countP_cons]
  simp only [h1] at hs
  constructor
  · intro hd
    have h2 : List.countP (fun d => decide (d ≤ (n : Rat) ^ 2)) [d] = 1 := by simp [hd]
    rw [h2] at hs
    obtain ⟨k, hk, hb⟩ : ∃ k ∈ List.range n, inBin n k d = true := by
      by_contra hc
      push Not at hc
      have : ((List.range n).map fun k => if inBin n k d then 1 else 0) = (List.range n).map fun _ => 0 := by
        apply List.map_congr_left
        intro k hk
        have := hc k hk
        simp [this]
      rw [this] at hs
      simp at hs
    refine ⟨k, ⟨List.mem_range.1 hk, hb⟩, ?_⟩
    rintro j ⟨hj, hjb⟩
    unfold inBin at hb hjb
    rw [decide_eq_true_iff] at hb hjb
    rcases Nat.lt_trichotomy j k with h | h | h
    · have h3 : ((j + 1 : Nat) : Rat) ^ 2 ≤ (k : Rat) ^ 2 := by
        have : (j + 1) ^ 2 ≤ k ^ 2 := Nat.pow_le_pow_left h 2
        exact_mod_cast this
      rcases hjb.2 with h4 | ⟨h4, _⟩
      · linarith [hb.1]
      · have := List.mem_range.1 hk; omega
    · exact h
    · have h3 : ((k + 1 : Nat) : Rat) ^ 2 ≤ (j : Rat) ^ 2 := by
        have : (k + 1) ^ 2 ≤ j ^ 2 := Nat.pow_le_pow_left h 2
        exact_mod_cast this
      rcases hb.2 with h4 | ⟨h4, _⟩
      · linarith [hjb.1]
      · omega
  · intro hd k hk
    unfold inBin
    rw [decide_eq_false_iff_not]
    rintro ⟨_, h2⟩
    have h3 : ((k + 1 : Nat) : Rat) ^ 2 ≤ (n : Rat) ^ 2 := by
      have : (k + 1) ^ 2 ≤ n ^ 2 := Nat.pow_le_pow_left hk 2
      exact_mod_cast this
    rcases h2 with h2 | ⟨_, h2⟩ <;> linarith

/-- **C52**: the bins of a scan position sum up to the number of its events in the covered range, which is at most the number of
its events. -/
theorem C52_total (a : SparseArray) (n w p : Nat) (hn : 0 < n) (c : Rat × Rat) :
    ((List.range n).map fun k => (eventsAt a p).countP fun e => inBin n k (eventDist2 w c e)).sum =
      (eventsAt a p).countP (fun e => decide (eventDist2 w c e ≤ (n : Rat) ^ 2)) ∧
    ((List.range n).map fun k => (eventsAt a p).countP fun e => inBin n k (eventDist2 w c e)).sum ≤ (eventsAt a p).length := by
  have h := sum_bins (d2 := (eventsAt a p).map (eventDist2 w c)) (by
    intro d hd
    obtain ⟨e, _, rfl⟩ := List.mem_map.1 hd
    exact eventDist2_nonneg w c e) hn
  simp only [List.countP_map] at h
  have h1 : ((List.range n).map fun k => (eventsAt a p).countP fun e => inBin n k (eventDist2 w c e)).sum =
      (eventsAt a p).countP (fun e => decide (eventDist2 w c e ≤ (n : Rat) ^ 2)) := h
  exact ⟨h1, by rw [h1]; exact List.countP_le_length⟩

/-- An event outside of the frame is refused. -/
theorem C52_outside (a : SparseArray) (s0 s1 h w : Nat) (hs : a.scanShape = [s0, s1]) (hf : a.frameShape = [h, w])
    (c : Rat × Rat) (e : Nat) (he : h * w ≤ e) (fr : List Nat) (hfr : e ∈ fr) (row : List (List Nat))
    (data : List (List (List Nat))) (hd : a.data = (fr :: row) :: data) : radialSumSparse a c = .throw "ValueError" := by
  unfold radialSumSparse
  rw [hs, hf, hd]
  simp only
  rw [List.mapM_cons, List.foldlM_cons, radialFrame, if_neg]
  · rfl
  · rw [List.all_eq_true]
    intro h2
    have := h2 e hfr
    simp at this
    omega

example : radialSumSparse { comSample with frameShape := [4, 3] } (1, 1) = .ok ⟨[1, 2, 2], [0, 3, 0, 1]⟩ := by decide +kernel

end Stempy.PyImage
