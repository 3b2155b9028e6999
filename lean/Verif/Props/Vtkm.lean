import Verif.Model.Vtkm
import Verif.Props.Maxima
import Verif.Props.Radial
import Mathlib.Tactic.Ring

/-!
C72: electron counting of the VTK-m build against the serial code.
C73: STEM values and radial sums of the VTK-m build against the serial code.
-/

namespace Stempy.Vtkm
open Stempy.Electron Stempy.Image Stempy.Spec Stempy.Props

/-- Position `(x, y)` is not on the border of a `w × h` grid. -/
def Inside (w h x y : Nat) : Prop := 0 < x ∧ x + 1 < w ∧ 0 < y ∧ y + 1 < h

instance (w h x y : Nat) : Decidable (Inside w h x y) := by unfold Inside; infer_instance

private theorem clampTo_lt {n i : Nat} {d : Int} (h : 0 < n) : clampTo n i d < n := by
  unfold clampTo; omega

private theorem clampTo_of_le {n i j : Nat} {d : Int} (h : (i : Int) + d = j) (hj : j < n) :
    clampTo n i d = j := by
  unfold clampTo; omega

private theorem idx_lt {nx ny x y : Nat} (hx : x < nx) (hy : y < ny) : y * nx + x < nx * ny := by
  calc y * nx + x < y * nx + nx := by omega
    _ = (y + 1) * nx := by ring
    _ ≤ ny * nx := Nat.mul_le_mul_right _ hy
    _ = nx * ny := by ring

private theorem idx_mod {nx x y : Nat} (hx : x < nx) : (y * nx + x) % nx = x := by
  rw [Nat.add_comm, Nat.add_mul_mod_self_right, Nat.mod_eq_of_lt hx]

private theorem idx_div {nx x y : Nat} (hx : x < nx) : (y * nx + x) / nx = y := by
  rw [Nat.add_comm, Nat.add_mul_div_right _ _ (by omega), Nat.div_eq_of_lt hx]; omega

private theorem neighbourIndex_lt {nx ny k : Nat} (o : Int × Int) (hx : 0 < nx) (hy : 0 < ny) :
    neighbourIndex nx ny k o < nx * ny := by
  unfold neighbourIndex
  rw [Nat.add_comm]
  exact idx_lt (clampTo_lt hx) (clampTo_lt hy)

private theorem noneReaches_spec (frame : List Rat) {nx ny : Nat} (k : Nat) (cur : Rat)
    (hx : 0 < nx) (hy : 0 < ny) (hl : frame.length = nx * ny) (os : List (Int × Int)) :
    ∃ b, noneReaches frame nx ny k cur os = .ok b ∧
      (b = true ↔ ∀ o ∈ os, ∀ v, frame[neighbourIndex nx ny k o]? = some v → v < cur) := by
  induction os with
  | nil => exact ⟨true, rfl, by simp⟩
  | cons o os ih =>
    obtain ⟨b, h1, h2⟩ := ih
    have hlt : neighbourIndex nx ny k o < frame.length := hl ▸ neighbourIndex_lt o hx hy
    have hr : readAt frame (neighbourIndex nx ny k o) = .ok frame[neighbourIndex nx ny k o] := by
      unfold readAt; rw [List.getElem?_eq_getElem hlt]
    unfold noneReaches
    rw [hr, Outcome.ok_bind]
    by_cases hle : cur ≤ frame[neighbourIndex nx ny k o]
    · rw [if_pos hle]
      refine ⟨false, rfl, ?_⟩
      constructor
      · intro h; cases h
      · intro h
        exact absurd (h o List.mem_cons_self _ (List.getElem?_eq_getElem hlt)) (not_lt.2 hle)
    · rw [if_neg hle]
      refine ⟨b, h1, ?_⟩
      rw [h2]
      constructor
      · intro h o' ho' v hv
        rcases List.mem_cons.1 ho' with rfl | ho'
        · rw [List.getElem?_eq_getElem hlt] at hv
          exact Option.some.inj hv ▸ not_le.1 hle
        · exact h o' ho' v hv
      · intro h o' ho' v hv
        exact h o' (List.mem_cons_of_mem _ ho') v hv

private theorem mem_offsets {a b : Int} :
    (a, b) ∈ offsets ↔ (-1 ≤ a ∧ a ≤ 1 ∧ -1 ≤ b ∧ b ≤ 1 ∧ ¬(a = 0 ∧ b = 0)) := by
  simp only [offsets, List.mem_cons, Prod.mk.injEq, List.not_mem_nil, or_false]
  omega

private theorem isMaximalPixel_spec (frame : List Rat) {nx ny x y : Nat} (hx : x < nx) (hy : y < ny)
    (hl : frame.length = nx * ny) :
    ∃ b, isMaximalPixel frame nx ny (y * nx + x) = .ok b ∧
      (b = true ↔ Inside nx ny x y ∧ StrictLocalMax ratGt frame nx ny x y) := by
  have hk : y * nx + x < frame.length := hl ▸ idx_lt hx hy
  have hr : readAt frame (y * nx + x) = .ok frame[y * nx + x] := by
    unfold readAt; rw [List.getElem?_eq_getElem hk]
  obtain ⟨b, h1, h2⟩ := noneReaches_spec frame (y * nx + x) frame[y * nx + x] (by omega) (by omega) hl
    offsets
  refine ⟨b, ?_, ?_⟩
  · unfold isMaximalPixel; rw [hr, Outcome.ok_bind, h1]
  · rw [h2]
    have key : ∀ (x' y' : Nat) (o : Int × Int), (x : Int) + o.1 = x' → (y : Int) + o.2 = y' →
        x' < nx → y' < ny → neighbourIndex nx ny (y * nx + x) o = y' * nx + x' := by
      intro x' y' o e1 e2 l1 l2
      unfold neighbourIndex
      rw [idx_mod hx, idx_div hx, clampTo_of_le e1 l1, clampTo_of_le e2 l2]; omega
    constructor
    · intro h
      -- a clamped neighbour is the pixel itself
      have self : ∀ o ∈ offsets, neighbourIndex nx ny (y * nx + x) o ≠ y * nx + x := by
        intro o ho e
        exact lt_irrefl _ (h o ho _ (by rw [e]; exact List.getElem?_eq_getElem hk))
      have c0 : ∀ n i : Nat, i < n → clampTo n i 0 = i := fun n i hi => clampTo_of_le (by omega) hi
      have ins : Inside nx ny x y := by
        refine ⟨?_, ?_, ?_, ?_⟩
        · rcases Nat.eq_zero_or_pos x with e | e
          · refine absurd ?_ (self (-1, 0) (by decide))
            unfold neighbourIndex
            rw [idx_mod hx, idx_div hx]
            have : clampTo nx x (-1) = x := by unfold clampTo; omega
            rw [this, c0 _ _ hy]; omega
          · exact e
        · rcases Nat.lt_or_ge (x + 1) nx with e | e
          · exact e
          · refine absurd ?_ (self (1, 0) (by decide))
            unfold neighbourIndex
            rw [idx_mod hx, idx_div hx]
            have : clampTo nx x 1 = x := by unfold clampTo; omega
            rw [this, c0 _ _ hy]; omega
        · rcases Nat.eq_zero_or_pos y with e | e
          · refine absurd ?_ (self (0, -1) (by decide))
            unfold neighbourIndex
            rw [idx_mod hx, idx_div hx]
            have : clampTo ny y (-1) = y := by unfold clampTo; omega
            rw [this, c0 _ _ hx]; omega
          · exact e
        · rcases Nat.lt_or_ge (y + 1) ny with e | e
          · exact e
          · refine absurd ?_ (self (0, 1) (by decide))
            unfold neighbourIndex
            rw [idx_mod hx, idx_div hx]
            have : clampTo ny y 1 = y := by unfold clampTo; omega
            rw [this, c0 _ _ hx]; omega
      refine ⟨ins, _, List.getElem?_eq_getElem hk, ?_⟩
      intro x' y' v' hx' hy' hn hv'
      unfold Neighbour at hn
      have := h ((x' : Int) - x, (y' : Int) - y) (mem_offsets.2 (by omega)) v'
        (by rw [key x' y' _ (by simp) (by simp) hx' hy']; exact hv')
      unfold ratGt; simpa using this
    · rintro ⟨⟨i1, i2, i3, i4⟩, w, hw, hall⟩ ⟨a, b⟩ ho v hv
      have ho := mem_offsets.1 ho
      rw [List.getElem?_eq_getElem hk] at hw
      have hw := Option.some.inj hw
      have e := key (x + a).toNat (y + b).toNat (a, b) (by show (x : Int) + a = _; omega)
        (by show (y : Int) + b = _; omega) (by omega) (by omega)
      rw [e] at hv
      have := hall (x + a).toNat (y + b).toNat v (by omega) (by omega)
        (by unfold Neighbour; omega) hv
      rw [hw]
      unfold ratGt at this; simpa using this

/-- The loop collecting the indices with a true flag. -/
private theorem collect (n : Nat) (f : Nat → Outcome Bool) (P : Nat → Prop) [DecidablePred P]
    (h : ∀ k < n, ∃ b, f k = .ok b ∧ (b = true ↔ P k)) :
    (List.range n).foldlM (fun out k => do
      let e ← f k
      pure (if e then out ++ [k] else out)) ([] : List Nat) =
    .ok ((List.range n).filter fun k => decide (P k)) := by
  induction n with
  | zero => rfl
  | succ n ih =>
    rw [List.range_succ, List.foldlM_append, ih (fun k hk => h k (by omega)), Outcome.ok_bind,
      List.filter_append]
    obtain ⟨b, h1, h2⟩ := h n (by omega)
    simp only [List.foldlM_cons, List.foldlM_nil, h1, Outcome.ok_bind, Outcome.pure_eq]
    by_cases hP : P n
    · rw [if_pos (h2.2 hP), List.filter_cons_of_pos (by simpa using hP), List.filter_nil]
    · rw [if_neg (fun hb => hP (h2.1 hb)), List.filter_cons_of_neg (by simpa using hP),
        List.filter_nil, List.append_nil]

open Classical in
private theorem maximalPixels_eq (frame : List Rat) {w h : Nat} (hl : frame.length = w * h) :
    maximalPixels frame (w, h) = .ok ((List.range (w * h)).filter fun k =>
      decide (Inside h w (k % h) (k / h) ∧ StrictLocalMax ratGt frame h w (k % h) (k / h))) := by
  unfold maximalPixels
  simp only
  rw [show h * w = w * h from Nat.mul_comm _ _]
  apply collect
  intro k hk
  have h0 : 0 < h := by
    rcases Nat.eq_zero_or_pos h with e | e
    · subst e; simp at hk
    · exact e
  have hx : k % h < h := Nat.mod_lt _ h0
  have hy : k / h < w := (Nat.div_lt_iff_lt_mul h0).2 hk
  have e : k / h * h + k % h = k := by rw [Nat.mul_comm]; exact Nat.div_add_mod k h
  have := isMaximalPixel_spec frame hx hy (by rw [hl, Nat.mul_comm])
  rwa [e] at this

/-- **C72** (what the VTK-m search computes, all shapes): it never fails, and lists in increasing order the
pixels that exceed all their neighbours in the frame read with *rows of length `h`* (the number of rows of
the frame, where the frame has rows of length `w`), without the border of that grid. -/
theorem C72_search_partial (frame : List Rat) {w h : Nat} (hl : frame.length = w * h) :
    ∃ events, maximalPixels frame (w, h) = .ok events ∧ events.Pairwise (· < ·) ∧
      (∀ e ∈ events, e < w * h) ∧
      ∀ x y, x < h → y < w →
        (y * h + x ∈ events ↔ Inside h w x y ∧ StrictLocalMax ratGt frame h w x y) := by
  classical
  refine ⟨_, maximalPixels_eq frame hl, ?_, ?_, ?_⟩
  · exact List.Pairwise.sublist List.filter_sublist List.pairwise_lt_range
  · intro e he
    exact List.mem_range.1 (List.mem_filter.1 he).1
  · intro x y hx hy
    have := idx_lt (nx := h) (ny := w) hx hy
    simp only [List.mem_filter, List.mem_range, decide_eq_true_eq, idx_mod hx, idx_div hx]
    constructor
    · exact fun h => h.2
    · exact fun hh => ⟨by rw [Nat.mul_comm w h]; exact this, hh⟩

/-- **C72** (square frames): the VTK-m search finds exactly the events of the serial search that are not
on the border of the detector, in the same order. -/
theorem C72_square_partial (frame : List Rat) {n : Nat} (hn : n < 65536) (hl : frame.length = n * n) :
    ∃ events, maximalPoints ratGt frame (n, n) = .ok events ∧
      maximalPixels frame (n, n) =
        .ok (events.filter fun e => decide (Inside n n (e % n) (e / n))) := by
  classical
  have hsq : n * n < 2 ^ 32 := by
    calc n * n ≤ 65535 * 65535 := Nat.mul_le_mul (by omega) (by omega)
      _ < 2 ^ 32 := by norm_num
  obtain ⟨ev, h1, h2, h3, h4⟩ := C10_maxima ratGt frame hn hn hsq hl
  refine ⟨ev, h1, ?_⟩
  rw [maximalPixels_eq frame hl]
  congr 1
  have dm : ∀ k, k < n * n → k % n < n ∧ k / n < n ∧ k / n * n + k % n = k := by
    intro k hk
    have h0 : 0 < n := by
      rcases Nat.eq_zero_or_pos n with e | e
      · subst e; simp at hk
      · exact e
    exact ⟨Nat.mod_lt _ h0, (Nat.div_lt_iff_lt_mul h0).2 hk,
      by rw [Nat.mul_comm]; exact Nat.div_add_mod k n⟩
  apply List.Perm.eq_of_pairwise (le := fun a b => a < b)
  · intro a b _ _ h h'; omega
  · exact List.Pairwise.sublist List.filter_sublist List.pairwise_lt_range
  · exact List.Pairwise.sublist List.filter_sublist h2
  · apply (List.perm_ext_iff_of_nodup ?_ ?_).2
    · intro k
      simp only [List.mem_filter, List.mem_range, decide_eq_true_eq]
      constructor
      · rintro ⟨hk, i, m⟩
        obtain ⟨a, b, c⟩ := dm k hk
        exact ⟨by have := (h4 _ _ a b).2 m; rwa [c] at this, i⟩
      · rintro ⟨hk, i⟩
        obtain ⟨a, b, c⟩ := dm k (h3 k hk)
        exact ⟨h3 k hk, i, (h4 _ _ a b).1 (by rw [c]; exact hk)⟩
    · exact List.nodup_range.filter _
    · exact (h2.imp fun h => Nat.ne_of_lt h).filter _

/-- **C72** (preprocessing): the worklets compute, for both pixel types and with or without dark reference
and gain, what the streaming path computes. -/
theorem C72_preprocess : workletPixel = streamPixel := by
  funext ft bg xr dark gain j v
  cases ft with
  | u16 =>
    cases dark with
    | none => rfl
    | some d =>
      simp only [workletPixel, streamPixel]
      cases readPtr (some d) j with
      | ok a => simp only [Outcome.ok_bind]; cases toU16 a <;> rfl
      | throw m => rfl
      | ub => rfl
  | f32 =>
    have nt : ∀ p : Option (List Rat), (∃ a, readPtr p j = .ok a) ∨ readPtr p j = .ub := by
      intro p
      cases p with
      | none => exact Or.inr rfl
      | some l =>
        simp only [readPtr, readAt]
        cases l[j]? with
        | none => exact Or.inr rfl
        | some a => exact Or.inl ⟨a, rfl⟩
    cases dark with
    | none => rfl
    | some d =>
      simp only [workletPixel, streamPixel]
      rcases nt gain with ⟨g, hg⟩ | hg <;> rcases nt (some d) with ⟨a, ha⟩ | ha <;>
        simp [hg, ha]

private theorem foldlM_length {β : Type} {f : List Rat → β → Outcome (List Rat)}
    (hf : ∀ fr b fr', f fr b = .ok fr' → fr'.length = fr.length) (l : List β) :
    ∀ fr fr', l.foldlM f fr = .ok fr' → fr'.length = fr.length := by
  induction l with
  | nil => intro fr fr' h; rw [List.foldlM_nil] at h; cases h; rfl
  | cons b l ih =>
    intro fr fr' h
    rw [List.foldlM_cons] at h
    cases hb : f fr b with
    | ok fr1 => rw [hb, Outcome.ok_bind] at h; rw [ih _ _ h, hf _ _ _ hb]
    | throw m => rw [hb] at h; cases h
    | ub => rw [hb] at h; cases h

private theorem pixel_length {g : Rat → Outcome Rat} {j : Nat} {fr fr' : List Rat}
    (h : (do let v ← readAt fr j; let v' ← g v; writeAt fr j v') = Outcome.ok fr') :
    fr'.length = fr.length := by
  cases hv : readAt fr j with
  | ok v =>
    rw [hv, Outcome.ok_bind] at h
    cases hg : g v with
    | ok v' =>
      rw [hg, Outcome.ok_bind] at h
      unfold writeAt at h
      split at h
      · cases h; exact List.length_set
      · cases h
    | throw m => rw [hg] at h; cases h
    | ub => rw [hg] at h; cases h
  | throw m => rw [hv] at h; cases h
  | ub => rw [hv] at h; cases h

private theorem forPixels_length {n : Nat} {f : Nat → Rat → Outcome Rat} {fr fr' : List Rat}
    (h : forPixels n f fr = .ok fr') : fr'.length = fr.length :=
  foldlM_length (fun _ _ _ h => pixel_length h) _ _ _ h

private theorem rowDarkRange_length {stat : List Rat → Outcome (Option Rat)} {ft : FT}
    {m bg xr : Rat} {dark gain : Option (List Rat)} {s l : Nat} {fr fr' : List Rat}
    (h : rowDarkRange stat ft m bg xr dark gain s l fr = .ok fr') : fr'.length = fr.length := by
  unfold rowDarkRange at h
  split at h
  · cases hs : stat ((fr.drop s).take l) with
    | ok v =>
      rw [hs, Outcome.ok_bind] at h
      exact foldlM_length (fun _ _ _ h => pixel_length h) _ _ _ h
    | throw m => rw [hs] at h; cases h
    | ub => rw [hs] at h; cases h
  · cases h

private theorem applyRowDark_length {stat : List Rat → Outcome (Option Rat)} {ft : FT}
    {dims : Nat × Nat} {m bg xr : Rat} {dark gain : Option (List Rat)} {fr fr' : List Rat}
    (h : applyRowDark stat ft dims m bg xr dark gain fr = .ok fr') : fr'.length = fr.length := by
  unfold applyRowDark at h
  refine foldlM_length ?_ _ _ _ h
  intro a b c hc
  simp only at hc
  cases h1 : rowDarkRange stat ft m bg xr dark gain (b * dims.2 % 2 ^ 32) (dims.2 / 2) a with
  | ok v =>
    rw [h1, Outcome.ok_bind] at hc
    rw [rowDarkRange_length hc, rowDarkRange_length h1]
  | throw m => rw [h1] at hc; cases hc
  | ub => rw [h1] at hc; cases hc

/-- **C72** (whole frame): for square frames, a VTK-m build counts, with the same options, the events of
the streaming path without those on the border of the detector; it fails exactly when the streaming path
does. -/
theorem C72_frame_partial (o : CountOptions) {n : Nat} (hn : n < 65536) (frame : List Rat)
    (hl : frame.length = n * n) :
    countFrameVtkm o (n, n) frame =
      (fun ev => ev.filter fun e => decide (Inside n n (e % n) (e / n))) <$>
        countFrameStream o (n, n) frame := by
  have hsq : n * n < 2 ^ 32 := by
    calc n * n ≤ 65535 * 65535 := Nat.mul_le_mul (by omega) (by omega)
      _ < 2 ^ 32 := by norm_num
  unfold countFrameVtkm countFrameStream
  rw [C72_preprocess]
  simp only [Nat.mod_eq_of_lt hsq]
  have step : ∀ x : Outcome (List Rat), (∀ fr, x = .ok fr → fr.length = n * n) →
      (x >>= fun fr => maximalPixels fr (n, n)) =
      (fun ev => ev.filter fun e => decide (Inside n n (e % n) (e / n))) <$>
        (x >>= fun fr => maximalPoints ratGt fr (n, n)) := by
    intro x hx
    cases x with
    | ok fr =>
      obtain ⟨ev, h1, h2⟩ := C72_square_partial fr hn (hx fr rfl)
      simp only [Outcome.ok_bind, h1, h2, Outcome.map_ok]
    | throw m => rfl
    | ub => rfl
  cases hrd : o.rowDark with
  | some stat => exact step _ fun fr hfr => (applyRowDark_length hfr).trans hl
  | none => exact step _ fun fr hfr => (forPixels_length hfr).trans hl

/-- **C72** (the border is lost): an event of the serial search on the border of a square detector is
never found by the VTK-m search. -/
theorem C72_border_false (frame : List Rat) {n : Nat} (hn : n < 65536) (hl : frame.length = n * n)
    {events events' : List Nat} (h1 : maximalPoints ratGt frame (n, n) = .ok events)
    (h2 : maximalPixels frame (n, n) = .ok events') {x y : Nat} (hx : x < n)
    (hb : x = 0 ∨ x = n - 1 ∨ y = 0 ∨ y = n - 1) (he : y * n + x ∈ events) :
    y * n + x ∉ events' ∧ events ≠ events' := by
  obtain ⟨ev, e1, e2⟩ := C72_square_partial frame hn hl
  rw [h1] at e1
  rw [h2] at e2
  cases e1
  cases e2
  have hnot : y * n + x ∉ events.filter fun e => decide (Inside n n (e % n) (e / n)) := by
    simp only [List.mem_filter, idx_mod hx, idx_div hx, decide_eq_true_eq, Inside]
    omega
  exact ⟨hnot, fun e => hnot (e ▸ he)⟩

/-- a 4x4 frame with an event in the corner and one inside -/
example : maximalPoints ratGt [9, 0, 0, 0, 0, 0, 0, 0, 0, 0, 8, 0, 0, 0, 0, 0] (4, 4) = .ok [0, 10] ∧
    maximalPixels [9, 0, 0, 0, 0, 0, 0, 0, 0, 0, 8, 0, 0, 0, 0, 0] (4, 4) = .ok [10] := by
  decide +kernel

/-- **C72** (frames that are not square): a 3 × 5 frame (rows of length 3) whose only bright pixel,
inside the detector, is not found, and one where a pixel with a brighter neighbour is reported. -/
theorem C72_shape_false :
    (∃ frame : List Rat, frame.length = 3 * 5 ∧ maximalPoints ratGt frame (3, 5) = .ok [4] ∧
      maximalPixels frame (3, 5) = .ok []) ∧
    ∃ frame : List Rat, frame.length = 3 * 5 ∧ maximalPoints ratGt frame (3, 5) = .ok [10] ∧
      maximalPixels frame (3, 5) = .ok [7] := by
  refine ⟨⟨[0, 0, 0, 0, 1, 0, 0, 0, 0, 0, 0, 0, 0, 0, 0], rfl, ?_, ?_⟩,
    [0, 0, 0, 0, 0, 0, 0, 5, 0, 0, 9, 0, 0, 0, 0], rfl, ?_, ?_⟩ <;> decide +kernel

/-- **C72** (no dark reference): where the serial block-wise code reads through the null dark reference,
the VTK-m build counts. -/
theorem C72_no_dark (bg xr : Rat) (gain : Option (List Rat)) (ft : FT) (j : Nat) (v g : Rat)
    (hg : ft = .f32 → readPtr gain j = .ok g) :
    classicPixel ft bg xr none gain j v = .ub ∧
      workletPixel ft bg xr none gain j v =
        .ok (thresholdPixel bg xr (if ft = .f32 then v * g else v)) := by
  cases ft with
  | u16 => exact ⟨rfl, rfl⟩
  | f32 => exact ⟨rfl, by simp [workletPixel, hg rfl]⟩

/-! ### C73 -/

private theorem eval_sum (t : Tree) :
    maskOnly t.eval % 2 ^ 64 = (t.inputs.map fun p => p.1 &&& p.2).sum % 2 ^ 64 := by
  induction t with
  | initial => rfl
  | raw v m => simp [Tree.eval, Tree.inputs, maskOnly]
  | converted v m => simp [Tree.eval, Tree.inputs, maskOnly]
  | node l r ihl ihr =>
    have hn : maskOnly (Tree.node l r).eval % 2 ^ 64 =
        (maskOnly l.eval + maskOnly r.eval) % 2 ^ 64 := by
      simp only [Tree.eval, maskOnly]
      cases l.eval <;> cases r.eval <;> simp [maskAndAdd, Nat.add_comm]
    rw [hn, Nat.add_mod, ihl, ihr, ← Nat.add_mod]
    simp [Tree.inputs]

private theorem eval_lt (t : Tree) (h : ∀ p ∈ t.inputs, p.1 < 65536) : maskOnly t.eval < 2 ^ 64 := by
  cases t with
  | initial => decide
  | raw v m =>
    have := h (v, m) (by simp [Tree.inputs])
    have : v &&& m ≤ v := Nat.and_le_left
    simp only [Tree.eval, maskOnly]; omega
  | converted v m =>
    have := h (v, m) (by simp [Tree.inputs])
    have : v &&& m ≤ v := Nat.and_le_left
    simp only [Tree.eval, maskOnly]; omega
  | node l r =>
    simp only [Tree.eval, maskOnly]
    cases l.eval <;> cases r.eval <;> simp only [maskAndAdd] <;> exact Nat.mod_lt _ (by decide)

/-- **C73** (STEM values): whatever the order and the bracketing of the reduction, the VTK-m build
computes for a frame the value of the serial code. -/
theorem C73_stem {data mask : List Nat} {offset n r : Nat}
    (hd : offset + n ≤ data.length) (hm : mask.length = n) (hpx : ∀ v ∈ data, v < 65536)
    (hr : StemValue (((data.drop offset).take n).zip mask) r) :
    calculateSTEMValues data offset n mask = .ok r := by
  obtain ⟨t, ht, rfl⟩ := hr
  have hsub : ∀ p ∈ t.inputs, p.1 < 65536 := by
    intro p hp
    have := List.of_mem_zip (ht.subset hp : (p.1, p.2) ∈ _)
    exact hpx _ (List.mem_of_mem_drop (List.mem_of_mem_take this.1))
  have hval : maskOnly t.eval =
      ((((data.drop offset).take n).zip mask).map fun p => p.1 &&& p.2).sum % 2 ^ 64 := by
    rw [← Nat.mod_eq_of_lt (eval_lt t hsub), eval_sum]
    rw [(ht.map _).sum_eq]
  rw [hval]
  have gen : ∀ k, k ≤ n →
      (List.range k).foldlM (fun acc i => do
        let value ← readAt data (offset + i)
        let m ← readAt mask i
        pure ((acc + (value &&& m)) % 2 ^ 64)) 0 =
      .ok (((((data.drop offset).take k).zip (mask.take k)).map fun p => p.1 &&& p.2).sum % 2 ^ 64) := by
    intro k
    induction k with
    | zero => intro _; rfl
    | succ k ih =>
      intro hk
      have e1 : readAt data (offset + k) = .ok data[offset + k] := by
        unfold readAt; rw [List.getElem?_eq_getElem (by omega)]
      have e2 : readAt mask k = .ok mask[k] := by
        unfold readAt; rw [List.getElem?_eq_getElem (by omega)]
      rw [List.range_succ, List.foldlM_append, ih (by omega), Outcome.ok_bind]
      simp only [List.foldlM_cons, List.foldlM_nil, e1, e2, Outcome.ok_bind, Outcome.pure_eq]
      have t1 : (data.drop offset).take (k + 1) = (data.drop offset).take k ++ [data[offset + k]] := by
        rw [List.take_add_one, List.getElem?_drop, List.getElem?_eq_getElem (by omega)]; rfl
      have t2 : mask.take (k + 1) = mask.take k ++ [mask[k]] := by
        rw [List.take_add_one, List.getElem?_eq_getElem (by omega)]; rfl
      rw [t1, t2, List.zip_append (by simp; omega), List.map_append, List.sum_append]
      simp [Nat.mod_add_mod]
  have := gen n (Nat.le_refl n)
  rw [List.take_of_length_le (l := mask) (by omega)] at this
  exact this

/-- **C73** (a reduction exists). -/
theorem C73_stem_exists (inputs : List (Nat × Nat)) : ∃ r, StemValue inputs r := by
  have : ∃ t : Tree, t.inputs = inputs := by
    induction inputs with
    | nil => exact ⟨.initial, rfl⟩
    | cons p l ih =>
      obtain ⟨t, ht⟩ := ih
      exact ⟨.node (.raw p.1 p.2) t, by simp [Tree.inputs, ht]⟩
  obtain ⟨t, ht⟩ := this
  exact ⟨_, t, ht ▸ List.Perm.refl _, rfl⟩

/-- a frame of three pixels reduced as `(p2 + p0) + (0 + p1)` -/
example : StemValue [(7, 65535), (9, 0), (5, 65535)] 12 :=
  ⟨.node (.node (.raw 5 65535) (.converted 7 65535)) (.node .initial (.raw 9 0)), by decide, by decide⟩

/-- **C73** (atomic additions): the order of atomic additions does not matter, neither for the result nor
for whether one of them is out of range. -/
theorem C73_atomic_order {ops ops' : List (Nat × Nat)} (h : ops.Perm ops') :
    ∀ mem : List Nat, ops.foldlM atomicAdd mem = ops'.foldlM atomicAdd mem := by
  have one : ∀ (mem : List Nat) (a : Nat × Nat), atomicAdd mem a =
      if h : a.1 < mem.length then .ok (mem.set a.1 ((mem[a.1] + a.2) % 2 ^ 64)) else .ub := by
    intro mem a
    unfold atomicAdd readAt writeAt
    by_cases h : a.1 < mem.length
    · rw [List.getElem?_eq_getElem h, dif_pos h]
      simp [h]
    · rw [List.getElem?_eq_none (by omega), dif_neg h]; rfl
  induction h with
  | nil => intro mem; rfl
  | cons a _ ih =>
    intro mem
    simp only [List.foldlM_cons]
    cases atomicAdd mem a with
    | ok m => simp only [Outcome.ok_bind]; exact ih m
    | throw m => rfl
    | ub => rfl
  | swap a b l =>
    intro mem
    simp only [List.foldlM_cons, ← bind_assoc]
    congr 1
    rw [one mem a, one mem b]
    by_cases ha : a.1 < mem.length <;> by_cases hb : b.1 < mem.length
    · rw [dif_pos ha, dif_pos hb, Outcome.ok_bind, Outcome.ok_bind, one, one]
      simp only [List.length_set, ha, hb, dif_pos]
      by_cases hab : a.1 = b.1
      · simp only [hab, List.getElem_set_self, List.set_set, Nat.mod_add_mod]
        rw [Nat.add_right_comm]
      · rw [List.getElem_set_ne (by omega), List.getElem_set_ne (by omega),
          List.set_comm _ _ (by omega)]
    · rw [dif_pos ha, dif_neg hb, Outcome.ok_bind, Outcome.ub_bind, one]
      simp [hb]
    · rw [dif_neg ha, dif_pos hb, Outcome.ok_bind, Outcome.ub_bind, one]
      simp [ha]
    · rw [dif_neg ha, dif_neg hb]; rfl
  | trans _ _ ih1 ih2 => intro mem; rw [ih1, ih2]

/-- **C73** (radial sum): the additions of the worklet are those of the serial code, so whatever the order
of the worklets the accumulated memory is the same, for every radius, position and frame. -/
theorem C73_radial {w h W H n offset : Nat} {cx cy : Int} {data : List Nat} {ops : List (Nat × Nat)}
    (hwh : w * h < 2 ^ 32)
    (hmem : (W * H) * (maxRadius (w, h) cx cy + 1) < 2 ^ 32) (hn : n < W * H) (hsc : W * H ≤ 2 ^ 31)
    (hr : RadialFrame cx cy data offset (w * h) w n (W * H) ops) :
    ∃ sops, radialSumFrame cx cy data offset (w, h) (W, H) n = .ok sops ∧
      ∀ mem : List Nat, ops.foldlM atomicAdd mem = sops.foldlM atomicAdd mem := by
  have hd : offset + w * h ≤ data.length := hr.1
  refine ⟨_, ?_, C73_atomic_order hr.2⟩
  unfold radialSumFrame
  simp only
  rw [Nat.mod_eq_of_lt hwh]
  have e : ((data.drop offset).take (w * h)).zipIdx.map (fun vi =>
      radialWorklet cx cy w n (W * H) vi.1 vi.2) =
      (List.range (w * h)).map fun j =>
        (ceilSqrt (distance2 ((j % w : Nat) : Int) ((j / w : Nat) : Int) cx cy) * (W * H) + n,
          data.getD (offset + j) 0) := by
    apply List.ext_getElem
    · simp; omega
    · intro j h1 h2
      have hj : j < w * h := by simpa using h2
      obtain ⟨hx, hy⟩ := divmod_lt hj
      have hle := radius_le_max cx cy hx hy
      simp only [List.getElem_map, List.getElem_zipIdx, List.getElem_take, List.getElem_drop,
        List.getElem_range, radialWorklet, Nat.zero_add]
      generalize ceilSqrt (distance2 ((j % w : Nat) : Int) ((j / w : Nat) : Int) cx cy) = r at *
      have hlt : r * (W * H) + n < 2 ^ 32 := by
        have := Nat.mul_le_mul_right (W * H) hle
        nlinarith
      rw [Nat.mod_eq_of_lt (a := r * (W * H)) (by omega), Nat.mod_eq_of_lt hlt]
      rw [List.getD_eq_getElem?_getD, List.getElem?_eq_getElem (by omega), Option.getD_some]
  rw [e]
  apply mapM_ok
  intro j hj
  have hj : j < w * h := by simpa using hj
  have hrd : readAt data (offset + j) = .ok (data.getD (offset + j) 0) := by
    unfold readAt
    rw [List.getD_eq_getElem?_getD, List.getElem?_eq_getElem (by omega)]; rfl
  rw [hrd, Outcome.ok_bind]
  obtain ⟨hx, hy⟩ := divmod_lt hj
  have hle := radius_le_max cx cy hx hy
  generalize ceilSqrt (distance2 ((j % w : Nat) : Int) ((j / w : Nat) : Int) cx cy) = r at *
  have e : r * W * H = r * (W * H) := by ring
  have hlt : r * (W * H) < 2 ^ 32 := by
    have := Nat.mul_le_mul_right (W * H) hle
    nlinarith
  rw [e, Nat.mod_eq_of_lt hlt, toInt32_of_lt (by omega)]
  rw [if_neg (by omega)]
  simp only [Outcome.pure_eq]
  congr 2

/-- two pixels of a 2x1 frame, added in the opposite order -/
example : RadialFrame 0 0 [3, 4] 0 2 2 1 2 [(3, 4), (1, 3)] := ⟨by decide, by decide⟩

end Stempy.Vtkm
