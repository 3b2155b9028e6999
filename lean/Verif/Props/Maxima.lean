import Verif.Model.Electron
import Verif.Spec.Events
import Verif.Lemmas.Loop
import Verif.Lemmas.ListSum
import Mathlib.Data.List.Perm.Subperm
import Mathlib.Tactic.Linarith
import Mathlib.Tactic.Ring

/-!
C10, C11: the events of a frame are exactly its strict local maxima and are never adjacent.
-/

namespace Stempy.Props
open Stempy.Electron Stempy.Spec

private theorem mod16_ok {x y : Nat} (hy : 0 < y) (hy2 : y < 65536) :
    ∃ v, mod16 x y = .ok v ∧ (x < y → v = x) := by
  unfold mod16
  have e : y % 65536 = y := Nat.mod_eq_of_lt hy2
  simp only [e]
  rw [if_neg (by omega)]
  refine ⟨_, rfl, ?_⟩
  intro h
  rw [Nat.mod_eq_of_lt (show x < 65536 by omega), Nat.mod_eq_of_lt h, Nat.add_mod_right,
    Nat.mod_eq_of_lt h]

private theorem idx_lt {w h r c : Nat} (hr : r < h) (hc : c < w) : r * w + c < w * h := by
  calc r * w + c < r * w + w := by omega
    _ = (r + 1) * w := by ring
    _ ≤ h * w := Nat.mul_le_mul_right _ hr
    _ = w * h := by ring

private theorem andThen_ok (e c : Bool) : andThen e (.ok c) = .ok (e && c) := by
  cases e <;> rfl

private theorem orElse_ok {P : Prop} [Decidable P] {x : Outcome Bool} {q : Bool}
    (h : ¬P → x = .ok q) : orElse (decide P) x = .ok (decide (¬P → q = true)) := by
  by_cases hP : P
  · simp [orElse, hP]
  · simp [orElse, hP, h hP]

private theorem rowChecks_ok {gr : Nat → Outcome Bool} {s c L R w : Nat} {q1 q2 q3 : Bool}
    (event : Bool) (g1 : gr (s + c) = .ok q1) (g2 : c ≠ 0 → gr (s + L) = .ok q2)
    (g3 : c ≠ w - 1 → gr (s + R) = .ok q3) :
    rowChecks gr s c L R w event =
      .ok (event && decide (q1 = true ∧ (c ≠ 0 → q2 = true) ∧ (c ≠ w - 1 → q3 = true))) := by
  unfold rowChecks
  rw [g1, andThen_ok, Outcome.ok_bind, orElse_ok g2, andThen_ok, Outcome.ok_bind, orElse_ok g3,
    andThen_ok]
  congr 1
  simp only [Bool.decide_and, Bool.and_assoc, Bool.decide_eq_true]

private theorem eventChecks_ok (gr : Nat → Outcome Bool) {w h r c L R T B : Nat}
    {q1 q2 q3 q4 q5 q6 q7 q8 : Bool}
    (g1 : r ≠ 0 → gr (T * w % 2 ^ 32 + c) = .ok q1)
    (g2 : r ≠ 0 → c ≠ 0 → gr (T * w % 2 ^ 32 + L) = .ok q2)
    (g3 : r ≠ 0 → c ≠ w - 1 → gr (T * w % 2 ^ 32 + R) = .ok q3)
    (g4 : r ≠ h - 1 → gr (B * w % 2 ^ 32 + c) = .ok q4)
    (g5 : r ≠ h - 1 → c ≠ 0 → gr (B * w % 2 ^ 32 + L) = .ok q5)
    (g6 : r ≠ h - 1 → c ≠ w - 1 → gr (B * w % 2 ^ 32 + R) = .ok q6)
    (g7 : c ≠ 0 → gr (r * w % 2 ^ 32 + L) = .ok q7)
    (g8 : c ≠ w - 1 → gr (r * w % 2 ^ 32 + R) = .ok q8) :
    eventChecks gr w h r c L R T B = .ok (decide (
      (r ≠ 0 → q1 = true ∧ (c ≠ 0 → q2 = true) ∧ (c ≠ w - 1 → q3 = true)) ∧
      (r ≠ h - 1 → q4 = true ∧ (c ≠ 0 → q5 = true) ∧ (c ≠ w - 1 → q6 = true)) ∧
      (c ≠ 0 → q7 = true) ∧ (c ≠ w - 1 → q8 = true))) := by
  have row : ∀ (P : Prop) [Decidable P] (e : Bool) (s : Nat) (a1 a2 a3 : Bool),
      (P → gr (s + c) = .ok a1) → (P → c ≠ 0 → gr (s + L) = .ok a2) →
      (P → c ≠ w - 1 → gr (s + R) = .ok a3) →
      rowChecksIf (decide P) gr s c L R w e =
      .ok (e && decide (P → a1 = true ∧ (c ≠ 0 → a2 = true) ∧ (c ≠ w - 1 → a3 = true))) := by
    intro P _ e s a1 a2 a3 f1 f2 f3
    unfold rowChecksIf
    by_cases a : P
    · cases e with
      | false => rfl
      | true =>
        rw [if_pos (by simp [a]), rowChecks_ok true (f1 a) (f2 a) (f3 a), Bool.true_and,
          Bool.true_and]
        congr 1
        exact decide_eq_decide.2 ⟨fun x _ => x, fun x => x a⟩
    · simp [a]
  unfold eventChecks
  simp only []
  rw [row _ _ _ _ _ _ g1 g2 g3, Outcome.ok_bind, row _ _ _ _ _ _ g4 g5 g6, Outcome.ok_bind,
    orElse_ok g7, andThen_ok, Outcome.ok_bind,
    orElse_ok g8, andThen_ok]
  congr 1
  simp only [Bool.decide_and, Bool.and_assoc, Bool.true_and]

/-- The loop body decides the specification. -/
private theorem isEvent_spec {α : Type} (gt : α → α → Bool) (frame : List α) {w h : Nat}
    (hw : w < 65536) (hh : h < 65536) (hs : w * h < 2 ^ 32) (hl : frame.length = w * h)
    {r c : Nat} (hr : r < h) (hc : c < w) :
    ∃ b, isEvent gt frame w h (r * w + c) = .ok b ∧
      (b = true ↔ StrictLocalMax gt frame w h c r) := by
  have hrow : (r * w + c) / w = r := by
    rw [Nat.add_comm, Nat.add_mul_div_right _ _ (by omega), Nat.div_eq_of_lt hc]; omega
  have hcol : (r * w + c) % w = c := by
    rw [Nat.add_comm, Nat.add_mul_mod_self_right, Nat.mod_eq_of_lt hc]
  obtain ⟨R, hR, hR'⟩ := mod16_ok (x := (c + 1) % 2 ^ 32) (show 0 < w by omega) hw
  obtain ⟨L, hL, hL'⟩ := mod16_ok (x := (c + 2 ^ 32 - 1) % 2 ^ 32) (show 0 < w by omega) hw
  obtain ⟨T, hT, hT'⟩ := mod16_ok (x := (r + 2 ^ 32 - 1) % 2 ^ 32) (show 0 < h by omega) hh
  obtain ⟨B, hB, hB'⟩ := mod16_ok (x := (r + 1) % 2 ^ 32) (show 0 < h by omega) hh
  replace hR' : c ≠ w - 1 → R = c + 1 := by
    intro hx
    have := hR' (by omega); omega
  replace hL' : c ≠ 0 → L = c - 1 := by
    intro hx
    have := hL' (by omega); omega
  replace hT' : r ≠ 0 → T = r - 1 := by
    intro hx
    have := hT' (by omega); omega
  replace hB' : r ≠ h - 1 → B = r + 1 := by
    intro hx
    have := hB' (by omega); omega
  have hsmall : ∀ y x, y < h → x < w → (y * w) % 2 ^ 32 = y * w := by
    intro y x hy hx
    apply Nat.mod_eq_of_lt
    have := idx_lt hy hx
    omega
  obtain ⟨p, hp⟩ : ∃ p, frame[r * w + c]? = some p :=
    ⟨_, List.getElem?_eq_getElem (by rw [hl]; exact idx_lt hr hc)⟩
  let G : Nat → Nat → Bool := fun y x =>
    match frame[y * w + x]? with | some v => gt p v | none => false
  obtain ⟨gr, hgr⟩ : ∃ gr : Nat → Outcome Bool,
      gr = fun j => (do let v ← readAt frame j; pure (gt p v) : Outcome Bool) := ⟨_, rfl⟩
  have hG : ∀ y x, y < h → x < w → gr (y * w % 2 ^ 32 + x) = .ok (G y x) := by
    intro y x hy hx
    rw [hsmall y x hy hx, hgr]
    have hlt : y * w + x < frame.length := by rw [hl]; exact idx_lt hy hx
    simp [readAt_lt hlt, G, List.getElem?_eq_getElem hlt]
  have key : isEvent gt frame w h (r * w + c) = .ok (decide (
      (r ≠ 0 → G (r - 1) c = true ∧ (c ≠ 0 → G (r - 1) (c - 1) = true) ∧
        (c ≠ w - 1 → G (r - 1) (c + 1) = true)) ∧
      (r ≠ h - 1 → G (r + 1) c = true ∧ (c ≠ 0 → G (r + 1) (c - 1) = true) ∧
        (c ≠ w - 1 → G (r + 1) (c + 1) = true)) ∧
      (c ≠ 0 → G r (c - 1) = true) ∧ (c ≠ w - 1 → G r (c + 1) = true))) := by
    unfold isEvent
    rw [if_neg (by omega)]
    simp only [hrow, hcol, hR, hL, hT, hB, Outcome.ok_bind, readAt_eq_ok.2 hp]
    rw [← hgr]
    have g1 : r ≠ 0 → gr (T * w % 2 ^ 32 + c) =
        .ok (G (r - 1) c) := fun a => by rw [hT' a]; exact hG _ _ (by omega) hc
    have g2 : r ≠ 0 → c ≠ 0 →
        gr (T * w % 2 ^ 32 + L) =
        .ok (G (r - 1) (c - 1)) := fun a b => by
          rw [hT' a, hL' b]; exact hG _ _ (by omega) (by omega)
    have g3 : r ≠ 0 → c ≠ w - 1 →
        gr (T * w % 2 ^ 32 + R) =
        .ok (G (r - 1) (c + 1)) := fun a b => by
          rw [hT' a, hR' b]; exact hG _ _ (by omega) (by omega)
    have g4 : r ≠ h - 1 → gr (B * w % 2 ^ 32 + c) = .ok (G (r + 1) c) := fun a => by rw [hB' a]; exact hG _ _ (by omega) hc
    have g5 : r ≠ h - 1 → c ≠ 0 →
        gr (B * w % 2 ^ 32 + L) =
        .ok (G (r + 1) (c - 1)) := fun a b => by
          rw [hB' a, hL' b]; exact hG _ _ (by omega) (by omega)
    have g6 : r ≠ h - 1 → c ≠ w - 1 →
        gr (B * w % 2 ^ 32 + R) =
        .ok (G (r + 1) (c + 1)) := fun a b => by
          rw [hB' a, hR' b]; exact hG _ _ (by omega) (by omega)
    have g7 : c ≠ 0 →
        gr (r * w % 2 ^ 32 + L) =
        .ok (G r (c - 1)) := fun b => by
          rw [hL' b]; exact hG _ _ hr (by omega)
    have g8 : c ≠ w - 1 →
        gr (r * w % 2 ^ 32 + R) =
        .ok (G r (c + 1)) := fun b => by
          rw [hR' b]; exact hG _ _ hr (by omega)
    exact eventChecks_ok gr g1 g2 g3 g4 g5 g6 g7 g8
  refine ⟨_, key, ?_⟩
  rw [decide_eq_true_iff]
  have hGt : ∀ y x v', frame[y * w + x]? = some v' → G y x = gt p v' := by
    intro y x v' hv; simp [G, hv]
  constructor
  · rintro ⟨h1, h2, h3, h4⟩
    refine ⟨p, hp, ?_⟩
    intro x' y' v' hx hy hn hv
    rw [← hGt y' x' v' hv]
    obtain ⟨n0, n1, n2, n3, n4⟩ := hn
    have hy3 : y' = r - 1 ∧ r ≠ 0 ∨ y' = r ∨ y' = r + 1 ∧ r ≠ h - 1 := by omega
    have hx3 : x' = c - 1 ∧ c ≠ 0 ∨ x' = c ∨ x' = c + 1 ∧ c ≠ w - 1 := by omega
    rcases hy3 with ⟨rfl, a⟩ | rfl | ⟨rfl, a⟩ <;> rcases hx3 with ⟨rfl, b⟩ | rfl | ⟨rfl, b⟩
    · exact (h1 a).2.1 b
    · exact (h1 a).1
    · exact (h1 a).2.2 b
    · exact h3 b
    · exact absurd ⟨rfl, rfl⟩ n0
    · exact h4 b
    · exact (h2 a).2.1 b
    · exact (h2 a).1
    · exact (h2 a).2.2 b
  · rintro ⟨p', hp', H⟩
    rw [hp] at hp'
    cases hp'
    have K : ∀ y x, y < h → x < w → Neighbour c r x y → G y x = true := by
      intro y x hy hx hn
      have hv := List.getElem?_eq_getElem (l := frame) (i := y * w + x)
        (by rw [hl]; exact idx_lt hy hx)
      rw [hGt y x _ hv]
      exact H x y _ hx hy hn hv
    refine ⟨fun a => ⟨K _ _ ?_ ?_ ?_, fun b => K _ _ ?_ ?_ ?_, fun b => K _ _ ?_ ?_ ?_⟩,
      fun a => ⟨K _ _ ?_ ?_ ?_, fun b => K _ _ ?_ ?_ ?_, fun b => K _ _ ?_ ?_ ?_⟩,
      fun b => K _ _ ?_ ?_ ?_, fun b => K _ _ ?_ ?_ ?_⟩ <;> first | omega | (unfold Neighbour; omega)

/-- **C10.** On a detector with sides below `2^16` and less than `2^32` pixels, `maximalPoints` returns, in
increasing row-major order without repetition, exactly the pixels that are strictly greater than all of
their neighbours on the detector. The comparison may be any relation (for `float`, also with NaN). -/
theorem C10_maxima {α : Type} (gt : α → α → Bool) (frame : List α) {w h : Nat}
    (hw : w < 65536) (hh : h < 65536) (hs : w * h < 2 ^ 32) (hl : frame.length = w * h) :
    ∃ events, maximalPoints gt frame (w, h) = .ok events ∧ events.Pairwise (· < ·) ∧
      (∀ e ∈ events, e < w * h) ∧
      ∀ x y, x < w → y < h → (y * w + x ∈ events ↔ StrictLocalMax gt frame w h x y) := by
  unfold maximalPoints
  have hn : (h * w) % 2 ^ 32 = w * h := by
    rw [Nat.mul_comm]; exact Nat.mod_eq_of_lt hs
  simp only [hn]
  obtain ⟨ev, h1, h2, h3, h4⟩ := foldlM_range_inv (w * h)
    (fun (events : List Nat) i => do
      let e ← isEvent gt frame w h i
      pure (if e then events ++ [i] else events))
    (fun k events => events.Pairwise (· < ·) ∧ (∀ e ∈ events, e < k) ∧
      ∀ x y, x < w → y < h → y * w + x < k →
        (y * w + x ∈ events ↔ StrictLocalMax gt frame w h x y)) []
    ⟨by simp, by simp, by intro x y _ _ h0; omega⟩
    (by
      rintro k hk s ⟨i1, i2, i3⟩
      have hw0 : 0 < w := by
        rcases Nat.eq_zero_or_pos w with h0 | h0
        · rw [h0] at hk; simp at hk
        · exact h0
      have hr : k / w < h := Nat.div_lt_of_lt_mul hk
      have hc : k % w < w := Nat.mod_lt _ hw0
      have hk' : k / w * w + k % w = k := by rw [Nat.mul_comm]; exact Nat.div_add_mod k w
      obtain ⟨b, e1, e2⟩ := isEvent_spec gt frame hw hh hs hl hr hc
      rw [hk'] at e1
      refine ⟨_, by rw [e1]; rfl, ?_⟩
      have huniq : ∀ x y, x < w → y < h → y * w + x = k → x = k % w ∧ y = k / w := by
        intro x y hx _ he
        subst he
        constructor
        · rw [Nat.add_comm, Nat.add_mul_mod_self_right, Nat.mod_eq_of_lt hx]
        · rw [Nat.add_comm, Nat.add_mul_div_right _ _ hw0, Nat.div_eq_of_lt hx]; omega
      cases b with
      | false =>
        refine ⟨i1, fun e he => Nat.lt_succ_of_lt (i2 e he), ?_⟩
        intro x y hx hy hlt
        rcases Nat.lt_succ_iff_lt_or_eq.1 hlt with h0 | h0
        · exact i3 x y hx hy h0
        · obtain ⟨rfl, rfl⟩ := huniq x y hx hy h0
          rw [← e2]
          simp only [Bool.false_eq_true, if_false, iff_false]
          intro hm
          have := i2 _ hm
          omega
      | true =>
        simp only [if_true]
        refine ⟨?_, ?_, ?_⟩
        · rw [List.pairwise_append]
          exact ⟨i1, by simp, fun a ha b hb => by
            simp only [List.mem_singleton] at hb; subst hb; exact i2 a ha⟩
        · intro e he
          simp only [List.mem_append, List.mem_singleton] at he
          rcases he with he | he
          · exact Nat.lt_succ_of_lt (i2 e he)
          · omega
        · intro x y hx hy hlt
          rw [List.mem_append, List.mem_singleton]
          rcases Nat.lt_succ_iff_lt_or_eq.1 hlt with h0 | h0
          · rw [← i3 x y hx hy h0]
            constructor
            · rintro (a | a)
              · exact a
              · omega
            · exact Or.inl
          · obtain ⟨rfl, rfl⟩ := huniq x y hx hy h0
            rw [← e2]
            simp [h0])
  exact ⟨ev, h1, h2, h3, fun x y hx hy => h4 x y hx hy (by
    have := idx_lt (w := w) (h := h) hy hx; omega)⟩

/-- **C10** (the bound on the sides is needed): with a width of exactly `2^16` the neighbour computation
divides by zero. -/
theorem C10_wide_frame_undefined {α : Type} (gt : α → α → Bool) (frame : List α) {h : Nat}
    (h0 : 0 < h) (hs : 65536 * h < 2 ^ 32) :
    maximalPoints gt frame (65536, h) = .ub := by
  have hm : (h * 65536) % 2 ^ 32 = h * 65536 := Nat.mod_eq_of_lt (by omega)
  have e : ∃ n, h * 65536 = n + 1 := ⟨h * 65536 - 1, by omega⟩
  obtain ⟨n, hn⟩ := e
  unfold maximalPoints
  simp only [hm]
  rw [hn, List.range_succ_eq_map, List.foldlM_cons]
  have : isEvent gt frame 65536 h 0 = .ub := by
    simp [isEvent, mod16]
  rw [this]
  rfl

example : (3 : Nat) < 65536 ∧ (2 : Nat) < 65536 ∧ 3 * 2 < 2 ^ 32 ∧ [9, 1, 5, 1, 1, 1].length = 3 * 2 := by
  decide
example : maximalPoints (fun a b : Nat => decide (a > b)) [9, 1, 5, 1, 1, 1] (3, 2) = .ok [0, 2] := by
  decide
/-- a plateau has no strict maximum -/
example : maximalPoints (fun a b : Nat => decide (a > b)) [9, 9, 5, 1, 1, 1] (3, 2) = .ok [2] → False := by
  decide
/-- a single pixel is a maximum -/
example : maximalPoints (fun a b : Nat => decide (a > b)) [0] (1, 1) = .ok [0] := by decide

/-! ### C11 -/

/-- **C11** No two events are 8-neighbours, for any comparison that is asymmetric. -/
theorem C11_not_adjacent {α : Type} (gt : α → α → Bool)
    (asymm : ∀ a b, gt a b = true → gt b a = false) (frame : List α) {w h : Nat}
    (hw : w < 65536) (hh : h < 65536) (hs : w * h < 2 ^ 32) (hl : frame.length = w * h)
    {events : List Nat} (he : maximalPoints gt frame (w, h) = .ok events)
    {x y x' y' : Nat} (hx : x < w) (hy : y < h) (hx' : x' < w) (hy' : y' < h)
    (h1 : y * w + x ∈ events) (h2 : y' * w + x' ∈ events) : ¬ Neighbour x y x' y' := by
  obtain ⟨ev, e1, _, _, e4⟩ := C10_maxima gt frame hw hh hs hl
  rw [e1] at he
  cases he
  intro hn
  obtain ⟨v, a1, a2⟩ := (e4 x y hx hy).1 h1
  obtain ⟨v', b1, b2⟩ := (e4 x' y' hx' hy').1 h2
  have c1 := a2 x' y' v' hx' hy' hn b1
  have c2 := b2 x y v hx hy (by unfold Neighbour at *; omega) a1
  rw [asymm _ _ c1] at c2
  exact absurd c2 (by simp)

private theorem length_le_of_injOn {l : List Nat} (hn : l.Nodup) (f : Nat → Nat) (n : Nat)
    (hf : ∀ a ∈ l, f a < n) (hinj : ∀ a ∈ l, ∀ b ∈ l, f a = f b → a = b) : l.length ≤ n := by
  have h1 : (l.map f).Nodup := by
    rw [List.nodup_iff_pairwise_ne] at *
    exact List.pairwise_map.2 (hn.imp_of_mem fun ha hb hne he => hne (hinj _ ha _ hb he))
  have h2 : (l.map f) ⊆ List.range n := by
    intro a ha
    obtain ⟨b, hb, rfl⟩ := List.mem_map.1 ha
    simpa using hf b hb
  have := (List.subperm_of_subset h1 h2).length_le
  simpa using this

/-- **C11** A frame has at most `⌈w/2⌉ * ⌈h/2⌉` events. -/
theorem C11_bound {α : Type} (gt : α → α → Bool)
    (asymm : ∀ a b, gt a b = true → gt b a = false) (frame : List α) {w h : Nat}
    (hw : w < 65536) (hh : h < 65536) (hs : w * h < 2 ^ 32) (hl : frame.length = w * h)
    {events : List Nat} (he : maximalPoints gt frame (w, h) = .ok events) :
    events.length ≤ ((w + 1) / 2) * ((h + 1) / 2) := by
  obtain ⟨ev, e1, e2, e3, e4⟩ := C10_maxima gt frame hw hh hs hl
  have he' := he
  rw [e1] at he'
  obtain rfl : ev = events := by injection he'
  have hnd : ev.Nodup := e2.imp (fun h => Nat.ne_of_lt h)
  apply length_le_of_injOn hnd (fun e => (e / w / 2) * ((w + 1) / 2) + (e % w) / 2)
  · intro e hm
    have hlt := e3 e hm
    have hw0 : 0 < w := by
      rcases Nat.eq_zero_or_pos w with h0 | h0
      · rw [h0] at hlt; simp at hlt
      · exact h0
    have hr : e / w < h := Nat.div_lt_of_lt_mul hlt
    have hc : e % w < w := Nat.mod_lt _ hw0
    exact idx_lt (by omega) (by omega)
  · intro a ha b hb hab
    have hla := e3 a ha
    have hlb := e3 b hb
    have hw0 : 0 < w := by
      rcases Nat.eq_zero_or_pos w with h0 | h0
      · rw [h0] at hla; simp at hla
      · exact h0
    have ra : a / w < h := Nat.div_lt_of_lt_mul hla
    have ca : a % w < w := Nat.mod_lt _ hw0
    have rb : b / w < h := Nat.div_lt_of_lt_mul hlb
    have cb : b % w < w := Nat.mod_lt _ hw0
    have ea : a / w * w + a % w = a := by rw [Nat.mul_comm]; exact Nat.div_add_mod a w
    have eb : b / w * w + b % w = b := by rw [Nat.mul_comm]; exact Nat.div_add_mod b w
    have hnn := C11_not_adjacent gt asymm frame hw hh hs hl he ca ra cb rb
      (by rw [ea]; exact ha) (by rw [eb]; exact hb)
    have hq : 0 < (w + 1) / 2 := by omega
    have hcell : a / w / 2 = b / w / 2 ∧ a % w / 2 = b % w / 2 := by
      have ua : a % w / 2 < (w + 1) / 2 := by omega
      have ub : b % w / 2 < (w + 1) / 2 := by omega
      generalize a / w / 2 = A at *
      generalize b / w / 2 = B at *
      generalize a % w / 2 = C at *
      generalize b % w / 2 = D at *
      generalize (w + 1) / 2 = q at *
      have h1 : (A * q + C) / q = A := by
        rw [Nat.add_comm, Nat.add_mul_div_right _ _ hq, Nat.div_eq_of_lt ua]; omega
      have h2 : (B * q + D) / q = B := by
        rw [Nat.add_comm, Nat.add_mul_div_right _ _ hq, Nat.div_eq_of_lt ub]; omega
      have hAB : A = B := by rw [← h1, ← h2, hab]
      subst hAB
      exact ⟨rfl, by omega⟩
    obtain ⟨h1, h2⟩ := hcell
    have : a % w = b % w ∧ a / w = b / w := by
      by_contra hne
      apply hnn
      unfold Neighbour
      generalize a / w = A at *
      generalize b / w = B at *
      generalize a % w = C at *
      generalize b % w = D at *
      refine ⟨?_, ?_, ?_, ?_, ?_⟩ <;> omega
    rw [← ea, ← eb, this.1, this.2]

/-- comparison of pixel values is asymmetric -/
theorem ratGt_asymm (a b : Rat) (h : ratGt a b = true) : ratGt b a = false := by
  unfold ratGt at *
  simp only [gt_iff_lt, decide_eq_true_eq, decide_eq_false_iff_not, not_lt] at *
  exact le_of_lt h

/-- the bound is attained: a 3x3 frame with events in the corners -/
example : maximalPoints (fun a b : Nat => decide (a > b)) [1, 0, 1, 0, 0, 0, 1, 0, 1] (3, 3) =
    .ok [0, 2, 6, 8] := by decide
example : ∀ a b : Rat, ratGt a b = true → ratGt b a = false := ratGt_asymm

end Stempy.Props
