import Verif.Model.Iteration
import Verif.Props.StreamReader

/-!
C65: iterating over the blocks of a stream in C++ and in Python.
-/

namespace Stempy.StreamReader
open Stempy.Spec

/-- Bytes that are not read yet. -/
def unread (s : State) : Nat := (s.stream.getD []).length + (s.left.map fun f => (f.getD []).length).sum

private theorem readBytesFrom_unread (size : Nat) (left : List File) (stream : Option (List UInt8)) {bytes : List UInt8} {t : State}
    (h : readBytesFrom size left stream = (.ok bytes, t)) : unread t + size ≤ unread ⟨stream, left⟩ := by
  induction left generalizing stream with
  | nil =>
    cases stream with
    | none => simp [readBytesFrom] at h
    | some b =>
      simp only [readBytesFrom] at h
      split at h
      · cases h
        simp [unread]
        omega
      · simp at h
  | cons f fs ih =>
    cases f with
    | none =>
      cases stream with
      | none => simp [readBytesFrom] at h
      | some b =>
        simp only [readBytesFrom] at h
        split at h
        · cases h
          simp [unread]
          omega
        · simp at h
    | some f =>
      cases stream with
      | none =>
        have := ih (some f) h
        simp [unread] at this ⊢
        omega
      | some b =>
        simp only [readBytesFrom] at h
        split at h
        · cases h
          simp [unread]
          omega
        · have := ih (some f) h
          simp [unread] at this ⊢
          omega

private theorem bind_ok_inv {α β : Type} {x : Rd α} {f : α → Rd β} {s u : State} {b : β} (h : bind x f s = (.ok b, u)) :
    ∃ a t, x s = (.ok a, t) ∧ f a t = (.ok b, u) := by
  unfold bind at h
  cases hx : x s with
  | mk o t =>
    rw [hx] at h
    cases o with
    | ok a => exact ⟨a, t, rfl, h⟩
    | throw m => simp at h
    | ub => simp at h

private theorem readHeader_unread {v : Nat} {s t : State} {h : Header} (hr : readHeader v s = (.ok h, t)) :
    unread t + 4 ≤ unread s ∧ (v = 2 ∨ v = 3 → h.version ≠ 0) := by
  unfold readHeader at hr
  split at hr
  · obtain ⟨a, t', h1, h2⟩ := bind_ok_inv hr
    have h3 := readBytesFrom_unread _ _ _ h1
    have h4 : t' = t := congrArg Prod.snd h2
    rw [h4] at h3
    refine ⟨?_, by intro h; omega⟩
    have : unread s = unread ⟨s.stream, s.left⟩ := rfl
    omega
  · obtain ⟨a, t', h1, h2⟩ := bind_ok_inv hr
    have := readBytesFrom_unread _ _ _ h1
    cases h2
    exact ⟨this, fun _ => by simp⟩
  · obtain ⟨a, t', h1, h2⟩ := bind_ok_inv hr
    obtain ⟨a', t'', h3, h4⟩ := bind_ok_inv h2
    have e1 := readBytesFrom_unread _ _ _ h1
    have e2 := readBytesFrom_unread _ _ _ h3
    cases h4
    refine ⟨?_, fun _ => by simp⟩
    have : unread s = unread ⟨s.stream, s.left⟩ := rfl
    have : unread t' = unread ⟨t'.stream, t'.left⟩ := rfl
    omega
  · simp at hr

private theorem readBlock_unread {v : Nat} {s t : State} {b : Block} (hr : readBlock v s = (.ok (some b), t)) :
    unread t < unread s ∧ (v = 2 ∨ v = 3 → b.header.version ≠ 0) := by
  unfold readBlock at hr
  simp only at hr
  split at hr
  · simp at hr
  · obtain ⟨h, t', h1, h2⟩ := bind_ok_inv hr
    obtain ⟨bytes, t'', h3, h4⟩ := bind_ok_inv h2
    obtain ⟨e1, e3⟩ := readHeader_unread h1
    have e2 := readBytesFrom_unread _ _ _ h3
    cases h4
    have : unread t' = unread ⟨t'.stream, t'.left⟩ := rfl
    exact ⟨by omega, e3⟩

private theorem readFrom_unread {v : Nat} (left : List File) (stream : Option (List UInt8)) {t : State} {b : Block}
    (hr : readFrom v left stream = (.ok (some b), t)) :
    unread t < unread ⟨stream, left⟩ ∧ (v = 2 ∨ v = 3 → b.header.version ≠ 0) := by
  induction left generalizing stream with
  | nil =>
    match stream with
    | none => simp [readFrom] at hr
    | some [] => simp [readFrom] at hr
    | some (_ :: _) => exact readBlock_unread (by simpa [readFrom] using hr)
  | cons f fs ih =>
    match f, stream with
    | none, none => simp [readFrom] at hr
    | none, some [] => simp [readFrom] at hr
    | some f, none =>
      obtain ⟨h1, h2⟩ := ih (some f) (by simpa [readFrom] using hr)
      refine ⟨?_, h2⟩
      simp [unread] at h1 ⊢
      omega
    | some f, some [] =>
      obtain ⟨h1, h2⟩ := ih (some f) (by simpa [readFrom] using hr)
      refine ⟨?_, h2⟩
      simp [unread] at h1 ⊢
      omega
    | f, some (_ :: _) => exact readBlock_unread (by cases f <;> simpa [readFrom] using hr)

private theorem loop_ends (next : Rd (Option Block)) (hn : ∀ s b t, next s = (.ok (some b), t) → unread t < unread s)
    (n : Nat) : ∀ s, unread s ≤ n → ∃ bs r t, Loop next s bs r t ∧ bs.length ≤ unread s := by
  induction n with
  | zero =>
    intro s hs
    cases h : next s with
    | mk o t =>
      match o, h with
      | .ok none, h => exact ⟨[], _, t, .done h, by simp⟩
      | .throw m, h => exact ⟨[], _, t, .throw h, by simp⟩
      | .ub, h => exact ⟨[], _, t, .ub h, by simp⟩
      | .ok (some b), h => have := hn s b t h; omega
  | succ n ih =>
    intro s hs
    cases h : next s with
    | mk o t =>
      match o, h with
      | .ok none, h => exact ⟨[], _, t, .done h, by simp⟩
      | .throw m, h => exact ⟨[], _, t, .throw h, by simp⟩
      | .ub, h => exact ⟨[], _, t, .ub h, by simp⟩
      | .ok (some b), h =>
        have hlt := hn s b t h
        obtain ⟨bs, r, u, hl, hb⟩ := ih t (by omega)
        exact ⟨b :: bs, r, u, .step h hl, by rw [List.length_cons]; omega⟩

private theorem nextPy_some {v : Nat} {s t : State} {b : Block} (h : nextPy v s = (.ok (some b), t)) :
    read v s = (.ok (some b), t) ∧ b.header.version ≠ 0 := by
  unfold nextPy at h
  split at h
  · simp at h
  · rename_i b' t' hr
    split at h
    · simp at h
    · rename_i hv
      simp only [Prod.mk.injEq, Outcome.ok.injEq, Option.some.injEq] at h
      obtain ⟨rfl, rfl⟩ := h
      exact ⟨hr, hv⟩
  · simp at h
  · simp at h

private theorem loop_unique {next : Rd (Option Block)} {s t t' : State} {bs bs' : List Block} {r r' : Outcome Unit}
    (h : Loop next s bs r t) (h' : Loop next s bs' r' t') : bs = bs' ∧ r = r' ∧ t = t' := by
  induction h generalizing bs' with
  | done e => cases h' <;> rename_i e' <;> simp_all
  | throw e => cases h' <;> rename_i e' <;> simp_all
  | ub e => cases h' <;> rename_i e' <;> simp_all
  | step e _ ih =>
    cases h' with
    | done e' => simp_all
    | throw e' => simp_all
    | ub e' => simp_all
    | step e' h' =>
      rw [e] at e'
      cases e'
      obtain ⟨rfl, rfl, rfl⟩ := ih h'
      exact ⟨rfl, rfl, rfl⟩

/-- **C65** Both loops end for all files and formats, in exactly one way, after at most as many blocks as there are unread
bytes. -/
theorem C65_ends (v : Nat) (s : State) :
    (∃ bs r t, Loop (nextCpp v) s bs r t ∧ bs.length ≤ unread s ∧
      ∀ bs' r' t', Loop (nextCpp v) s bs' r' t' → bs' = bs ∧ r' = r ∧ t' = t) ∧
    (∃ bs r t, Loop (nextPy v) s bs r t ∧ bs.length ≤ unread s ∧
      ∀ bs' r' t', Loop (nextPy v) s bs' r' t' → bs' = bs ∧ r' = r ∧ t' = t) := by
  constructor
  · obtain ⟨bs, r, t, h1, h2⟩ := loop_ends (nextCpp v) (fun s b t h => (readFrom_unread _ _ h).1) _ s le_rfl
    exact ⟨bs, r, t, h1, h2, fun _ _ _ h => loop_unique h h1⟩
  · obtain ⟨bs, r, t, h1, h2⟩ := loop_ends (nextPy v) (fun s b t h => (readFrom_unread _ _ (nextPy_some h).1).1) _ s le_rfl
    exact ⟨bs, r, t, h1, h2, fun _ _ _ h => loop_unique h h1⟩

/-- **C65** The loops in C++ and in Python see the same blocks, end in the same way and leave the reader in the same state, if no block
that the C++ loop sees has version 0 in its header. Missing: blocks of format 1 with version 0, see `C65_version_zero_false`. -/
theorem C65_same_partial {v : Nat} {s t : State} {bs : List Block} {r : Outcome Unit} (h : Loop (nextCpp v) s bs r t)
    (hv : ∀ b ∈ bs, b.header.version ≠ 0) : Loop (nextPy v) s bs r t := by
  induction h with
  | done e => exact .done (by unfold nextPy; unfold nextCpp at e; rw [e])
  | throw e => exact .throw (by unfold nextPy; unfold nextCpp at e; rw [e])
  | ub e => exact .ub (by unfold nextPy; unfold nextCpp at e; rw [e])
  | step e _ ih =>
    refine .step ?_ (ih fun b hb => hv b (by simp [hb]))
    unfold nextPy
    unfold nextCpp at e
    rw [e]
    simp only
    rw [if_neg (hv _ (by simp))]

/-- **C65** For the formats 2 and 3 the two loops are always the same: the version of every header is that of the format. -/
theorem C65_same {v : Nat} (hv : v = 2 ∨ v = 3) {s t : State} {bs : List Block} {r : Outcome Unit} :
    Loop (nextCpp v) s bs r t ↔ Loop (nextPy v) s bs r t := by
  have key : ∀ {s t : State} {bs : List Block} {r : Outcome Unit}, Loop (nextCpp v) s bs r t → Loop (nextPy v) s bs r t := by
    intro s t bs r h
    refine C65_same_partial h ?_
    induction h with
    | done => simp
    | throw => simp
    | ub => simp
    | step e _ ih =>
      intro b hb
      rcases List.mem_cons.1 hb with rfl | hb
      · exact (readFrom_unread _ _ e).2 hv
      · exact ih b hb
  refine ⟨key, fun h => ?_⟩
  obtain ⟨bs', r', t', h1, _⟩ := (C65_ends v s).1
  obtain ⟨rfl, rfl, rfl⟩ := loop_unique h (key h1)
  exact h1

/-- **C65** The blocks of the Python loop are those of the C++ loop up to the first one with version 0. -/
theorem C65_prefix {v : Nat} {s t t' : State} {bs bs' : List Block} {r r' : Outcome Unit} (h : Loop (nextCpp v) s bs r t)
    (h' : Loop (nextPy v) s bs' r' t') : bs' = bs.takeWhile fun b => b.header.version ≠ 0 := by
  induction h generalizing bs' with
  | done e =>
    unfold nextCpp at e
    cases h' with
    | step e' _ => have := (nextPy_some e').1; simp_all
    | _ => rfl
  | throw e =>
    unfold nextCpp at e
    cases h' with
    | step e' _ => have := (nextPy_some e').1; simp_all
    | _ => rfl
  | ub e =>
    unfold nextCpp at e
    cases h' with
    | step e' _ => have := (nextPy_some e').1; simp_all
    | _ => rfl
  | @step s t u b bs r e _ ih =>
    unfold nextCpp at e
    by_cases hb : b.header.version = 0
    · have hn : nextPy v s = (.ok none, t) := by unfold nextPy; rw [e]; simp [hb]
      have := loop_unique h' (.done hn)
      rw [this.1, List.takeWhile_cons_of_neg (by simp [hb])]
    · have hn : nextPy v s = (.ok (some b), t) := by unfold nextPy; rw [e]; simp [hb]
      cases h' with
      | step e' h' =>
        rw [hn] at e'
        cases e'
        rw [List.takeWhile_cons_of_pos (by simp [hb]), ih h']
      | done e' => rw [hn] at e'; simp at e'
      | throw e' => rw [hn] at e'; simp at e'
      | ub e' => rw [hn] at e'; simp at e'

/-- How the last call of `read` ended decides how the loop ended. -/
def ended : Outcome Unit → Outcome (Option Block)
  | .ok () => .ok none
  | .throw m => .throw m
  | .ub => .ub

/-- **C65** The C++ loop is successive calls of `read`: one for each block, and a last one, with its error if it has one. -/
theorem C65_calls (v : Nat) (s t : State) (bs : List Block) (r : Outcome Unit) :
    Loop (nextCpp v) s bs r t ↔ ∃ f : Nat → State, f 0 = s ∧ (∀ i (h : i < bs.length), read v (f i) = (.ok (some bs[i]), f (i + 1))) ∧
      read v (f bs.length) = (ended r, t) := by
  constructor
  · intro h
    induction h with
    | @done s t e => exact ⟨fun _ => s, rfl, fun i h => absurd h (by simp), e⟩
    | @throw s t m e => exact ⟨fun _ => s, rfl, fun i h => absurd h (by simp), e⟩
    | @ub s t e => exact ⟨fun _ => s, rfl, fun i h => absurd h (by simp), e⟩
    | @step s t u b bs r e _ ih =>
      obtain ⟨f, h0, h1, h2⟩ := ih
      refine ⟨fun i => if i = 0 then s else f (i - 1), rfl, ?_, ?_⟩
      · rintro (_ | i) hi
        · simp only [if_true, Nat.zero_add, one_ne_zero, if_false, Nat.sub_self, List.getElem_cons_zero]
          rw [h0]
          exact e
        · simpa using h1 i (by simpa using hi)
      · simpa using h2
  · rintro ⟨f, rfl, h1, h2⟩
    induction bs generalizing f with
    | nil =>
      cases r with
      | ok u => exact .done h2
      | throw m => exact .throw h2
      | ub => exact .ub h2
    | cons b bs ih =>
      refine .step (h1 0 (by simp)) (ih (fun i => f (i + 1)) ?_ (by simpa using h2))
      intro i hi
      exact h1 (i + 1) (by simpa using hi)

/-- **C65** is false for format 1, where the version is read from the file: for every file that begins with a block with version 0 and goes on
with any blocks, the loop in Python sees nothing, and that in C++ sees this block. -/
theorem C65_version_zero_false {bytes rest : List UInt8} {b : Block} (hw : Written 1 bytes b) (hb : b.header.version = 0) :
    (∃ t, Loop (nextPy 1) ⟨some (bytes ++ rest), []⟩ [] (.ok ()) t) ∧
    ∀ bs r t, Loop (nextCpp 1) ⟨some (bytes ++ rest), []⟩ bs r t → bs.head? = some b := by
  obtain ⟨bs, r, t, h, _, hu⟩ := (C65_ends 1 ⟨some (bytes ++ rest), []⟩).1
  have hr : read 1 ⟨some (bytes ++ rest), []⟩ = (.ok (some b), ⟨some rest, []⟩) := Props.read_record hw rest []
  constructor
  · exact ⟨⟨some rest, []⟩, .done (by unfold nextPy; rw [hr]; simp [hb])⟩
  · intro bs' r' t' h'
    cases h' with
    | step e _ => unfold nextCpp at e; rw [hr] at e; cases e; rfl
    | done e => unfold nextCpp at e; rw [hr] at e; simp at e
    | throw e => unfold nextCpp at e; rw [hr] at e; simp at e
    | ub e => unfold nextCpp at e; rw [hr] at e; simp at e

/-- A record of version 0 in the header with one frame of one pixel. -/
example (unused : List Nat) (hu : unused.length = 1013) (h0 : ∀ x ∈ unused, x = 0) : Written 1
    (encodeArray 4 ([1, 1, 1, 0, 77] ++ [0, 0, 0, 0, 0] ++ [5].map (fun x => (x + 1) % 2 ^ 32) ++
      unused) ++ encodeArray 2 [300])
    ⟨{ imagesInBlock := 1, frameDimensions := (1, 1), version := 0, timestamp := 77, imageNumbers := [5] }, [300]⟩ := by
  refine .v1 (rows := 1) (cols := 1) (version := 0) (timestamp := 77) (reserved := [0, 0, 0, 0, 0])
    (numbers := [5]) (unused := unused) (data := [300]) ?_ rfl ?_ (by simp) rfl (by simp) (by simp)
  · simp [hu]
  · intro x hx
    simp only [List.mem_append, List.mem_cons, List.not_mem_nil, or_false] at hx
    rcases hx with (hx | hx) | hx
    · omega
    · omega
    · rw [h0 x hx]; omega

end Stempy.StreamReader
