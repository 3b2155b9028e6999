import Verif.Model.MpiSizes
import Verif.Props.MpiGather

/-!
C119: the sizes of the messages with sample blocks.
-/

namespace Stempy.MpiSizes
open Stempy.Archive Stempy.Props

/-- The sums of the first sizes are `int`s. -/
def InRange (sizes : List Int) : Prop := ∀ k ≤ sizes.length, -(2 ^ 31) ≤ (sizes.take k).sum ∧ (sizes.take k).sum < 2 ^ 31

theorem bmod_spec (n : Int) (m k : Nat) (hk : 0 < k) (hm : m = 2 * k) :
    ∃ q : Int, Int.bmod n m = n - q * m ∧ -(k : Int) ≤ Int.bmod n m ∧ Int.bmod n m < k := by
  have h1 := Int.bmod_add_bdiv n m
  have h2 := Int.le_bmod (x := n) (m := m) (by omega)
  have h3 := Int.bmod_lt (x := n) (m := m) (by omega)
  refine ⟨Int.bdiv n m, ?_, by omega, by omega⟩
  rw [Int.mul_comm]
  omega

theorem localSize_eq (bl : List Block) : ∃ q : Int, localSize bl = (message bl).length - q * 4294967296 ∧
    -2147483648 ≤ localSize bl ∧ localSize bl < 2147483648 := by
  unfold localSize toInt32
  generalize ((message bl).length : Int) = n
  obtain ⟨m, hm⟩ : ∃ m : Nat, m = 2 ^ 32 := ⟨_, rfl⟩
  rw [← hm]
  obtain ⟨q, h1, h2, h3⟩ := bmod_spec n m 2147483648 (by omega) (by omega)
  have hm' : (m : Int) = 4294967296 := by omega
  rw [hm'] at h1
  exact ⟨q, h1, h2, h3⟩

attribute [local irreducible] localSize

theorem localSize_small {bl : List Block} : localSize bl = (message bl).length ↔ (message bl).length < 2 ^ 31 := by
  obtain ⟨q, h1, h2, h3⟩ := localSize_eq bl
  constructor <;> intro h <;> omega

theorem localSize_le {bl : List Block} (h : 0 ≤ localSize bl) : (localSize bl).toNat ≤ (message bl).length := by
  obtain ⟨q, h1, h2, h3⟩ := localSize_eq bl
  omega

private theorem displacements_spec (l : List Int) (d : Int) :
    ((∀ k ≤ l.length, 0 < k → -(2 ^ 31) ≤ d + (l.take k).sum ∧ d + (l.take k).sum < 2 ^ 31) → ∃ ds, displacements l d = .ok ds) ∧
    (¬(∀ k ≤ l.length, 0 < k → -(2 ^ 31) ≤ d + (l.take k).sum ∧ d + (l.take k).sum < 2 ^ 31) → displacements l d = .ub) := by
  induction l generalizing d with
  | nil =>
    refine ⟨fun _ => ⟨[], rfl⟩, fun h => absurd ?_ h⟩
    intro k h1 h2
    simp at h1
    omega
  | cons s ss ih =>
    obtain ⟨i1, i2⟩ := ih (d + s)
    by_cases hs : -(2 ^ 31) ≤ d + s ∧ d + s < 2 ^ 31
    · simp only [displacements]
      rw [int32_ok hs.1 hs.2, Outcome.ok_bind]
      have e : (∀ k ≤ (s :: ss).length, 0 < k → -(2 ^ 31) ≤ d + ((s :: ss).take k).sum ∧ d + ((s :: ss).take k).sum < 2 ^ 31) ↔
          ∀ k ≤ ss.length, 0 < k → -(2 ^ 31) ≤ d + s + (ss.take k).sum ∧ d + s + (ss.take k).sum < 2 ^ 31 := by
        constructor
        · intro h k h1 h2
          have := h (k + 1) (by simp; omega) (by omega)
          simp only [List.take_succ_cons, List.sum_cons] at this
          omega
        · intro h k h1 h2
          obtain ⟨k, rfl⟩ : ∃ j, k = j + 1 := ⟨k - 1, by omega⟩
          simp only [List.take_succ_cons, List.sum_cons]
          rcases Nat.eq_zero_or_pos k with rfl | hk
          · simpa using hs
          · have := h k (by simp at h1; omega) hk
            omega
      rw [e]
      constructor
      · intro h
        obtain ⟨ds, hd⟩ := i1 h
        exact ⟨d :: ds, by rw [hd]; rfl⟩
      · intro h
        rw [i2 h]
        rfl
    · constructor
      · intro h
        have := h 1 (by simp) (by omega)
        simp at this
        omega
      · intro _
        simp only [displacements, int32]
        rw [if_neg hs]
        rfl

theorem displacements_range (l : List Int) :
    (InRange l → ∃ ds, displacements l 0 = .ok ds) ∧ (¬InRange l → displacements l 0 = .ub) := by
  obtain ⟨h1, h2⟩ := displacements_spec l 0
  simp only [Int.zero_add] at h1 h2
  refine ⟨fun h => h1 fun k hk _ => h k hk, fun h => h2 fun h' => h fun k hk => ?_⟩
  rcases Nat.eq_zero_or_pos k with rfl | h0
  · simp
  · exact h' k hk h0

private theorem totalSize_from (l : List Int) (t : Nat) (ht : t < 2 ^ 64) :
    l.foldl (fun (t : Nat) (s : Int) => (((t : Int) + s) % 2 ^ 64).toNat) t = ((t + l.sum) % 2 ^ 64).toNat := by
  induction l generalizing t with
  | nil => simp only [List.foldl_nil, List.sum_nil]; omega
  | cons s l ih =>
    rw [List.foldl_cons, ih _ (by omega), List.sum_cons]
    omega

/-- The total is the sum modulo 2^64. -/
theorem totalSize_eq (l : List Int) : totalSize l = (l.sum % 2 ^ 64).toNat := by
  have := totalSize_from l 0 (by omega)
  simpa [totalSize] using this

/-- When the displacements do not overflow, the check of line 151 succeeds exactly for a negative sum. -/
theorem check_iff {l : List Int} (h : InRange l) : 2 ^ 31 - 1 < totalSize l ↔ l.sum < 0 := by
  have := h l.length (Nat.le_refl _)
  rw [List.take_length] at this
  rw [totalSize_eq]
  omega

/-- Blocks of the C++ types. -/
def Fits (bls : List (List Block)) : Prop :=
  ∀ bl ∈ bls, bl.length < 2 ^ 64 ∧ ∀ b ∈ bl, Sendable b ∧ b.data.length < 2 ^ 32

private theorem rt_message {bl : List Block} (h : bl.length < 2 ^ 64 ∧ ∀ b ∈ bl, Sendable b ∧ b.data.length < 2 ^ 32) :
    RT (saveVector saveBlock) (loadVector loadBlock) bl (bl.map arrived) :=
  rt_vector (f := saveBlock) (g := loadBlock) (h := arrived) bl (fun b hb => rt_block (h.2 b hb).1 (h.2 b hb).2)
    (by have := h.1; omega)

/-- The message arrives completely. -/
def Whole (bl : List Block) : Prop := (message bl).length < 2 ^ 31

private theorem load_whole {bl : List Block} (h : bl.length < 2 ^ 64 ∧ ∀ b ∈ bl, Sendable b ∧ b.data.length < 2 ^ 32)
    (hs : Whole bl) : loadVector loadBlock ((message bl).take (localSize bl).toNat) = some (bl.map arrived, []) := by
  have e : (message bl).take (localSize bl).toNat = saveVector saveBlock bl ++ [] := by
    rw [List.append_nil]
    refine List.take_of_length_le ?_
    have := localSize_small.2 hs
    omega
  rw [e]
  exact rt_message h []

private theorem load_cut {bl : List Block} (h : bl.length < 2 ^ 64 ∧ ∀ b ∈ bl, Sendable b ∧ b.data.length < 2 ^ 32)
    (h0 : 0 ≤ localSize bl) (hs : ¬Whole bl) : loadVector loadBlock ((message bl).take (localSize bl).toNat) = none := by
  refine cut_none (rt_message h) (local_vector local_block) ?_
  have h1 := localSize_le h0
  have h2 : localSize bl ≠ (message bl).length := fun e => hs (localSize_small.1 e)
  have h3 : (localSize bl).toNat < (message bl).length := by omega
  exact h3

private theorem int32_inv {x y : Int} (h : int32 x = .ok y) : y = x := by
  unfold int32 at h
  split at h
  · cases h; rfl
  · cases h

theorem displacements_inv {s : Int} {ss : List Int} {d : Int} {ds : List Int} (h : displacements (s :: ss) d = .ok ds) :
    ∃ rest, displacements ss (d + s) = .ok rest ∧ ds = d :: rest := by
  unfold displacements at h
  cases h1 : int32 (d + s) with
  | ok y =>
    obtain rfl := int32_inv h1
    rw [h1, Outcome.ok_bind] at h
    cases h2 : displacements ss (d + s) with
    | ok rest =>
      rw [h2, Outcome.ok_bind] at h
      exact ⟨rest, rfl, (Outcome.ok.inj h).symm⟩
    | throw e => rw [h2] at h; cases h
    | ub => rw [h2] at h; cases h
  | throw e => rw [h1] at h; cases h
  | ub => rw [h1] at h; cases h

private theorem take_general (bls : List (List Block)) (c : List Block → Bytes) (w : List Block → Int) (W : List Block → Prop)
    (hw : ∀ bl ∈ bls, w bl = ((c bl).length : Nat))
    (h1 : ∀ bl ∈ bls, W bl → loadVector loadBlock (c bl) = some (bl.map arrived, []))
    (h2 : ∀ bl ∈ bls, ¬W bl → loadVector loadBlock (c bl) = none) (pre : Bytes)
    {ds : List Int} (hd : displacements (bls.map w) pre.length = .ok ds) :
    ((∀ bl ∈ bls, W bl) → Mpi.takeBlocks (pre ++ (bls.map c).flatten) (ds.zip ((bls.map w).map Int.toNat)) =
      .ok (bls.flatten.map arrived)) ∧
    (¬(∀ bl ∈ bls, W bl) → Mpi.takeBlocks (pre ++ (bls.map c).flatten) (ds.zip ((bls.map w).map Int.toNat)) = .throw "cereal") := by
  induction bls generalizing pre ds with
  | nil =>
    refine ⟨fun _ => ?_, fun h => absurd (by simp) h⟩
    cases ds <;> rfl
  | cons bl bls ih =>
    have hwb := hw bl (by simp)
    rw [List.map_cons] at hd
    obtain ⟨rest, hrest, rfl⟩ := displacements_inv hd
    have hpre : (pre.length : Int) + w bl = ((pre ++ c bl).length : Nat) := by
      rw [List.length_append, hwb]
      omega
    rw [hpre] at hrest
    obtain ⟨i1, i2⟩ := ih (fun b h => hw b (by simp [h])) (fun b h => h1 b (by simp [h])) (fun b h => h2 b (by simp [h])) _ hrest
    rw [List.append_assoc] at i1 i2
    have e : ((pre ++ (c bl ++ (bls.map c).flatten)).drop pre.length).take (c bl).length = c bl := by
      rw [List.drop_append, List.drop_of_length_le (Nat.le_refl _), Nat.sub_self, List.drop_zero, List.nil_append,
        List.take_append_of_le_length (by omega), List.take_of_length_le (by omega)]
    simp only [List.map_cons, List.zip_cons_cons, List.flatten_cons, Mpi.takeBlocks, hwb, Int.toNat_natCast]
    rw [e]
    constructor
    · intro h
      rw [h1 bl (by simp) (h bl (by simp))]
      simp only
      rw [i1 (fun b hb => h b (by simp [hb])), Outcome.ok_bind, List.map_append]
    · intro h
      by_cases hW : W bl
      · rw [h1 bl (by simp) hW]
        simp only
        rw [i2 (fun h2 => h (by
          intro b hb
          rcases List.mem_cons.1 hb with rfl | hb
          · exact hW
          · exact h2 b hb))]
        rfl
      · rw [h2 bl (by simp) hW]

private theorem cut_length {bl : List Block} (h : 0 ≤ localSize bl) :
    localSize bl = (((message bl).take (localSize bl).toNat).length : Nat) := by
  rw [List.length_take]
  have := localSize_le h
  omega

private theorem take_spec (bls : List (List Block)) (hb : Fits bls) (h0 : ∀ bl ∈ bls, 0 ≤ localSize bl) (pre : Bytes)
    {ds : List Int} (hd : displacements (bls.map localSize) pre.length = .ok ds) :
    ((∀ bl ∈ bls, Whole bl) → Mpi.takeBlocks (pre ++ (bls.map fun bl => (message bl).take (localSize bl).toNat).flatten)
        (ds.zip ((bls.map localSize).map Int.toNat)) = .ok (bls.flatten.map arrived)) ∧
    (¬(∀ bl ∈ bls, Whole bl) → Mpi.takeBlocks (pre ++ (bls.map fun bl => (message bl).take (localSize bl).toNat).flatten)
        (ds.zip ((bls.map localSize).map Int.toNat)) = .throw "cereal") :=
  take_general bls (fun bl => (message bl).take (localSize bl).toNat) localSize Whole (fun bl h => cut_length (h0 bl h))
    (fun bl h hw => load_whole (hb bl h) hw) (fun bl h hw => load_cut (hb bl h) (h0 bl h) hw) pre hd

theorem sum_nonneg' (l : List Int) (h : ∀ x ∈ l, 0 ≤ x) : 0 ≤ l.sum := by
  induction l with
  | nil => simp
  | cons a l ih =>
    rw [List.sum_cons]
    have h1 := h a (by simp)
    have h2 := ih fun x hx => h x (by simp [hx])
    omega

/-- The result for all sizes, in one table. -/
theorem gatherBlocks_eq (root : List Block) (others : List (List Block)) (hb : Fits others) :
    (¬InRange ((root :: others).map localSize) → gatherBlocks root others = .ub) ∧
    (InRange ((root :: others).map localSize) → ((root :: others).map localSize).sum < 0 →
      gatherBlocks root others = .throw "Data too large to send using MPI.") ∧
    (InRange ((root :: others).map localSize) → 0 ≤ ((root :: others).map localSize).sum →
      (∃ bl ∈ root :: others, localSize bl < 0) → gatherBlocks root others = .ub) ∧
    (InRange ((root :: others).map localSize) → (∀ bl ∈ root :: others, 0 ≤ localSize bl) → (∀ bl ∈ others, Whole bl) →
      gatherBlocks root others = .ok (root ++ others.flatten.map arrived)) ∧
    (InRange ((root :: others).map localSize) → (∀ bl ∈ root :: others, 0 ≤ localSize bl) → ¬(∀ bl ∈ others, Whole bl) →
      gatherBlocks root others = .throw "cereal") := by
  obtain ⟨d1, d2⟩ := displacements_range ((root :: others).map localSize)
  have hany : ((root :: others).map localSize).any (fun s => decide (s < 0)) = true ↔ ∃ bl ∈ root :: others, localSize bl < 0 := by
    rw [List.any_eq_true]
    simp only [List.mem_map, decide_eq_true_eq]
    constructor
    · rintro ⟨_, ⟨bl, h1, rfl⟩, h2⟩
      exact ⟨bl, h1, h2⟩
    · rintro ⟨bl, h1, h2⟩
      exact ⟨_, ⟨bl, h1, rfl⟩, h2⟩
  have key : ∀ ds, displacements ((root :: others).map localSize) 0 = .ok ds → InRange ((root :: others).map localSize) →
      (∀ bl ∈ root :: others, 0 ≤ localSize bl) →
      gatherBlocks root others = (Mpi.takeBlocks (((root :: others).map fun bl => (message bl).take (localSize bl).toNat).flatten)
        ((ds.zip (((root :: others).map localSize).map Int.toNat)).drop 1)) >>= fun rest => .ok (root ++ rest) := by
    intro ds hd h hp
    have hs : 0 ≤ ((root :: others).map localSize).sum := sum_nonneg' _ (by
      intro x hx
      obtain ⟨bl, h1, rfl⟩ := List.mem_map.1 hx
      exact hp bl h1)
    unfold gatherBlocks
    simp only
    rw [hd, Outcome.ok_bind, if_neg (fun h' => absurd ((check_iff h).1 h') (by omega)),
      if_neg (fun h' => by obtain ⟨bl, h1, h2⟩ := hany.1 h'; have := hp bl h1; omega)]
  have last : ∀ ds, displacements ((root :: others).map localSize) 0 = .ok ds → (∀ bl ∈ root :: others, 0 ≤ localSize bl) →
      ((∀ bl ∈ others, Whole bl) →
        Mpi.takeBlocks (((root :: others).map fun bl => (message bl).take (localSize bl).toNat).flatten)
          ((ds.zip (((root :: others).map localSize).map Int.toNat)).drop 1) = .ok (others.flatten.map arrived)) ∧
      (¬(∀ bl ∈ others, Whole bl) →
        Mpi.takeBlocks (((root :: others).map fun bl => (message bl).take (localSize bl).toNat).flatten)
          ((ds.zip (((root :: others).map localSize).map Int.toNat)).drop 1) = .throw "cereal") := by
    intro ds hd hp
    rw [List.map_cons] at hd
    obtain ⟨rest, hrest, rfl⟩ := displacements_inv hd
    rw [Int.zero_add, cut_length (hp root (by simp))] at hrest
    simp only [List.map_cons, List.zip_cons_cons, List.flatten_cons, List.drop_succ_cons, List.drop_zero]
    exact take_spec others hb (fun bl h => hp bl (by simp [h])) _ hrest
  refine ⟨?_, ?_, ?_, ?_, ?_⟩
  · intro h
    simp only [gatherBlocks]
    rw [d2 h]
    rfl
  · intro h hs
    obtain ⟨ds, hd⟩ := d1 h
    simp only [gatherBlocks]
    rw [hd, Outcome.ok_bind, if_pos ((check_iff h).2 hs)]
  · intro h hs hn
    obtain ⟨ds, hd⟩ := d1 h
    simp only [gatherBlocks]
    rw [hd, Outcome.ok_bind, if_neg (fun h' => by have := (check_iff h).1 h'; omega), if_pos (hany.2 hn)]
  · intro h hp hw
    obtain ⟨ds, hd⟩ := d1 h
    rw [key ds hd h hp, (last ds hd hp).1 hw]
    rfl
  · intro h hp hw
    obtain ⟨ds, hd⟩ := d1 h
    rw [key ds hd h hp, (last ds hd hp).2 hw]
    rfl

theorem nonneg_inRange {l : List Int} (h : ∀ x ∈ l, 0 ≤ x) : InRange l ↔ l.sum < 2 ^ 31 := by
  constructor
  · intro hr
    have := hr l.length (Nat.le_refl _)
    rw [List.take_length] at this
    exact this.2
  · intro hs k _
    have h1 := sum_nonneg' (l.take k) (fun x hx => h x (List.mem_of_mem_take hx))
    have h2 := sum_nonneg' (l.drop k) (fun x hx => h x (List.mem_of_mem_drop hx))
    have h3 : (l.take k).sum + (l.drop k).sum = l.sum := by rw [← List.sum_append, List.take_append_drop]
    omega

theorem sum_cast {α : Type} (f : α → Int) (g : α → Nat) (l : List α) (h : ∀ a ∈ l, f a = g a) :
    (l.map f).sum = ((l.map g).sum : Nat) := by
  induction l with
  | nil => rfl
  | cons a l ih =>
    simp only [List.map_cons, List.sum_cons]
    rw [h a (by simp), ih fun b hb => h b (by simp [hb]), Int.natCast_add]

private theorem sum_whole {bls : List (List Block)} (h : ∀ bl ∈ bls, Whole bl) :
    (bls.map localSize).sum = ((bls.map fun bl => (message bl).length).sum : Nat) :=
  sum_cast localSize (fun bl => (message bl).length) bls fun bl hb => localSize_small.2 (h bl hb)

/-- **C119** When rank 0 gets blocks, they are its own followed by those of the other ranks in order: a wrong size is never
used silently. -/
theorem C119_right_partial (root : List Block) (others : List (List Block)) (hb : Fits others) {r : List Block}
    (h : gatherBlocks root others = .ok r) : r.map sentFields = (root ++ others.flatten).map sentFields := by
  obtain ⟨t1, t2, t3, t4, t5⟩ := gatherBlocks_eq root others hb
  by_cases hr : InRange ((root :: others).map localSize)
  · by_cases hp : ∀ bl ∈ root :: others, 0 ≤ localSize bl
    · by_cases hw : ∀ bl ∈ others, Whole bl
      · rw [t4 hr hp hw] at h
        obtain rfl := Outcome.ok.inj h
        rw [List.map_append, List.map_append, List.map_map]
        rfl
      · rw [t5 hr hp hw] at h
        cases h
    · push Not at hp
      rcases lt_or_ge ((root :: others).map localSize).sum 0 with hs | hs
      · rw [t2 hr hs] at h
        cases h
      · rw [t3 hr hs hp] at h
        cases h
  · rw [t1 hr] at h
    cases h

/-- **C119** Rank 0 gets the blocks exactly when the messages of the others are shorter than 2^31 bytes and, together with the
size of its own as an `int`, which is not negative, shorter than 2^31 bytes. -/
theorem C119_ok_iff (root : List Block) (others : List (List Block)) (hb : Fits others) :
    (∃ r, gatherBlocks root others = .ok r) ↔ 0 ≤ localSize root ∧ (∀ bl ∈ others, (message bl).length < 2 ^ 31) ∧
      localSize root + ((others.map fun bl => (message bl).length).sum : Nat) < 2 ^ 31 := by
  obtain ⟨t1, t2, t3, t4, t5⟩ := gatherBlocks_eq root others hb
  have hmap : (∀ bl ∈ root :: others, 0 ≤ localSize bl) → ∀ x ∈ (root :: others).map localSize, 0 ≤ x := by
    intro hp x hx
    obtain ⟨bl, h1, rfl⟩ := List.mem_map.1 hx
    exact hp bl h1
  constructor
  · rintro ⟨r, h⟩
    by_cases hr : InRange ((root :: others).map localSize)
    · by_cases hp : ∀ bl ∈ root :: others, 0 ≤ localSize bl
      · by_cases hw : ∀ bl ∈ others, Whole bl
        · refine ⟨hp root (by simp), hw, ?_⟩
          have := (nonneg_inRange (hmap hp)).1 hr
          rw [List.map_cons, List.sum_cons, sum_whole hw] at this
          exact this
        · rw [t5 hr hp hw] at h
          cases h
      · push Not at hp
        rcases lt_or_ge ((root :: others).map localSize).sum 0 with hs | hs
        · rw [t2 hr hs] at h
          cases h
        · rw [t3 hr hs hp] at h
          cases h
    · rw [t1 hr] at h
      cases h
  · rintro ⟨h0, hw, hs⟩
    have hp : ∀ bl ∈ root :: others, 0 ≤ localSize bl := by
      intro bl h
      rcases List.mem_cons.1 h with rfl | h
      · exact h0
      · have := localSize_small.2 (hw bl h)
        omega
    refine ⟨_, t4 ((nonneg_inRange (hmap hp)).2 ?_) hp hw⟩
    rw [List.map_cons, List.sum_cons, sum_whole hw]
    exact hs

/-- **C119** The exception for too much data is thrown exactly when a sum of the converted sizes is negative without an
overflow before. -/
theorem C119_exception_iff (root : List Block) (others : List (List Block)) (hb : Fits others) :
    gatherBlocks root others = .throw "Data too large to send using MPI." ↔
      InRange ((root :: others).map localSize) ∧ ((root :: others).map localSize).sum < 0 := by
  obtain ⟨t1, t2, t3, t4, t5⟩ := gatherBlocks_eq root others hb
  refine ⟨fun h => ?_, fun h => t2 h.1 h.2⟩
  by_cases hr : InRange ((root :: others).map localSize)
  · refine ⟨hr, ?_⟩
    by_contra hs
    by_cases hp : ∀ bl ∈ root :: others, 0 ≤ localSize bl
    · by_cases hw : ∀ bl ∈ others, Whole bl
      · rw [t4 hr hp hw] at h
        cases h
      · rw [t5 hr hp hw] at h
        injection h with h
        revert h
        decide
    · push Not at hp
      rw [t3 hr (by omega) hp] at h
      cases h
  · rw [t1 hr] at h
    cases h

/-- **C119** The case the exception is for: every message is shorter than 2^31 bytes, all together are not. The sum in `int`
(line 143) overflows before the check, so the exception is never thrown. -/
theorem C119_total_false (root : List Block) (others : List (List Block))
    (hw : ∀ bl ∈ root :: others, (message bl).length < 2 ^ 31)
    (hs : 2 ^ 31 ≤ ((root :: others).map fun bl => (message bl).length).sum) : gatherBlocks root others = .ub := by
  have hr : ¬InRange ((root :: others).map localSize) := by
    intro hr
    have := hr _ (Nat.le_refl _)
    rw [List.take_length, sum_whole hw] at this
    omega
  unfold gatherBlocks
  simp only
  rw [(displacements_range _).2 hr]
  rfl

private theorem flatMap_encode (k : Nat) (l : List Nat) : (l.flatMap (Spec.encodeLE k)).length = k * l.length := by
  induction l with
  | nil => simp
  | cons a l ih =>
    rw [List.flatMap_cons, List.length_append, ih, encodeLE_length, List.length_cons, Nat.mul_add]
    omega

/-- The size of a message: 32 bytes, 4 for every image number and 2 for every pixel of every block, and 8. -/
theorem message_length (bl : List Block) (h : ∀ b ∈ bl, Sendable b) : (message bl).length =
    8 + (bl.map fun b => 32 + 4 * b.header.imageNumbers.length + 2 * b.data.length).sum := by
  unfold message saveVector
  rw [List.length_append, encodeLE_length]
  congr 1
  induction bl with
  | nil => rfl
  | cons b bl ih =>
    rw [List.flatMap_cons, List.length_append, ih fun x hx => h x (by simp [hx]), List.map_cons, List.sum_cons]
    congr 1
    have hsz := (h b (by simp)).size
    unfold saveBlock saveHeader savePair saveVector
    simp only [List.length_append, encodeLE_length, flatMap_encode, List.take_of_length_le (Nat.le_of_eq hsz)]
    omega

/-- A block of 32 frames of 576 x 576 pixels. -/
def Full (b : Block) : Prop := Sendable b ∧ b.header.frameDimensions = (576, 576) ∧ b.header.imagesInBlock = 32 ∧
  b.header.imageNumbers.length = 32

theorem Full.length {bl : List Block} (h : ∀ b ∈ bl, Full b) : (message bl).length = 8 + 21233824 * bl.length := by
  rw [message_length bl fun b hb => (h b hb).1]
  congr 1
  induction bl with
  | nil => rfl
  | cons b bl ih =>
    obtain ⟨h1, h2, h3, h4⟩ := h b (by simp)
    have hsz := h1.size
    rw [h2, h3] at hsz
    rw [List.map_cons, List.sum_cons, ih fun x hx => h x (by simp [hx]), h4, hsz, List.length_cons]
    omega

/-- **C119** With full blocks, at most 101 on every rank but 102 or more together, the result is undefined; nothing is
thrown. -/
theorem C119_full_false (root : List Block) (others : List (List Block)) (hf : ∀ bl ∈ root :: others, ∀ b ∈ bl, Full b)
    (h1 : ∀ bl ∈ root :: others, bl.length ≤ 101) (h2 : 102 ≤ ((root :: others).map List.length).sum) :
    gatherBlocks root others = .ub := by
  refine C119_total_false root others ?_ ?_
  · intro bl h
    rw [Full.length (hf bl h)]
    have := h1 bl h
    omega
  · generalize root :: others = l at hf h2 ⊢
    have : 21233824 * (l.map List.length).sum ≤ (l.map fun bl => (message bl).length).sum := by
      clear h2
      induction l with
      | nil => simp
      | cons a l ih =>
        have h1 := ih fun bl h => hf bl (by simp [h])
        have h3 := Full.length (hf a (by simp))
        simp only [List.map_cons, List.sum_cons]
        omega
    omega

private theorem two_sizes {x : Int} (h1 : -2147483648 ≤ x) (h2 : x < -8) : InRange [8, x] ∧ [8, x].sum < 0 := by
  refine ⟨?_, by simp only [List.sum_cons, List.sum_nil]; omega⟩
  intro k hk
  match k with
  | 0 => simp
  | 1 => simp
  | k + 2 =>
    simp only [List.take_succ_cons, List.take_nil, List.sum_cons, List.sum_nil]
    omega

/-- **C119** With full blocks on two ranks: 102 to 202 blocks on rank 1 and none on rank 0 give the exception. -/
theorem C119_one_message (bl : List Block) (hf : ∀ b ∈ bl, Full b) (h1 : 102 ≤ bl.length) (h2 : bl.length ≤ 202) :
    gatherBlocks [] [bl] = .throw "Data too large to send using MPI." := by
  have hl := Full.length hf
  obtain ⟨q, e1, e2, e3⟩ := localSize_eq bl
  have l0 : (message []).length = 8 := by rw [message_length [] (by simp)]; rfl
  have e4 : localSize [] = 8 := by
    rw [localSize_small.2 (by rw [l0]; norm_num), l0]
    rfl
  have hq : q = 1 := by
    have b1 : 2165850048 ≤ (message bl).length := by omega
    have b2 : (message bl).length ≤ 4289232456 := by omega
    clear hl
    omega
  subst hq
  have hb : Fits [bl] := by
    intro x hx
    obtain rfl := List.mem_singleton.1 hx
    refine ⟨by omega, fun b hb => ⟨(hf b hb).1, ?_⟩⟩
    have := (hf b hb).1.size
    rw [(hf b hb).2.1, (hf b hb).2.2.1] at this
    omega
  have hx : localSize bl < -8 := by omega
  refine (C119_exception_iff [] [bl] hb).2 ?_
  rw [List.map_cons, List.map_cons, List.map_nil, e4]
  exact two_sizes e2 hx

private theorem pixels (n : Nat) : ∃ l : List Nat, l.length = n ∧ ∀ v ∈ l, v < 2 ^ 16 :=
  ⟨List.replicate n 0, List.length_replicate, fun v hv => by rw [List.eq_of_mem_replicate hv]; decide⟩

private theorem exists_full : ∃ b, Full b := by
  obtain ⟨l, h1, h2⟩ := pixels (576 * 576 * 32)
  refine ⟨⟨⟨(3, 2), (576, 576), 32, 5, 77, 9, 1, List.range 32, []⟩, l⟩, ⟨?_, ?_, ?_, ?_, ?_, h1, h2⟩, rfl, rfl, List.length_range⟩
  · exact ⟨by norm_num, by norm_num⟩
  · exact ⟨by norm_num, by norm_num⟩
  · norm_num
  · norm_num
  · refine ⟨by rw [List.length_range]; norm_num, fun i hi => ?_⟩
    have := List.mem_range.1 hi
    omega

example : ∃ b : Block, gatherBlocks (List.replicate 60 b) [List.replicate 50 b] = .ub ∧
    gatherBlocks [] [List.replicate 110 b] = .throw "Data too large to send using MPI." ∧
    ∃ r, gatherBlocks (List.replicate 1 b) [List.replicate 2 b, []] = .ok r ∧ r.length = 3 := by
  obtain ⟨zeros, zeros_full⟩ := exists_full
  refine ⟨zeros, ?_⟩
  have hz : ∀ n, ∀ b ∈ List.replicate n zeros, Full b := by
    intro n b hb
    rw [List.eq_of_mem_replicate hb]
    exact zeros_full
  have hz0 : ∀ b ∈ ([] : List Block), Full b := by simp
  refine ⟨C119_full_false _ _ ?_ ?_ ?_, C119_one_message _ (hz 110) (by simp) (by simp), ?_⟩
  · intro bl h
    simp only [List.mem_cons, List.not_mem_nil, or_false] at h
    rcases h with rfl | rfl
    · exact hz 60
    · exact hz 50
  · intro bl h
    simp only [List.mem_cons, List.not_mem_nil, or_false] at h
    rcases h with rfl | rfl <;> simp
  · simp
  · have l1 := Full.length (hz 1)
    have l2 := Full.length (hz 2)
    have l0 := Full.length hz0
    rw [List.length_replicate] at l1 l2
    have e1 := localSize_small.2 (show (message (List.replicate 1 zeros)).length < 2 ^ 31 by omega)
    have hb : Fits [List.replicate 2 zeros, []] := by
      intro bl h
      simp only [List.mem_cons, List.not_mem_nil, or_false] at h
      rcases h with rfl | rfl
      · refine ⟨by simp, fun b hb => ⟨(hz 2 b hb).1, ?_⟩⟩
        have := (hz 2 b hb).1.size
        rw [(hz 2 b hb).2.1, (hz 2 b hb).2.2.1] at this
        omega
      · simp
    obtain ⟨r, hr⟩ := (C119_ok_iff (List.replicate 1 zeros) [List.replicate 2 zeros, []] hb).2 ⟨by omega, by
      intro bl h
      simp only [List.mem_cons, List.not_mem_nil, or_false] at h
      rcases h with rfl | rfl
      · omega
      · rw [l0]; simp, by
      simp only [List.map_cons, List.map_nil, List.sum_cons, List.sum_nil, List.length_nil] at l0 ⊢
      omega⟩
    refine ⟨r, hr, ?_⟩
    have := congrArg List.length (C119_right_partial _ _ hb hr)
    simpa using this

end Stempy.MpiSizes
