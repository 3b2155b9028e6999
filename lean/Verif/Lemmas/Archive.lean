import Verif.Model.Archive
import Verif.Props.StreamReader

/-!
Round trips of the serialization.
-/

namespace Stempy.Archive
open Stempy.Spec (encodeLE)
open Stempy.Props (encodeLE_length decodeLE_encodeLE)

variable {α β : Type}

/-- Loading what was saved for `a` gives `b` and uses exactly these bytes. -/
def RT (f : α → Bytes) (g : Load β) (a : α) (b : β) : Prop := ∀ rest, g (f a ++ rest) = some (b, rest)

theorem rt_num {k v : Nat} (h : v < 256 ^ k) : RT (encodeLE k) (loadNum k) v v := by
  intro rest
  have hl := encodeLE_length k v
  have h1 : (encodeLE k v ++ rest).take k = encodeLE k v := by
    rw [List.take_append_of_le_length (by omega), List.take_of_length_le (by omega)]
  have h2 : (encodeLE k v ++ rest).drop k = rest := by
    rw [List.drop_append, List.drop_of_length_le (by omega), hl]; simp
  simp only [loadNum]
  rw [if_neg (by simp; omega), h1, h2, decodeLE_encodeLE k v h]

theorem rt_pair {γ δ : Type} {f : α → Bytes} {g : Load γ} {f' : β → Bytes} {g' : Load δ} {a : α} {b : β} {c : γ} {d : δ}
    (h1 : RT f g a c) (h2 : RT f' g' b d) : RT (savePair f f') (loadPair g g') (a, b) (c, d) := by
  intro rest
  simp only [savePair, loadPair, List.append_assoc, Option.bind_eq_bind]
  rw [h1]
  simp only [Option.bind_some]
  rw [h2]
  rfl

theorem rt_many {f : α → Bytes} {g : Load β} {h : α → β} (l : List α) (hl : ∀ a ∈ l, RT f g a (h a)) :
    RT (fun l => l.flatMap f) (loadMany g l.length) l (l.map h) := by
  intro rest
  induction l with
  | nil => simp [loadMany]
  | cons a l ih =>
    simp only [List.flatMap_cons, List.append_assoc, List.length_cons, loadMany, Option.bind_eq_bind]
    rw [hl a (by simp)]
    simp only [Option.bind_some]
    have := ih (fun a ha => hl a (by simp [ha]))
    simp only at this
    rw [this]
    rfl

theorem rt_vector {f : α → Bytes} {g : Load β} {h : α → β} (l : List α) (hl : ∀ a ∈ l, RT f g a (h a))
    (hn : l.length < 256 ^ 8) : RT (saveVector f) (loadVector g) l (l.map h) := by
  intro rest
  simp only [saveVector, loadVector, List.append_assoc, Option.bind_eq_bind]
  rw [rt_num hn]
  simp only [Option.bind_some]
  exact rt_many l hl rest

theorem rt_vector_id {f : α → Bytes} {g : Load α} (l : List α) (hl : ∀ a ∈ l, RT f g a a)
    (hn : l.length < 256 ^ 8) : RT (saveVector f) (loadVector g) l l := by
  have := rt_vector (h := id) l hl hn
  simpa using this

theorem put_last {m : SMap α} {k : Nat} {a : α} (h : ∀ x ∈ m, x.1 < k) : m.put k a = m ++ [(k, a)] := by
  induction m with
  | nil => rfl
  | cons y m ih =>
    obtain ⟨i, b⟩ := y
    have := h (i, b) (by simp)
    simp only at this
    simp only [SMap.put]
    rw [if_neg (by omega), if_neg (by omega), ih (fun x hx => h x (by simp [hx]))]
    rfl

theorem foldl_put_sorted (m pre : SMap α) (h : SMap.Sorted (pre ++ m)) :
    m.foldl (fun m e => m.put e.1 e.2) pre = pre ++ m := by
  induction m generalizing pre with
  | nil => simp
  | cons x m ih =>
    rw [List.foldl_cons, put_last, ih]
    · simp
    · simpa using h
    · intro y hy
      rw [SMap.Sorted, List.pairwise_append] at h
      exact h.2.2 y hy x (by simp)

theorem rt_map {f : α → Bytes} {g : Load α} (m : SMap α) (hs : m.Sorted) (hk : ∀ e ∈ m, e.1 < 256 ^ 4)
    (hl : ∀ e ∈ m, RT f g e.2 e.2) (hn : m.length < 256 ^ 8) : RT (saveMap f) (loadMap g) m m := by
  intro rest
  have h := rt_vector_id (f := savePair (encodeLE 4) f) (g := loadPair (loadNum 4) g) m
    (fun e he => rt_pair (rt_num (hk e he)) (hl e he)) hn rest
  simp only [saveMap, loadMap, Option.bind_eq_bind]
  rw [h]
  simp only [Option.bind_some]
  rw [foldl_put_sorted m [] (by simpa using hs)]
  rfl

theorem rt_int {k : Nat} {i : Int} (h1 : -(256 ^ k : Nat) ≤ i * 2) (h2 : i * 2 < (256 ^ k : Nat)) :
    RT (saveInt k) (loadInt k) i i := by
  intro rest
  have hp : 0 < 256 ^ k := Nat.pow_pos (by omega)
  have hnn : 0 ≤ i % ((256 ^ k : Nat) : Int) := Int.emod_nonneg _ (by omega)
  have hlt : (i % ((256 ^ k : Nat) : Int)) < (256 ^ k : Nat) := Int.emod_lt_of_pos _ (by omega)
  simp only [saveInt, loadInt, Option.bind_eq_bind]
  rw [rt_num (by omega)]
  simp only [Option.bind_some]
  rw [Int.toNat_of_nonneg hnn, Int.emod_bmod, Int.bmod_eq_of_le_mul_two h1 h2]

/-! ### A loader only depends on the bytes that it uses -/

/-- The loader uses a prefix of the bytes and does not depend on the rest. -/
def Local (g : Load α) : Prop :=
  ∀ bs a rest, g bs = some (a, rest) → ∃ used, bs = used ++ rest ∧ ∀ rest', g (used ++ rest') = some (a, rest')

theorem local_num (k : Nat) : Local (loadNum k) := by
  intro bs a rest h
  simp only [loadNum] at h
  split at h
  · simp at h
  · rename_i hk
    simp only [Option.some.injEq, Prod.mk.injEq] at h
    have hl : (bs.take k).length = k := by simp; omega
    refine ⟨bs.take k, by rw [← h.2, List.take_append_drop], ?_⟩
    intro rest'
    simp only [loadNum]
    rw [if_neg (by simp; omega), List.take_append_of_le_length (by omega), List.take_of_length_le (by omega), h.1,
      List.drop_append, List.drop_of_length_le (by omega), hl]
    simp

theorem local_bind {g : Load α} {h : α → Load β} (hg : Local g) (hh : ∀ a, Local (h a)) :
    Local fun bs => (g bs).bind fun x => h x.1 x.2 := by
  intro bs b rest e
  simp only at e
  cases hgb : g bs with
  | none => rw [hgb] at e; simp at e
  | some x =>
    rw [hgb, Option.bind_some] at e
    obtain ⟨u, hu, hu'⟩ := hg bs x.1 x.2 hgb
    obtain ⟨v, hv, hv'⟩ := hh x.1 x.2 b rest e
    refine ⟨u ++ v, by rw [hu, hv, List.append_assoc], ?_⟩
    intro rest'
    simp only
    rw [List.append_assoc, hu', Option.bind_some]
    exact hv' rest'

theorem local_pure (a : α) : Local fun bs => some (a, bs) := by
  intro bs b rest h
  simp only [Option.some.injEq, Prod.mk.injEq] at h
  exact ⟨[], by simp [h.2], fun rest' => by simp [h.1]⟩

theorem local_many {g : Load α} (hg : Local g) (n : Nat) : Local (loadMany g n) := by
  induction n with
  | zero => exact local_pure []
  | succ n ih => exact local_bind hg fun a => local_bind ih fun as => local_pure (a :: as)

theorem local_vector {g : Load α} (hg : Local g) : Local (loadVector g) :=
  local_bind (local_num 8) fun n => local_many hg n

theorem local_pair {g : Load α} {h : Load β} (hg : Local g) (hh : Local h) : Local (loadPair g h) :=
  local_bind hg fun _ => local_bind hh fun _ => local_pure _

theorem local_header : Local loadHeader :=
  local_bind (local_pair (local_num 4) (local_num 4)) fun sd =>
    local_bind (local_pair (local_num 4) (local_num 4)) fun fd =>
      local_bind (local_num 4) fun n => local_bind (local_num 4) fun f =>
        local_bind (local_vector (local_num 4)) fun im => local_pure (Header.mk sd fd n 0 0 f 0 im [])

theorem local_block : Local loadBlock :=
  local_bind local_header fun h =>
    local_bind (local_many (local_num 2) (h.frameDimensions.1 * h.frameDimensions.2 * h.imagesInBlock % 2 ^ 32)) fun d =>
      local_pure (Block.mk h d)

/-- A message that is cut is not accepted. -/
theorem cut_none {f : α → Bytes} {g : Load β} {a : α} {b : β} (h : RT f g a b) (hg : Local g) {k : Nat}
    (hk : k < (f a).length) : g ((f a).take k) = none := by
  cases hc : g ((f a).take k) with
  | none => rfl
  | some x =>
    obtain ⟨u, hu, hu'⟩ := hg _ x.1 x.2 hc
    have h1 := h []
    rw [List.append_nil, ← List.take_append_drop k (f a), hu, List.append_assoc, hu'] at h1
    simp only [Option.some.injEq, Prod.mk.injEq, List.append_eq_nil_iff, List.drop_eq_nil_iff] at h1
    omega

end Stempy.Archive
