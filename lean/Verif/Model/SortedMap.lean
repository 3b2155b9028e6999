/-!
`std::map<uint32_t, α>` as a list of pairs in increasing order of the keys.
-/

namespace Stempy

abbrev SMap (α : Type) := List (Nat × α)

namespace SMap
variable {α : Type}

def Sorted (m : SMap α) : Prop := m.Pairwise fun a b => a.1 < b.1

def get (m : SMap α) (k : Nat) : Option α :=
  match m with
  | [] => none
  | (j, a) :: m => if j = k then some a else get m k

/-- `m[k] = a` -/
def put (m : SMap α) (k : Nat) (a : α) : SMap α :=
  match m with
  | [] => [(k, a)]
  | (j, b) :: m => if k < j then (k, a) :: (j, b) :: m else if k = j then (k, a) :: m else (j, b) :: put m k a

def keys (m : SMap α) : List Nat := m.map (·.1)

theorem get_put (m : SMap α) (k j : Nat) (a : α) : (put m k a).get j = if j = k then some a else m.get j := by
  induction m with
  | nil =>
    simp only [put, get]
    by_cases h : j = k
    · simp [h]
    · have : ¬ k = j := fun e => h e.symm
      simp [h, this]
  | cons x m ih =>
    obtain ⟨i, b⟩ := x
    simp only [put]
    split
    · simp only [get]
      by_cases h : j = k
      · simp [h]
      · have : ¬ k = j := fun e => h e.symm
        simp [h, this]
    · split
      · rename_i _ h
        subst h
        simp only [get]
        by_cases h : j = k
        · simp [h]
        · have : ¬ k = j := fun e => h e.symm
          simp [h, this]
      · rename_i h1 h2
        simp only [get, ih]
        by_cases h : j = k
        · subst h
          have : ¬ i = j := fun e => h2 e.symm
          simp [this]
        · simp [h]

theorem mem_put {m : SMap α} {k : Nat} {a : α} {x : Nat × α} (h : x ∈ put m k a) : x = (k, a) ∨ x ∈ m := by
  induction m with
  | nil => simpa [put] using h
  | cons y m ih =>
    obtain ⟨i, b⟩ := y
    simp only [put] at h
    split at h
    · simpa using h
    · split at h
      · simp only [List.mem_cons] at h ⊢
        rcases h with h | h
        · exact .inl h
        · exact .inr (.inr h)
      · simp only [List.mem_cons] at h ⊢
        rcases h with h | h
        · exact .inr (.inl h)
        · rcases ih h with h | h
          · exact .inl h
          · exact .inr (.inr h)

theorem sorted_put {m : SMap α} (hs : Sorted m) (k : Nat) (a : α) : Sorted (put m k a) := by
  induction m with
  | nil => simp [put, Sorted]
  | cons y m ih =>
    obtain ⟨i, b⟩ := y
    have h := List.pairwise_cons.1 hs
    simp only [put]
    split
    · rename_i hlt
      refine List.pairwise_cons.2 ⟨?_, hs⟩
      intro x hx
      rcases List.mem_cons.1 hx with rfl | hx
      · exact hlt
      · exact Nat.lt_trans hlt (h.1 x hx)
    · split
      · rename_i _ heq
        refine List.pairwise_cons.2 ⟨?_, h.2⟩
        intro x hx
        have := h.1 x hx
        simp only at this ⊢
        omega
      · refine List.pairwise_cons.2 ⟨?_, ih h.2⟩
        intro x hx
        rcases mem_put hx with rfl | hx
        · simp only; omega
        · exact h.1 x hx

theorem get_of_mem {m : SMap α} (hs : Sorted m) {k : Nat} {a : α} (h : (k, a) ∈ m) : m.get k = some a := by
  induction m with
  | nil => simp at h
  | cons y m ih =>
    obtain ⟨i, b⟩ := y
    have hp := List.pairwise_cons.1 hs
    simp only [get]
    rcases List.mem_cons.1 h with h | h
    · simp only [Prod.mk.injEq] at h
      simp [h.1, h.2]
    · have := hp.1 _ h
      simp only at this
      rw [if_neg (by omega)]
      exact ih hp.2 h

theorem mem_of_get {m : SMap α} {k : Nat} {a : α} (h : m.get k = some a) : (k, a) ∈ m := by
  induction m with
  | nil => simp [get] at h
  | cons y m ih =>
    obtain ⟨i, b⟩ := y
    simp only [get] at h
    split at h
    · rename_i hk
      simp only [Option.some.injEq] at h
      simp [hk, h]
    · simp [ih h]

/-- The keys are those for which there is a value, in increasing order. -/
theorem mem_keys {m : SMap α} {k : Nat} : k ∈ m.keys ↔ (m.get k).isSome = true := by
  induction m with
  | nil => simp [keys, get]
  | cons y m ih =>
    obtain ⟨i, b⟩ := y
    simp only [keys, List.map_cons, List.mem_cons, get] at ih ⊢
    by_cases h : i = k
    · simp [h]
    · have : ¬ k = i := fun e => h e.symm
      simp [h, this, ih]

theorem sorted_keys {m : SMap α} (hs : Sorted m) : m.keys.Pairwise (· < ·) := by
  rw [keys, List.pairwise_map]
  exact hs

/-- Maps with the same values are equal. -/
theorem ext_get {m n : SMap α} (hm : Sorted m) (hn : Sorted n) (h : ∀ k, m.get k = n.get k) : m = n := by
  induction m generalizing n with
  | nil =>
    cases n with
    | nil => rfl
    | cons y n => have := h y.1; simp [get] at this
  | cons x m ih =>
    cases n with
    | nil => have := h x.1; simp [get] at this
    | cons y n =>
      obtain ⟨i, a⟩ := x
      obtain ⟨j, b⟩ := y
      have hm' := List.pairwise_cons.1 hm
      have hn' := List.pairwise_cons.1 hn
      have key : ∀ {l : SMap α} {k : Nat}, (∀ x ∈ l, k < x.1) → l.get k = none := by
        intro l k hl
        cases hg : l.get k with
        | none => rfl
        | some c => have := hl _ (mem_of_get hg); simp at this
      have hij : i = j := by
        have h1 := h i
        have h2 := h j
        simp only [get, if_true] at h1 h2
        by_cases hlt : i < j
        · rw [if_neg (by omega), key (fun x hx => Nat.lt_trans hlt (hn'.1 x hx))] at h1
          simp at h1
        · by_cases hgt : j < i
          · rw [if_neg (by omega), key (fun x hx => Nat.lt_trans hgt (hm'.1 x hx))] at h2
            simp at h2
          · omega
      subst hij
      have hab : a = b := by
        have := h i
        simpa [get] using this
      subst hab
      rw [ih hm'.2 hn'.2]
      intro k
      by_cases hk : k = i
      · subst hk
        rw [key hm'.1, key hn'.1]
      · have := h k
        have hik : ¬ i = k := fun e => hk e.symm
        simpa [get, hik] using this

end SMap

end Stempy
