import Verif.Model.SparseFile

/-! # C54: metadata round trip -/

namespace Stempy.SparseFile

variable {V : Type}

/-- The keys of a dictionary. -/
def Tree.keys : Tree V → List String
  | .nil => []
  | .leaf k _ r => k :: r.keys
  | .sub k _ r => k :: r.keys

/-- A nested Python dictionary: no key twice. The names of nested dictionaries are names of HDF5 groups, so they are not empty, not
`.`, and have no `/`; the names of values are arbitrary. -/
def Tree.Valid : Tree V → Prop
  | .nil => True
  | .leaf k _ r => k ∉ r.keys ∧ r.Valid
  | .sub k t r => k ∉ r.keys ∧ (k ≠ "" ∧ k ≠ "." ∧ '/' ∉ k.toList) ∧ t.Valid ∧ r.Valid

/-- The item with a key. -/
def Tree.find (k : String) : Tree V → Option (V ⊕ Tree V)
  | .nil => none
  | .leaf k' v r => if k' = k then some (.inl v) else r.find k
  | .sub k' t r => if k' = k then some (.inr t) else r.find k

/-- What is at a path: nothing, a dictionary, or a value. Dictionaries with the same contents at all paths are equal. -/
def get (t : Tree V) : List String → Option (Option V)
  | [] => some none
  | k :: path =>
    match t.find k with
    | none => none
    | some (.inl v) => if path = [] then some (some v) else none
    | some (.inr t') => get t' path

def append : Tree V → Tree V → Tree V
  | .nil, b => b
  | .leaf k v r, b => .leaf k v (append r b)
  | .sub k t r, b => .sub k t (append r b)

theorem append_nil (t : Tree V) : append t .nil = t := by
  induction t with
  | nil => rfl
  | leaf k v r ih => simp [append, ih]
  | sub k t r _ ih => simp [append, ih]

theorem append_assoc (a b c : Tree V) : append (append a b) c = append a (append b c) := by
  induction a with
  | nil => rfl
  | leaf k v r ih => simp [append, ih]
  | sub k t r _ ih => simp [append, ih]

theorem keys_append (a b : Tree V) : (append a b).keys = a.keys ++ b.keys := by
  induction a with
  | nil => rfl
  | leaf k v r ih => simp [append, Tree.keys, ih]
  | sub k t r _ ih => simp [append, Tree.keys, ih]

theorem setAttr_new (k : String) (v : V) (g : Tree V) (h : k ∉ g.keys) : setAttr k v g = append g (.leaf k v .nil) := by
  induction g with
  | nil => rfl
  | leaf k' v' r ih =>
    simp only [Tree.keys, List.mem_cons, not_or] at h
    simp only [setAttr, append]
    rw [if_neg fun h' => h.1 h'.symm, ih h.2]
  | sub k' t r _ ih =>
    simp only [Tree.keys, List.mem_cons, not_or] at h
    simp only [setAttr, append, ih h.2]

theorem updateSub_new (k : String) (f : Tree V → Tree V) (g : Tree V) (h : k ∉ g.keys) :
    updateSub k f g = append g (.sub k (f .nil) .nil) := by
  induction g with
  | nil => rfl
  | leaf k' v' r ih =>
    simp only [Tree.keys, List.mem_cons, not_or] at h
    simp only [updateSub, append, ih h.2]
  | sub k' t r _ ih =>
    simp only [Tree.keys, List.mem_cons, not_or] at h
    simp only [updateSub, append]
    rw [if_neg fun h' => h.1 h'.symm, ih h.2]

theorem setLeaf_new (k : String) (v : V) (g : Tree V) (h : k ∉ g.keys) : setLeaf k v g = append g (.leaf k v .nil) := by
  induction g with
  | nil => rfl
  | leaf k' v' r ih =>
    simp only [Tree.keys, List.mem_cons, not_or] at h
    simp only [setLeaf, append]
    rw [if_neg fun h' => h.1 h'.symm, ih h.2]
  | sub k' t r _ ih =>
    simp only [Tree.keys, List.mem_cons, not_or] at h
    simp only [setLeaf, append]
    rw [if_neg fun h' => h.1 h'.symm, ih h.2]

theorem setSub_new (k : String) (s : Tree V) (g : Tree V) (h : k ∉ g.keys) : setSub k s g = append g (.sub k s .nil) := by
  induction g with
  | nil => rfl
  | leaf k' v' r ih =>
    simp only [Tree.keys, List.mem_cons, not_or] at h
    simp only [setSub, append]
    rw [if_neg fun h' => h.1 h'.symm, ih h.2]
  | sub k' t r _ ih =>
    simp only [Tree.keys, List.mem_cons, not_or] at h
    simp only [setSub, append]
    rw [if_neg fun h' => h.1 h'.symm, ih h.2]

theorem splitSlash_plain (l : List Char) (h : '/' ∉ l) : splitSlash l = [l] := by
  induction l with
  | nil => rfl
  | cons c l ih =>
    simp only [List.mem_cons, not_or] at h
    rw [splitSlash, if_neg (fun h' => h.1 h'.symm), ih h.2]

theorem components_plain (k : String) (h1 : k ≠ "") (h2 : k ≠ ".") (h3 : '/' ∉ k.toList) : components k = [k] := by
  unfold components
  rw [splitSlash_plain _ h3]
  simp [h1, h2]

/-- A dictionary saved in a group without any of its names. -/
theorem save_new (d g : Tree V) (hd : d.Valid) (h : ∀ k ∈ d.keys, k ∉ g.keys) : save d g = append g d := by
  induction d generalizing g with
  | nil => rw [save, append_nil]
  | leaf k v r ih =>
    rw [save, setAttr_new _ _ _ (h k (by simp [Tree.keys])), ih _ hd.2, append_assoc]
    · rfl
    · intro k' hk'
      rw [keys_append, List.mem_append]
      rintro (h1 | h1)
      · exact h k' (by simp [Tree.keys, hk']) h1
      · simp only [Tree.keys, List.mem_singleton] at h1
        subst h1
        exact hd.1 hk'
  | sub k t r iht ih =>
    obtain ⟨h1, ⟨h2, h3, h4⟩, h5, h6⟩ := hd
    rw [save, components_plain k h2 h3 h4]
    simp only [updateAt]
    rw [updateSub_new _ _ _ (h k (by simp [Tree.keys])), iht .nil h5 (by simp [Tree.keys]), ih _ h6, append_assoc]
    · rfl
    · intro k' hk'
      rw [keys_append, List.mem_append]
      rintro (h7 | h7)
      · exact h k' (by simp [Tree.keys, hk']) h7
      · simp only [Tree.keys, List.mem_singleton] at h7
        subst h7
        exact h1 hk'

/-- The attributes of a group, in order. -/
def leaves : Tree V → Tree V
  | .nil => .nil
  | .leaf k v r => .leaf k v (leaves r)
  | .sub _ _ r => leaves r

/-- The groups, loaded, in order. -/
def subs : Tree V → Tree V
  | .nil => .nil
  | .leaf _ _ r => subs r
  | .sub k t r => .sub k (load t) (subs r)

theorem loadAttrs_new (g d : Tree V) (hg : g.Valid) (h : ∀ k ∈ g.keys, k ∉ d.keys) : loadAttrs g d = append d (leaves g) := by
  induction g generalizing d with
  | nil => rw [loadAttrs, leaves, append_nil]
  | leaf k v r ih =>
    rw [loadAttrs, setLeaf_new _ _ _ (h k (by simp [Tree.keys])), ih _ hg.2, append_assoc]
    · rfl
    · intro k' hk'
      rw [keys_append, List.mem_append]
      rintro (h1 | h1)
      · exact h k' (by simp [Tree.keys, hk']) h1
      · simp only [Tree.keys, List.mem_singleton] at h1
        subst h1
        exact hg.1 hk'
  | sub k t r _ ih => exact ih d hg.2.2.2 fun k' hk' => h k' (by simp [Tree.keys, hk'])

theorem loadSubs_new (g d : Tree V) (hg : g.Valid) (h : ∀ k ∈ (subs g).keys, k ∉ d.keys) : loadSubs g d = append d (subs g) := by
  have hsub : ∀ (t : Tree V) k, k ∈ (subs t).keys → k ∈ t.keys := by
    intro t k
    induction t with
    | nil => exact id
    | leaf k' v r ih => intro h; simp [Tree.keys, ih h]
    | sub k' t r _ ih =>
      intro h
      simp only [subs, Tree.keys, List.mem_cons] at h ⊢
      exact h.imp id ih
  induction g generalizing d with
  | nil => rw [loadSubs, subs, append_nil]
  | leaf k v r ih => exact ih d hg.2 h
  | sub k t r _ ih =>
    obtain ⟨h1, -, h5, h6⟩ := hg
    rw [loadSubs, setSub_new _ _ _ (h k (by simp [subs, Tree.keys])), ih _ h6, append_assoc]
    · rfl
    · intro k' hk'
      rw [keys_append, List.mem_append]
      rintro (h7 | h7)
      · exact h k' (by simp [subs, Tree.keys, hk']) h7
      · simp only [Tree.keys, List.mem_singleton] at h7
        subst h7
        exact h1 (hsub r _ hk')

theorem load_eq (g : Tree V) (hg : g.Valid) : load g = append (leaves g) (subs g) := by
  have h0 : loadAttrs g .nil = leaves g := by
    rw [loadAttrs_new g .nil hg (by simp [Tree.keys])]; rfl
  unfold load
  rw [h0]
  refine loadSubs_new g _ hg ?_
  induction g with
  | nil => simp [subs, Tree.keys]
  | leaf k v r ih =>
    intro k' hk'
    simp only [leaves, Tree.keys, List.mem_cons, not_or]
    refine ⟨?_, ?_⟩
    · rintro rfl
      refine hg.1 ?_
      have : ∀ (t : Tree V) k, k ∈ (subs t).keys → k ∈ t.keys := by
        intro t k
        induction t with
        | nil => exact id
        | leaf k' v r ih => intro h; simp [Tree.keys, ih h]
        | sub k' t r _ ih =>
          intro h
          simp only [subs, Tree.keys, List.mem_cons] at h ⊢
          exact h.imp id ih
      exact this r _ hk'
    · exact ih hg.2 (by rw [loadAttrs_new r .nil hg.2 (by simp [Tree.keys])]; rfl) k' hk'
  | sub k t r _ ih =>
    intro k' hk'
    simp only [subs, Tree.keys, List.mem_cons] at hk'
    rcases hk' with rfl | hk'
    · intro h
      have : ∀ (t : Tree V) k, k ∈ (leaves t).keys → k ∈ t.keys := by
        intro t k
        induction t with
        | nil => exact id
        | leaf k' v r ih =>
          intro h
          simp only [leaves, Tree.keys, List.mem_cons] at h ⊢
          exact h.imp id ih
        | sub k' t r _ ih => intro h; simp [Tree.keys, ih h]
      exact hg.1 (this r _ h)
    · exact ih hg.2.2.2 (by rw [loadAttrs_new r .nil hg.2.2.2 (by simp [Tree.keys])]; rfl) k' hk'

theorem find_append (k : String) (a b : Tree V) :
    (append a b).find k = match a.find k with
      | some x => some x
      | none => b.find k := by
  induction a with
  | nil => rfl
  | leaf k' v r ih =>
    simp only [append, Tree.find]
    split
    · rfl
    · exact ih
  | sub k' t r _ ih =>
    simp only [append, Tree.find]
    split
    · rfl
    · exact ih

theorem find_none (k : String) (t : Tree V) (h : k ∉ t.keys) : t.find k = none := by
  induction t with
  | nil => rfl
  | leaf k' v r ih =>
    simp only [Tree.keys, List.mem_cons, not_or] at h
    rw [Tree.find, if_neg (fun h' => h.1 h'.symm), ih h.2]
  | sub k' t r _ ih =>
    simp only [Tree.keys, List.mem_cons, not_or] at h
    rw [Tree.find, if_neg (fun h' => h.1 h'.symm), ih h.2]

theorem find_load (k : String) (g : Tree V) (hg : g.Valid) :
    (load g).find k = (g.find k).map fun x => match x with
      | .inl v => .inl v
      | .inr t => .inr (load t) := by
  rw [load_eq g hg, find_append]
  induction g with
  | nil => rfl
  | leaf k' v r ih =>
    simp only [leaves, subs, Tree.find]
    by_cases h : k' = k
    · simp [h]
    · rw [if_neg h, if_neg h]
      exact ih hg.2
  | sub k' t r _ ih =>
    simp only [leaves, subs, Tree.find]
    by_cases h : k' = k
    · subst h
      have hr := hg.1
      have : (leaves r).find k' = none := by
        apply find_none
        have : ∀ (t : Tree V) k, k ∈ (leaves t).keys → k ∈ t.keys := by
          intro t k
          induction t with
          | nil => exact id
          | leaf k' v r ih =>
            intro h
            simp only [leaves, Tree.keys, List.mem_cons] at h ⊢
            exact h.imp id ih
          | sub k' t r _ ih => intro h; simp [Tree.keys, ih h]
        exact fun h => hr (this r _ h)
      rw [this]
      simp
    · rw [if_neg h, if_neg h]
      exact ih hg.2.2.2

theorem find_valid {k : String} {g t : Tree V} (hg : g.Valid) (h : g.find k = some (.inr t)) : t.Valid := by
  induction g with
  | nil => simp [Tree.find] at h
  | leaf k' v r ih =>
    rw [Tree.find] at h
    split at h
    · simp at h
    · exact ih hg.2 h
  | sub k' s r _ ih =>
    rw [Tree.find] at h
    split at h
    · injection h with h
      injection h with h
      subst h
      exact hg.2.2.1
    · exact ih hg.2.2.2 h

theorem get_load (g : Tree V) (hg : g.Valid) (path : List String) : get (load g) path = get g path := by
  induction path generalizing g with
  | nil => rfl
  | cons k path ih =>
    simp only [get]
    rw [find_load k g hg]
    cases h : g.find k with
    | none => rfl
    | some x =>
      cases x with
      | inl v => rfl
      | inr t => exact ih t (find_valid hg h)

/-- C54: a nested dictionary saved in a new group and loaded again has the same contents at all paths. -/
theorem C54_round_trip (d : Tree V) (hd : d.Valid) (path : List String) : get (load (save d .nil)) path = get d path := by
  rw [save_new d .nil hd (by simp [Tree.keys])]
  exact get_load d hd path

/-- A name of a dictionary with a `/`: it comes back as two nested dictionaries. -/
theorem C54_slash : get (load (save (.sub "a/b" (.leaf "x" 1 .nil) .nil) .nil)) ["a/b", "x"] = none ∧
    get (load (save (.sub "a/b" (.leaf "x" 1 .nil) .nil) .nil)) ["a", "b", "x"] = some (some 1) ∧
    get (.sub "a/b" (.leaf "x" 1 .nil) .nil) ["a/b", "x"] = some (some 1) := by decide

/-- A value, a dictionary with a value and an empty dictionary, a name with `/` for a value. -/
example : let d : Tree Nat := .sub "b" (.leaf "x" 1 (.sub "e" .nil .nil)) (.leaf "a/c" 2 (.sub "c" (.leaf "x" 3 .nil) .nil))
    d.Valid ∧ get (load (save d .nil)) ["b", "x"] = some (some 1) ∧ get (load (save d .nil)) ["b", "e"] = some none ∧
      get (load (save d .nil)) ["a/c"] = some (some 2) := by
  refine ⟨?_, by decide, by decide, by decide⟩
  simp [Tree.Valid, Tree.keys]

end Stempy.SparseFile
