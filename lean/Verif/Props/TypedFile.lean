import Verif.Model.TypedFile
import Mathlib.Data.List.Nodup
import Mathlib.Data.List.Basic
import Mathlib.Algebra.Order.BigOperators.Group.List
import Mathlib.Algebra.Order.Ring.Int
import Mathlib.Tactic.IntervalCases

/-! # C81: typed values in HDF5 files -/

namespace Stempy.TypedFile

/-! ## Types -/

/-- The member of `DataType` for a C++ type, after its documentation. -/
def Elem.enum : Elem → DataType
  | .char => .Int8 | .short => .Int16 | .int => .Int32 | .llong => .Int64
  | .uchar => .UInt8 | .ushort => .UInt16 | .uint => .UInt32 | .ullong => .UInt64
  | .float => .Float | .double => .Double

/-- The numbers which a variable of the type can have; for floating point types, the bit patterns. -/
def Elem.Holds (p : Platform) : Elem → Int → Prop
  | .char, v => (p.charSigned = true ∧ -128 ≤ v ∧ v ≤ 127) ∨ (p.charSigned = false ∧ 0 ≤ v ∧ v ≤ 255)
  | .short, v => -32768 ≤ v ∧ v ≤ 32767
  | .int, v => -2147483648 ≤ v ∧ v ≤ 2147483647
  | .llong, v => -9223372036854775808 ≤ v ∧ v ≤ 9223372036854775807
  | .uchar, v => 0 ≤ v ∧ v ≤ 255
  | .ushort, v => 0 ≤ v ∧ v ≤ 65535
  | .uint, v => 0 ≤ v ∧ v ≤ 4294967295
  | .ullong, v => 0 ≤ v ∧ v ≤ 18446744073709551615
  | .float, v => 0 ≤ v ∧ v ≤ 4294967295
  | .double, v => 0 ≤ v ∧ v ≤ 18446744073709551615

theorem dataTypeId_inj {t u : Elem} (h : t.dataTypeId = u.dataTypeId) : t = u := by
  cases t <;> cases u <;> first | rfl | (simp [Elem.dataTypeId] at h)

theorem mem_table {e : FType × DataType} : e ∈ H5ToDataType ↔ ∃ t : Elem, e = (t.dataTypeId, t.enum) := by
  constructor
  · intro h
    simp only [H5ToDataType, List.mem_cons, List.not_mem_nil, or_false] at h
    rcases h with h | h | h | h | h | h | h | h | h | h
    exacts [⟨.char, h⟩, ⟨.short, h⟩, ⟨.int, h⟩, ⟨.llong, h⟩, ⟨.uchar, h⟩, ⟨.ushort, h⟩, ⟨.uint, h⟩, ⟨.ullong, h⟩, ⟨.float, h⟩,
      ⟨.double, h⟩]
  · rintro ⟨t, rfl⟩
    cases t <;> simp [H5ToDataType, Elem.dataTypeId, Elem.enum]

theorem tequal_ne {a b : FType} : (tequal (some a) (some b) != 0) = true ↔ a = b := by
  by_cases h : a = b <;> simp [tequal, h]

/-- The type maps agree: the type of a value written as `t` is found as the member of `DataType` for `t`, in whatever order the
identifiers are, and the types for this member are those for `t`; other types of the file are found as `None`. -/
theorem C81_types (l : List (FType × DataType)) (hl : l.Perm H5ToDataType) (t : Elem) (p : Platform) :
    getH5ToDataType l (some t.dataTypeId) = t.enum ∧ DataTypeToH5DataType.lookup t.enum = some t.dataTypeId ∧
    (DataTypeToH5MemType p).lookup t.enum = some (t.memTypeId p) ∧
    ∀ ft, (∀ u : Elem, ft ≠ u.dataTypeId) → getH5ToDataType l (some ft) = .None := by
  refine ⟨?_, by cases t <;> rfl, by cases t <;> rfl, fun ft hft => ?_⟩
  · unfold getH5ToDataType
    split
    · rename_i e he
      have h1 := List.find?_some he
      obtain ⟨u, rfl⟩ := mem_table.1 (hl.mem_iff.1 (List.mem_of_find?_eq_some he))
      rw [tequal_ne] at h1
      rw [dataTypeId_inj h1]
    · rename_i he
      have := List.find?_eq_none.1 he (t.dataTypeId, t.enum) (hl.mem_iff.2 (mem_table.2 ⟨t, rfl⟩))
      rw [tequal_ne] at this
      exact absurd rfl this
  · unfold getH5ToDataType
    split
    · rename_i e he
      have h1 := List.find?_some he
      obtain ⟨u, rfl⟩ := mem_table.1 (hl.mem_iff.1 (List.mem_of_find?_eq_some he))
      rw [tequal_ne] at h1
      exact absurd h1.symm (hft u)
    · rfl

/-- For a type whose identifier is not valid the functions should give `None`. They give the first type of the map: `H5Tequal` is
negative, which is taken as true. -/
theorem C81_invalid_type_false (l : List (FType × DataType)) (hl : l.Perm H5ToDataType) :
    getH5ToDataType l none ≠ .None := by
  unfold getH5ToDataType
  split
  · rename_i e he
    obtain ⟨u, rfl⟩ := mem_table.1 (hl.mem_iff.1 (List.mem_of_find?_eq_some he))
    cases u <;> simp [Elem.enum]
  · rename_i he
    have := List.find?_eq_none.1 he (.flt 32 true, .Float) (hl.mem_iff.2 (by simp [H5ToDataType]))
    simp [tequal] at this

/-- A number which fits is not changed on its way into the file and back. -/
theorem convert_back (p : Platform) (t : Elem) (v : Int) (hv : t.Holds p v) (hc : t = .char → v ≤ 127) :
    convert (t.memTypeId p) t.dataTypeId v = some v ∧ convert t.dataTypeId (t.memTypeId p) v = some v := by
  obtain ⟨s⟩ := p
  cases t <;> cases s <;>
    (simp_all [Elem.Holds, Elem.memTypeId, Elem.dataTypeId, convert, lo, hi]; try omega)

theorem mapM_same {g : Int → Option Int} {l : List Int} (h : ∀ v ∈ l, g v = some v) : l.mapM g = some l := by
  induction l with
  | nil => rfl
  | cons a l ih =>
    rw [List.mapM_cons, h a (List.mem_cons_self), ih (fun v hv => h v (List.mem_cons_of_mem _ hv))]
    rfl

/-! ## Paths -/

theorem split_ne (s : Str) : split s ≠ [] := by
  cases s with
  | nil => simp [split]
  | cons c cs =>
    unfold split
    split
    · simp
    · split <;> simp

theorem split_append (a b : Str) : split (a ++ '/' :: b) = split a ++ split b := by
  induction a with
  | nil => simp [split]
  | cons c cs ih =>
    by_cases hc : c = '/'
    · simp [split, hc, ih]
    · simp only [List.cons_append, split, if_neg hc, ih]
      cases h : split cs with
      | nil => exact absurd h (split_ne cs)
      | cons w ws => rfl

/-- A name inside of a group, after the name of the group and a slash. -/
theorem C81_paths (a b : Str) : comps (a ++ '/' :: b) = comps a ++ comps b := by
  simp [comps, split_append]

theorem split_pure {w : Str} (h : '/' ∉ w) : split w = [w] := by
  induction w with
  | nil => rfl
  | cons c cs ih =>
    rw [List.mem_cons, not_or] at h
    have : c ≠ '/' := fun e => h.1 e.symm
    simp [split, this, ih h.2]

theorem split_mem {s w : Str} (h : w ∈ split s) : '/' ∉ w := by
  induction s generalizing w with
  | nil =>
    simp only [split, List.mem_singleton] at h
    simp [h]
  | cons c cs ih =>
    unfold split at h
    split at h
    · rcases List.mem_cons.1 h with rfl | h
      · simp
      · exact ih h
    · rename_i hc
      split at h
      · rename_i h0
        exact absurd h0 (split_ne cs)
      · rename_i w' ws h0
        rcases List.mem_cons.1 h with rfl | h
        · rw [List.mem_cons, not_or]
          exact ⟨fun e => hc e.symm, ih (h0 ▸ List.mem_cons_self)⟩
        · exact ih (h0 ▸ List.mem_cons_of_mem _ h)

/-- The components of a path in a file. -/
def Proper (w : Str) : Prop := w ≠ [] ∧ w ≠ ['.'] ∧ '/' ∉ w

theorem comps_proper {s w : Str} (h : w ∈ comps s) : Proper w := by
  unfold comps at h
  rw [List.mem_filter] at h
  obtain ⟨h1, h2⟩ := h
  simp only [ne_eq, Bool.and_eq_true, decide_eq_true_eq] at h2
  exact ⟨by simpa using h2.1, by simpa using h2.2, split_mem h1⟩

theorem comps_pure {w : Str} (h : Proper w) : comps w = [w] := by
  simp [comps, split_pure h.2.2, h.1, h.2.1]

theorem comps_join {q : Path} (h : ∀ w ∈ q, Proper w) : comps (join q) = q := by
  induction q with
  | nil => rfl
  | cons w ws ih =>
    cases ws with
    | nil => exact comps_pure (h w List.mem_cons_self)
    | cons v vs =>
      rw [join, C81_paths, comps_pure (h w List.mem_cons_self), ih fun x hx => h x (List.mem_cons_of_mem _ hx)]
      · rfl
      · simp

theorem join_ne {q : Path} (h : ∀ w ∈ q, Proper w) (hq : q ≠ []) : join q ≠ [] := by
  intro e
  have := comps_join h
  rw [e] at this
  exact hq this.symm

/-! ## The tree -/

/-- The file is a tree of groups and data sets. -/
structure File.Tree (f : File) : Prop where
  root : ∃ as, f.node [] = some ⟨.group, as⟩
  once : (f.nodes.map (·.1)).Nodup
  proper : ∀ e ∈ f.nodes, ∀ w ∈ e.1, Proper w
  parent : ∀ e ∈ f.nodes, e.1 ≠ [] → ∃ as, f.node e.1.dropLast = some ⟨.group, as⟩

theorem mem_of_lookup {f : File} {q : Path} {n : Node} (h : f.node q = some n) : (q, n) ∈ f.nodes := by
  unfold File.node at h
  rw [List.lookup_eq_some_iff] at h
  obtain ⟨l1, l2, h1, h2⟩ := h
  rw [h1]
  simp

theorem lookup_of_mem {l : List (Path × Node)} (ho : (l.map (·.1)).Nodup) {q : Path} {n : Node} (h : (q, n) ∈ l) :
    l.lookup q = some n := by
  induction l with
  | nil => simp at h
  | cons e l ih =>
    rw [List.map_cons, List.nodup_cons] at ho
    rcases List.mem_cons.1 h with rfl | hm
    · simp
    · have : q ≠ e.1 := by
        rintro rfl
        exact ho.1 (List.mem_map.2 ⟨_, hm, rfl⟩)
      obtain ⟨k, v⟩ := e
      rw [List.lookup_cons]
      have hb : (q == k) = false := by simpa using this
      rw [hb]
      exact ih ho.2 hm

theorem Tree.node_iff {f : File} (ht : f.Tree) {q : Path} {n : Node} : f.node q = some n ↔ (q, n) ∈ f.nodes :=
  ⟨mem_of_lookup, lookup_of_mem ht.once⟩

/-- What later calls keep: all objects with their data, and all attributes. -/
def Keeps (f g : File) : Prop :=
  (g.valid = true → f.valid = true) ∧
  ∀ q n, f.node q = some n → ∃ n', g.node q = some n' ∧ n'.kind = n.kind ∧
    ∀ x a, n.attrs.lookup x = some a → n'.attrs.lookup x = some a

theorem Keeps.refl (f : File) : Keeps f f := ⟨id, fun _ n h => ⟨n, h, rfl, fun _ _ h => h⟩⟩

theorem Keeps.trans {f g k : File} (h1 : Keeps f g) (h2 : Keeps g k) : Keeps f k := by
  refine ⟨fun h => h1.1 (h2.1 h), fun q n hq => ?_⟩
  obtain ⟨n1, a1, b1, c1⟩ := h1.2 q n hq
  obtain ⟨n2, a2, b2, c2⟩ := h2.2 q n1 a1
  exact ⟨n2, a2, b2.trans b1, fun x a hx => c2 x a (c1 x a hx)⟩

/-- Where a new object is put. -/
def target (base : Path) (name : Str) : Path := if name.head? = some '/' then comps name else base ++ comps name

theorem create_spec {f f' : File} {base : Path} {name : Str} {kind : Kind} (h : f.create base name kind = some f') :
    f' = { f with nodes := f.nodes ++ [(target base name, ⟨kind, []⟩)] } ∧ f.node (target base name) = none ∧
    target base name ≠ [] ∧ (∃ as, f.node (target base name).dropLast = some ⟨.group, as⟩) ∧ f.writable = true := by
  unfold File.create at h
  simp only at h
  rw [show (if name.head? = some '/' then comps name else base ++ comps name) = target base name from rfl] at h
  split at h
  · simp at h
  · rename_i hc
    simp only [not_or] at hc
    split at h
    · rename_i as heq
      simp only [Option.some.injEq] at h
      exact ⟨h.symm, by simpa using hc.2.2.2, hc.2.1, ⟨as, heq⟩, by simpa using hc.1⟩
    · simp at h

theorem node_new {f : File} {q : Path} {n : Node} (h : f.node q = none) (r : Path) :
    ({ f with nodes := f.nodes ++ [(q, n)] } : File).node r = if r = q then some n else f.node r := by
  unfold File.node at *
  rw [List.lookup_append]
  by_cases hr : r = q
  · subst hr
    simp [h]
  · have hb : (r == q) = false := by simpa using hr
    simp [hr, List.lookup_cons, hb]

theorem keeps_new {f : File} {q : Path} {n : Node} (h : f.node q = none) : Keeps f { f with nodes := f.nodes ++ [(q, n)] } := by
  refine ⟨id, fun r m hr => ⟨m, ?_, rfl, fun _ _ h => h⟩⟩
  rw [node_new h, if_neg, hr]
  rintro rfl
  rw [h] at hr
  cases hr

theorem target_proper {base : Path} (hb : ∀ w ∈ base, Proper w) (name : Str) : ∀ w ∈ target base name, Proper w := by
  intro w hw
  unfold target at hw
  split at hw
  · exact comps_proper hw
  · rcases List.mem_append.1 hw with h | h
    · exact hb w h
    · exact comps_proper h

theorem Tree.new {f : File} (ht : f.Tree) {q : Path} {k : Kind} (h : f.node q = none) (hq : q ≠ [])
    (hp : ∃ as, f.node q.dropLast = some ⟨.group, as⟩) (hw : ∀ w ∈ q, Proper w) :
    ({ f with nodes := f.nodes ++ [(q, ⟨k, []⟩)] } : File).Tree := by
  have old : ∀ r as, f.node r = some ⟨.group, as⟩ →
      ({ f with nodes := f.nodes ++ [(q, ⟨k, []⟩)] } : File).node r = some ⟨.group, as⟩ := by
    intro r as hr
    rw [node_new h, if_neg, hr]
    rintro rfl
    rw [h] at hr
    cases hr
  refine ⟨?_, ?_, ?_, ?_⟩
  · obtain ⟨as, ha⟩ := ht.root
    exact ⟨as, old _ _ ha⟩
  · simp only [List.map_append, List.map_cons, List.map_nil]
    rw [List.nodup_append]
    refine ⟨ht.once, by simp, ?_⟩
    intro a ha b hb
    rw [List.mem_singleton] at hb
    subst hb
    rintro rfl
    obtain ⟨e, he, rfl⟩ := List.mem_map.1 ha
    have := (Tree.node_iff ht (q := e.1) (n := e.2)).2 he
    rw [h] at this
    cases this
  · intro e he
    rcases List.mem_append.1 he with he | he
    · exact ht.proper e he
    · rw [List.mem_singleton] at he
      subst he
      exact hw
  · intro e he hne
    rcases List.mem_append.1 he with he | he
    · obtain ⟨as, ha⟩ := ht.parent e he hne
      exact ⟨as, old _ _ ha⟩
    · rw [List.mem_singleton] at he
      subst he
      obtain ⟨as, ha⟩ := hp
      exact ⟨as, old _ _ ha⟩

theorem lookup_map (l : List (Path × Node)) (q r : Path) (g : Node → Node) :
    (l.map fun e => if e.1 = q then (e.1, g e.2) else e).lookup r = if r = q then (l.lookup r).map g else l.lookup r := by
  induction l with
  | nil => simp
  | cons e l ih =>
    obtain ⟨k, v⟩ := e
    rw [List.map_cons]
    by_cases hk : k = q
    · subst hk
      rw [if_pos rfl, List.lookup_cons, List.lookup_cons, ih]
      by_cases hr : r = k
      · simp [hr]
      · have hb : (r == k) = false := by simpa using hr
        simp [hr, hb]
    · rw [if_neg hk, List.lookup_cons, List.lookup_cons, ih]
      by_cases hr : r = k
      · subst hr
        simp [hk]
      · have hb : (r == k) = false := by simpa using hr
        simp [hb]

theorem addAttr_spec {f f' : File} {path name : Str} {a : Attr} (h : f.addAttr path name a = some f') :
    ∃ n, f.object path = some n ∧ n.attrs.lookup name = none ∧ f'.valid = f.valid ∧ f'.writable = f.writable ∧ name ≠ [] ∧
      f'.nodes = f.nodes.map (fun e => if e.1 = comps path then (e.1, ⟨e.2.kind, e.2.attrs ++ [(name, a)]⟩) else e) ∧
      ∀ r, f'.node r = if r = comps path then some ⟨n.kind, n.attrs ++ [(name, a)]⟩ else f.node r := by
  unfold File.addAttr at h
  split at h
  · cases h
  · rename_i n hn
    split at h
    · cases h
    · rename_i hc
      simp only [not_or] at hc
      simp only [Option.some.injEq] at h
      subst h
      refine ⟨n, hn, by rw [← Option.not_isSome_iff_eq_none]; exact hc.2.2, rfl, rfl, hc.2.1, rfl, fun r => ?_⟩
      have := lookup_map f.nodes (comps path) r fun m => ⟨m.kind, m.attrs ++ [(name, a)]⟩
      unfold File.node
      simp only
      rw [this]
      by_cases hr : r = comps path
      · subst hr
        unfold File.object at hn
        split at hn
        · cases hn
        · unfold File.node at hn
          rw [if_pos rfl, if_pos rfl, hn]
          rfl
      · rw [if_neg hr, if_neg hr]

theorem addAttr_keeps {f f' : File} {path name : Str} {a : Attr} (h : f.addAttr path name a = some f') : Keeps f f' := by
  obtain ⟨n, h1, h2, h3, _, _, _, h5⟩ := addAttr_spec h
  refine ⟨fun hv => h3 ▸ hv, fun q m hq => ?_⟩
  rw [h5]
  by_cases hr : q = comps path
  · subst hr
    have : f.node (comps path) = some n := by
      unfold File.object at h1
      split at h1
      · cases h1
      · exact h1
    rw [this] at hq
    cases hq
    refine ⟨_, if_pos rfl, rfl, fun x b hx => ?_⟩
    rw [List.lookup_append, hx]
    rfl
  · rw [if_neg hr]
    exact ⟨m, hq, rfl, fun _ _ h => h⟩

theorem addAttr_tree {f f' : File} {path name : Str} {a : Attr} (h : f.addAttr path name a = some f') (ht : f.Tree) : f'.Tree := by
  have hk := addAttr_keeps h
  obtain ⟨n, h1, h2, h3, _, _, h4, h5⟩ := addAttr_spec h
  have hkeys : f'.nodes.map (·.1) = f.nodes.map (·.1) := by
    rw [h4, List.map_map]
    apply List.map_congr_left
    intro e _
    simp only [Function.comp]
    split <;> rfl
  have hmem : ∀ e ∈ f'.nodes, ∃ e' ∈ f.nodes, e'.1 = e.1 := by
    intro e he
    have : e.1 ∈ f'.nodes.map (·.1) := List.mem_map.2 ⟨e, he, rfl⟩
    rw [hkeys] at this
    obtain ⟨e', he', hh⟩ := List.mem_map.1 this
    exact ⟨e', he', hh⟩
  have old : ∀ r as, f.node r = some ⟨.group, as⟩ → ∃ as', f'.node r = some ⟨.group, as'⟩ := by
    intro r as hr
    obtain ⟨n', b1, b2, _⟩ := hk.2 r _ hr
    obtain ⟨k, as'⟩ := n'
    exact ⟨as', by rw [b1, show k = .group from b2]⟩
  refine ⟨?_, by rw [hkeys]; exact ht.once, ?_, ?_⟩
  · obtain ⟨as, ha⟩ := ht.root
    exact old _ _ ha
  · intro e he
    obtain ⟨e', he', hh⟩ := hmem e he
    rw [← hh]
    exact ht.proper e' he'
  · intro e he hne
    obtain ⟨e', he', hh⟩ := hmem e he
    rw [← hh] at hne ⊢
    obtain ⟨as, ha⟩ := ht.parent e' he' hne
    exact old _ _ ha

theorem object_node {f : File} {path : Str} {n : Node} (h : f.object path = some n) : f.node (comps path) = some n := by
  unfold File.object at h
  split at h
  · cases h
  · exact h

theorem openGroup_node {f : File} {path : Str} {b : Path} (h : f.openGroup path = some b) :
    b = comps path ∧ ∃ as, f.node b = some ⟨.group, as⟩ := by
  unfold File.openGroup at h
  split at h
  · rename_i as heq
    simp only [Option.some.injEq] at h
    subst h
    exact ⟨rfl, as, object_node heq⟩
  · cases h

/-- What a call does to the file. -/
theorem step_spec {p : Platform} {f f' : File} {c : Call} {b : Bool} (h : step p f c = .ok (b, f')) :
    f' = f ∨ f' = f.close ∨ (∃ base name kind, (∀ w ∈ base, Proper w) ∧ f.create base name kind = some f') ∨
    ∃ path name a, f.addAttr path name a = some f' := by
  cases c with
  | group path =>
    simp only [step, createGroup] at h
    split at h
    · cases h
      exact .inl rfl
    · split at h
      · rename_i f1 h1
        cases h
        exact .inr (.inr (.inl ⟨[], path, .group, by simp, h1⟩))
      · cases h
        exact .inl rfl
  | write path name dims t data =>
    simp only [step, writeData] at h
    repeat' split at h
    all_goals first
      | (cases h; exact .inl rfl)
      | cases h
    obtain ⟨h1, _⟩ := openGroup_node ‹f.openGroup path = some _›
    subst h1
    exact .inr (.inr (.inl ⟨_, name, _, fun w hw => comps_proper hw, ‹f.create _ name _ = some _›⟩))
  | dataSet path name dims type chunks =>
    simp only [step, createDataSet] at h
    repeat' split at h
    all_goals first
      | (cases h; exact .inl rfl)
      | cases h
    obtain ⟨h1, _⟩ := openGroup_node ‹f.openGroup path = some _›
    subst h1
    exact .inr (.inr (.inl ⟨_, name, _, fun w hw => comps_proper hw, ‹f.create _ name _ = some _›⟩))
  | attr path name t values =>
    simp only [step, setAttribute] at h
    repeat' split at h
    all_goals first
      | (cases h; exact .inl rfl)
      | cases h
    rename_i ha
    exact .inr (.inr (.inr ⟨path, name, _, ha⟩))
  | string path name value =>
    simp only [step, setAttributeString] at h
    repeat' split at h
    all_goals first
      | (cases h; exact .inl rfl)
      | cases h
    rename_i ha
    exact .inr (.inr (.inr ⟨path, name, _, ha⟩))
  | close =>
    cases h
    exact .inr (.inl rfl)

theorem step_keeps {p : Platform} {f f' : File} {c : Call} {b : Bool} (h : step p f c = .ok (b, f')) : Keeps f f' := by
  rcases step_spec h with rfl | rfl | ⟨base, name, kind, _, hc⟩ | ⟨path, name, a, ha⟩
  · exact Keeps.refl _
  · exact ⟨fun h => by simp [File.close] at h, fun q n hq => ⟨n, hq, rfl, fun _ _ h => h⟩⟩
  · obtain ⟨h1, h2, _⟩ := create_spec hc
    rw [h1]
    exact keeps_new h2
  · exact addAttr_keeps ha

theorem step_tree {p : Platform} {f f' : File} {c : Call} {b : Bool} (h : step p f c = .ok (b, f')) (ht : f.Tree) : f'.Tree := by
  rcases step_spec h with rfl | rfl | ⟨base, name, kind, hb, hc⟩ | ⟨path, name, a, ha⟩
  · exact ht
  · exact ⟨ht.root, ht.once, ht.proper, ht.parent⟩
  · obtain ⟨h1, h2, h3, h4, _⟩ := create_spec hc
    rw [h1]
    exact Tree.new ht h2 h3 h4 (target_proper hb name)
  · exact addAttr_tree ha ht

theorem run_keeps {p : Platform} {f g : File} {cs : List Call} (h : run p f cs = .ok g) : Keeps f g := by
  induction cs generalizing f with
  | nil =>
    cases h
    exact Keeps.refl _
  | cons c cs ih =>
    simp only [run] at h
    cases hs : step p f c with
    | ok r =>
      rw [hs] at h
      exact (step_keeps (b := r.1) (f' := r.2) hs).trans (ih h)
    | throw e => rw [hs] at h; cases h
    | ub => rw [hs] at h; cases h

/-- Whatever calls are made on a new file, it is a tree: every object is in a group, and there is one object for a path. -/
theorem C81_tree (p : Platform) (cs : List Call) (f : File) (h : run p createFile cs = .ok f) : f.Tree := by
  suffices ∀ f0 : File, f0.Tree → run p f0 cs = .ok f → f.Tree from
    this createFile ⟨⟨[], rfl⟩, by simp [createFile], by simp [createFile], by simp [createFile]⟩ h
  clear h
  induction cs with
  | nil =>
    intro f0 ht h
    cases h
    exact ht
  | cons c cs ih =>
    intro f0 ht h
    simp only [run] at h
    cases hs : step p f0 c with
    | ok r =>
      rw [hs] at h
      exact ih r.2 (step_tree (b := r.1) (f' := r.2) hs ht) h
    | throw e => rw [hs] at h; cases h
    | ub => rw [hs] at h; cases h

/-- A call which fails leaves the file as it was, apart from an attribute with no values. -/
theorem C81_failure (p : Platform) (f f' : File) (c : Call) (h : step p f c = .ok (false, f'))
    (hc : ∀ path name t, c ≠ .attr path name t []) : f' = f := by
  cases c with
  | group path =>
    simp only [step, createGroup] at h
    repeat' split at h
    all_goals cases h
    all_goals rfl
  | write path name dims t data =>
    simp only [step, writeData] at h
    repeat' split at h
    all_goals cases h
    all_goals rfl
  | dataSet path name dims type chunks =>
    simp only [step, createDataSet] at h
    repeat' split at h
    all_goals cases h
    all_goals rfl
  | attr path name t values =>
    simp only [step, setAttribute] at h
    repeat' split at h
    · cases h; rfl
    · cases h; rfl
    · cases h; rfl
    · simp only [Outcome.ok.injEq, Prod.mk.injEq, decide_eq_false_iff_not, not_not] at h
      exact absurd (by rw [h.1]) (hc path name t)
  | string path name value =>
    simp only [step, setAttributeString] at h
    repeat' split at h
    all_goals cases h
    all_goals rfl
  | close => cases h

/-! ## Data sets -/

theorem writeData_spec {p : Platform} {f f' : File} {path name : Str} {dims : List Int} {t : Elem} {data : List Int}
    (h : writeData p f path name dims t data = .ok (true, f')) :
    dims ≠ [] ∧ (∀ d ∈ dims, 0 ≤ d) ∧ (dims.map Int.toNat).prod ≤ data.length ∧ f.valid = true ∧
    ∃ vals, (data.take (dims.map Int.toNat).prod).mapM (convert (t.memTypeId p) t.dataTypeId) = some vals ∧
      f.create (comps path) name (.data ⟨t.dataTypeId, dims.map Int.toNat, vals⟩) = some f' := by
  simp only [writeData] at h
  split at h
  · cases h
  · rename_i hv
    split at h
    · cases h
    · rename_i hd
      split at h
      · rename_i base sp hg hsp
        split at h
        · cases h
        · rename_i vals hm
          split at h
          · cases h
          · rename_i f1 hcr
            split at h
            · cases h
            · rename_i hl
              cases h
              obtain ⟨rfl, _⟩ := openGroup_node hg
              unfold space at hsp
              split at hsp
              · rename_i hs
                cases hsp
                exact ⟨hd, hs.2, by omega, by simpa using hv, vals, hm, hcr⟩
              · cases hsp
      · cases h

/-- The file later: it is still open, or it has been opened again. -/
def Later (g k : File) : Prop := (k = g ∧ g.valid = true) ∨ k = openFile (some g)

theorem Later.node {g k : File} (h : Later g k) (q : Path) : k.node q = g.node q := by
  rcases h with ⟨rfl, _⟩ | rfl <;> rfl

theorem Later.valid {g k : File} (h : Later g k) : k.valid = true := by
  rcases h with ⟨rfl, h⟩ | rfl
  · exact h
  · rfl

theorem Later.object {g k : File} (h : Later g k) {q : Str} (hq : q ≠ []) : k.object q = g.node (comps q) := by
  simp [File.object, h.valid, hq, h.node]

theorem new_later {f f' g k : File} {base : Path} {name : Str} {kind : Kind} {p : Platform} {cs : List Call} {q : Str}
    (hcr : f.create base name kind = some f') (hr : run p f' cs = .ok g) (hk : Later g k) (hq : q ≠ [])
    (hn : comps q = target base name) : ∃ as, k.object q = some ⟨kind, as⟩ := by
  obtain ⟨rfl, h2, _⟩ := create_spec hcr
  have hnode := node_new (n := ⟨kind, []⟩) h2 (target base name)
  rw [if_pos rfl] at hnode
  obtain ⟨n', a1, a2, _⟩ := (run_keeps hr).2 _ _ hnode
  obtain ⟨k', as⟩ := n'
  refine ⟨as, ?_⟩
  rw [hk.object hq, hn, a1, show k' = kind from a2]

theorem toInt_small {d : Int} (h0 : 0 ≤ d) (h1 : d < 2 ^ 31) : toInt d.toNat = d := by
  unfold toInt
  have e : d.toNat % 2 ^ 32 = d.toNat := by omega
  rw [e, if_pos (by omega)]
  omega

/-- The dimensions of a data set (of any file) are returned modulo `2^32` in the range of `int`. -/
theorem C81_dims (f : File) (path : Str) (d : DSet) (h : f.openData path = some d) :
    (getDimensions f path).length = d.dims.length ∧
    (∀ (i : Nat) (h1 : i < (getDimensions f path).length) (h2 : i < d.dims.length), -2 ^ 31 ≤ (getDimensions f path)[i] ∧
      (getDimensions f path)[i] < 2 ^ 31 ∧ (2 ^ 32 : Int) ∣ d.dims[i] - (getDimensions f path)[i]) ∧
    ((getDimensions f path = d.dims.map fun n : Nat => (n : Int)) ↔ ∀ n ∈ d.dims, n < 2 ^ 31) := by
  have hg : getDimensions f path = d.dims.map toInt := by simp [getDimensions, h]
  have spec : ∀ n, -2 ^ 31 ≤ toInt n ∧ toInt n < 2 ^ 31 ∧ (2 ^ 32 : Int) ∣ n - toInt n := by
    intro n
    unfold toInt
    have h1 := Nat.mod_lt n (show 0 < 2 ^ 32 by decide)
    split <;> refine ⟨by omega, by omega, by omega⟩
  simp only [hg]
  refine ⟨by simp, fun i h1 h2 => by simpa using spec d.dims[i], ?_⟩
  rw [List.map_inj_left]
  constructor
  · intro he n hn
    have := (spec n).2.1
    rw [he n hn] at this
    omega
  · intro hl n hn
    have := hl n hn
    unfold toInt
    rw [Nat.mod_eq_of_lt (by omega), if_pos this]

theorem dims_back {dims : List Int} (h0 : ∀ d ∈ dims, 0 ≤ d) (h1 : ∀ d ∈ dims, d < 2 ^ 31) :
    (dims.map Int.toNat).map toInt = dims := by
  rw [List.map_map]
  conv_rhs => rw [← List.map_id dims]
  apply List.map_congr_left
  intro d hd
  exact toInt_small (h0 d hd) (h1 d hd)

theorem product_ok {dims : List Int} (h0 : ∀ d ∈ dims, 0 ≤ d) (acc : Int) (ha : 0 ≤ acc)
    (h : ∀ k, acc * (dims.take k).prod < 2 ^ 31) : product acc dims = .ok (acc * dims.prod) := by
  induction dims generalizing acc with
  | nil => simp [product]
  | cons d ds ih =>
    have hd := h0 d List.mem_cons_self
    have h1 := h 1
    simp only [List.take_succ_cons, List.take_zero, List.prod_cons, List.prod_nil, mul_one] at h1
    have h2 : 0 ≤ acc * d := Int.mul_nonneg ha hd
    rw [product, if_pos ⟨by omega, h1⟩, ih (fun x hx => h0 x (List.mem_cons_of_mem _ hx)) _ h2, List.prod_cons, mul_assoc]
    intro k
    have := h (k + 1)
    simpa [mul_assoc] using this

theorem prod_toNat {dims : List Int} (h0 : ∀ d ∈ dims, 0 ≤ d) : ((dims.map Int.toNat).prod : Int) = dims.prod := by
  induction dims with
  | nil => rfl
  | cons d ds ih =>
    have hd := h0 d List.mem_cons_self
    simp only [List.map_cons, List.prod_cons, Nat.cast_mul, ih fun x hx => h0 x (List.mem_cons_of_mem _ hx)]
    rw [Int.toNat_of_nonneg hd]

theorem product_ub {dims : List Int} (h0 : ∀ d ∈ dims, 0 < d) (acc : Int) (ha : 0 < acc) (hs : acc < 2 ^ 31)
    (h : 2 ^ 31 ≤ acc * dims.prod) : product acc dims = .ub := by
  induction dims generalizing acc with
  | nil => simp at h; omega
  | cons d ds ih =>
    have hd := h0 d List.mem_cons_self
    have h2 : 0 < acc * d := Int.mul_pos ha hd
    rw [product]
    split
    · rename_i hc
      apply ih (fun x hx => h0 x (List.mem_cons_of_mem _ hx)) _ h2 hc.2
      rw [mul_assoc, ← List.prod_cons]
      exact h
    · rfl

theorem mapM_length {g : Int → Option Int} {l r : List Int} (h : l.mapM g = some r) : r.length = l.length := by
  induction l generalizing r with
  | nil => cases h; rfl
  | cons a l ih =>
    rw [List.mapM_cons] at h
    cases ha : g a with
    | none => rw [ha] at h; cases h
    | some b =>
      rw [ha] at h
      cases hl : l.mapM g with
      | none => rw [hl] at h; cases h
      | some r' =>
        rw [hl] at h
        cases h
        simp [ih hl]

/-- Data written with `writeData` are read back as they were, after any further calls and also after opening the file again; reading
them as another type is refused. The numbers are those of the type; `char` is left out for numbers which a signed `char` does not
have. Their number has to be an `int`. -/
theorem C81_data_partial (p : Platform) (f f' : File) (path name : Str) (dims : List Int) (t : Elem) (data : List Int)
    (h : writeData p f path name dims t data = .ok (true, f')) (hv : ∀ v ∈ data, t.Holds p v)
    (hc : t = .char → ∀ v ∈ data, v ≤ 127) (hd : ∀ d ∈ dims, d < 2 ^ 31) (hs : ∀ k, (dims.take k).prod < 2 ^ 31)
    (cs : List Call) (g : File) (hr : run p f' cs = .ok g) (k : File) (hk : Later g k) (q : Str) (hq : q ≠ [])
    (h0 : name.head? ≠ some '/') (hn : comps q = comps path ++ comps name) :
    readData p k q t = .ok (data.take dims.prod.toNat, dims) ∧ (∀ u, u ≠ t → readData p k q u = .ok ([], dims)) ∧
    (dims.length = 1 → readData1 p k q t = .ok (data.take dims.prod.toNat)) ∧
    (dims.length ≠ 1 → readData1 p k q t = .ok []) ∧
    getDimensions k q = dims ∧ dimensionCount k q = dims.length ∧ dataType k q = t.enum ∧ isDataSet k q = true ∧
    isGroup k q = false := by
  obtain ⟨hne, hpos, hlen, _, vals, hm, hcr⟩ := writeData_spec h
  have hvals : vals = data.take (dims.map Int.toNat).prod := by
    rw [mapM_same] at hm
    · exact (Option.some.inj hm).symm
    · intro v hv'
      have := List.mem_of_mem_take hv'
      exact (convert_back p t v (hv v this) fun e => hc e v this).1
  obtain ⟨as, ho⟩ := new_later hcr hr hk hq (by rw [hn, target, if_neg h0])
  have hod : k.openData q = some ⟨t.dataTypeId, dims.map Int.toNat, vals⟩ := by rw [File.openData, ho]
  have hgd : getDimensions k q = dims := by rw [getDimensions, hod]; exact dims_back hpos hd
  have hprod := product_ok hpos 1 (by omega) (by simpa using hs)
  rw [one_mul] at hprod
  have hp := prod_toNat hpos
  have hnn : 0 ≤ dims.prod := by rw [← hp]; exact Int.natCast_nonneg _
  have hpn : dims.prod.toNat = (dims.map Int.toNat).prod := by omega
  have hvl : vals.length = dims.prod.toNat := by rw [hvals, hpn, List.length_take]; omega
  have hback : vals.mapM (convert t.dataTypeId (t.memTypeId p)) = some vals := by
    apply mapM_same
    intro v hv'
    rw [hvals] at hv'
    have := List.mem_of_mem_take hv'
    exact (convert_back p t v (hv v this) fun e => hc e v this).2
  have hread : readData p k q t = .ok (data.take dims.prod.toNat, dims) := by
    unfold readData
    simp only [hgd, if_neg hne, hprod, Outcome.ok_bind, if_neg (show ¬ dims.prod < 0 by omega)]
    unfold readRaw
    rw [hpn, ← hvals, ← hpn]
    simp [hod, tequal, hvl, hback]
  have hother : ∀ u, u ≠ t → readData p k q u = .ok ([], dims) := by
    intro u hu
    unfold readData
    simp only [hgd, if_neg hne, hprod, Outcome.ok_bind, if_neg (show ¬ dims.prod < 0 by omega)]
    unfold readRaw
    have : t.dataTypeId ≠ u.dataTypeId := fun e => hu (dataTypeId_inj e).symm
    simp [hod, tequal, this]
  refine ⟨hread, hother, ?_, ?_, hgd, ?_, ?_, ?_, ?_⟩
  · intro h1
    unfold readData1
    simp only [hread, Outcome.ok_bind]
    split <;> simp_all
  · intro h1
    unfold readData1
    simp only [hread, Outcome.ok_bind]
    split <;> simp_all
  · rw [dimensionCount, hgd, if_neg hne]
  · rw [dataType, hod]
    exact (C81_types H5ToDataType (List.Perm.refl _) t p).1
  · rw [isDataSet, hod]; rfl
  · rw [isGroup, ho]

/-- A data set made without data is there afterwards, with its dimensions and its type, and full of zeros. -/
theorem C81_created (p : Platform) (f f' : File) (path name : Str) (dims chunks : List Int) (t : Elem)
    (h : createDataSet f path name dims t.enum chunks = .ok (true, f'))
    (hd : ∀ d ∈ dims, d < 2 ^ 31) (hs : ∀ k, (dims.take k).prod < 2 ^ 31)
    (cs : List Call) (g : File) (hr : run p f' cs = .ok g) (k : File) (hk : Later g k) (q : Str) (hq : q ≠ [])
    (h0 : name.head? ≠ some '/') (hn : comps q = comps path ++ comps name) :
    isDataSet k q = true ∧ isGroup k q = false ∧ getDimensions k q = dims ∧ dataType k q = t.enum ∧
    readData p k q t = .ok (List.replicate dims.prod.toNat 0, dims) := by
  unfold createDataSet at h
  rw [(C81_types H5ToDataType (List.Perm.refl _) t p).2.1] at h
  simp only at h
  split at h
  · cases h
  split at h
  · cases h
  rename_i hne
  split at h
  · rename_i base sp hg hsp
    split at h
    · split at h
      · cases h
      rename_i f1 hcr
      cases h
      obtain ⟨rfl, _⟩ := openGroup_node hg
      unfold space at hsp
      split at hsp
      · rename_i hpos
        cases hsp
        replace hpos := hpos.2
        obtain ⟨as, ho⟩ := new_later hcr hr hk hq (by rw [hn, target, if_neg h0])
        have hod : k.openData q = some ⟨t.dataTypeId, dims.map Int.toNat, List.replicate (dims.map Int.toNat).prod 0⟩ := by
          rw [File.openData, ho]
        have hgd : getDimensions k q = dims := by rw [getDimensions, hod]; exact dims_back hpos hd
        have hprod := product_ok hpos 1 (by omega) (by simpa using hs)
        rw [one_mul] at hprod
        have hp := prod_toNat hpos
        have hnn : 0 ≤ dims.prod := by rw [← hp]; exact Int.natCast_nonneg _
        have hpn : dims.prod.toNat = (dims.map Int.toNat).prod := by omega
        have hzero : t.Holds p 0 := by cases t <;> cases hb : p.charSigned <;> simp [Elem.Holds, hb]
        refine ⟨by rw [isDataSet, hod]; rfl, by rw [isGroup, ho], hgd, ?_, ?_⟩
        · rw [dataType, hod]
          exact (C81_types H5ToDataType (List.Perm.refl _) t p).1
        · unfold readData
          simp only [hgd, if_neg hne, hprod, Outcome.ok_bind, if_neg (show ¬ dims.prod < 0 by omega)]
          unfold readRaw
          have hback : (List.replicate (dims.map Int.toNat).prod (0 : Int)).mapM (convert t.dataTypeId (t.memTypeId p)) =
              some (List.replicate (dims.map Int.toNat).prod 0) := by
            apply mapM_same
            intro v hv
            rw [List.eq_of_mem_replicate hv]
            exact (convert_back p t 0 hzero (by omega)).2
          rw [hpn]
          simp [hod, tequal, hback]
      · cases hsp
    · cases h
  · cases h

/-- The bytes of a number of each type. -/
def sizeOfType : DataType → Nat
  | .Int8 | .UInt8 => 1
  | .Int16 | .UInt16 => 2
  | .Int32 | .UInt32 | .Float => 4
  | .Int64 | .UInt64 | .Double => 8
  | .String | .None => 0

/-- **C81** With chunks a data set is made exactly if it is made without chunks, and the chunks are refused by `H5Pset_chunk` (then they are
ignored without notice) or as many as the dimensions, none larger than its dimension, and of less than 4 GiB. For all files, names, types and numbers. -/
theorem C81_chunks (f : File) (path name : Str) (dims chunks : List Int) (type : DataType) :
    (∃ f', createDataSet f path name dims type chunks = .ok (true, f')) ↔
      (∃ f', createDataSet f path name dims type [] = .ok (true, f')) ∧
      (chunks = [] ∨ 32 < chunks.length ∨ (∃ c ∈ chunks, c ≤ 0 ∨ 2 ^ 32 ≤ c) ∨ 2 ^ 32 ≤ chunks.prod ∨
        (chunks.length = dims.length ∧ (∀ (i : Nat) (c d : Int), chunks[i]? = some c → dims[i]? = some d → c ≤ d) ∧
          chunks.prod * sizeOfType type < 2 ^ 32)) := by
  unfold createDataSet
  have hty : DataTypeToH5DataType.lookup type = none ∨
      ∃ t, DataTypeToH5DataType.lookup type = some t ∧ t.bytes = sizeOfType type := by
    cases type <;> first | exact .inl rfl | exact .inr ⟨_, rfl, rfl⟩
  rcases hty with hty | ⟨t, hty, hsize⟩
  · simp [hty]
  rw [hty]
  simp only
  by_cases hv : f.valid = false
  · simp [hv]
  simp only [if_neg hv]
  by_cases hd : dims = []
  · simp [hd]
  simp only [if_neg hd]
  cases hg : f.openGroup path with
  | none => simp
  | some base =>
  cases hsp : space dims with
  | none => simp
  | some sp =>
  have hspace : sp = dims.map Int.toNat ∧ ∀ d ∈ dims, 0 ≤ d := by
    unfold space at hsp
    split at hsp
    · rename_i h
      cases hsp
      exact ⟨rfl, h.2⟩
    · cases hsp
  have hok : chunks = [] ∨ chunksOk sp chunks t.bytes = true ↔
      (chunks = [] ∨ 32 < chunks.length ∨ (∃ c ∈ chunks, c ≤ 0 ∨ 2 ^ 32 ≤ c) ∨ 2 ^ 32 ≤ chunks.prod ∨
        (chunks.length = dims.length ∧ (∀ (i : Nat) (c d : Int), chunks[i]? = some c → dims[i]? = some d → c ≤ d) ∧
          chunks.prod * sizeOfType type < 2 ^ 32)) := by
    obtain ⟨rfl, hpos⟩ := hspace
    by_cases h1 : ∃ c ∈ chunks, c ≤ 0 ∨ 2 ^ 32 ≤ c
    · have : chunksOk (dims.map Int.toNat) chunks t.bytes = true := by
        unfold chunksOk
        rw [if_pos]
        refine .inr (.inl ?_)
        obtain ⟨c, hc, h⟩ := h1
        exact List.any_eq_true.2 ⟨c, hc, by simpa using h⟩
      simp only [this, h1, true_or, or_true]
    have h2 : ∀ c ∈ chunks, 0 < c := by
      intro c hc
      by_contra h
      exact h1 ⟨c, hc, .inl (by omega)⟩
    have h3 : ((chunks.map Int.toNat).prod : Int) = chunks.prod := by
      clear h1 hd hsize
      induction chunks with
      | nil => rfl
      | cons c cs ih =>
        rw [List.map_cons, List.prod_cons, List.prod_cons, ← ih fun c hc => h2 c (List.mem_cons_of_mem _ hc)]
        have := h2 c List.mem_cons_self
        push_cast
        rw [Int.toNat_of_nonneg (by omega)]
    have h4 : chunks.any (fun c => c ≤ 0 || 2 ^ 32 ≤ c) = false := by
      rw [Bool.eq_false_iff]
      intro h
      obtain ⟨c, hc, h⟩ := List.any_eq_true.1 h
      exact h1 ⟨c, hc, by simpa using h⟩
    have h5 : (List.zip (dims.map Int.toNat) chunks).all (fun x => decide (x.2 ≤ (x.1 : Int))) = true ↔
        ∀ (i : Nat) (c d : Int), chunks[i]? = some c → dims[i]? = some d → c ≤ d := by
      rw [List.all_eq_true]
      constructor
      · intro h i c d hc hd
        have := h (d.toNat, c) (List.mem_of_getElem? (i := i) (by
          rw [List.getElem?_zip_eq_some]
          exact ⟨by rw [List.getElem?_map, hd]; rfl, hc⟩))
        have h0 := hpos d (List.mem_of_getElem? hd)
        simp only [decide_eq_true_eq] at this
        omega
      · intro h x hx
        obtain ⟨i, hi⟩ := List.getElem?_of_mem hx
        rw [List.getElem?_zip_eq_some, List.getElem?_map, Option.map_eq_some_iff] at hi
        obtain ⟨⟨d, hd, e⟩, hc⟩ := hi
        have h0 := h i x.2 d hc hd
        have h1 := hpos d (List.mem_of_getElem? hd)
        simp only [decide_eq_true_eq]
        omega
    have h6 : 2 ^ 32 ≤ (chunks.map Int.toNat).prod ↔ 2 ^ 32 ≤ chunks.prod := by rw [← h3]; norm_cast
    have h7 : (chunks.map Int.toNat).prod * t.bytes < 2 ^ 32 ↔ chunks.prod * sizeOfType type < 2 ^ 32 := by
      rw [← h3, hsize]; norm_cast
    simp only [chunksOk, h4, h6, h1, false_or, Bool.false_eq_true]
    by_cases h8 : 32 < chunks.length ∨ 2 ^ 32 ≤ chunks.prod
    · rw [if_pos h8]
      rcases h8 with h | h <;> simp only [h, true_or, or_true]
    · rw [if_neg h8, Bool.and_eq_true, Bool.and_eq_true, h5, decide_eq_true_eq, h7, List.length_map, beq_iff_eq, and_assoc]
      rw [not_or] at h8
      simp only [h8.1, h8.2, false_or]
  by_cases hc : chunks = [] ∨ chunksOk sp chunks t.bytes = true
  · have := hok.1 hc
    simp only [if_pos hc, this, and_true, true_or, if_true]
  · have h' : ¬ _ := fun h => hc (hok.2 h)
    simp only [if_neg hc, h', and_false]
    simp

/-- Data sets of 2^31 elements and more can be written, but the number of their elements overflows `int` when they are read. -/
theorem C81_size_false (p : Platform) (f f' : File) (path name : Str) (dims : List Int) (t u : Elem) (data : List Int)
    (h : writeData p f path name dims t data = .ok (true, f')) (hd : ∀ d ∈ dims, 0 < d ∧ d < 2 ^ 31) (hs : 2 ^ 31 ≤ dims.prod)
    (h0 : name.head? ≠ some '/') : readData p f' (path ++ '/' :: name) u = .ub := by
  obtain ⟨hne, hpos, hlen, hfv, vals, hm, hcr⟩ := writeData_spec h
  have hval : f'.valid = true := by
    obtain ⟨rfl, _⟩ := create_spec hcr
    exact hfv
  obtain ⟨as, ho⟩ := new_later (p := p) (cs := []) (q := path ++ '/' :: name) hcr rfl (.inl ⟨rfl, hval⟩) (by simp)
    (by rw [C81_paths, target, if_neg h0])
  have hgd : getDimensions f' (path ++ '/' :: name) = dims := by
    rw [getDimensions, File.openData, ho]
    exact dims_back hpos fun d hx => (hd d hx).2
  unfold readData
  simp only [hgd, if_neg hne]
  rw [product_ub (fun d hx => (hd d hx).1) 1 (by omega) (by omega) (by simpa using hs)]
  rfl

/-- Where `char` is unsigned, the numbers from 128 to 255 are changed to 127. -/
theorem C81_char_false (p : Platform) (hp : p.charSigned = false) (f f' : File) (path name : Str) (v : Int) (hv : 128 ≤ v ∧ v ≤ 255)
    (h : writeData p f path name [1] .char [v] = .ok (true, f')) (h0 : name.head? ≠ some '/') :
    Elem.char.Holds p v ∧ readData p f' (path ++ '/' :: name) .char = .ok ([127], [1]) ∧ v ≠ 127 := by
  refine ⟨.inr ⟨hp, by omega, by omega⟩, ?_, by omega⟩
  obtain ⟨hne, hpos, hlen, hfv, vals, hm, hcr⟩ := writeData_spec h
  have hval : f'.valid = true := by
    obtain ⟨rfl, _⟩ := create_spec hcr
    exact hfv
  obtain ⟨as, ho⟩ := new_later (p := p) (cs := []) (q := path ++ '/' :: name) hcr rfl (.inl ⟨rfl, hval⟩) (by simp)
    (by rw [C81_paths, target, if_neg h0])
  have hvals : vals = [127] := by
    have e : convert (Elem.memTypeId p .char) Elem.char.dataTypeId v = some 127 := by
      simp [Elem.memTypeId, Elem.dataTypeId, convert, lo, hi]
      omega
    have : (List.take (List.map Int.toNat [1]).prod [v]) = [v] := by simp
    rw [this, List.mapM_cons, e] at hm
    exact (Option.some.inj hm).symm
  subst hvals
  unfold readData getDimensions readRaw
  simp [File.openData, ho, toInt, product, tequal, Elem.dataTypeId, Elem.memTypeId, hp, convert, lo, hi]

/-! ## Attributes -/

theorem attr_later {f f' g k : File} {path name : Str} {a : Attr} {p : Platform} {cs : List Call} {q : Str}
    (ha : f.addAttr path name a = some f') (hr : run p f' cs = .ok g) (hk : Later g k) (hq : q ≠ [])
    (hn : comps q = comps path) : k.attr q name = some a := by
  obtain ⟨n, h1, h2, h3, _, _, _, h5⟩ := addAttr_spec ha
  have hnode := h5 (comps path)
  rw [if_pos rfl] at hnode
  obtain ⟨n', a1, a2, a3⟩ := (run_keeps hr).2 _ _ hnode
  unfold File.attr
  rw [hk.object hq, hn, a1]
  apply a3
  rw [List.lookup_append, h2]
  simp

theorem setAttribute_spec {p : Platform} {f f' : File} {path name : Str} {t : Elem} {values : List Int} {b : Bool}
    (h : setAttribute p f path name t values = (b, f')) (hb : b = true ∨ f' ≠ f) :
    f.valid = true ∧ b = decide (values ≠ []) ∧ ∃ vals, values.mapM (convert (t.memTypeId p) t.dataTypeId) = some vals ∧
      f.addAttr path name ⟨t.dataTypeId, .nums vals⟩ = some f' := by
  unfold setAttribute at h
  split at h
  · cases h
    rcases hb with hb | hb
    · cases hb
    · exact absurd rfl hb
  · rename_i hv
    split at h
    · cases h
      rcases hb with hb | hb
      · cases hb
      · exact absurd rfl hb
    · rename_i vals hm
      split at h
      · cases h
        rcases hb with hb | hb
        · cases hb
        · exact absurd rfl hb
      · rename_i f1 ha
        cases h
        exact ⟨by simpa using hv, rfl, vals, hm, ha⟩

/-- A number set as an attribute is read back as it was, after any further calls and also after opening the file again; reading it as
another type is refused, and no value is made up. -/
theorem C81_attribute_partial (p : Platform) (f f' : File) (path name : Str) (t : Elem) (v : Int)
    (h : setAttribute p f path name t [v] = (true, f')) (hv : t.Holds p v) (hc : t = .char → v ≤ 127)
    (cs : List Call) (g : File) (hr : run p f' cs = .ok g) (k : File) (hk : Later g k) (q : Str) (hq : q ≠ [])
    (hn : comps q = comps path) :
    attributeValue p k q name t = .ok (true, some v) ∧ (∀ u, u ≠ t → attributeValue p k q name u = .ok (false, none)) ∧
    attributeString k q name = .ok (false, []) ∧ attributeType k q name = t.enum ∧ hasAttribute k q name = true ∧
    hasAttributes k q = true := by
  obtain ⟨_, _, vals, hm, ha⟩ := setAttribute_spec h (.inl rfl)
  have hb := convert_back p t v hv hc
  have hvals : vals = [v] := by
    rw [mapM_same (by simpa using hb.1)] at hm
    exact (Option.some.inj hm).symm
  subst hvals
  have hl := attr_later ha hr hk hq hn
  refine ⟨?_, ?_, ?_, ?_, ?_, ?_⟩
  · unfold attributeValue
    simp [hl, tequal, hb.2]
  · intro u hu
    unfold attributeValue
    have : t.dataTypeId ≠ u.dataTypeId := fun e => hu (dataTypeId_inj e).symm
    simp [hl, tequal, this]
  · unfold attributeString
    rw [hl]
    cases t <;> rfl
  · unfold attributeType
    rw [hl]
    cases t <;> rfl
  · rw [hasAttribute, hl]; rfl
  · unfold hasAttributes
    unfold File.attr at hl
    split at hl
    · rename_i n hn
      have : n.attrs ≠ [] := by
        rintro e
        rw [e] at hl
        cases hl
      simpa using List.length_pos_iff.2 this
    · cases hl

/-- An attribute which does not exist is not found, and no value is made up. -/
theorem C81_no_attribute (p : Platform) (f : File) (path name : Str) (t : Elem) (h : hasAttribute f path name = false) :
    attributeValue p f path name t = .ok (false, none) ∧ attributeString f path name = .ok (false, []) ∧
    attributeType f path name = .None := by
  have hn : f.attr path name = none := by simpa [hasAttribute] using h
  exact ⟨by rw [attributeValue, hn], by rw [attributeString, hn], by rw [attributeType, hn]⟩

/-- An attribute with more than one number cannot be read: the numbers after the first are written behind the variable. -/
theorem C81_vector_false (p : Platform) (f f' : File) (path name : Str) (t : Elem) (values : List Int) (hl : 2 ≤ values.length)
    (h : setAttribute p f path name t values = (true, f')) (hp : path ≠ []) : attributeValue p f' path name t = .ub := by
  obtain ⟨hfv, _, vals, hm, ha⟩ := setAttribute_spec h (.inl rfl)
  have hval : f'.valid = true := by
    obtain ⟨n, _, _, h3, _⟩ := addAttr_spec ha
    rw [h3, hfv]
  have hl' := attr_later (p := p) (cs := []) (q := path) ha rfl (.inl ⟨rfl, hval⟩) hp rfl
  have hlen := mapM_length hm
  match vals, hlen with
  | [], e => simp at e; omega
  | [_], e => simp at e; omega
  | a :: b :: l, _ =>
    unfold attributeValue
    simp [hl', tequal]

/-- Setting an attribute to no numbers: the function says that it failed, but the attribute exists, and reading it gives a value which has
not been written, as if it had been read. -/
theorem C81_empty_false (p : Platform) (f f' : File) (path name : Str) (t : Elem) (b : Bool)
    (h : setAttribute p f path name t [] = (b, f')) (hf : f' ≠ f) (hp : path ≠ []) :
    b = false ∧ hasAttribute f' path name = true ∧ attributeValue p f' path name t = .ok (true, none) := by
  obtain ⟨hfv, hb, vals, hm, ha⟩ := setAttribute_spec h (.inr hf)
  have hval : f'.valid = true := by
    obtain ⟨n, _, _, h3, _⟩ := addAttr_spec ha
    rw [h3, hfv]
  have hl' := attr_later (p := p) (cs := []) (q := path) ha rfl (.inl ⟨rfl, hval⟩) hp rfl
  cases hm
  refine ⟨by simpa using hb, by rw [hasAttribute, hl']; rfl, ?_⟩
  unfold attributeValue
  simp [hl', tequal]

theorem cstr_same {s : Str} (h : '\x00' ∉ s) : cstr s = s := by
  unfold cstr
  induction s with
  | nil => rfl
  | cons c s ih =>
    rw [List.mem_cons, not_or] at h
    have : c ≠ '\x00' := fun e => h.1 e.symm
    rw [List.takeWhile_cons, if_pos (by simpa using this), ih h.2]

/-- A string without null characters set as an attribute is read back as it was. -/
theorem C81_string (p : Platform) (f f' : File) (path name value : Str) (h : setAttributeString f path name value = (true, f'))
    (hz : '\x00' ∉ value) (cs : List Call) (g : File) (hr : run p f' cs = .ok g) (k : File) (hk : Later g k) (q : Str)
    (hq : q ≠ []) (hn : comps q = comps path) :
    attributeString k q name = .ok (true, value) ∧ (∀ u, attributeValue p k q name u = .ok (false, none)) ∧
    attributeType k q name = .String ∧ hasAttribute k q name = true := by
  unfold setAttributeString at h
  split at h
  · cases h
  · split at h
    · cases h
    · rename_i f1 ha
      cases h
      rw [cstr_same hz] at ha
      have hl := attr_later ha hr hk hq hn
      refine ⟨?_, ?_, ?_, ?_⟩
      · unfold attributeString
        rw [hl]
      · intro u
        unfold attributeValue
        rw [hl]
        cases u <;> rfl
      · unfold attributeType
        rw [hl]
      · rw [hasAttribute, hl]; rfl

/-! ## Lists of names -/

theorem filterMap_nodup {β : Type} {l : List (Path × Node)} (ho : (l.map (·.1)).Nodup) (F : Path × Node → Option β)
    (hF : ∀ e e' b, F e = some b → F e' = some b → e.1 = e'.1) : (l.filterMap F).Nodup := by
  unfold List.Nodup at *
  rw [List.pairwise_filterMap]
  rw [List.pairwise_map] at ho
  refine ho.imp ?_
  rintro e e' hne b hb b' hb' rfl
  exact hne (hF e e' b hb hb')

/-- The names in a group are given once each, in order, if they are not longer than the buffer. -/
theorem C81_children (f : File) (ht : f.Tree) (path : Str) (hp : isGroup f path = true)
    (hl : ∀ w, (f.node (comps path ++ [w])).isSome = true → w.length ≤ 2047) :
    (children f path).1 = true ∧ (children f path).2.Nodup ∧ (children f path).2.Pairwise (· ≤ ·) ∧
    ∀ w, w ∈ (children f path).2 ↔ (f.node (comps path ++ [w])).isSome = true := by
  have hg : f.openGroup path = some (comps path) := by
    unfold isGroup at hp
    unfold File.openGroup
    split at hp
    · rfl
    · cases hp
  generalize hL : (f.nodes.filterMap fun e => if e.1 ≠ [] ∧ e.1.dropLast = comps path then e.1.getLast? else none) = L
  have hkey : ∀ (e : Path × Node) w,
      (if e.1 ≠ [] ∧ e.1.dropLast = comps path then e.1.getLast? else none) = some w ↔ e.1 = comps path ++ [w] := by
    intro e w
    constructor
    · intro h
      split at h
      · rename_i hc
        rw [← hc.2]
        exact (List.dropLast_append_getLast? w h).symm
      · cases h
    · intro h
      rw [h]
      simp
  have hmem : ∀ w, w ∈ L ↔ (f.node (comps path ++ [w])).isSome = true := by
    intro w
    rw [← hL, List.mem_filterMap]
    constructor
    · rintro ⟨⟨q, n⟩, he, h⟩
      rw [hkey] at h
      simp only at h
      subst h
      rw [(Tree.node_iff ht).2 he]
      rfl
    · intro h
      obtain ⟨n, hn⟩ := Option.isSome_iff_exists.1 h
      exact ⟨_, mem_of_lookup hn, (hkey _ _).2 rfl⟩
  have hnd : L.Nodup := by
    rw [← hL]
    apply filterMap_nodup ht.once
    intro e e' b h h'
    rw [(hkey _ _).1 h, (hkey _ _).1 h']
  have hch : children f path = (true, sorted L) := by
    unfold children
    rw [hg]
    simp only [hL]
    congr 1
    conv_rhs => rw [← List.map_id (sorted L)]
    apply List.map_congr_left
    intro w hw
    exact List.take_of_length_le (hl w ((hmem w).1 (List.mem_mergeSort.1 hw)))
  rw [hch]
  refine ⟨rfl, (List.mergeSort_perm L _).nodup_iff.2 hnd, ?_, fun w => ?_⟩
  · have := List.pairwise_mergeSort (le := fun a b : Str => decide (a ≤ b)) (fun a b c h1 h2 => by
      simp only [decide_eq_true_eq] at *
      exact List.le_trans h1 h2) (fun a b => by
      simp only [Bool.or_eq_true, decide_eq_true_eq]
      exact List.le_total a b) L
    exact this.imp fun h => by simpa using h
  · rw [← hmem]
    exact List.mem_mergeSort

theorem below_iff {base q r : Path} : below base q = some r ↔ q = base ++ r := by
  induction base generalizing q with
  | nil => simp [below, eq_comm]
  | cons b bs ih =>
    cases q with
    | nil => simp [below]
    | cons w ws =>
      rw [below]
      split
      · rename_i h
        rw [ih, h]
        simp
      · rename_i h
        simp only [List.cons_append, List.cons.injEq, reduceCtorEq, false_iff, not_and]
        intro e
        exact absurd e.symm h

/-- The data sets of the file, or of a group, are given once each, in the order of the groups; the names begin at the group. -/
theorem C81_list (f : File) (ht : f.Tree) (hv : f.valid = true) (path : Str) (hp : path = [] ∨ isGroup f path = true) :
    (allDataSets f path).Nodup ∧ (∃ ps : List Path, allDataSets f path = ps.map join ∧ ps.Pairwise (· ≤ ·)) ∧
    (∀ s ∈ allDataSets f path, isDataSet f (path ++ '/' :: s) = true) ∧
    (∀ q, isDataSet f q = true → comps path <+: comps q → ∃ s ∈ allDataSets f path, comps (path ++ '/' :: s) = comps q) ∧
    (comps path = [] → ∀ s ∈ allDataSets f path, isDataSet f s = true) := by
  generalize hL : f.nodes.filterMap (listed (comps path)) = L
  have hkey : ∀ (e : Path × Node) r, listed (comps path) e = some r ↔ e.1 = comps path ++ r ∧ ∃ d, e.2.kind = .data d := by
    rintro ⟨q, ⟨k, as⟩⟩ r
    cases k with
    | group => simp [listed]
    | data d => simp [listed, below_iff]
  have hmem : ∀ r, r ∈ L ↔ ∃ d as, f.node (comps path ++ r) = some ⟨.data d, as⟩ := by
    intro r
    rw [← hL, List.mem_filterMap]
    constructor
    · rintro ⟨⟨q, ⟨k, as⟩⟩, he, h⟩
      rw [hkey] at h
      obtain ⟨h1, d, h2⟩ := h
      simp only at h1 h2
      subst h1 h2
      exact ⟨d, as, (Tree.node_iff ht).2 he⟩
    · rintro ⟨d, as, h⟩
      exact ⟨_, mem_of_lookup h, (hkey _ _).2 ⟨rfl, d, rfl⟩⟩
  have hnd : L.Nodup := by
    rw [← hL]
    apply filterMap_nodup ht.once
    intro e e' b h h'
    rw [((hkey _ _).1 h).1, ((hkey _ _).1 h').1]
  have hproper : ∀ r ∈ L, ∀ w ∈ r, Proper w := by
    intro r hr w hw
    obtain ⟨d, as, h⟩ := (hmem r).1 hr
    exact ht.proper _ (mem_of_lookup h) w (List.mem_append_right _ hw)
  have hall : allDataSets f path = (L.mergeSort fun a b => decide (a ≤ b)).map join := by
    have hopen : (if path = [] ∨ path = ['/'] then some [] else f.openGroup path) = some (comps path) := by
      by_cases h : path = [] ∨ path = ['/']
      · rw [if_pos h]
        rcases h with rfl | rfl <;> rfl
      · rw [if_neg h]
        rw [not_or] at h
        have hg := hp.resolve_left h.1
        unfold isGroup at hg
        unfold File.openGroup
        split at hg
        · rfl
        · cases hg
    unfold allDataSets
    simp only [hv, Bool.true_eq_false, if_false, hopen, hL]
  have hroot : ∀ r ∈ L, comps path = [] → r ≠ [] := by
    rintro r hr hc rfl
    obtain ⟨d, as, h⟩ := (hmem _).1 hr
    obtain ⟨as', h'⟩ := ht.root
    rw [hc] at h
    rw [List.nil_append, h'] at h
    cases h
  have hs : ∀ s ∈ allDataSets f path, ∃ r ∈ L, s = join r ∧ comps s = r := by
    intro s hs
    rw [hall] at hs
    obtain ⟨r, hr, rfl⟩ := List.mem_map.1 hs
    rw [List.mem_mergeSort] at hr
    exact ⟨r, hr, rfl, comps_join (hproper r hr)⟩
  refine ⟨?_, ⟨_, hall, ?_⟩, ?_, ?_, ?_⟩
  · rw [hall]
    refine List.Nodup.map_on ?_ ((List.mergeSort_perm L _).nodup_iff.2 hnd)
    intro a ha b hb hab
    rw [List.mem_mergeSort] at ha hb
    rw [← comps_join (hproper a ha), ← comps_join (hproper b hb), hab]
  · have := List.pairwise_mergeSort (le := fun a b : Path => decide (a ≤ b)) (fun a b c h1 h2 => by
      simp only [decide_eq_true_eq] at *
      exact List.le_trans h1 h2) (fun a b => by
      simp only [Bool.or_eq_true, decide_eq_true_eq]
      exact List.le_total a b) L
    exact this.imp fun h => by simpa using h
  · intro s h
    obtain ⟨r, hr, rfl, hc⟩ := hs s h
    obtain ⟨d, as, hn⟩ := (hmem r).1 hr
    have : f.object (path ++ '/' :: join r) = some ⟨.data d, as⟩ := by
      simp [File.object, hv, C81_paths, hc, hn]
    rw [isDataSet, File.openData, this]
    rfl
  · intro q hq hpre
    obtain ⟨r, hr⟩ := hpre
    unfold isDataSet File.openData at hq
    split at hq
    · rename_i d as heq
      have hn := object_node heq
      rw [← hr] at hn
      have hrL := (hmem r).2 ⟨d, as, hn⟩
      refine ⟨join r, ?_, ?_⟩
      · rw [hall]
        exact List.mem_map.2 ⟨r, List.mem_mergeSort.2 hrL, rfl⟩
      · rw [C81_paths, comps_join (hproper r hrL), hr]
    · cases hq
  · intro hc s h
    obtain ⟨r, hr, rfl, hcs⟩ := hs s h
    obtain ⟨d, as, hn⟩ := (hmem r).1 hr
    rw [hc, List.nil_append] at hn
    have : f.object (join r) = some ⟨.data d, as⟩ := by
      simp [File.object, hv, join_ne (hproper r hr) (hroot r hr hc), hcs, hn]
    rw [isDataSet, File.openData, this]
    rfl

/-- A path for the witnesses. -/
abbrev str (s : String) : Str := s.toList

/-- The calls of `toHdf5FrameFormat` (reader.cpp:648-668) for a scan of 3 × 2 positions, with frames of 2 × 2 pixels, and a string. -/
def exampleCalls : List Call :=
  [.dataSet (str "/") (str "frames") [6, 2, 2] .UInt16 [1, 2, 2], .attr (str "/frames") (str "scan_dimensions") .int [3, 2],
    .group (str "/stem"), .dataSet (str "/stem") (str "images") [0, 2, 3] .UInt64 [], .string (str "/stem") (str "name") (str "bright"),
    .write (str "/stem/") (str "sum") [2, 3] .ushort [1, 2, 3, 4, 5, 65535, 7]]

def exampleFile : File :=
  match run ⟨true⟩ createFile exampleCalls with
  | .ok f => f
  | _ => createFile

theorem exampleFile_run : run ⟨true⟩ createFile exampleCalls = .ok exampleFile := by decide +kernel

/-- The names for a group which is not the root are not paths of the file. -/
theorem C81_relative_false : ∃ f path s, f.Tree ∧ f.valid = true ∧ isGroup f path = true ∧ s ∈ allDataSets f path ∧
    isDataSet f s = false := by
  have ht := C81_tree _ _ _ exampleFile_run
  have hv : exampleFile.valid = true := by decide +kernel
  have hg : isGroup exampleFile (str "/stem") = true := by decide +kernel
  obtain ⟨s, hs, hc⟩ := (C81_list exampleFile ht hv (str "/stem") (.inr hg)).2.2.2.1 (str "/stem/images") (by decide +kernel)
    (by decide +kernel)
  refine ⟨exampleFile, str "/stem", s, ht, hv, hg, hs, ?_⟩
  have e : comps (str "/stem/images") = comps (str "/stem") ++ [str "images"] := by decide +kernel
  rw [C81_paths, e, List.append_cancel_left_eq] at hc
  have hn : exampleFile.node [str "images"] = none := by decide +kernel
  simp [isDataSet, File.openData, File.object, hc, hn]

/-- Two names which are the same in their first 2047 characters are given as the same name. -/
theorem C81_long_names_false (p : Platform) (w : Str) (hw : '/' ∉ w) (hl : w.length = 2047) :
    ∃ f, run p createFile [.group (w ++ ['a']), .group (w ++ ['b'])] = .ok f ∧ children f ['/'] = (true, [w, w]) := by
  have hne : w ≠ [] := by
    rintro rfl
    simp at hl
  have hp : ∀ c, c ≠ '/' → comps (w ++ [c]) = [w ++ [c]] := by
    intro c hc
    apply comps_pure
    refine ⟨by simp, ?_, by simp [hw, Ne.symm hc]⟩
    intro e
    have := congrArg List.length e
    simp at this
    simp [this] at hl
  let f : File := ⟨true, true, [([], ⟨.group, []⟩), ([w ++ ['a']], ⟨.group, []⟩), ([w ++ ['b']], ⟨.group, []⟩)]⟩
  refine ⟨f, ?_, ?_⟩
  · have ha := hp 'a' (by decide)
    have hb := hp 'b' (by decide)
    simp [run, step, createGroup, createFile, File.create, ha, hb, File.node, Outcome.bind, f, List.lookup]
  · unfold children
    have : f.openGroup ['/'] = some [] := by
      simp [File.openGroup, File.object, f, comps, split, File.node]
    rw [this]
    simp only [Prod.mk.injEq, true_and]
    have h1 : (f.nodes.filterMap fun e => if e.1 ≠ [] ∧ e.1.dropLast = [] then e.1.getLast? else none) = [w ++ ['a'], w ++ ['b']] := by
      simp [f]
    rw [h1]
    have h2 : (sorted [w ++ ['a'], w ++ ['b']]).map (·.take 2047) = List.replicate 2 w := by
      rw [List.eq_replicate_iff]
      constructor
      · simp [sorted]
      · intro x hx
        obtain ⟨y, hy, rfl⟩ := List.mem_map.1 hx
        unfold sorted at hy
        rw [List.mem_mergeSort] at hy
        simp only [List.mem_cons, List.not_mem_nil, or_false] at hy
        rcases hy with rfl | rfl <;> simp [← hl]
    rw [h2]
    rfl

/-! ## Examples -/

/-- `C81_dims`: of 2^32 + 5 columns 5 are reported. -/
example : ∃ f d, f.openData (str "/a") = some d ∧ d.dims = [0, 2 ^ 32 + 5] ∧ getDimensions f (str "/a") = [0, 5] :=
  ⟨⟨true, false, [([str "a"], ⟨.data ⟨.int false 16 true, [0, 2 ^ 32 + 5], []⟩, []⟩)]⟩, ⟨.int false 16 true, [0, 2 ^ 32 + 5], []⟩,
    by decide +kernel, rfl, by decide +kernel⟩

example : readData ⟨true⟩ exampleFile (str "/stem/sum") .ushort = .ok ([1, 2, 3, 4, 5, 65535], [2, 3]) ∧
    readData ⟨true⟩ exampleFile (str "/stem/sum") .short = .ok ([], [2, 3]) ∧
    attributeValue ⟨true⟩ exampleFile (str "frames") (str "scan_dimensions") .int = .ub ∧
    attributeString exampleFile (str "stem/") (str "name") = .ok (true, str "bright") ∧
    dataType exampleFile (str "/stem/images") = .UInt64 := by decide +kernel

/-- The hypotheses of `C81_data_partial`. -/
example : ∃ f f', run ⟨true⟩ createFile (exampleCalls.take 5) = .ok f ∧
    writeData ⟨true⟩ f (str "/stem/") (str "sum") [2, 3] .ushort [1, 2, 3, 4, 5, 65535, 7] = .ok (true, f') ∧
    comps (str "stem//./sum") = comps (str "/stem/") ++ comps (str "sum") := by
  refine ⟨match run ⟨true⟩ createFile (exampleCalls.take 5) with | .ok f => f | _ => createFile, exampleFile, ?_, ?_, ?_⟩ <;>
    decide +kernel

/-- The hypotheses of `C81_attribute_partial`, `C81_vector_false`, `C81_empty_false` and `C81_string`. -/
example : (setAttribute ⟨true⟩ exampleFile (str "/stem/sum") (str "a") .char [-128]).1 = true ∧
    (setAttribute ⟨true⟩ exampleFile (str "/") (str "b") .double [4607182418800017408, 0]).1 = true ∧
    (setAttribute ⟨true⟩ exampleFile (str "/") (str "c") .int []).2 ≠ exampleFile ∧
    (setAttributeString exampleFile (str "/stem/sum") (str "d") (str "dark")).1 = true := by decide +kernel

/-- A chunked data set of 2 × 3 numbers in the group `stem`. -/
example : ∃ f', createDataSet exampleFile (str "/stem") (str "new") [2, 3] Elem.float.enum [1, 3] = .ok (true, f') :=
  ⟨match createDataSet exampleFile (str "/stem") (str "new") [2, 3] Elem.float.enum [1, 3] with | .ok r => r.2 | _ => exampleFile,
    by decide +kernel⟩

/-- Instances of `C81_chunks`: chunks of 2 GiB are taken, of 4 GiB not, negative ones are ignored. -/
example (f : File) : 2 ^ 29 * sizeOfType .Float < 2 ^ 32 ∧ ¬ 2 ^ 30 * sizeOfType .Float < 2 ^ 32 ∧
    ((∃ f', createDataSet f (str "/") (str "new") [2, 3] .Float [-1] = .ok (true, f')) ↔
      ∃ f', createDataSet f (str "/") (str "new") [2, 3] .Float [] = .ok (true, f')) := by
  refine ⟨by decide, by decide, ?_⟩
  rw [C81_chunks]
  exact and_iff_left (.inr (.inr (.inl ⟨-1, List.mem_singleton_self _, .inl (by decide)⟩)))

/-- The hypotheses of `C81_char_false`. -/
example : ∃ f', writeData ⟨false⟩ exampleFile (str "/") (str "c") [1] .char [200] = .ok (true, f') :=
  ⟨match writeData ⟨false⟩ exampleFile (str "/") (str "c") [1] .char [200] with | .ok r => r.2 | _ => exampleFile, by decide +kernel⟩

/-- The hypotheses of `C81_size_false`. -/
example (data : List Int) (hl : data.length = 2 ^ 31) (hz : ∀ v ∈ data, v = 0) :
    ∃ f', writeData ⟨true⟩ createFile (str "/") (str "x") [65536, 32768] .ushort data = .ok (true, f') := by
  have h1 : createFile.openGroup (str "/") = some [] := by decide +kernel
  have h2 : space [65536, 32768] = some [65536, 32768] := by decide +kernel
  have h3 : (data.take ([65536, 32768] : List Nat).prod).mapM
      (convert (Elem.ushort.memTypeId ⟨true⟩) Elem.ushort.dataTypeId) =
      some (data.take ([65536, 32768] : List Nat).prod) := by
    apply mapM_same
    intro v hv
    rw [hz v (List.mem_of_mem_take hv)]
    decide
  have h4 : comps (str "x") = [str "x"] := by decide +kernel
  have h5 : ∀ k, ∃ f', createFile.create [] (str "x") k = some f' := by
    intro k
    rw [File.create]
    simp only [h4]
    exact ⟨_, rfl⟩
  obtain ⟨f', h6⟩ := h5 (.data ⟨Elem.ushort.dataTypeId, [65536, 32768], data.take ([65536, 32768] : List Nat).prod⟩)
  refine ⟨f', ?_⟩
  unfold writeData
  rw [if_neg (by decide), if_neg (by decide)]
  simp only [h1, h2, h3, h6]
  rw [if_neg (by rw [hl]; decide)]

end Stempy.TypedFile
