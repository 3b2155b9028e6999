import Verif.Model.Pipeline
import Mathlib.Data.List.Induction

/-!
C68: the decorators of pipelines.
-/

namespace Stempy.Pipeline

variable {V : Type}

/-- The parameters that are declared, in the order the decorators are applied (from bottom to top). -/
def declared : List (Decorator V) → List (String × Param V)
  | [] => []
  | .pipeline _ :: l => declared l
  | .parameter n p :: l => (n, p) :: declared l

/-- The declaration of a name which is on top of the others of the same name. -/
def topmost : List (String × Param V) → String → Option (Param V)
  | [], _ => none
  | (m, p) :: l, n => match topmost l n with
    | some q => some q
    | none => if m = n then some p else none

/-- Names in the order of their first occurrence. -/
def firsts : List String → List String
  | [] => []
  | n :: l => n :: (firsts l).filter (· ≠ n)

/-- The pipeline decorator on top. -/
def topInfo : List (Decorator V) → Option Info
  | [] => none
  | .pipeline i :: l => match topInfo l with
    | some j => some j
    | none => some i
  | .parameter _ _ :: l => topInfo l

private def codeOf (sig : List String) (ds : List (Decorator V)) : Code V :=
  (declared ds).foldl (fun c d => .wrap d.1 d.2.default c) (.base sig)

private def dictOf (l : List (String × Param V)) : Dict V := l.foldl (fun d x => Dict.set d x.1 x.2) []

private theorem declared_append (l m : List (Decorator V)) : declared (l ++ m) = declared l ++ declared m := by
  induction l with
  | nil => rfl
  | cons d l ih => cases d <;> simp [declared, ih]

private theorem topInfo_append (l : List (Decorator V)) (d : Decorator V) :
    topInfo (l ++ [d]) = match d with | .pipeline i => some i | .parameter _ _ => topInfo l := by
  induction l with
  | nil => cases d <;> rfl
  | cons e l ih =>
    cases e <;> cases d <;> simp [topInfo, ih]

private theorem topmost_append (l : List (String × Param V)) (m : String) (p : Param V) (n : String) :
    topmost (l ++ [(m, p)]) n = if m = n then some p else topmost l n := by
  induction l with
  | nil => simp [topmost]
  | cons x l ih =>
    obtain ⟨k, q⟩ := x
    simp only [List.cons_append, topmost, ih]
    by_cases h : m = n
    · simp [h]
    · simp [h]

private theorem mem_firsts (l : List String) (n : String) : n ∈ firsts l ↔ n ∈ l := by
  induction l with
  | nil => simp [firsts]
  | cons m l ih =>
    simp only [firsts, List.mem_cons, List.mem_filter, ih, ne_eq, decide_not, Bool.not_eq_true', decide_eq_false_iff_not]
    constructor
    · rintro (h | ⟨h, _⟩)
      · exact Or.inl h
      · exact Or.inr h
    · rintro (h | h)
      · exact Or.inl h
      · by_cases e : n = m
        · exact Or.inl e
        · exact Or.inr ⟨h, e⟩

private theorem firsts_append (l : List String) (n : String) :
    firsts (l ++ [n]) = if n ∈ l then firsts l else firsts l ++ [n] := by
  induction l with
  | nil => rfl
  | cons m l ih =>
    simp only [List.cons_append, firsts, ih, List.mem_cons]
    by_cases h1 : n ∈ l
    · simp [h1]
    · by_cases h2 : n = m
      · simp [h2]
        rw [if_neg (by rw [← h2]; exact h1)]
        simp
      · simp [h1, h2, List.filter_append]

/-- The dictionary for declarations: names in the order of first declaration, entries of the topmost ones. -/
private theorem dictOf_spec (l : List (String × Param V)) :
    (dictOf l).map (·.1) = firsts (l.map (·.1)) ∧ ∀ n p, (n, p) ∈ dictOf l ↔ topmost l n = some p := by
  induction l using List.reverseRecOn with
  | nil => simp [dictOf, firsts, topmost]
  | append_singleton l x ih =>
    obtain ⟨m, q⟩ := x
    obtain ⟨ih1, ih2⟩ := ih
    have e : dictOf (l ++ [(m, q)]) = Dict.set (dictOf l) m q := by simp [dictOf, List.foldl_append]
    have hany : ((dictOf l).any (·.1 = m)) = true ↔ m ∈ l.map (·.1) := by
      rw [← mem_firsts, ← ih1, List.any_eq_true]
      simp
    rw [e]
    unfold Dict.set
    by_cases h : m ∈ l.map (·.1)
    · rw [if_pos (hany.2 h)]
      constructor
      · rw [List.map_append, List.map_cons, List.map_nil, firsts_append, if_pos h, ← ih1, List.map_map]
        apply List.map_congr_left
        intro e _
        simp only [Function.comp]
        by_cases he : e.1 = m
        · rw [if_pos he]; exact he.symm
        · rw [if_neg he]
      · intro n p
        rw [topmost_append, List.mem_map]
        by_cases hmn : m = n
        · subst hmn
          rw [if_pos rfl]
          constructor
          · rintro ⟨e, he, h2⟩
            by_cases hc : e.1 = m
            · rw [if_pos hc] at h2
              cases h2; rfl
            · rw [if_neg hc] at h2
              rw [h2] at hc
              exact absurd rfl hc
          · intro hq
            cases hq
            obtain ⟨e, he, h2⟩ := List.any_eq_true.1 (hany.2 h)
            exact ⟨e, he, by rw [if_pos (by simpa using h2)]⟩
        · rw [if_neg hmn, ← ih2]
          constructor
          · rintro ⟨e, he, h2⟩
            by_cases hc : e.1 = m
            · rw [if_pos hc] at h2
              cases h2
              exact absurd rfl hmn
            · rw [if_neg hc] at h2
              rw [← h2]; exact he
          · intro he
            exact ⟨(n, p), he, by rw [if_neg (fun h => hmn h.symm)]⟩
    · rw [if_neg (fun hc => h (hany.1 hc))]
      constructor
      · rw [List.map_append, List.map_append, List.map_cons, List.map_nil, firsts_append, if_neg h, ← ih1]
      · intro n p
        rw [topmost_append, List.mem_append, ih2]
        by_cases hmn : m = n
        · subst hmn
          rw [if_pos rfl]
          constructor
          · rintro (h2 | h2)
            · exfalso
              apply h
              rw [← mem_firsts, ← ih1]
              exact List.mem_map.2 ⟨(m, p), (ih2 m p).2 h2, rfl⟩
            · simp only [List.mem_singleton, Prod.mk.injEq] at h2
              rw [h2.2]
          · intro hq
            cases hq
            exact Or.inr (by simp)
        · rw [if_neg hmn]
          constructor
          · rintro (h2 | h2)
            · exact h2
            · simp only [List.mem_singleton, Prod.mk.injEq] at h2
              exact absurd h2.1.symm hmn
          · exact Or.inl

private theorem codeOf_append (sig : List String) (ds : List (Decorator V)) (d : Decorator V) :
    codeOf sig (ds ++ [d]) =
      match d with | .pipeline _ => codeOf sig ds | .parameter n p => .wrap n p.default (codeOf sig ds) := by
  unfold codeOf
  rw [declared_append, List.foldl_append]
  cases d <;> rfl

/-- The function and the dictionary after a definition. -/
private def lastFunc (sig : List String) (ds : List (Decorator V)) (k : Nat) : Func V :=
  ⟨codeOf sig ds, if ds = [] then none else some k, topInfo ds⟩

private def newDicts (ds : List (Decorator V)) : List (Dict V) :=
  match ds with
  | [] => []
  | _ :: _ => [dictOf (declared ds)]

private theorem newDicts_ne {ds : List (Decorator V)} (h : ds ≠ []) : newDicts ds = [dictOf (declared ds)] := by
  cases ds with
  | nil => exact absurd rfl h
  | cons _ _ => rfl

private theorem define_eq (sig : List String) (ds : List (Decorator V)) (h : Heap V) :
    ∃ fs : List (Func V), define sig ds h = .ok (h.funcs.length + fs.length,
      ⟨h.funcs ++ fs ++ [lastFunc sig ds h.dicts.length], h.dicts ++ newDicts ds⟩) := by
  induction ds using List.reverseRecOn with
  | nil => exact ⟨[], by simp [define, lastFunc, newDicts, codeOf, declared, topInfo]⟩
  | append_singleton ds d ih =>
    obtain ⟨fs, ih⟩ := ih
    have e : define sig (ds ++ [d]) h = (define sig ds h).bind fun r => apply r d := by
      unfold define
      rw [List.foldlM_append]
      show Outcome.bind _ _ = Outcome.bind _ _
      congr 1
      funext r
      simp only [List.foldlM_cons, List.foldlM_nil, Outcome.pure_eq]
      cases apply r d <;> rfl
    rw [e, ih]
    have hread : readAt (h.funcs ++ fs ++ [lastFunc sig ds h.dicts.length]) (h.funcs.length + fs.length) =
        .ok (lastFunc sig ds h.dicts.length) := by
      rw [readAt_lt (by simp)]
      congr 1
      rw [List.getElem_append_right (by simp)]
      simp
    have hset : ∀ f : Func V, (h.funcs ++ fs ++ [lastFunc sig ds h.dicts.length]).set (h.funcs.length + fs.length) f =
        h.funcs ++ fs ++ [f] := by
      intro f
      rw [List.set_append_right _ _ (by simp)]
      simp
    have hnd : newDicts (ds ++ [d]) = [dictOf (declared (ds ++ [d]))] := newDicts_ne (by simp)
    have hdict : ∀ (a b : Dict V), (h.dicts ++ [a]).set h.dicts.length b = h.dicts ++ [b] := by
      intro a b
      rw [List.set_append_right _ _ (Nat.le_refl _)]
      simp
    have hens : ∀ f : Func V, f.params = (if ds = [] then none else some h.dicts.length) →
        ensure f (h.dicts ++ newDicts ds) =
          ({ f with params := some h.dicts.length }, h.dicts ++ [dictOf (declared ds)]) := by
      intro f hf
      unfold ensure
      by_cases hds : ds = []
      · subst hds
        rw [if_pos rfl] at hf
        rw [hf]
        simp [newDicts, dictOf, declared]
      · rw [if_neg hds] at hf
        rw [hf, newDicts_ne hds]
        cases f
        simp only at hf
        subst hf
        rfl
    cases d with
    | pipeline info =>
      refine ⟨fs, ?_⟩
      show pipeline info _ _ = _
      unfold pipeline
      simp only
      rw [hread, Outcome.ok_bind, hens _ rfl, hset, hnd]
      simp [lastFunc, codeOf_append, topInfo_append, declared_append, declared]
    | parameter n p =>
      refine ⟨fs ++ [{ lastFunc sig ds h.dicts.length with params := some h.dicts.length }], ?_⟩
      show parameter n p _ _ = _
      unfold parameter
      simp only
      rw [hread, Outcome.ok_bind, hens _ rfl, hset, hnd]
      simp only [Option.getD_some]
      rw [readAt_lt (by simp), Outcome.ok_bind, hdict, List.getElem_append_right (Nat.le_refl _)]
      simp only [lastFunc, codeOf_append, topInfo_append, declared_append, declared, List.length_append, List.length_cons,
        List.length_nil, List.append_assoc, List.cons_append, List.nil_append]
      simp [dictOf, List.foldl_append]

/-- The arguments with the defaults added from the top to the bottom. -/
private def withDefaults (l : List (String × Param V)) (kwargs : List (String × V)) : List (String × V) :=
  l.foldr (fun d k => if k.any (·.1 = d.1) then k else k ++ [(d.1, d.2.default)]) kwargs

private theorem call_eq (sig : List String) (ds : List (Decorator V)) (args : List V) (kwargs : List (String × V)) :
    call (codeOf sig ds) args kwargs = bindArgs sig args (withDefaults (declared ds) kwargs) := by
  induction ds using List.reverseRecOn generalizing kwargs with
  | nil => rfl
  | append_singleton ds d ih =>
    rw [codeOf_append]
    cases d with
    | pipeline i => simp only [ih, declared_append, declared, List.append_nil]
    | parameter n p =>
      simp only [call, ih, declared_append, declared]
      rw [withDefaults, withDefaults, List.foldr_append]
      rfl

private theorem getArg_append (k : List (String × V)) (n m : String) (v : V) :
    getArg (k ++ [(m, v)]) n = (getArg k n).or (if m = n then some v else none) := by
  unfold getArg
  rw [List.find?_append]
  cases h : k.find? (fun x => decide (x.1 = n)) with
  | some x => simp
  | none =>
    by_cases hm : m = n
    · simp [hm]
    · simp [hm]

private theorem getArg_none (k : List (String × V)) (n : String) : getArg k n = none ↔ k.any (·.1 = n) = false := by
  unfold getArg
  rw [Option.map_eq_none_iff, List.find?_eq_none, List.any_eq_false]

private theorem getArg_withDefaults (l : List (String × Param V)) (kwargs : List (String × V)) (n : String) :
    getArg (withDefaults l kwargs) n = (getArg kwargs n).or ((topmost l n).map (·.default)) := by
  induction l with
  | nil => simp [withDefaults, topmost]
  | cons x l ih =>
    obtain ⟨m, p⟩ := x
    have e : withDefaults ((m, p) :: l) kwargs = if (withDefaults l kwargs).any (·.1 = m) then withDefaults l kwargs else
      withDefaults l kwargs ++ [(m, p.default)] := rfl
    rw [e]
    simp only [topmost]
    by_cases h : (withDefaults l kwargs).any (·.1 = m) = true
    · rw [if_pos h, ih]
      cases ht : topmost l n with
      | some q => rfl
      | none =>
        simp only
        by_cases hm : m = n
        · subst hm
          have : getArg (withDefaults l kwargs) m ≠ none := by
            rw [Ne, getArg_none, h]; simp
          rw [ih, ht] at this
          cases hk : getArg kwargs m with
          | none => rw [hk] at this; exact absurd rfl this
          | some v => rfl
        · rw [if_neg hm]
    · rw [if_neg h, getArg_append, ih]
      cases hk : getArg kwargs n with
      | some v => rfl
      | none =>
        cases ht : topmost l n with
        | some q => rfl
        | none =>
          by_cases hm : m = n
          · simp [hm]
          · simp [hm]

private theorem mem_withDefaults (l : List (String × Param V)) (kwargs : List (String × V)) (a : String × V)
    (ha : a ∈ withDefaults l kwargs) : a ∈ kwargs ∨ a.1 ∈ l.map (·.1) := by
  induction l with
  | nil => exact Or.inl ha
  | cons x l ih =>
    have e : withDefaults (x :: l) kwargs = if (withDefaults l kwargs).any (·.1 = x.1) then withDefaults l kwargs else
      withDefaults l kwargs ++ [(x.1, x.2.default)] := rfl
    rw [e] at ha
    have key : a ∈ withDefaults l kwargs → a ∈ kwargs ∨ a.1 ∈ (x :: l).map (·.1) := by
      intro h
      rcases ih h with h | h
      · exact Or.inl h
      · exact Or.inr (by rw [List.map_cons]; exact List.mem_cons_of_mem _ h)
    split at ha
    · exact key ha
    · rcases List.mem_append.1 ha with h | h
      · exact key h
      · rw [List.mem_singleton] at h
        rw [h]
        exact Or.inr (by simp)

/-- The value of a parameter that is not given by position: the keyword argument, or the default of the declaration on top. -/
def valueOf (ds : List (Decorator V)) (kwargs : List (String × V)) (n : String) : Option V :=
  match kwargs.find? (·.1 = n) with
  | some x => some x.2
  | none => (topmost (declared ds) n).map (·.default)

/-- What a definition promises about function `i`: the attributes are those of the decorators on top, `PARAMETERS` has the
declared names in the order of their first declaration, each with the entry of the declaration on top; and the function
gets, for every parameter, the positional argument, the keyword argument, or else the default of the declaration on top. -/
structure Correct (sig : List String) (ds : List (Decorator V)) (h : Heap V) (i : Nat) : Prop where
  exists_ : ∃ f, h.funcs[i]? = some f ∧ f.info = topInfo ds ∧
    ∀ (args : List V) (kwargs : List (String × V)), args.length ≤ sig.length →
      (∀ a ∈ kwargs, a.1 ∈ sig.drop args.length) → (∀ n ∈ (declared ds).map (·.1), n ∈ sig.drop args.length) →
      (∀ n ∈ sig.drop args.length, (valueOf ds kwargs n).isSome) →
      ∃ vs : List (String × V), call f.code args kwargs = .ok ((sig.take args.length).zip args ++ vs) ∧
        vs.map (·.1) = sig.drop args.length ∧ ∀ x ∈ vs, valueOf ds kwargs x.1 = some x.2
  dict : ds ≠ [] → ∃ d, parameters h i = some d ∧ d.map (·.1) = firsts ((declared ds).map (·.1)) ∧
    ∀ n p, (n, p) ∈ d ↔ topmost (declared ds) n = some p

private theorem valueOf_eq (ds : List (Decorator V)) (kwargs : List (String × V)) (n : String) :
    getArg (withDefaults (declared ds) kwargs) n = valueOf ds kwargs n := by
  rw [getArg_withDefaults]
  unfold getArg valueOf
  cases kwargs.find? (fun x => decide (x.1 = n)) <;> rfl

private theorem bind_foldl (names : List String) (acc : List (String × V)) (kwargs : List (String × V))
    (hv : ∀ n ∈ names, (getArg kwargs n).isSome) :
    ∃ vs : List (String × V), names.foldlM (fun acc n =>
      match getArg kwargs n with
      | some v => Outcome.ok (acc ++ [(n, v)])
      | none => .throw "TypeError") acc = .ok (acc ++ vs) ∧ vs.map (·.1) = names ∧
      ∀ x ∈ vs, getArg kwargs x.1 = some x.2 := by
  induction names generalizing acc with
  | nil => exact ⟨[], by simp, rfl, by simp⟩
  | cons n names ih =>
    obtain ⟨v, hn⟩ := Option.isSome_iff_exists.1 (hv n (by simp))
    obtain ⟨vs, h1, h2, h3⟩ := ih (acc ++ [(n, v)]) (fun m hm => hv m (by simp [hm]))
    refine ⟨(n, v) :: vs, ?_, by simp [h2], ?_⟩
    · rw [List.foldlM_cons, hn]
      simp only [Outcome.ok_bind]
      rw [h1]
      simp
    · intro x hx
      rcases List.mem_cons.1 hx with rfl | hx
      · exact hn
      · exact h3 x hx

private theorem correct_of (sig : List String) (ds : List (Decorator V)) (h : Heap V) (i k : Nat)
    (hi : h.funcs[i]? = some (lastFunc sig ds k)) (hk : ds ≠ [] → h.dicts[k]? = some (dictOf (declared ds))) :
    Correct sig ds h i := by
  constructor
  · refine ⟨_, hi, rfl, ?_⟩
    intro args kwargs hl hkw hdecl hv
    obtain ⟨vs, h1, h2, h3⟩ := bind_foldl (sig.drop args.length) ((sig.take args.length).zip args)
      (withDefaults (declared ds) kwargs) (fun n hn => by rw [valueOf_eq]; exact hv n hn)
    refine ⟨vs, ?_, h2, fun x hx => by rw [← valueOf_eq]; exact h3 x hx⟩
    show call (codeOf sig ds) args kwargs = _
    rw [call_eq]
    unfold bindArgs
    rw [if_neg (by omega), if_neg ?_]
    · exact h1
    · simp only [List.any_eq_true, not_exists, not_and]
      intro a ha hc
      simp only [Bool.not_eq_true', List.contains_eq_mem, decide_eq_false_iff_not] at hc
      rcases mem_withDefaults _ _ a ha with h | h
      · exact hc (hkw a h)
      · exact hc (hdecl a.1 h)
  · intro hne
    refine ⟨dictOf (declared ds), ?_, dictOf_spec _⟩
    unfold parameters
    rw [hi]
    simp only [Option.bind_some, lastFunc, if_neg hne]
    exact hk hne

/-- **C68** In a module with any number of functions with any decorators, whatever was defined before, every function is as
its own decorators say, at the end of the module. -/
theorem C68_module (l : List (List String × List (Decorator V))) (h : Heap V) :
    ∃ (ids : List Nat) (h' : Heap V), defineAll l h = .ok (ids, h') ∧ ids.length = l.length ∧
      ∀ (k : Nat) (x : List String × List (Decorator V)) (i : Nat), l[k]? = some x → ids[k]? = some i →
        Correct x.1 x.2 h' i := by
  suffices key : ∃ (ids : List Nat) (h' : Heap V), defineAll l h = .ok (ids, h') ∧ ids.length = l.length ∧
      (∃ fs ds, h'.funcs = h.funcs ++ fs ∧ h'.dicts = h.dicts ++ ds) ∧
      ∀ (k : Nat) (x : List String × List (Decorator V)) (i : Nat), l[k]? = some x → ids[k]? = some i →
        ∃ m, h'.funcs[i]? = some (lastFunc x.1 x.2 m) ∧ (x.2 ≠ [] → h'.dicts[m]? = some (dictOf (declared x.2))) by
    obtain ⟨ids, h', h1, h2, _, h4⟩ := key
    refine ⟨ids, h', h1, h2, fun k x i hx hi => ?_⟩
    obtain ⟨m, h5, h6⟩ := h4 k x i hx hi
    exact correct_of _ _ _ _ m h5 h6
  induction l generalizing h with
  | nil => exact ⟨[], h, rfl, rfl, ⟨[], [], by simp, by simp⟩, by simp⟩
  | cons x l ih =>
    obtain ⟨fs, he⟩ := define_eq x.1 x.2 h
    obtain ⟨ids, h', h1, h2, ⟨fs2, ds2, h3, h4⟩, h5⟩ := ih
      ⟨h.funcs ++ fs ++ [lastFunc x.1 x.2 h.dicts.length], h.dicts ++ newDicts x.2⟩
    refine ⟨(h.funcs.length + fs.length) :: ids, h', ?_, by simp [h2], ?_, ?_⟩
    · simp only [defineAll]
      rw [he, Outcome.ok_bind, h1]
      rfl
    · exact ⟨fs ++ [lastFunc x.1 x.2 h.dicts.length] ++ fs2, newDicts x.2 ++ ds2, by simp [h3], by simp [h4]⟩
    · intro k y i hy hi
      cases k with
      | succ k =>
        rw [List.getElem?_cons_succ] at hy hi
        exact h5 k y i hy hi
      | zero =>
        simp only [List.getElem?_cons_zero, Option.some.injEq] at hy hi
        subst hy hi
        refine ⟨h.dicts.length, ?_, ?_⟩
        · rw [h3, List.getElem?_append_left (by simp), List.getElem?_append_right (by simp)]
          simp
        · intro hne
          rw [h4, newDicts_ne hne, List.append_assoc, List.getElem?_append_right (Nat.le_refl _)]
          simp

/-- **C68** The default used in a call is the one listed in `PARAMETERS`: a call without arguments of a function all of whose
parameters are declared. -/
theorem C68_listed_default (sig : List String) (ds : List (Decorator V)) (h : Heap V) {i : Nat} (hc : Correct sig ds h i)
    (hne : ds ≠ []) (hsig : ∀ n, n ∈ sig ↔ n ∈ (declared ds).map (·.1)) :
    ∃ f d values, h.funcs[i]? = some f ∧ parameters h i = some d ∧ call f.code [] [] = .ok values ∧
      values.map (·.1) = sig ∧ ∀ x ∈ values, ∃ p, (x.1, p) ∈ d ∧ p.default = x.2 := by
  obtain ⟨f, h1, _, h2⟩ := hc.exists_
  obtain ⟨d, h3, h4, h5⟩ := hc.dict hne
  have hex : ∀ n ∈ sig, ∃ p, topmost (declared ds) n = some p := by
    intro n hn
    have : n ∈ d.map (·.1) := by rw [h4, mem_firsts]; exact (hsig n).1 hn
    obtain ⟨x, hx, rfl⟩ := List.mem_map.1 this
    exact ⟨x.2, (h5 x.1 x.2).1 hx⟩
  obtain ⟨vs, h6, h7, h8⟩ := h2 [] [] (by simp) (by simp) (fun n hn => by simpa using (hsig n).2 hn) (fun n hn => by
    obtain ⟨p, hp⟩ := hex n (by simpa using hn)
    simp [valueOf, hp])
  refine ⟨f, d, vs, h1, h3, by simpa using h6, by simpa using h7, ?_⟩
  intro x hx
  have hv := h8 x hx
  obtain ⟨p, hp⟩ := hex x.1 (by
    have : x.1 ∈ vs.map (·.1) := List.mem_map.2 ⟨x, hx, rfl⟩
    rw [h7] at this
    simpa using this)
  refine ⟨p, (h5 x.1 p).2 hp, ?_⟩
  simpa [valueOf, hp] using hv

/-- **C68** is false for positional arguments: a value given by position to a declared parameter is a TypeError, for all
functions and values, as the default is given as well. -/
theorem C68_positional_false (sig : List String) (hnd : sig.Nodup) (ds : List (Decorator V)) (h : Heap V) (args : List V)
    (hl : args.length ≤ sig.length) (n : String) (hn : n ∈ (declared ds).map (·.1)) (hpos : n ∈ sig.take args.length) :
    ∃ i h' f, define sig ds h = .ok (i, h') ∧ h'.funcs[i]? = some f ∧ call f.code args [] = .throw "TypeError" := by
  obtain ⟨fs, he⟩ := define_eq sig ds h
  refine ⟨_, _, lastFunc sig ds h.dicts.length, he, ?_, ?_⟩
  · simp only
    rw [List.getElem?_append_right (by simp)]
    simp
  · show call (codeOf sig ds) args [] = _
    rw [call_eq]
    unfold bindArgs
    rw [if_neg (by omega), if_pos]
    have hsome : (getArg (withDefaults (declared ds) []) n).isSome := by
      rw [getArg_withDefaults]
      obtain ⟨d1, d2⟩ := dictOf_spec (declared ds)
      have : n ∈ (dictOf (declared ds)).map (·.1) := by rw [d1, mem_firsts]; exact hn
      obtain ⟨x, hx, rfl⟩ := List.mem_map.1 this
      rw [(d2 x.1 x.2).1 hx]
      simp [getArg]
    have hany : (withDefaults (declared ds) []).any (·.1 = n) = true := by
      cases hb : (withDefaults (declared ds) []).any (·.1 = n) with
      | true => rfl
      | false =>
        rw [(getArg_none _ _).2 hb] at hsome
        cases hsome
    obtain ⟨a, ha, hae⟩ := List.any_eq_true.1 hany
    refine List.any_eq_true.2 ⟨a, ha, ?_⟩
    simp only [decide_eq_true_eq] at hae
    rw [hae]
    simp only [Bool.not_eq_true', List.contains_eq_mem, decide_eq_false_iff_not]
    intro hd
    rw [← List.take_append_drop args.length sig, List.nodup_append] at hnd
    exact hnd.2.2 n hpos n hd rfl

/-- **C68** is false for a function which is decorated twice (without the notation with @): the second decoration changes
what is listed for the result of the first one, but not what it does. -/
theorem C68_shared_false (n : String) (p q : Param V) (hpq : p.default ≠ q.default) (h : Heap V) :
    ∃ i h0 g1 h1 g2 h2 f d, define [n] [] h = .ok (i, h0) ∧ parameter n p i h0 = .ok (g1, h1) ∧
      parameter n q i h1 = .ok (g2, h2) ∧ h2.funcs[g1]? = some f ∧ parameters h2 g1 = some d ∧ d = [(n, q)] ∧
      call f.code [] [] = .ok [(n, p.default)] ∧ q.default ≠ p.default := by
  refine ⟨h.funcs.length, ⟨h.funcs ++ [⟨.base [n], none, none⟩], h.dicts⟩, h.funcs.length + 1,
    ⟨h.funcs ++ [⟨.base [n], some h.dicts.length, none⟩] ++ [⟨.wrap n p.default (.base [n]), some h.dicts.length, none⟩],
      h.dicts ++ [[(n, p)]]⟩, h.funcs.length + 2,
    ⟨h.funcs ++ [⟨.base [n], some h.dicts.length, none⟩] ++ [⟨.wrap n p.default (.base [n]), some h.dicts.length, none⟩] ++
      [⟨.wrap n q.default (.base [n]), some h.dicts.length, none⟩], h.dicts ++ [[(n, q)]]⟩,
    ⟨.wrap n p.default (.base [n]), some h.dicts.length, none⟩, [(n, q)], rfl, ?_, ?_, ?_, ?_, rfl, ?_, fun e => hpq e.symm⟩
  · unfold parameter
    simp only
    rw [readAt_lt (by simp), Outcome.ok_bind, List.getElem_append_right (Nat.le_refl _)]
    simp only [Nat.sub_self, List.getElem_cons_zero, ensure, Option.getD_some]
    rw [readAt_lt (by simp), Outcome.ok_bind, List.getElem_append_right (Nat.le_refl _)]
    simp [Dict.set]
  · unfold parameter
    simp only
    have hr : ∀ a b : Func V, readAt (h.funcs ++ [a] ++ [b]) h.funcs.length = .ok a := by
      intro a b
      rw [readAt_lt (by simp)]
      simp
    rw [hr, Outcome.ok_bind]
    simp only [ensure, Option.getD_some]
    rw [readAt_lt (by simp), Outcome.ok_bind, List.getElem_append_right (Nat.le_refl _)]
    simp [Dict.set]
  · simp
  · simp [parameters]
  · simp [call, bindArgs, getArg]

/-- A function of three parameters with two declared ones, called with one keyword argument. -/
example : ((defineAll [(["array", "inner", "outer"], [.pipeline ⟨some "annulus", none, "frame", "image", "sum"⟩,
      .parameter "inner" ⟨"integer", none, none, 1⟩, .parameter "outer" ⟨"integer", some "Outer", none, 9⟩])]
      (⟨[], []⟩ : Heap Nat)).bind fun r => .ok ((parameters r.2 2).map fun d => d.map (·.1),
        (r.2.funcs[2]?).map fun f => call f.code [7] [("outer", 5)])) =
    .ok (some ["inner", "outer"], some (.ok [("array", 7), ("inner", 1), ("outer", 5)])) := by decide

end Stempy.Pipeline
