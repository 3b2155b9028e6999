import Verif.Spec.ScanPath

/-! C55: resolving the path of an electron count file. -/

namespace Stempy.ScanPath

theorem bind_ok {α β : Type} (a : α) (f : α → Outcome β) : (Outcome.ok a).bind f = f a := rfl

theorem glob_lit (l : Name) (p : List Tok) (s : Name) : glob (lit l ++ p) s = true ↔ ∃ t, s = l ++ t ∧ glob p t = true := by
  induction l generalizing s with
  | nil => simp [lit]
  | cons c l ih =>
    cases s with
    | nil => simp [lit, glob]
    | cons d s =>
      have := ih s
      simp only [lit, List.map_cons, List.cons_append, glob, Bool.and_eq_true, decide_eq_true_eq, List.cons.injEq] at this ⊢
      rw [this]
      constructor
      · rintro ⟨rfl, t, rfl, h⟩; exact ⟨t, ⟨rfl, rfl⟩, h⟩
      · rintro ⟨t, ⟨rfl, rfl⟩, h⟩; exact ⟨rfl, t, rfl, h⟩

theorem glob_lit_end (l s : Name) : glob (lit l) s = true ↔ s = l := by
  have := glob_lit l [] s
  rw [List.append_nil] at this
  rw [this]
  simp [glob]

theorem glob_star (p : List Tok) (s : Name) : glob (.star :: p) s = true ↔ ∃ u t, s = u ++ t ∧ glob p t = true := by
  simp only [glob, List.any_eq_true, List.mem_tails]
  constructor
  · rintro ⟨t, ⟨u, rfl⟩, h⟩; exact ⟨u, t, rfl, h⟩
  · rintro ⟨u, t, rfl, h⟩; exact ⟨t, ⟨u, rfl⟩, h⟩

theorem glob_any (p : List Tok) (s : Name) : glob (.any :: p) s = true ↔ ∃ c t, s = c :: t ∧ glob p t = true := by
  cases s <;> simp [glob]

theorem glob_chr (c : Char) (p : List Tok) (s : Name) : glob (.chr c :: p) s = true ↔ ∃ t, s = c :: t ∧ glob p t = true := by
  have := glob_lit [c] p s
  simpa [lit] using this

/-- The pattern of version 1 means `Requested1`. -/
theorem pattern1_iff (num id : Option Nat) (s : Suffix) (h : id ≠ none ∨ num ≠ none) :
    ∃ pat, pattern1 num id s = some pat ∧ ∀ name, glob pat name = true ↔ Requested1 num id s name := by
  cases id with
  | some i =>
    refine ⟨_, rfl, fun name => ?_⟩
    rw [List.append_assoc, glob_lit]
    simp only [List.cons_append, glob_star, glob_lit, glob_any, glob_lit_end, Requested1]
    constructor
    · rintro ⟨_, rfl, u, _, rfl, _, rfl, a, _, rfl, b, _, rfl, c, _, rfl, d, _, rfl, e, _, rfl, rfl⟩
      exact ⟨u, [a, b, c, d, e], rfl, by simp⟩
    · rintro ⟨u, w, hw, rfl⟩
      match w, hw with
      | [a, b, c, d, e], _ =>
        exact ⟨_, by simp; rfl, u, _, rfl, _, by simp; rfl, a, _, rfl, b, _, rfl, c, _, rfl, d, _, rfl, e, _, rfl, by simp⟩
  | none =>
    cases num with
    | none => simp at h
    | some n =>
      refine ⟨_, rfl, fun name => ?_⟩
      rw [glob_lit]
      simp only [glob_star, glob_chr, glob_lit_end, Requested1]
      constructor
      · rintro ⟨_, rfl, u, _, rfl, _, rfl, w, _, rfl, rfl⟩
        exact ⟨u, w, by simp⟩
      · rintro ⟨u, w, rfl⟩
        exact ⟨_, by simp; rfl, u, _, rfl, _, rfl, w, _, rfl, by simp⟩

/-- The pattern of version 0 means `Requested0`. -/
theorem pattern0_iff (num id th : Option Nat) (s : Suffix) (h : id ≠ none ∨ num ≠ none) :
    ∃ pat, pattern0 num id th s = some pat ∧ ∀ name, glob pat name = true ↔ Requested0 num id th s name := by
  cases id with
  | some i =>
    refine ⟨_, rfl, fun name => ?_⟩
    rw [List.cons_append, glob_star]
    simp only [glob_lit, glob_star, glob_lit_end, Requested0]
    constructor
    · rintro ⟨u, _, rfl, _, rfl, w, _, rfl, rfl⟩
      exact ⟨u, w, by simp⟩
    · rintro ⟨u, w, rfl⟩
      exact ⟨u, ['_', 'i', 'd'] ++ str i ++ (w ++ s.tail), by simp, w ++ s.tail, by simp, w, _, rfl, rfl⟩
  | none =>
    cases num with
    | none => simp at h
    | some n =>
      cases th with
      | some t => exact ⟨_, rfl, fun name => by rw [glob_lit_end]; rfl⟩
      | none =>
        refine ⟨_, rfl, fun name => ?_⟩
        rw [glob_lit]
        simp only [glob_star, glob_lit_end, Requested0]
        constructor
        · rintro ⟨_, rfl, u, _, rfl, rfl⟩
          exact ⟨u, by simp⟩
        · rintro ⟨u, rfl⟩
          exact ⟨_, by simp; rfl, u, _, rfl, by simp⟩

theorem notFound_iff {α : Type} (o : Outcome α) : notFound o = true ↔ o = .throw "FileNotFoundError" := by
  cases o <;> simp [notFound]

theorem onlyOne_cases (l : List Name) : (l = [] ∧ onlyOne l = .throw "FileNotFoundError") ∨ (∃ p, l = [p] ∧ onlyOne l = .ok p) ∨
    (2 ≤ l.length ∧ onlyOne l = .throw "ValueError") := by
  match l with
  | [] => exact .inl ⟨rfl, rfl⟩
  | [p] => exact .inr (.inl ⟨p, rfl, rfl⟩)
  | _ :: _ :: _ => exact .inr (.inr ⟨by simp, rfl⟩)

theorem toInt_cases (s : Name) : (∃ n, toInt s = .ok n) ∨ toInt s = .throw "ValueError" := by
  unfold toInt
  simp only
  split
  · exact .inl ⟨_, rfl⟩
  · exact .inr rfl

theorem parts0_cases (l : List Name) (num id : Option Int) : (∃ r, parts0 l num id = .ok r) ∨ parts0 l num id = .throw "ValueError" := by
  induction l generalizing num id with
  | nil => exact .inl ⟨_, rfl⟩
  | cons p l ih =>
    unfold parts0
    split
    · rcases toInt_cases (p.drop 2) with ⟨n, h⟩ | h
      · rw [h]; exact ih _ _
      · rw [h]; exact .inr rfl
    · split
      · rcases toInt_cases (p.drop 4) with ⟨n, h⟩ | h
        · rw [h]; exact ih _ _
        · rw [h]; exact .inr rfl
      · exact ih _ _

theorem item_cases (l : List Name) (i : Nat) : (∃ x, item l i = .ok x) ∨ item l i = .throw "IndexError" := by
  unfold item
  split
  · exact .inl ⟨_, rfl⟩
  · exact .inr rfl

theorem parts1_cases (p : Name) : (∃ n i, parts1 p = .ok (p, some n, some i)) ∨ parts1 p = .throw "ValueError" ∨
    parts1 p = .throw "IndexError" := by
  unfold parts1
  simp only
  rcases item_cases (split (stem p)) 3 with ⟨a, h⟩ | h
  · rw [h, bind_ok]
    rcases toInt_cases a with ⟨i, h⟩ | h
    · rw [h, bind_ok]
      rcases item_cases (split (stem p)) 4 with ⟨b, h⟩ | h
      · rw [h, bind_ok]
        rcases toInt_cases b with ⟨n, h⟩ | h
        · rw [h]; exact .inl ⟨n, i, rfl⟩
        · rw [h]; exact .inr (.inl rfl)
      · rw [h]; exact .inr (.inr rfl)
    · rw [h]; exact .inr (.inl rfl)
  · rw [h]; exact .inr (.inr rfl)

/-- What one version does: no name requested, several, or one (whose parts can be malformed). -/
theorem runVersion_cases (dir : List Name) (num id th : Option Nat) (s : Suffix) (v : Nat) (hv : v = 0 ∨ v = 1)
    (h : id ≠ none ∨ num ≠ none) :
    ∃ found : List Name, found.Sublist dir ∧ (∀ name, name ∈ found ↔ name ∈ dir ∧ Requested v num id th s name) ∧
      ((found = [] ∧ runVersion dir num id th s v = .throw "FileNotFoundError") ∨
       (∃ p, found = [p] ∧ ((∃ n i, runVersion dir num id th s v = .ok (p, n, i)) ∨
          runVersion dir num id th s v = .throw "ValueError" ∨ runVersion dir num id th s v = .throw "IndexError")) ∨
       (2 ≤ found.length ∧ runVersion dir num id th s v = .throw "ValueError")) := by
  rcases hv with rfl | rfl
  · obtain ⟨pat, h1, h2⟩ := pattern0_iff num id th s h
    refine ⟨dir.filter (glob pat), List.filter_sublist, ?_, ?_⟩
    · intro name
      rw [List.mem_filter, h2]
      simp [Requested]
    · have hrun : runVersion dir num id th s 0 = (onlyOne (dir.filter (glob pat))).bind fun path =>
          (parts0 (split path) (num.map Int.ofNat) (id.map Int.ofNat)).bind fun r => .ok (path, r.1, r.2) := by
        show version0 dir num id th s = _
        unfold version0
        rw [h1]
      rw [hrun]
      rcases onlyOne_cases (dir.filter (glob pat)) with ⟨e1, e2⟩ | ⟨p, e1, e2⟩ | ⟨e1, e2⟩
      · exact .inl ⟨e1, by rw [e2]; rfl⟩
      · refine .inr (.inl ⟨p, e1, ?_⟩)
        rw [e2, bind_ok]
        rcases parts0_cases (split p) (num.map Int.ofNat) (id.map Int.ofNat) with ⟨r, e⟩ | e
        · rw [e]; exact .inl ⟨r.1, r.2, rfl⟩
        · rw [e]; exact .inr (.inl rfl)
      · exact .inr (.inr ⟨e1, by rw [e2]; rfl⟩)
  · obtain ⟨pat, h1, h2⟩ := pattern1_iff num id s h
    refine ⟨dir.filter (glob pat), List.filter_sublist, ?_, ?_⟩
    · intro name
      rw [List.mem_filter, h2]
      simp [Requested]
    · have hrun : runVersion dir num id th s 1 = (onlyOne (dir.filter (glob pat))).bind parts1 := by
        show version1 dir num id s = _
        unfold version1
        rw [h1]
      rw [hrun]
      rcases onlyOne_cases (dir.filter (glob pat)) with ⟨e1, e2⟩ | ⟨p, e1, e2⟩ | ⟨e1, e2⟩
      · exact .inl ⟨e1, by rw [e2]; rfl⟩
      · refine .inr (.inl ⟨p, e1, ?_⟩)
        rw [e2, bind_ok]
        rcases parts1_cases p with ⟨n, i, e⟩ | e | e
        · exact .inl ⟨some n, some i, e⟩
        · exact .inr (.inl e)
        · exact .inr (.inr e)
      · exact .inr (.inr ⟨e1, by rw [e2]; rfl⟩)

/-- The naming versions to try, newest first. -/
def versions : Option Nat → List Nat
  | none => [1, 0]
  | some v => [v]

theorem getScanPath_eq (dir : List Name) (num id th : Option Nat) (s : Suffix) (version : Option Nat) :
    getScanPath dir num id th s version = tryVersions ((versions version).map (runVersion dir num id th s)) := by
  unfold getScanPath versions
  cases version <;> rfl

/-- **C55**: a path that is returned is in the directory, and for the newest version tried that has a match it is the only name
requested. -/
theorem C55_found (dir : List Name) (num id th : Option Nat) (s : Suffix) (version : Option Nat) (path : Name)
    (n i : Option Int) (h : getScanPath dir num id th s version = .ok (path, n, i)) :
    path ∈ dir ∧ ∃ v newer older, versions version = newer ++ v :: older ∧ Requested v num id th s path ∧
      (∀ name ∈ dir, Requested v num id th s name → name = path) ∧
      ∀ v' ∈ newer, ∀ name ∈ dir, ¬ Requested v' num id th s name := by
  rw [getScanPath_eq] at h
  generalize versions version = vs at h
  have key : ∀ vs : List Nat, tryVersions (vs.map (runVersion dir num id th s)) = .ok (path, n, i) →
      path ∈ dir ∧ ∃ v newer older, vs = newer ++ v :: older ∧ Requested v num id th s path ∧
      (∀ name ∈ dir, Requested v num id th s name → name = path) ∧
      ∀ v' ∈ newer, ∀ name ∈ dir, ¬ Requested v' num id th s name := by
    intro vs
    induction vs with
    | nil => intro h; cases h
    | cons v vs ih =>
      intro h
      simp only [List.map_cons, tryVersions] at h
      have hne : ∀ m, runVersion dir num id th s v = .throw m → m ≠ "FileNotFoundError" → False := by
        intro m hm hm2
        rw [hm] at h
        simp [notFound, hm2] at h
      have hgiven : id ≠ none ∨ num ≠ none := by
        by_contra hn
        have h0 : id = none ∧ num = none := by
          constructor
          · by_contra hc; exact hn (.inl hc)
          · by_contra hc; exact hn (.inr hc)
        obtain ⟨rfl, rfl⟩ := h0
        match v with
        | 0 => exact hne "TypeError" rfl (by decide)
        | 1 => exact hne "TypeError" rfl (by decide)
        | k + 2 => exact hne "NotImplementedError" rfl (by decide)
      have hv : v = 0 ∨ v = 1 := by
        match v with
        | 0 => exact .inl rfl
        | 1 => exact .inr rfl
        | k + 2 => exact (hne "NotImplementedError" rfl (by decide)).elim
      obtain ⟨found, _, hmem, hcase⟩ := runVersion_cases dir num id th s v hv hgiven
      rcases hcase with ⟨hf, hr⟩ | ⟨p, hf, hr⟩ | ⟨_, hr⟩
      · rw [if_pos ((notFound_iff _).2 hr)] at h
        obtain ⟨h1, v', newer, older, h2, h3, h4, h5⟩ := ih h
        refine ⟨h1, v', v :: newer, older, by rw [h2]; rfl, h3, h4, ?_⟩
        intro v'' hv'' name hname hreq
        rcases List.mem_cons.1 hv'' with rfl | hv''
        · have := (hmem name).2 ⟨hname, hreq⟩
          rw [hf] at this
          cases this
        · exact h5 v'' hv'' name hname hreq
      · rcases hr with ⟨n', i', hr⟩ | hr | hr
        · rw [hr] at h
          simp only [notFound, Bool.false_eq_true, if_false, Outcome.ok.injEq, Prod.mk.injEq] at h
          obtain ⟨rfl, _, _⟩ := h
          have := (hmem p).1 (by rw [hf]; simp)
          refine ⟨this.1, v, [], vs, rfl, this.2, ?_, by simp⟩
          intro name h1 h2
          have := (hmem name).2 ⟨h1, h2⟩
          rw [hf] at this
          simpa using this
        · exact (hne _ hr (by decide)).elim
        · exact (hne _ hr (by decide)).elim
      · exact (hne _ hr (by decide)).elim
  exact key vs h

/-- **C55**: `FileNotFoundError` is raised exactly if no name of the directory is requested in any version tried. -/
theorem C55_none (dir : List Name) (num id th : Option Nat) (s : Suffix) (version : Option Nat) (hg : id ≠ none ∨ num ≠ none)
    (hv : version = none ∨ version = some 0 ∨ version = some 1) :
    getScanPath dir num id th s version = .throw "FileNotFoundError" ↔
      ∀ v ∈ versions version, ∀ name ∈ dir, ¬ Requested v num id th s name := by
  rw [getScanPath_eq]
  have hvs : ∀ v ∈ versions version, v = 0 ∨ v = 1 := by
    rcases hv with rfl | rfl | rfl <;> simp [versions]
  generalize versions version = vs at hvs
  induction vs with
  | nil => simp [tryVersions]
  | cons v vs ih =>
    have ih := ih fun v hv => hvs v (by simp [hv])
    simp only [List.map_cons, tryVersions, List.mem_cons, forall_eq_or_imp]
    obtain ⟨found, _, hmem, hcase⟩ := runVersion_cases dir num id th s v (hvs v (by simp)) hg
    have hsome : ∀ p, p ∈ found → ¬ ∀ name ∈ dir, ¬ Requested v num id th s name := by
      intro p hp hall
      have := (hmem p).1 hp
      exact hall p this.1 this.2
    rcases hcase with ⟨hf, hr⟩ | ⟨p, hf, hr⟩ | ⟨hf, hr⟩
    · rw [if_pos ((notFound_iff _).2 hr)]
      refine ih.trans ⟨?_, fun h => h.2⟩
      · intro h
        refine ⟨fun name h1 h2 => ?_, h⟩
        have := (hmem name).2 ⟨h1, h2⟩
        rw [hf] at this
        cases this
    · have hn := hsome p (by rw [hf]; simp)
      rcases hr with ⟨n', i', hr⟩ | hr | hr <;> rw [hr] <;> simp [notFound, hn]
    · cases found with
      | nil => simp at hf
      | cons p l =>
        have hn := hsome p (by simp)
        rw [hr]
        simp [notFound, hn]

/-- **C55**: `ValueError` is raised if two names are requested in the newest version with a match. -/
theorem C55_several (dir : List Name) (num id th : Option Nat) (s : Suffix) (version : Option Nat) (hg : id ≠ none ∨ num ≠ none)
    (v : Nat) (newer older : List Nat) (hvs : versions version = newer ++ v :: older) (hv : ∀ v ∈ versions version, v = 0 ∨ v = 1)
    (hnewer : ∀ v' ∈ newer, ∀ name ∈ dir, ¬ Requested v' num id th s name) (p q : Name) (hp : p ∈ dir) (hq : q ∈ dir)
    (hpq : p ≠ q) (hp1 : Requested v num id th s p) (hq1 : Requested v num id th s q) :
    getScanPath dir num id th s version = .throw "ValueError" := by
  rw [getScanPath_eq, hvs]
  rw [hvs] at hv
  clear hvs
  induction newer with
  | nil =>
    simp only [List.nil_append, List.map_cons, tryVersions]
    obtain ⟨found, _, hmem, hcase⟩ := runVersion_cases dir num id th s v (hv v (by simp)) hg
    have h1 := (hmem p).2 ⟨hp, hp1⟩
    have h2 := (hmem q).2 ⟨hq, hq1⟩
    rcases hcase with ⟨hf, _⟩ | ⟨r, hf, _⟩ | ⟨_, hr⟩
    · rw [hf] at h1; cases h1
    · rw [hf] at h1 h2
      simp only [List.mem_singleton] at h1 h2
      exact absurd (h1.trans h2.symm) hpq
    · rw [hr]; rfl
  | cons v' newer ih =>
    simp only [List.cons_append, List.map_cons, tryVersions]
    obtain ⟨found, _, hmem, hcase⟩ := runVersion_cases dir num id th s v' (hv v' (by simp)) hg
    have hf : found = [] := by
      cases found with
      | nil => rfl
      | cons x l =>
        have := (hmem x).1 (by simp)
        exact absurd this.2 (hnewer v' (by simp) x this.1)
    rcases hcase with ⟨_, hr⟩ | ⟨r, hf2, _⟩ | ⟨hf2, _⟩
    · rw [if_pos ((notFound_iff _).2 hr)]
      exact ih (fun v hv2 => hv v (by simp at hv2 ⊢; exact .inr hv2)) fun v'' h => hnewer v'' (by simp [h])
    · rw [hf] at hf2; cases hf2
    · rw [hf] at hf2; simp at hf2

/-- **C55**: without scan number and scan id, and for other versions, an error is raised. -/
theorem C55_errors (dir : List Name) (num id th : Option Nat) (s : Suffix) (v : Nat) :
    getScanPath dir none none th s none = .throw "TypeError" ∧
    getScanPath dir num id th s (some (v + 2)) = .throw "NotImplementedError" := ⟨rfl, rfl⟩

/-! Names of version 1. -/

theorem str_digit {n : Nat} {c : Char} (h : c ∈ str n) : c.isDigit = true :=
  Nat.isDigit_of_mem_toDigits (by omega) (by omega) h

theorem zfill5_digit {n : Nat} {c : Char} (h : c ∈ zfill5 n) : c.isDigit = true := by
  unfold zfill5 at h
  rcases List.mem_append.1 h with h | h
  · rw [(List.mem_replicate.1 h).2]; decide
  · exact str_digit h

theorem zfill5_value (n : Nat) : Nat.ofDigitChars 10 (zfill5 n) 0 = n := by
  unfold zfill5
  rw [Nat.ofDigitChars_append, Nat.ofDigitChars_replicate_zero, Nat.mul_zero]
  exact Nat.ofDigitChars_toDigits (by omega) (by omega)

theorem zfill5_inj {m n : Nat} (h : zfill5 m = zfill5 n) : m = n := by
  rw [← zfill5_value m, h, zfill5_value]

theorem str_inj {m n : Nat} (h : str m = str n) : m = n := by
  have h1 : Nat.ofDigitChars 10 (str m) 0 = m := Nat.ofDigitChars_toDigits (by omega) (by omega)
  have h2 : Nat.ofDigitChars 10 (str n) 0 = n := Nat.ofDigitChars_toDigits (by omega) (by omega)
  rw [← h1, h, h2]

theorem zfill5_ne_nil (n : Nat) : zfill5 n ≠ [] := by
  unfold zfill5 str
  simp [Nat.toDigits_ne_nil]

theorem zfill5_length (n : Nat) : (zfill5 n).length = 5 ↔ n < 100000 := by
  have h : (str n).length ≤ 5 ↔ n < 10 ^ 5 := Nat.length_toDigits_le_iff (by omega) (by omega)
  unfold zfill5
  rw [List.length_append, List.length_replicate]
  omega

/-- The parts around the last underscore are determined. -/
theorem last_underscore {a b c d : Name} (h : a ++ '_' :: b = c ++ '_' :: d) (hb : '_' ∉ b) (hd : '_' ∉ d) : a = c ∧ b = d := by
  rcases List.append_eq_append_iff.1 h with ⟨e, h1, h2⟩ | ⟨e, h1, h2⟩
  · cases e with
    | nil => simp only [List.append_nil] at h1; simp only [List.nil_append, List.cons.injEq, true_and] at h2; exact ⟨h1.symm, h2⟩
    | cons x e =>
      simp only [List.cons_append, List.cons.injEq] at h2
      exact absurd (by rw [h2.2]; simp) hb
  · cases e with
    | nil => simp only [List.append_nil] at h1; simp only [List.nil_append, List.cons.injEq, true_and] at h2; exact ⟨h1, h2.symm⟩
    | cons x e =>
      simp only [List.cons_append, List.cons.injEq] at h2
      exact absurd (by rw [h2.2]; simp) hd

theorem digit_ne {c d : Char} (h : c.isDigit = true) (hd : d.isDigit = false) : c ≠ d := by
  rintro rfl; rw [h] at hd; cases hd

theorem zfill5_underscore (n : Nat) : '_' ∉ zfill5 n := fun h => digit_ne (zfill5_digit h) (by decide) rfl

/-- Names ending with an underscore, five characters or digits, and the suffix and type: the suffix is determined. -/
theorem tail_inj {x w y : Name} {n : Nat} {s s' : Suffix} (hw : w.length = 5 ∨ ∃ k, w = zfill5 k)
    (h : x ++ '_' :: w ++ s.tail = y ++ '_' :: zfill5 n ++ s'.tail) : s = s' ∧ x ++ '_' :: w = y ++ '_' :: zfill5 n := by
  have hz : ∃ c r, (zfill5 n).reverse = c :: r ∧ c.isDigit = true := by
    cases hr : (zfill5 n).reverse with
    | nil => exact absurd (List.reverse_eq_nil_iff.1 hr) (zfill5_ne_nil n)
    | cons c r => exact ⟨c, r, rfl, zfill5_digit (n := n) (List.mem_reverse.1 (by rw [hr]; simp))⟩
  have hs : s = s' := by
    by_contra hne
    obtain ⟨c, r, hc, hd⟩ := hz
    have h2 := congrArg List.reverse h
    simp only [List.reverse_append, List.reverse_cons, hc] at h2
    have hnd : ∀ d : Char, d.isDigit = false → c ≠ d := fun d => digit_ne hd
    cases s <;> cases s' <;> simp [Suffix.tail, Suffix.text, Suffix.filetype] at h2 hne
    · rcases hw with hw | ⟨k, rfl⟩
      · have hw2 : w.reverse.length = 5 := by simpa using hw
        generalize w.reverse = v at h2 hw2
        match v, hw2 with
        | [a, b, c, d, e], _ => simp at h2
      · cases hk : (zfill5 k).reverse with
        | nil => exact absurd (List.reverse_eq_nil_iff.1 hk) (zfill5_ne_nil k)
        | cons a l =>
          rw [hk] at h2
          simp only [List.cons_append, List.cons.injEq] at h2
          have : a.isDigit = true := zfill5_digit (n := k) (List.mem_reverse.1 (by rw [hk]; simp))
          exact digit_ne this (by decide) h2.1
    · exact hnd 'd' (by decide) h2.1.symm
  subst hs
  exact ⟨rfl, List.append_cancel_right h⟩

/-- By scan id: names of version 1 with that scan id and suffix, whose scan number has five digits. -/
theorem requested1_id (date time : Name) (i k n : Nat) (num : Option Nat) (s s' : Suffix) :
    Requested1 num (some i) s (name1 date time k n s') ↔ k = i ∧ s = s' ∧ n < 100000 := by
  simp only [Requested1, name1]
  constructor
  · rintro ⟨u, w, hw, h⟩
    have h2 : (['F', 'O', 'U', 'R', 'D', '_'] ++ u ++ '_' :: zfill5 i) ++ '_' :: w ++ s.tail =
        (['F', 'O', 'U', 'R', 'D', '_'] ++ date ++ '_' :: time ++ '_' :: zfill5 k) ++ '_' :: zfill5 n ++ s'.tail := by
      simpa using h.symm
    obtain ⟨h3, h4⟩ := tail_inj (.inl hw) h2
    by_cases hu : '_' ∈ w
    · exfalso
      -- the last underscore would be among the last five characters, but there are at least five digits
      have hlen : 5 ≤ (zfill5 n).length := by
        unfold zfill5; rw [List.length_append, List.length_replicate]; omega
      rcases List.append_eq_append_iff.1 h4 with ⟨e, _, h6⟩ | ⟨e, _, h6⟩
      · have hl := congrArg List.length h6
        simp only [List.length_append, List.length_cons] at hl
        have he : e = [] := List.length_eq_zero_iff.1 (by omega)
        subst he
        simp only [List.nil_append, List.cons.injEq, true_and] at h6
        rw [h6] at hu
        exact zfill5_underscore n hu
      · cases e with
        | nil =>
          simp only [List.nil_append, List.cons.injEq, true_and] at h6
          rw [← h6] at hu
          exact zfill5_underscore n hu
        | cons x e =>
          simp only [List.cons_append, List.cons.injEq] at h6
          exact zfill5_underscore n (by rw [h6.2]; simp)
    · obtain ⟨h5, h6⟩ := last_underscore h4 hu (zfill5_underscore n)
      obtain ⟨_, h7⟩ := last_underscore h5 (zfill5_underscore i) (zfill5_underscore k)
      exact ⟨(zfill5_inj h7).symm, h3, (zfill5_length n).1 (by rw [← h6]; exact hw)⟩
  · rintro ⟨rfl, rfl, hn⟩
    exact ⟨date ++ '_' :: time, zfill5 n, (zfill5_length n).2 hn, by simp⟩

/-- By scan number: names of version 1 with that scan number and suffix. -/
theorem requested1_num (date time : Name) (k n m : Nat) (s s' : Suffix) :
    Requested1 (some m) none s (name1 date time k n s') ↔ n = m ∧ s = s' := by
  simp only [Requested1, name1]
  constructor
  · rintro ⟨u, w, h⟩
    have h2 : (['F', 'O', 'U', 'R', 'D', '_'] ++ u ++ '_' :: w) ++ '_' :: zfill5 m ++ s.tail =
        (['F', 'O', 'U', 'R', 'D', '_'] ++ date ++ '_' :: time ++ '_' :: zfill5 k) ++ '_' :: zfill5 n ++ s'.tail := by
      simpa using h.symm
    obtain ⟨h3, h4⟩ := tail_inj (.inr ⟨m, rfl⟩) h2
    obtain ⟨_, h5⟩ := last_underscore h4 (zfill5_underscore m) (zfill5_underscore n)
    exact ⟨(zfill5_inj h5).symm, h3⟩
  · rintro ⟨rfl, rfl⟩
    exact ⟨date ++ '_' :: time, zfill5 k, by simp⟩

theorem stem_eq {x ext : Name} (hx : x ≠ []) (he : ext ≠ []) (hd : '.' ∉ ext) : stem (x ++ '.' :: ext) = x := by
  have h1 : (x ++ '.' :: ext).reverse.takeWhile (· ≠ '.') = ext.reverse := by
    rw [List.reverse_append, List.reverse_cons, List.append_assoc]
    rw [List.takeWhile_append_of_pos]
    · simp
    · intro c hc
      simp only [decide_eq_true_eq]
      rintro rfl
      exact hd (List.mem_reverse.1 hc)
  unfold stem
  simp only
  rw [h1]
  have hl : 0 < x.length := List.length_pos_of_ne_nil hx
  simp only [List.length_reverse, List.length_append, List.length_cons, List.reverse_eq_nil_iff]
  rw [if_neg]
  · rw [show x.length + (ext.length + 1) - ext.length - 1 = x.length by omega]
    simp
  · rintro (h | h | h)
    · omega
    · omega
    · exact he h

theorem split_cons {a b : Name} (h : '_' ∉ a) : split (a ++ '_' :: b) = a :: split b := by
  induction a with
  | nil => simp [split]
  | cons c a ih =>
    simp only [List.mem_cons, not_or] at h
    have hc : c ≠ '_' := fun h2 => h.1 h2.symm
    simp only [List.cons_append, split, if_neg hc, ih h.2]

theorem split_head {a b : Name} (h : '_' ∉ a) : (split (a ++ b)).head? = some (a ++ (split b).headD []) ∧ split b ≠ [] := by
  have hne : ∀ b : Name, split b ≠ [] := by
    intro b
    cases b with
    | nil => simp [split]
    | cons c b =>
      simp only [split]
      split
      · simp
      · split <;> simp
  refine ⟨?_, hne b⟩
  induction a with
  | nil =>
    cases hb : split b with
    | nil => exact absurd hb (hne b)
    | cons x l => simp [hb]
  | cons c a ih =>
    simp only [List.mem_cons, not_or] at h
    have hc : c ≠ '_' := fun h2 => h.1 h2.symm
    have ih := ih h.2
    simp only [List.cons_append, split, if_neg hc]
    cases hs : split (a ++ b) with
    | nil => exact absurd hs (hne _)
    | cons x l =>
      rw [hs] at ih
      simp only [List.head?_cons, Option.some.injEq] at ih ⊢
      rw [ih]

theorem toInt_digits {w : Name} (hne : w ≠ []) (hw : ∀ c ∈ w, c.isDigit = true) : toInt w = .ok (Nat.ofDigitChars 10 w 0 : Int) := by
  have hdrop : ∀ l : Name, (∀ c ∈ l, c.isDigit = true) → l.dropWhile Char.isWhitespace = l := by
    intro l hl
    cases l with
    | nil => rfl
    | cons c l =>
      have hc := hl c (by simp)
      rw [List.dropWhile_cons_of_neg]
      intro h
      simp only [Char.isDigit, Char.isWhitespace, Bool.and_eq_true, Bool.or_eq_true, decide_eq_true_eq] at hc h
      rcases h with ((rfl | rfl) | rfl) | rfl <;> revert hc <;> decide
  have h1 : ((w.dropWhile Char.isWhitespace).reverse.dropWhile Char.isWhitespace).reverse = w := by
    rw [hdrop w hw, hdrop w.reverse fun c hc => hw c (List.mem_reverse.1 hc), List.reverse_reverse]
  have hd : digits w = some (Nat.ofDigitChars 10 w 0) := by
    unfold digits
    rw [if_pos ⟨hne, List.all_eq_true.2 hw⟩]
  unfold toInt
  simp only
  rw [h1]
  cases w with
  | nil => exact absurd rfl hne
  | cons c w =>
    have hc := hw c (by simp)
    split
    · rename_i n h
      split at h
      · rename_i heq; simp only [List.cons.injEq] at heq; rw [heq.1] at hc; exact absurd hc (by decide)
      · rename_i heq; simp only [List.cons.injEq] at heq; rw [heq.1] at hc; exact absurd hc (by decide)
      · rw [hd] at h
        simp only [Option.map_some, Option.some.injEq] at h
        rw [← h]; rfl
    · rename_i h
      split at h
      · rename_i heq; simp only [List.cons.injEq] at heq; rw [heq.1] at hc; exact absurd hc (by decide)
      · rename_i heq; simp only [List.cons.injEq] at heq; rw [heq.1] at hc; exact absurd hc (by decide)
      · rw [hd] at h; cases h

theorem toInt_zfill5 (n : Nat) : toInt (zfill5 n) = .ok (n : Int) := by
  rw [toInt_digits (zfill5_ne_nil n) fun c h => zfill5_digit h, zfill5_value]

/-- Scan number and scan id are read from a name of version 1. -/
theorem parts1_name1 (date time : Name) (hd : '_' ∉ date) (ht : '_' ∉ time) (k n : Nat) (s : Suffix) :
    parts1 (name1 date time k n s) = .ok (name1 date time k n s, some (n : Int), some (k : Int)) := by
  have hstem : stem (name1 date time k n s) =
      ['F', 'O', 'U', 'R', 'D'] ++ '_' :: (date ++ '_' :: (time ++ '_' :: (zfill5 k ++ '_' :: (zfill5 n ++ s.text)))) := by
    have : name1 date time k n s =
        (['F', 'O', 'U', 'R', 'D'] ++ '_' :: (date ++ '_' :: (time ++ '_' :: (zfill5 k ++ '_' :: (zfill5 n ++ s.text))))) ++
          '.' :: s.filetype := by
      simp [name1, Suffix.tail]
    rw [this, stem_eq (by simp) (by cases s <;> simp [Suffix.filetype]) (by cases s <;> simp [Suffix.filetype])]
  have hlast : ∃ l, split (zfill5 n ++ s.text) = zfill5 n :: l := by
    cases s with
    | standard =>
      obtain ⟨h1, _⟩ := split_head (b := []) (zfill5_underscore n)
      simp only [Suffix.text, split, List.headD_cons, List.append_nil] at h1 ⊢
      cases hs : split (zfill5 n) with
      | nil => rw [hs] at h1; cases h1
      | cons x l => rw [hs] at h1; simp only [List.head?_cons, Option.some.injEq] at h1; exact ⟨l, by rw [h1]⟩
    | offsets => exact ⟨_, split_cons (zfill5_underscore n)⟩
    | centered => exact ⟨_, split_cons (zfill5_underscore n)⟩
  obtain ⟨l, hl⟩ := hlast
  unfold parts1
  simp only
  rw [hstem, split_cons (by decide), split_cons hd, split_cons ht, split_cons (zfill5_underscore k), hl]
  simp only [item, List.getElem?_cons_succ, List.getElem?_cons_zero, bind_ok, toInt_zfill5]

/-- A name of version 1 (date and time without underscores). -/
def IsName1 (name : Name) : Prop := ∃ date time k n s, '_' ∉ date ∧ '_' ∉ time ∧ name = name1 date time k n s

/-- **C55** for names of version 1: the file found has the suffix, scan number and scan id returned, and these are the requested
ones (a scan number is looked at only if there is no scan id, see `C55_number_ignored`). -/
theorem C55_version1 (dir : List Name) (hdir : ∀ name ∈ dir, IsName1 name) (num id th : Option Nat) (s : Suffix) (path : Name)
    (n i : Option Int) (h : getScanPath dir num id th s (some 1) = .ok (path, n, i)) :
    ∃ date time k m, path = name1 date time k m s ∧ n = some (m : Int) ∧ i = some (k : Int) ∧
      (∀ j, id = some j → k = j) ∧ (id = none → num = some m) := by
  obtain ⟨hp, v, newer, older, hvs, hreq, _⟩ := C55_found dir num id th s (some 1) path n i h
  have hv : v = 1 := by
    cases newer with
    | nil => simp only [versions, List.nil_append, List.cons.injEq] at hvs; exact hvs.1.symm
    | cons a l => simp [versions] at hvs
  subst hv
  obtain ⟨date, time, k, m, s', hd, ht, rfl⟩ := hdir path hp
  have hreq : Requested1 num id s (name1 date time k m s') := by simpa [Requested] using hreq
  have hs : s = s' ∧ (∀ j, id = some j → k = j) ∧ (id = none → num = some m) := by
    cases id with
    | some j =>
      obtain ⟨h1, h2, _⟩ := (requested1_id date time j k m num s s').1 hreq
      exact ⟨h2, by rintro _ ⟨⟩; exact h1, by simp⟩
    | none =>
      cases num with
      | none => exact hreq.elim
      | some x =>
        obtain ⟨h1, h2⟩ := (requested1_num date time k m x s s').1 hreq
        exact ⟨h2, by simp, by rw [h1]; simp⟩
  obtain ⟨rfl, h1, h2⟩ := hs
  have hrun : runVersion dir num id th s 1 = .ok (name1 date time k m s, n, i) := by
    rw [getScanPath_eq] at h
    simp only [versions, List.map_cons, List.map_nil, tryVersions] at h
    split at h
    · cases h
    · exact h
  have : parts1 (name1 date time k m s) = .ok (name1 date time k m s, n, i) := by
    have hr : version1 dir num id s = .ok (name1 date time k m s, n, i) := hrun
    unfold version1 at hr
    cases hpat : pattern1 num id s with
    | none => rw [hpat] at hr; cases hr
    | some pat =>
      rw [hpat] at hr
      simp only at hr
      rcases onlyOne_cases (dir.filter (glob pat)) with ⟨_, e⟩ | ⟨q, _, e⟩ | ⟨_, e⟩
      · rw [e] at hr; cases hr
      · rw [e, bind_ok] at hr
        rcases parts1_cases q with ⟨n', i', e2⟩ | e2 | e2
        · rw [e2] at hr
          simp only [Outcome.ok.injEq, Prod.mk.injEq] at hr
          obtain ⟨rfl, rfl, rfl⟩ := hr
          exact e2
        · rw [e2] at hr; cases hr
        · rw [e2] at hr; cases hr
      · rw [e] at hr; cases hr
  rw [parts1_name1 date time hd ht] at this
  simp only [Outcome.ok.injEq, Prod.mk.injEq, true_and] at this
  exact ⟨date, time, k, m, rfl, this.1.symm, this.2.symm, h1, h2⟩

/-- **C55**: a name of version 1 which is the only one in the directory with its scan id and suffix is found by the scan id, if
its scan number has at most five digits (see `C55_large_number`), whatever other files of version 1 there are. -/
theorem C55_version1_found (dir : List Name) (hdir : ∀ name ∈ dir, IsName1 name) (hnd : dir.Nodup) (num th : Option Nat)
    (s : Suffix) (date time : Name) (hd : '_' ∉ date) (ht : '_' ∉ time) (k n : Nat) (hn : n < 100000)
    (hmem : name1 date time k n s ∈ dir)
    (honly : ∀ date' time' n', name1 date' time' k n' s ∈ dir → name1 date' time' k n' s = name1 date time k n s)
    (version : Option Nat) (hv : version = none ∨ version = some 1) :
    getScanPath dir num (some k) th s version = .ok (name1 date time k n s, some (n : Int), some (k : Int)) := by
  have hrun : runVersion dir num (some k) th s 1 = .ok (name1 date time k n s, some (n : Int), some (k : Int)) := by
    show version1 dir num (some k) s = _
    obtain ⟨pat, h1, h2⟩ := pattern1_iff num (some k) s (.inl (by simp))
    unfold version1
    rw [h1]
    simp only
    have hin : name1 date time k n s ∈ dir.filter (glob pat) :=
      List.mem_filter.2 ⟨hmem, (h2 _).2 ((requested1_id date time k k n num s s).2 ⟨rfl, rfl, hn⟩)⟩
    have hall : ∀ x ∈ dir.filter (glob pat), x = name1 date time k n s := by
      intro x hx
      obtain ⟨hx1, hx2⟩ := List.mem_filter.1 hx
      obtain ⟨d', t', k', n', s', _, _, rfl⟩ := hdir x hx1
      obtain ⟨rfl, rfl, _⟩ := (requested1_id d' t' k k' n' num s s').1 ((h2 _).1 hx2)
      exact honly d' t' n' hx1
    have hone : dir.filter (glob pat) = [name1 date time k n s] := by
      have hnd2 := hnd.filter (glob pat)
      generalize dir.filter (glob pat) = l at hin hall hnd2
      match l with
      | [] => cases hin
      | [x] => rw [hall x (by simp)]
      | x :: y :: l =>
        have hx := hall x (by simp)
        have hy := hall y (by simp)
        rw [hx, hy] at hnd2
        exact absurd (List.mem_cons_self ..) (List.nodup_cons.1 hnd2).1
    rw [hone]
    show parts1 _ = _
    exact parts1_name1 date time hd ht k n s
  rw [getScanPath_eq]
  rcases hv with rfl | rfl <;> simp only [versions, List.map_cons, tryVersions, hrun] <;> rfl

/-- **C55** (limit of the pattern): a name of version 1 with a scan number of six digits or more is not found by its scan id. -/
theorem C55_large_number (num th : Option Nat) (s : Suffix) (date time : Name) (k n : Nat) (hn : 100000 ≤ n) :
    getScanPath [name1 date time k n s] num (some k) th s (some 1) = .throw "FileNotFoundError" := by
  rw [C55_none _ _ _ _ _ _ (.inl (by simp)) (.inr (.inr rfl))]
  intro v hv name hname hreq
  simp only [versions, List.mem_singleton] at hv hname
  subst hv hname
  have hreq : Requested1 num (some k) s (name1 date time k n s) := by simpa [Requested] using hreq
  have := (requested1_id date time k k n num s s).1 hreq
  omega

theorem contains_append (t u v : Name) : contains t (u ++ t ++ v) = true := by
  unfold contains
  rw [List.any_eq_true]
  refine ⟨t ++ v, (List.mem_tails _ _).2 ⟨u, by simp⟩, ?_⟩
  simp

theorem contains_cons {t : Name} {c d : Char} {s : Name} (h : d ≠ c) : contains (c :: t) (d :: s) = contains (c :: t) s := by
  have : c ≠ d := fun e => h e.symm
  simp [contains, List.isPrefixOf, this]

theorem contains_digits {t : Name} {c : Char} (hc : c.isDigit = false) (w s : Name) (hw : ∀ d ∈ w, d.isDigit = true) :
    contains (c :: t) (w ++ s) = contains (c :: t) s := by
  induction w with
  | nil => rfl
  | cons d w ih =>
    rw [List.cons_append, contains_cons (digit_ne (hw d (by simp)) hc)]
    exact ih fun x hx => hw x (by simp [hx])

/-- **C55** for names of version 0, as far as it holds: the scan id of a requested name begins with the digits of the requested
scan id. Missing: that it is the requested one, see `C55_version0_false`. -/
theorem C55_version0_partial (num th : Option Nat) (i k n : Nat) (s s' : Suffix)
    (h : Requested 0 num (some i) th s (name0 k n s')) : str i <+: str k := by
  have h : Requested0 num (some i) th s (name0 k n s') := by simpa [Requested] using h
  obtain ⟨u, w, h⟩ := h
  have hno : ∀ x : Name, (∀ d ∈ x, d.isDigit = true) →
      contains ['_', 'i', 'd'] (x ++ (['_', 'e', 'l', 'e', 'c', 't', 'r', 'o', 'n', 's'] ++ s'.tail)) = false := by
    intro x hx
    rw [contains_digits (by decide) _ _ hx]
    cases s' <;> decide
  have hno2 : ∀ x : Name, (∀ d ∈ x, d.isDigit = true) → contains ['_', 'i', 'd'] ('i' :: 'd' ::
      (x ++ (['_', 'e', 'l', 'e', 'c', 't', 'r', 'o', 'n', 's'] ++ s'.tail))) = false := by
    intro x hx
    rw [contains_cons (by decide), contains_cons (by decide), hno x hx]
  have h2 : (['d', 'a', 't', 'a', '_', 's', 'c', 'a', 'n'] ++ str n) ++ ('_' :: 'i' :: 'd' ::
      (str k ++ (['_', 'e', 'l', 'e', 'c', 't', 'r', 'o', 'n', 's'] ++ s'.tail))) =
      u ++ (['_', 'i', 'd'] ++ (str i ++ w ++ s.tail)) := by
    simpa [name0] using h
  rcases List.append_eq_append_iff.1 h2 with ⟨e, h3, h4⟩ | ⟨e, h3, h4⟩
  · cases e with
    | nil =>
      simp only [List.nil_append, List.cons_append, List.cons.injEq, true_and] at h4
      have h5 : str k <+: str k ++ ('_' :: (['e', 'l', 'e', 'c', 't', 'r', 'o', 'n', 's'] ++ s'.tail)) := List.prefix_append ..
      have h6 : str i <+: str k ++ ('_' :: (['e', 'l', 'e', 'c', 't', 'r', 'o', 'n', 's'] ++ s'.tail)) :=
        ⟨w ++ s.tail, by simpa using h4.symm⟩
      rcases List.prefix_or_prefix_of_prefix h6 h5 with h7 | ⟨r, hr⟩
      · exact h7
      · cases r with
        | nil => simp only [List.append_nil] at hr; rw [hr]
        | cons c r =>
          exfalso
          obtain ⟨v, hv⟩ := h6
          rw [← hr, List.append_assoc, List.append_cancel_left_eq] at hv
          simp only [List.cons_append, List.cons.injEq] at hv
          have : c.isDigit = true := str_digit (n := i) (by rw [← hr]; simp)
          exact digit_ne this (by decide) hv.1
    | cons c e =>
      exfalso
      simp only [List.cons_append, List.cons.injEq] at h4
      have := contains_append ['_', 'i', 'd'] e (str i ++ w ++ s.tail)
      have h5 : e ++ ['_', 'i', 'd'] ++ (str i ++ w ++ s.tail) = 'i' :: 'd' ::
          (str k ++ (['_', 'e', 'l', 'e', 'c', 't', 'r', 'o', 'n', 's'] ++ s'.tail)) := by
        rw [List.append_assoc]; exact h4.2.symm
      rw [h5, hno2 _ fun d hd => str_digit hd] at this
      cases this
  · cases e with
    | nil =>
      simp only [List.nil_append, List.cons_append, List.cons.injEq, true_and] at h4
      have h5 : str k <+: str k ++ ('_' :: (['e', 'l', 'e', 'c', 't', 'r', 'o', 'n', 's'] ++ s'.tail)) := List.prefix_append ..
      have h6 : str i <+: str k ++ ('_' :: (['e', 'l', 'e', 'c', 't', 'r', 'o', 'n', 's'] ++ s'.tail)) :=
        ⟨w ++ s.tail, by simpa using h4⟩
      rcases List.prefix_or_prefix_of_prefix h6 h5 with h7 | ⟨r, hr⟩
      · exact h7
      · cases r with
        | nil => simp only [List.append_nil] at hr; rw [hr]
        | cons c r =>
          exfalso
          obtain ⟨v, hv⟩ := h6
          rw [← hr, List.append_assoc, List.append_cancel_left_eq] at hv
          simp only [List.cons_append, List.cons.injEq] at hv
          have : c.isDigit = true := str_digit (n := i) (by rw [← hr]; simp)
          exact digit_ne this (by decide) hv.1
    | cons c e =>
      exfalso
      -- the text would begin inside of `data_scan{num}`
      simp only [List.cons_append, List.nil_append, List.cons.injEq] at h4
      have h5 : contains ['_', 'i'] (['d', 'a', 't', 'a', '_', 's', 'c', 'a', 'n'] ++ str n ++ ['_']) = true := by
        rw [h3]
        obtain ⟨rfl, h4⟩ := h4
        cases e with
        | nil => simp at h4
        | cons x e =>
          simp only [List.cons_append, List.cons.injEq] at h4
          obtain ⟨rfl, _⟩ := h4
          have := contains_append ['_', 'i'] u (e ++ ['_'])
          simpa using this
      have h6 : contains ['_', 'i'] (['d', 'a', 't', 'a', '_', 's', 'c', 'a', 'n'] ++ str n ++ ['_']) = false := by
        have : contains ['_', 'i'] (str n ++ ['_']) = false := by
          rw [contains_digits (by decide) _ _ fun d hd => str_digit hd]; decide
        have h7 : contains ['_', 'i'] ('_' :: 's' :: 'c' :: 'a' :: 'n' :: (str n ++ ['_'])) =
            contains ['_', 'i'] ('s' :: 'c' :: 'a' :: 'n' :: (str n ++ ['_'])) := by
          simp [contains, List.isPrefixOf]
        simp only [List.cons_append, List.nil_append]
        rw [contains_cons (by decide), contains_cons (by decide), contains_cons (by decide), contains_cons (by decide), h7,
          contains_cons (by decide), contains_cons (by decide), contains_cons (by decide), contains_cons (by decide), this]
      rw [h6] at h5
      cases h5

/-- **C55 is violated for version 0**: a request for scan id 1 returns the file with scan id 12. -/
theorem C55_version0_false : getScanPath [name0 12 5 .standard] none (some 1) none .standard none =
    .ok (name0 12 5 .standard, some 5, some 12) := by decide

/-- **C55 is violated for version 0**: a request for scan number 1 returns the file with scan number 12. -/
theorem C55_version0_number_false : getScanPath [name0 7 12 .standard] (some 1) none none .standard none =
    .ok (name0 7 12 .standard, some 12, some 7) := by decide

/-- **C55 is violated for version 0**: a request for the standard file returns another one. -/
theorem C55_version0_suffix_false : getScanPath [name0 12 5 .centered] none (some 12) none .standard none =
    .ok (name0 12 5 .centered, some 5, some 12) := by decide

/-- **C55 is violated if both numbers are given**: the scan number is not looked at. -/
theorem C55_number_ignored : getScanPath [name1 ['2', '3'] ['1', '2'] 12 5 .standard] (some 7) (some 12) none .standard none =
    .ok (name1 ['2', '3'] ['1', '2'] 12 5 .standard, some 5, some 12) := by decide

/-- The hypotheses of `C55_version1_found` hold in a directory with several files. -/
example : getScanPath [name1 ['2', '3'] ['1', '2'] 12 5 .standard, name1 ['2', '3'] ['1', '2'] 12 5 .offsets,
    name1 ['2', '3'] ['1', '4'] 112 6 .standard] none (some 12) none .standard none =
    .ok (name1 ['2', '3'] ['1', '2'] 12 5 .standard, some 5, some 12) := by decide

/-- Two files of version 0 for a scan id. -/
example : getScanPath [name0 12 5 .standard, name0 120 6 .standard] none (some 12) none .standard none =
    .throw "ValueError" := by decide

end Stempy.ScanPath
