import Verif.Model.SectorName
import Mathlib.Tactic.Common

/-!
C62: the sector of a file.
-/

namespace Stempy.SectorName

/-- The text of which the number is used: `module` followed by a digit, with `.data` after it. -/
def IsModule (s : List Char) : Prop :=
  ∃ c r, s = "module".toList ++ c :: r ∧ c.isDigit = true ∧ ".data".toList <:+: r

private theorem contains_iff (t s : List Char) : contains t s = true ↔ t <:+: s := by
  unfold contains
  rw [List.any_eq_true]
  constructor
  · rintro ⟨r, h1, h2⟩
    rw [List.mem_tails] at h1
    rw [List.isPrefixOf_iff_prefix] at h2
    exact h2.isInfix.trans h1.isInfix
  · rintro ⟨a, b, h⟩
    refine ⟨t ++ b, ?_, ?_⟩
    · rw [List.mem_tails, ← h, List.append_assoc]
      exact List.suffix_append _ _
    · rw [List.isPrefixOf_iff_prefix]
      exact List.prefix_append _ _

private theorem infix_skip {t : List Char} {c : Char} (hc : c.isDigit = false) (w s : List Char) (hw : ∀ d ∈ w, d.isDigit = true) :
    (c :: t) <:+: (w ++ s) ↔ (c :: t) <:+: s := by
  induction w with
  | nil => rfl
  | cons d w ih =>
    rw [List.cons_append, List.infix_cons_iff]
    have hd := hw d (by simp)
    constructor
    · rintro (h | h)
      · rw [List.cons_prefix_cons] at h
        rw [h.1, hd] at hc
        cases hc
      · exact (ih fun x hx => hw x (by simp [hx])).1 h
    · intro h
      exact Or.inr ((ih fun x hx => hw x (by simp [hx])).2 h)

private theorem matchAt_none {s : List Char} (h : ¬ IsModule s) : matchAt s = none := by
  unfold matchAt
  split
  · rename_i hp
    rw [List.isPrefixOf_iff_prefix] at hp
    obtain ⟨r, rfl⟩ := hp
    simp only [List.cons_append, List.nil_append, List.drop_succ_cons, List.drop_zero]
    split
    · rename_i hc
      exfalso
      apply h
      cases r with
      | nil => simp at hc
      | cons c r =>
        by_cases hdig : c.isDigit = true
        · refine ⟨c, r, rfl, hdig, ?_⟩
          have h2 := (contains_iff _ _).1 hc.2
          rw [List.dropWhile_cons_of_pos hdig] at h2
          refine h2.trans ?_
          exact (List.dropWhile_suffix _).isInfix
        · rw [List.takeWhile_cons_of_neg hdig] at hc
          exact absurd rfl hc.1
    · rfl
  · rfl

private theorem lastMatch_none {s : List Char} (h : ∀ r, r <:+ s → ¬ IsModule r) : lastMatch s = none := by
  induction s with
  | nil => rfl
  | cons c s ih =>
    rw [lastMatch, ih fun r hr => h r (hr.trans (List.suffix_cons c s))]
    exact matchAt_none (h _ (List.suffix_refl _))

private theorem lastMatch_append {s : List Char} {d : List Char} (h : lastMatch s = some d) (p : List Char) :
    lastMatch (p ++ s) = some d := by
  induction p with
  | nil => exact h
  | cons c p ih => rw [List.cons_append, lastMatch, ih]

private theorem lastMatch_skip {c : Char} {s : List Char} (hc : c ≠ 'm') (h : lastMatch s = none) : lastMatch (c :: s) = none := by
  rw [lastMatch, h]
  refine matchAt_none ?_
  rintro ⟨d, r, h1, _, _⟩
  have : c = 'm' := by
    have := congrArg List.head? h1
    simpa using this
  exact hc this

/-- **C62** The sector is the number after the last `module` which has a number and `.data` behind it, whatever precedes it in the
path and however many leading zeros it has. -/
theorem C62_sector (pre rest : List Char) (zeros n : Nat) (hn : n < 2 ^ 31) (hdigit : ∀ c ∈ rest.head?, c.isDigit = false)
    (hdata : ".data".toList <:+: rest) (hlast : ∀ r, r <:+ rest → ¬ IsModule r) :
    extractSector (pre ++ "module".toList ++ List.replicate zeros '0' ++ Nat.toDigits 10 n ++ rest) = .ok (n : Int) := by
  obtain ⟨ds, hds⟩ : ∃ ds, ds = List.replicate zeros '0' ++ Nat.toDigits 10 n := ⟨_, rfl⟩
  have hdig : ∀ c ∈ ds, c.isDigit = true := by
    intro c hc
    rw [hds] at hc
    rcases List.mem_append.1 hc with h | h
    · rw [(List.mem_replicate.1 h).2]; decide
    · exact Nat.isDigit_of_mem_toDigits (by omega) (by omega) h
  have hval : Nat.ofDigitChars 10 ds 0 = n := by
    rw [hds, Nat.ofDigitChars_append, Nat.ofDigitChars_replicate_zero, Nat.mul_zero]
    exact Nat.ofDigitChars_toDigits (by omega) (by omega)
  have hne : ds ≠ [] := by
    intro h0
    have := congrArg List.length hds
    rw [h0] at this
    have h1 : 0 < (Nat.toDigits 10 n).length := Nat.length_toDigits_pos
    simp at this
    omega
  have htake : (ds ++ rest).takeWhile Char.isDigit = ds ∧ (ds ++ rest).dropWhile Char.isDigit = rest := by
    rw [List.takeWhile_append_of_pos hdig, List.dropWhile_append_of_pos hdig]
    cases rest with
    | nil => simp
    | cons c r =>
      have hc := hdigit c (by simp)
      rw [List.takeWhile_cons_of_neg (by simp [hc]), List.dropWhile_cons_of_neg (by simp [hc])]
      simp
  have hrest : lastMatch (ds ++ rest) = none := by
    have : ∀ l : List Char, (∀ c ∈ l, c.isDigit = true) → lastMatch (l ++ rest) = none := by
      intro l hl
      induction l with
      | nil => exact lastMatch_none hlast
      | cons c l ih =>
        refine lastMatch_skip ?_ (ih fun x hx => hl x (by simp [hx]))
        rintro rfl
        have := hl 'm' (by simp)
        revert this; decide
    exact this ds hdig
  have hmod : lastMatch (['m', 'o', 'd', 'u', 'l', 'e'] ++ (ds ++ rest)) = some ds := by
    have h5 : lastMatch (['o', 'd', 'u', 'l', 'e'] ++ (ds ++ rest)) = none := by
      simp only [List.cons_append, List.nil_append]
      exact lastMatch_skip (by decide) (lastMatch_skip (by decide) (lastMatch_skip (by decide)
        (lastMatch_skip (by decide) (lastMatch_skip (by decide) hrest))))
    rw [List.cons_append, lastMatch, h5]
    unfold matchAt
    have hp : ['m', 'o', 'd', 'u', 'l', 'e'].isPrefixOf ('m' :: (['o', 'd', 'u', 'l', 'e'] ++ (ds ++ rest))) = true := by
      rw [List.isPrefixOf_iff_prefix]
      exact List.prefix_append ['m', 'o', 'd', 'u', 'l', 'e'] (ds ++ rest)
    rw [if_pos hp]
    have hdrop : ('m' :: (['o', 'd', 'u', 'l', 'e'] ++ (ds ++ rest))).drop 6 = ds ++ rest := rfl
    simp only [hdrop, htake.1, htake.2]
    rw [if_pos ⟨hne, (contains_iff _ _).2 hdata⟩]
  have hall : pre ++ "module".toList ++ List.replicate zeros '0' ++ Nat.toDigits 10 n ++ rest =
      pre ++ (['m', 'o', 'd', 'u', 'l', 'e'] ++ (ds ++ rest)) := by
    rw [hds]
    simp
  unfold extractSector
  rw [hall, lastMatch_append hmod]
  simp only [hval, if_pos hn]

/-- **C62** A name without such a text has no sector. -/
theorem C62_none {s : List Char} (h : ∀ r, r <:+ s → ¬ IsModule r) : extractSector s = .ok (-1) := by
  unfold extractSector
  rw [lastMatch_none h]

/-- **C62** Exact: the result is -1 if and only if there is no such text. -/
theorem C62_none_iff (s : List Char) : extractSector s = .ok (-1) ↔ ∀ r, r <:+ s → ¬ IsModule r := by
  refine ⟨?_, C62_none⟩
  intro h r hr hm
  have hmatch : ∃ d, matchAt r = some d := by
    obtain ⟨c, t, rfl, hc, ht⟩ := hm
    unfold matchAt
    have hp : ['m', 'o', 'd', 'u', 'l', 'e'].isPrefixOf ("module".toList ++ c :: t) = true := by
      rw [List.isPrefixOf_iff_prefix]
      exact List.prefix_append ['m', 'o', 'd', 'u', 'l', 'e'] (c :: t)
    rw [if_pos hp]
    have hdrop : ("module".toList ++ c :: t).drop 6 = c :: t := rfl
    simp only [hdrop, List.takeWhile_cons_of_pos hc, List.dropWhile_cons_of_pos hc]
    refine ⟨_, if_pos ⟨by simp, ?_⟩⟩
    rw [contains_iff]
    have e : t = t.takeWhile Char.isDigit ++ t.dropWhile Char.isDigit := (List.takeWhile_append_dropWhile).symm
    rw [e] at ht
    refine (infix_skip (by decide) _ _ ?_).1 ht
    intro x hx
    exact List.all_eq_true.1 (List.all_takeWhile (p := Char.isDigit) (l := t)) x hx
  obtain ⟨d, hd⟩ := hmatch
  have hlast : ∃ d, lastMatch r = some d := by
    cases r with
    | nil => simp [matchAt] at hd
    | cons c r =>
      rw [lastMatch]
      split
      · exact ⟨_, rfl⟩
      · exact ⟨d, hd⟩
  obtain ⟨d', hd'⟩ := hlast
  obtain ⟨p, rfl⟩ := hr
  unfold extractSector at h
  rw [lastMatch_append hd' p] at h
  simp only at h
  split at h
  · simp only [Outcome.ok.injEq] at h
    omega
  · cases h

/-- **C62** A number that is no `int` is an error of the constructor of the reader. -/
theorem C62_large : extractSector "a_module2147483648.data".toList = .throw "stoi" := by decide +kernel

/-- **C62** The whole path is searched, so a directory can give the sector of a file whose name has none. -/
theorem C62_directory : extractSector "/mnt/module2/scan.data".toList = .ok 2 := by decide +kernel

example : extractSector "/data/module9/data_scan0000000012_module003.data".toList = .ok 3 ∧
    extractSector "data_scan12.data".toList = .ok (-1) := by decide +kernel

example : ".data".toList <:+: "_0001.data".toList ∧ (∀ c ∈ "_0001.data".toList.head?, c.isDigit = false) ∧
    ∀ r, r <:+ "_0001.data".toList → ¬ IsModule r := by
  refine ⟨⟨"_0001".toList, [], rfl⟩, by decide, ?_⟩
  intro r hr
  rw [← List.mem_tails] at hr
  rintro ⟨c, t, rfl, _, _⟩
  simp at hr

end Stempy.SectorName
