import Verif.Model.Example
import Verif.Props.ScanPath
import Mathlib.Data.List.Perm.Subperm

/-!
C75: the output file of `examples/electron_count.py`.
-/

namespace Stempy.Example
open Stempy.ScanPath

private theorem str_underscore (n : Nat) : '_' ∉ str n := fun h => digit_ne (str_digit h) (by decide) rfl

private theorem pad3_digit {ii : Nat} {c : Char} (h : c ∈ pad3 ii) : c.isDigit = true := by
  unfold pad3 at h
  rcases List.mem_append.1 h with h | h
  · rw [(List.mem_replicate.1 h).2]; decide
  · exact str_digit h

private theorem pad3_ne_nil (ii : Nat) : pad3 ii ≠ [] := by
  unfold pad3 str
  simp [Nat.toDigits_ne_nil]

private theorem pad3_value (ii : Nat) : Nat.ofDigitChars 10 (pad3 ii) 0 = ii := by
  unfold pad3
  rw [Nat.ofDigitChars_append, Nat.ofDigitChars_replicate_zero, Nat.mul_zero]
  exact Nat.ofDigitChars_toDigits (by omega) (by omega)

private theorem stem_result (n : Nat) :
    stem (resultName n) = "data_scan".toList ++ str n ++ "_id0000_electrons".toList := by
  have e : resultName n = ("data_scan".toList ++ str n ++ "_id0000_electrons".toList) ++ ".h5".toList := by
    unfold resultName
    rw [List.append_assoc, List.append_assoc]
    rfl
  have e2 : (resultName n).reverse.takeWhile (· ≠ '.') = "5h".toList := by
    rw [e, List.reverse_append]
    rfl
  unfold stem
  simp only [e2]
  have len : (resultName n).length =
      ("data_scan".toList ++ str n ++ "_id0000_electrons".toList).length + 3 := by
    rw [e, List.length_append]; rfl
  have l5 : "5h".toList.length = 2 := rfl
  have pos : 0 < ("data_scan".toList ++ str n ++ "_id0000_electrons".toList).length := by
    rw [List.append_assoc, List.length_append]
    have : "data_scan".toList.length = 9 := rfl
    omega
  rw [if_neg (by rw [len, l5]; rintro (h | h | h); omega; omega; cases h), len, l5, e]
  rw [List.take_left' (by omega)]

private theorem numbered_eq (n ii : Nat) :
    numberedName n ii = ("data_scan".toList ++ str n ++ "_id0000_electrons".toList ++ ['_']) ++ pad3 ii ++
      ".h5".toList := by
  unfold numberedName
  rw [stem_result]
  simp

private theorem numbered_inj {n ii jj : Nat} (h : numberedName n ii = numberedName n jj) : ii = jj := by
  rw [numbered_eq, numbered_eq, List.append_cancel_right_eq, List.append_cancel_left_eq] at h
  rw [← pad3_value ii, h, pad3_value]

/-- A numbered name has a digit where the first name has a letter. -/
private theorem numbered_last (n ii : Nat) :
    ∃ (a : Name) (d : Char), d.isDigit = true ∧ numberedName n ii = a ++ (d :: ".h5".toList) := by
  rw [numbered_eq]
  obtain ⟨p, d, hp⟩ : ∃ p d, pad3 ii = p ++ [d] :=
    ⟨(pad3 ii).dropLast, (pad3 ii).getLast (pad3_ne_nil ii), (List.dropLast_append_getLast _).symm⟩
  refine ⟨"data_scan".toList ++ str n ++ "_id0000_electrons".toList ++ ['_'] ++ p, d,
    pad3_digit (ii := ii) (by rw [hp]; simp), ?_⟩
  rw [hp]
  simp

private theorem numbered_not_electrons (n ii : Nat) (u : Name) :
    numberedName n ii ≠ u ++ "electrons.h5".toList := by
  intro h
  obtain ⟨a, d, hd, e⟩ := numbered_last n ii
  have e2 : u ++ "electrons.h5".toList = (u ++ "electron".toList) ++ ('s' :: ".h5".toList) := by
    rw [List.append_assoc]; rfl
  rw [e, e2] at h
  have := (List.append_inj' h rfl).2
  have : d = 's' := by simpa using (List.cons.inj this).1
  rw [this] at hd
  exact absurd hd (by decide)

private theorem result_electrons (n : Nat) :
    resultName n = "data_scan".toList ++ str n ++ "_id0000_".toList ++ "electrons.h5".toList := by
  unfold resultName
  rw [List.append_assoc, List.append_assoc, List.append_assoc]
  rfl

private theorem numbered_ne (n ii : Nat) : numberedName n ii ≠ resultName n := by
  rw [result_electrons]
  exact numbered_not_electrons n ii _

/-- **C75** (nothing is overwritten): the file written did not exist. -/
theorem C75_fresh {dir : List Name} {n : Nat} {r : Name} (h : Output dir n r) : r ∉ dir := by
  have gen : ∀ ii p r, Search dir n ii p r → r ∉ dir := by
    intro ii p r hs
    clear h
    induction hs with
    | stop h => exact h
    | next _ _ ih => exact ih
  exact gen _ _ _ h

private theorem search_spec {dir : List Name} {n : Nat} {ii : Nat} {p r : Name}
    (h : Search dir n ii p r) :
    (r = p ∧ p ∉ dir) ∨ (p ∈ dir ∧ ∃ k, ii < k ∧ r = numberedName n k ∧ r ∉ dir ∧
      ∀ j, ii < j → j < k → numberedName n j ∈ dir) := by
  induction h with
  | stop h => exact .inl ⟨rfl, h⟩
  | @next ii p r hp hs ih =>
    right
    refine ⟨hp, ?_⟩
    rcases ih with ⟨rfl, h⟩ | ⟨hin, k, hk, rfl, hn, hj⟩
    · exact ⟨ii + 1, by omega, rfl, h, fun j h1 h2 => by omega⟩
    · refine ⟨k, by omega, rfl, hn, fun j h1 h2 => ?_⟩
      rcases Nat.lt_or_ge (ii + 1) j with h | h
      · exact hj j h h2
      · have : j = ii + 1 := by omega
        rw [this]; exact hin

/-- **C75** (which name): the plain name if it is free, and else the name with the smallest free number. -/
theorem C75_name {dir : List Name} {n : Nat} {r : Name} (h : Output dir n r) :
    (resultName n ∉ dir ∧ r = resultName n) ∨
    (resultName n ∈ dir ∧ ∃ k, 1 ≤ k ∧ r = numberedName n k ∧ r ∉ dir ∧
      ∀ j, 1 ≤ j → j < k → numberedName n j ∈ dir) := by
  rcases search_spec h with ⟨h1, h2⟩ | ⟨h1, k, hk, h2, h3, h4⟩
  · exact .inl ⟨h2, h1⟩
  · exact .inr ⟨h1, k, hk, h2, h3, h4⟩

/-- **C75** (form of the names): the number is written with at least three digits. -/
theorem C75_digits (n k : Nat) :
    ∃ z, numberedName n k = "data_scan".toList ++ Nat.toDigits 10 n ++ "_id0000_electrons_".toList ++ List.replicate z '0' ++
        Nat.toDigits 10 k ++ ".h5".toList ∧
      z + (Nat.toDigits 10 k).length = max 3 (Nat.toDigits 10 k).length := by
  refine ⟨3 - (Nat.toDigits 10 k).length, ?_, by omega⟩
  rw [numbered_eq]
  simp [pad3, str]

private theorem search_exists {dir : List Name} {n : Nat} (k : Nat) :
    ∀ ii p, (numberedName n (ii + 1 + k) ∉ dir) → ∃ r, Search dir n ii p r := by
  induction k with
  | zero =>
    intro ii p h
    by_cases hp : p ∈ dir
    · exact ⟨_, .next hp (.stop h)⟩
    · exact ⟨_, .stop hp⟩
  | succ k ih =>
    intro ii p h
    by_cases hp : p ∈ dir
    · obtain ⟨r, hr⟩ := ih (ii + 1) (numberedName n (ii + 1)) (by
        rw [show ii + 1 + 1 + k = ii + 1 + (k + 1) by omega]; exact h)
      exact ⟨r, .next hp hr⟩
    · exact ⟨_, .stop hp⟩

/-- **C75** (termination): for every directory the loop ends, with a name determined by the directory. -/
theorem C75_terminates (dir : List Name) (n : Nat) : ∃ r, Output dir n r ∧ ∀ r', Output dir n r' → r' = r := by
  have free : ∃ k, numberedName n (0 + 1 + k) ∉ dir := by
    refine Classical.byContradiction fun hno => ?_
    have hall : ∀ k, numberedName n (0 + 1 + k) ∈ dir := fun k =>
      Classical.byContradiction fun hk => hno ⟨k, hk⟩
    have hnd : ((List.range (dir.length + 1)).map fun k => numberedName n (0 + 1 + k)).Nodup := by
      rw [List.nodup_iff_pairwise_ne, List.pairwise_map]
      refine (List.nodup_iff_pairwise_ne.1 List.nodup_range).imp fun hne h => hne ?_
      have := numbered_inj h
      omega
    have hsub : ((List.range (dir.length + 1)).map fun k => numberedName n (0 + 1 + k)) ⊆ dir := by
      intro x hx
      obtain ⟨k, _, rfl⟩ := List.mem_map.1 hx
      exact hall k
    have := (List.Nodup.subperm hnd hsub).length_le
    simp only [List.length_map, List.length_range] at this
    omega
  obtain ⟨k, hk⟩ := free
  obtain ⟨r, hr⟩ := search_exists k 0 (resultName n) hk
  refine ⟨r, hr, fun r' hr' => ?_⟩
  have det : ∀ ii p r, Search dir n ii p r → ∀ r', Search dir n ii p r' → r' = r := by
    intro ii p r h
    induction h with
    | stop hp =>
      intro r' h'
      cases h' with
      | stop _ => rfl
      | next hp' _ => exact absurd hp' hp
    | next hp _ ih =>
      intro r' h'
      cases h' with
      | stop hp' => exact absurd hp hp'
      | next _ h'' => exact ih r' h''
  exact det _ _ _ hr r' hr'

/-- **C75** (repeated runs): after `k` runs for one scan into an empty directory there are `k` files, the
plain name and then the numbers 1, 2, … in order. -/
theorem C75_runs {n : Nat} {dir : List Name} (h : Runs n dir) :
    dir = (List.range dir.length).map fun k => if k = 0 then resultName n else numberedName n k := by
  induction h with
  | none => rfl
  | @run dir r hd ho ih =>
    rw [List.length_append, List.length_singleton, List.range_succ, List.map_append, ← ih]
    congr 1
    simp only [List.map_cons, List.map_nil, List.cons.injEq, and_true]
    have inj : ∀ k, numberedName n (k + 1) ∈ dir ↔ k + 1 < dir.length := by
      intro k
      rw [ih]
      simp only [List.mem_map, List.mem_range, List.length_map, List.length_range]
      constructor
      · rintro ⟨j, hj, e⟩
        split at e
        · exact absurd e.symm (numbered_ne n _)
        · rw [← numbered_inj e]; exact hj
      · intro hk
        exact ⟨k + 1, hk, by simp⟩
    have zero : resultName n ∈ dir ↔ 0 < dir.length := by
      rw [ih]
      simp only [List.mem_map, List.mem_range, List.length_map, List.length_range]
      constructor
      · rintro ⟨j, hj, e⟩; omega
      · intro hk; exact ⟨0, hk, by simp⟩
    rcases C75_name ho with ⟨h1, h2⟩ | ⟨h1, k, hk, h2, h3, h4⟩
    · have : dir.length = 0 := by
        rcases Nat.eq_zero_or_pos dir.length with h | h
        · exact h
        · exact absurd (zero.2 h) h1
      rw [h2, if_pos this]
    · have hpos := zero.1 h1
      obtain ⟨k, rfl⟩ : ∃ k', k = k' + 1 := ⟨k - 1, by omega⟩
      rw [h2, inj] at h3
      have : k + 1 = dir.length := by
        rcases Nat.eq_zero_or_pos k with h | h
        · omega
        · obtain ⟨k', rfl⟩ : ∃ k', k = k' + 1 := ⟨k - 1, by omega⟩
          have := (inj k').1 (h4 (k' + 1) (by omega) (by omega))
          omega
      rw [h2, if_neg (by omega), this]

private theorem parts_result (n : Nat) :
    parts0 (split (resultName n)) (some (n : Int)) none = .ok (some (n : Int), some 0) := by
  have hs : split (resultName n) =
      ["data".toList, "scan".toList ++ str n, "id0000".toList, "electrons.h5".toList] := by
    have e : resultName n = "data".toList ++ '_' :: (("scan".toList ++ str n) ++ '_' ::
        ("id0000".toList ++ '_' :: "electrons.h5".toList)) := by
      unfold resultName
      simp
    rw [e, split_cons (by decide), split_cons ?_, split_cons (by decide)]
    · rfl
    · intro h
      rcases List.mem_append.1 h with h | h
      · exact absurd h (by decide)
      · exact str_underscore n h
  have hid : contains ['i', 'd'] ("scan".toList ++ str n) = false := by
    have : contains ['i', 'd'] (str n) = false := by
      have := contains_digits (t := ['d']) (c := 'i') (by decide) (str n) [] fun d hd => str_digit hd
      rw [List.append_nil] at this
      rw [this]; decide
    show contains ['i', 'd'] ('s' :: 'c' :: 'a' :: 'n' :: str n) = false
    rw [contains_cons (by decide), contains_cons (by decide), contains_cons (by decide),
      contains_cons (by decide), this]
  have hscan : contains ['s', 'c', 'a', 'n'] ("scan".toList ++ str n) = true := by
    have := contains_append ['s', 'c', 'a', 'n'] [] (str n)
    simpa using this
  have hdrop : ("scan".toList ++ str n).drop 4 = str n := rfl
  have hint : toInt (str n) = .ok (n : Int) := by
    rw [toInt_digits (w := str n) Nat.toDigits_ne_nil fun c h => str_digit h]
    exact congrArg (fun k : Nat => Outcome.ok (k : Int)) (Nat.ofDigitChars_toDigits (by omega) (by omega))
  rw [hs]
  simp only [parts0, hid, hscan, hdrop, hint]
  rfl

/-- **C75** (finding the result): after any number of runs for a scan, `get_scan_path` by scan number
returns the file of the *first* run; the numbered files of later runs are never found. -/
theorem C75_found {n : Nat} {dir : List Name} (h : Runs n dir) (hne : dir ≠ [])
    {version : Option Nat} (hv : version = none ∨ version = some 0) :
    getScanPath dir (some n) none none .standard version = .ok (resultName n, some (n : Int), some 0) := by
  have hdir := C75_runs h
  have hlen : 0 < dir.length := List.length_pos_iff.2 hne
  have mem : ∀ x ∈ dir, x = resultName n ∨ ∃ k, x = numberedName n k := by
    intro x hx
    rw [hdir] at hx
    obtain ⟨k, _, rfl⟩ := List.mem_map.1 hx
    by_cases hk : k = 0
    · exact .inl (by rw [if_pos hk])
    · exact .inr ⟨k, by rw [if_neg hk]⟩
  have first : resultName n ∈ dir := by
    rw [hdir]
    exact List.mem_map.2 ⟨0, List.mem_range.2 hlen, by simp⟩
  have hnd : dir.Nodup := by
    rw [hdir, List.nodup_iff_pairwise_ne, List.pairwise_map]
    refine (List.nodup_iff_pairwise_ne.1 List.nodup_range).imp fun {a b} hab e => ?_
    split at e <;> split at e
    · omega
    · exact numbered_ne n b e.symm
    · exact numbered_ne n a e
    · exact hab (numbered_inj e)
  have v1 : runVersion dir (some n) none none .standard 1 = .throw "FileNotFoundError" := by
    obtain ⟨found, _, hf, hc⟩ := runVersion_cases dir (some n) none none .standard 1 (.inr rfl)
      (.inr (by simp))
    have nil : found = [] := by
      refine List.eq_nil_iff_forall_not_mem.2 fun x hx => ?_
      obtain ⟨hxd, hr⟩ := (hf x).1 hx
      rcases hr with ⟨_, u, w, e⟩ | ⟨h0, _⟩
      · have hd : x.head? = some 'd' := by
          rcases mem x hxd with rfl | ⟨k, rfl⟩
          · rfl
          · rw [numbered_eq]; rfl
        rw [e] at hd
        exact absurd hd (by simp)
      · cases h0
    rcases hc with ⟨_, hc⟩ | ⟨p, hp, _⟩ | ⟨hp, _⟩
    · exact hc
    · rw [nil] at hp; cases hp
    · rw [nil] at hp; simp at hp
  have v0 : runVersion dir (some n) none none .standard 0 =
      .ok (resultName n, some (n : Int), some 0) := by
    obtain ⟨pat, h1, h2⟩ := pattern0_iff (some n) none none .standard (.inr (by simp))
    have req : ∀ x ∈ dir, glob pat x = true → x = resultName n := by
      intro x hx hg
      rcases mem x hx with e | ⟨k, rfl⟩
      · exact e
      · obtain ⟨u, hu⟩ := (h2 _).1 hg
        refine absurd hu ?_
        have : (['e', 'l', 'e', 'c', 't', 'r', 'o', 'n', 's'] ++ Suffix.standard.tail : Name) =
          "electrons.h5".toList := rfl
        rw [List.append_assoc, this]
        exact numbered_not_electrons n k _
    have reqr : glob pat (resultName n) = true := by
      refine (h2 _).2 ⟨"_id0000_".toList, ?_⟩
      rw [result_electrons, List.append_assoc _ _ (Suffix.standard.tail)]
      rfl
    have hfil : dir.filter (glob pat) = [resultName n] := by
      have hin : resultName n ∈ dir.filter (glob pat) := List.mem_filter.2 ⟨first, reqr⟩
      have hall : ∀ x ∈ dir.filter (glob pat), x = resultName n := fun x hx =>
        req x (List.mem_filter.1 hx).1 (List.mem_filter.1 hx).2
      have hn2 : (dir.filter (glob pat)).Nodup := hnd.filter _
      match hm : dir.filter (glob pat) with
      | [] => rw [hm] at hin; cases hin
      | [a] => rw [hall a (by rw [hm]; simp)]
      | a :: b :: l =>
        rw [hm] at hn2 hall
        have ha := hall a (by simp)
        have hb := hall b (by simp)
        rw [ha, hb] at hn2
        simp at hn2
    show version0 dir (some n) none none .standard = _
    unfold version0
    rw [h1]
    simp only [hfil, onlyOne]
    show (parts0 (split (resultName n)) (some (n : Int)) none).bind _ = _
    rw [parts_result]
    rfl
  unfold getScanPath
  rcases hv with rfl | rfl
  · simp only [List.map_cons, List.map_nil, tryVersions, v1, v0]
    rfl
  · simp only [List.map_cons, List.map_nil, tryVersions, v0]
    rfl

/-- three runs for scan 7 -/
example : Runs 7 ["data_scan7_id0000_electrons.h5".toList, "data_scan7_id0000_electrons_001.h5".toList,
    "data_scan7_id0000_electrons_002.h5".toList] :=
  .run (.run (.run .none (.stop (by decide))) (.next (by decide) (.stop (by decide))))
    (.next (by decide) (.next (by decide) (.stop (by decide))))

end Stempy.Example
