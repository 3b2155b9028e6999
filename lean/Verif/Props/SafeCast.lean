import Verif.Model.SafeCast
import Mathlib.Tactic.Linarith
import Mathlib.Tactic.Positivity
import Mathlib.Tactic.NormNum
import Mathlib.Tactic.Ring
import Mathlib.Data.Set.Finite.Lattice
import Mathlib.Data.Set.Finite.Lemmas
import Mathlib.Data.Finite.Prod
import Mathlib.Data.Set.Finite.Basic

/-! C56: casting a reference either keeps the values or raises. -/

namespace Stempy.SafeCast

theorem neq_false {x y : Val} : neq x y = false ↔ x = y ∧ x ≠ .nan := by
  unfold neq; simp

/-- `safeCast` looks at each element on its own. -/
theorem safeCast_cases (M : Machine) (old new : DType) (a : List Val) :
    ((∀ v ∈ a, cast M new old (cast M old new v) = v ∧ v ≠ .nan) ∧ safeCast M old new a = .ok (a.map (cast M old new))) ∨
    ((∃ v ∈ a, ¬ (cast M new old (cast M old new v) = v ∧ v ≠ .nan)) ∧ safeCast M old new a = .throw "ValueError") := by
  have key : (((a.map (cast M old new)).map (cast M new old)).zip a).any (fun p => neq p.1 p.2) = true ↔
      ∃ v ∈ a, ¬ (cast M new old (cast M old new v) = v ∧ v ≠ .nan) := by
    induction a with
    | nil => simp
    | cons v l ih =>
      simp only [List.map_cons, List.zip_cons_cons, List.any_cons, Bool.or_eq_true, List.mem_cons, exists_eq_or_imp]
      rw [ih]
      have : neq (cast M new old (cast M old new v)) v = true ↔ ¬ (cast M new old (cast M old new v) = v ∧ v ≠ .nan) := by
        rw [← not_iff_not, Bool.not_eq_true, neq_false, not_not]
        constructor
        · rintro ⟨h1, h2⟩; exact ⟨h1, by rwa [h1] at h2⟩
        · rintro ⟨h1, h2⟩; exact ⟨h1, by rwa [h1]⟩
      rw [this]
  unfold safeCast
  simp only
  by_cases h : ∃ v ∈ a, ¬ (cast M new old (cast M old new v) = v ∧ v ≠ .nan)
  · right
    exact ⟨h, by rw [if_pos (key.2 h)]⟩
  · left
    refine ⟨?_, by rw [if_neg fun h2 => h (key.1 h2)]⟩
    intro v hv
    by_contra hn
    exact h ⟨v, hv, hn⟩

/-- Every finite value of the first format is one of the second. -/
def Format.Sub (f g : Format) : Prop := ∀ q, f.Has q → g.Has q

theorem sub_of {f g : Format} (h1 : f.p ≤ g.p) (h2 : g.emin ≤ f.emin) (h3 : f.emax ≤ g.emax) : f.Sub g := by
  rintro q ⟨m, e, hm, h4, h5, rfl⟩
  exact ⟨m, e, lt_of_lt_of_le hm (pow_le_pow_right₀ (by norm_num) h1), by omega, by omega, rfl⟩

theorem float32_sub_float64 : float32.Sub float64 := sub_of (by decide) (by decide) (by decide)
theorem float16_sub_float32 : float16.Sub float32 := sub_of (by decide) (by decide) (by decide)

/-- **C56** for floating point types, of which one contains the values of the other (as those of numpy): the cast succeeds
exactly if no element is `NaN` and each finite one is a value of the new type, and then the elements are the same; else it
raises. -/
theorem C56_float (M : Machine) (hM : Faithful M) (old new : Format) (hs : new.Sub old ∨ old.Sub new) (a : List Val)
    (ha : ∀ v ∈ a, (DType.float old).Has v) :
    ((∀ v ∈ a, v ≠ .nan ∧ (DType.float new).Has v) ∧ safeCast M (.float old) (.float new) a = .ok a) ∨
    ((∃ v ∈ a, v = .nan ∨ ¬ (DType.float new).Has v) ∧ safeCast M (.float old) (.float new) a = .throw "ValueError") := by
  have key : ∀ v ∈ a, (cast M (.float new) (.float old) (cast M (.float old) (.float new) v) = v ∧ v ≠ .nan) ↔
      (v ≠ .nan ∧ (DType.float new).Has v) := by
    intro v hv
    cases v with
    | nan => simp
    | posInf => simp [cast, DType.Has]
    | negInf => simp [cast, DType.Has]
    | num q =>
      have hq : old.Has q := ha _ hv
      simp only [cast, DType.Has, ne_eq, reduceCtorEq, not_false_eq_true, and_true, true_and]
      constructor
      · intro h
        rcases hs with hs | hs
        · cases hr : M.round new q with
          | nan => rw [hr] at h; cases h
          | posInf => rw [hr] at h; cases h
          | negInf => rw [hr] at h; cases h
          | num r =>
            rw [hr] at h
            have hn := hM.has _ _ _ hr
            have h2 : M.round old r = .num q := h
            rw [hM.fix _ _ (hs r hn)] at h2
            cases h2
            exact hn
        · exact hs q hq
      · intro h
        rw [hM.fix _ _ h]
        exact hM.fix _ _ hq
  rcases safeCast_cases M (.float old) (.float new) a with ⟨h1, h2⟩ | ⟨⟨v, hv, h1⟩, h2⟩
  · left
    refine ⟨fun v hv => (key v hv).1 (h1 v hv), ?_⟩
    rw [h2]
    congr 1
    conv_rhs => rw [← List.map_id a]
    apply List.map_congr_left
    intro v hv
    have h3 := ((key v hv).1 (h1 v hv)).2
    cases v with
    | num q => exact hM.fix _ _ h3
    | _ => rfl
  · right
    refine ⟨⟨v, hv, ?_⟩, h2⟩
    rw [key v hv] at h1
    by_cases hnan : v = .nan
    · exact .inl hnan
    · exact .inr fun h => h1 ⟨hnan, h⟩

theorem has_pow (f : Format) (hp : 1 ≤ f.p) {e : Int} (h1 : f.emin ≤ e) (h2 : e ≤ f.emax) (s : Int) (hs : s = 1 ∨ s = -1) :
    f.Has (s * (2 : Rat) ^ e) := by
  refine ⟨s, e, ?_, h1, h2, rfl⟩
  have : (2 : Int) ^ 1 ≤ 2 ^ f.p := pow_le_pow_right₀ (by norm_num) hp
  rcases hs with rfl | rfl <;> simp <;> omega

theorem has_int (f : Format) (h1 : f.emin ≤ 0) (h2 : 0 ≤ f.emax) {z : Int} (hz : |z| < 2 ^ f.p) : f.Has z :=
  ⟨z, 0, hz, h1, h2, by simp⟩

/-- Values of at least `2^p` are integers. -/
theorem has_large (f : Format) {r : Rat} (h : f.Has r) (hr : (2 : Rat) ^ f.p ≤ |r|) : ∃ z : Int, r = z := by
  obtain ⟨m, e, hm, _, _, rfl⟩ := h
  by_cases he : 0 ≤ e
  · obtain ⟨n, rfl⟩ := Int.eq_ofNat_of_zero_le he
    exact ⟨m * 2 ^ n, by push_cast; rw [zpow_natCast]⟩
  · exfalso
    have h1 : (2 : Rat) ^ e ≤ 1 := zpow_le_one_of_nonpos₀ (by norm_num) (by omega)
    have h2 : (0 : Rat) < 2 ^ e := by positivity
    have h3 : |(m : Rat)| < 2 ^ f.p := by exact_mod_cast hm
    rw [abs_mul, abs_of_pos h2] at hr
    have : |(m : Rat)| * 2 ^ e ≤ |(m : Rat)| := mul_le_of_le_one_right (abs_nonneg _) h1
    linarith

theorem trunc_int (z : Int) : trunc (z : Rat) = z := by
  unfold trunc
  split
  · exact Rat.floor_intCast z
  · exact Rat.ceil_intCast z

/-- **C56** for integers cast to a floating point type (with `2^(bits-1)` in its range), on machines which convert floating
point values that are too large for an integer type to an integer that is not positive (the usual conversions of x86 to signed
types): equal elements, or `ValueError`.
Missing: other machines, see `C56_saturating_false`. -/
theorem C56_int_partial (M : Machine) (hM : Faithful M) (signed : Bool) (bits : Nat) (new : Format) (hp : 1 ≤ new.p)
    (hmin : new.emin ≤ 0) (hmax : (bits : Int) - 1 ≤ new.emax) (hmax0 : 0 ≤ new.emax) (hb : 1 ≤ bits)
    (hout : ∀ v, M.outside signed bits v ≤ 0) (a : List Val) (ha : ∀ v ∈ a, (DType.int signed bits).Has v) :
    safeCast M (.int signed bits) (.float new) a = .ok a ∨
    safeCast M (.int signed bits) (.float new) a = .throw "ValueError" := by
  rcases safeCast_cases M (.int signed bits) (.float new) a with ⟨h1, h2⟩ | ⟨_, h2⟩
  · left
    rw [h2]
    congr 1
    conv_rhs => rw [← List.map_id a]
    apply List.map_congr_left
    intro v hv
    have hback := (h1 v hv).1
    have hmem := ha v hv
    cases v with
    | posInf => exact hmem.elim
    | negInf => exact hmem.elim
    | nan => exact hmem.elim
    | num q =>
      obtain ⟨z, rfl, hz1, hz2⟩ := hmem
      have hzero : new.Has 0 := by simpa using has_int new hmin hmax0 (z := 0) (by simp)
      show M.round new z = .num z
      by_cases hsmall : |z| < 2 ^ new.p
      · exact hM.fix _ _ (has_int new hmin hmax0 hsmall)
      have hlow : new.Has ((intMin signed bits : Int) : Rat) := by
        unfold intMin
        cases signed with
        | false => simpa using hzero
        | true =>
          have := has_pow new hp (e := ((bits - 1 : Nat) : Int)) (by omega) (by omega) (-1) (.inr rfl)
          simpa using this
      have hneg : ∀ v, M.round new z = v → (∀ r, v ≠ .num r) → v = .posInf := by
        intro v hv hnum
        cases v with
        | num r => exact absurd rfl (hnum r)
        | nan => exact absurd hv (hM.number _ _)
        | posInf => rfl
        | negInf =>
          have := hM.negInf _ _ hv _ hlow
          have : z < intMin signed bits := by exact_mod_cast this
          omega
      have hb2 : cast M (.float new) (.int signed bits) (M.round new z) = .num (z : Rat) := hback
      cases hr : M.round new z with
      | nan => exact absurd hr (hM.number _ _)
      | negInf => exact absurd (hneg _ hr (by simp)) (by simp)
      | posInf =>
        exfalso
        rw [hr] at hb2
        have hpos : (0 : Rat) < z := hM.posInf _ _ hr _ hzero
        have hpos : 0 < z := by exact_mod_cast hpos
        have h3 : ((M.outside signed bits .posInf : Int) : Rat) = z := by
          have : Val.num ((M.outside signed bits .posInf : Int) : Rat) = .num (z : Rat) := hb2
          exact Val.num.inj this
        have h3 : M.outside signed bits .posInf = z := by exact_mod_cast h3
        have := hout .posInf
        omega
      | num r =>
        have hhas := hM.has _ _ _ hr
        have hbet := hM.between _ _ _ ((2 : Rat) ^ new.p) hr
        have hbet2 := hM.between _ _ _ (-(2 : Rat) ^ new.p) hr
        rw [hr] at hb2
        have hint : ∃ t : Int, r = t := by
          by_cases hpe : (new.p : Int) ≤ new.emax
          · apply has_large new hhas
            have hz : (2 : Int) ^ new.p ≤ |z| := not_lt.1 hsmall
            have hP : new.Has ((2 : Rat) ^ new.p) := by
              have := has_pow new hp (e := (new.p : Int)) (by omega) hpe 1 (.inl rfl)
              simpa using this
            have hN : new.Has (-(2 : Rat) ^ new.p) := by
              have := has_pow new hp (e := (new.p : Int)) (by omega) hpe (-1) (.inr rfl)
              simpa using this
            rcases le_abs.1 hz with h | h
            · have : (2 : Rat) ^ new.p ≤ z := by exact_mod_cast h
              exact le_trans ((hbet hP).2 this) (le_abs_self r)
            · have : (z : Rat) ≤ -(2 : Rat) ^ new.p := by
                have : z ≤ -2 ^ new.p := by omega
                exact_mod_cast this
              have := (hbet2 hN).1 this
              exact le_trans (by linarith) (neg_le_abs r)
          · exfalso
            have h3 : |z| ≤ 2 ^ bits := by
              have e1 : (2 : Int) ^ (bits - 1) ≤ 2 ^ bits := pow_le_pow_right₀ (by norm_num) (by omega)
              have e2 : (0 : Int) ≤ 2 ^ bits := by positivity
              rw [abs_le]
              unfold intMin at hz1
              unfold intEnd at hz2
              cases signed <;> simp at hz1 hz2 <;> omega
            have h4 : (2 : Int) ^ bits ≤ 2 ^ new.p := pow_le_pow_right₀ (by norm_num) (by omega)
            have h5 : |z| = 2 ^ new.p := le_antisymm (h3.trans h4) (not_lt.1 hsmall)
            have h6 : (2 : Int) ^ new.p ≤ 2 ^ bits := by rw [← h5]; exact h3
            have e3 : (2 : Int) ^ bits = 2 * 2 ^ (bits - 1) := by
              rw [← pow_succ']; congr 1; omega
            have e4 : (0 : Int) < 2 ^ (bits - 1) := by positivity
            unfold intMin at hz1
            unfold intEnd at hz2
            rcases abs_cases z with ⟨h7, _⟩ | ⟨h7, _⟩ <;> cases signed <;> simp at hz1 hz2 <;> omega
        obtain ⟨t, rfl⟩ := hint
        simp only [cast] at hb2
        have hb3 := Val.num.inj hb2
        rw [trunc_int] at hb3
        split at hb3
        · rw [hb3]
        · rename_i hrange
          exfalso
          have h3 : M.outside signed bits (.num (t : Rat)) = z := by exact_mod_cast hb3
          have h4 := hout (.num (t : Rat))
          have h5 : intMin signed bits ≤ t := by
            have := (hM.between _ _ _ _ hr hlow).2 (by exact_mod_cast hz1)
            exact_mod_cast this
          have h6 : (t : Rat) ≤ 0 := (hM.between _ _ _ _ hr hzero).1 (by
            have : z ≤ 0 := by omega
            exact_mod_cast this)
          have h6 : t ≤ 0 := by exact_mod_cast h6
          apply hrange
          refine ⟨h5, lt_of_le_of_lt h6 ?_⟩
          unfold intEnd
          split <;> positivity
  · exact .inr h2

/-- **C56** for integers of at most as many bits as the precision: the cast never fails, on every machine. -/
theorem C56_small_int (M : Machine) (hM : Faithful M) (signed : Bool) (bits : Nat) (new : Format) (hmin : new.emin ≤ 0)
    (hmax : 0 ≤ new.emax) (hb : bits ≤ new.p) (hb1 : 1 ≤ bits) (a : List Val)
    (ha : ∀ v ∈ a, (DType.int signed bits).Has v) : safeCast M (.int signed bits) (.float new) a = .ok a := by
  have hcast : ∀ v ∈ a, cast M (.int signed bits) (.float new) v = v ∧
      cast M (.float new) (.int signed bits) v = v ∧ v ≠ .nan := by
    intro v hv
    have hmem := ha v hv
    cases v with
    | posInf => exact hmem.elim
    | negInf => exact hmem.elim
    | nan => exact hmem.elim
    | num q =>
      obtain ⟨z, rfl, hz1, hz2⟩ := hmem
      refine ⟨?_, ?_, by simp⟩
      · show M.round new z = .num z
        by_cases hsmall : |z| < 2 ^ new.p
        · exact hM.fix _ _ (has_int new hmin hmax hsmall)
        · exfalso
          have h4 : (2 : Int) ^ bits ≤ 2 ^ new.p := pow_le_pow_right₀ (by norm_num) hb
          have e3 : (2 : Int) ^ bits = 2 * 2 ^ (bits - 1) := by rw [← pow_succ']; congr 1; omega
          have e4 : (0 : Int) < 2 ^ (bits - 1) := by positivity
          unfold intMin at hz1
          unfold intEnd at hz2
          rcases abs_cases z with ⟨h7, _⟩ | ⟨h7, _⟩ <;> cases signed <;> simp at hz1 hz2 <;> omega
      · simp only [cast, trunc_int]
        rw [if_pos ⟨hz1, hz2⟩]
  rcases safeCast_cases M (.int signed bits) (.float new) a with ⟨_, h2⟩ | ⟨⟨v, hv, h1⟩, _⟩
  · rw [h2]
    congr 1
    conv_rhs => rw [← List.map_id a]
    exact List.map_congr_left fun v hv => (hcast v hv).1
  · obtain ⟨h3, h4, h5⟩ := hcast v hv
    exact absurd ⟨by rw [h3, h4], h5⟩ h1

/-- **C56 is violated between integer types**: on every machine, -1 of a signed type is cast to the largest value of the unsigned
type of the same size without an error. -/
theorem C56_unsigned_false (M : Machine) (bits : Nat) (hb : 1 ≤ bits) :
    safeCast M (.int true bits) (.int false bits) [.num (-1)] = .ok [.num ((2 ^ bits - 1 : Int) : Rat)] := by
  have e3 : (2 : Int) ^ bits = 2 * 2 ^ (bits - 1) := by rw [← pow_succ']; congr 1; omega
  have e4 : (0 : Int) < 2 ^ (bits - 1) := by positivity
  have h1 : cast M (.int true bits) (.int false bits) (.num (-1)) = .num ((2 ^ bits - 1 : Int) : Rat) := by
    have hf : (-1 : Rat).floor = -1 := by have := Rat.floor_intCast (-1); simpa using this
    simp only [cast, wrap, intMin, hf]
    simp only [Bool.false_eq_true, if_false]
    congr 2
    rw [Int.sub_zero, Int.add_zero, Int.emod_def, show (-1 : Int) / 2 ^ bits = -1 from Int.ediv_eq_neg_one_of_neg_of_le (by omega) (by omega)]
    omega
  have h2 : cast M (.int false bits) (.int true bits) (.num ((2 ^ bits - 1 : Int) : Rat)) = .num (-1) := by
    simp only [cast, wrap, intMin, if_true, Rat.floor_intCast]
    have : (2 ^ bits - 1 - -2 ^ (bits - 1) : Int) % 2 ^ bits = 2 ^ (bits - 1) - 1 := by
      rw [show (2 ^ bits - 1 - -2 ^ (bits - 1) : Int) = (2 ^ (bits - 1) - 1) + 2 ^ bits by omega, Int.add_emod_right]
      exact Int.emod_eq_of_lt (by omega) (by omega)
    rw [this]
    have : (2 ^ (bits - 1) - 1 + -2 ^ (bits - 1) : Int) = -1 := by omega
    rw [this]
    simp
  rcases safeCast_cases M (.int true bits) (.int false bits) [.num (-1)] with ⟨_, h⟩ | ⟨⟨v, hv, h⟩, _⟩
  · rw [h]; simp only [List.map_cons, List.map_nil, h1]
  · simp only [List.mem_singleton] at hv
    subst hv
    exact absurd ⟨by rw [h1, h2], by simp⟩ h

/-! A machine which rounds up and saturates. -/

theorem has_finite (f : Format) : {q | f.Has q}.Finite := by
  have h : {q | f.Has q} ⊆ (fun p : Int × Int => (p.1 : Rat) * (2 : Rat) ^ p.2) ''
      (Set.Icc (-2 ^ f.p) (2 ^ f.p) ×ˢ Set.Icc f.emin f.emax) := by
    rintro q ⟨m, e, hm, h1, h2, rfl⟩
    have := abs_lt.1 hm
    exact ⟨(m, e), ⟨⟨by omega, by omega⟩, h1, h2⟩, rfl⟩
  exact (((Set.finite_Icc _ _).prod (Set.finite_Icc _ _)).image _).subset h

theorem exists_up (f : Format) (q : Rat) : ∃ v : Val, (∃ r, v = .num r ∧ f.Has r ∧ q ≤ r ∧ ∀ s, f.Has s → q ≤ s → r ≤ s) ∨
    (v = .posInf ∧ ∀ s, f.Has s → s < q) := by
  by_cases h : ∃ s, f.Has s ∧ q ≤ s
  · have hfin : ({s | f.Has s} ∩ {s | q ≤ s}).Finite := (has_finite f).inter_of_left _
    obtain ⟨r, ⟨h1, h2⟩, h3⟩ := Set.exists_min_image _ id hfin (let ⟨s, a, b⟩ := h; ⟨s, a, b⟩)
    exact ⟨.num r, .inl ⟨r, rfl, h1, h2, fun s a b => h3 s ⟨a, b⟩⟩⟩
  · refine ⟨.posInf, .inr ⟨rfl, fun s hs => ?_⟩⟩
    by_contra hn
    exact h ⟨s, hs, not_lt.1 hn⟩

/-- Rounding to the next value, integers outside of the range of a type become its largest value. -/
noncomputable def upMachine (outside : Bool → Nat → Val → Int) : Machine :=
  ⟨fun f q => Classical.choose (exists_up f q), outside⟩

theorem upMachine_faithful (outside : Bool → Nat → Val → Int) : Faithful (upMachine outside) := by
  have spec := fun f q => Classical.choose_spec (exists_up f q)
  refine ⟨?_, ?_, ?_, ?_, ?_, ?_⟩
  · intro f q hq
    rcases spec f q with ⟨r, h1, _, h3, h4⟩ | ⟨_, h2⟩
    · have h5 : r = q := le_antisymm (h4 q hq le_rfl) h3
      subst h5
      exact h1
    · exact absurd (h2 q hq) (lt_irrefl _)
  · intro f q r hr
    rcases spec f q with ⟨r', h1, h2, _⟩ | ⟨h1, _⟩
    · rw [show Classical.choose (exists_up f q) = .num r from hr] at h1; cases h1; exact h2
    · rw [show Classical.choose (exists_up f q) = .num r from hr] at h1; cases h1
  · intro f q r s hr hs
    rcases spec f q with ⟨r', h1, _, h3, h4⟩ | ⟨h1, _⟩
    · rw [show Classical.choose (exists_up f q) = .num r from hr] at h1; cases h1
      exact ⟨h4 s hs, fun h => le_trans h h3⟩
    · rw [show Classical.choose (exists_up f q) = .num r from hr] at h1; cases h1
  · intro f q hr
    rcases spec f q with ⟨r', h1, _⟩ | ⟨_, h2⟩
    · rw [show Classical.choose (exists_up f q) = .posInf from hr] at h1; cases h1
    · exact h2
  · intro f q hr
    rcases spec f q with ⟨r', h1, _⟩ | ⟨h1, _⟩ <;>
      rw [show Classical.choose (exists_up f q) = .negInf from hr] at h1 <;> cases h1
  · intro f q hr
    rcases spec f q with ⟨r', h1, _⟩ | ⟨h1, _⟩ <;>
      rw [show Classical.choose (exists_up f q) = .nan from hr] at h1 <;> cases h1

/-- **C56 is violated on machines with saturating conversions** (as ARM): if the largest `int32` is rounded to the `float32`
2147483648 (as when rounding to nearest), and that is converted back to the largest `int32`, the cast changes the value without
an error. -/
theorem C56_saturating_false (M : Machine) (hr : M.round float32 2147483647 = .num 2147483648)
    (ho : M.outside true 32 (.num 2147483648) = 2147483647) :
    safeCast M (.int true 32) (.float float32) [.num 2147483647] = .ok [.num 2147483648] := by
  have h1 : cast M (.int true 32) (.float float32) (.num 2147483647) = .num 2147483648 := hr
  have ht : trunc 2147483648 = 2147483648 := by have := trunc_int 2147483648; simpa using this
  have h2 : cast M (.float float32) (.int true 32) (.num 2147483648) = .num 2147483647 := by
    simp only [cast, ht]
    rw [if_neg (by simp [intEnd]), ho]
    norm_num
  rcases safeCast_cases M (.int true 32) (.float float32) [.num 2147483647] with ⟨_, h⟩ | ⟨⟨v, hv, h⟩, _⟩
  · rw [h]; simp only [List.map_cons, List.map_nil, h1]
  · simp only [List.mem_singleton] at hv
    subst hv
    exact absurd ⟨by rw [h1, h2], by simp⟩ h

/-- No `float32` is between the largest `int32` and the next power of two. -/
theorem float32_gap {r : Rat} (hr : float32.Has r) (h : 2147483647 ≤ r) : 2147483648 ≤ r := by
  obtain ⟨z, rfl⟩ := has_large float32 hr (by
    rw [abs_of_nonneg (by linarith)]
    refine le_trans ?_ h
    norm_num [float32])
  by_contra hn
  have h1 : (2147483647 : Int) ≤ z := by exact_mod_cast h
  have h2 : z < 2147483648 := by
    have := not_le.1 hn
    exact_mod_cast this
  obtain rfl : z = 2147483647 := by omega
  obtain ⟨m, e, hm, _, _, he⟩ := hr
  have hm : |m| < 16777216 := by simpa [float32] using hm
  have hm2 := abs_lt.1 hm
  by_cases hpos : 0 < e
  · obtain ⟨n, hn2⟩ := Int.eq_ofNat_of_zero_le (show 0 ≤ e - 1 by omega)
    obtain rfl : e = ((n + 1 : Nat) : Int) := by push_cast; omega
    rw [zpow_natCast] at he
    have he2 : (2147483647 : Int) = m * 2 ^ (n + 1) := by exact_mod_cast he
    rw [pow_succ] at he2
    generalize (2 : Int) ^ n = k at he2
    have h3 : (2147483647 : Int) = 2 * (m * k) := by rw [he2]; ring
    generalize m * k = j at h3
    omega
  · have h3 : (2 : Rat) ^ e ≤ 1 := zpow_le_one_of_nonpos₀ (by norm_num) (by omega)
    have h4 : (0 : Rat) < 2 ^ e := by positivity
    have h5 : (m : Rat) < 16777216 := by exact_mod_cast hm2.2
    have h6 : (m : Rat) * 2 ^ e ≤ 16777216 := by
      rcases le_or_gt 0 (m : Rat) with h7 | h7
      · exact (mul_le_of_le_one_right h7 h3).trans h5.le
      · have : (m : Rat) * 2 ^ e < 0 := mul_neg_of_neg_of_pos h7 h4
        linarith
    rw [← he] at h6
    norm_num at h6

/-- The hypotheses of `C56_saturating_false` hold for a faithful machine. -/
theorem C56_saturating_witness : ∃ M, Faithful M ∧
    safeCast M (.int true 32) (.float float32) [.num 2147483647] = .ok [.num 2147483648] := by
  refine ⟨upMachine fun _ _ _ => 2147483647, upMachine_faithful _, C56_saturating_false _ ?_ rfl⟩
  show Classical.choose (exists_up float32 2147483647) = _
  rcases Classical.choose_spec (exists_up float32 2147483647) with ⟨r, h1, h2, h3, h4⟩ | ⟨_, h2⟩
  · have h5 := h4 2147483648 (by
      have := has_pow float32 (by decide) (e := 31) (by decide) (by decide) 1 (.inl rfl)
      norm_num at this
      exact this) (by norm_num)
    rw [h1, le_antisymm h5 (float32_gap h2 h3)]
  · exfalso
    have := h2 2147483648 (by
      have := has_pow float32 (by decide) (e := 31) (by decide) (by decide) 1 (.inl rfl)
      norm_num at this
      exact this)
    norm_num at this

/-- A dark reference in `float64` with a value that needs more than 24 bits is refused. -/
example (M : Machine) (hM : Faithful M) :
    safeCast M (.float float64) (.float float32) [.num 1, .num 2147483647] = .throw "ValueError" := by
  rcases C56_float M hM float64 float32 (.inl float32_sub_float64) [.num 1, .num 2147483647] (by
    intro v hv
    simp only [List.mem_cons, List.not_mem_nil, or_false] at hv
    rcases hv with rfl | rfl
    · simpa [DType.Has] using has_int float64 (by decide) (by decide) (z := 1) (by decide)
    · simpa [DType.Has] using has_int float64 (by decide) (by decide) (z := 2147483647) (by decide)) with ⟨h, _⟩ | ⟨_, h⟩
  · have := float32_gap (h (.num 2147483647) (by simp)).2 le_rfl
    norm_num at this
  · exact h

/-- A dark reference of `uint16` is always accepted. -/
example : safeCast (upMachine fun _ _ _ => 0) (.int false 16) (.float float32) [.num 0, .num 65535] = .ok [.num 0, .num 65535] :=
  C56_small_int _ (upMachine_faithful _) false 16 float32 (by decide) (by decide) (by decide) (by decide) _ (by
    intro v hv
    simp only [List.mem_cons, List.not_mem_nil, or_false] at hv
    rcases hv with rfl | rfl
    · exact ⟨0, by norm_num, by decide, by decide⟩
    · exact ⟨65535, by norm_num, by decide, by decide⟩)

/-- `C56_int_partial` for `int32`: its hypotheses hold. -/
example : safeCast (upMachine fun _ _ _ => -2147483648) (.int true 32) (.float float32) [.num 2147483647] = .throw "ValueError" := by
  have hM := upMachine_faithful fun _ _ _ => -2147483648
  have hmem : ∀ v ∈ [Val.num 2147483647], (DType.int true 32).Has v := by
    intro v hv
    simp only [List.mem_cons, List.not_mem_nil, or_false] at hv
    subst hv
    exact ⟨2147483647, by norm_num, by decide, by decide⟩
  rcases C56_int_partial _ hM true 32 float32 (by decide) (by decide) (by decide) (by decide) (by decide) (by intro v; simp [upMachine])
    _ hmem with h | h
  · exfalso
    rcases safeCast_cases (upMachine fun _ _ _ => -2147483648) (.int true 32) (.float float32) [.num 2147483647] with
      ⟨_, h2⟩ | ⟨_, h2⟩
    · rw [h2] at h
      simp only [List.map_cons, List.map_nil, Outcome.ok.injEq, List.cons.injEq, and_true] at h
      have := float32_gap (hM.has _ _ _ h) le_rfl
      norm_num at this
    · rw [h2] at h; cases h
  · exact h

end Stempy.SafeCast
