import Verif.Props.Counting

/-!
C15, exactly: when the two counting paths agree without gain.
-/

namespace Stempy.Props
open Stempy.Electron Stempy.Spec

/-- A number without fractional part. -/
def Integral (d : Rat) : Prop := ∃ n : Int, d = n

private theorem trunc_nonneg {r : Rat} (h : 0 ≤ r) : truncZero r = ⌊r⌋ := by
  unfold truncZero; rw [if_neg (not_lt.2 h)]

private theorem trunc_neg {r : Rat} (h1 : -1 < r) (h2 : r < 0) : truncZero r = 0 := by
  unfold truncZero
  rw [if_pos h2, Int.ceil_eq_iff]
  constructor
  · simpa using h1
  · simpa using le_of_lt h2

/-- **C15** The corrected values of the two paths without gain, for a pixel `v` and a dark value `d` for which both
are defined: the streaming path is larger by one if the dark value is positive, below the pixel and has a
fractional part, and otherwise they are the same. -/
theorem C15_values {v : Nat} {d : Rat} (hv : v < 65536) (h1 : -1 < d) (h2 : d < v + 1) :
    ((v : Int) - truncZero d) % 65536 = truncZero ((v : Rat) - d) +
      (if 0 < d ∧ d < v ∧ ⌊d⌋ ≠ ⌈d⌉ then 1 else 0) := by
  have hv0 : (0 : Rat) ≤ v := Nat.cast_nonneg v
  by_cases hneg : d < 0
  · rw [trunc_neg h1 hneg, if_neg (by rintro ⟨a, _⟩; exact absurd a (not_lt.2 (le_of_lt hneg))),
      trunc_nonneg (by linarith)]
    have : ⌊(v : Rat) - d⌋ = (v : Int) := by
      rw [Int.floor_eq_iff]
      constructor
      · push_cast; linarith
      · push_cast; linarith
    rw [this]; omega
  · have hd0 : 0 ≤ d := not_lt.1 hneg
    rw [trunc_nonneg hd0]
    have f1 : ((⌊d⌋ : Int) : Rat) ≤ d := Int.floor_le d
    have f2 : d < ((⌊d⌋ : Int) : Rat) + 1 := Int.lt_floor_add_one d
    have f0 : 0 ≤ ⌊d⌋ := Int.floor_nonneg.2 hd0
    have c1 : d ≤ ((⌈d⌉ : Int) : Rat) := Int.le_ceil d
    have c2 : ((⌈d⌉ : Int) : Rat) < d + 1 := Int.ceil_lt_add_one d
    by_cases hlt : d ≤ v
    · have hfl : ⌊(v : Rat) - d⌋ = (v : Int) - ⌈d⌉ := by
        rw [Int.floor_eq_iff]
        constructor
        · push_cast; linarith
        · push_cast; linarith
      have hcv : ⌈d⌉ ≤ (v : Int) := by rw [Int.ceil_le]; exact_mod_cast hlt
      have hfc : ⌊d⌋ ≤ ⌈d⌉ := by
        have : ((⌊d⌋ : Int) : Rat) ≤ ((⌈d⌉ : Int) : Rat) := le_trans f1 c1
        exact_mod_cast this
      have hcf : ⌈d⌉ ≤ ⌊d⌋ + 1 := by rw [Int.ceil_le]; push_cast; exact le_of_lt f2
      rw [trunc_nonneg (by linarith), hfl]
      by_cases he : ⌊d⌋ = ⌈d⌉
      · rw [if_neg (by rintro ⟨_, _, a⟩; exact a he)]
        omega
      · have hpos : 0 < d := by
          rcases lt_or_eq_of_le hd0 with h | h
          · exact h
          · exact absurd (by rw [← h]; simp) he
        have hdv : d < v := by
          rcases lt_or_eq_of_le hlt with h | h
          · exact h
          · exact absurd (by rw [h]; simp) he
        rw [if_pos ⟨hpos, hdv, he⟩]
        omega
    · have hgt : (v : Rat) < d := not_le.1 hlt
      rw [trunc_neg (by linarith) (by linarith), if_neg (by rintro ⟨_, a, _⟩; linarith)]
      have : ⌊d⌋ = (v : Int) := by
        rw [Int.floor_eq_iff]
        constructor
        · push_cast; linarith
        · push_cast; linarith
      rw [this]; simp

private theorem getD_mem {d : List Rat} {j : Nat} (h : j < d.length) : d.getD j 0 ∈ d := by simp [h]

/-- The dark value agrees in both paths for this pixel: it is negative, above the pixel, or integral. -/
def SameDark (v : Nat) (d : Rat) : Prop := d ≤ 0 ∨ (v : Rat) ≤ d ∨ Integral d

private theorem integral_iff (d : Rat) : Integral d ↔ ⌊d⌋ = ⌈d⌉ := by
  constructor
  · rintro ⟨n, rfl⟩; simp
  · intro h
    refine ⟨⌊d⌋, le_antisymm ?_ (Int.floor_le d)⟩
    rw [h]; exact Int.le_ceil d

private theorem sameDark_iff (v : Nat) (d : Rat) :
    SameDark v d ↔ ¬ (0 < d ∧ d < v ∧ ⌊d⌋ ≠ ⌈d⌉) := by
  unfold SameDark
  rw [integral_iff]
  by_cases h1 : d ≤ 0
  · simp [h1, not_lt.2 h1]
  · by_cases h2 : (v : Rat) ≤ d
    · simp [h2, not_lt.2 h2]
    · simp [h1, h2, not_le.1 h1, not_le.1 h2]

/-- The options of counting without gain and row dark correction. -/
def noGain (bg xr : Rat) (dark : List Rat) : CountOptions :=
  { ft := .u16, bg := bg, xr := xr, dark := some dark, gain := none, rowDark := none, optMean := 0 }

/-- Two event lists for corrected values which are the same on the detector are the same. -/
theorem events_unique {bg xr : Rat} {w h : Nat} {c c' : Nat → Rat} {e e' : List Nat}
    (hc : ∀ j, j < w * h → c j = c' j) (h1 : IsEventList bg xr w h c e)
    (h2 : IsEventList bg xr w h c' e') : e = e' := by
  have hmem : ∀ j, j < w * h → (j ∈ e ↔ j ∈ e') := by
    intro j hj
    have hw : 0 < w := by
      rcases Nat.eq_zero_or_pos w with rfl | h
      · simp at hj
      · exact h
    have a : j % w < w := Nat.mod_lt _ hw
    have b : j / w < h := Nat.div_lt_of_lt_mul hj
    have ej : j / w * w + j % w = j := by rw [Nat.mul_comm]; exact Nat.div_add_mod j w
    have m1 := h1.mem (j % w) (j / w) a b
    have m2 := h2.mem (j % w) (j / w) a b
    rw [ej] at m1 m2
    rw [m1, m2, hc j hj]
    have : ∀ x' y', x' < w → y' < h → c (y' * w + x') = c' (y' * w + x') := by
      intro x' y' hx hy
      exact hc _ (flat_lt hx hy)
    constructor
    · rintro ⟨p, q⟩
      refine ⟨p, fun x' y' hx hy hn => ?_⟩
      rw [← this x' y' hx hy]; exact q x' y' hx hy hn
    · rintro ⟨p, q⟩
      refine ⟨p, fun x' y' hx hy hn => ?_⟩
      rw [this x' y' hx hy]; exact q x' y' hx hy hn
  have hall : ∀ j, j ∈ e ↔ j ∈ e' := by
    intro j
    by_cases hj : j < w * h
    · exact hmem j hj
    · exact ⟨fun a => absurd (h1.onDetector j a) hj, fun a => absurd (h2.onDetector j a) hj⟩
  have p : e.Perm e' := (List.perm_ext_iff_of_nodup
    (h1.sorted.imp fun h => Nat.ne_of_lt h) (h2.sorted.imp fun h => Nat.ne_of_lt h)).2 hall
  exact p.eq_of_pairwise (fun a b _ _ x y => by omega) h1.sorted h2.sorted

/-- **C15** Without gain the two paths agree on every frame whose dark values are integral or not positive or not
below the pixel, and nowhere above the pixel by one or more. Missing for the full statement: other dark
values, for which it is false (`C15_iff`, `C15_dark_above`). -/
theorem C15_real_partial {w h : Nat} {frame : List Nat} {dark : List Rat} {bg xr : Rat}
    (ok : FrameOK w h frame bg) (hdl : dark.length = w * h) (hpx : ∀ v ∈ frame, v < 65536)
    (hr : ∀ j, j < w * h → -1 < dark.getD j 0 ∧ dark.getD j 0 < frame.getD j 0 + 1 ∧
      (frame.getD j 0 : Rat) - dark.getD j 0 < 65536 ∧ dark.getD j 0 < 65536)
    (hs : ∀ j, j < w * h → SameDark (frame.getD j 0) (dark.getD j 0)) :
    ∃ events, countFrameClassic (noGain bg xr dark) (w, h) (pixels frame) = .ok events ∧
      countFrameStream (noGain bg xr dark) (w, h) (pixels frame) = .ok events := by
  obtain ⟨e1, a1, b1⟩ := C12_classic_u16 (o := noGain bg xr dark) ok rfl rfl rfl hdl
    (fun j hj => ⟨by have := (hr j hj).2.1; linarith, (hr j hj).2.2.1⟩)
  obtain ⟨e2, a2, b2⟩ := C12_stream_u16 (o := noGain bg xr dark) ok rfl rfl (by
    intro d hd
    obtain rfl : dark = d := Option.some.inj hd
    refine ⟨hdl, fun r hrm => ?_⟩
    obtain ⟨j, hj, rfl⟩ := List.getElem_of_mem hrm
    have := hr j (by omega)
    have e : dark.getD j 0 = dark[j] := by simp [hj]
    rw [e] at this
    exact ⟨this.1, this.2.2.2⟩)
  have hval : ∀ j, j < w * h → u16StreamValue (some dark) frame j = u16ClassicValue dark frame j := by
    intro j hj
    have hjf : j < frame.length := by rw [ok.len]; exact hj
    have hv : frame.getD j 0 < 65536 := hpx _ (by simp [hjf])
    have := C15_values hv (hr j hj).1 (hr j hj).2.1
    rw [if_neg ((sameDark_iff _ _).1 (hs j hj)), Int.add_zero] at this
    unfold u16StreamValue u16ClassicValue
    simp only [this]
  have : e2 = e1 := events_unique hval b2 b1
  exact ⟨e1, a1, this ▸ a2⟩

/-- **C15** For every dark reference with a fractional part somewhere there are a frame, which the dark values do
not exceed by one or more, and thresholds such that the streaming path reports exactly one electron and the
block-wise path reports none. -/
theorem C15_fractional_false {w h : Nat} {dark : List Rat} (hw : w < 65536) (hh : h < 65536)
    (hsz : w * h < 2 ^ 32) (h2 : 1 < w * h) (hdl : dark.length = w * h)
    (hd : ∀ d ∈ dark, 0 ≤ d ∧ d < 65535) {j : Nat} (hj : j < w * h) (hf : ¬ Integral (dark.getD j 0)) :
    ∃ frame : List Nat, frame.length = w * h ∧ (∀ v ∈ frame, v < 65536) ∧
      (∀ i, i < w * h → dark.getD i 0 < frame.getD i 0 + 1) ∧
      countFrameClassic (noGain 0 2 dark) (w, h) (pixels frame) = .ok [] ∧
      countFrameStream (noGain 0 2 dark) (w, h) (pixels frame) = .ok [j] := by
  let px : Nat → Nat := fun i => if i = j then ⌊dark.getD i 0⌋.toNat + 1 else ⌊dark.getD i 0⌋.toNat
  let frame : List Nat := (List.range (w * h)).map px
  have hget : ∀ i, i < w * h → frame.getD i 0 = px i := by intro i hi; simp [frame, hi]
  have hlen : frame.length = w * h := by simp [frame]
  have hdi : ∀ i, i < w * h → 0 ≤ dark.getD i 0 ∧ dark.getD i 0 < 65535 := fun i hi =>
    hd _ (getD_mem (by omega))
  have hfl : ∀ i, i < w * h → ((⌊dark.getD i 0⌋.toNat : Nat) : Int) = ⌊dark.getD i 0⌋ := fun i hi =>
    Int.toNat_of_nonneg (Int.floor_nonneg.2 (hdi i hi).1)
  have hflq : ∀ i, i < w * h → ((⌊dark.getD i 0⌋.toNat : Nat) : Rat) = ((⌊dark.getD i 0⌋ : Int) : Rat) := by
    intro i hi
    have := hfl i hi
    exact_mod_cast congrArg (fun z : Int => (z : Rat)) this
  have hlt : ∀ i, i < w * h → ⌊dark.getD i 0⌋.toNat < 65535 := by
    intro i hi
    have : ⌊dark.getD i 0⌋ < 65535 := by rw [Int.floor_lt]; exact_mod_cast (hdi i hi).2
    have := hfl i hi
    omega
  have hpx : ∀ i, i < w * h → px i < 65536 := by
    intro i hi
    have := hlt i hi
    simp only [px]; split <;> omega
  have hpl : ∀ i, i < w * h → (⌊dark.getD i 0⌋.toNat : Rat) ≤ px i := by
    intro i hi
    have : ⌊dark.getD i 0⌋.toNat ≤ px i := by simp only [px]; split <;> omega
    exact_mod_cast this
  have hab : ∀ i, i < w * h → dark.getD i 0 < px i + 1 := by
    intro i hi
    have a := Int.lt_floor_add_one (dark.getD i 0)
    have b := hpl i hi
    rw [hflq i hi] at b
    linarith
  have ok : FrameOK w h frame 0 := ⟨hw, hh, hsz, h2, hlen, le_refl 0⟩
  have hall : ∀ v ∈ frame, v < 65536 := by
    intro v hv
    obtain ⟨i, hi, rfl⟩ := List.mem_map.1 hv
    exact hpx i (by simpa using hi)
  -- values of the streaming path
  have hsv : ∀ i, i < w * h → u16StreamValue (some dark) frame i = if i = j then 1 else 0 := by
    intro i hi
    unfold u16StreamValue
    simp only
    rw [hget i hi, trunc_nonneg (hdi i hi).1, ← hfl i hi]
    simp only [px]
    split
    · have : (((⌊dark.getD i 0⌋.toNat + 1 : Nat) : Int) - ((⌊dark.getD i 0⌋.toNat : Nat) : Int)) % 65536 =
          1 := by omega
      rw [this]; rfl
    · have : (((⌊dark.getD i 0⌋.toNat : Nat) : Int) - ((⌊dark.getD i 0⌋.toNat : Nat) : Int)) % 65536 =
          0 := by omega
      rw [this]; rfl
  have hcv : ∀ i, i < w * h → u16ClassicValue dark frame i = 0 := by
    intro i hi
    have hv := C15_values (hpx i hi) (by linarith [(hdi i hi).1]) (hab i hi)
    have hs := hsv i hi
    unfold u16StreamValue at hs
    simp only at hs
    rw [hget i hi] at hs
    unfold u16ClassicValue
    rw [hget i hi]
    by_cases hij : i = j
    · subst hij
      rw [if_pos rfl] at hs
      have hs1 : (((px i : Nat) : Int) - truncZero (dark.getD i 0)) % 65536 = 1 := by exact_mod_cast hs
      have hne : ⌊dark.getD i 0⌋ ≠ ⌈dark.getD i 0⌉ := fun e => hf ((integral_iff _).2 e)
      have hpos : 0 < dark.getD i 0 := by
        rcases lt_or_eq_of_le (hdi i hi).1 with h | h
        · exact h
        · exact absurd (by rw [← h]; simp) hne
      have hbelow : dark.getD i 0 < (px i : Rat) := by
        have a := Int.lt_floor_add_one (dark.getD i 0)
        have e : (px i : Rat) = ((⌊dark.getD i 0⌋ : Int) : Rat) + 1 := by
          rw [← hflq i hi]; simp only [px, if_true]; push_cast; rfl
        rw [e]; exact a
      rw [if_pos ⟨hpos, hbelow, hne⟩, hs1] at hv
      have : truncZero ((px i : Rat) - dark.getD i 0) = 0 := by omega
      rw [this]; rfl
    · rw [if_neg hij] at hs
      have hs1 : (((px i : Nat) : Int) - truncZero (dark.getD i 0)) % 65536 = 0 := by exact_mod_cast hs
      have hnot : ¬ (0 < dark.getD i 0 ∧ dark.getD i 0 < (px i : Rat) ∧
          ⌊dark.getD i 0⌋ ≠ ⌈dark.getD i 0⌉) := by
        rintro ⟨_, a, _⟩
        have e : (px i : Rat) = ((⌊dark.getD i 0⌋ : Int) : Rat) := by
          rw [← hflq i hi]; simp only [px]; rw [if_neg hij]
        rw [e] at a
        exact absurd a (not_lt.2 (Int.floor_le _))
      rw [if_neg hnot, hs1] at hv
      have : truncZero ((px i : Rat) - dark.getD i 0) = 0 := by omega
      rw [this]; rfl
  obtain ⟨e1, a1, b1⟩ := C12_classic_u16 (o := noGain 0 2 dark) ok rfl rfl rfl hdl (by
    intro i hi
    rw [hget i hi]
    have a := hab i hi
    have b := (hdi i hi).1
    have c : (px i : Rat) < 65536 := by exact_mod_cast hpx i hi
    exact ⟨by linarith, by linarith⟩)
  obtain ⟨e2, a2, b2⟩ := C12_stream_u16 (o := noGain 0 2 dark) ok rfl rfl (by
    intro d hdd
    obtain rfl : dark = d := Option.some.inj hdd
    refine ⟨hdl, fun r hr => ?_⟩
    have := hd r hr
    exact ⟨by linarith, by linarith⟩)
  have hw0 : 0 < w := by
    rcases Nat.eq_zero_or_pos w with rfl | h
    · simp at hj
    · exact h
  have he1 : e1 = [] := by
    rw [List.eq_nil_iff_forall_not_mem]
    intro i hi
    have hil := b1.onDetector i hi
    have a : i % w < w := Nat.mod_lt _ hw0
    have b : i / w < h := Nat.div_lt_of_lt_mul hil
    have ej : i / w * w + i % w = i := by rw [Nat.mul_comm]; exact Nat.div_add_mod i w
    have m := b1.mem (i % w) (i / w) a b
    rw [ej] at m
    have := (m.1 hi).1.1
    rw [hcv i hil] at this
    exact absurd this (lt_irrefl _)
  have hmem : ∀ i, i < w * h → (i ∈ e2 ↔ i = j) := by
    intro i hil
    have a : i % w < w := Nat.mod_lt _ hw0
    have b : i / w < h := Nat.div_lt_of_lt_mul hil
    have ej : i / w * w + i % w = i := by rw [Nat.mul_comm]; exact Nat.div_add_mod i w
    have m := b2.mem (i % w) (i / w) a b
    rw [ej] at m
    constructor
    · intro hi
      by_contra hne
      have := (m.1 hi).1.1
      change 0 < u16StreamValue (some dark) frame i at this
      rw [hsv i hil, if_neg hne] at this
      exact absurd this (lt_irrefl _)
    · rintro rfl
      apply m.2
      have v1 : u16StreamValue (noGain 0 2 dark).dark frame i = 1 := by
        have := hsv i hil
        rw [if_pos rfl] at this
        exact this
      rw [v1]
      refine ⟨⟨by norm_num [noGain], by norm_num [noGain]⟩, ?_⟩
      intro x' y' hx hy hn
      have hne : y' * w + x' ≠ i := by
        intro e
        have e1 : (y' * w + x') % w = x' := flat_mod y' hx
        have e2 : (y' * w + x') / w = y' := flat_div y' hx
        rw [e] at e1 e2
        rw [e1, e2] at hn
        exact hn.1 ⟨rfl, rfl⟩
      have v0 : u16StreamValue (noGain 0 2 dark).dark frame (y' * w + x') = 0 := by
        have := hsv (y' * w + x') (flat_lt hx hy)
        rw [if_neg hne] at this
        exact this
      rw [v0]
      unfold eligible
      rw [if_neg (by rintro ⟨p, _⟩; exact absurd p (lt_irrefl _))]
      norm_num
  have he2 : e2 = [j] := by
    have p : e2.Perm [j] := (List.perm_ext_iff_of_nodup
      (b2.sorted.imp fun h => Nat.ne_of_lt h) (by simp)).2 (by
        intro i
        rw [List.mem_singleton]
        by_cases hi : i < w * h
        · exact hmem i hi
        · exact ⟨fun a => absurd (b2.onDetector i a) hi, fun a => absurd (a ▸ hj) hi⟩)
    exact List.perm_singleton.1 p
  refine ⟨frame, hlen, hall, ?_, he1 ▸ a1, he2 ▸ a2⟩
  intro i hi
  rw [hget i hi]
  exact hab i hi

/-- **C15** For a dark reference without negative values the two paths agree on all frames which it does not exceed
by one or more, for all thresholds, if and only if all its values are integral. -/
theorem C15_iff {w h : Nat} {dark : List Rat} (hw : w < 65536) (hh : h < 65536)
    (hsz : w * h < 2 ^ 32) (h2 : 1 < w * h) (hdl : dark.length = w * h)
    (hd : ∀ d ∈ dark, 0 ≤ d ∧ d < 65535) :
    (∀ (frame : List Nat) (bg xr : Rat), frame.length = w * h → (∀ v ∈ frame, v < 65536) → 0 ≤ bg →
      (∀ i, i < w * h → dark.getD i 0 < frame.getD i 0 + 1) →
      countFrameClassic (noGain bg xr dark) (w, h) (pixels frame) =
        countFrameStream (noGain bg xr dark) (w, h) (pixels frame)) ↔
    ∀ d ∈ dark, Integral d := by
  constructor
  · intro hall d hdm
    by_contra hf
    obtain ⟨j, hj, rfl⟩ := List.getElem_of_mem hdm
    have e : dark.getD j 0 = dark[j] := by simp [hj]
    rw [← e] at hf
    obtain ⟨frame, f1, f2, f3, f4, f5⟩ := C15_fractional_false hw hh hsz h2 hdl hd (by omega) hf
    have := hall frame 0 2 f1 f2 (le_refl 0) f3
    rw [f4, f5] at this
    cases this
  · intro hint frame bg xr hl hpx hbg hab
    obtain ⟨e, a, b⟩ := C15_real_partial (xr := xr) ⟨hw, hh, hsz, h2, hl, hbg⟩ hdl hpx (by
      intro j hj
      have hm := hd _ (getD_mem (d := dark) (j := j) (by omega))
      have hv : frame.getD j 0 < 65536 := hpx _ (by
        have : j < frame.length := by omega
        simp [this])
      have hv : (frame.getD j 0 : Rat) < 65536 := by exact_mod_cast hv
      exact ⟨by linarith, hab j hj, by linarith, by linarith⟩)
      (fun j hj => Or.inr (Or.inr (hint _ (getD_mem (by omega)))))
    rw [a, b]

private theorem foldlM_stuck {σ : Type} (f : σ → Nat → Outcome σ) (l : List Nat) (s : σ) (j : Nat)
    (P : σ → Prop) (hP : P s) (hstep : ∀ k s s', k ∈ l → k ≠ j → P s → f s k = .ok s' → P s')
    (hno : ∀ k s m, P s → f s k ≠ .throw m) (hj : j ∈ l) (hub : ∀ s, P s → f s j = .ub) :
    l.foldlM f s = .ub := by
  induction l generalizing s with
  | nil => simp at hj
  | cons a l ih =>
    rw [List.foldlM_cons]
    by_cases haj : a = j
    · rw [haj, hub s hP]; rfl
    · cases hf : f s a with
      | ok s' =>
        rw [Outcome.ok_bind]
        exact ih s' (hstep a s s' (by simp) haj hP hf)
          (fun k s s' hk => hstep k s s' (by simp [hk]))
          (by rcases List.mem_cons.1 hj with h | h; exacts [absurd h.symm haj, h])
      | throw m => exact absurd hf (hno a s m hP)
      | ub => rfl

/-- **C15** A dark value above its pixel by one or more is undefined behaviour in the block-wise path, for every
frame and every dark reference. -/
theorem C15_dark_above {w h : Nat} {frame : List Nat} {dark : List Rat} (bg xr : Rat)
    (hsz : w * h < 2 ^ 32) (hl : frame.length = w * h) (hdl : dark.length = w * h) {j : Nat}
    (hj : j < w * h) (ha : (frame.getD j 0 : Rat) + 1 ≤ dark.getD j 0) :
    countFrameClassic (noGain bg xr dark) (w, h) (pixels frame) = .ub := by
  unfold countFrameClassic
  simp only [noGain, Nat.mod_eq_of_lt hsz]
  have hlp : (pixels frame).length = w * h := by simp [pixels, hl]
  have : forPixels (w * h) (classicPixel .u16 bg xr (some dark) none) (pixels frame) = .ub := by
    unfold forPixels
    apply foldlM_stuck _ _ _ j (fun fr : List Rat => fr.length = w * h ∧
      fr[j]? = some (frame.getD j 0 : Rat))
    · refine ⟨hlp, ?_⟩
      have : j < frame.length := by omega
      simp [pixels, this]
    · rintro k fr fr' hk hkj ⟨p1, p2⟩ hf
      have hk : k < w * h := by simpa using hk
      rw [readAt_lt (by omega), Outcome.ok_bind] at hf
      cases hp : classicPixel .u16 bg xr (some dark) none k (fr[k]'(by omega)) with
      | ok v =>
        rw [hp, Outcome.ok_bind, writeAt_lt (by omega)] at hf
        obtain rfl : fr.set k v = fr' := by simpa using hf
        refine ⟨by simpa using p1, ?_⟩
        rw [List.getElem?_set_ne hkj]; exact p2
      | throw m => rw [hp] at hf; cases hf
      | ub => rw [hp] at hf; cases hf
    · rintro k fr m ⟨p1, _⟩ hf
      revert hf
      cases hr : readAt fr k with
      | ok v =>
        rw [Outcome.ok_bind]
        unfold classicPixel
        cases hq : readPtr (some dark) k with
        | ok d =>
          simp only [Outcome.ok_bind]
          unfold toU16
          split
          · simp
          · split
            · simp only [Outcome.ok_bind, Outcome.pure_eq]
              exact NoThrow.writeAt _ _ _ m
            · simp only [Outcome.ok_bind, Outcome.pure_eq]
              exact NoThrow.writeAt _ _ _ m
        | throw m => exact absurd hq (NoThrow.readAt _ _ m)
        | ub => simp
      | throw m => exact absurd hr (NoThrow.readAt _ _ m)
      | ub => simp
    · simp [hj]
    · rintro fr ⟨p1, p2⟩
      have r1 : readAt fr j = .ok (frame.getD j 0 : Rat) := by rw [readAt_eq_ok]; exact p2
      have hrd : readPtr (some dark) j = .ok (dark.getD j 0) := by
        have : j < dark.length := by omega
        simp [readPtr, readAt_lt this, this]
      rw [r1, Outcome.ok_bind]
      unfold classicPixel
      rw [hrd]
      simp only [Outcome.ok_bind]
      unfold toU16
      rw [if_pos (Or.inl (by linarith))]
      rfl
  rw [this]
  rfl

/-- A dark reference with a value with fractional part, on the detector of the code. -/
example : ∃ frame : List Nat, frame.length = 576 * 576 ∧
    countFrameClassic (noGain 0 2 (List.replicate (576 * 576) (5 / 2))) (576, 576) (pixels frame) =
      .ok [] ∧
    countFrameStream (noGain 0 2 (List.replicate (576 * 576) (5 / 2))) (576, 576) (pixels frame) =
      .ok [1000] := by
  have hg : (List.replicate (576 * 576) (5 / 2 : Rat)).getD 1000 0 = 5 / 2 := by
    rw [List.getD_eq_getElem?_getD, List.getElem?_replicate_of_lt (by norm_num)]; rfl
  obtain ⟨f, a, _, _, b, c⟩ := C15_fractional_false (w := 576) (h := 576)
    (dark := List.replicate (576 * 576) (5 / 2)) (by norm_num) (by norm_num) (by norm_num) (by norm_num)
    (List.length_replicate) (by
      intro d hd
      rw [(List.mem_replicate.1 hd).2]; norm_num) (j := 1000) (by norm_num) (by
      rw [hg]
      rintro ⟨n, hn⟩
      have : (5 : Rat) = ((2 * n : Int) : Rat) := by push_cast; linarith
      have : (5 : Int) = 2 * n := by exact_mod_cast this
      omega)
  exact ⟨f, a, b, c⟩

end Stempy.Props
