import Verif.Props.RoundingRowDark

/-!
C92: the median in single precision, and where counting in single precision has no result: null pointers and half rows with the
statistic zero.
-/

namespace Stempy.RoundedCounting
open Stempy.Spec Stempy.Props
open Stempy.FloatPixels (Fl threshold forRange ofPixels ofPixels_get ofPixels_length halfRow_slice IsPeak NextToNan NoThrow noThrow_ok
  noThrow_ub noThrow_readAt noThrow_writeAt noThrow_foldlM foldlM_range_ub foldlM_range_ok)
open Stempy.Float32 (Rounds f32)
open Stempy.SafeCast (float32)

/-! ### The median -/

theorem finite_map (l : List Rat) : FloatPixels.finite (l.map Fl.fin) = some l := by
  induction l with
  | nil => rfl
  | cons a l ih => simp [FloatPixels.finite, ih]

theorem has_half {n : Nat} (h : n < 2 ^ 24) : float32.Has ((n : Rat) / 2) :=
  ⟨n, -1, by
    show |(n : Int)| < 2 ^ 24
    rw [abs_of_nonneg (Int.natCast_nonneg n)]
    exact_mod_cast h, by decide, by decide, by
    rw [zpow_neg, zpow_one, div_eq_mul_inv, Int.cast_natCast]⟩

/-- **C92** for the median of 16 bit pixels: it has no rounding error in any rounding mode, for half rows of any length. -/
theorem C92_median {rd : Rat → Fl} (R : Rounds rd) {nth : List Rat → Nat → List Rat} (hn : NthElement nth) {l : List Nat} (h0 : l ≠ [])
    (hv : ∀ v ∈ l, v < 65536) :
    medianStat rd nth (l.map fun v : Nat => Fl.fin v) = .ok (.fin (sortedMedian (l.map fun v : Nat => (v : Rat)))) := by
  have hlen : 0 < l.length := List.length_pos_of_ne_nil h0
  have hex := C14_median hn (l.map fun v : Nat => (v : Rat)) (by simpa using h0)
  have hl : (l.map fun v : Nat => Fl.fin v) = (l.map fun v : Nat => (v : Rat)).map Fl.fin := by simp
  rw [hl]
  generalize hq : (l.map fun v : Nat => (v : Rat)) = q at *
  have hql : q.length = l.length := by rw [← hq, List.length_map]
  obtain ⟨hp, _⟩ := hn q (q.length / 2) (by omega)
  have hmem : ∀ v ∈ nth q (q.length / 2), ∃ n : Nat, n < 65536 ∧ v = n := by
    intro v h
    have := hp.mem_iff.1 h
    rw [← hq, List.mem_map] at this
    obtain ⟨n, h1, h2⟩ := this
    exact ⟨n, hv n h1, h2.symm⟩
  unfold medianStat
  rw [finite_map]
  unfold Electron.medianStat at hex
  simp only at hex ⊢
  have hlt : q.length / 2 < (nth q (q.length / 2)).length := by rw [hp.length_eq]; omega
  rw [readAt_lt hlt, Outcome.ok_bind] at hex ⊢
  obtain ⟨n, n1, n2⟩ := hmem _ (List.getElem_mem hlt)
  by_cases hodd : q.length % 2 = 1
  · rw [if_pos hodd] at hex ⊢
    simp only [Outcome.pure_eq, Outcome.ok.injEq, Option.some.injEq] at hex ⊢
    rw [← hex, n2]
    exact R.fix _ (has_nat (by omega))
  · rw [if_neg hodd] at hex ⊢
    cases htk : (nth q (q.length / 2)).take (q.length / 2) with
    | nil =>
      rw [htk] at hex
      cases hex
    | cons a t =>
      rw [htk] at hex
      simp only [Outcome.pure_eq, Outcome.ok.injEq, Option.some.injEq] at hex ⊢
      obtain ⟨k, k1, k2⟩ := hmem (t.foldl max a) (List.mem_of_mem_take (by rw [htk]; exact (foldl_max_eq t a).2))
      rw [← hex, k2, n2]
      have h1 : rd ((k : Rat) + n) = .fin ((k + n : Nat) : Rat) := by
        rw [← Nat.cast_add]
        exact R.fix _ (has_nat (by omega))
      rw [h1]
      have h2 : Fl.div (.fin ((k + n : Nat) : Rat)) (.fin 2) = .fin (((k + n : Nat) : Rat) / 2) := by
        simp [Fl.div]
      rw [h2]
      have h3 : rnd rd (.fin (((k + n : Nat) : Rat) / 2)) = .fin (((k + n : Nat) : Rat) / 2) := R.fix _ (has_half (by omega))
      rw [h3, Nat.cast_add]

/-! ### Null pointers -/

/-- **C92** is false for block-wise counting without dark reference: the pointer to it is null and is read, whatever the frame. -/
theorem C92_null_false (rd : Rat → Fl) (o : Options) (hd : o.dark = none) (hr : o.rowDark = none) {w h : Nat} (h0 : 0 < w * h)
    (hs : w * h < 2 ^ 32) {frame : List Fl} (hl : frame.length = w * h) : countClassic rd o (w, h) frame = .ub := by
  unfold countClassic
  rw [hr]
  have hn : (w * h) % 2 ^ 32 = w * h := Nat.mod_eq_of_lt hs
  simp only [hn]
  unfold forRange
  obtain ⟨n, e⟩ : ∃ n, w * h = n + 1 := ⟨w * h - 1, by omega⟩
  rw [e, List.range_succ_eq_map, List.foldlM_cons, readAt_lt (show 0 + 0 < frame.length by omega)]
  have : ∀ j v, classicPixel rd o j v = .ub := by
    intro j v
    unfold classicPixel
    rw [hd]
    rfl
  simp only [Outcome.ok_bind, this]
  rfl

/-! ### Half rows with the statistic zero -/

private theorem noThrow_toU16 (v : Fl) : NoThrow (toU16 v) := by
  cases v with
  | fin q =>
    unfold toU16
    simp only
    split
    · exact noThrow_ub
    · split <;> exact noThrow_ok _
  | _ => exact noThrow_ub

private theorem noThrow_store (ft : Electron.FT) (v : Fl) : NoThrow (store ft v) := by
  cases ft
  · exact noThrow_toU16 v
  · exact noThrow_ok v

private theorem noThrow_readPtr (d : Option (List Fl)) (j : Nat) : NoThrow (readPtr d j) := by
  cases d
  · exact noThrow_ub
  · exact noThrow_readAt _ _

private theorem noThrow_pixel (rd : Rat → Fl) (o : Options) (s : Fl) (j : Nat) (v : Fl) : NoThrow (rowPixel rd o s j v) := by
  unfold rowPixel
  have rest : ∀ v : Fl, NoThrow (do
      let v ← store o.ft (rnd rd (v.mul (rnd rd (o.optMean.div s))))
      let v ← match o.ft with
        | .u16 => pure v
        | .f32 => do
          let g ← readPtr o.gain j
          pure (rnd rd (v.mul g))
      pure (threshold (.fin o.bg) (.fin o.xr) v)) := by
    intro v
    refine (noThrow_store _ _).bind fun v => ?_
    cases o.ft with
    | u16 => exact noThrow_ok _
    | f32 => exact (noThrow_readPtr _ _).bind fun r => noThrow_ok _
  cases o.dark with
  | none => exact rest v
  | some d => exact (noThrow_readAt _ _).bind fun r => (noThrow_store _ _).bind rest

private theorem noThrow_range {rd : Rat → Fl} {o : Options} {statFunc : List Fl → Outcome Fl} (hs : ∀ l, NoThrow (statFunc l))
    (start len : Nat) (fr : List Fl) : NoThrow (rowRange rd o statFunc start len fr) := by
  unfold rowRange
  split
  · exact (hs _).bind fun s => noThrow_foldlM _ (fun fr k => (noThrow_readAt _ _).bind fun v =>
      (noThrow_pixel _ _ _ _ _).bind fun v' => noThrow_writeAt _ _ _) _ _
  · exact noThrow_ub

private theorem range_frame {rd : Rat → Fl} {o : Options} {statFunc : List Fl → Outcome Fl} {start len : Nat} {fr out : List Fl}
    (h : rowRange rd o statFunc start len fr = .ok out) :
    out.length = fr.length ∧ ∀ j, ¬ (start ≤ j ∧ j < start + len) → out[j]? = fr[j]? := by
  unfold rowRange at h
  split at h
  swap
  · cases h
  · cases hs : statFunc ((fr.drop start).take len) with
    | ub => rw [hs] at h; cases h
    | throw m => rw [hs] at h; cases h
    | ok s =>
      rw [hs, Outcome.ok_bind] at h
      refine foldlM_range_ok len _ (fun k g => g.length = fr.length ∧ ∀ j, ¬ (start ≤ j ∧ j < start + k) → g[j]? = fr[j]?) fr
        ⟨rfl, fun _ _ => rfl⟩ ?_ h
      rintro k hk g g' ⟨i1, i2⟩ e
      cases hr : readAt g (start + k) with
      | ub => rw [hr] at e; cases e
      | throw m => rw [hr] at e; cases e
      | ok v =>
        simp only [hr, Outcome.ok_bind] at e
        cases hp : rowPixel rd o s (start + k) v with
        | ub => rw [hp] at e; cases e
        | throw m => rw [hp] at e; cases e
        | ok v' =>
          simp only [hp, Outcome.ok_bind] at e
          unfold writeAt at e
          split at e
          · cases e
            refine ⟨by simpa using i1, ?_⟩
            intro j hj
            rw [List.getElem?_set_ne (by omega)]
            exact i2 j (by omega)
          · cases e

private theorem mul_infinite (rd : Rat → Fl) (a : Rat) (v : Fl) : toU16 (rnd rd (v.mul (rnd rd (Fl.div (.fin a) (.fin 0))))) = .ub := by
  have h : Fl.div (.fin a) (.fin 0) = Fl.signInf a := by simp [Fl.div]
  have h2 : ∀ q : Rat, Fl.signInf q = .pinf ∨ Fl.signInf q = .ninf ∨ Fl.signInf q = .nan := by
    intro q
    unfold Fl.signInf
    split
    · exact Or.inl rfl
    · split
      · exact Or.inr (Or.inl rfl)
      · exact Or.inr (Or.inr rfl)
  have h3 : ∀ u : Fl, u = .pinf ∨ u = .ninf ∨ u = .nan → toU16 (rnd rd u) = .ub := by
    rintro u (rfl | rfl | rfl) <;> rfl
  rw [h]
  rcases h2 a with e | e | e <;> rw [e] <;> simp only [rnd] <;> apply h3 <;> cases v <;> simp only [Fl.mul, h2, reduceCtorEq, or_true, true_or, or_self, or_false]

private theorem range_ub {rd : Rat → Fl} {o : Options} {statFunc : List Fl → Outcome Fl} {start len : Nat} {fr : List Fl} {m : Rat}
    (hft : o.ft = .u16) (hm : o.optMean = .fin m) (hlen : 0 < len) (hb : start + len ≤ fr.length)
    (hs : statFunc ((fr.drop start).take len) = .ok (.fin 0)) : rowRange rd o statFunc start len fr = .ub := by
  unfold rowRange
  rw [if_pos hb, hs, Outcome.ok_bind]
  refine foldlM_range_ub len _ (fun k g => k = 0 → g = fr) fr (fun _ => rfl) ?_ (fun k _ s s' _ _ h => by omega) hlen ?_
  · exact fun fr k => (noThrow_readAt _ _).bind fun v => (noThrow_pixel _ _ _ _ _).bind fun v' => noThrow_writeAt _ _ _
  · intro g hg
    have hg := hg rfl
    subst hg
    have hp : ∀ v, rowPixel rd o (.fin 0) (start + 0) v = .ub := by
      intro v
      unfold rowPixel
      have rest : ∀ v : Fl, store o.ft (rnd rd (v.mul (rnd rd (o.optMean.div (.fin 0))))) = .ub := by
        intro v
        rw [hft, hm]
        exact mul_infinite rd m v
      cases o.dark with
      | none => simp only [Outcome.pure_eq, Outcome.ok_bind, rest]; rfl
      | some d =>
        simp only
        cases h1 : readAt d (start + 0) with
        | ub => rfl
        | throw m => exact absurd h1 (noThrow_readAt _ _ m)
        | ok r =>
          simp only [Outcome.ok_bind]
          cases h2 : store o.ft (rnd rd (v.sub r)) with
          | ub => rfl
          | throw m => exact absurd h2 (noThrow_store _ _ m)
          | ok r => simp only [Outcome.ok_bind, rest]; rfl
    rw [readAt_lt (show start + 0 < g.length by omega)]
    simp only [Outcome.ok_bind, hp]
    rfl

/-- **C92** is false with row dark correction and without gain if a half row has the statistic zero (all its pixels are zero, for example): the
factor is infinite or NaN, and so is its product with a pixel, which is converted to `uint16_t`. In every rounding mode, with and without dark
reference, for frames of every shape. -/
theorem C92_no_gain_undefined (rd : Rat → Fl) {bg xr optMean : Rat} {dark : Option (List Rat)} {w h : Nat} {frame : List Nat}
    {statFunc : List Fl → Outcome Fl} (hs : ∀ l e, statFunc l ≠ .throw e) (hsz : w * h < 2 ^ 32) (hl : frame.length = w * h) (hh : 2 ≤ h)
    {x y : Nat} (hx : x < h) (hy : y < w) (hz : statFunc ((halfRow h (pixels frame) x y).map Fl.fin) = .ok (.fin 0)) :
    countStream rd (rowOptions bg xr dark none statFunc optMean) (w, h) (ofPixels frame) = .ub ∧
      countClassic rd (rowOptions bg xr dark none statFunc optMean) (w, h) (ofPixels frame) = .ub := by
  have hnt : ∀ l, NoThrow (statFunc l) := hs
  have hpl : (ofPixels frame).length = w * h := by rw [ofPixels_length, hl]
  have key : rowDark rd (rowOptions bg xr dark none statFunc optMean) statFunc (w, h) (ofPixels frame) = .ub := by
    unfold rowDark
    refine foldlM_range_ub w _ (fun k g => g.length = w * h ∧ ∀ j, k * h ≤ j → g[j]? = (ofPixels frame)[j]?) (ofPixels frame)
      ⟨hpl, fun _ _ => rfl⟩ ?_ ?_ hy ?_
    · intro g k
      exact (noThrow_range hnt _ _ _).bind fun g => noThrow_range hnt _ _ _
    · rintro k hk g g' ⟨i1, i2⟩ e
      have hrl : k * h + h ≤ w * h := by
        calc k * h + h = (k + 1) * h := by ring
          _ ≤ w * h := Nat.mul_le_mul_right _ hk
      have hi : (k * h) % 2 ^ 32 = k * h := Nat.mod_eq_of_lt (by omega)
      have hsucc : (k + 1) * h = k * h + h := by ring
      simp only [hi] at e
      cases h1 : rowRange rd (rowOptions bg xr dark none statFunc optMean) statFunc (k * h) (h / 2) g with
      | ub => rw [h1] at e; cases e
      | throw m => rw [h1] at e; cases e
      | ok g1 =>
        rw [h1, Outcome.ok_bind] at e
        obtain ⟨a1, a2⟩ := range_frame h1
        obtain ⟨b1, b2⟩ := range_frame e
        refine ⟨by omega, ?_⟩
        intro j hj
        rw [b2 j (by omega), a2 j (by omega), i2 j (by omega)]
    · rintro g ⟨i1, i2⟩
      have hrl : y * h + h ≤ w * h := by
        calc y * h + h = (y + 1) * h := by ring
          _ ≤ w * h := Nat.mul_le_mul_right _ hy
      have hi : (y * h) % 2 ^ 32 = y * h := Nat.mod_eq_of_lt (by omega)
      simp only [hi]
      by_cases hx2 : x < h / 2
      · rw [range_ub rfl rfl (by omega) (by omega) (by
          rw [halfRow_slice (frame := frame) (w := h) (x := x) (y := y) (by omega) (by omega) (fun j h1 h2 => i2 j h1)
            (by simp [halfStart, hx2]) (by simp [halfLen, hx2])]
          exact hz)]
        rfl
      · cases h1 : rowRange rd (rowOptions bg xr dark none statFunc optMean) statFunc (y * h) (h / 2) g with
        | ub => rfl
        | throw m => exact absurd h1 (noThrow_range hnt _ _ _ m)
        | ok g1 =>
          obtain ⟨a1, a2⟩ := range_frame h1
          rw [Outcome.ok_bind]
          refine range_ub rfl rfl (by omega) (by omega) ?_
          rw [halfRow_slice (frame := frame) (w := h) (x := x) (y := y) (by omega) (by omega)
            (fun j h1 h2 => by rw [a2 j (by omega)]; exact i2 j (by omega)) (by simp [halfStart, hx2]) (by simp [halfLen, hx2])]
          exact hz
  have hr : (rowOptions bg xr dark none statFunc optMean).rowDark = some statFunc := rfl
  constructor
  · unfold countStream
    rw [hr]
    simp only [key]
    rfl
  · unfold countClassic
    rw [hr]
    simp only [key]
    rfl

/-- The value of a pixel with row dark correction, gain and the statistic `s`: every operation is rounded. -/
def rowRounded (rd : Rat → Fl) (optMean : Rat) (dark : Option (List Rat)) (gain : List Rat) (s : Fl) (frame : List Nat) (j : Nat) : Fl :=
  rnd rd ((rnd rd ((match dark with
    | none => Fl.fin (frame.getD j 0 : Nat)
    | some d => rd ((frame.getD j 0 : Nat) - d.getD j 0)).mul (rnd rd (Fl.div (.fin optMean) s)))).mul (.fin (gain.getD j 0)))

/-- **C92**, what the code does with row dark correction and gain, for any statistics: zero, infinite or NaN too. -/
theorem C92_rowdark_values {rd : Rat → Fl} {bg xr optMean : Rat} {dark : Option (List Rat)} {gain : List Rat} {w h : Nat} {frame : List Nat}
    {statFunc : List Fl → Outcome Fl} {S : Nat → Nat → Fl} {c : Nat → Fl} (ok : FrameOK w h frame bg) (hh : 2 ≤ h)
    (hg : gain.length = w * h) (hd : ∀ d, dark = some d → d.length = w * h)
    (hstat : ∀ x y, x < h → y < w → statFunc ((halfRow h (pixels frame) x y).map Fl.fin) = .ok (S x y))
    (hc : ∀ x y, x < h → y < w → c (y * h + x) = rowRounded rd optMean dark gain (S x y) frame (y * h + x)) :
    ∃ events, countStream rd (rowOptions bg xr dark (some gain) statFunc optMean) (w, h) (ofPixels frame) = .ok events ∧
      countClassic rd (rowOptions bg xr dark (some gain) statFunc optMean) (w, h) (ofPixels frame) = .ok events ∧
      events.Pairwise (· < ·) ∧ (∀ e ∈ events, e < w * h) ∧
      ∀ x y, x < w → y < h → (y * w + x ∈ events ↔ IsPeak bg xr w h c x y ∧ ¬ NextToNan w h c x y) := by
  obtain ⟨out, h1, h2, h3⟩ := rowDark_ok (rd := rd) (o := rowOptions bg xr dark (some gain) statFunc optMean) (statFunc := statFunc) (S := S)
    (V := fun j => threshold (.fin bg) (.fin xr) (c j)) hh ok.size ok.len hstat (by
      intro x y hx hy
      have hj : y * h + x < w * h := by rw [Nat.mul_comm w h]; exact flat_lt hx hy
      have h6 : readAt (gain.map Fl.fin) (y * h + x) = .ok (.fin (gain.getD (y * h + x) 0)) := readAt_fin (by omega)
      simp only [hc x y hx hy]
      unfold rowPixel rowRounded rowOptions
      cases dark with
      | none => simp [store, readPtr, h6]
      | some d =>
        have h7 : readAt (d.map Fl.fin) (y * h + x) = .ok (.fin (d.getD (y * h + x) 0)) := readAt_fin (by rw [hd d rfl]; exact hj)
        have hsub : Fl.sub (.fin (frame.getD (y * h + x) 0 : Nat)) (.fin (d.getD (y * h + x) 0)) =
            .fin ((frame.getD (y * h + x) 0 : Nat) - d.getD (y * h + x) 0) := by
          simp [Fl.sub, Fl.add, Fl.neg, sub_eq_add_neg]
        have hr : ∀ q, rnd rd (.fin q) = rd q := fun _ => rfl
        simp only [Option.map_some, h7, Outcome.ok_bind, hsub, hr, store, readPtr, h6, Option.isSome_some, if_true, Outcome.pure_eq])
  obtain ⟨ev, e1, e2, e3, e4⟩ := FloatPixels.events_of (xr := xr) ok.bg0 ok.wlt ok.hlt ok.size ok.two c (out := out) h2 h3
  have hr : (rowOptions bg xr dark (some gain) statFunc optMean).rowDark = some statFunc := rfl
  refine ⟨ev, ?_, ?_, e2, e3, e4⟩
  · unfold countStream
    rw [hr]
    simp only [h1, Outcome.ok_bind]
    exact e1
  · unfold countClassic
    rw [hr]
    simp only [h1, Outcome.ok_bind]
    exact e1

/-- **C92** is false with row dark correction and gain if a half row has the statistic zero, as the median of a half row most of whose pixels are
zero: the pixels which are not zero become infinite and are not counted, however far they are between the thresholds after any finite scaling;
they do not disturb their neighbours. The pixels which are zero become NaN and suppress all events next to them. For all positive gains and
rounding modes, in square frames. -/
theorem C92_zero_statistic_false {rd : Rat → Fl} {bg xr optMean : Rat} {gain : List Rat} {w : Nat} {frame : List Nat}
    {statFunc : List Fl → Outcome Fl} {S : Nat → Nat → Fl} (ok : FrameOK w w frame bg) (hg : gain.length = w * w)
    (hpos : ∀ g ∈ gain, 0 < g) (hm : 0 < optMean)
    (hstat : ∀ x y, x < w → y < w → statFunc ((halfRow w (pixels frame) x y).map Fl.fin) = .ok (S x y)) :
    ∃ events, countStream rd (rowOptions bg xr none (some gain) statFunc optMean) (w, w) (ofPixels frame) = .ok events ∧
      ∀ x y, x < w → y < w → S x y = .fin 0 → y * w + x ∉ events ∧
        (frame.getD (y * w + x) 0 = 0 → ∀ x' y', x' < w → y' < w → Neighbour x' y' x y → y' * w + x' ∉ events) ∧
        (frame.getD (y * w + x) 0 ≠ 0 → ∀ x' y', x' < w → y' < w → Neighbour x' y' x y → ∀ q,
          rowRounded rd optMean none gain (S x' y') frame (y' * w + x') = .fin q → bg < q → q < xr →
          (∀ a b, a < w → b < w → Neighbour x' y' a b → b * w + a ≠ y * w + x →
            ∃ q', rowRounded rd optMean none gain (S a b) frame (b * w + a) = .fin q' ∧ q' < q) → y' * w + x' ∈ events) := by
  have hw : 0 < w := by have := two_le ok.two; omega
  obtain ⟨ev, e1, _, _, e3, e4⟩ := C92_rowdark_values (rd := rd) (xr := xr) (optMean := optMean) (dark := none) (statFunc := statFunc) (S := S)
    (c := fun j => rowRounded rd optMean none gain (S (j % w) (j / w)) frame j) ok (two_le ok.two) hg (by intro d h; cases h) hstat (by
      intro x y hx hy
      simp only [flat_mod y hx, flat_div y hx])
  have hval : ∀ x y, x < w → y < w → S x y = .fin 0 →
      rowRounded rd optMean none gain (S ((y * w + x) % w) ((y * w + x) / w)) frame (y * w + x) =
        if frame.getD (y * w + x) 0 = 0 then .nan else .pinf := by
    intro x y hx hy hs
    have hgj : 0 < gain.getD (y * w + x) 0 := hpos _ (getD_mem hg (flat_lt hx hy))
    rw [flat_mod y hx, flat_div y hx, hs]
    unfold rowRounded
    have h1 : Fl.div (.fin optMean) (.fin 0) = .pinf := by simp [Fl.div, Fl.signInf, hm]
    by_cases h0 : frame.getD (y * w + x) 0 = 0
    · rw [if_pos h0, h0]
      simp [h1, rnd, Fl.mul, Fl.signInf]
    · rw [if_neg h0]
      have : (0 : Rat) < (frame.getD (y * w + x) 0 : Nat) := by exact_mod_cast Nat.pos_of_ne_zero h0
      simp only [h1, rnd, Fl.mul, Fl.signInf, if_pos this, if_pos hgj]
  refine ⟨ev, e1, ?_⟩
  intro x y hx hy hs
  have hv := hval x y hx hy hs
  refine ⟨?_, ?_, ?_⟩
  · rw [e4 x y hx hy]
    rintro ⟨⟨q, h1, _⟩, _⟩
    have h1 := hv.symm.trans h1
    split at h1 <;> cases h1
  · intro h0 x' y' hx' hy' hn
    rw [e4 x' y' hx' hy']
    rintro ⟨_, h⟩
    rw [if_pos h0] at hv
    exact h ⟨x, y, hx, hy, hn, hv⟩
  · intro h0 x' y' hx' hy' hn q h1 h2 h3 h4
    rw [if_neg h0] at hv
    rw [e4 x' y' hx' hy']
    refine ⟨⟨q, ?_, h2, h3, ?_⟩, ?_⟩
    · simp only [flat_mod y' hx', flat_div y' hx']
      exact h1
    · intro a b ha hb hab q' c1 _ _
      by_cases hne : b * w + a = y * w + x
      · have c1 := c1
        simp only [hne] at c1
        rw [hv] at c1
        cases c1
      · obtain ⟨q2, d1, d2⟩ := h4 a b ha hb hab hne
        simp only [flat_mod b ha, flat_div b ha] at c1
        rw [d1] at c1
        cases c1
        exact d2
    · rintro ⟨a, b, ha, hb, hab, c1⟩
      by_cases hne : b * w + a = y * w + x
      · simp only [hne] at c1
        rw [hv] at c1
        cases c1
      · obtain ⟨q2, d1, d2⟩ := h4 a b ha hb hab hne
        simp only [flat_mod b ha, flat_div b ha] at c1
        rw [d1] at c1
        cases c1

/-! ### Examples -/

/-- The median of four pixels in every rounding mode. -/
example (rd : Rat → Fl) (R : Rounds rd) (nth : List Rat → Nat → List Rat) (hn : NthElement nth) :
    medianStat rd nth (([5, 65535, 65534, 2] : List Nat).map fun v : Nat => Fl.fin v) =
      .ok (.fin (sortedMedian (([5, 65535, 65534, 2] : List Nat).map fun v : Nat => (v : Rat)))) :=
  C92_median R hn (by decide) (by decide)

example : countClassic f32 (plainOptions 1 100 none) (2, 1) (ofPixels [3, 5]) = .ub :=
  C92_null_false f32 _ rfl rfl (by decide) (by decide) rfl

/-- The second half of the second row is zero. -/
example : countStream f32 (rowOptions 3 100 none none (meanStat f32) 4) (2, 4) (ofPixels [1, 2, 3, 4, 5, 6, 0, 0]) = .ub := by
  refine (C92_no_gain_undefined f32 (x := 2) (y := 1) (by intro l e; exact nofun) (by decide) rfl (by decide) (by decide) (by decide) ?_).1
  have h : halfRow 4 (pixels [1, 2, 3, 4, 5, 6, 0, 0]) 2 1 = [0, 0].map fun v : Nat => (v : Rat) := rfl
  have hf : ((([0, 0] : List Nat).map fun v : Nat => (v : Rat)).map Fl.fin) = ([0, 0] : List Nat).map fun v : Nat => Fl.fin v := by simp
  have h0 : f32 0 = .fin 0 := by
    have := Float32.f32_fix (has_int (z := 0) (by norm_num))
    simpa using this
  rw [h, hf, C92_mean_u16 Float32.f32_rounds (by decide) (by decide) (by decide)]
  simp [h0]

/-- The first half row is 0, 9. -/
example : ∃ events, countStream f32 (rowOptions 3 100 none (some (List.replicate 16 1)) (fun l => if l = [.fin 0, .fin 9] then .ok (.fin 0) else .ok (.fin 1)) 4)
      (4, 4) (ofPixels [0, 9, 2, 2, 8, 8, 2, 2, 8, 8, 4, 0, 8, 8, 2, 2]) = .ok events ∧ 1 ∉ events := by
  obtain ⟨ev, h1, h2⟩ := C92_zero_statistic_false (rd := f32) (bg := 3) (xr := 100) (optMean := 4) (gain := List.replicate 16 1) (w := 4)
    (frame := [0, 9, 2, 2, 8, 8, 2, 2, 8, 8, 4, 0, 8, 8, 2, 2])
    (statFunc := fun l => if l = [.fin 0, .fin 9] then .ok (.fin 0) else .ok (.fin 1))
    (S := fun x y => if y = 0 ∧ x < 2 then .fin 0 else .fin 1)
    ⟨by decide, by decide, by decide, by decide, rfl, by norm_num⟩ rfl (by intro g hg; rw [(List.mem_replicate.1 hg).2]; norm_num) (by norm_num) (by
      intro x y hx hy
      interval_cases x <;> interval_cases y <;> norm_num [halfRow, halfStart, halfLen, pixels, List.range_succ])
  exact ⟨ev, h1, (h2 1 0 (by decide) (by decide) (by simp)).1⟩

end Stempy.RoundedCounting
