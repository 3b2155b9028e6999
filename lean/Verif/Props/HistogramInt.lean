import Verif.Model.HistogramInt
import Verif.Props.RoundedHistogram

/-!
# C94: the counters of the histogram

The numbers are right as long as all of them are below 2^31; otherwise a counter overflows.
-/

namespace Stempy.Props
open Stempy.Histogram Stempy.RoundedHistogram Stempy.IeeeRound
open Stempy.FloatPixels (Fl)
open Stempy.SafeCast (float64)

namespace HistInt

/-- The numbers fit an `int`. -/
def Small (f : List Nat) : Prop := ∀ c ∈ f, c < 2 ^ 31

def lift (f : List Nat) : List Int := f.map fun c : Nat => (c : Int)

/-- `g'` does the same as `g` with counters of type `int`. -/
structure Sim (g : List Nat → Outcome (List Nat)) (g' : List Int → Outcome (List Int)) : Prop where
  grow : ∀ f f', g f = .ok f' → Small f' → Small f
  same : ∀ f f', g f = .ok f' → Small f' → g' (lift f) = .ok (lift f')
  over : ∀ f f', g f = .ok f' → Small f → ¬ Small f' → g' (lift f) = .ub

theorem sim_pure : Sim (fun f => .ok f) (fun f => .ok f) :=
  ⟨fun f f' h => by cases h; exact id, fun f f' h _ => by cases h; rfl, fun f f' h h1 h2 => by cases h; exact absurd h1 h2⟩

theorem sim_fail {g : List Nat → Outcome (List Nat)} {g' : List Int → Outcome (List Int)} (h : ∀ f f', g f ≠ .ok f') : Sim g g' :=
  ⟨fun f f' e => absurd e (h f f'), fun f f' e => absurd e (h f f'), fun f f' e => absurd e (h f f')⟩

theorem sim_bind {g h : List Nat → Outcome (List Nat)} {g' h' : List Int → Outcome (List Int)} (hg : Sim g g') (hh : Sim h h') :
    Sim (fun f => g f >>= h) (fun f => g' f >>= h') := by
  have key : ∀ f f'', (g f >>= h) = .ok f'' → ∃ f', g f = .ok f' ∧ h f' = .ok f'' := by
    intro f f'' e
    cases hf : g f with
    | ok f' => rw [hf, Outcome.ok_bind] at e; exact ⟨f', rfl, e⟩
    | throw m => rw [hf] at e; cases e
    | ub => rw [hf] at e; cases e
  refine ⟨fun f f'' e hs => ?_, fun f f'' e hs => ?_, fun f f'' e hs hn => ?_⟩
  · obtain ⟨f', h1, h2⟩ := key f f'' e
    exact hg.grow f f' h1 (hh.grow f' f'' h2 hs)
  · obtain ⟨f', h1, h2⟩ := key f f'' e
    have := hh.grow f' f'' h2 hs
    show (g' (lift f) >>= h') = _
    rw [hg.same f f' h1 this, Outcome.ok_bind, hh.same f' f'' h2 hs]
  · obtain ⟨f', h1, h2⟩ := key f f'' e
    show (g' (lift f) >>= h') = _
    by_cases hm : Small f'
    · rw [hg.same f f' h1 hm, Outcome.ok_bind, hh.over f' f'' h2 hm hn]
    · rw [hg.over f f' h1 hs hm, Outcome.ub_bind]

theorem sim_fold {β : Type} (l : List β) (g : List Nat → β → Outcome (List Nat)) (g' : List Int → β → Outcome (List Int))
    (h : ∀ b, Sim (fun f => g f b) (fun f => g' f b)) : Sim (fun f => l.foldlM g f) (fun f => l.foldlM g' f) := by
  induction l with
  | nil => exact sim_pure
  | cons b l ih => simpa only [List.foldlM_cons] using sim_bind (h b) ih

theorem sim_bump (j : Nat) : Sim (fun f => bump f j) (fun f => bumpInt f j) := by
  have key : ∀ f f', bump f j = .ok f' → ∃ c, f[j]? = some c ∧ f' = f.set j (c + 1) := by
    intro f f' e
    unfold bump at e
    cases hr : readAt f j with
    | ok c =>
      rw [hr, Outcome.ok_bind] at e
      have hj := readAt_eq_ok.1 hr
      have hl := (List.getElem?_eq_some_iff.1 hj).1
      simp only [writeAt, hl, if_true, Outcome.ok.injEq] at e
      exact ⟨c, hj, e.symm⟩
    | throw m => rw [hr] at e; cases e
    | ub => rw [hr] at e; cases e
  have hmem : ∀ {f : List Nat} {c}, f[j]? = some c → c + 1 ∈ f.set j (c + 1) := by
    intro f c h
    have hl := (List.getElem?_eq_some_iff.1 h).1
    exact List.mem_iff_getElem?.2 ⟨j, by simp [hl]⟩
  have hrun : ∀ {f : List Nat} {c}, f[j]? = some c → bumpInt (lift f) j = (int32 ((c : Int) + 1)).bind fun x => .ok ((lift f).set j x) := by
    intro f c h
    have hl := (List.getElem?_eq_some_iff.1 h).1
    unfold bumpInt
    have hr : readAt (lift f) j = .ok (c : Int) := readAt_eq_ok.2 (by simp [lift, h])
    rw [hr, Outcome.ok_bind]
    cases int32 ((c : Int) + 1) with
    | ok x => simp [writeAt, lift, hl, Outcome.bind]
    | throw m => rfl
    | ub => rfl
  refine ⟨fun f f' e hs => ?_, fun f f' e hs => ?_, fun f f' e hs hn => ?_⟩
  · obtain ⟨c, hc, rfl⟩ := key f f' e
    intro x hx
    obtain ⟨i, hi⟩ := List.mem_iff_getElem?.1 hx
    by_cases hij : j = i
    · subst hij
      rw [hc, Option.some.injEq] at hi
      subst hi
      have := hs _ (hmem hc)
      omega
    · exact hs x (List.mem_iff_getElem?.2 ⟨i, by rw [List.getElem?_set_ne hij]; exact hi⟩)
  · obtain ⟨c, hc, rfl⟩ := key f f' e
    have h1 := hs _ (hmem hc)
    rw [hrun hc, int32, if_pos (by constructor <;> omega)]
    simp [Outcome.bind, lift, List.map_set]
  · obtain ⟨c, hc, rfl⟩ := key f f' e
    have h1 : ¬ (c + 1 < 2 ^ 31) := by
      intro hlt
      apply hn
      intro x hx
      rcases List.mem_or_eq_of_mem_set hx with h | h
      · exact hs x h
      · rw [h]; exact hlt
    rw [hrun hc, int32, if_neg (by omega)]
    rfl

theorem sim_histValue {α : Type} [LinearOrder α] (n : Nat) (bins : List α) (v : α) :
    Sim (fun f => histValue n bins f v) (fun f => histValueInt n bins f v) := by
  unfold histValue histValueInt
  refine sim_bind (sim_fold (List.range n) _ _ fun j => ?_) ?_
  · cases readAt bins j with
    | throw m => exact sim_fail fun f f' h => by cases h
    | ub => exact sim_fail fun f f' h => by cases h
    | ok b =>
      simp only [Outcome.ok_bind]
      by_cases h1 : b ≤ v
      · simp only [h1, if_true]
        cases readAt bins (j + 1) with
        | throw m => exact sim_fail fun f f' h => by cases h
        | ub => exact sim_fail fun f f' h => by cases h
        | ok b' =>
          simp only [Outcome.ok_bind]
          by_cases h2 : v < b'
          · simp only [h2, if_true]; exact sim_bump j
          · simp only [h2, if_false]; exact sim_pure
      · simp only [h1, if_false]; exact sim_pure
  · cases readAt bins n with
    | throw m => exact sim_fail fun f f' h => by cases h
    | ub => exact sim_fail fun f f' h => by cases h
    | ok b =>
      simp only [Outcome.ok_bind]
      by_cases h1 : v = b
      · simp only [h1, if_true]
        by_cases h2 : n = 0
        · simp only [h2, if_true]; exact sim_fail fun f f' h => by cases h
        · simp only [h2, if_false]; exact sim_bump _
      · simp only [h1, if_false]; exact sim_pure

theorem sim_histogram {α : Type} [LinearOrder α] (values : List α) (n : Nat) (bins : List α) {f : List Nat}
    (h : createSTEMHistogram values n bins = .ok f) :
    (Small f → Histogram.histogramInt values n bins = .ok (lift f)) ∧ (¬ Small f → Histogram.histogramInt values n bins = .ub) := by
  have hs := sim_fold values (histValue n bins) (histValueInt n bins) (sim_histValue n bins)
  have e : lift (List.replicate n 0) = List.replicate n 0 := by simp [lift]
  unfold Histogram.histogramInt
  constructor
  · intro h1
    have := hs.same _ f h h1
    rwa [e] at this
  · intro h1
    have := hs.over _ f h (fun c hc => by rw [(List.mem_replicate.1 hc).2]; norm_num) h1
    rwa [e] at this

end HistInt
open HistInt RoundedHist

variable {rd : Rat → Fl} {values : List Nat} {lo hi n : Nat}

/-- **C94** The counters: with the numbers `f` of pixels in the bins, the call returns them if all are below 2^31, and otherwise an `int` overflows. -/
theorem C94_counters (h : Rounds float64 rd) (r : Range values lo hi) (hh : hi < 2 ^ 64) (hn : 0 < n) (hn' : n < 2 ^ 31 - 1) :
    ∃ bins f, container rd values n = .ok bins ∧ histogram rd values n bins = .ok f ∧
      RoundedHistogram.histogramInt rd values n bins =
        if ∀ c ∈ f, c < 2 ^ 31 then .ok (f.map fun c : Nat => (c : Int)) else .ub := by
  obtain ⟨bins, f, top, h1, -, -, -, -, h6, -, -⟩ := C94_total h r hh hn hn'
  refine ⟨bins, f, h1, h6, ?_⟩
  unfold histogram at h6
  unfold RoundedHistogram.histogramInt
  cases hm : values.mapM fun v : Nat => finite (rd v) with
  | ok l =>
    rw [hm, Outcome.ok_bind] at h6
    rw [Outcome.ok_bind]
    obtain ⟨k1, k2⟩ := sim_histogram l n bins h6
    split
    · rename_i hc; exact k1 hc
    · rename_i hc; exact k2 hc
  | throw m => rw [hm] at h6; cases h6
  | ub => rw [hm] at h6; cases h6

/-- **C94** With fewer than 2^31 pixels no counter overflows. -/
theorem C94_counters_partial (h : Rounds float64 rd) (r : Range values lo hi) (hh : hi < 2 ^ 64) (hn : 0 < n) (hn' : n < 2 ^ 31 - 1)
    (hl : values.length < 2 ^ 31) :
    ∃ bins f, container rd values n = .ok bins ∧ histogram rd values n bins = .ok f ∧
      RoundedHistogram.histogramInt rd values n bins = .ok (f.map fun c : Nat => (c : Int)) := by
  obtain ⟨bins, f, h1, h2, h3⟩ := C94_counters h r hh hn hn'
  obtain ⟨bins', f', top, k1, -, -, -, -, k6, -, k8⟩ := C94_total h r hh hn hn'
  rw [h1, Outcome.ok.injEq] at k1
  subst k1
  rw [h2, Outcome.ok.injEq] at k6
  subst k6
  refine ⟨bins, f, h1, h2, ?_⟩
  rw [h3, if_pos]
  intro c hc
  have a1 : c ≤ f.sum := List.le_sum_of_mem hc
  have a2 := List.countP_le_length (p := fun v : Nat => atMost (rd v) top) (l := values)
  omega

/-- **C94** An image of at least 2^31 equal pixels, for instance a blank one, overflows a counter for every number of bins. -/
theorem C94_blank_false (h : Rounds float64 rd) (hh : lo < 2 ^ 64) (hn : 0 < n) (hn' : n < 2 ^ 31 - 1) {k : Nat} (hk : 2 ^ 31 ≤ k) :
    ∃ bins, container rd (List.replicate k lo) n = .ok bins ∧ RoundedHistogram.histogramInt rd (List.replicate k lo) n bins = .ub := by
  have r : Range (List.replicate k lo) lo lo :=
    ⟨List.mem_replicate.2 ⟨by omega, rfl⟩, List.mem_replicate.2 ⟨by omega, rfl⟩, fun v hv => by rw [(List.mem_replicate.1 hv).2],
      fun v hv => by rw [(List.mem_replicate.1 hv).2]⟩
  have hv : ∀ v ∈ List.replicate k lo, v < 2 ^ 64 := fun v hv => lt_of_le_of_lt (r.le_hi v hv) hh
  have mono : ∀ i j, i ≤ j → j ≤ n → edge rd lo lo n i ≤ edge rd lo lo n j :=
    fun i j hij hj => edge_mono h le_rfl hh hn hij (by omega)
  have hb := C06_bins ((List.replicate k lo).map fun v : Nat => val (rd v)) n hn (edge rd lo lo n) mono
  have hc := container_eq h r hh hn hn'
  obtain ⟨f, f1, f2⟩ := C06_total ((List.replicate k lo).map fun v : Nat => val (rd v)) n hn (edge rd lo lo n) mono
  obtain ⟨bins, g, h1, h2, h3⟩ := C94_counters h r hh hn hn'
  rw [hc, Outcome.ok.injEq] at h1
  subst h1
  rw [histogram_eq h hv, f1, Outcome.ok.injEq] at h2
  subst h2
  refine ⟨_, hc, ?_⟩
  rw [h3, if_neg]
  intro hsmall
  have he0 : edge rd lo lo n 0 = val (rd lo) := edge_zero h hh
  have hsum : f.sum = k := by
    rw [f2, List.map_replicate, List.countP_replicate, if_pos]
    rw [decide_eq_true_eq, ← he0]
    exact ⟨le_rfl, mono 0 n (by omega) le_rfl⟩
  have hzero : ∀ c ∈ f, c = 0 := by
    intro c hc
    have hlt := hsmall c hc
    rw [f1, Outcome.ok.injEq] at hb
    rw [hb, List.mem_map] at hc
    obtain ⟨j, -, rfl⟩ := hc
    rw [List.map_replicate, List.countP_replicate] at hlt ⊢
    split at hlt
    · omega
    · rename_i hj; rw [if_neg hj]
  have : f.sum = 0 := List.sum_eq_zero hzero
  omega

/-- The hypotheses hold in rounding to nearest. -/
example : RoundedHistogram.histogramInt (nearest float64) [1, 5, 3] 2 [1, 3, 5] = .ok [1, 2] := by decide +kernel

example : ∃ bins, container (nearest float64) (List.replicate (2 ^ 31) 7) 10 = .ok bins ∧
    RoundedHistogram.histogramInt (nearest float64) (List.replicate (2 ^ 31) 7) 10 bins = .ub :=
  C94_blank_false (nearest_rounds wide64) (by norm_num) (by norm_num) (by norm_num) le_rfl

end Stempy.Props
