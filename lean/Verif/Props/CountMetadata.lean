import Verif.Model.CountMetadata
import Verif.Props.Metadata
import Mathlib.Tactic.Ring
import Mathlib.Tactic.FieldSimp

/-! # C80: the metadata of counted data -/

namespace Stempy.CountMetadata
open Stempy.Image Stempy.Electron Stempy.Thresholds Stempy.PyImage Stempy.Sparse Stempy.SparseFile

private theorem bind_ok {α β : Type} {x : Outcome α} {f : α → Outcome β} {y : β} (h : x.bind f = .ok y) :
    ∃ z, x = .ok z ∧ f z = .ok y := by
  cases x with
  | ok z => exact ⟨z, rfl, h⟩
  | throw e => cases h
  | ub => cases h

/-- What the metadata are about: the names for the user, and the fields. -/
def meaning (m : Metadata) : List (String × Val) :=
  [("threshold_calculated", .bool m.thresholdCalculated), ("background_threshold", .float m.backgroundThreshold),
    ("x_ray_threshold", .float m.xRayThreshold), ("number_of_samples", .int m.numberOfSamples),
    ("min_sample", .float m.minSample), ("max_sample", .float m.maxSample), ("mean", .float m.mean),
    ("variance", .float m.variance), ("std_dev", .float m.stdDev), ("number_of_bins", .int m.numberOfBins),
    ("x_ray_threshold_n_sigma", .float m.xRayThresholdNSigma),
    ("background_threshold_n_sigma", .float m.backgroundThresholdNSigma), ("optimized_mean", .float m.optimizedMean),
    ("optimized_std_dev", .float m.optimizedStdDev)]

/-- The dictionary with the given items. -/
def ofList : List (String × Val) → SparseFile.Tree Val
  | [] => .nil
  | x :: l => .leaf x.1 x.2 (ofList l)

theorem toDict_eq (m : Metadata) : toDict m = .ok (ofList (meaning m)) := by rfl

theorem keys_ofList (l : List (String × Val)) : (ofList l).keys = l.map (·.1) := by
  induction l with
  | nil => rfl
  | cons x l ih => simp [ofList, Tree.keys, ih]

theorem valid_ofList (l : List (String × Val)) (h : (l.map (·.1)).Nodup) : (ofList l).Valid := by
  induction l with
  | nil => trivial
  | cons x l ih =>
    rw [List.map_cons, List.nodup_cons] at h
    exact ⟨by rw [keys_ofList]; exact h.1, ih h.2⟩

theorem get_ofList (l : List (String × Val)) (h : (l.map (·.1)).Nodup) (n : String) (v : Val) :
    SparseFile.get (ofList l) [n] = some (some v) ↔ (n, v) ∈ l := by
  induction l with
  | nil => simp [ofList, SparseFile.get, Tree.find]
  | cons x l ih =>
    rw [List.map_cons, List.nodup_cons] at h
    rcases x with ⟨k, w⟩
    by_cases hk : k = n
    · subst hk
      have hn : (k, v) ∉ l := fun hm => h.1 (List.mem_map.2 ⟨_, hm, rfl⟩)
      simp only [ofList, SparseFile.get, Tree.find, if_true, List.mem_cons, Prod.mk.injEq, true_and, hn, or_false, Option.some.injEq]
      exact eq_comm
    · have : SparseFile.get (ofList ((k, w) :: l)) [n] = SparseFile.get (ofList l) [n] := by
        simp only [ofList, SparseFile.get, Tree.find, if_neg hk]
      rw [this, ih h.2]
      simp [Ne.symm hk]

theorem nodup_meaning (m : Metadata) : ((meaning m).map (·.1)).Nodup := by
  show (["threshold_calculated", "background_threshold", "x_ray_threshold", "number_of_samples", "min_sample", "max_sample",
    "mean", "variance", "std_dev", "number_of_bins", "x_ray_threshold_n_sigma", "background_threshold_n_sigma",
    "optimized_mean", "optimized_std_dev"] : List String).Nodup
  decide

/-- C80: the dictionary of Python has the values of C++ under their names, and nothing else. -/
theorem C80_names (c : Counted) (a : PyArray) (t : SparseFile.Tree Val) (h : toArray c = .ok (a, t)) (path : List String) (v : Val) :
    SparseFile.get t path = some (some v) ↔ ∃ n, path = ["electron_counting", n] ∧ (n, v) ∈ meaning c.metadata := by
  simp only [toArray, toDict_eq, Outcome.ok_bind] at h
  obtain ⟨b, hb, h⟩ := bind_ok h
  cases h
  cases path with
  | nil => simp [SparseFile.get]
  | cons k path =>
    by_cases hk : k = "electron_counting"
    · subst hk
      have : SparseFile.get (.sub "electron_counting" (ofList (meaning c.metadata)) .nil) ("electron_counting" :: path) =
          SparseFile.get (ofList (meaning c.metadata)) path := by simp [SparseFile.get, Tree.find]
      rw [this]
      cases path with
      | nil => simp [SparseFile.get]
      | cons n path =>
        cases path with
        | nil => rw [get_ofList _ (nodup_meaning _)]; simp
        | cons n' path =>
          constructor
          · intro hg
            exfalso
            have : ∀ l : List (String × Val), SparseFile.get (ofList l) (n :: n' :: path) = none := by
              intro l
              simp only [SparseFile.get]
              have : ∀ l : List (String × Val), ∀ t', (ofList l).find n ≠ some (.inr t') := by
                intro l t'
                induction l with
                | nil => simp [ofList, Tree.find]
                | cons x l ih =>
                  simp only [ofList, Tree.find]
                  split
                  · simp
                  · exact ih
              cases hf : (ofList l).find n with
              | none => rfl
              | some x =>
                cases x with
                | inl v => rfl
                | inr t' => exact absurd hf (this l t')
            rw [this] at hg
            cases hg
          · rintro ⟨m, hm, _⟩
            simp at hm
    · constructor
      · intro hg
        exfalso
        simp [SparseFile.get, Tree.find, Ne.symm hk] at hg
      · rintro ⟨n, hn, _⟩
        simp at hn
        exact absurd hn.1 hk

theorem toArray_valid {c : Counted} {a : PyArray} {t : SparseFile.Tree Val} (h : toArray c = .ok (a, t)) : t.Valid := by
  simp only [toArray, toDict_eq, Outcome.ok_bind] at h
  obtain ⟨b, hb, h⟩ := bind_ok h
  cases h
  exact ⟨by simp [Tree.keys], by decide, valid_ofList _ (nodup_meaning _), trivial⟩

/-- C80: a file of the array has the same metadata. -/
theorem C80_file {c : Counted} {a : PyArray} {t : SparseFile.Tree Val} (h : toArray c = .ok (a, t)) {f : File Val} {b : SparseArray}
    {m : SparseFile.Tree Val} {keep : Bool} (hw : write a.array t = .ok f) (hr : read f keep = .ok (b, m)) (path : List String) :
    SparseFile.get m path = SparseFile.get t path := by
  have hf : f.metadata = some (save t .nil) := by
    unfold write at hw
    split at hw
    · cases hw; rfl
    · cases hw
  have hm : m = load (save t .nil) := by
    unfold SparseFile.read at hr
    have key : ∀ nx ny r, SparseFile.construct f nx ny r = .ok (b, m) → m = load (save t .nil) := by
      intro nx ny r hc
      unfold SparseFile.construct at hc
      obtain ⟨a', _, hc⟩ := bind_ok hc
      rw [hf] at hc
      cases hc
      rfl
    split at hr
    · obtain ⟨r, _, hr⟩ := bind_ok hr
      exact key _ _ r hr
    · obtain ⟨r, _, hr⟩ := bind_ok hr
      exact key _ _ r hr
  rw [hm]
  exact C54_round_trip t (toArray_valid h) path

theorem mapM_get {α β : Type} (f : α → Outcome β) (l : List α) (r : List β) (h : l.mapM f = .ok r) (i : Nat) :
    (l[i]? = none ∧ r[i]? = none) ∨ ∃ x y, l[i]? = some x ∧ r[i]? = some y ∧ f x = .ok y := by
  induction l generalizing r i with
  | nil => cases h; exact .inl ⟨rfl, rfl⟩
  | cons x l ih =>
    rw [List.mapM_cons] at h
    obtain ⟨y, hy, h⟩ := bind_ok h
    obtain ⟨r', hr', h⟩ := bind_ok h
    cases h
    cases i with
    | zero => exact .inr ⟨x, y, rfl, rfl, hy⟩
    | succ i => simpa using ih r' hr' i

/-- The frame or the events number `j` at position `i`. -/
def at? {α : Type} (l : List (List α)) (i j : Nat) : Option α := (l[i]?).bind (·[j]?)

theorem at_pad (events : List (List (List Nat))) (i j : Nat) :
    at? (pad events) i j = at? events i j ∨ at? events i j = none ∧ at? (pad events) i j = some [] := by
  unfold at? pad
  simp only [List.getElem?_map]
  cases hi : events[i]? with
  | none => exact .inl rfl
  | some l =>
    simp only [Option.map_some, Option.bind_some]
    by_cases hj : j < l.length
    · exact .inl (by rw [List.getElem?_append_left hj])
    · rw [List.getElem?_append_right (by omega)]
      rw [List.getElem?_replicate]
      split
      · exact .inr ⟨List.getElem?_eq_none (by omega), rfl⟩
      · exact .inl (by rw [List.getElem?_eq_none (by omega)])

theorem toPython_data {d : CountedData} {a : PyArray} (h : toPython d = .ok a) : a.array.data = d.data := by
  unfold toPython at h
  simp only at h
  split at h
  · obtain ⟨b, hb, h⟩ := bind_ok h
    cases h
    unfold SparseArray.init at hb
    split at hb
    · cases hb; rfl
    all_goals cases hb
  · cases h


theorem countThreaded_ok {p : Process} {found : Outcome Results} {o : CountOptions} {scan dims : Nat × Nat}
    {frames : List (List (List Rat))} {c : Counted} (h : countThreaded p found o scan dims frames = .ok c) :
    ∃ r mine events, found = .ok r ∧ threshold p found = .ok mine ∧
      frames.mapM (fun l => l.mapM (countFrameStream (withThresholds o (triple r)) dims)) = .ok events ∧
      c = ⟨⟨pad events, scan, dims⟩, record (calculates p) mine⟩ := by
  unfold countThreaded at h
  obtain ⟨r, hr, h⟩ := bind_ok h
  obtain ⟨mine, hm, h⟩ := bind_ok h
  obtain ⟨events, he, h⟩ := bind_ok h
  cases h
  have hf : found = .ok r := by cases p <;> exact hr
  refine ⟨r, mine, events, hf, hm, ?_, rfl⟩
  cases p with
  | none =>
    have : mine = r := by
      have hm' : found = .ok mine := hm
      rw [hf] at hm'
      cases hm'
      rfl
    rw [this] at he
    exact he
  | some k => exact he

/-- C80: the array of a threaded reader, on rank 0 with MPI: with the thresholds and the optimized mean that the metadata in a file of
the array give, the same options give the events of every frame again, and there are no other events. -/
theorem C80_reproducible (p : Process) (hp : p = none ∨ p = some 0) (found : Outcome Results) (o : CountOptions) (scan dims : Nat × Nat)
    (frames : List (List (List Rat))) (c : Counted) (h : countThreaded p found o scan dims frames = .ok c)
    (a : PyArray) (t : SparseFile.Tree Val) (ha : toArray c = .ok (a, t)) (f : File Val) (b : SparseArray) (m : SparseFile.Tree Val)
    (keep : Bool) (hw : write a.array t = .ok f) (hr : read f keep = .ok (b, m)) :
    ∃ bg xr om, SparseFile.get m ["electron_counting", "background_threshold"] = some (some (.float bg)) ∧
      SparseFile.get m ["electron_counting", "x_ray_threshold"] = some (some (.float xr)) ∧
      SparseFile.get m ["electron_counting", "optimized_mean"] = some (some (.float om)) ∧
      SparseFile.get m ["electron_counting", "threshold_calculated"] = some (some (.bool true)) ∧
      ∀ i j, match at? frames i j with
        | some frame => ∃ ev, countFrameStream { o with bg := bg, xr := xr, optMean := om } dims frame = .ok ev ∧
            at? a.array.data i j = some ev
        | none => (at? a.array.data i j).getD [] = [] := by
  obtain ⟨r, mine, events, hf, hm, he, rfl⟩ := countThreaded_ok h
  have hcalc : calculates p = true := by rcases hp with rfl | rfl <;> rfl
  have hmine : mine = r := by
    unfold threshold at hm
    rw [if_pos hcalc, hf] at hm
    cases hm
    rfl
  subst hmine
  have hget : ∀ n v, (n, v) ∈ meaning (record (calculates p) mine) →
      SparseFile.get m ["electron_counting", n] = some (some v) := fun n v hv => by
    rw [C80_file ha hw hr]
    exact (C80_names _ a t ha _ v).2 ⟨n, rfl, hv⟩
  refine ⟨mine.backgroundThreshold, mine.xRayThreshold, mine.optimizedMean, hget _ _ (by simp [meaning, record]),
    hget _ _ (by simp [meaning, record]), hget _ _ (by simp [meaning, record]), hget _ _ (by simp [meaning, record, hcalc]), ?_⟩
  have hdata : a.array.data = pad events := by
    simp only [toArray, toDict_eq, Outcome.ok_bind] at ha
    obtain ⟨a', hb, h⟩ := bind_ok ha
    cases h
    exact toPython_data hb
  intro i j
  rw [hdata]
  have hev : (at? frames i j = none ∧ at? events i j = none) ∨ ∃ fr ev, at? frames i j = some fr ∧ at? events i j = some ev ∧
      countFrameStream (withThresholds o (triple mine)) dims fr = .ok ev := by
    unfold at?
    rcases mapM_get _ _ _ he i with ⟨h1, h2⟩ | ⟨x, y, h1, h2, h3⟩
    · rw [h1, h2]; exact .inl ⟨rfl, rfl⟩
    · rw [h1, h2]
      exact mapM_get _ _ _ h3 j
  rcases hev with ⟨h1, h2⟩ | ⟨fr, ev, h1, h2, h3⟩
  · rw [h1]
    rcases at_pad events i j with h | ⟨_, h⟩
    · show (at? (pad events) i j).getD [] = []
      rw [h, h2]; rfl
    · show (at? (pad events) i j).getD [] = []
      rw [h]; rfl
  · rw [h1]
    refine ⟨ev, h3, ?_⟩
    rcases at_pad events i j with h | ⟨h, _⟩
    · rw [h, h2]
    · rw [h2] at h; cases h

/-- C80: what the metadata of the thresholds are: the thresholds are those of the numbers of standard deviations asked for, from the
statistics and the fit in the metadata; the statistics are those of the samples. -/
theorem C80_statistics (sqrt : Rat → Rat) (fit : Int × List Nat → Nat → Rat → Rat → Outcome (Rat × Rat)) (n : Int)
    (bgNSigma xRayNSigma : Rat) (samples : List Rat) (r : Results) (h : calculate sqrt fit n bgNSigma xRayNSigma samples = .ok r) :
    r.backgroundThreshold = r.optimizedMean + bgNSigma * r.optimizedStdDev ∧
    r.xRayThreshold = r.mean + xRayNSigma * r.stdDev ∧
    r.backgroundThresholdNSigma = bgNSigma ∧ r.xRayThresholdNSigma = xRayNSigma ∧ r.numberOfSamples = n ∧
    0 ≤ r.optimizedStdDev ∧ r.mean * samples.length = samples.sum ∧ r.stdDev = sqrt r.variance ∧
    (r.minSample ∈ samples ∧ r.maxSample ∈ samples ∧ ∀ v ∈ samples, r.minSample ≤ v ∧ v ≤ r.maxSample) ∧
    ∃ hist, buildHistogram samples r.stdDev xRayNSigma = .ok hist ∧ r.numberOfBins = hist.2.length := by
  unfold calculate at h
  simp only at h
  obtain ⟨mn, hmn, h⟩ := bind_ok h
  obtain ⟨mx, hmx, h⟩ := bind_ok h
  obtain ⟨hist, hh, h⟩ := bind_ok h
  obtain ⟨height, _, h⟩ := bind_ok h
  obtain ⟨opt, _, h⟩ := bind_ok h
  cases h
  have hne : samples ≠ [] := by rintro rfl; cases hmn
  refine ⟨?_, rfl, rfl, rfl, rfl, abs_nonneg _, ?_, rfl, ?_, hist, hh, rfl⟩
  · simp only [thresholds]; ring
  · simp only [calculateMean]
    have : (samples.length : Rat) ≠ 0 := by
      simpa using hne
    field_simp
  · cases samples with
    | nil => exact absurd rfl hne
    | cons v l =>
      cases hmn
      cases hmx
      have hmin : ∀ (l : List Rat) (v : Rat), (l.foldl min v ∈ v :: l) ∧ ∀ w ∈ v :: l, l.foldl min v ≤ w := by
        intro l
        induction l with
        | nil => intro v; simp
        | cons x l ih =>
          intro v
          obtain ⟨h1, h2⟩ := ih (min v x)
          rw [List.foldl_cons]
          constructor
          · rcases List.mem_cons.1 h1 with h1 | h1
            · rw [h1]
              rcases min_choice v x with h | h <;> rw [h] <;> simp
            · simp [h1]
          · intro w hw
            have hm := h2 (min v x) (by simp)
            simp only [List.mem_cons] at hw
            rcases hw with rfl | rfl | hw
            · exact hm.trans (min_le_left _ _)
            · exact hm.trans (min_le_right _ _)
            · exact h2 w (by simp [hw])
      have hmax : ∀ (l : List Rat) (v : Rat), (l.foldl max v ∈ v :: l) ∧ ∀ w ∈ v :: l, w ≤ l.foldl max v := by
        intro l
        induction l with
        | nil => intro v; simp
        | cons x l ih =>
          intro v
          obtain ⟨h1, h2⟩ := ih (max v x)
          rw [List.foldl_cons]
          constructor
          · rcases List.mem_cons.1 h1 with h1 | h1
            · rw [h1]
              rcases max_choice v x with h | h <;> rw [h] <;> simp
            · simp [h1]
          · intro w hw
            have hm := h2 (max v x) (by simp)
            simp only [List.mem_cons] at hw
            rcases hw with rfl | rfl | hw
            · exact (le_max_left _ _).trans hm
            · exact (le_max_right _ _).trans hm
            · exact h2 w (by simp [hw])
      exact ⟨(hmin l v).1, (hmax l v).1, fun w hw => ⟨(hmin l v).2 w hw, (hmax l v).2 w hw⟩⟩

/-- C80: a process of another rank says that it has not calculated thresholds, and gives zero for all of them. -/
theorem C80_rank_partial (k : Nat) (hk : k ≠ 0) (found : Outcome Results) (o : CountOptions) (scan dims : Nat × Nat)
    (frames : List (List (List Rat))) (c : Counted) (h : countThreaded (some k) found o scan dims frames = .ok c) :
    c.metadata = { thresholdCalculated := false } := by
  obtain ⟨r, mine, events, hf, hm, he, rfl⟩ := countThreaded_ok h
  have hc : calculates (some k) = false := by simp [calculates, hk]
  unfold threshold at hm
  rw [hc] at hm
  cases hm
  rw [hc]
  rfl

/-- C80 fails for a reader which is not threaded: the metadata say that thresholds were calculated and that all of them are zero,
whatever was calculated. -/
theorem C80_classic_metadata_false (found : Outcome Results) (o : CountOptions) (scan : Nat × Nat) (blocks : List Block) (c : Counted)
    (h : countClassic found o scan blocks = .ok c) :
    c.metadata.thresholdCalculated = true ∧ c.metadata.backgroundThreshold = 0 ∧ c.metadata.xRayThreshold = 0 ∧
      c.metadata.optimizedMean = 0 ∧ c.metadata.numberOfSamples = 0 := by
  unfold countClassic at h
  obtain ⟨r, _, h⟩ := bind_ok h
  obtain ⟨res, _, h⟩ := bind_ok h
  cases h
  exact ⟨rfl, rfl, rfl, rfl, rfl⟩

/-- Options and thresholds for the examples. -/
def sampleOptions : CountOptions := ⟨.u16, 7, 7, some [0, 0, 0, 0], none, none, 0⟩

def sampleResults : Results := { backgroundThreshold := 2, xRayThreshold := 9, optimizedMean := 1, numberOfSamples := 3 }

def sampleBlock : Block := ⟨(1, 1), (2, 2), 1, [0], [0, 5, 1, 2]⟩

/-- C80 fails for a reader which is not threaded: the events are not those of the thresholds in the metadata. -/
theorem C80_classic_false : ∃ c, countClassic (.ok sampleResults) sampleOptions (1, 1) [sampleBlock] = .ok c ∧
    c.data.data = [[[1]]] ∧ c.metadata.thresholdCalculated = true ∧
    countFrameClassic (withThresholds sampleOptions
      (c.metadata.backgroundThreshold, c.metadata.xRayThreshold, c.metadata.optimizedMean)) (2, 2) [0, 5, 1, 2] = .ok [] :=
  ⟨⟨⟨[[[1]]], (1, 1), (2, 2)⟩, {}⟩, by decide +kernel, rfl, rfl, by decide +kernel⟩

/-- C80 fails for the other processes with MPI: the events are not those of the thresholds in the metadata. -/
theorem C80_rank_false : ∃ c, countThreaded (some 1) (.ok sampleResults) sampleOptions (1, 1) (2, 2) [[[0, 5, 1, 2]]] = .ok c ∧
    c.data.data = [[[1]]] ∧
    countFrameStream (withThresholds sampleOptions
      (c.metadata.backgroundThreshold, c.metadata.xRayThreshold, c.metadata.optimizedMean)) (2, 2) [0, 5, 1, 2] = .ok [] :=
  ⟨⟨⟨[[[1]]], (1, 1), (2, 2)⟩, { thresholdCalculated := false }⟩, by decide +kernel, rfl, by decide +kernel⟩

/-- Two positions with a different number of frames, written to a file and read. -/
example : ∃ c a t f b m, countThreaded none (.ok sampleResults) sampleOptions (2, 1) (2, 2) [[[0, 5, 1, 2]], [[4, 0, 1, 2], [0, 0, 0, 8]]] = .ok c ∧
    toArray c = .ok (a, t) ∧ write a.array t = .ok f ∧ read f true = .ok (b, m) ∧ b.data = [[[1], []], [[0], [3]]] ∧
    SparseFile.get m ["electron_counting", "background_threshold"] = some (some (.float 2)) := by
  refine ⟨⟨⟨[[[1], []], [[0], [3]]], (2, 1), (2, 2)⟩, record true sampleResults⟩, _, _, _, _, _, by decide +kernel, rfl, rfl, rfl, rfl, ?_⟩
  decide +kernel

/-- Thresholds which are found, for some square root and fit. -/
example : ∃ r, calculate (fun _ => 2) (fun _ _ m s => .ok (m, -s)) 1 4 10 [3, 5, 4, 8] = .ok r ∧ r.backgroundThreshold = 13 ∧
    r.xRayThreshold = 25 ∧ r.minSample = 3 ∧ r.maxSample = 8 ∧ r.numberOfBins = 5 := by
  exact ⟨⟨13, 25, 1, 3, 8, 5, 14 / 3, 2, 5, 10, 4, 5, 2⟩, by decide +kernel, by decide +kernel⟩

end Stempy.CountMetadata
