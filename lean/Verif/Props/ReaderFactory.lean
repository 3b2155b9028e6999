import Verif.Model.ReaderFactory

/-!
# C104: `reader` makes the reader which is asked for
-/

namespace Stempy.ReaderFactory

/-- C104: without a backend and with files that can be opened, the reader of the version which was asked for is made, and it gives the
first block. -/
theorem C104_partial (hardware : Nat) (opens : List Bool) (version : Int) (hv : 1 ≤ version ∧ version ≤ 5) (hf : opens ≠ [])
    (ho : ∀ b ∈ opens, b = true) :
    ∃ m, reader hardware (.files opens) version none {} = .ok m ∧ next m = .ok true ∧
      m = if version ≤ 3 then .stream version else .sector version := by
  obtain ⟨o, os, rfl⟩ := List.exists_cons_of_ne_nil hf
  have h1 : o = true := ho o (by simp)
  have h2 : (o :: os).all id = true := List.all_eq_true.2 fun b hb => ho b hb
  by_cases h3 : version ≤ 3
  · refine ⟨.stream version, ?_, ?_, by rw [if_pos h3]⟩
    · simp only [reader]
      rw [if_neg (by omega)]
      simp only [uint8]
      rw [if_pos (by omega)]
      simp [streamReader, h1, bind, Outcome.bind]
    · simp only [next]
      rw [if_pos (by omega)]
  · refine ⟨.sector version, ?_, rfl, by rw [if_neg h3]⟩
    simp only [reader]
    rw [if_pos (by omega), if_neg (by simp), if_neg (by simp), if_pos trivial, sectorReader, if_neg (by omega), if_neg (by simp), if_pos h2]

/-- The number of threads is the one asked for if this is at least one, and otherwise that of the hardware, or 10. -/
theorem C104_thread_number (hardware : Nat) (t : Int) :
    1 ≤ initNumberOfThreads hardware t ∧ (1 ≤ t → initNumberOfThreads hardware t = t) ∧
      (t < 1 → 0 < hardware → initNumberOfThreads hardware t = hardware) ∧ (t < 1 → hardware = 0 → initNumberOfThreads hardware t = 10) := by
  unfold initNumberOfThreads
  refine ⟨?_, fun h => if_neg (by omega), fun h h' => ?_, fun h h' => ?_⟩
  · split
    · split <;> omega
    · omega
  · rw [if_pos h, if_neg (by omega)]
  · rw [if_pos h, if_pos h']

/-- C104: a threaded reader is made exactly for the versions which have one, for files that can all be opened, and without options but
`threads`. -/
theorem C104_threads (hardware : Nat) (opens : List Bool) (version : Int) (multi : Bool) (o : Options) (m : Made)
    (hv : version = 4 ∨ version = 5) :
    reader hardware (.files opens) version (some (if multi then "multi-pass" else "thread")) o = .ok m ↔
      (multi = true → version = 5) ∧ o.other = false ∧ (-2 ^ 31 ≤ o.threads.getD 0 ∧ o.threads.getD 0 < 2 ^ 31) ∧ opens ≠ [] ∧
        (∀ b ∈ opens, b = true) ∧
        m = if multi then .multiPass version (initNumberOfThreads hardware (o.threads.getD 0))
          else .threaded version (initNumberOfThreads hardware (o.threads.getD 0)) := by
  have hall : opens.all id = true ↔ ∀ b ∈ opens, b = true := by simp
  have hempty : opens.isEmpty = true ↔ opens = [] := by simp
  have key : ∀ (v : Int) (f : Int → Made), v = 4 ∨ v = 5 →
      ((threadsOf o >>= fun threads => sectorReader opens v (f threads)) = .ok m ↔ o.other = false ∧
        (-2 ^ 31 ≤ o.threads.getD 0 ∧ o.threads.getD 0 < 2 ^ 31) ∧ opens ≠ [] ∧ (∀ b ∈ opens, b = true) ∧ m = f (o.threads.getD 0)) := by
    intro v f hv
    unfold threadsOf
    by_cases h1 : o.other = true
    · rw [if_pos h1]
      simp [h1, bind, Outcome.bind]
    · rw [if_neg h1]
      unfold int32
      by_cases h2 : -2 ^ 31 ≤ o.threads.getD 0 ∧ o.threads.getD 0 < 2 ^ 31
      · rw [if_pos h2]
        show sectorReader opens v _ = _ ↔ _
        rw [sectorReader, if_neg (by omega)]
        by_cases h3 : opens = []
        · rw [if_pos (hempty.2 h3)]
          exact iff_of_false (by simp) fun h => h.2.2.1 h3
        · rw [if_neg (fun h => h3 (hempty.1 h))]
          by_cases h4 : opens.all id = true
          · rw [if_pos h4, Outcome.ok.injEq]
            exact ⟨fun h => ⟨by simpa using h1, h2, h3, hall.1 h4, h.symm⟩, fun h => h.2.2.2.2.symm⟩
          · rw [if_neg h4]
            exact iff_of_false (by simp) fun h => h4 (hall.2 h.2.2.2.1)
      · rw [if_neg h2]
        exact iff_of_false (by simp [bind, Outcome.bind]) fun h => h2 h.2.1
  unfold reader
  dsimp only
  rw [if_pos hv]
  cases multi with
  | false =>
    simp only [Bool.false_eq_true, if_false, if_true]
    rw [key version (fun t => .threaded version (initNumberOfThreads hardware t)) hv]
    simp
  | true =>
    simp only [if_true, true_implies]
    rw [if_neg (by simp)]
    by_cases h5 : version = 5
    · subst h5
      rw [if_neg (by simp), key 5 (fun t => .multiPass 5 (initNumberOfThreads hardware t)) (by simp)]
      simp
    · rw [if_pos h5]
      exact iff_of_false (by simp) fun h => h5 h.1

/-- C104: an unknown backend is refused for the versions 4 and 5. -/
theorem C104_unknown (hardware : Nat) (opens : List Bool) (version : Int) (b : String) (o : Options) (hv : version = 4 ∨ version = 5)
    (h1 : b ≠ "thread") (h2 : b ≠ "multi-pass") : reader hardware (.files opens) version (some b) o = .throw "ValueError" := by
  unfold reader
  dsimp only
  rw [if_pos hv, if_neg (by simpa using h1), if_neg (by simpa using h2), if_neg (by simp)]

/-- C104 is false for all other versions: the backend and the options are ignored, also unknown ones. -/
theorem C104_backend_false (hardware : Nat) (path : Path) (version : Int) (hv : version ≠ 4 ∧ version ≠ 5) (b : Option String) (o : Options) :
    reader hardware path version b o = reader hardware path version none {} := by
  cases path with
  | hdf5 => rfl
  | files opens =>
    simp only [reader]
    rw [if_neg (by omega), if_neg (by omega)]

/-- Without a backend the options are ignored for every version, and for an HDF5 file the version and the backend are too. -/
theorem C104_options_false (hardware : Nat) (path : Path) (version : Int) (o : Options) :
    reader hardware path version none o = reader hardware path version none {} ∧
      ∀ b v, reader hardware .hdf5 v b o = .ok .py := by
  refine ⟨?_, fun _ _ => rfl⟩
  cases path with
  | hdf5 => rfl
  | files opens =>
    simp only [reader]
    split
    · simp
    · rfl

/-- C104 is false for versions which no reader knows: a reader is made, and only its first block raises. -/
theorem C104_version_false (hardware : Nat) (opens : List Bool) (version : Int) (hv : version = 0 ∨ 6 ≤ version) (hu : version < 256)
    (b : Option String) (o : Options) :
    reader hardware (.files (true :: opens)) version b o = .ok (.stream version) ∧ next (.stream version) = .throw "ValueError" := by
  constructor
  · simp only [reader]
    rw [if_neg (by omega)]
    simp only [uint8]
    rw [if_pos (by omega)]
    rfl
  · simp only [next]
    rw [if_neg (by omega)]

/-- Other integers are refused. -/
theorem C104_version_range (hardware : Nat) (opens : List Bool) (version : Int) (hv : version < 0 ∨ 256 ≤ version) (b : Option String)
    (o : Options) : reader hardware (.files opens) version b o = .throw "TypeError" := by
  simp only [reader]
  rw [if_neg (by omega)]
  simp only [uint8]
  rw [if_neg (by omega)]
  rfl

/-- C104 is false for iteration: no threaded reader can be iterated, though each has `__next__` and `read`. -/
theorem C104_iterate_false (hardware : Nat) (opens : List Bool) (version : Int) (multi : Bool) (o : Options) (m : Made)
    (hv : version = 4 ∨ version = 5)
    (h : reader hardware (.files opens) version (some (if multi then "multi-pass" else "thread")) o = .ok m) :
    next m = .throw "AttributeError" := by
  rw [((C104_threads hardware opens version multi o m hv).1 h).2.2.2.2.2]
  cases multi <;> rfl

/-- A missing file: the sector readers raise when they are made, a `Reader` only if it is the first one. -/
theorem C104_missing (hardware : Nat) (opens : List Bool) (hm : false ∈ opens) (version : Int) (hv : 1 ≤ version ∧ version ≤ 5) :
    reader hardware (.files opens) version none {} =
      if version ≤ 3 ∧ opens.head? = some true then .ok (.stream version) else .throw "ValueError" := by
  obtain ⟨o, os, rfl⟩ := List.exists_cons_of_ne_nil (List.ne_nil_of_mem hm)
  simp only [reader]
  by_cases h3 : version ≤ 3
  · rw [if_neg (by omega)]
    simp only [uint8]
    rw [if_pos (by omega)]
    cases o <;> simp [h3, streamReader, bind, Outcome.bind]
  · rw [if_pos (by omega), if_neg (by simp), if_neg (by simp), if_pos trivial, sectorReader, if_neg (by omega), if_neg (by simp),
      if_neg, if_neg (by simp [h3])]
    intro h
    exact absurd (List.all_eq_true.1 h false hm) (by simp)

/-- No files: every version that is a `uint8_t` raises, with the options of `C104_missing`. -/
theorem C104_no_files (hardware : Nat) (version : Int) (hv : 0 ≤ version ∧ version < 256) :
    reader hardware (.files []) version none {} = .throw "ValueError" := by
  simp only [reader]
  by_cases h : version = 4 ∨ version = 5
  · rw [if_pos h, if_neg (by simp), if_neg (by simp), if_pos trivial, sectorReader, if_neg (by omega)]
    rfl
  · rw [if_neg h]
    simp only [uint8]
    rw [if_pos hv]
    rfl

/-- Two files, eight hardware threads. -/
example :
    reader 8 (.files [true, true]) 5 (some "thread") { threads := some 3 } = .ok (.threaded 5 3) ∧
    reader 8 (.files [true, true]) 5 (some "multi-pass") {} = .ok (.multiPass 5 8) ∧
    reader 8 (.files [true, true]) 4 (some "multi-pass") {} = .throw "Exception" ∧
    reader 8 (.files [true, false]) 4 none {} = .throw "ValueError" ∧
    reader 8 (.files [true, false]) 1 (some "thread") { other := true } = .ok (.stream 1) ∧
    reader 0 (.files [true]) 5 (some "thread") { threads := some (-4) } = .ok (.threaded 5 10) := by decide

end Stempy.ReaderFactory
