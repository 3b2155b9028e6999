import Verif.Model.MpiBytes
import Verif.Lemmas.ByteCounting
import Verif.Lemmas.MpiCounting

/-!
Lemmas for the counting from bytes on several ranks: for files of whole records the executions are those on the records.
-/

namespace Stempy.MpiBytes
open Stempy.Spec
open Stempy.SectorStreams
open Stempy.MultiPass (ScanMap PInv PStep File)
open Stempy.Props (IsIndex)
open Stempy.CountingReader (Call)
open Stempy.MpiCounting (rankCall firstPosition endPosition Label)
open Stempy.ByteCounting (recs recsC Clean streamsOf)

variable {Θ : Type}

/-- The state on records. -/
def recsZ (z : State Θ) : MpiCounting.State (List Nat) Θ :=
  ⟨fun r => recsC (z.ranks r), z.broadcast, z.sent, z.gathering, z.result, z.failed⟩

theorem recsZ_set (z : State Θ) (r : Nat) (x : ByteCounting.State Θ) :
    recsZ (set z r x) = MpiCounting.set (recsZ z) r (recsC x) := by
  simp only [recsZ, set, MpiCounting.set, MpiCounting.State.mk.injEq, and_true]
  funext i
  split <;> rfl

theorem recsC_exited {x : ByteCounting.State Θ} :
    (∀ w ∈ (recsC x).reader.workers, w = .exited) ↔ ∀ w ∈ x.reader.workers, w = .exited := by
  constructor
  · intro h w hw
    exact ByteCounting.plainW_exited.1 (h _ (List.mem_map_of_mem hw))
  · intro h w hw
    obtain ⟨v, hv, rfl⟩ := List.mem_map.1 hw
    exact ByteCounting.plainW_exited.2 (h v hv)

/-- The readers of all ranks. -/
def Readers (files : List (Nat × List UInt8)) (ws size : Nat) (maps : Nat → ScanMap) (z : State Θ) : Prop :=
  ∀ r < ws, Clean files (z.ranks r).reader ∧
    PInv (files.map toFile) (maps r) (firstPosition size ws r) (endPosition size ws r) (recs (z.ranks r).reader)

theorem Readers.same {files : List (Nat × List UInt8)} {ws size : Nat} {maps : Nat → ScanMap} {z z' : State Θ}
    (I : Readers files ws size maps z) (h : ∀ r, (z'.ranks r).reader = (z.ranks r).reader) : Readers files ws size maps z' := by
  intro r hr
  rw [h r]
  exact I r hr

theorem counting_pinv {K : Call (List Nat) Θ} {files : List (File (List Nat))} {map : ScanMap} {lo hi : Nat}
    {x x' : CountingReader.State (List Nat) Θ} {l : CountingReader.Label} (P : PInv files map lo hi x.reader)
    (h : CountingReader.Step K files map hi x l x') : PInv files map lo hi x'.reader := by
  cases h with
  | read _ hs => exact MultiPass.pinv_step P hs
  | deliver _ hs => exact MultiPass.pinv_step P hs
  | finish _ hs => exact MultiPass.pinv_step P hs
  | count => exact P
  | join => exact P

section
variable {K : Call (List Nat) Θ} {ws size : Nat} {files : List (Nat × List UInt8)} {maps : Nat → ScanMap}

theorem alone_iff {x x' : ByteCounting.State Θ} : Alone x x' ↔ MpiCounting.Alone (recsC x) (recsC x') := Iff.rfl

theorem set_reader (z : State Θ) (r : Nat) (x : ByteCounting.State Θ) (h : x.reader = (z.ranks r).reader) (i : Nat) :
    ((set z r x).ranks i).reader = (z.ranks i).reader := by
  simp only [set]
  split
  · rename_i e; rw [e]; exact h
  · rfl

/-- A step on bytes is a step on records. -/
theorem step_recs (hw : ∀ x ∈ files, Whole x.2) (hidx : ∀ r < ws, IsIndex (files.map toFile) 0 files.length (maps r))
    (hsize : K.positions = size) {z z' : State Θ} {l : Label} (I : Readers files ws size maps z) (h : Step K ws size maps z l z') :
    MpiCounting.Step K ws (files.map toFile) maps (recsZ z) l (recsZ z') ∧ Readers files ws size maps z' := by
  cases h with
  | @rank r l x' hr hs ha =>
    obtain ⟨C, P⟩ := I r hr
    obtain ⟨g, C'⟩ := ByteCounting.stepC_recs hw (hidx r hr) C P hs
    rw [recsZ_set]
    refine ⟨.rank hr (by rw [hsize]; exact g) (alone_iff.1 ha), ?_⟩
    intro i hi
    by_cases e : i = r
    · subst e
      simp only [set, if_true]
      exact ⟨C', counting_pinv P g⟩
    · simp only [set, if_neg e]
      exact I i hi
  | compute hall h0 hne =>
    refine ⟨?_, I.same (set_reader z 0 _ rfl)⟩
    have := MpiCounting.Step.compute (K := K) (files := files.map toFile) (maps := maps) (z := recsZ z) hall h0 hne
    convert this using 1
    simp only [recsZ, set, MpiCounting.set, MpiCounting.State.mk.injEq, and_true]
    refine ⟨?_, rfl⟩
    funext i
    split <;> rfl
  | computeUb hall h0 hne =>
    refine ⟨?_, I.same (set_reader z 0 _ rfl)⟩
    rw [recsZ_set]
    exact MpiCounting.Step.computeUb (K := K) (files := files.map toFile) (maps := maps) (z := recsZ z) hall h0 hne
  | @receive r θ hr0 hr hm hub hb hne =>
    refine ⟨?_, I.same (set_reader z r _ rfl)⟩
    rw [recsZ_set]
    exact MpiCounting.Step.receive (K := K) (files := files.map toFile) (maps := maps) (z := recsZ z) hr0 hr hm hub hb hne
  | @receiveUb r θ hr0 hr hm hub hb hne =>
    refine ⟨?_, I.same (set_reader z r _ rfl)⟩
    rw [recsZ_set]
    exact MpiCounting.Step.receiveUb (K := K) (files := files.map toFile) (maps := maps) (z := recsZ z) hr0 hr hm hub hb hne
  | @send r hr0 hr hub hm hex =>
    refine ⟨?_, I.same (set_reader z r _ rfl)⟩
    have := MpiCounting.Step.send (K := K) (files := files.map toFile) (maps := maps) (z := recsZ z) hr0 hr hub hm (recsC_exited.2 hex)
    convert this using 1
    simp only [recsZ, set, MpiCounting.set, MpiCounting.State.mk.injEq, and_true]
    refine ⟨?_, trivial, rfl⟩
    funext i
    split <;> rfl
  | gather h0 hub hm hex hg =>
    exact ⟨.gather (z := recsZ z) h0 hub hm (recsC_exited.2 hex) hg, I⟩
  | recv hf hg hk hs hrec => exact ⟨.recv (z := recsZ z) hf hg hk hs hrec, I⟩
  | recvFail hf hg hk hs hrec => exact ⟨.recvFail (z := recsZ z) hf hg hk hs hrec, I⟩
  | finish hf hg hres => exact ⟨.finish (z := recsZ z) hf hg hres, I⟩

theorem init_recs (K : Call (List Nat) Θ) (ws : Nat) (streams : Nat → Nat → IStream) :
    recsZ (init K ws K.positions streams) = MpiCounting.init K ws fun r i => (streams r i).pos := by
  simp [recsZ, init, MpiCounting.init, recsC, recs, ByteCounting.init, CountingReader.init, MultiPass.pinit, ByteCounting.plainW, rankCall]

theorem readers_init (K : Call (List Nat) Θ) {streams : Nat → Nat → IStream} (hs : ∀ r < ws, streams r = streamsOf files) :
    Readers files ws size maps (init K ws size streams) := by
  intro r hr
  have e0 : (init K ws size streams).ranks r = ByteCounting.init (rankCall K ws r) (firstPosition size ws r) (streamsOf files) := by
    rw [← hs r hr]; rfl
  rw [e0]
  refine ⟨ByteCounting.clean_init _ _, ?_⟩
  have := MultiPass.pinv_init (files.map toFile) (maps r) K.threads (firstPosition size ws r) (endPosition size ws r) fun _ => 0
  have e := congrArg (·.reader) (ByteCounting.init_recs (files := files) (rankCall K ws r) (firstPosition size ws r))
  simp only [recsC] at e
  rw [e]
  exact this

/-- Every execution on bytes is one on records. -/
theorem run_recs (hw : ∀ x ∈ files, Whole x.2) (hidx : ∀ r < ws, IsIndex (files.map toFile) 0 files.length (maps r))
    (hsize : K.positions = size) {streams : Nat → Nat → IStream} (hst : ∀ r < ws, streams r = streamsOf files) {ls : List Label} {z : State Θ}
    (h : Run (Step K ws size maps) (init K ws size streams) ls z) :
    Run (MpiCounting.Step K ws (files.map toFile) maps) (MpiCounting.init K ws fun r i => (streams r i).pos) ls (recsZ z) ∧
      Readers files ws size maps z := by
  subst hsize
  generalize hx0 : init K ws K.positions streams = z0 at h
  induction h with
  | nil => subst hx0; rw [init_recs]; exact ⟨.nil _, readers_init K hst⟩
  | snoc h1 h2 ih =>
    obtain ⟨hr, I⟩ := ih
    obtain ⟨g, I'⟩ := step_recs hw hidx rfl I h2
    exact ⟨hr.snoc g, I'⟩

/-! ### The converse -/

/-- A step on records is a step on bytes. -/
theorem step_back (hw : ∀ x ∈ files, Whole x.2) (hidx : ∀ r < ws, IsIndex (files.map toFile) 0 files.length (maps r))
    (hsize : K.positions = size) {z : State Θ} {y : MpiCounting.State (List Nat) Θ} {l : Label} (I : Readers files ws size maps z)
    (h : MpiCounting.Step K ws (files.map toFile) maps (recsZ z) l y) : ∃ z', Step K ws size maps z l z' ∧ recsZ z' = y := by
  generalize hy : recsZ z = y0 at h
  cases h with
  | @rank r l x' hr hs ha =>
    subst hy
    obtain ⟨C, P⟩ := I r hr
    rw [hsize] at hs
    obtain ⟨v, g, rfl⟩ := ByteCounting.stepC_back hw (hidx r hr) C P hs
    exact ⟨_, .rank hr g (alone_iff.2 ha), recsZ_set z r v⟩
  | compute hall h0 hne =>
    subst hy
    refine ⟨_, .compute hall h0 hne, ?_⟩
    simp only [recsZ, set, MpiCounting.set, MpiCounting.State.mk.injEq, and_true]
    refine ⟨?_, rfl⟩
    funext i
    split <;> rfl
  | computeUb hall h0 hne =>
    subst hy
    exact ⟨_, .computeUb hall h0 hne, recsZ_set _ _ _⟩
  | @receive r θ hr0 hr hm hub hb hne =>
    subst hy
    exact ⟨_, .receive hr0 hr hm hub hb hne, recsZ_set _ _ _⟩
  | @receiveUb r θ hr0 hr hm hub hb hne =>
    subst hy
    exact ⟨_, .receiveUb hr0 hr hm hub hb hne, recsZ_set _ _ _⟩
  | @send r hr0 hr hub hm hex =>
    subst hy
    refine ⟨_, .send hr0 hr hub hm (recsC_exited.1 hex), ?_⟩
    simp only [recsZ, set, MpiCounting.set, MpiCounting.State.mk.injEq, and_true]
    refine ⟨?_, trivial, rfl⟩
    funext i
    split <;> rfl
  | gather h0 hub hm hex hg => subst hy; exact ⟨_, .gather h0 hub hm (recsC_exited.1 hex) hg, rfl⟩
  | recv hf hg hk hs hrec => subst hy; exact ⟨_, .recv hf hg hk hs hrec, rfl⟩
  | recvFail hf hg hk hs hrec => subst hy; exact ⟨_, .recvFail hf hg hk hs hrec, rfl⟩
  | finish hf hg hres => subst hy; exact ⟨_, .finish hf hg hres, rfl⟩

/-- Every execution on records is one on bytes. -/
theorem run_back (hw : ∀ x ∈ files, Whole x.2) (hidx : ∀ r < ws, IsIndex (files.map toFile) 0 files.length (maps r))
    (hsize : K.positions = size) {streams : Nat → Nat → IStream} (hst : ∀ r < ws, streams r = streamsOf files)
    {ls : List Label} {y : MpiCounting.State (List Nat) Θ}
    (h : Run (MpiCounting.Step K ws (files.map toFile) maps) (MpiCounting.init K ws fun r i => (streams r i).pos) ls y) :
    ∃ z, Run (Step K ws size maps) (init K ws size streams) ls z ∧ recsZ z = y := by
  generalize hx0 : MpiCounting.init K ws (fun r i => (streams r i).pos) = y0 at h
  induction h with
  | nil => subst hx0; subst hsize; exact ⟨_, .nil _, init_recs K ws streams⟩
  | snoc h1 h2 ih =>
    subst hx0
    obtain ⟨x, hx, rfl⟩ := ih
    obtain ⟨x', g1, g2⟩ := step_back hw hidx hsize (run_recs hw hidx hsize hst hx).2 h2
    exact ⟨x', hx.snoc g1, g2⟩

end

end Stempy.MpiBytes
