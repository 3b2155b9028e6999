import Verif.Props.EndToEnd
import Verif.Props.MpiCounting

/-!
C91: STEM images of data which were counted on several MPI ranks.
-/

namespace Stempy.Props
open Stempy.Spec Stempy.EndToEnd
open Stempy.MpiCounting
open Stempy.MultiPass (ScanMap File Block HState HStep hinit)

private theorem fold_events (g : Nat → Outcome Bool) (l : List Nat) : ∀ (acc ev : List Nat),
    (l.foldlM (fun events i => do
      let e ← g i
      pure (if e then events ++ [i] else events)) acc : Outcome (List Nat)) = .ok ev → ∃ l', l'.Sublist l ∧ ev = acc ++ l' := by
  induction l with
  | nil =>
    intro acc ev h
    exact ⟨[], .slnil, by simpa using (Outcome.ok.inj h).symm⟩
  | cons i l ih =>
    intro acc ev h
    rw [List.foldlM_cons] at h
    cases hg : g i with
    | ok e =>
      rw [hg] at h
      obtain ⟨l', h1, h2⟩ := ih _ _ h
      cases e with
      | true => exact ⟨i :: l', h1.cons_cons i, by simpa using h2⟩
      | false => exact ⟨l', h1.cons i, by simpa using h2⟩
    | throw m => rw [hg] at h; cases h
    | ub => rw [hg] at h; cases h

/-- Whatever is counted, the events are pixels of the detector, in order. -/
theorem call_events (o : Setup) : ∀ θ b, ((call o).count θ b).length < 2 ^ 64 ∧ ∀ e ∈ (call o).count θ b, e < 2 ^ 32 := by
  intro θ b
  have key : ∀ ev, countFrame o θ (frameOf b) = .ok ev → ev.Sublist (List.range (576 * 576 % 2 ^ 32)) := by
    intro ev h
    have fin : ∀ x : Outcome (List Rat), (do
        let fr ← x
        Electron.maximalPoints Electron.ratGt fr (576, 576)) = .ok ev → ev.Sublist (List.range (576 * 576 % 2 ^ 32)) := by
      intro x h
      cases x with
      | ok fr =>
        rw [Outcome.ok_bind] at h
        obtain ⟨l', h1, h2⟩ := fold_events _ _ _ _ h
        rw [h2]
        exact h1
      | throw m => cases h
      | ub => cases h
    unfold countFrame Electron.countFrameStream at h
    cases hrd : o.rowDark with
    | none =>
      rw [hrd] at h
      exact fin _ h
    | some stat =>
      rw [hrd] at h
      exact fin _ h
  simp only [call]
  cases hc : countFrame o θ (frameOf b) with
  | ok ev =>
    have hs := key ev hc
    constructor
    · have := hs.length_le
      rw [List.length_range] at this
      simp only
      omega
    · intro e he
      have := List.mem_range.1 (hs.subset he)
      omega
  | throw m => simp
  | ub => simp

/-- **C91** Images of data which were counted on several ranks: what `C85_images` states of one process. -/
private theorem mpi_pipeline (o : Setup) (value : Rat → List Nat → Nat → Rat)
    (hbg : ∀ S : List (List Nat), S.length = o.numBlocks → 0 ≤ (o.thresholds S).1)
    (files : List (File (List Nat))) (hcount : CountsFrames o files value)
    (W H : Nat) (hscan : o.scan = (W, H)) (hf : FilesOk files W H) (hsz : W * H < 2 ^ 32) (hpos : 0 < W * H)
    (hnum : files.length ≤ 2 ^ 31) (hlen : ∀ f ∈ files, f.records.length * MultiPass.recordSize < 2 ^ 63)
    (hfn : ∀ f ∈ files, ∀ r ∈ f.records, r.frameNumber < 2 ^ 32)
    (hthreads : 0 < o.threads) (ws : Nat) (hws : 0 < ws) (hN : ws ≤ o.numBlocks) (n : Nat) (hn : 0 < n)
    (hs : Nat → HState (List Nat)) (merged : Nat → ScanMap)
    (header : ∀ r < ws, Reach (HStep files (W * H) ((Mpi.share files.length ws r).1 + (Mpi.share files.length ws r).2))
      (hinit n (Mpi.share files.length ws r).1) (hs r) ∧ ∀ w ∈ (hs r).workers, w = .exited)
    (gather : ∀ r < ws, Mpi.gatherScanMap ((List.range ws).map fun r => (hs r).map) (W * H) r = .ok (merged r))
    (at_ : Nat → Nat → Nat) {z : MpiCounting.State (List Nat) (Rat × Rat × Rat)}
    (h : Reach (MpiCounting.Step (call o) ws files merged) (MpiCounting.init (call o) ws at_) z)
    {data : List (List (List Nat))} (hd : z.result = some data) :
    ∃ all S ev, Counted o files value all S ev ∧ Results W H (countedData o data) all ev := by
  have hP : (call o).positions = W * H := by simp [call, hscan]
  have hin := records_inside hf (Nat.le_of_lt hsz)
  refine images_of_counted o value hbg files hcount W H hscan hf hsz hpos ?_
  exact C91_files_partial (call o) hthreads ws hws hN files
    ⟨by rw [hP]; exact Nat.le_of_lt hsz, hf.sectors, fun f hfm r hr => ⟨by rw [hP]; exact hin f hfm r hr, hfn f hfm r hr⟩, hnum, hlen⟩
    hf.once (call_events o) n hn hs merged (by rw [hP]; exact header) (by rw [hP]; exact gather) at_ h hd

/-- **C91** When rank 0 returns (without gain and row dark correction), the images computed from the data, also after saving and loading
them, are those of the frames in the sector files: the conclusion is that of `C85_images`. For all files, numbers of ranks and
threads and schedules. Missing: fewer samples than ranks (`C91_few_samples_false`). -/
theorem C91_images_partial (o : Setup) (hg : o.gain = none) (hrd : o.rowDark = none)
    (hdark : ∀ d, o.dark = some d → d.length = 576 * 576 ∧ ∀ r ∈ d, -1 < r ∧ r < 65536)
    (hbg : ∀ S : List (List Nat), S.length = o.numBlocks → 0 ≤ (o.thresholds S).1) (files : List (File (List Nat)))
    (W H : Nat) (hscan : o.scan = (W, H)) (hf : FilesOk files W H) (hsz : W * H < 2 ^ 32) (hpos : 0 < W * H)
    (hnum : files.length ≤ 2 ^ 31) (hlen : ∀ f ∈ files, f.records.length * MultiPass.recordSize < 2 ^ 63)
    (hfn : ∀ f ∈ files, ∀ r ∈ f.records, r.frameNumber < 2 ^ 32)
    (hthreads : 0 < o.threads) (ws : Nat) (hws : 0 < ws) (hN : ws ≤ o.numBlocks) (n : Nat) (hn : 0 < n)
    (hs : Nat → HState (List Nat)) (merged : Nat → ScanMap)
    (header : ∀ r < ws, Reach (HStep files (W * H) ((Mpi.share files.length ws r).1 + (Mpi.share files.length ws r).2))
      (hinit n (Mpi.share files.length ws r).1) (hs r) ∧ ∀ w ∈ (hs r).workers, w = .exited)
    (gather : ∀ r < ws, Mpi.gatherScanMap ((List.range ws).map fun r => (hs r).map) (W * H) r = .ok (merged r))
    (at_ : Nat → Nat → Nat) {z : MpiCounting.State (List Nat) (Rat × Rat × Rat)}
    (h : Reach (MpiCounting.Step (call o) ws files merged) (MpiCounting.init (call o) ws at_) z)
    {data : List (List (List Nat))} (hd : z.result = some data) :
    ∃ all S ev, Counted o files (fun _ => u16StreamValue o.dark) all S ev ∧
      Results W H (countedData o data) all ev :=
  mpi_pipeline o _ hbg files (counts_plain o hg hrd hdark files) W H hscan hf hsz hpos hnum hlen hfn
    hthreads ws hws hN n hn hs merged header gather at_ h hd

/-- **C91** The same with a gain. -/
theorem C91_images_gain_partial (o : Setup) (gain : List Rat) (hg : o.gain = some gain) (hgl : gain.length = 576 * 576)
    (hrd : o.rowDark = none) (hdark : ∀ d, o.dark = some d → d.length = 576 * 576)
    (hbg : ∀ S : List (List Nat), S.length = o.numBlocks → 0 ≤ (o.thresholds S).1) (files : List (File (List Nat)))
    (W H : Nat) (hscan : o.scan = (W, H)) (hf : FilesOk files W H) (hsz : W * H < 2 ^ 32) (hpos : 0 < W * H)
    (hnum : files.length ≤ 2 ^ 31) (hlen : ∀ f ∈ files, f.records.length * MultiPass.recordSize < 2 ^ 63)
    (hfn : ∀ f ∈ files, ∀ r ∈ f.records, r.frameNumber < 2 ^ 32)
    (hthreads : 0 < o.threads) (ws : Nat) (hws : 0 < ws) (hN : ws ≤ o.numBlocks) (n : Nat) (hn : 0 < n)
    (hs : Nat → HState (List Nat)) (merged : Nat → ScanMap)
    (header : ∀ r < ws, Reach (HStep files (W * H) ((Mpi.share files.length ws r).1 + (Mpi.share files.length ws r).2))
      (hinit n (Mpi.share files.length ws r).1) (hs r) ∧ ∀ w ∈ (hs r).workers, w = .exited)
    (gather : ∀ r < ws, Mpi.gatherScanMap ((List.range ws).map fun r => (hs r).map) (W * H) r = .ok (merged r))
    (at_ : Nat → Nat → Nat) {z : MpiCounting.State (List Nat) (Rat × Rat × Rat)}
    (h : Reach (MpiCounting.Step (call o) ws files merged) (MpiCounting.init (call o) ws at_) z)
    {data : List (List (List Nat))} (hd : z.result = some data) :
    ∃ all S ev, Counted o files (fun _ => floatValue o.dark gain) all S ev ∧
      Results W H (countedData o data) all ev :=
  mpi_pipeline o _ hbg files (counts_gain o gain hg hgl hrd hdark files) W H hscan hf hsz hpos hnum hlen hfn
    hthreads ws hws hN n hn hs merged header gather at_ h hd

/-- **C91** The same with a gain and row dark correction, if no half row of a frame has the statistic zero. -/
theorem C91_images_rowdark_partial (o : Setup) (gain : List Rat) (hg : o.gain = some gain) (hgl : gain.length = 576 * 576)
    {statFunc : List Rat → Outcome (Option Rat)} {stat : List Rat → Rat} (hrd : o.rowDark = some statFunc)
    (hstat : ∀ l, l ≠ [] → statFunc l = .ok (some (stat l))) (hdark : ∀ d, o.dark = some d → d.length = 576 * 576)
    (hbg : ∀ S : List (List Nat), S.length = o.numBlocks → 0 ≤ (o.thresholds S).1) (files : List (File (List Nat)))
    (hnz : ∀ all, IsScan files all → ∀ f ∈ all, ∀ x y, x < 576 → y < 576 → stat (halfRow 576 (pixels f.pixels) x y) ≠ 0)
    (W H : Nat) (hscan : o.scan = (W, H)) (hf : FilesOk files W H) (hsz : W * H < 2 ^ 32) (hpos : 0 < W * H)
    (hnum : files.length ≤ 2 ^ 31) (hlen : ∀ f ∈ files, f.records.length * MultiPass.recordSize < 2 ^ 63)
    (hfn : ∀ f ∈ files, ∀ r ∈ f.records, r.frameNumber < 2 ^ 32)
    (hthreads : 0 < o.threads) (ws : Nat) (hws : 0 < ws) (hN : ws ≤ o.numBlocks) (n : Nat) (hn : 0 < n)
    (hs : Nat → HState (List Nat)) (merged : Nat → ScanMap)
    (header : ∀ r < ws, Reach (HStep files (W * H) ((Mpi.share files.length ws r).1 + (Mpi.share files.length ws r).2))
      (hinit n (Mpi.share files.length ws r).1) (hs r) ∧ ∀ w ∈ (hs r).workers, w = .exited)
    (gather : ∀ r < ws, Mpi.gatherScanMap ((List.range ws).map fun r => (hs r).map) (W * H) r = .ok (merged r))
    (at_ : Nat → Nat → Nat) {z : MpiCounting.State (List Nat) (Rat × Rat × Rat)}
    (h : Reach (MpiCounting.Step (call o) ws files merged) (MpiCounting.init (call o) ws at_) z)
    {data : List (List (List Nat))} (hd : z.result = some data) :
    ∃ all S ev, Counted o files (fun optMean frame j => rowDarkFloat optMean o.dark gain
      (stat (halfRow 576 (pixels frame) (j % 576) (j / 576))) j (frame.getD j 0 : Nat)) all S ev ∧
      Results W H (countedData o data) all ev :=
  mpi_pipeline o _ hbg files (counts_rowdark o gain hg hgl hrd hstat hdark files hnz) W H hscan hf hsz hpos hnum hlen hfn
    hthreads ws hws hN n hn hs merged header gather at_ h hd

/-- **C91** With the same thresholds, the images do not depend on the number of ranks: those of one process (`C85_images`) and those of
several ranks are equal. -/
theorem C91_same_images_partial (o : Setup) (hg : o.gain = none) (hrd : o.rowDark = none)
    (hdark : ∀ d, o.dark = some d → d.length = 576 * 576 ∧ ∀ r ∈ d, -1 < r ∧ r < 65536) (θ : Rat × Rat × Rat) (h0 : 0 ≤ θ.1)
    (hθ : ∀ S, o.thresholds S = θ) (files : List (File (List Nat)))
    (W H : Nat) (hscan : o.scan = (W, H)) (hf : FilesOk files W H) (hsz : W * H < 2 ^ 32) (hpos : 0 < W * H)
    (hnum : files.length ≤ 2 ^ 31) (hlen : ∀ f ∈ files, f.records.length * MultiPass.recordSize < 2 ^ 63)
    (hfn : ∀ f ∈ files, ∀ r ∈ f.records, r.frameNumber < 2 ^ 32)
    (hthreads : 0 < o.threads) (ws : Nat) (hws : 0 < ws) (hN : ws ≤ o.numBlocks) (n : Nat) (hn : 0 < n)
    {s : HState (List Nat)}
    (hs1 : Reach (HStep files (W * H) files.length) (hinit n 0) s) (hex : ∀ w ∈ s.workers, w = .exited)
    (at1 : Nat → Nat) {y : CountingReader.State (List Nat) (Rat × Rat × Rat)}
    (hy : Reach (CountingReader.Step (call o) files s.map (W * H)) (CountingReader.init (call o) 0 at1) y)
    {data1 : List (List (List Nat))} (hd1 : y.counting.main = .done data1)
    (hs : Nat → HState (List Nat)) (merged : Nat → ScanMap)
    (header : ∀ r < ws, Reach (HStep files (W * H) ((Mpi.share files.length ws r).1 + (Mpi.share files.length ws r).2))
      (hinit n (Mpi.share files.length ws r).1) (hs r) ∧ ∀ w ∈ (hs r).workers, w = .exited)
    (gather : ∀ r < ws, Mpi.gatherScanMap ((List.range ws).map fun r => (hs r).map) (W * H) r = .ok (merged r))
    (at_ : Nat → Nat → Nat) {z : MpiCounting.State (List Nat) (Rat × Rat × Rat)}
    (h : Reach (MpiCounting.Step (call o) ws files merged) (MpiCounting.init (call o) ws at_) z)
    {data : List (List (List Nat))} (hd : z.result = some data)
    (inner outer : List Int) (cx cy : Int) (hne : inner ≠ []) (hl : inner.length = outer.length)
    (hgeo : ∀ r ∈ inner.zip outer, GeometryOK 576 576 r.1 r.2 cx cy) :
    ∃ py py', PyImage.toPython (countedData o data1) = .ok py ∧ PyImage.toPython (countedData o data) = .ok py' ∧
      ∃ images, PyImage.createStemImages py inner outer (cx, cy) = .ok images ∧
        PyImage.createStemImages py' inner outer (cx, cy) = .ok images := by
  have hbg : ∀ S : List (List Nat), S.length = o.numBlocks → 0 ≤ (o.thresholds S).1 := fun S _ => by rw [hθ]; exact h0
  obtain ⟨all, S, ev, c1, r1⟩ := C85_images o hg hrd hdark hbg files W H hscan hf hsz hpos hthreads n hn hs1 hex at1 hy hd1
  obtain ⟨all', S', ev', c2, r2⟩ := C91_images_partial o hg hrd hdark hbg files W H hscan hf hsz hpos hnum hlen hfn hthreads ws hws hN n hn
    hs merged header gather at_ h hd
  exact C85_same_images (fun f => Iff.rfl) rfl rfl rfl (by rw [hθ, hθ]) c1 c2 r1 r2 inner outer cx cy hne hl hgeo

/-- Four sector files of a scan of 2 × 1 positions with a complete frame at each. -/
def rankFiles : List (File (List Nat)) :=
  (List.range 4).map fun s => ⟨s, [⟨1, 7, 2, 1, 0, 0, brightSector (50 + s)⟩, ⟨1, 8, 2, 1, 1, 0, brightSector (60 + s)⟩]⟩

def rankSetup : Setup := ⟨3, 2, (2, 1), none, none, none, fun _ => (10, 1000, 0)⟩

theorem rank_records {i j p f sec : Nat} {r : SectorReader.Rec (List Nat)} (h : IsRecord rankFiles i j r p f sec) :
    i < 4 ∧ i = sec ∧ (j = 0 ∧ f = 7 ∧ p = 0 ∨ j = 1 ∧ f = 8 ∧ p = 1) ∧ InScan 2 1 r ∧ r.data.length = 144 * 576 := by
  have hlen : ∀ v, (brightSector v).length = 144 * 576 := by
    intro v
    rw [brightSector, List.length_append, List.length_cons, List.length_replicate, List.length_replicate]
  obtain ⟨file, h1, h2, h3, h4, h5⟩ := h
  rw [rankFiles, List.getElem?_map, Option.map_eq_some_iff] at h1
  obtain ⟨s, hs, rfl⟩ := h1
  obtain ⟨hlt, e⟩ := List.getElem?_eq_some_iff.1 hs
  simp only [List.getElem_range] at e
  simp only [List.length_range] at hlt
  subst e
  rcases j with _ | _ | j <;>
    simp only [List.getElem?_cons_zero, List.getElem?_cons_succ, List.getElem?_nil, Option.some.injEq, reduceCtorEq] at h2
  · subst h2
    exact ⟨hlt, h5, .inl ⟨rfl, h4.symm, h3.symm⟩, by simp [InScan], hlen _⟩
  · subst h2
    exact ⟨hlt, h5, .inr ⟨rfl, h4.symm, h3.symm⟩, by simp [InScan], hlen _⟩

theorem rank_mem {f : File (List Nat)} {r : SectorReader.Rec (List Nat)} (hf : f ∈ rankFiles) (hr : r ∈ f.records) :
    ∃ i j, IsRecord rankFiles i j r r.pos r.frameNumber f.sector := by
  obtain ⟨i, hi⟩ := List.getElem?_of_mem hf
  obtain ⟨j, hj⟩ := List.getElem?_of_mem hr
  exact ⟨i, j, f, hi, hj, rfl, rfl, rfl⟩

theorem rank_ok : FilesOk rankFiles 2 1 := by
  refine ⟨?_, ?_, ?_, ?_⟩
  · intro f hf
    obtain ⟨s, hs, rfl⟩ := List.mem_map.1 hf
    exact List.mem_range.1 hs
  · intro f hf r hr
    obtain ⟨i, j, h⟩ := rank_mem hf hr
    exact (rank_records h).2.2.2.1
  · intro f hf r hr
    obtain ⟨i, j, h⟩ := rank_mem hf hr
    exact (rank_records h).2.2.2.2
  · intro i j r i' j' r' p f sec _ _ _ _ h h'
    have h1 := rank_records h
    have h2 := rank_records h'
    omega

theorem rank_complete (x f : Nat) (h : x = 0 ∧ f = 7 ∨ x = 1 ∧ f = 8) :
    ∀ sec < 4, ∃ i j r, 0 ≤ i ∧ i < rankFiles.length ∧ IsRecord rankFiles i j r x f sec := by
  intro sec hsec
  have hi : sec < rankFiles.length := by simpa [rankFiles] using hsec
  have hfile : rankFiles[sec]? = some ⟨sec, [⟨1, 7, 2, 1, 0, 0, brightSector (50 + sec)⟩,
      ⟨1, 8, 2, 1, 1, 0, brightSector (60 + sec)⟩]⟩ := by
    rw [rankFiles, List.getElem?_map, List.getElem?_range hsec]
    rfl
  rcases h with ⟨rfl, rfl⟩ | ⟨rfl, rfl⟩
  · exact ⟨sec, 0, _, Nat.zero_le _, hi, _, hfile, rfl, rfl, rfl, rfl⟩
  · exact ⟨sec, 1, _, Nat.zero_le _, hi, _, hfile, rfl, rfl, rfl, rfl⟩

/-- The hypotheses can be met, on two ranks: after every execution of the header passes and the gathering the data are counted in some
schedule, and the images are those of the frames. -/
example : ∃ (hs : Nat → HState (List Nat)) (merged : Nat → ScanMap) (z : MpiCounting.State (List Nat) (Rat × Rat × Rat))
    (data : List (List (List Nat))),
    (∀ r < 2, Reach (HStep rankFiles 2 ((Mpi.share rankFiles.length 2 r).1 + (Mpi.share rankFiles.length 2 r).2))
      (hinit 2 (Mpi.share rankFiles.length 2 r).1) (hs r) ∧ ∀ w ∈ (hs r).workers, w = .exited) ∧
    (∀ r < 2, Mpi.gatherScanMap ((List.range 2).map fun r => (hs r).map) 2 r = .ok (merged r)) ∧
    Reach (MpiCounting.Step (call rankSetup) 2 rankFiles merged) (MpiCounting.init (call rankSetup) 2 fun _ _ => 17) z ∧
    z.result = some data ∧
    ∃ all S ev, Counted rankSetup rankFiles (fun _ => u16StreamValue none) all S ev ∧
      Results 2 1 (countedData rankSetup data) all ev := by
  have hfn : ∀ f ∈ rankFiles, ∀ r ∈ f.records, r.frameNumber < 2 ^ 32 := by
    intro f hf r hr
    obtain ⟨i, j, h⟩ := rank_mem hf hr
    have := rank_records h
    omega
  have hlen : ∀ f ∈ rankFiles, f.records.length * MultiPass.recordSize < 2 ^ 63 := by
    intro f hf
    obtain ⟨s, hs, rfl⟩ := List.mem_map.1 hf
    exact (by decide : 2 * MultiPass.recordSize < 2 ^ 63)
  have hnum : rankFiles.length ≤ 2 ^ 31 := by
    rw [rankFiles, List.length_map, List.length_range]
    decide
  have hsend : SendableFiles rankFiles 2 := ⟨by decide, rank_ok.sectors,
    fun f hf r hr => ⟨records_inside rank_ok (by decide) f hf r hr, hfn f hf r hr⟩, hnum, hlen⟩
  obtain ⟨hs, _, merged, h1, h2, _⟩ := C35_exists rankFiles 2 2 2 (by decide) (by decide) hsend rank_ok.once (fun _ _ => 0)
  obtain ⟨z, data, hz, hd⟩ := C91_returns (call rankSetup) (by decide) 2 (by decide) (by decide) rankFiles hsend rank_ok.once
    (call_events _)
    (by
      intro i j r i' j' r' p f f' sec sec' h h'
      have h1 := rank_records h
      have h2 := rank_records h'
      omega)
    (by
      intro r hr
      have : r = 0 ∨ r = 1 := by omega
      rcases this with rfl | rfl
      · refine ⟨[(0, 7)], by simp, by decide, ?_⟩
        intro x hx
        obtain rfl := List.mem_singleton.1 hx
        exact ⟨by decide, by decide, rank_complete 0 7 (by omega)⟩
      · refine ⟨[(1, 8)], by simp, by decide, ?_⟩
        intro x hx
        obtain rfl := List.mem_singleton.1 hx
        exact ⟨by decide, by decide, rank_complete 1 8 (by omega)⟩)
    2 (by decide) hs merged h1 h2 (fun _ _ => 17)
  refine ⟨hs, merged, z, data, h1, h2, hz, hd, ?_⟩
  exact C91_images_partial rankSetup rfl rfl (by intro d hd; cases hd)
    (by intro S _; show (0 : Rat) ≤ 10; norm_num) rankFiles 2 1 rfl rank_ok (by decide) (by decide) hnum hlen hfn
    (by decide) 2 (by decide) (by decide) 2 (by decide) hs merged h1 h2 _ hz hd

end Stempy.Props
