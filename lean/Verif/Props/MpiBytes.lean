import Verif.Lemmas.MpiBytes
import Verif.Props.ByteCounting
import Verif.Props.MpiImages

/-!
C105: from the bytes of sector files to STEM images on several MPI ranks.
-/

namespace Stempy.Props
open Stempy.Spec Stempy.MpiBytes
open Stempy.SectorStreams (Whole toFile content opened readFirstHeader)
open Stempy.MultiPass (File recordSize ScanMap)
open Stempy.EndToEnd (Setup call countedData)
open Stempy.MpiCounting (firstPosition endPosition isSpurious Label)
open Stempy.ByteCounting (HState HStep hinit rewound streamsOf withScan recH recW recW_exited hrun_rec rewound_eq)

/-- The number and the length of the files fit into the integers of the code. -/
structure FilesFit (files : List (File (List Nat))) : Prop where
  number : files.length ≤ 2 ^ 31
  length : ∀ f ∈ files, f.records.length * recordSize < 2 ^ 63

/-- The first stream of a rank and the first one after its streams, reader_mpi.cpp:104-114. -/
private def streamLo (files : List (File (List Nat))) (ws r : Nat) : Nat := (Mpi.share files.length ws r).1
private def streamHi (files : List (File (List Nat))) (ws r : Nat) : Nat :=
  (Mpi.share files.length ws r).1 + (Mpi.share files.length ws r).2

private theorem sendable {files : List (File (List Nat))} {W H : Nat} (hf : FilesOk files W H) (hr : FitsBytes files) (hfit : FilesFit files)
    (hle : W * H ≤ 2 ^ 32) : SendableFiles files (W * H) :=
  ⟨hle, hf.sectors, fun f hfm r hrm => ⟨pos_lt hf hle f hfm r hrm, (hr f hfm r hrm).frameNumber⟩, hfit.number, hfit.length⟩

private theorem distinct_share {files : List (File (List Nat))} {W H ws r : Nat} (hf : FilesOk files W H) (hr : r < ws) :
    streamHi files ws r ≤ files.length ∧ DistinctRecords files (streamLo files ws r) (streamHi files ws r) := by
  have hle : streamHi files ws r ≤ files.length := (C34_exactly_one files.length ws (by omega)).2 r hr
  refine ⟨hle, ?_⟩
  intro i j rc i' j' rc' p f sec h1 h2 h3 h4 h5 h6
  exact hf.once i j rc i' j' rc' p f sec (by omega) (by omega) (by omega) (by omega) h5 h6

/-! ### Executions on bytes and on records -/

/-- What an execution on bytes is on the records. -/
private structure MpiRecords (o : Setup) (files : List (File (List Nat))) (ws W H : Nat) (dims : Nat × Nat) (s : Nat → HState)
    (maps : Nat → ScanMap) (z : State (Rat × Rat × Rat)) : Prop where
  dims : dims = (W, H)
  size : W * H < 2 ^ 32 ∧ 0 < W * H
  headers : ∀ r < ws, Reach (MultiPass.HStep files (W * H) ((Mpi.share files.length ws r).1 + (Mpi.share files.length ws r).2))
    (MultiPass.hinit o.threads (Mpi.share files.length ws r).1) (recH (s r)) ∧ ∀ w ∈ (recH (s r)).workers, w = .exited
  gather : ∀ r < ws, Mpi.gatherScanMap ((List.range ws).map fun r => (recH (s r)).map) (W * H) r = .ok (maps r)
  index : ∀ r < ws, IsIndex files 0 files.length (maps r)
  init : ∀ r < ws, rewound (s r).streams = streamsOf (bytesOf files)
  counting : (withScan o (W, H)).scan = (W, H) → ∃ ls,
    Run (MpiBytes.Step (call (withScan o (W, H))) ws (W * H) maps)
      (MpiBytes.init (call (withScan o (W, H))) ws (W * H) fun r => rewound (s r).streams) ls z ∧
    Run (MpiCounting.Step (call (withScan o (W, H))) ws files maps)
      (MpiCounting.init (call (withScan o (W, H))) ws fun r i => (rewound (s r).streams i).pos) ls (recsZ z)

private theorem call_positions {o : Setup} {W H : Nat} (hs : o.scan = (W, H)) : (call o).positions = W * H := by simp [call, hs]

private theorem mpiRecords {o : Setup} {files : List (File (List Nat))} {W H ws : Nat} (hf : FilesOk files W H) (hr : FitsBytes files)
    (hfit : FilesFit files) (hthreads : 0 < o.threads) (hws : 0 < ws) {dims : Nat × Nat} {s : Nat → HState} {maps : Nat → ScanMap}
    {z : State (Rat × Rat × Rat)} (h : Exec o (bytesOf files) ws dims s maps z) : MpiRecords o files ws W H dims s maps z := by
  have hlen : (bytesOf files).length = files.length := by simp [bytesOf]
  obtain ⟨first, waited, gather, counting⟩ := h
  obtain ⟨number, st, h1, _⟩ := first 0 hws
  obtain ⟨rfl, _, hsz, hpos⟩ := first_record hf hr h1
  have hm : mapSize (W, H) = W * H := Nat.mod_eq_of_lt hsz
  rw [hm] at gather counting
  have key : ∀ r < ws, Reach (MultiPass.HStep files (W * H) ((Mpi.share files.length ws r).1 + (Mpi.share files.length ws r).2))
      (MultiPass.hinit o.threads (Mpi.share files.length ws r).1) (recH (s r)) ∧ rewound (s r).streams = streamsOf (bytesOf files) := by
    intro r hr'
    obtain ⟨number, st, h1, ls, h2⟩ := first r hr'
    obtain ⟨_, rfl, _, _⟩ := first_record hf hr h1
    rw [update_same, hm, hlen] at h2
    obtain ⟨g1, I⟩ := hrun_rec (bytesOf_cut hr) h2
    rw [toFile_bytesOf hr] at g1
    exact ⟨⟨_, g1⟩, rewound_eq I⟩
  have hex : ∀ r < ws, ∀ w ∈ (recH (s r)).workers, w = .exited := by
    intro r hr' w hw
    obtain ⟨v, hv, rfl⟩ := List.mem_map.1 hw
    exact recW_exited.2 ((waited r hr').2 v hv)
  have headers : ∀ r < ws, Reach (MultiPass.HStep files (W * H) ((Mpi.share files.length ws r).1 + (Mpi.share files.length ws r).2))
      (MultiPass.hinit o.threads (Mpi.share files.length ws r).1) (recH (s r)) ∧ ∀ w ∈ (recH (s r)).workers, w = .exited :=
    fun r hr' => ⟨(key r hr').1, hex r hr'⟩
  have index := C35_merged files (W * H) ws o.threads hthreads hws (sendable hf hr hfit (Nat.le_of_lt hsz)) hf.once
    (fun r => recH (s r)) maps headers gather
  refine ⟨rfl, ⟨hsz, hpos⟩, headers, gather, index, fun r hr' => (key r hr').2, fun hs => ?_⟩
  obtain ⟨ls, counting⟩ := counting
  refine ⟨ls, counting, ?_⟩
  have := (run_recs (K := call (withScan o (W, H))) (files := bytesOf files) (bytesOf_whole hr)
    (by rw [toFile_bytesOf hr, hlen]; exact index) (call_positions hs) (fun r hr' => (key r hr').2) counting).1
  rwa [toFile_bytesOf hr] at this

/-! ### The images -/

/-- **C105** Counting with the multi-pass reader on several MPI ranks from the bytes of the files (without gain and row dark correction,
with or without dark reference): when rank 0 returns, the images computed from the data, also after saving and loading them, are those
of the frames whose records were written to the files. For all contents of the files, numbers of ranks and threads and schedules of the
header passes and of the counting. This is the statement of `C90_images`. Missing: fewer samples than ranks (`C105_few_samples_false`). -/
theorem C105_images_partial (o : Setup) (hg : o.gain = none) (hrd : o.rowDark = none)
    (hdark : ∀ d, o.dark = some d → d.length = 576 * 576 ∧ ∀ r ∈ d, -1 < r ∧ r < 65536)
    (hbg : ∀ S : List (List Nat), S.length = o.numBlocks → 0 ≤ (o.thresholds S).1)
    (files : List (File (List Nat))) (W H : Nat) (hscan : o.scan = (W, H) ∨ o.scan.1 = 0 ∨ o.scan.2 = 0) (hf : FilesOk files W H)
    (hr : FitsBytes files) (hfit : FilesFit files) (hthreads : 0 < o.threads) (ws : Nat) (hws : 0 < ws) (hN : ws ≤ o.numBlocks)
    {dims : Nat × Nat} {s : Nat → HState} {maps : Nat → ScanMap} {z : State (Rat × Rat × Rat)}
    (h : Exec o (bytesOf files) ws dims s maps z) {data : List (List (List Nat))} (hd : z.result = some data) :
    ∃ all S ev, Counted o files (fun _ => u16StreamValue o.dark) all S ev ∧ Results W H ⟨data, (W, H), (576, 576)⟩ all ev := by
  have R := mpiRecords hf hr hfit hthreads hws h
  have hs := withScan_scan hscan R.size.2
  obtain ⟨ls, _, hrun⟩ := R.counting hs
  obtain ⟨all, S, ev, c1, c2⟩ := C91_images_partial (withScan o (W, H)) hg hrd hdark hbg files W H hs hf R.size.1 R.size.2 hfit.number hfit.length
    (fun f hfm r hrm => (hr f hfm r hrm).frameNumber) hthreads ws hws hN o.threads hthreads (fun r => recH (s r)) maps R.headers R.gather
    _ ⟨ls, hrun⟩ hd
  refine ⟨all, S, ev, c1.ofScan, ?_⟩
  rw [countedData, hs] at c2
  exact c2

/-- **C105** The same with a gain. -/
theorem C105_images_gain_partial (o : Setup) (gain : List Rat) (hg : o.gain = some gain) (hgl : gain.length = 576 * 576)
    (hrd : o.rowDark = none) (hdark : ∀ d, o.dark = some d → d.length = 576 * 576)
    (hbg : ∀ S : List (List Nat), S.length = o.numBlocks → 0 ≤ (o.thresholds S).1)
    (files : List (File (List Nat))) (W H : Nat) (hscan : o.scan = (W, H) ∨ o.scan.1 = 0 ∨ o.scan.2 = 0) (hf : FilesOk files W H)
    (hr : FitsBytes files) (hfit : FilesFit files) (hthreads : 0 < o.threads) (ws : Nat) (hws : 0 < ws) (hN : ws ≤ o.numBlocks)
    {dims : Nat × Nat} {s : Nat → HState} {maps : Nat → ScanMap} {z : State (Rat × Rat × Rat)}
    (h : Exec o (bytesOf files) ws dims s maps z) {data : List (List (List Nat))} (hd : z.result = some data) :
    ∃ all S ev, Counted o files (fun _ => floatValue o.dark gain) all S ev ∧ Results W H ⟨data, (W, H), (576, 576)⟩ all ev := by
  have R := mpiRecords hf hr hfit hthreads hws h
  have hs := withScan_scan hscan R.size.2
  obtain ⟨ls, _, hrun⟩ := R.counting hs
  obtain ⟨all, S, ev, c1, c2⟩ := C91_images_gain_partial (withScan o (W, H)) gain hg hgl hrd hdark hbg files W H hs hf R.size.1 R.size.2
    hfit.number hfit.length (fun f hfm r hrm => (hr f hfm r hrm).frameNumber) hthreads ws hws hN o.threads hthreads (fun r => recH (s r))
    maps R.headers R.gather _ ⟨ls, hrun⟩ hd
  refine ⟨all, S, ev, c1.ofScan, ?_⟩
  rw [countedData, hs] at c2
  exact c2

/-- **C105** The same with a gain and row dark correction, if no half row of a frame has the statistic zero. -/
theorem C105_images_rowdark_partial (o : Setup) (gain : List Rat) (hg : o.gain = some gain) (hgl : gain.length = 576 * 576)
    {statFunc : List Rat → Outcome (Option Rat)} {stat : List Rat → Rat} (hrd : o.rowDark = some statFunc)
    (hstat : ∀ l, l ≠ [] → statFunc l = .ok (some (stat l))) (hdark : ∀ d, o.dark = some d → d.length = 576 * 576)
    (hbg : ∀ S : List (List Nat), S.length = o.numBlocks → 0 ≤ (o.thresholds S).1) (files : List (File (List Nat)))
    (hnz : ∀ all, IsScan files all → ∀ f ∈ all, ∀ x y, x < 576 → y < 576 → stat (halfRow 576 (pixels f.pixels) x y) ≠ 0)
    (W H : Nat) (hscan : o.scan = (W, H) ∨ o.scan.1 = 0 ∨ o.scan.2 = 0) (hf : FilesOk files W H)
    (hr : FitsBytes files) (hfit : FilesFit files) (hthreads : 0 < o.threads) (ws : Nat) (hws : 0 < ws) (hN : ws ≤ o.numBlocks)
    {dims : Nat × Nat} {s : Nat → HState} {maps : Nat → ScanMap} {z : State (Rat × Rat × Rat)}
    (h : Exec o (bytesOf files) ws dims s maps z) {data : List (List (List Nat))} (hd : z.result = some data) :
    ∃ all S ev, Counted o files (fun optMean frame j => rowDarkFloat optMean o.dark gain
      (stat (halfRow 576 (pixels frame) (j % 576) (j / 576))) j (frame.getD j 0 : Nat)) all S ev ∧
      Results W H ⟨data, (W, H), (576, 576)⟩ all ev := by
  have R := mpiRecords hf hr hfit hthreads hws h
  have hs := withScan_scan hscan R.size.2
  obtain ⟨ls, _, hrun⟩ := R.counting hs
  obtain ⟨all, S, ev, c1, c2⟩ := C91_images_rowdark_partial (withScan o (W, H)) gain hg hgl hrd hstat hdark hbg files hnz W H hs hf R.size.1
    R.size.2 hfit.number hfit.length (fun f hfm r hrm => (hr f hfm r hrm).frameNumber) hthreads ws hws hN o.threads hthreads
    (fun r => recH (s r)) maps R.headers R.gather _ ⟨ls, hrun⟩ hd
  refine ⟨all, S, ev, c1.ofScan, ?_⟩
  rw [countedData, hs] at c2
  exact c2

/-- **C105** With the same thresholds the images do not depend on the number of ranks: those of one process (`C90_images`) and those of several
ranks, both from the bytes of the files, are equal. -/
theorem C105_same_images_partial (o : Setup) (hg : o.gain = none) (hrd : o.rowDark = none)
    (hdark : ∀ d, o.dark = some d → d.length = 576 * 576 ∧ ∀ r ∈ d, -1 < r ∧ r < 65536) (θ : Rat × Rat × Rat) (h0 : 0 ≤ θ.1)
    (hθ : ∀ S, o.thresholds S = θ)
    (files : List (File (List Nat))) (W H : Nat) (hscan : o.scan = (W, H)) (hf : FilesOk files W H)
    (hr : FitsBytes files) (hfit : FilesFit files) (hthreads : 0 < o.threads) (ws : Nat) (hws : 0 < ws) (hN : ws ≤ o.numBlocks)
    {dims1 : Nat × Nat} {s1 : HState} {z1 : ByteCounting.State (Rat × Rat × Rat)} (h1 : ByteCounting.Exec o (bytesOf files) dims1 s1 z1)
    {data1 : List (List (List Nat))} (hd1 : z1.counting.main = .done data1)
    {dims : Nat × Nat} {s : Nat → HState} {maps : Nat → ScanMap} {z : State (Rat × Rat × Rat)}
    (h : Exec o (bytesOf files) ws dims s maps z) {data : List (List (List Nat))} (hd : z.result = some data)
    (inner outer : List Int) (cx cy : Int) (hne : inner ≠ []) (hl : inner.length = outer.length)
    (hgeo : ∀ r ∈ inner.zip outer, GeometryOK 576 576 r.1 r.2 cx cy) :
    ∃ py py', PyImage.toPython ⟨data1, (W, H), (576, 576)⟩ = .ok py ∧ PyImage.toPython ⟨data, (W, H), (576, 576)⟩ = .ok py' ∧
      ∃ images, PyImage.createStemImages py inner outer (cx, cy) = .ok images ∧
        PyImage.createStemImages py' inner outer (cx, cy) = .ok images := by
  have hbg : ∀ S : List (List Nat), S.length = o.numBlocks → 0 ≤ (o.thresholds S).1 := fun S _ => by rw [hθ]; exact h0
  obtain ⟨all, S, ev, c1, r1⟩ := C90_images o hg hrd hdark hbg files W H (.inl hscan) hf hr hthreads h1 hd1
  obtain ⟨all', S', ev', c2, r2⟩ := C105_images_partial o hg hrd hdark hbg files W H (.inl hscan) hf hr hfit hthreads ws hws hN h hd
  have e : ∀ d, countedData o d = ⟨d, (W, H), (576, 576)⟩ := by intro d; rw [countedData, hscan]
  rw [← e] at r1 r2
  have := C85_same_images (fun f => Iff.rfl) rfl rfl rfl (by rw [hθ, hθ]) c1 c2 r1 r2 inner outer cx cy hne hl hgeo
  rwa [e, e] at this

/-! ### The execution -/

/-- **C105** The header pass of every rank over the bytes of its files does not get stuck, ... -/
theorem C105_headers_progress (files : List (File (List Nat))) (W H n ws r : Nat) (hsz : W * H ≤ 2 ^ 32) (hf : FilesOk files W H)
    (hr : FitsBytes files) (hrank : r < ws) {s : HState}
    (h : Reach (HStep (bytesOf files) (W * H) ((Mpi.share files.length ws r).1 + (Mpi.share files.length ws r).2))
      (hinit n (Mpi.share files.length ws r).1 (streamsOf (bytesOf files))) s)
    (hne : ∃ w ∈ s.workers, w ≠ .exited) :
    ∃ s', HStep (bytesOf files) (W * H) ((Mpi.share files.length ws r).1 + (Mpi.share files.length ws r).2) s () s' := by
  obtain ⟨ls, h⟩ := h
  obtain ⟨g1, I⟩ := hrun_rec (bytesOf_cut hr) h
  rw [toFile_bytesOf hr] at g1
  obtain ⟨w, hw, hwe⟩ := hne
  obtain ⟨hle, hd⟩ := distinct_share hf hrank
  obtain ⟨t, ht⟩ := C28_progress files (W * H) _ _ n hle hf.sectors (pos_lt hf hsz) hd ⟨_, g1⟩
    ⟨recW w, List.mem_map_of_mem hw, fun e => hwe (recW_exited.1 e)⟩
  rw [← toFile_bytesOf hr] at ht
  have := ByteCounting.hstep_progress I ht
  rwa [toFile_bytesOf hr] at this

/-- **C105** ... nothing undefined happens in it, and it ends: a bound on the number of steps. -/
theorem C105_headers_termination (files : List (File (List Nat))) (W H n ws r : Nat) (hn : 0 < n) (hsz : W * H ≤ 2 ^ 32) (hf : FilesOk files W H)
    (hr : FitsBytes files) (hrank : r < ws) {s : HState} {ls : List Unit}
    (h : Run (HStep (bytesOf files) (W * H) ((Mpi.share files.length ws r).1 + (Mpi.share files.length ws r).2))
      (hinit n (Mpi.share files.length ws r).1 (streamsOf (bytesOf files))) ls s) :
    s.ub = false ∧ ls.length ≤ 2 * n +
      ((files.drop (Mpi.share files.length ws r).1).map fun f => 2 * f.records.length + 3).sum := by
  obtain ⟨g1, I⟩ := hrun_rec (bytesOf_cut hr) h
  rw [toFile_bytesOf hr] at g1
  obtain ⟨hle, hd⟩ := distinct_share hf hrank
  refine ⟨(C28_index files (W * H) _ _ n hle hf.sectors (pos_lt hf hsz) hd hn ⟨_, g1⟩).1, ?_⟩
  exact C28_termination files (W * H) _ _ n hle hf.sectors (pos_lt hf hsz) hd g1

/-- No two frames are at one position: in terms of the places of the records. -/
private theorem one_frame {files : List (File (List Nat))} {W H : Nat} (hf : FilesOk files W H) (hle : W * H ≤ 2 ^ 32)
    (hone : ∀ x y n n' sec sec' r r', HasRecord files x y n sec r → HasRecord files x y n' sec' r' → n = n') :
    ∀ i j r i' j' r' p f f' sec sec', IsRecord files i j r p f sec → IsRecord files i' j' r' p f' sec' → f = f' := by
  have hrec : ∀ {i j r p f sec}, IsRecord files i j r p f sec → HasRecord files (p % W) (p / W) f sec r := by
    intro i j r p f sec h
    obtain ⟨file, h1, h2, h3, h4, h5⟩ := h
    have hm := List.mem_of_getElem? h1
    have hr := List.mem_of_getElem? h2
    have hW : 0 < W := Nat.lt_of_le_of_lt (Nat.zero_le _) (hf.scan file hm r hr).2.2.1
    refine (hasRecord_iff hf hle (Nat.mod_lt _ hW)).1 ⟨i, j, file, h1, h2, ?_, h4, h5⟩
    rw [Nat.mul_comm, Nat.div_add_mod]
    exact h3
  intro i j r i' j' r' p f f' sec sec' h h'
  exact hone _ _ _ _ _ _ _ _ (hrec h) (hrec h')

/-- **C105** No deadlock: as long as rank 0 has not returned, some thread of some rank can take a step (not counting spurious wake-ups), if the
positions of every rank have its number of complete frames. -/
theorem C105_progress (o : Setup) (files : List (File (List Nat))) (W H : Nat) (hscan : o.scan = (W, H) ∨ o.scan.1 = 0 ∨ o.scan.2 = 0)
    (hf : FilesOk files W H) (hr : FitsBytes files) (hfit : FilesFit files) (hthreads : 0 < o.threads) (ws : Nat) (hws : 0 < ws)
    (hN : ws ≤ o.numBlocks) {dims : Nat × Nat} {s : Nat → HState} {maps : Nat → ScanMap} {z : State (Rat × Rat × Rat)}
    (h : Exec o (bytesOf files) ws dims s maps z)
    (hC : ∀ r < ws, HasComplete files 0 files.length (firstPosition (W * H) ws r) (endPosition (W * H) ws r)
      (Mpi.sampleBlocksPerRank ws r o.numBlocks))
    (hub : ∀ r < ws, (z.ranks r).counting.ub = false) (hfail : z.failed = false) (hd : z.result = none) :
    ∃ l z', MpiBytes.Step (call (withScan o (W, H))) ws (W * H) maps z l z' ∧ isSpurious l = false ∧
      Exec o (bytesOf files) ws dims s maps z' := by
  have R := mpiRecords hf hr hfit hthreads hws h
  have hs := withScan_scan hscan R.size.2
  have hP := call_positions hs
  obtain ⟨ls, hrun0, hrun⟩ := R.counting hs
  have hlen : (bytesOf files).length = files.length := by simp [bytesOf]
  obtain ⟨l, y, hstep, hl⟩ := C91_progress (call (withScan o (W, H))) hthreads ws hws hN files maps _ R.index (by rw [hP]; exact hC)
    ⟨ls, hrun⟩ hub hfail hd
  have hidx : ∀ r < ws, IsIndex ((bytesOf files).map toFile) 0 (bytesOf files).length (maps r) := by
    rw [toFile_bytesOf hr, hlen]; exact R.index
  have I := (run_recs (bytesOf_whole hr) hidx hP R.init hrun0).2
  rw [← toFile_bytesOf hr] at hstep
  obtain ⟨z', g1, _⟩ := step_back (bytesOf_whole hr) hidx hP I hstep
  refine ⟨l, z', g1, hl, h.first, h.waited, h.gather, ?_⟩
  have hm : mapSize (W, H) = W * H := Nat.mod_eq_of_lt R.size.1
  rw [R.dims, hm]
  exact ⟨_, hrun0.snoc g1⟩

/-- **C105** Termination: the number of steps of the counting on all ranks together is bounded. -/
theorem C105_termination (o : Setup) (files : List (File (List Nat))) (W H : Nat) (hscan : o.scan = (W, H) ∨ o.scan.1 = 0 ∨ o.scan.2 = 0)
    (hf : FilesOk files W H) (hr : FitsBytes files) (hfit : FilesFit files) (hthreads : 0 < o.threads) (ws : Nat) (hws : 0 < ws)
    (hN : ws ≤ o.numBlocks) {dims : Nat × Nat} {s : Nat → HState} {maps : Nat → ScanMap} {z z' : State (Rat × Rat × Rat)}
    (h : Exec o (bytesOf files) ws dims s maps z) {ls : List Label}
    (hrun : Run (MpiBytes.Step (call (withScan o (W, H))) ws (W * H) maps)
      (MpiBytes.init (call (withScan o (W, H))) ws (W * H) fun r => rewound (s r).streams) ls z') :
    ls.length ≤ ((List.range ws).map fun r =>
      (o.threads + 35) * (MultiPass.frames (maps r) (firstPosition (W * H) ws r) (endPosition (W * H) ws r)).length +
        3 * (endPosition (W * H) ws r - firstPosition (W * H) ws r) + 4 * o.threads + 21).sum + ws + 2 + 2 * ls.countP isSpurious := by
  have R := mpiRecords hf hr hfit hthreads hws h
  have hs := withScan_scan hscan R.size.2
  have hP := call_positions hs
  have hlen : (bytesOf files).length = files.length := by simp [bytesOf]
  have hidx : ∀ r < ws, IsIndex ((bytesOf files).map toFile) 0 (bytesOf files).length (maps r) := by
    rw [toFile_bytesOf hr, hlen]; exact R.index
  have := C91_termination (call (withScan o (W, H))) hthreads ws hN _ maps _ (run_recs (bytesOf_whole hr) hidx hP R.init hrun).1
  have e : rankSteps (call (withScan o (W, H))) ws maps = fun r =>
      (o.threads + 35) * (MultiPass.frames (maps r) (firstPosition (W * H) ws r) (endPosition (W * H) ws r)).length +
        3 * (endPosition (W * H) ws r - firstPosition (W * H) ws r) + 4 * o.threads + 21 := by
    funext r
    rw [rankSteps, hP]
    rfl
  rwa [e] at this

/-- **C105** If no position has records of two frames, nothing undefined happens in the counting on any rank and all messages can be read, in
any schedule. -/
theorem C105_race_free (o : Setup) (files : List (File (List Nat))) (W H : Nat) (hscan : o.scan = (W, H) ∨ o.scan.1 = 0 ∨ o.scan.2 = 0)
    (hf : FilesOk files W H) (hr : FitsBytes files) (hfit : FilesFit files) (hthreads : 0 < o.threads) (ws : Nat) (hws : 0 < ws)
    (hN : ws ≤ o.numBlocks)
    (hone : ∀ x y n n' sec sec' r r', HasRecord files x y n sec r → HasRecord files x y n' sec' r' → n = n')
    {dims : Nat × Nat} {s : Nat → HState} {maps : Nat → ScanMap} {z : State (Rat × Rat × Rat)}
    (h : Exec o (bytesOf files) ws dims s maps z) : z.failed = false ∧ ∀ r < ws, (z.ranks r).counting.ub = false := by
  have R := mpiRecords hf hr hfit hthreads hws h
  have hs := withScan_scan hscan R.size.2
  have hP := call_positions hs
  have hle := Nat.le_of_lt R.size.1
  obtain ⟨ls, _, hrun⟩ := R.counting hs
  refine ⟨?_, fun r hr' => ?_⟩
  · exact C91_no_failure (call (withScan o (W, H))) hthreads ws hN files maps _ R.index
      ⟨by rw [hP]; exact hle, fun f hfm r hrm => (hr f hfm r hrm).frameNumber, call_events _⟩ ⟨ls, hrun⟩
  · exact C91_race_free_partial (call (withScan o (W, H))) hthreads ws hN files maps _ R.index (one_frame hf hle hone) ⟨ls, hrun⟩ hr'

/-- **C105** If the positions of one rank have fewer complete frames than its share of the samples, rank 0 never returns, however many
complete frames the others have. -/
theorem C105_hang (o : Setup) (files : List (File (List Nat))) (W H : Nat) (hscan : o.scan = (W, H) ∨ o.scan.1 = 0 ∨ o.scan.2 = 0)
    (hf : FilesOk files W H) (hr : FitsBytes files) (hfit : FilesFit files) (hthreads : 0 < o.threads) (ws : Nat)
    (hN : ws ≤ o.numBlocks) {r : Nat} (hrank : r < ws)
    (hC : ¬ HasComplete files 0 files.length (firstPosition (W * H) ws r) (endPosition (W * H) ws r)
      (Mpi.sampleBlocksPerRank ws r o.numBlocks))
    {dims : Nat × Nat} {s : Nat → HState} {maps : Nat → ScanMap} {z : State (Rat × Rat × Rat)}
    (h : Exec o (bytesOf files) ws dims s maps z) : z.result = none := by
  have R := mpiRecords hf hr hfit hthreads (by omega) h
  have hs := withScan_scan hscan R.size.2
  obtain ⟨ls, _, hrun⟩ := R.counting hs
  exact (C91_hang (call (withScan o (W, H))) hthreads ws hN files maps _ R.index hrank
    (by rw [call_positions hs]; exact hC) ⟨ls, hrun⟩).1

/-- **C105** With at least three ranks and fewer sample blocks than ranks, rank 0 never returns: rank 1 takes no sample and reads `sampleBlocks[0]`
(electron.cpp:742) of an empty vector. -/
theorem C105_few_samples_false (o : Setup) (files : List (File (List Nat))) (W H : Nat) (hscan : o.scan = (W, H) ∨ o.scan.1 = 0 ∨ o.scan.2 = 0)
    (hf : FilesOk files W H) (hr : FitsBytes files) (hfit : FilesFit files) (hthreads : 0 < o.threads) (ws : Nat) (hws : 3 ≤ ws)
    (hN : o.numBlocks < ws)
    {dims : Nat × Nat} {s : Nat → HState} {maps : Nat → ScanMap} {z : State (Rat × Rat × Rat)}
    (h : Exec o (bytesOf files) ws dims s maps z) : z.result = none := by
  have R := mpiRecords hf hr hfit hthreads (by omega) h
  obtain ⟨ls, _, hrun⟩ := R.counting (withScan_scan hscan R.size.2)
  exact (C91_few_samples_false (call (withScan o (W, H))) ws hws hN files maps _ ⟨ls, hrun⟩).1

/-- **C105** Files of which the first has a record, with at most one frame at a position, can be counted on `ws` ranks exactly if the
positions of every rank have as many complete frames as its share of the samples. -/
theorem C105_iff (o : Setup) (files : List (File (List Nat))) (W H : Nat) (hscan : o.scan = (W, H) ∨ o.scan.1 = 0 ∨ o.scan.2 = 0)
    (hf : FilesOk files W H) (hr : FitsBytes files) (hfit : FilesFit files) (hthreads : 0 < o.threads) (ws : Nat) (hws : 0 < ws)
    (hN : ws ≤ o.numBlocks) (hfirst : ∃ f, files[0]? = some f ∧ f.records ≠ [])
    (hone : ∀ x y n n' sec sec' r r', HasRecord files x y n sec r → HasRecord files x y n' sec' r' → n = n') :
    (∃ dims s maps z data, Exec o (bytesOf files) ws dims s maps z ∧ z.result = some data) ↔
      ∀ r < ws, HasComplete files 0 files.length (firstPosition (W * H) ws r) (endPosition (W * H) ws r)
        (Mpi.sampleBlocksPerRank ws r o.numBlocks) := by
  constructor
  · rintro ⟨dims, s, maps, z, data, h, hd⟩ r hrank
    by_contra hC
    rw [C105_hang o files W H hscan hf hr hfit hthreads ws hN hrank hC h] at hd
    cases hd
  intro hC
  obtain ⟨f, hf0, hne⟩ := hfirst
  have h16 : 16 ≤ (content (bytesOf files) 0).length := by
    have hc : content (bytesOf files) 0 = encodeRecords f.records := by simp [content, bytesOf, hf0]
    rw [hc]
    cases hrs : f.records with
    | nil => exact absurd hrs hne
    | cons r rest => exact encodeRecords_ge (hr f (List.mem_of_getElem? hf0) r (by simp [hrs]))
  have h1 := SectorStreams.C83_first_header (content (bytesOf files) 0) h16
  obtain ⟨hdims, hst, hsz, hpos⟩ := first_record hf hr (st := opened (content (bytesOf files) 0)) h1
  have hle := Nat.le_of_lt hsz
  have hlen : (bytesOf files).length = files.length := by simp [bytesOf]
  have hs := withScan_scan hscan hpos
  have hP := call_positions hs
  have hm : mapSize (W, H) = W * H := Nat.mod_eq_of_lt hsz
  have hhead : ∀ r : Nat, ∃ s : HState, r < ws →
      Reach (HStep (bytesOf files) (W * H) ((Mpi.share files.length ws r).1 + (Mpi.share files.length ws r).2))
        (hinit o.threads (Mpi.share files.length ws r).1 (streamsOf (bytesOf files))) s ∧ ∀ w ∈ s.workers, w = .exited := fun r =>
    if hrank : r < ws then by
      obtain ⟨s, h2, h3⟩ := Reach.exists_final
        (st := HStep (bytesOf files) (W * H) ((Mpi.share files.length ws r).1 + (Mpi.share files.length ws r).2))
        (s := hinit o.threads (Mpi.share files.length ws r).1 (streamsOf (bytesOf files))) (final := fun s => ∀ w ∈ s.workers, w = .exited)
        (n := 2 * o.threads + ((files.drop (Mpi.share files.length ws r).1).map fun f => 2 * f.records.length + 3).sum)
        (by
          intro t ht hne
          obtain ⟨u, hu⟩ := C105_headers_progress files W H o.threads ws r hle hf hr hrank ht (by simpa using hne)
          exact ⟨(), u, hu⟩)
        (fun ls t h => (C105_headers_termination files W H o.threads ws r hthreads hle hf hr hrank h).2)
      exact ⟨s, fun _ => ⟨h2, h3⟩⟩
    else ⟨hinit 0 0 (streamsOf (bytesOf files)), fun h => absurd h hrank⟩
  obtain ⟨s, hs'⟩ := Classical.axiomOfChoice hhead
  have headers : ∀ r < ws, Reach (MultiPass.HStep files (W * H) ((Mpi.share files.length ws r).1 + (Mpi.share files.length ws r).2))
      (MultiPass.hinit o.threads (Mpi.share files.length ws r).1) (recH (s r)) ∧ ∀ w ∈ (recH (s r)).workers, w = .exited := by
    intro r hrank
    obtain ⟨⟨ls, h2⟩, h3⟩ := hs' r hrank
    obtain ⟨g1, _⟩ := hrun_rec (bytesOf_cut hr) h2
    rw [toFile_bytesOf hr] at g1
    refine ⟨⟨_, g1⟩, ?_⟩
    intro w hw
    obtain ⟨v, hv, rfl⟩ := List.mem_map.1 hw
    exact recW_exited.2 (h3 v hv)
  have init : ∀ r < ws, rewound (s r).streams = streamsOf (bytesOf files) := by
    intro r hrank
    obtain ⟨⟨ls, h2⟩, _⟩ := hs' r hrank
    exact rewound_eq (hrun_rec (bytesOf_cut hr) h2).2
  have hsend := sendable hf hr hfit hle
  have hgather : ∀ me, ∃ map, me < ws → Mpi.gatherScanMap ((List.range ws).map fun r => (recH (s r)).map) (W * H) me = .ok map := fun me =>
    if hme : me < ws then by
      obtain ⟨res, h2, _⟩ := C35_index files (W * H) ws me ((List.range ws).map fun r => (recH (s r)).map) (by simp) hme hsend hf.once (by
        intro r m hm
        rw [List.getElem?_map, Option.map_eq_some_iff] at hm
        obtain ⟨k, hk, rfl⟩ := hm
        obtain ⟨hlt, rfl⟩ := List.getElem?_eq_some_iff.1 hk
        rw [List.length_range] at hlt
        simp only [List.getElem_range]
        obtain ⟨h2, h3⟩ := hs' r hlt
        obtain ⟨hle', hd⟩ := distinct_share hf hlt
        exact (C28_index files (W * H) _ _ o.threads hle' hf.sectors (pos_lt hf hle) hd hthreads (headers r hlt).1).2 (headers r hlt).2)
      exact ⟨res, fun _ => h2⟩
    else ⟨fun _ => [], fun h => absurd h hme⟩
  obtain ⟨maps, gather⟩ := Classical.axiomOfChoice hgather
  have index := C35_merged files (W * H) ws o.threads hthreads hws hsend hf.once (fun r => recH (s r)) maps headers gather
  obtain ⟨y, data, ⟨ls, hy⟩, hd⟩ := C91_returns (call (withScan o (W, H))) hthreads ws hws hN files (by rw [hP]; exact hsend) hf.once
    (call_events _) (one_frame hf hle hone) (by rw [hP]; exact hC) o.threads hthreads (fun r => recH (s r)) maps (by rw [hP]; exact headers)
    (by rw [hP]; exact gather) (fun r i => (rewound (s r).streams i).pos)
  rw [← toFile_bytesOf hr] at hy
  obtain ⟨z, hz, rfl⟩ := run_back (K := call (withScan o (W, H))) (size := W * H) (bytesOf_whole hr)
    (by rw [toFile_bytesOf hr, hlen]; exact index) hP init hy
  refine ⟨(W, H), s, maps, z, data, ⟨?_, ?_, ?_, ?_⟩, hd⟩
  · intro r hrank
    refine ⟨_, _, h1.trans (by rw [← hdims]), ?_⟩
    rw [hst, update_same, hm, hlen]
    exact (hs' r hrank).1
  · intro r hrank
    obtain ⟨⟨ls, h2⟩, h3⟩ := hs' r hrank
    exact ⟨(C105_headers_termination files W H o.threads ws r hthreads hle hf hr hrank h2).1, h3⟩
  · intro r hrank
    rw [hm]
    exact gather r hrank
  · rw [hm]
    exact ⟨ls, hz⟩

/-! ### Example -/

private theorem rank_bytes : FitsBytes rankFiles := by
  have hlen : ∀ v, (brightSector v).length = 144 * 576 := by
    intro v
    rw [brightSector, List.length_append, List.length_cons, List.length_replicate, List.length_replicate]
  have hpix : ∀ v < 256 ^ 2, ∀ u ∈ brightSector v, u < 256 ^ 2 := by
    intro v hv u hu
    rw [brightSector, List.mem_append, List.mem_cons] at hu
    rcases hu with hu | rfl | hu
    · rw [List.eq_of_mem_replicate hu]; decide
    · exact hv
    · rw [List.eq_of_mem_replicate hu]; decide
  have key : ∀ n x v, n < 256 → x < 256 → v < 256 → RecordOk ⟨1, n, 2, 1, x, 0, brightSector v⟩ := by
    intro n x v hn hx hv
    exact ⟨show 1 < 256 ^ 4 by decide, show n < 256 ^ 4 by omega, show 2 < 256 ^ 2 by decide, show 1 < 256 ^ 2 by decide,
      show x < 256 ^ 2 by omega, show 0 < 256 ^ 2 by decide, hlen v,
      hpix v (by omega)⟩
  intro f hf r hr
  obtain ⟨s, hs, rfl⟩ := List.mem_map.1 hf
  have hs := List.mem_range.1 hs
  simp only [List.mem_cons, List.not_mem_nil, or_false] at hr
  rcases hr with rfl | rfl <;> exact key _ _ _ (by decide) (by decide) (by omega)

private theorem rank_fit : FilesFit rankFiles := by
  refine ⟨?_, ?_⟩
  · rw [rankFiles, List.length_map, List.length_range]
    decide
  · intro f hf
    obtain ⟨s, hs, rfl⟩ := List.mem_map.1 hf
    exact (by decide : 2 * recordSize < 2 ^ 63)

private theorem rank_one (x y n n' sec sec' : Nat) (r r' : SectorReader.Rec (List Nat)) (h : HasRecord rankFiles x y n sec r)
    (h' : HasRecord rankFiles x y n' sec' r') : n = n' := by
  have hx : ∀ {n sec r}, HasRecord rankFiles x y n sec r → x < 2 := by
    rintro n sec r ⟨f, hf, hr, _, rfl, _, _⟩
    exact (rank_ok.scan f hf r hr).2.2.1
  obtain ⟨i, j, g⟩ := (hasRecord_iff rank_ok (by decide) (hx h)).2 h
  obtain ⟨i', j', g'⟩ := (hasRecord_iff rank_ok (by decide) (hx h')).2 h'
  have g1 := rank_records g
  have g2 := rank_records g'
  omega

/-- The hypotheses can be met: the bytes of the four files are counted on two ranks, the size of the scan taken from the first header. -/
example : ∃ dims s maps z data, Exec { rankSetup with scan := (0, 0) } (bytesOf rankFiles) 2 dims s maps z ∧ z.result = some data ∧
    ∃ all S ev, Counted { rankSetup with scan := (0, 0) } rankFiles (fun _ => u16StreamValue none) all S ev ∧
      Results 2 1 ⟨data, (2, 1), (576, 576)⟩ all ev := by
  obtain ⟨dims, s, maps, z, data, h, hd⟩ := (C105_iff { rankSetup with scan := (0, 0) } rankFiles 2 1 (.inr (.inl rfl)) rank_ok rank_bytes
    rank_fit (by decide) 2 (by decide) (by decide) ⟨_, rfl, by simp⟩ rank_one).2 (by
      intro r hr
      have : r = 0 ∨ r = 1 := by omega
      rcases this with rfl | rfl
      · refine ⟨[(0, 7)], by simp, by decide, ?_⟩
        intro x hx
        obtain rfl := List.mem_singleton.1 hx
        exact ⟨by decide, by decide, rank_complete 0 7 (by omega)⟩
      · refine ⟨[(1, 8)], by simp, by decide, ?_⟩
        intro x hx
        obtain rfl := List.mem_singleton.1 hx
        exact ⟨by decide, by decide, rank_complete 1 8 (by omega)⟩)
  exact ⟨dims, s, maps, z, data, h, hd, C105_images_partial { rankSetup with scan := (0, 0) } rfl rfl (by intro d hd; cases hd)
    (by intro S _; show (0 : Rat) ≤ 10; decide) rankFiles 2 1 (.inr (.inl rfl)) rank_ok rank_bytes rank_fit (by decide) 2 (by decide) (by decide)
    h hd⟩

end Stempy.Props
