import Verif.Lemmas.ByteCounting
import Verif.Props.Backends

/-!
C90: from the bytes of sector files to STEM images.
-/

namespace Stempy.Props
open Stempy.Spec Stempy.ByteCounting
open Stempy.SectorReader (Rec Reads create version5)
open Stempy.SectorFile (headerSize parse record field)
open Stempy.SectorStreams (Whole toFile content opened readFirstHeader)
open Stempy.MultiPass (File recordSize)
open Stempy.EndToEnd (Setup call countedData)
open Stempy.CountingReader (Label)
open Stempy.Electron (CountOptions)

/-- The bytes of sector files. -/
def bytesOf (files : List (File (List Nat))) : List (Nat × List UInt8) := files.map fun f => (f.sector, encodeRecords f.records)

/-- The values of all records fit into their bytes. -/
def FitsBytes (files : List (File (List Nat))) : Prop := ∀ f ∈ files, ∀ r ∈ f.records, RecordOk r

private theorem encodeRecords_whole {rs : List (Rec (List Nat))} (h : ∀ r ∈ rs, RecordOk r) : Whole (encodeRecords rs) := by
  induction rs with
  | nil => rfl
  | cons r rs ih =>
    have e : (encodeRecord r).length = recordSize := by rw [encodeRecord_length, (h r (by simp)).size]; rfl
    have := ih fun r hr => h r (by simp [hr])
    simp only [Whole] at this ⊢
    rw [show encodeRecords (r :: rs) = encodeRecord r ++ encodeRecords rs from rfl, List.length_append, e, Nat.add_mod_left]
    exact this

theorem encodeRecords_ge {r : Rec (List Nat)} {rs : List (Rec (List Nat))} (h : RecordOk r) : 16 ≤ (encodeRecords (r :: rs)).length := by
  have e : (encodeRecord r).length = recordSize := by rw [encodeRecord_length, h.size]; rfl
  rw [show encodeRecords (r :: rs) = encodeRecord r ++ encodeRecords rs from rfl, List.length_append, e]
  simp only [recordSize, headerSize]
  omega

private theorem parse_encode {rs : List (Rec (List Nat))} (h : ∀ r ∈ rs, RecordOk r) : parse (encodeRecords rs) = (rs, false) := by
  have := C60_round_trip rs h []
  simpa [SectorStreams.parse_nil] using this

theorem toFile_bytesOf {files : List (File (List Nat))} (h : FitsBytes files) : (bytesOf files).map toFile = files := by
  rw [bytesOf, List.map_map]
  conv_rhs => rw [← List.map_id files]
  refine List.map_congr_left fun f hf => ?_
  simp only [Function.comp, toFile, parse_encode (h f hf), id]

theorem bytesOf_whole {files : List (File (List Nat))} (h : FitsBytes files) : ∀ x ∈ bytesOf files, Whole x.2 := by
  intro x hx
  obtain ⟨f, hf, rfl⟩ := List.mem_map.1 hx
  exact encodeRecords_whole (h f hf)

theorem bytesOf_cut {files : List (File (List Nat))} (h : FitsBytes files) : ∀ x ∈ bytesOf files, (parse x.2).2 = false := by
  intro x hx
  obtain ⟨f, hf, rfl⟩ := List.mem_map.1 hx
  simp only [parse_encode (h f hf)]

/-! ### Executions on bytes and on records -/

/-- What an execution on bytes is on the records. -/
private structure OnRecords (o : Setup) (files : List (File (List Nat))) (W H : Nat) (dims : Nat × Nat) (s : HState)
    (z : State (Rat × Rat × Rat)) : Prop where
  dims : dims = (W, H)
  size : W * H < 2 ^ 32 ∧ 0 < W * H
  headers : Reach (MultiPass.HStep files (W * H) files.length) (MultiPass.hinit o.threads 0) (recH s)
  waited : ∀ w ∈ (recH s).workers, w = .exited
  index : IsIndex files 0 files.length s.map
  init : rewound s.streams = streamsOf (bytesOf files)
  counting : 0 < o.threads → ∃ ls, Run (Step (call (withScan o (W, H))) s.map (W * H))
      (ByteCounting.init (call (withScan o (W, H))) 0 (streamsOf (bytesOf files))) ls z ∧
    Run (CountingReader.Step (call (withScan o (W, H))) files s.map (W * H))
      (CountingReader.init (call (withScan o (W, H))) 0 fun _ => 0) ls (recsC z)

theorem first_record {files : List (File (List Nat))} {W H : Nat} (hf : FilesOk files W H) (hr : FitsBytes files)
    {dims : Nat × Nat} {number : Nat} {st : SectorStreams.IStream}
    (h : readFirstHeader (streamsOf (bytesOf files) 0) = .ok (dims, number, st)) :
    dims = (W, H) ∧ st = streamsOf (bytesOf files) 0 ∧ W * H < 2 ^ 32 ∧ 0 < W * H := by
  have e : streamsOf (bytesOf files) 0 = opened (content (bytesOf files) 0) := rfl
  rw [e] at h ⊢
  by_cases h16 : 16 ≤ (content (bytesOf files) 0).length
  · rw [SectorStreams.C83_first_header _ h16] at h
    simp only [Outcome.ok.injEq, Prod.mk.injEq] at h
    obtain ⟨rfl, rfl, rfl⟩ := h
    cases hfs : files with
    | nil => subst hfs; simp [bytesOf, content] at h16
    | cons f rest =>
      have hfm : f ∈ files := by simp [hfs]
      have hc : content (bytesOf (f :: rest)) 0 = encodeRecords f.records := by simp [content, bytesOf]
      rw [hfs, hc] at h16
      rw [hc]
      have hp := parse_encode (hr f hfm)
      rw [SectorStreams.parse_long h16] at hp
      have hr0 : record (encodeRecords f.records) ∈ f.records := by
        have := congrArg Prod.fst hp
        simp only at this
        have h0 : record (encodeRecords f.records) ∈
            record (encodeRecords f.records) :: (parse (List.drop recordSize (encodeRecords f.records))).1 := List.mem_cons_self
        rwa [this] at h0
      obtain ⟨i1, i2, i3, i4⟩ := hf.scan f hfm _ hr0
      have hw := (hr f hfm _ hr0).width
      have hh := (hr f hfm _ hr0).height
      refine ⟨by rw [← i1, ← i2]; rfl, rfl, ?_, ?_⟩
      · rw [i1] at hw
        rw [i2] at hh
        have : W * H ≤ (256 ^ 2 - 1) * (256 ^ 2 - 1) := Nat.mul_le_mul (by omega) (by omega)
        omega
      · exact Nat.mul_pos (by omega) (by omega)
  · rw [SectorStreams.C83_first_header_false _ (by omega)] at h
    cases h

theorem update_same {α : Type} (f : Nat → α) (i : Nat) : MultiPass.update f i (f i) = f := by
  funext k
  by_cases h : k = i <;> simp [MultiPass.update, h]

theorem pos_lt {files : List (File (List Nat))} {W H : Nat} (hf : FilesOk files W H) (hle : W * H ≤ 2 ^ 32) :
    ∀ f ∈ files, ∀ r ∈ f.records, r.pos < W * H := by
  intro f hfm r hr
  have hin := hf.scan f hfm r hr
  rw [(pos_coordinates (y := r.y) hin hle hin.2.2.1).2 ⟨rfl, rfl⟩]
  exact flat_lt hin.2.2.1 hin.2.2.2

private theorem onRecords {o : Setup} {files : List (File (List Nat))} {W H : Nat} (hf : FilesOk files W H) (hr : FitsBytes files)
    (hthreads : 0 < o.threads) {dims : Nat × Nat} {s : HState} {z : State (Rat × Rat × Rat)} (h : Exec o (bytesOf files) dims s z) :
    OnRecords o files W H dims s z := by
  obtain ⟨⟨number, st, h1, h2⟩, ⟨hub, hex⟩, h3⟩ := h
  obtain ⟨rfl, rfl, hsz, hpos⟩ := first_record hf hr h1
  rw [update_same, Nat.mod_eq_of_lt hsz] at h2
  rw [Nat.mod_eq_of_lt hsz] at h3
  obtain ⟨ls, h2⟩ := h2
  have hlen : (bytesOf files).length = files.length := by simp [bytesOf]
  obtain ⟨g1, I⟩ := hrun_rec (bytesOf_cut hr) h2
  rw [toFile_bytesOf hr, hlen] at g1
  have hex' : ∀ w ∈ (recH s).workers, w = .exited := by
    intro w hw
    obtain ⟨v, hv, rfl⟩ := List.mem_map.1 hw
    exact recW_exited.2 (hex v hv)
  have hidx : IsIndex files 0 files.length s.map := (C28_index files (W * H) 0 files.length o.threads (Nat.le_refl _) hf.sectors
    (pos_lt hf (Nat.le_of_lt hsz)) hf.once hthreads ⟨_, g1⟩).2 hex'
  rw [rewound_eq I] at h3
  obtain ⟨ls', h3⟩ := h3
  refine ⟨rfl, ⟨hsz, hpos⟩, ⟨_, g1⟩, hex', hidx, rewound_eq I, fun hn => ⟨ls', h3, ?_⟩⟩
  have := (run_recs (K := call (withScan o (W, H))) (files := bytesOf files) (flo := 0) (fhi := files.length) hn (bytesOf_whole hr)
    (by rw [toFile_bytesOf hr]; exact hidx) h3).1
  rwa [toFile_bytesOf hr] at this

theorem withScan_scan {o : Setup} {W H : Nat} (hscan : o.scan = (W, H) ∨ o.scan.1 = 0 ∨ o.scan.2 = 0) (hpos : 0 < W * H) :
    (withScan o (W, H)).scan = (W, H) := by
  simp only [withScan]
  rcases hscan with h | h
  · split
    · rfl
    · exact h
  · rw [if_pos h]

theorem Counted.ofScan {o : Setup} {d : Nat × Nat} {files : List (File (List Nat))} {value : Rat → List Nat → Nat → Rat}
    {all S : List ScanFrame} {ev : ScanFrame → List Nat} (h : Counted (withScan o d) files value all S ev) : Counted o files value all S ev :=
  ⟨h.scan, h.samples, h.sub, h.complete, h.counted, h.events⟩

/-! ### The images -/

/-- **C90** Counting with the multi-pass reader from the bytes of the files (without gain and row dark correction, with or without dark
reference): when `electronCount` returns, the images computed from the data, also after saving and loading them, are those of the
frames whose records were written to the files. For all contents of the files, numbers of threads and schedules of the header pass and
of the counting. The size of the scan is that of the first header. -/
theorem C90_images (o : Setup) (hg : o.gain = none) (hrd : o.rowDark = none)
    (hdark : ∀ d, o.dark = some d → d.length = 576 * 576 ∧ ∀ r ∈ d, -1 < r ∧ r < 65536)
    (hbg : ∀ S : List (List Nat), S.length = o.numBlocks → 0 ≤ (o.thresholds S).1)
    (files : List (File (List Nat))) (W H : Nat) (hscan : o.scan = (W, H) ∨ o.scan.1 = 0 ∨ o.scan.2 = 0) (hf : FilesOk files W H)
    (hr : FitsBytes files) (hthreads : 0 < o.threads) {dims : Nat × Nat} {s : HState} {z : State (Rat × Rat × Rat)}
    (h : Exec o (bytesOf files) dims s z) {data : List (List (List Nat))} (hd : z.counting.main = .done data) :
    ∃ all S ev, Counted o files (fun _ => u16StreamValue o.dark) all S ev ∧ Results W H ⟨data, (W, H), (576, 576)⟩ all ev := by
  have R := onRecords hf hr hthreads h
  have hs := withScan_scan hscan R.size.2
  obtain ⟨ls, _, hrun⟩ := R.counting hthreads
  obtain ⟨all, S, ev, c1, c2⟩ := C85_images (withScan o (W, H)) hg hrd hdark hbg files W H hs hf R.size.1 R.size.2 hthreads o.threads hthreads
    R.headers R.waited _ ⟨ls, hrun⟩ hd
  refine ⟨all, S, ev, c1.ofScan, ?_⟩
  rw [countedData, hs] at c2
  exact c2

/-- **C90** The same with a gain. -/
theorem C90_images_gain (o : Setup) (gain : List Rat) (hg : o.gain = some gain) (hgl : gain.length = 576 * 576)
    (hrd : o.rowDark = none) (hdark : ∀ d, o.dark = some d → d.length = 576 * 576)
    (hbg : ∀ S : List (List Nat), S.length = o.numBlocks → 0 ≤ (o.thresholds S).1)
    (files : List (File (List Nat))) (W H : Nat) (hscan : o.scan = (W, H) ∨ o.scan.1 = 0 ∨ o.scan.2 = 0) (hf : FilesOk files W H)
    (hr : FitsBytes files) (hthreads : 0 < o.threads) {dims : Nat × Nat} {s : HState} {z : State (Rat × Rat × Rat)}
    (h : Exec o (bytesOf files) dims s z) {data : List (List (List Nat))} (hd : z.counting.main = .done data) :
    ∃ all S ev, Counted o files (fun _ => floatValue o.dark gain) all S ev ∧ Results W H ⟨data, (W, H), (576, 576)⟩ all ev := by
  have R := onRecords hf hr hthreads h
  have hs := withScan_scan hscan R.size.2
  obtain ⟨ls, _, hrun⟩ := R.counting hthreads
  obtain ⟨all, S, ev, c1, c2⟩ := C85_images_gain (withScan o (W, H)) gain hg hgl hrd hdark hbg files W H hs hf R.size.1 R.size.2 hthreads
    o.threads hthreads R.headers R.waited _ ⟨ls, hrun⟩ hd
  refine ⟨all, S, ev, c1.ofScan, ?_⟩
  rw [countedData, hs] at c2
  exact c2

/-- **C90** The same with a gain and row dark correction, if no half row of a frame has the statistic zero. -/
theorem C90_images_rowdark (o : Setup) (gain : List Rat) (hg : o.gain = some gain) (hgl : gain.length = 576 * 576)
    {statFunc : List Rat → Outcome (Option Rat)} {stat : List Rat → Rat} (hrd : o.rowDark = some statFunc)
    (hstat : ∀ l, l ≠ [] → statFunc l = .ok (some (stat l))) (hdark : ∀ d, o.dark = some d → d.length = 576 * 576)
    (hbg : ∀ S : List (List Nat), S.length = o.numBlocks → 0 ≤ (o.thresholds S).1) (files : List (File (List Nat)))
    (hnz : ∀ all, IsScan files all → ∀ f ∈ all, ∀ x y, x < 576 → y < 576 → stat (halfRow 576 (pixels f.pixels) x y) ≠ 0)
    (W H : Nat) (hscan : o.scan = (W, H) ∨ o.scan.1 = 0 ∨ o.scan.2 = 0) (hf : FilesOk files W H)
    (hr : FitsBytes files) (hthreads : 0 < o.threads) {dims : Nat × Nat} {s : HState} {z : State (Rat × Rat × Rat)}
    (h : Exec o (bytesOf files) dims s z) {data : List (List (List Nat))} (hd : z.counting.main = .done data) :
    ∃ all S ev, Counted o files (fun optMean frame j => rowDarkFloat optMean o.dark gain
      (stat (halfRow 576 (pixels frame) (j % 576) (j / 576))) j (frame.getD j 0 : Nat)) all S ev ∧
      Results W H ⟨data, (W, H), (576, 576)⟩ all ev := by
  have R := onRecords hf hr hthreads h
  have hs := withScan_scan hscan R.size.2
  obtain ⟨ls, _, hrun⟩ := R.counting hthreads
  obtain ⟨all, S, ev, c1, c2⟩ := C85_images_rowdark (withScan o (W, H)) gain hg hgl hrd hstat hdark hbg files hnz W H hs hf R.size.1
    R.size.2 hthreads o.threads hthreads R.headers R.waited _ ⟨ls, hrun⟩ hd
  refine ⟨all, S, ev, c1.ofScan, ?_⟩
  rw [countedData, hs] at c2
  exact c2

/-! ### The execution -/

/-- **C90** The header pass over the bytes does not get stuck, ... -/
theorem C90_headers_progress (files : List (File (List Nat))) (W H n : Nat) (hsz : W * H ≤ 2 ^ 32) (hf : FilesOk files W H)
    (hr : FitsBytes files) {s : HState}
    (h : Reach (HStep (bytesOf files) (W * H) files.length) (hinit n 0 (streamsOf (bytesOf files))) s)
    (hne : ∃ w ∈ s.workers, w ≠ .exited) : ∃ s', HStep (bytesOf files) (W * H) files.length s () s' := by
  obtain ⟨ls, h⟩ := h
  obtain ⟨g1, I⟩ := hrun_rec (bytesOf_cut hr) h
  rw [toFile_bytesOf hr] at g1
  obtain ⟨w, hw, hwe⟩ := hne
  obtain ⟨t, ht⟩ := C28_progress files (W * H) 0 files.length n (Nat.le_refl _) hf.sectors (pos_lt hf hsz) hf.once ⟨_, g1⟩
    ⟨recW w, List.mem_map_of_mem hw, fun e => hwe (recW_exited.1 e)⟩
  rw [← toFile_bytesOf hr] at ht
  have := hstep_progress I ht
  rwa [toFile_bytesOf hr] at this

/-- **C90** ... nothing undefined happens in it, and it ends: a bound on the number of steps. -/
theorem C90_headers_termination (files : List (File (List Nat))) (W H n : Nat) (hn : 0 < n) (hsz : W * H ≤ 2 ^ 32) (hf : FilesOk files W H)
    (hr : FitsBytes files) {s : HState} {ls : List Unit}
    (h : Run (HStep (bytesOf files) (W * H) files.length) (hinit n 0 (streamsOf (bytesOf files))) ls s) :
    s.ub = false ∧ ls.length ≤ 2 * n + (files.map fun f => 2 * f.records.length + 3).sum := by
  obtain ⟨g1, I⟩ := hrun_rec (bytesOf_cut hr) h
  rw [toFile_bytesOf hr] at g1
  refine ⟨(C28_index files (W * H) 0 files.length n (Nat.le_refl _) hf.sectors (pos_lt hf hsz) hf.once hn ⟨_, g1⟩).1, ?_⟩
  exact C28_termination files (W * H) 0 files.length n (Nat.le_refl _) hf.sectors (pos_lt hf hsz) hf.once g1

/-- **C90** No deadlock: as long as `electronCount` has not returned, some thread can take a step (not counting spurious wake-ups), if
the files have the requested number of complete frames. -/
theorem C90_progress (o : Setup) (files : List (File (List Nat))) (W H : Nat) (hf : FilesOk files W H) (hr : FitsBytes files)
    (hthreads : 0 < o.threads) {dims : Nat × Nat} {s : HState} {z : State (Rat × Rat × Rat)} (h : Exec o (bytesOf files) dims s z)
    (hub : z.counting.ub = false) (hN : HasComplete files 0 files.length 0 (W * H) o.numBlocks) (hd : ∀ data, z.counting.main ≠ .done data) :
    ∃ l z', Step (call (withScan o (W, H))) s.map (W * H) z l z' ∧ l ≠ .count .spurious ∧ Exec o (bytesOf files) dims s z' := by
  have R := onRecords hf hr hthreads h
  obtain ⟨ls, hrun0, hrun⟩ := R.counting hthreads
  obtain ⟨l, y, hstep, hl⟩ := C82_progress (call (withScan o (W, H))) hthreads files s.map 0 files.length 0 (W * H) _ R.index ⟨ls, hrun⟩ hub hN hd
  have hidx : IsIndex ((bytesOf files).map toFile) 0 files.length s.map := by rw [toFile_bytesOf hr]; exact R.index
  have hC := (run_recs (K := call (withScan o (W, H))) hthreads (bytesOf_whole hr) hidx hrun0).2
  have hP := pinv_counting (K := call (withScan o (W, H))) hthreads hrun
  rw [← toFile_bytesOf hr] at hstep hP
  obtain ⟨z', g1, _⟩ := stepC_back (lo := 0) (bytesOf_whole hr) hidx hC hP hstep
  refine ⟨l, z', g1, hl, h.first, h.waited, ?_⟩
  rw [R.dims, Nat.mod_eq_of_lt R.size.1, R.init]
  exact ⟨_, hrun0.snoc g1⟩

/-- **C90** Termination: the number of steps of the counting is bounded. -/
theorem C90_termination (o : Setup) (files : List (File (List Nat))) (W H : Nat) (hf : FilesOk files W H) (hr : FitsBytes files)
    (hthreads : 0 < o.threads) {dims : Nat × Nat} {s : HState} {z : State (Rat × Rat × Rat)} (h : Exec o (bytesOf files) dims s z)
    {ls : List Label} {z' : State (Rat × Rat × Rat)}
    (hrun : Run (Step (call (withScan o (W, H))) s.map (W * H)) (ByteCounting.init (call (withScan o (W, H))) 0 (rewound s.streams)) ls z') :
    ls.length ≤ (o.threads + 35) * (MultiPass.frames s.map 0 (W * H)).length + 3 * (W * H) + 4 * o.threads + 21 +
      2 * ls.count (.count .spurious) := by
  have R := onRecords hf hr hthreads h
  rw [R.init] at hrun
  have hidx : IsIndex ((bytesOf files).map toFile) 0 files.length s.map := by rw [toFile_bytesOf hr]; exact R.index
  have h1 := (run_recs (K := call (withScan o (W, H))) hthreads (bytesOf_whole hr) hidx hrun).1
  have h2 := C82_termination (call (withScan o (W, H))) hthreads _ s.map 0 (W * H) _ h1
  have e : (call (withScan o (W, H))).threads = o.threads := rfl
  rw [e] at h2
  generalize (MultiPass.frames s.map 0 (W * H)).length = m at h2 ⊢
  have e1 : (o.threads + 35) * m = (o.threads + 21) * m + 14 * m := by rw [← Nat.add_mul]
  omega

/-- **C90** If no position has records of two frames nothing undefined happens in the counting, in any schedule (with several frames at a
position there are executions with a data race, `C82_race_false`). -/
theorem C90_race_free (o : Setup) (files : List (File (List Nat))) (W H : Nat) (hscan : o.scan = (W, H) ∨ o.scan.1 = 0 ∨ o.scan.2 = 0)
    (hf : FilesOk files W H) (hr : FitsBytes files) (hthreads : 0 < o.threads)
    (hone : ∀ x y n n' sec sec' r r', HasRecord files x y n sec r → HasRecord files x y n' sec' r' → n = n') (hN : 0 < o.numBlocks)
    {dims : Nat × Nat} {s : HState} {z : State (Rat × Rat × Rat)} (h : Exec o (bytesOf files) dims s z) : z.counting.ub = false := by
  have R := onRecords hf hr hthreads h
  have hs := withScan_scan hscan R.size.2
  have hle := Nat.le_of_lt R.size.1
  obtain ⟨ls, _, hrun⟩ := R.counting hthreads
  have hrec : ∀ {i j r p f sec}, IsRecord files i j r p f sec → HasRecord files (p % W) (p / W) f sec r := by
    intro i j r p f sec h
    obtain ⟨file, h1, h2, h3, h4, h5⟩ := h
    have hm := List.mem_of_getElem? h1
    have hr := List.mem_of_getElem? h2
    have hW : 0 < W := Nat.lt_of_le_of_lt (Nat.zero_le _) (hf.scan file hm r hr).2.2.1
    refine (hasRecord_iff hf hle (Nat.mod_lt _ hW)).1 ⟨i, j, file, h1, h2, ?_, h4, h5⟩
    rw [Nat.mul_comm, Nat.div_add_mod]
    exact h3
  exact C82_race_free_partial (call (withScan o (W, H))) hthreads files s.map 0 files.length 0 (W * H) _ R.index
    (by
      intro i j r i' j' r' p f f' sec sec' _ _ _ _ _ _ h h'
      exact hone _ _ _ _ _ _ _ _ (hrec h) (hrec h'))
    (by intro i j r p f sec _ hp _ _ _; simpa [call, hs] using hp) hN ⟨ls, hrun⟩

/-- **C90** With fewer complete frames in the files than are requested for the thresholds `electronCount` never returns. -/
theorem C90_hang (o : Setup) (files : List (File (List Nat))) (W H : Nat) (hf : FilesOk files W H) (hr : FitsBytes files)
    (hthreads : 0 < o.threads) {dims : Nat × Nat} {s : HState} {z : State (Rat × Rat × Rat)} (h : Exec o (bytesOf files) dims s z)
    (hN : ¬ HasComplete files 0 files.length 0 (W * H) o.numBlocks) (data : List (List (List Nat))) : z.counting.main ≠ .done data := by
  have R := onRecords hf hr hthreads h
  obtain ⟨ls, _, hrun⟩ := R.counting hthreads
  have := C82_hang (call (withScan o (W, H))) hthreads files s.map 0 files.length 0 (W * H) _ R.index ⟨ls, hrun⟩ hN
  intro e
  have e' : (recsC z).counting.main = .done data := e
  rw [e'] at this
  simp at this

/-- **C90** Files of which the first has a record, with at most one frame at a position and at least `numBlocks` complete frames can be
counted: there is an execution to the end. -/
theorem C90_exists (o : Setup) (files : List (File (List Nat))) (W H : Nat) (hscan : o.scan = (W, H) ∨ o.scan.1 = 0 ∨ o.scan.2 = 0)
    (hf : FilesOk files W H) (hr : FitsBytes files) (hthreads : 0 < o.threads)
    (hfirst : ∃ f, files[0]? = some f ∧ f.records ≠ [])
    (hone : ∀ x y n n' sec sec' r r', HasRecord files x y n sec r → HasRecord files x y n' sec' r' → n = n') (hN : 0 < o.numBlocks)
    (hC : ∃ L : List (Nat × Nat × Nat), L.Nodup ∧ o.numBlocks ≤ L.length ∧
      ∀ k ∈ L, ∀ sec < 4, ∃ r, HasRecord files k.1 k.2.1 k.2.2 sec r) :
    ∃ dims s z data, Exec o (bytesOf files) dims s z ∧ z.counting.main = .done data := by
  obtain ⟨f, hf0, hne⟩ := hfirst
  have h16 : 16 ≤ (content (bytesOf files) 0).length := by
    have hc : content (bytesOf files) 0 = encodeRecords f.records := by simp [content, bytesOf, hf0]
    rw [hc]
    cases hrs : f.records with
    | nil => exact absurd hrs hne
    | cons r rest => exact encodeRecords_ge (hr f (List.mem_of_getElem? hf0) r (by simp [hrs]))
  have h1 := SectorStreams.C83_first_header (content (bytesOf files) 0) h16
  obtain ⟨hdims, hst, hsz, hpos⟩ := first_record hf hr (st := opened (content (bytesOf files) 0)) h1
  have hle := Nat.le_of_lt hsz
  have hlen : (bytesOf files).length = files.length := by simp [bytesOf]
  have hs := withScan_scan hscan hpos
  obtain ⟨s, hreach, hex⟩ := Reach.exists_final (st := HStep (bytesOf files) (W * H) files.length)
    (s := hinit o.threads 0 (streamsOf (bytesOf files))) (final := fun s => ∀ w ∈ s.workers, w = .exited)
    (n := 2 * o.threads + (files.map fun f => 2 * f.records.length + 3).sum)
    (by
      intro t ht hne
      obtain ⟨u, hu⟩ := C90_headers_progress files W H o.threads hle hf hr ht (by simpa using hne)
      exact ⟨(), u, hu⟩)
    (fun ls t h => (C90_headers_termination files W H o.threads hthreads hle hf hr h).2)
  obtain ⟨ls, hrun⟩ := hreach
  have hub := (C90_headers_termination files W H o.threads hthreads hle hf hr hrun).1
  obtain ⟨g1, I⟩ := hrun_rec (bytesOf_cut hr) hrun
  rw [toFile_bytesOf hr] at g1
  have hex' : ∀ w ∈ (recH s).workers, w = .exited := by
    intro w hw
    obtain ⟨v, hv, rfl⟩ := List.mem_map.1 hw
    exact recW_exited.2 (hex v hv)
  have hidx : IsIndex ((bytesOf files).map toFile) 0 files.length s.map := by
    rw [toFile_bytesOf hr]
    exact (C28_index files (W * H) 0 files.length o.threads (Nat.le_refl _) hf.sectors (pos_lt hf hle) hf.once hthreads ⟨_, g1⟩).2 hex'
  obtain ⟨z, data, ⟨ls', hz⟩, hd⟩ := C85_returns (withScan o (W, H)) files W H hs hf hsz hthreads o.threads hthreads (fun _ => 0) hone hN hC
    ⟨_, g1⟩ hex'
  rw [← toFile_bytesOf hr] at hz
  obtain ⟨x, hx, rfl⟩ := run_back (K := call (withScan o (W, H))) hthreads (bytesOf_whole hr) hidx hz
  refine ⟨(W, H), s, x, data, ⟨⟨_, _, h1.trans (by rw [← hdims]), ?_⟩, ⟨hub, hex⟩, ?_⟩, hd⟩
  · rw [hst, update_same, Nat.mod_eq_of_lt hsz, hlen]
    exact ⟨ls, hrun⟩
  · rw [Nat.mod_eq_of_lt hsz, rewound_eq I]
    exact ⟨ls', hx⟩

/-- **C90** The hypothesis on the first file is needed: the size of the scan is read from it, and if it has no records the size is
indeterminate. -/
theorem C90_empty_first (files : List (File (List Nat))) (h : ∀ f, files[0]? = some f → f.records = []) :
    readFirstHeader (streamsOf (bytesOf files) 0) = .ub := by
  refine SectorStreams.C83_first_header_false _ ?_
  cases hfs : files with
  | nil => simp [bytesOf, content]
  | cons f rest =>
    have : f.records = [] := h f (by simp [hfs])
    simp [bytesOf, content, this, encodeRecords]

/-! ### Block-wise counting of the same bytes -/

/-- The bytes of sector files as the block-wise reader has them. -/
def byteStreams (files : List (File (List Nat))) : List (SectorReader.Stream (List Nat)) :=
  (bytesOf files).map fun x => SectorFile.stream x.1 x.2

private theorem sectorFiles_byteStreams {files : List (File (List Nat))} (h : FitsBytes files) : sectorFiles (byteStreams files) = files := by
  rw [sectorFiles, byteStreams, bytesOf, List.map_map, List.map_map]
  conv_rhs => rw [← List.map_id files]
  refine List.map_congr_left fun f hf => ?_
  simp only [Function.comp, C60_stream _ _ (h f hf), id, Int.toNat_natCast]

/-- **C90** Files with the same positions in the same order, one frame per position: the counting of the bytes by blocks and the counting
of the bytes with the multi-pass reader give the same frames and images for the same thresholds. -/
theorem C90_backends (o : BlockPipeline.Setup) (files : List (File (List Nat))) (hr : FitsBytes files) (W H : Nat)
    (hf : BlockFiles (byteStreams files) W H) (hone : OneFrame (byteStreams files)) (hst : InStep (byteStreams files))
    (hscan : o.scan = (W, H) ∨ o.scan.1 = 0 ∨ o.scan.2 = 0)
    {before blocks : List (SectorReader.Frame (List Nat))} {s t : SectorReader.State (List Nat) (List Nat)}
    (hb : SectorReader.Reads SectorReader.version5 (SectorReader.create (byteStreams files)) before s)
    (hs : BlockPipeline.sample SectorReader.version5 o.numBlocks s = (.ok blocks, t)) {options : CountOptions}
    (ho : o.options (blocks.map BlockPipeline.toBlock) = .ok options)
    (hbg : 0 ≤ options.bg) (hrd : options.rowDark = none) (hft : options.ft = .f32) {dark gain : List Rat} (hg : options.gain = some gain)
    (hgl : gain.length = 576 * 576) (hd : options.dark = some dark) (hdl : dark.length = 576 * 576)
    (o' : Setup) (hg' : o'.gain = some gain) (hd' : o'.dark = some dark) (hrd' : o'.rowDark = none)
    (hbg' : ∀ S : List (List Nat), S.length = o'.numBlocks → 0 ≤ (o'.thresholds S).1)
    (hscan' : o'.scan = (W, H) ∨ o'.scan.1 = 0 ∨ o'.scan.2 = 0) (hthreads : 0 < o'.threads)
    {dims : Nat × Nat} {s' : HState} {z : State (Rat × Rat × Rat)} (h : Exec o' (bytesOf files) dims s' z)
    {data : List (List (List Nat))} (hz : z.counting.main = .done data) :
    ∃ events S, BlockPipeline.electronCount SectorReader.version5 o (byteStreams files) s = .ok ((W, H), events) ∧
      IsSample files o'.numBlocks S ∧
      ((o'.thresholds (S.map fun f => f.pixels)).1 = options.bg → (o'.thresholds (S.map fun f => f.pixels)).2.1 = options.xr →
        SameResults W H ⟨events, (W, H), (576, 576)⟩ ⟨data, (W, H), (576, 576)⟩) := by
  have hfw : WholeFiles (byteStreams files) W H := by
    refine ⟨hf, ?_⟩
    intro f hfm r hrm
    obtain ⟨x, hx, rfl⟩ := List.mem_map.1 hfm
    obtain ⟨g, hg, rfl⟩ := List.mem_map.1 hx
    rw [C60_stream _ _ (hr g hg)] at hrm
    exact (hr g hg r hrm).size
  have hfo : ∀ le : W * H ≤ 2 ^ 32, FilesOk files W H := fun le => by
    have := filesOk_sectorFiles hfw le
    rwa [sectorFiles_byteStreams hr] at this
  have hne : ∃ f ∈ byteStreams files, f.records ≠ [] := by
    obtain ⟨⟨number, st, h1, _⟩, _⟩ := h
    by_cases hfirst : ∀ f, files[0]? = some f → f.records = []
    · rw [C90_empty_first files hfirst] at h1
      cases h1
    · push Not at hfirst
      obtain ⟨f, hf0, hne⟩ := hfirst
      have hfm := List.mem_of_getElem? hf0
      refine ⟨SectorFile.stream f.sector (encodeRecords f.records), ?_, ?_⟩
      · rw [byteStreams, bytesOf, List.map_map]
        exact List.mem_map.2 ⟨f, hfm, rfl⟩
      · rw [C60_stream _ _ (hr f hfm)]
        exact hne
  have hle : W * H ≤ 2 ^ 32 := by
    obtain ⟨g, hg, hgne⟩ := hne
    obtain ⟨r, hrm⟩ := List.exists_mem_of_ne_nil _ hgne
    obtain ⟨x, hx, rfl⟩ := List.mem_map.1 hg
    obtain ⟨f, hfm, rfl⟩ := List.mem_map.1 hx
    have i := hf.scan _ hg r hrm
    rw [C60_stream _ _ (hr f hfm)] at hrm
    have hw := (hr f hfm r hrm).width
    have hh := (hr f hfm r hrm).height
    rw [i.1] at hw
    rw [i.2.1] at hh
    have : W * H ≤ (256 ^ 2 - 1) * (256 ^ 2 - 1) := Nat.mul_le_mul (by omega) (by omega)
    omega
  have R := onRecords (hfo hle) hr hthreads h
  have hsc := withScan_scan hscan' R.size.2
  obtain ⟨ls, _, hrun⟩ := R.counting hthreads
  have g1 := R.headers
  have g2 := hrun
  rw [← sectorFiles_byteStreams hr] at g1 g2
  obtain ⟨events, S, c1, c2, c3⟩ := C89_in_step o (byteStreams files) W H hfw hone hst R.size.1 R.size.2 hscan hb hs ho hbg hrd hft hg hgl hd hdl
    hne (withScan o' (W, H)) hg' hd' hrd' hbg' hsc hthreads o'.threads hthreads g1 R.waited _ ⟨ls, g2⟩ hz
  rw [sectorFiles_byteStreams hr] at c2
  refine ⟨events, S, c1, c2, fun e1 e2 => ?_⟩
  have := c3 e1 e2
  rwa [EndToEnd.countedData, hsc] at this

/-! ### Example -/

private theorem brightFiles_bytes : FitsBytes brightFiles := by
  have hlen : ∀ v, (brightSector v).length = 144 * 576 := by
    intro v
    rw [brightSector, List.length_append, List.length_cons, List.length_replicate, List.length_replicate]
  have hpix : ∀ v < 256 ^ 2, ∀ u ∈ brightSector v, u < 256 ^ 2 := by
    intro v hv u hu
    rw [brightSector, List.mem_append, List.mem_cons] at hu
    rcases hu with hu | rfl | hu
    · rw [List.eq_of_mem_replicate hu]; decide
    · exact hv
    · rw [List.eq_of_mem_replicate hu]; decide
  have key : ∀ n x v, n < 256 → x < 256 → v < 256 → RecordOk ⟨1, n, 2, 1, x, 0, brightSector v⟩ := by
    intro n x v hn hx hv
    exact ⟨show 1 < 256 ^ 4 by decide, show n < 256 ^ 4 by omega, show 2 < 256 ^ 2 by decide, show 1 < 256 ^ 2 by decide,
      show x < 256 ^ 2 by omega, show 0 < 256 ^ 2 by decide, hlen v,
      hpix v (by omega)⟩
  intro f hf r hr
  simp only [brightFiles, List.mem_cons, List.not_mem_nil, or_false] at hf
  rcases hf with rfl | rfl | rfl | rfl <;> simp only [List.mem_cons, List.not_mem_nil, or_false] at hr
  · subst hr; exact key _ _ _ (by decide) (by decide) (by decide)
  · subst hr; exact key _ _ _ (by decide) (by decide) (by decide)
  · rcases hr with rfl | rfl <;> exact key _ _ _ (by decide) (by decide) (by decide)
  · subst hr; exact key _ _ _ (by decide) (by decide) (by decide)

/-- The hypotheses of the theorems can be met: the bytes of four files of a scan of 2 × 1 positions, counted by three threads, the size of
the scan taken from the first header. -/
example : ∃ dims s z data, Exec { brightSetup with scan := (0, 0) } (bytesOf brightFiles) dims s z ∧ z.counting.main = .done data ∧
    ∃ all S ev, Counted { brightSetup with scan := (0, 0) } brightFiles (fun _ => u16StreamValue none) all S ev ∧
      Results 2 1 ⟨data, (2, 1), (576, 576)⟩ all ev := by
  obtain ⟨dims, s, z, data, h1, h2⟩ := C90_exists { brightSetup with scan := (0, 0) } brightFiles 2 1 (.inr (.inl rfl)) brightFiles_ok
    brightFiles_bytes (by decide) ⟨_, rfl, by simp⟩
    (by
      intro x y n n' sec sec' r r' h h'
      have := brightFiles_record h
      have := brightFiles_record h'
      omega)
    (by decide)
    (by
      refine ⟨[(0, 0, 7)], by simp, Nat.le_refl 1, ?_⟩
      intro k hk sec hsec
      rw [List.mem_singleton] at hk
      subst hk
      rcases sec with _ | _ | _ | _ | sec
      · exact ⟨_, _, .head _, .head _, rfl, rfl, rfl, rfl⟩
      · exact ⟨_, _, .tail _ (.head _), .head _, rfl, rfl, rfl, rfl⟩
      · exact ⟨_, _, .tail _ (.tail _ (.head _)), .tail _ (.head _), rfl, rfl, rfl, rfl⟩
      · exact ⟨_, _, .tail _ (.tail _ (.tail _ (.head _))), .head _, rfl, rfl, rfl, rfl⟩
      · omega)
  obtain ⟨all, S, ev, c⟩ := C90_images { brightSetup with scan := (0, 0) } rfl rfl (by intro d h; cases h)
    (by intro S _; show (0 : Rat) ≤ 10; decide) brightFiles 2 1 (.inr (.inl rfl)) brightFiles_ok brightFiles_bytes (by decide) h1 h2
  exact ⟨dims, s, z, data, h1, h2, all, S, ev, c⟩

end Stempy.Props
