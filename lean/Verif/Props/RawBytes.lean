import Verif.Props.RawFiles
import Verif.Props.ByteCounting

/-!
C99 and C87 from the bytes of sector files, which may end inside of the pixels of a record or inside of a header.
-/

namespace Stempy.Props
open Stempy.Spec Stempy.BlockPipeline Stempy.RawFiles RawFiles
open Stempy.SectorReader (Rec State Reads create)
open Stempy.SectorFile (stream)
open Stempy.Electron (CountOptions)

/-- What was written to a file: complete records, and perhaps one of which only the first `k` bytes of the pixels are there. -/
structure Part where
  sector : Nat
  records : List (Rec (List Nat))
  last : Option (Rec (List Nat) × Nat) := none

/-- All records that were written. -/
def Part.written (p : Part) : List (Rec (List Nat)) := p.records ++ (p.last.map fun x => x.1).toList

/-- The bytes of the file. -/
def Part.bytes (p : Part) : List UInt8 :=
  encodeRecords p.records ++ ((p.last.map fun x => (encodeRecord x.1).take (16 + x.2)).getD [])

/-- The records of the file, with the pixels that are there. -/
def Part.content (p : Part) : SectorReader.Stream (List Nat) :=
  ⟨p.sector, p.records ++ (p.last.map fun x => shortened x.1 x.2).toList, false⟩

/-- Files of a scan of `W` columns and `H` rows, with at most one record of each position in each sector, whose values fit into their bytes. -/
structure Written (parts : List Part) (W H : Nat) : Prop where
  sector : ∀ p ∈ parts, p.sector < 4
  ok : ∀ p ∈ parts, ∀ r ∈ p.written, RecordOk r
  cut : ∀ p ∈ parts, ∀ r k, p.last = some (r, k) → k < 2 * (144 * 576)
  scan : ∀ p ∈ parts, ∀ r ∈ p.written, InScan W H r
  once : (parts.flatMap fun p => p.written.map fun r => (p.sector, r.x, r.y)).Nodup

/-- **C60** The reader finds the records with the pixels that are there. -/
theorem C60_part {parts : List Part} {W H : Nat} (h : Written parts W H) {p : Part} (hp : p ∈ parts) : stream p.sector p.bytes = p.content := by
  cases hl : p.last with
  | none =>
    have h1 : ∀ r ∈ p.records, RecordOk r := fun r hr => h.ok p hp r (by simp [Part.written, hr])
    rw [Part.bytes, Part.content, hl]
    simp only [Option.map_none, Option.getD_none, List.append_nil, Option.toList_none]
    exact C60_stream _ _ h1
  | some x =>
    obtain ⟨r, k⟩ := x
    have h1 : ∀ r ∈ p.records, RecordOk r := fun r hr => h.ok p hp r (by simp [Part.written, hr])
    have hr : RecordOk r := h.ok p hp r (by simp [Part.written, hl])
    have hk := h.cut p hp r k hl
    rw [Part.bytes, Part.content, hl]
    simp only [Option.map_some, Option.getD_some, Option.toList_some]
    have := C60_cut_pixels p.records r h1 hr k (by rw [encodeRecord_length, hr.size]; omega)
    simp only [stream, this]

private theorem shortened_ok {r : Rec (List Nat)} (hr : RecordOk r) {k : Nat} (hk : k < 2 * (144 * 576)) :
    (shortened r k).data.length ≤ 144 * 576 ∧ ∀ v ∈ (shortened r k).data, v < 65536 := by
  have hs := hr.size
  constructor
  · rw [shortened, List.length_append, List.length_take]
    split
    · rw [List.length_singleton]; omega
    · rw [List.length_nil]; omega
  · intro v hv
    rw [shortened, List.mem_append] at hv
    rcases hv with hv | hv
    · exact hr.pixel v (List.mem_of_mem_take hv)
    · split at hv
      · rw [List.mem_singleton.1 hv]
        have := Nat.mod_lt (r.data.getD (k / 2) 0) (y := 256) (by decide)
        omega
      · cases hv

/-- A record of the file is one that was written, but for the pixels. -/
private theorem content_mem {p : Part} {r : Rec (List Nat)} (h : r ∈ p.content.records) :
    r ∈ p.records ∨ ∃ q k, p.last = some (q, k) ∧ r = shortened q k := by
  rw [Part.content] at h
  rcases List.mem_append.1 h with h | h
  · exact .inl h
  · rw [Option.mem_toList, Option.map_eq_some_iff] at h
    obtain ⟨x, h1, h2⟩ := h
    exact .inr ⟨x.1, x.2, h1, h2.symm⟩

private theorem content_places (p : Part) : (p.content.records.map fun r => (p.content.sector, r.x, r.y)) =
    (p.written.map fun r => (p.sector, r.x, r.y)).map fun q => ((q.1 : Int), q.2) := by
  rw [Part.content, Part.written]
  cases p.last <;> simp [shortened]

/-- **C60** So these are files with which `C87` and `C99` hold. -/
theorem C60_files {parts : List Part} {W H : Nat} (h : Written parts W H) :
    (parts.map fun p => stream p.sector p.bytes) = parts.map Part.content ∧ BlockFiles (parts.map Part.content) W H := by
  refine ⟨List.map_congr_left fun p hp => C60_part h hp, ?_, ?_, ?_, ?_, ?_⟩
  · intro f hf
    obtain ⟨p, hp, rfl⟩ := List.mem_map.1 hf
    have := h.sector p hp
    exact ⟨⟨by simp [Part.content], by simp only [Part.content]; omega⟩, rfl⟩
  · intro f hf r hr
    obtain ⟨p, hp, rfl⟩ := List.mem_map.1 hf
    rcases content_mem hr with hr | ⟨q, k, hq, rfl⟩
    · exact h.scan p hp r (by simp [Part.written, hr])
    · exact h.scan p hp q (by simp [Part.written, hq])
  · intro f hf r hr
    obtain ⟨p, hp, rfl⟩ := List.mem_map.1 hf
    rcases content_mem hr with hr | ⟨q, k, hq, rfl⟩
    · exact Nat.le_of_eq (h.ok p hp r (by simp [Part.written, hr])).size
    · exact (shortened_ok (h.ok p hp q (by simp [Part.written, hq])) (h.cut p hp q k hq)).1
  · intro f hf r hr
    obtain ⟨p, hp, rfl⟩ := List.mem_map.1 hf
    rcases content_mem hr with hr | ⟨q, k, hq, rfl⟩
    · exact (h.ok p hp r (by simp [Part.written, hr])).pixel
    · exact (shortened_ok (h.ok p hp q (by simp [Part.written, hq])) (h.cut p hp q k hq)).2
  · rw [List.flatMap_map]
    have e : (parts.flatMap fun p => p.content.records.map fun r => (p.content.sector, r.x, r.y)) =
        (parts.flatMap fun p => p.written.map fun r => (p.sector, r.x, r.y)).map fun q => ((q.1 : Int), q.2) := by
      rw [List.map_flatMap]
      congr 1
      funext p
      exact content_places p
    rw [e]
    refine h.once.map ?_
    rintro ⟨a, b⟩ ⟨c, d⟩ e
    have e := Prod.mk.inj e
    rw [Prod.mk.injEq]
    exact ⟨by exact_mod_cast e.1, e.2⟩

private theorem some_record {parts : List Part} (hne : ∃ p ∈ parts, p.written ≠ []) : ∃ f ∈ parts.map Part.content, f.records ≠ [] := by
  obtain ⟨p, hp, hw⟩ := hne
  refine ⟨_, List.mem_map.2 ⟨p, hp, rfl⟩, ?_⟩
  rw [Part.content]
  intro h
  apply hw
  rw [Part.written]
  simp only [List.append_eq_nil_iff] at h ⊢
  exact ⟨h.1, by cases hl : p.last <;> simp [hl] at h ⊢⟩

/-- **C99** From the bytes of the files, of which each may end inside of the pixels of a record: the pixels that are not there are zero. -/
theorem C99_bytes (v4 : Bool) {parts : List Part} {W H : Nat} (hf : Written parts W H) (hsz : W * H + 32 ≤ 2 ^ 32)
    (hne : ∃ p ∈ parts, p.written ≠ []) {all : List ScanFrame} (hall : IsPositions v4 (parts.map Part.content) all) {ops : List Op}
    {t : State (List Nat) (List Nat)} (hv : ∀ c a, Op.call c a ∈ ops → Valid 576 576 W H (W, H) c)
    (hs : Session (layout v4) (parts.map fun p => stream p.sector p.bytes) (create (parts.map fun p => stream p.sector p.bytes)) ops t) :
    Correct W H (numbered W all) true ops := by
  obtain ⟨e, hb⟩ := C60_files hf
  rw [e] at hs
  exact C99_session hb hsz (some_record hne) hall hv hs

/-- **C99** If the bytes of a file end inside of a header no call returns. -/
theorem C99_bytes_false (v4 : Bool) (files : List (Nat × List UInt8)) {sector : Nat} {rs : List (Rec (List Nat))} {r : Rec (List Nat)}
    (h : ∀ r ∈ rs, RecordOk r) (hr : RecordOk r) {m : Nat} (h0 : 0 < m) (h16 : m < 16)
    (hm : (sector, encodeRecords rs ++ (encodeRecord r).take m) ∈ files) {ops : List Op} {t : State (List Nat) (List Nat)}
    (hs : Session (layout v4) (files.map fun f => stream f.1 f.2) (create (files.map fun f => stream f.1 f.2)) ops t) :
    ∀ c a, Op.call c a ∈ ops → ¬ a.Returns := by
  refine C99_cut_false _ ⟨_, List.mem_map.2 ⟨_, hm, rfl⟩, ?_⟩ hs
  rcases C60_cut rs r h hr m (by rw [encodeRecord_length]; omega) with ⟨h1, _⟩ | ⟨_, _, h1⟩ | ⟨h1, _⟩
  · omega
  · simp [stream, h1]
  · omega

/-- **C87** From the bytes of the files in the same way. -/
theorem C87_bytes_partial (v4 : Bool) (o : BlockPipeline.Setup) {parts : List Part} {W H : Nat} (hf : Written parts W H)
    (hsz : W * H < 2 ^ 32) (hpos : 0 < W * H) (hscan : o.scan = (W, H) ∨ o.scan.1 = 0 ∨ o.scan.2 = 0)
    {before blocks : List (SectorReader.Frame (List Nat))} {s t : State (List Nat) (List Nat)}
    (hb : Reads (layout v4) (create (parts.map fun p => stream p.sector p.bytes)) before s)
    (hs : sample (layout v4) o.numBlocks s = (.ok blocks, t)) {options : CountOptions} (ho : o.options (blocks.map toBlock) = .ok options)
    (hbg : 0 ≤ options.bg) (hrd : options.rowDark = none) (hft : options.ft = .f32) {dark gain : List Rat} (hg : options.gain = some gain)
    (hgl : gain.length = 576 * 576) (hd : options.dark = some dark) (hdl : dark.length = 576 * 576)
    (hne : ∃ p ∈ parts, p.written ≠ [])
    (hcache : ∀ x y, x < W → y < H → cached t (y * W + x) + (readOrder (parts.map Part.content) x y).length ≤ 4) :
    ∃ events all ev, BlockPipeline.electronCount (layout v4) o (parts.map fun p => stream p.sector p.bytes) s = .ok ((W, H), events) ∧
      IsPositions v4 (parts.map Part.content) all ∧
      (∀ f ∈ all, IsEventList options.bg options.xr 576 576 (floatValue options.dark gain f.pixels) (ev f)) ∧
      Results W H ⟨events, (W, H), (576, 576)⟩ all ev := by
  obtain ⟨e, hB⟩ := C60_files hf
  rw [e] at hb ⊢
  exact C87_images_partial v4 o _ W H hB hsz hpos hscan hb hs ho hbg hrd hft hg hgl hd hdl (some_record hne) hcache

/-! ### Example -/

/-- Four sectors of a scan of 2 × 1 positions; the last file ends inside of the third pixel of its second record. -/
private def cutParts : List Part :=
  [⟨0, [mkRec 0 (brightSector 20), mkRec 1 (brightSector 30)], none⟩, ⟨1, [mkRec 0 (brightSector 20), mkRec 1 (brightSector 30)], none⟩,
   ⟨2, [mkRec 0 (brightSector 20), mkRec 1 (brightSector 30)], none⟩, ⟨3, [mkRec 0 (brightSector 20)], some (mkRec 1 (brightSector 30), 5)⟩]

private theorem cutParts_ok : Written cutParts 2 1 := by
  have hlen : ∀ v, (brightSector v).length = 144 * 576 := by
    intro v
    rw [brightSector, List.length_append, List.length_cons, List.length_replicate, List.length_replicate]
  have hpix : ∀ v < 256 ^ 2, ∀ u ∈ brightSector v, u < 256 ^ 2 := by
    intro v hv u hu
    rw [brightSector, List.mem_append, List.mem_cons] at hu
    rcases hu with hu | rfl | hu
    · rw [List.eq_of_mem_replicate hu]; decide
    · exact hv
    · rw [List.eq_of_mem_replicate hu]; decide
  have hall : ∀ p ∈ cutParts, p.sector < 4 ∧ (∀ r ∈ p.written, r = mkRec 0 (brightSector 20) ∨ r = mkRec 1 (brightSector 30)) ∧
      ∀ r k, p.last = some (r, k) → k = 5 := by
    intro p hp
    simp only [cutParts, List.mem_cons, List.not_mem_nil, or_false] at hp
    rcases hp with rfl | rfl | rfl | rfl <;> simp [Part.written]
  have hrec : ∀ x < 256, ∀ v < 256, RecordOk (mkRec x (brightSector v)) := by
    intro x hx v hv
    refine ⟨?_, ?_, ?_, ?_, ?_, ?_, hlen v, hpix v (by omega)⟩ <;> simp [mkRec] <;> omega
  refine ⟨fun p hp => (hall p hp).1, ?_, ?_, ?_, ?_⟩
  · intro p hp r hr
    rcases (hall p hp).2.1 r hr with rfl | rfl
    · exact hrec 0 (by decide) 20 (by decide)
    · exact hrec 1 (by decide) 30 (by decide)
  · intro p hp r k hl
    rw [(hall p hp).2.2 r k hl]
    decide
  · intro p hp r hr
    rcases (hall p hp).2.1 r hr with rfl | rfl <;> simp [InScan, mkRec]
  · simp [cutParts, Part.written, mkRec]

/-- The hypotheses of `C99_bytes` can be met, with a session of two calls. -/
example : ∃ (ops : List Op) (t : State (List Nat) (List Nat)) (all : List ScanFrame), Written cutParts 2 1 ∧
    IsPositions false (cutParts.map Part.content) all ∧ (∀ c a, Op.call c a ∈ ops → Valid 576 576 2 1 (2, 1) c) ∧
    Session (layout false) (cutParts.map fun p => stream p.sector p.bytes) (create (cutParts.map fun p => stream p.sector p.bytes)) ops t ∧
    ops.length = 4 := by
  obtain ⟨e, hB⟩ := C60_files cutParts_ok
  have hv : ∀ c ∈ [Call.average, .maximum (0, [])], Valid 576 576 2 1 (2, 1) c := by
    intro c hc
    simp only [List.mem_cons, List.not_mem_nil, or_false] at hc
    rcases hc with rfl | rfl <;> simp [Valid]
  obtain ⟨all, _, _, h1, _⟩ := C99_frames false hB (by decide)
  obtain ⟨answers, h2, h3⟩ := C99_session_exists (v4 := false) hB (by decide) (some_record ⟨_, .head _, by simp [Part.written]⟩)
    [Call.average, .maximum (0, [])] hv
  refine ⟨_, _, all, cutParts_ok, h1, ?_, by rw [e]; exact h3, ?_⟩
  · intro c a hm
    obtain ⟨x, hx, hm⟩ := List.mem_flatMap.1 hm
    simp only [List.mem_cons, reduceCtorEq, List.not_mem_nil, or_false, Op.call.injEq] at hm
    exact hm.1 ▸ hv _ (List.of_mem_zip hx).1
  · match answers, h2 with
    | [a, b], _ => rfl

end Stempy.Props
