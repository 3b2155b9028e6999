import Verif.Model.SectorStreams
import Verif.Props.MultiPass

/-!
Lemmas for the multi-pass reader on bytes: the functions of the stream, the records of a file by their offsets, and the
abstraction to `MultiPass` without data.
-/

namespace Stempy.SectorStreams
open Stempy.Spec
open Stempy.SectorReader (Rec)
open Stempy.SectorFile (headerSize dataSize field parse record)
open Stempy.StreamReader (decodeArray)
open Stempy.MultiPass (Loc Sectors ScanMap PWorker Block update File PState PStep pinit recordSize dataAt holds)
open Stempy.Props (IsIndex IsRecord)

/-! ### Functions of the stream -/

theorem read_good (b : List UInt8) (p n : Nat) :
    (⟨b, p, false, false⟩ : IStream).read n =
      ((b.drop p).take n, ⟨b, p + ((b.drop p).take n).length, decide (((b.drop p).take n).length < n),
        decide (((b.drop p).take n).length < n)⟩) := rfl

theorem read_full {b : List UInt8} {p n : Nat} (h : p + n ≤ b.length) :
    (⟨b, p, false, false⟩ : IStream).read n = ((b.drop p).take n, ⟨b, p + n, false, false⟩) := by
  have : ((b.drop p).take n).length = n := by rw [List.length_take, List.length_drop]; omega
  rw [read_good, this]
  simp

theorem read_fail {s : IStream} (h : s.fail = true) (n : Nat) : s.read n = ([], { s with fail := true }) := by
  simp [IStream.read, IStream.sentry, h]

theorem seekg_good (b : List UInt8) (p q : Nat) (e : Bool) :
    (⟨b, p, e, false⟩ : IStream).seekg q = ⟨b, q, false, false⟩ := by
  simp [IStream.seekg, IStream.sentry]

theorem seekg_fail {s : IStream} (h : s.fail = true) (q : Nat) : s.seekg q = { s with eof := false, fail := true } := by
  simp [IStream.seekg, IStream.sentry, h]

theorem skip_good (b : List UInt8) (p d : Nat) (e : Bool) :
    (⟨b, p, e, false⟩ : IStream).skip d = ⟨b, p + d, false, false⟩ := by
  simp [IStream.skip, IStream.sentry]

theorem tellg_good (b : List UInt8) (p : Nat) :
    (⟨b, p, false, false⟩ : IStream).tellg = (some p, ⟨b, p, false, false⟩) := by
  simp [IStream.tellg, IStream.sentry]

theorem peek_end {b : List UInt8} {p : Nat} (h : b.length ≤ p) :
    (⟨b, p, false, false⟩ : IStream).peek = (none, ⟨b, p, true, false⟩) := by
  simp [IStream.peek, IStream.sentry, List.getElem?_eq_none h]

theorem peek_byte {b : List UInt8} {p : Nat} (h : p < b.length) :
    (⟨b, p, false, false⟩ : IStream).peek = (some b[p], ⟨b, p, false, false⟩) := by
  simp [IStream.peek, IStream.sentry, List.getElem?_eq_getElem h]

theorem field_take {b : List UInt8} {n lo k : Nat} (h : lo + k ≤ n) : field (b.take n) lo k = field b lo k := by
  simp only [field, List.drop_take, List.take_take]
  rw [Nat.min_eq_left (by omega)]

theorem field_drop (b : List UInt8) (n lo k : Nat) : field (b.drop n) lo k = field b (n + lo) k := by
  simp only [field, List.drop_drop]

/-- The header at the beginning of `b`. -/
def headerAt (b : List UInt8) : Rec Unit :=
  ⟨field b 0 4, field b 4 4, field b 8 2, field b 10 2, field b 12 2, field b 14 2, ()⟩

theorem readHeader_ok {b : List UInt8} {p : Nat} (h : p + 16 ≤ b.length) :
    readHeader ⟨b, p, false, false⟩ = (some (headerAt (b.drop p)), ⟨b, p + 16, false, false⟩) := by
  have h1 : ((b.drop p).take 8).length = 8 := by rw [List.length_take, List.length_drop]; omega
  have h2 : ((b.drop (p + 8)).take 8).length = 8 := by rw [List.length_take, List.length_drop]; omega
  have e : ∀ lo k, lo + k ≤ 8 → field ((b.drop (p + 8)).take 8) lo k = field (b.drop p) (8 + lo) k := by
    intro lo k hk
    rw [field_take hk, ← List.drop_drop, field_drop]
  simp only [readHeader, read_full (show p + 8 ≤ b.length by omega), read_full (show p + 8 + 8 ≤ b.length by omega), h1, h2, and_self,
    if_true, headerAt, e 0 2 (by omega), e 2 2 (by omega), e 4 2 (by omega), e 6 2 (by omega),
    field_take (show 0 + 4 ≤ 8 by omega), field_take (show 4 + 4 ≤ 8 by omega)]

theorem readHeader_cut {b : List UInt8} {p : Nat} (h : b.length < p + 16) :
    (readHeader ⟨b, p, false, false⟩).1 = none := by
  have h1 : ((b.drop p).take 8).length = min 8 (b.length - p) := by rw [List.length_take, List.length_drop]
  simp only [readHeader]
  rw [if_neg]
  rintro ⟨e1, e2⟩
  rw [read_good] at e1 e2
  simp only at e1
  rw [h1] at e1
  have hp : p + 8 ≤ b.length := by omega
  simp only [h1] at e2
  rw [e1] at e2
  simp only [Nat.lt_irrefl, decide_false] at e2
  rw [read_good] at e2
  rw [List.length_take, List.length_drop] at e2
  omega

/-! ### Records of a file -/

theorem recordSize_eq : recordSize = headerSize + dataSize := by decide

theorem parse_nil : parse [] = ([], false) := by rw [parse]; simp

theorem parse_short {b : List UInt8} (h0 : b ≠ []) (h : b.length < headerSize) : parse b = ([], true) := by
  rw [parse]; simp [h0, h]

theorem parse_long {b : List UInt8} (h : headerSize ≤ b.length) :
    parse b = (record b :: (parse (b.drop recordSize)).1, (parse (b.drop recordSize)).2) := by
  have h0 : b ≠ [] := by rintro rfl; simp [headerSize] at h
  rw [parse]
  simp [h0, Nat.not_lt.2 h, recordSize_eq]

/-- The records are at the multiples of the size of a record. -/
theorem parse_get (b : List UInt8) (j : Nat) :
    (parse b).1[j]? = if j * recordSize + headerSize ≤ b.length then some (record (b.drop (j * recordSize))) else none := by
  induction j generalizing b with
  | zero =>
    by_cases h : headerSize ≤ b.length
    · rw [parse_long h]; simp [h]
    · by_cases h0 : b = []
      · subst h0; rw [parse_nil]; simp [headerSize]
      · rw [parse_short h0 (by omega)]; simp [h]
  | succ j ih =>
    by_cases h : headerSize ≤ b.length
    · rw [parse_long h]
      simp only [List.getElem?_cons_succ]
      rw [ih, List.length_drop, List.drop_drop]
      have e : (j + 1) * recordSize = recordSize + j * recordSize := by rw [Nat.add_mul]; omega
      rw [e]
      congr 1
      generalize j * recordSize = m
      have : headerSize ≤ recordSize := by decide
      have : 0 < headerSize := by decide
      apply propext
      omega
    · have hn : ¬ (j + 1) * recordSize + headerSize ≤ b.length := by omega
      rw [if_neg hn]
      by_cases h0 : b = []
      · subst h0; rw [parse_nil]; simp
      · rw [parse_short h0 (by omega)]; simp

theorem record_data (b : List UInt8) : (record b).data = pixels ((b.drop headerSize).take dataSize) := rfl

/-- The file of `MultiPass` for a sector and bytes. -/
def toFile (x : Nat × List UInt8) : File (List Nat) := ⟨x.1, (parse x.2).1⟩

/-- The bytes of file `i`. -/
def content (files : List (Nat × List UInt8)) (i : Nat) : List UInt8 := ((files[i]?).map Prod.snd).getD []

/-- The bytes of the pixels at an offset, as far as they are in the file. -/
def stored (b : List UInt8) (off : Nat) : List UInt8 := (b.drop off).take dataSize

theorem stored_length (b : List UInt8) (off : Nat) : (stored b off).length = min dataSize (b.length - off) := by
  rw [stored, List.length_take, List.length_drop]

theorem isRecord_iff {files : List (Nat × List UInt8)} {i j p f sec : Nat} {r : Rec (List Nat)} :
    IsRecord (files.map toFile) i j r p f sec ↔
      ∃ x, files[i]? = some x ∧ j * recordSize + headerSize ≤ x.2.length ∧ r = record (x.2.drop (j * recordSize)) ∧
        r.pos = p ∧ r.frameNumber = f ∧ x.1 = sec := by
  constructor
  · rintro ⟨file, h1, h2, h3, h4, h5⟩
    rw [List.getElem?_map, Option.map_eq_some_iff] at h1
    obtain ⟨x, hx, rfl⟩ := h1
    simp only [toFile] at h2 h5
    rw [parse_get] at h2
    split at h2
    · rename_i hl
      exact ⟨x, hx, hl, (Option.some.inj h2).symm, h3, h4, h5⟩
    · cases h2
  · rintro ⟨x, hx, hl, hr, h3, h4, h5⟩
    refine ⟨toFile x, by rw [List.getElem?_map, hx]; rfl, ?_, h3, h4, h5⟩
    simp only [toFile]
    rw [parse_get, if_pos hl, hr]

/-- The pixels of a record are those at its location. -/
theorem record_stored {files : List (Nat × List UInt8)} {i j p f sec : Nat} {r : Rec (List Nat)}
    (h : IsRecord (files.map toFile) i j r p f sec) : r.data = pixels (stored (content files i) (j * recordSize + 16)) := by
  obtain ⟨x, hx, _, rfl, _⟩ := isRecord_iff.1 h
  rw [record_data, List.drop_drop, stored, content, hx]
  rfl


/-! ### Without data -/

def strip (r : Rec (List Nat)) : Rec Unit := ⟨r.scanNumber, r.frameNumber, r.width, r.height, r.x, r.y, ()⟩

def unitFile (x : Nat × List UInt8) : File Unit := ⟨x.1, (parse x.2).1.map strip⟩

theorem isRecord_unit {files : List (Nat × List UInt8)} {i j p f sec : Nat} {u : Rec Unit} :
    IsRecord (files.map unitFile) i j u p f sec ↔ ∃ r, IsRecord (files.map toFile) i j r p f sec ∧ u = strip r := by
  constructor
  · rintro ⟨file, h1, h2, h3, h4, h5⟩
    rw [List.getElem?_map, Option.map_eq_some_iff] at h1
    obtain ⟨x, hx, rfl⟩ := h1
    simp only [unitFile] at h2 h5
    rw [List.getElem?_map, Option.map_eq_some_iff] at h2
    obtain ⟨r, hr, rfl⟩ := h2
    exact ⟨r, ⟨toFile x, by rw [List.getElem?_map, hx]; rfl, hr, h3, h4, h5⟩, rfl⟩
  · rintro ⟨r, ⟨file, h1, h2, h3, h4, h5⟩, rfl⟩
    rw [List.getElem?_map, Option.map_eq_some_iff] at h1
    obtain ⟨x, hx, rfl⟩ := h1
    refine ⟨unitFile x, by rw [List.getElem?_map, hx]; rfl, ?_, h3, h4, h5⟩
    simp only [unitFile]
    rw [List.getElem?_map]
    simp only [toFile] at h2
    rw [h2]
    rfl

theorem isIndex_unit {files : List (Nat × List UInt8)} {lo hi : Nat} {map : ScanMap}
    (h : IsIndex (files.map toFile) lo hi map) : IsIndex (files.map unitFile) lo hi map where
  sorted := h.sorted
  loc := by
    intro p f sec loc
    rw [h.loc]
    constructor
    · rintro ⟨i, j, r, h1, h2, h3, h4⟩
      exact ⟨i, j, strip r, h1, h2, isRecord_unit.2 ⟨r, h3, rfl⟩, h4⟩
    · rintro ⟨i, j, u, h1, h2, h3, h4⟩
      obtain ⟨r, hr, _⟩ := isRecord_unit.1 h3
      exact ⟨i, j, r, h1, h2, hr, h4⟩
  keys := by
    intro p f
    rw [h.keys]
    constructor
    · rintro ⟨i, j, r, sec, h1, h2, h3⟩
      exact ⟨i, j, strip r, sec, h1, h2, isRecord_unit.2 ⟨r, h3, rfl⟩⟩
    · rintro ⟨i, j, u, sec, h1, h2, h3⟩
      obtain ⟨r, hr, _⟩ := isRecord_unit.1 h3
      exact ⟨i, j, r, sec, h1, h2, hr⟩

theorem dataAt_unit {files : List (Nat × List UInt8)} {lo hi : Nat} {map : ScanMap}
    (h : IsIndex (files.map toFile) lo hi map) {p f j : Nat} {a : Sectors} {loc : Loc} (ha : (map p).get f = some a)
    (hj : a j = some loc) : dataAt (files.map unitFile) loc.stream loc.offset = some () := by
  obtain ⟨i, k, u, _, _, ⟨file, h1, h2, _⟩, rfl⟩ := ((isIndex_unit h).loc p f j loc).1 ⟨a, ha, hj⟩
  have e1 : (k * recordSize + 16) % recordSize = 16 := by
    rw [Nat.mul_comm, Nat.mul_add_mod]; decide
  have e2 : (k * recordSize + 16) / recordSize = k := by
    rw [Nat.mul_comm, Nat.mul_add_div (by decide)]
    simp [recordSize]
  simp [dataAt, h1, e1, e2, h2]

def forgetItems (acc : List (Nat × Got)) : List (Nat × Unit) := acc.map fun x => (x.1, ())

def forget : PWorker Got → PWorker Unit
  | .test => .test
  | .fetch => .fetch
  | .image p fs => .image p fs
  | .sector p f fs j n acc => .sector p f fs j n (forgetItems acc)
  | .seek p f fs j n acc loc => .seek p f fs j n (forgetItems acc) loc
  | .read p f fs j n acc loc => .read p f fs j n (forgetItems acc) loc
  | .exited => .exited

def forgetBlock (b : Block Got) : Block Unit := ⟨b.pos, b.frame, forgetItems b.items, b.complete⟩

/-- The state without data; the positions of the streams are arbitrary. -/
def shadow (s : State) (at_ : Nat → Nat) : PState Unit where
  processed := s.processed
  locks := s.locks
  at_ := at_
  workers := s.workers.map forget
  delivered := s.delivered.map forgetBlock

theorem holds_forget (i : Nat) (w : PWorker Got) : holds i (forget w) = holds i w := by
  cases w <;> rfl

/-- Every execution is one of `MultiPass` if the data are forgotten, also for files that were cut. -/
theorem shadow_reach {files : List (Nat × List UInt8)} {flo fhi lo hi threads : Nat} {map : ScanMap}
    (hidx : IsIndex (files.map toFile) flo fhi map) {ls : List Unit} {s : State}
    (h : Run (Step map hi) (init threads lo files) ls s) :
    ∃ at_, Run (PStep (files.map unitFile) map hi) (pinit threads lo fun _ => 0) ls (shadow s at_) := by
  induction h with
  | nil =>
    refine ⟨fun _ => 0, ?_⟩
    have : shadow (init threads lo files) (fun _ => 0) = pinit threads lo fun _ => 0 := by
      simp [shadow, init, pinit, forget]
    rw [this]
    exact .nil _
  | @snoc t ls l s _ hstep ih =>
    obtain ⟨at_, hr⟩ := ih
    have I := Props.pinv_reach ⟨_, hr⟩
    cases hstep with
    | @done pre post hw hp =>
      refine ⟨at_, hr.snoc ?_⟩
      have := PStep.done (files := files.map unitFile) (map := map) (s := shadow t at_) (pre := pre.map forget) (post := post.map forget)
        (by simp [shadow, hw, forget]) hp
      simpa [shadow, forget] using this
    | @more pre post hw hp =>
      refine ⟨at_, hr.snoc ?_⟩
      have := PStep.more (files := files.map unitFile) (map := map) (s := shadow t at_) (pre := pre.map forget) (post := post.map forget)
        (by simp [shadow, hw, forget]) hp
      simpa [shadow, forget] using this
    | @overrun pre post hw hp =>
      refine ⟨at_, hr.snoc ?_⟩
      have := PStep.overrun (files := files.map unitFile) (map := map) (s := shadow t at_) (pre := pre.map forget) (post := post.map forget)
        (by simp [shadow, hw, forget]) hp
      simpa [shadow, forget] using this
    | @fetch pre post hw hp =>
      refine ⟨at_, hr.snoc ?_⟩
      have := PStep.fetch (files := files.map unitFile) (map := map) (s := shadow t at_) (pre := pre.map forget) (post := post.map forget)
        (by simp [shadow, hw, forget]) hp
      simpa [shadow, forget] using this
    | @end_ pre post p hw =>
      refine ⟨at_, hr.snoc ?_⟩
      have := PStep.end_ (files := files.map unitFile) (map := map) (hi := hi) (s := shadow t at_) (pre := pre.map forget) (post := post.map forget)
        (p := p) (by simp [shadow, hw, forget])
      simpa [shadow, forget] using this
    | @frame pre post p f fs hw =>
      refine ⟨at_, hr.snoc ?_⟩
      have := PStep.frame (files := files.map unitFile) (map := map) (hi := hi) (s := shadow t at_) (pre := pre.map forget) (post := post.map forget)
        (p := p) (f := f) (fs := fs) (by simp [shadow, hw, forget])
      simpa [shadow, forget, forgetItems] using this
    | @missing pre post p f fs j n acc a hw hj ha hn =>
      refine ⟨at_, hr.snoc ?_⟩
      have := PStep.missing (files := files.map unitFile) (map := map) (hi := hi) (s := shadow t at_) (pre := pre.map forget) (post := post.map forget)
        (p := p) (f := f) (fs := fs) (n := n) (acc := forgetItems acc) (by simp [shadow, hw, forget]) hj ha hn
      simpa [shadow, forget] using this
    | @acquire pre post p f fs j n acc a loc hw hj ha hn hl =>
      refine ⟨at_, hr.snoc ?_⟩
      have := PStep.acquire (files := files.map unitFile) (map := map) (hi := hi) (s := shadow t at_) (pre := pre.map forget) (post := post.map forget)
        (p := p) (f := f) (fs := fs) (n := n) (acc := forgetItems acc) (by simp [shadow, hw, forget]) hj ha hn hl
      simpa [shadow, forget] using this
    | @seek pre post p f fs j n acc loc hw =>
      refine ⟨update at_ loc.stream loc.offset, hr.snoc ?_⟩
      have := PStep.seek (files := files.map unitFile) (map := map) (hi := hi) (s := shadow t at_) (pre := pre.map forget) (post := post.map forget)
        (p := p) (f := f) (fs := fs) (j := j) (n := n) (acc := forgetItems acc) (loc := loc) (by simp [shadow, hw, forget])
      simpa [shadow, forget] using this
    | @read pre post p f fs j n acc loc hw =>
      refine ⟨update at_ loc.stream (at_ loc.stream + 2 * (576 * 144)), hr.snoc ?_⟩
      have hw' : (shadow t at_).workers = pre.map forget ++ .read p f fs j n (forgetItems acc) loc :: post.map forget := by
        simp [shadow, hw, forget]
      obtain ⟨_, _, h3, a, ha, _, _, hn⟩ := I.fine (.read p f fs j n (forgetItems acc) loc) (by rw [hw']; simp)
      have hd := dataAt_unit hidx ha hn
      have := PStep.read (files := files.map unitFile) (map := map) (hi := hi) hw'
      rw [h3, hd] at this
      have h3' : at_ loc.stream = loc.offset := h3
      rw [h3']
      simpa [shadow, forget, forgetItems] using this
    | @deliver pre post p f fs n acc hw =>
      refine ⟨at_, hr.snoc ?_⟩
      have := PStep.deliver (files := files.map unitFile) (map := map) (hi := hi) (s := shadow t at_) (pre := pre.map forget) (post := post.map forget)
        (p := p) (f := f) (fs := fs) (n := n) (acc := forgetItems acc) (by simp [shadow, hw, forget])
      simpa [shadow, forget, forgetBlock] using this

end Stempy.SectorStreams
