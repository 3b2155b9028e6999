import Verif.Model.ByteCounting
import Verif.Props.CountingReader
import Verif.Props.SectorStreams

/-!
Lemmas for the counting from bytes: for files of whole records the executions are those on the records.
-/

namespace Stempy.ByteCounting
open Stempy.Spec
open Stempy.SectorReader (Rec)
open Stempy.SectorFile (headerSize dataSize parse record)
open Stempy.SectorStreams
open Stempy.MultiPass (Loc Sectors ScanMap PWorker Block update File PState PStep PInv recordSize dataAt)
open Stempy.Props (IsIndex IsRecord)
open Stempy.CountingReader (Call Label Inside)

variable {Θ : Type}

/-! ### The reader -/

def plainItems (acc : List (Nat × Got)) : List (Nat × List Nat) := acc.map fun x => (x.1, x.2.data)

def plainW : PWorker Got → PWorker (List Nat)
  | .test => .test
  | .fetch => .fetch
  | .image p fs => .image p fs
  | .sector p f fs j n acc => .sector p f fs j n (plainItems acc)
  | .seek p f fs j n acc loc => .seek p f fs j n (plainItems acc) loc
  | .read p f fs j n acc loc => .read p f fs j n (plainItems acc) loc
  | .exited => .exited

/-- The state on records. -/
def recs (s : SectorStreams.State) : PState (List Nat) where
  processed := s.processed
  locks := s.locks
  at_ := fun i => (s.streams.stream i).pos
  workers := s.workers.map plainW
  delivered := s.delivered.map plain

/-- No stream has failed. -/
def Clean (files : List (Nat × List UInt8)) (s : SectorStreams.State) : Prop :=
  ∀ i, ∃ p, s.streams.stream i = ⟨content files i, p, false, false⟩

theorem plainW_exited {w : PWorker Got} : plainW w = .exited ↔ w = .exited := by
  cases w <;> simp [plainW]

theorem clean_seek {files : List (Nat × List UInt8)} {s : SectorStreams.State} (C : Clean files s) (loc : Loc) :
    (s.streams.seek loc).stream = update s.streams.stream loc.stream ⟨content files loc.stream, loc.offset, false, false⟩ := by
  obtain ⟨p, hp⟩ := C loc.stream
  simp only [Streams.seek, hp, seekg_good]

theorem content_of {files : List (Nat × List UInt8)} {i : Nat} {x : Nat × List UInt8} (h : files[i]? = some x) : content files i = x.2 := by
  simp [content, h]

/-- What a worker reads are the pixels of a record. -/
theorem read_spec {files : List (Nat × List UInt8)} (hw : ∀ x ∈ files, Whole x.2) {map : ScanMap} {flo fhi lo hi : Nat}
    (hidx : IsIndex (files.map toFile) flo fhi map) {s : SectorStreams.State} (C : Clean files s)
    (P : PInv (files.map toFile) map lo hi (recs s)) {p f fs j n acc loc} (hm : (.read p f fs j n acc loc : PWorker Got) ∈ s.workers) :
    (s.streams.stream loc.stream).pos = loc.offset ∧
      (s.streams.read loc).2.stream = update s.streams.stream loc.stream ⟨content files loc.stream, loc.offset + dataSize, false, false⟩ ∧
      dataAt (files.map toFile) loc.stream loc.offset = some (s.streams.read loc).1.data := by
  have hm' : plainW (.read p f fs j n acc loc) ∈ (recs s).workers := List.mem_map_of_mem hm
  obtain ⟨_, _, hat, a, ha, _, _, hl⟩ := P.fine _ hm'
  have hat : (s.streams.stream loc.stream).pos = loc.offset := hat
  obtain ⟨q, hq⟩ := C loc.stream
  rw [hq] at hat
  simp only at hat
  subst hat
  obtain ⟨i, jj, r, _, _, hrec, hloc⟩ := (hidx.loc p f j loc).1 ⟨a, ha, hl⟩
  subst hloc
  obtain ⟨x, hx, hlen, hr, _⟩ := isRecord_iff.1 hrec
  have hcut := whole_not_cut (hw x (List.mem_of_getElem? hx)) hlen
  simp only [Cut] at hcut
  have hc := content_of hx
  have hfull : jj * recordSize + 16 + dataSize ≤ (content files i).length := by rw [hc]; omega
  have e : (s.streams.read ⟨i, jj * recordSize + 16⟩).1.data = r.data := by
    rw [record_stored hrec]
    simp only [Streams.read, hq, read_full hfull]
    rfl
  refine ⟨by rw [hq], ?_, ?_⟩
  · simp only [Streams.read, hq, read_full hfull]
  · rw [e, dataAt]
    have h1 : (files.map toFile)[i]? = some (toFile x) := by rw [List.getElem?_map, hx]; rfl
    simp only [h1]
    have h2 : (jj * recordSize + 16) % recordSize = 16 := by
      rw [Nat.add_mod, Nat.mul_mod_left]; decide
    have h3 : (jj * recordSize + 16) / recordSize = jj := by
      rw [Nat.add_comm, Nat.add_mul_div_right _ _ (by decide)]
      have : 16 / recordSize = 0 := by decide
      omega
    rw [if_pos h2, h3, toFile]
    simp only
    rw [parse_get, if_pos hlen, hr]
    rfl

theorem pos_update (st : Nat → IStream) (i : Nat) (x : IStream) :
    (fun k => (update st i x k).pos) = update (fun k => (st k).pos) i x.pos := by
  funext k
  by_cases h : k = i <;> simp [update, h]

theorem clean_update {files : List (Nat × List UInt8)} {s t : SectorStreams.State} (C : Clean files s) {i p : Nat}
    (h : t.streams.stream = update s.streams.stream i ⟨content files i, p, false, false⟩) : Clean files t := by
  intro k
  rw [h]
  by_cases hk : k = i
  · subst hk; exact ⟨p, by simp [update]⟩
  · obtain ⟨q, hq⟩ := C k; exact ⟨q, by simp [update, hk, hq]⟩

section
variable {files : List (Nat × List UInt8)} {map : ScanMap} {flo fhi lo hi : Nat}

/-- A step on bytes is a step on records. -/
theorem step_recs (hw : ∀ x ∈ files, Whole x.2) (hidx : IsIndex (files.map toFile) flo fhi map) {s s' : SectorStreams.State} {l : Unit}
    (C : Clean files s) (P : PInv (files.map toFile) map lo hi (recs s)) (h : SectorStreams.Step map hi s l s') :
    PStep (files.map toFile) map hi (recs s) () (recs s') ∧ Clean files s' := by
  cases h with
  | @done pre post hw hp =>
    refine ⟨?_, C⟩
    have := PStep.done (files := files.map toFile) (map := map) (hi := hi) (s := recs s) (pre := pre.map plainW) (post := post.map plainW)
      (by simp [recs, hw, plainW]) hp
    simpa [recs, plainW] using this
  | @more pre post hw hp =>
    refine ⟨?_, C⟩
    have := PStep.more (files := files.map toFile) (map := map) (hi := hi) (s := recs s) (pre := pre.map plainW) (post := post.map plainW)
      (by simp [recs, hw, plainW]) hp
    simpa [recs, plainW] using this
  | @overrun pre post hw hp =>
    refine ⟨?_, C⟩
    have := PStep.overrun (files := files.map toFile) (map := map) (hi := hi) (s := recs s) (pre := pre.map plainW)
      (post := post.map plainW) (by simp [recs, hw, plainW]) hp
    simpa [recs, plainW] using this
  | @fetch pre post hw hp =>
    refine ⟨?_, C⟩
    have := PStep.fetch (files := files.map toFile) (map := map) (hi := hi) (s := recs s) (pre := pre.map plainW)
      (post := post.map plainW) (by simp [recs, hw, plainW]) hp
    simpa [recs, plainW] using this
  | @end_ pre post p hw =>
    refine ⟨?_, C⟩
    have := PStep.end_ (files := files.map toFile) (map := map) (hi := hi) (s := recs s) (pre := pre.map plainW)
      (post := post.map plainW) (p := p) (by simp [recs, hw, plainW])
    simpa [recs, plainW] using this
  | @frame pre post p f fs hw =>
    refine ⟨?_, C⟩
    have := PStep.frame (files := files.map toFile) (map := map) (hi := hi) (s := recs s) (pre := pre.map plainW)
      (post := post.map plainW) (p := p) (f := f) (fs := fs) (by simp [recs, hw, plainW])
    simpa [recs, plainW, plainItems] using this
  | @missing pre post p f fs j n acc a hw hj ha hn =>
    refine ⟨?_, C⟩
    have := PStep.missing (files := files.map toFile) (map := map) (hi := hi) (s := recs s) (pre := pre.map plainW)
      (post := post.map plainW) (p := p) (f := f) (fs := fs) (n := n) (acc := plainItems acc) (by simp [recs, hw, plainW]) hj ha hn
    simpa [recs, plainW] using this
  | @acquire pre post p f fs j n acc a loc hw hj ha hl hk =>
    refine ⟨?_, C⟩
    have := PStep.acquire (files := files.map toFile) (map := map) (hi := hi) (s := recs s) (pre := pre.map plainW)
      (post := post.map plainW) (p := p) (f := f) (fs := fs) (n := n) (acc := plainItems acc) (by simp [recs, hw, plainW]) hj ha hl hk
    simpa [recs, plainW] using this
  | @seek pre post p f fs j n acc loc hw =>
    have e := clean_seek C loc
    refine ⟨?_, clean_update C (t := { s with
        streams := s.streams.seek loc
        workers := pre ++ .read p f fs j n acc loc :: post }) e⟩
    have := PStep.seek (files := files.map toFile) (map := map) (hi := hi) (s := recs s) (pre := pre.map plainW)
      (post := post.map plainW) (p := p) (f := f) (fs := fs) (j := j) (n := n) (acc := plainItems acc) (loc := loc)
      (by simp [recs, hw, plainW])
    simpa [recs, plainW, e, pos_update] using this
  | @read pre post p f fs j n acc loc hws =>
    obtain ⟨e1, e2, e3⟩ := read_spec hw hidx C P (show (.read p f fs j n acc loc : PWorker Got) ∈ s.workers by simp [hws])
    refine ⟨?_, clean_update C (t := { s with
        streams := (s.streams.read loc).2
        locks := update s.locks loc.stream false
        workers := pre ++ .sector p f fs (j + 1) (n + 1) (acc ++ [(j, (s.streams.read loc).1)]) :: post }) e2⟩
    have := PStep.read (files := files.map toFile) (map := map) (hi := hi) (s := recs s) (pre := pre.map plainW)
      (post := post.map plainW) (p := p) (f := f) (fs := fs) (j := j) (n := n) (acc := plainItems acc) (loc := loc)
      (by simp [recs, hws, plainW])
    have hd : dataSize = 2 * (576 * 144) := rfl
    simpa [recs, plainW, plainItems, e1, e2, e3, pos_update, hd] using this
  | @deliver pre post p f fs n acc hw =>
    refine ⟨?_, C⟩
    have := PStep.deliver (files := files.map toFile) (map := map) (hi := hi) (s := recs s) (pre := pre.map plainW)
      (post := post.map plainW) (p := p) (f := f) (fs := fs) (n := n) (acc := plainItems acc) (by simp [recs, hw, plainW])
    simpa [recs, plainW, plain, plainItems] using this

/-- The step of the counting machine on records. -/
def recsC (x : State Θ) : CountingReader.State (List Nat) Θ := ⟨recs x.reader, x.counting⟩

theorem stepC_recs {K : Call (List Nat) Θ} (hw : ∀ x ∈ files, Whole x.2) (hidx : IsIndex (files.map toFile) flo fhi map) {x x' : State Θ}
    {l : Label} (C : Clean files x.reader) (P : PInv (files.map toFile) map lo hi (recs x.reader)) (h : Step K map hi x l x') :
    CountingReader.Step K (files.map toFile) map hi (recsC x) l (recsC x') ∧ Clean files x'.reader := by
  cases h with
  | @read r' rpre rpost w w' cpre cpost hub hs h1 h2 h3 h4 h5 h6 =>
    obtain ⟨g, C'⟩ := step_recs hw hidx C P hs
    refine ⟨?_, C'⟩
    exact CountingReader.Step.read (x := recsC x) (r' := recs r') (rpre := rpre.map plainW) (rpost := rpost.map plainW) (w := plainW w)
      (w' := plainW w') hub g (by simp [recsC, recs, h1]) (by simp [recs, h2]) (by rwa [Ne, plainW_exited])
      (by simp [recsC, recs, h4]) h5 (by rw [List.length_map]; exact h6)
  | @deliver r' rpre rpost w w' cpre cpost b hub hs h1 h2 h3 h4 h5 h6 =>
    obtain ⟨g, C'⟩ := step_recs hw hidx C P hs
    refine ⟨?_, C'⟩
    exact CountingReader.Step.deliver (x := recsC x) (r' := recs r') (rpre := rpre.map plainW) (rpost := rpost.map plainW) (w := plainW w)
      (w' := plainW w') hub g (by simp [recsC, recs, h1]) (by simp [recs, h2]) (by rwa [Ne, plainW_exited])
      (by simp [recsC, recs, h4]) h5 (by rw [List.length_map]; exact h6)
  | @finish r' rpre rpost w cpre cpost hub hs h1 h2 h4 h5 h6 =>
    obtain ⟨g, C'⟩ := step_recs hw hidx C P hs
    refine ⟨?_, C'⟩
    exact CountingReader.Step.finish (x := recsC x) (r' := recs r') (rpre := rpre.map plainW) (rpost := rpost.map plainW) (w := plainW w)
      hub g (by simp [recsC, recs, h1]) (by simp [recs, h2, plainW])
      (by simp [recsC, recs, h4]) h5 (by rw [List.length_map]; exact h6)
  | @count l c' hs hi => exact ⟨CountingReader.Step.count (x := recsC x) hs hi, C⟩
  | join hub hm hall =>
    refine ⟨CountingReader.Step.join (x := recsC x) hub hm ?_, C⟩
    intro w hw
    obtain ⟨v, hv, rfl⟩ := List.mem_map.1 hw
    exact plainW_exited.2 (hall v hv)

/-- The invariant of the reader in the counting machine. -/
theorem pinv_counting {K : Call (List Nat) Θ} (hn : 0 < K.threads) {files : List (File (List Nat))} {at_ : Nat → Nat} {ls : List Label}
    {y : CountingReader.State (List Nat) Θ} (h : Run (CountingReader.Step K files map hi) (CountingReader.init K lo at_) ls y) :
    PInv files map lo hi y.reader := by
  obtain ⟨_, _, ⟨rls, hr, _⟩, _⟩ := CountingReader.sim hn h
  exact (CountingReader.pinv_run hr).1

theorem init_recs (K : Call (List Nat) Θ) (lo : Nat) :
    recsC (init K lo (streamsOf files)) = CountingReader.init K lo (fun _ => 0) := by
  simp [recsC, recs, init, CountingReader.init, MultiPass.pinit, plainW, streamsOf, opened]

theorem clean_init (K : Call (List Nat) Θ) (lo : Nat) : Clean files (init K lo (streamsOf files)).reader :=
  fun _ => ⟨0, rfl⟩

/-- Every execution of the counting on bytes is one on records. -/
theorem run_recs {K : Call (List Nat) Θ} (hn : 0 < K.threads) (hw : ∀ x ∈ files, Whole x.2)
    (hidx : IsIndex (files.map toFile) flo fhi map) {ls : List Label} {x : State Θ}
    (h : Run (Step K map hi) (init K lo (streamsOf files)) ls x) :
    Run (CountingReader.Step K (files.map toFile) map hi) (CountingReader.init K lo (fun _ => 0)) ls (recsC x) ∧ Clean files x.reader := by
  generalize hx0 : init K lo (streamsOf files) = x0 at h
  induction h with
  | nil => subst hx0; rw [init_recs]; exact ⟨.nil _, clean_init K lo⟩
  | snoc h1 h2 ih =>
    obtain ⟨hr, C⟩ := ih
    obtain ⟨g, C'⟩ := stepC_recs (lo := lo) hw hidx C (pinv_counting hn hr) h2
    exact ⟨hr.snoc g, C'⟩

/-! ### The converse -/

theorem split_map {α β : Type} {g : α → β} {l : List α} {pre post : List β} {v : β} (h : l.map g = pre ++ v :: post) :
    ∃ pre' w post', l = pre' ++ w :: post' ∧ pre'.map g = pre ∧ g w = v ∧ post'.map g = post := by
  obtain ⟨pre', l2, rfl, e1, e2⟩ := List.map_eq_append_iff.1 h
  obtain ⟨w, post', rfl, e3, e4⟩ := List.map_eq_cons_iff.1 e2
  exact ⟨pre', w, post', rfl, e1, e3, e4⟩

theorem split_unique {α : Type} {a b a' b' : List α} {x y x' y' : α} (h1 : a ++ x :: b = a' ++ x' :: b')
    (h2 : a ++ y :: b = a' ++ y' :: b') (hne : x ≠ y) : a = a' ∧ x = x' ∧ y = y' ∧ b = b' := by
  induction a generalizing a' with
  | nil =>
    cases a' with
    | nil =>
      simp only [List.nil_append, List.cons.injEq] at h1 h2
      exact ⟨rfl, h1.1, h2.1, h1.2⟩
    | cons c a' =>
      simp only [List.nil_append, List.cons_append, List.cons.injEq] at h1 h2
      exact absurd (h1.1.trans h2.1.symm) hne
  | cons c a ih =>
    cases a' with
    | nil =>
      simp only [List.nil_append, List.cons_append, List.cons.injEq] at h1 h2
      have hl := h1.2.trans h2.2.symm
      have : x = y := by
        have := List.append_cancel_left hl
        simpa using this
      exact absurd this hne
    | cons c' a' =>
      simp only [List.cons_append, List.cons.injEq] at h1 h2
      obtain ⟨e1, e2, e3, e4⟩ := ih h1.2 h2.2
      exact ⟨by rw [e1, h1.1], e2, e3, e4⟩

theorem plainW_test {w : PWorker Got} (h : plainW w = .test) : w = .test := by cases w <;> simp [plainW] at h ⊢
theorem plainW_fetch {w : PWorker Got} (h : plainW w = .fetch) : w = .fetch := by cases w <;> simp [plainW] at h ⊢
theorem plainW_image {w : PWorker Got} {p fs} (h : plainW w = .image p fs) : w = .image p fs := by
  cases w <;> simp [plainW] at h ⊢; exact h
theorem plainW_sector {w : PWorker Got} {p f fs j n acc} (h : plainW w = .sector p f fs j n acc) :
    ∃ acc', w = .sector p f fs j n acc' ∧ plainItems acc' = acc := by
  cases w <;> simp [plainW] at h ⊢; obtain ⟨h1, h2, h3, h4, h5, h6⟩ := h; exact ⟨⟨h1, h2, h3, h4, h5⟩, h6⟩
theorem plainW_seek {w : PWorker Got} {p f fs j n acc loc} (h : plainW w = .seek p f fs j n acc loc) :
    ∃ acc', w = .seek p f fs j n acc' loc ∧ plainItems acc' = acc := by
  cases w <;> simp [plainW] at h ⊢
  obtain ⟨h1, h2, h3, h4, h5, h6, h7⟩ := h; exact ⟨⟨h1, h2, h3, h4, h5, h7⟩, h6⟩
theorem plainW_read {w : PWorker Got} {p f fs j n acc loc} (h : plainW w = .read p f fs j n acc loc) :
    ∃ acc', w = .read p f fs j n acc' loc ∧ plainItems acc' = acc := by
  cases w <;> simp [plainW] at h ⊢
  obtain ⟨h1, h2, h3, h4, h5, h6, h7⟩ := h; exact ⟨⟨h1, h2, h3, h4, h5, h7⟩, h6⟩

/-- A step on records is a step on bytes, of the same worker. -/
theorem step_back (hw : ∀ x ∈ files, Whole x.2) (hidx : IsIndex (files.map toFile) flo fhi map) {s : SectorStreams.State}
    {t : PState (List Nat)} (C : Clean files s) (P : PInv (files.map toFile) map lo hi (recs s))
    (h : PStep (files.map toFile) map hi (recs s) () t) {pre post : List (PWorker (List Nat))} {v v' : PWorker (List Nat)}
    (h1 : (recs s).workers = pre ++ v :: post) (h2 : t.workers = pre ++ v' :: post) :
    ∃ s' rpre w w' rpost, SectorStreams.Step map hi s () s' ∧ recs s' = t ∧ s.workers = rpre ++ w :: rpost ∧
      s'.workers = rpre ++ w' :: rpost ∧ rpre.length = pre.length ∧ plainW w' = v' := by
  -- it is enough to have a step on bytes whose result is the state
  have key : ∀ s' qpre w w' qpost, SectorStreams.Step map hi s () s' → recs s' = t → s.workers = qpre ++ w :: qpost →
      s'.workers = qpre ++ w' :: qpost → plainW w ≠ plainW w' →
      ∃ s' rpre w w' rpost, SectorStreams.Step map hi s () s' ∧ recs s' = t ∧ s.workers = rpre ++ w :: rpost ∧
        s'.workers = rpre ++ w' :: rpost ∧ rpre.length = pre.length ∧ plainW w' = v' := by
    intro s' qpre w w' qpost g1 g2 g3 g4 g5
    have e1 : qpre.map plainW ++ plainW w :: qpost.map plainW = pre ++ v :: post := by rw [← h1]; simp [recs, g3]
    have e2 : qpre.map plainW ++ plainW w' :: qpost.map plainW = pre ++ v' :: post := by rw [← h2, ← g2]; simp [recs, g4]
    obtain ⟨e3, _, e4, _⟩ := split_unique e1 e2 g5
    exact ⟨s', qpre, w, w', qpost, g1, g2, g3, g4, by simpa using congrArg List.length e3, e4⟩
  cases h with
  | @done pre0 post0 hws hp =>
    obtain ⟨qpre, w, qpost, hs, rfl, hwv, rfl⟩ := split_map hws
    obtain rfl := plainW_test hwv
    exact key _ _ _ _ _ (.done hs hp) (by simp [recs, plainW]) hs rfl (by simp [plainW])
  | @more pre0 post0 hws hp =>
    obtain ⟨qpre, w, qpost, hs, rfl, hwv, rfl⟩ := split_map hws
    obtain rfl := plainW_test hwv
    exact key _ _ _ _ _ (.more hs hp) (by simp [recs, plainW]) hs rfl (by simp [plainW])
  | @overrun pre0 post0 hws hp =>
    obtain ⟨qpre, w, qpost, hs, rfl, hwv, rfl⟩ := split_map hws
    obtain rfl := plainW_fetch hwv
    exact key _ _ _ _ _ (.overrun hs hp) (by simp [recs, plainW]) hs rfl (by simp [plainW])
  | @fetch pre0 post0 hws hp =>
    obtain ⟨qpre, w, qpost, hs, rfl, hwv, rfl⟩ := split_map hws
    obtain rfl := plainW_fetch hwv
    exact key _ _ _ _ _ (.fetch hs hp) (by simp [recs, plainW]) hs rfl (by simp [plainW])
  | @end_ pre0 post0 p hws =>
    obtain ⟨qpre, w, qpost, hs, rfl, hwv, rfl⟩ := split_map hws
    obtain rfl := plainW_image hwv
    exact key _ _ _ _ _ (.end_ hs) (by simp [recs, plainW]) hs rfl (by simp [plainW])
  | @frame pre0 post0 p f fs hws =>
    obtain ⟨qpre, w, qpost, hs, rfl, hwv, rfl⟩ := split_map hws
    obtain rfl := plainW_image hwv
    exact key _ _ _ _ _ (.frame hs) (by simp [recs, plainW, plainItems]) hs rfl (by simp [plainW])
  | @missing pre0 post0 p f fs j n acc a hws hj ha hn =>
    obtain ⟨qpre, w, qpost, hs, rfl, hwv, rfl⟩ := split_map hws
    obtain ⟨acc', rfl, rfl⟩ := plainW_sector hwv
    exact key _ _ _ _ _ (.missing hs hj ha hn) (by simp [recs, plainW]) hs rfl (by simp [plainW])
  | @acquire pre0 post0 p f fs j n acc a loc hws hj ha hl hk =>
    obtain ⟨qpre, w, qpost, hs, rfl, hwv, rfl⟩ := split_map hws
    obtain ⟨acc', rfl, rfl⟩ := plainW_sector hwv
    exact key _ _ _ _ _ (.acquire hs hj ha hl hk) (by simp [recs, plainW]) hs rfl (by simp [plainW])
  | @seek pre0 post0 p f fs j n acc loc hws =>
    obtain ⟨qpre, w, qpost, hs, rfl, hwv, rfl⟩ := split_map hws
    obtain ⟨acc', rfl, rfl⟩ := plainW_seek hwv
    have e := clean_seek C loc
    exact key _ _ _ _ _ (.seek hs) (by simp [recs, plainW, e, pos_update]) hs rfl (by simp [plainW])
  | @read pre0 post0 p f fs j n acc loc hws =>
    obtain ⟨qpre, w, qpost, hs, rfl, hwv, rfl⟩ := split_map hws
    obtain ⟨acc', rfl, rfl⟩ := plainW_read hwv
    obtain ⟨e1, e2, e3⟩ := read_spec hw hidx C P (show (.read p f fs j n acc' loc : PWorker Got) ∈ s.workers by simp [hs])
    have hd : dataSize = 2 * (576 * 144) := rfl
    exact key _ _ _ _ _ (.read hs) (by simp [recs, plainW, plainItems, e1, e2, e3, pos_update, hd]) hs rfl (by simp [plainW])
  | @deliver pre0 post0 p f fs n acc hws =>
    obtain ⟨qpre, w, qpost, hs, rfl, hwv, rfl⟩ := split_map hws
    obtain ⟨acc', rfl, rfl⟩ := plainW_sector hwv
    exact key _ _ _ _ _ (.deliver hs) (by simp [recs, plainW, plain, plainItems]) hs rfl (by simp [plainW])

theorem step_delivered {s s' : SectorStreams.State} (h : SectorStreams.Step map hi s () s') :
    s'.delivered = s.delivered ∨ ∃ b, s'.delivered = s.delivered ++ [b] := by
  cases h <;> first | exact .inl rfl | exact .inr ⟨_, rfl⟩

theorem stepC_back {K : Call (List Nat) Θ} (hw : ∀ x ∈ files, Whole x.2) (hidx : IsIndex (files.map toFile) flo fhi map) {x : State Θ}
    {y : CountingReader.State (List Nat) Θ} {l : Label} (C : Clean files x.reader) (P : PInv (files.map toFile) map lo hi (recs x.reader))
    (h : CountingReader.Step K (files.map toFile) map hi (recsC x) l y) : ∃ x', Step K map hi x l x' ∧ recsC x' = y := by
  generalize hy : recsC x = y0 at h
  cases h with
  | @read r' rpre rpost w w' cpre cpost hub hs h1 h2 h3 h4 h5 h6 =>
    subst hy
    obtain ⟨s', qpre, v, v', qpost, g1, g2, g3, g4, g5, g6⟩ := step_back hw hidx C P hs h1 h2
    refine ⟨_, Step.read hub g1 g3 g4 ?_ ?_ h5 (h6.trans g5.symm), ?_⟩
    · rintro rfl; exact h3 (by rw [← g6]; rfl)
    · have hd : s'.delivered.map plain = x.reader.delivered.map plain := by
        have : (recs s').delivered = (recsC x).reader.delivered := by rw [g2]; exact h4
        exact this
      rcases step_delivered g1 with e | ⟨b, e⟩
      · exact e
      · rw [e] at hd; simp at hd
    · simp [recsC, g2]
  | @deliver r' rpre rpost w w' cpre cpost b hub hs h1 h2 h3 h4 h5 h6 =>
    subst hy
    obtain ⟨s', qpre, v, v', qpost, g1, g2, g3, g4, g5, g6⟩ := step_back hw hidx C P hs h1 h2
    have hd : s'.delivered.map plain = x.reader.delivered.map plain ++ [b] := by
      have : (recs s').delivered = (recsC x).reader.delivered ++ [b] := by rw [g2]; exact h4
      exact this
    rcases step_delivered g1 with e | ⟨c, e⟩
    · rw [e] at hd; simp at hd
    · rw [e] at hd
      have hb : plain c = b := by simpa using hd
      subst hb
      refine ⟨_, Step.deliver hub g1 g3 g4 ?_ e h5 (h6.trans g5.symm), ?_⟩
      · rintro rfl; exact h3 (by rw [← g6]; rfl)
      · simp [recsC, g2]
  | @finish r' rpre rpost w cpre cpost hub hs h1 h2 h4 h5 h6 =>
    subst hy
    obtain ⟨s', qpre, v, v', qpost, g1, g2, g3, g4, g5, g6⟩ := step_back hw hidx C P hs h1 h2
    obtain rfl := plainW_exited.1 g6
    refine ⟨_, Step.finish hub g1 g3 g4 ?_ h5 (h6.trans g5.symm), ?_⟩
    · have hd : s'.delivered.map plain = x.reader.delivered.map plain := by
        have : (recs s').delivered = (recsC x).reader.delivered := by rw [g2]; exact h4
        exact this
      rcases step_delivered g1 with e | ⟨b, e⟩
      · exact e
      · rw [e] at hd; simp at hd
    · simp [recsC, g2]
  | @count l c' hs hi => subst hy; exact ⟨_, Step.count hs hi, rfl⟩
  | join hub hm hall =>
    subst hy
    refine ⟨_, Step.join hub hm ?_, rfl⟩
    intro w hw
    exact plainW_exited.1 (hall _ (List.mem_map_of_mem hw))

/-- Every execution on records is one on bytes. -/
theorem run_back {K : Call (List Nat) Θ} (hn : 0 < K.threads) (hw : ∀ x ∈ files, Whole x.2)
    (hidx : IsIndex (files.map toFile) flo fhi map) {ls : List Label} {y : CountingReader.State (List Nat) Θ}
    (h : Run (CountingReader.Step K (files.map toFile) map hi) (CountingReader.init K lo (fun _ => 0)) ls y) :
    ∃ x, Run (Step K map hi) (init K lo (streamsOf files)) ls x ∧ recsC x = y := by
  generalize hx0 : CountingReader.init K lo (fun _ => 0) = y0 at h
  induction h with
  | nil => subst hx0; exact ⟨_, .nil _, init_recs K lo⟩
  | snoc h1 h2 ih =>
    subst hx0
    obtain ⟨x, hx, rfl⟩ := ih
    obtain ⟨x', g1, g2⟩ := stepC_back (lo := lo) hw hidx (run_recs hn hw hidx hx).2 (pinv_counting hn h1) h2
    exact ⟨x', hx.snoc g1, g2⟩

end

/-! ### Header pass -/

/-- The worker on records. -/
def recW : HWorker → MultiPass.HWorker (List Nat)
  | .test => .test
  | .fetch => .fetch
  | .reading i sector st => .reading i sector (parse (st.bytes.drop st.pos)).1 st.pos
  | .store i sector _ st => .store i sector (record (st.bytes.drop (st.pos - 16))) (parse (st.bytes.drop (st.pos - 16 + recordSize))).1 st.pos
  | .exited => .exited

def recH (s : HState) : MultiPass.HState (List Nat) := ⟨s.processed, s.map, s.workers.map recW, s.ub⟩

/-- The stream of a worker has not failed, and no header was cut. -/
def WorkerOk (files : List (Nat × List UInt8)) (processed : Nat) : HWorker → Prop
  | .test | .fetch | .exited => True
  | .reading i _ st => i < processed ∧ ∃ p, st = ⟨content files i, p, false, false⟩ ∧ (parse ((content files i).drop p)).2 = false
  | .store i _ h st => i < processed ∧ ∃ p, st = ⟨content files i, p + 16, false, false⟩ ∧ p + 16 ≤ (content files i).length ∧
      h = headerAt ((content files i).drop p) ∧ (parse ((content files i).drop (p + recordSize))).2 = false

structure HOk (files : List (Nat × List UInt8)) (s : HState) : Prop where
  workers : ∀ w ∈ s.workers, WorkerOk files s.processed w
  streams : ∀ i, ∃ p e, s.streams i = ⟨content files i, p, e, false⟩
  fresh : ∀ i, s.processed ≤ i → s.streams i = opened (content files i)

section
variable {files : List (Nat × List UInt8)} {size hi : Nat}

theorem WorkerOk.mono {n m : Nat} {w : HWorker} (h : WorkerOk files n w) (hnm : n ≤ m) : WorkerOk files m w := by
  cases w with
  | test | fetch | exited => trivial
  | reading => exact ⟨Nat.lt_of_lt_of_le h.1 hnm, h.2⟩
  | store => exact ⟨Nat.lt_of_lt_of_le h.1 hnm, h.2⟩

theorem HOk.set {s s' : HState} {pre post : List HWorker} {w w' : HWorker} (I : HOk files s) (hw : s.workers = pre ++ w :: post)
    (hw' : s'.workers = pre ++ w' :: post) (hok : WorkerOk files s'.processed w') (hst : s'.streams = s.streams) (hp : s.processed ≤ s'.processed) :
    HOk files s' where
  workers := by
    intro x hx
    rw [hw'] at hx
    simp only [List.mem_append, List.mem_cons] at hx
    rcases hx with hx | rfl | hx
    · exact (I.workers x (by rw [hw]; simp [hx])).mono hp
    · exact hok
    · exact (I.workers x (by rw [hw]; simp [hx])).mono hp
  streams := by rw [hst]; exact I.streams
  fresh := by rw [hst]; exact fun i hi => I.fresh i (by omega)

theorem peek_some {b : List UInt8} {p : Nat} {c : UInt8} {st : IStream} (h : (⟨b, p, false, false⟩ : IStream).peek = (some c, st)) :
    p < b.length ∧ st = ⟨b, p, false, false⟩ := by
  by_cases hl : p < b.length
  · rw [peek_byte hl] at h
    simp only [Prod.mk.injEq] at h
    exact ⟨hl, h.2.symm⟩
  · rw [peek_end (by omega)] at h
    simp at h

theorem header_some {b : List UInt8} {p : Nat} {h : Rec Unit} {st : IStream} (hh : readHeader ⟨b, p, false, false⟩ = (some h, st)) :
    p + 16 ≤ b.length ∧ h = headerAt (b.drop p) ∧ st = ⟨b, p + 16, false, false⟩ := by
  by_cases hl : p + 16 ≤ b.length
  · rw [readHeader_ok hl] at hh
    simp only [Prod.mk.injEq, Option.some.injEq] at hh
    exact ⟨hl, hh.1.symm, hh.2.symm⟩
  · have := readHeader_cut (b := b) (p := p) (by omega)
    rw [hh] at this
    cases this

/-- A step of the header pass on bytes is one on records. -/
theorem hstep_rec (hcut : ∀ x ∈ files, (parse x.2).2 = false) {s s' : HState} {l : Unit} (I : HOk files s) (h : HStep files size hi s l s') :
    MultiPass.HStep (files.map toFile) size hi (recH s) () (recH s') ∧ HOk files s' := by
  cases h with
  | @done pre post hw hp =>
    refine ⟨?_, I.set hw rfl trivial rfl (Nat.le_refl _)⟩
    have := MultiPass.HStep.done (files := files.map toFile) (size := size) (hi := hi) (s := recH s) (pre := pre.map recW)
      (post := post.map recW) (by simp [recH, hw, recW]) hp
    simpa [recH, recW] using this
  | @more pre post hw hp =>
    refine ⟨?_, I.set hw rfl trivial rfl (Nat.le_refl _)⟩
    have := MultiPass.HStep.more (files := files.map toFile) (size := size) (hi := hi) (s := recH s) (pre := pre.map recW)
      (post := post.map recW) (by simp [recH, hw, recW]) hp
    simpa [recH, recW] using this
  | @overrun pre post hw hp =>
    refine ⟨?_, I.set hw rfl trivial rfl (Nat.le_succ _)⟩
    have := MultiPass.HStep.overrun (files := files.map toFile) (size := size) (hi := hi) (s := recH s) (pre := pre.map recW)
      (post := post.map recW) (by simp [recH, hw, recW]) hp
    simpa [recH, recW] using this
  | @fetch pre post f hw hp hf =>
    have hc := content_of hf
    have hfr := I.fresh s.processed (Nat.le_refl _)
    refine ⟨?_, I.set hw rfl ⟨Nat.lt_succ_self _, 0, hfr, ?_⟩ rfl (Nat.le_succ _)⟩
    · have := MultiPass.HStep.fetch (files := files.map toFile) (size := size) (hi := hi) (s := recH s) (pre := pre.map recW)
        (post := post.map recW) (f := toFile f) (by simp [recH, hw, recW]) hp (by rw [List.getElem?_map]; simp [recH, hf])
      simpa [recH, recW, hfr, opened, hc, toFile] using this
    · rw [List.drop_zero, hc]
      exact hcut f (List.mem_of_getElem? hf)
  | @badStream pre post hw hp hf =>
    refine ⟨?_, I.workers, I.streams, I.fresh⟩
    have := MultiPass.HStep.badStream (files := files.map toFile) (size := size) (hi := hi) (s := recH s) (pre := pre.map recW)
      (post := post.map recW) (by simp [recH, hw, recW]) hp (by rw [List.getElem?_map]; simp [recH, hf])
    simpa [recH] using this
  | @eof pre post i sector st st' hw hpeek =>
    obtain ⟨hip, p, rfl, hc⟩ := I.workers (.reading i sector st) (by simp [hw])
    have hle : (content files i).length ≤ p := by
      by_contra hlt
      rw [peek_byte (by omega)] at hpeek
      simp at hpeek
    rw [peek_end hle] at hpeek
    simp only [Prod.mk.injEq, true_and] at hpeek
    subst hpeek
    refine ⟨?_, ?_, ?_, ?_⟩
    · have := MultiPass.HStep.eof (files := files.map toFile) (size := size) (hi := hi) (s := recH s) (pre := pre.map recW)
        (post := post.map recW) (i := i) (sector := sector) (at_ := p)
        (by simp [recH, hw, recW, List.drop_eq_nil_of_le hle, parse_nil])
      simpa [recH, recW] using this
    · intro w hm
      simp only [List.mem_append, List.mem_cons] at hm
      rcases hm with hm | rfl | hm
      · exact I.workers w (by rw [hw]; simp [hm])
      · trivial
      · exact I.workers w (by rw [hw]; simp [hm])
    · intro k
      by_cases hk : k = i
      · subst hk; exact ⟨p, true, by simp [update]⟩
      · obtain ⟨q, e, hq⟩ := I.streams k
        exact ⟨q, e, by simp [update, hk, hq]⟩
    · intro k hk
      simp only at hk
      have : k ≠ i := by omega
      simp only [update, if_neg this]
      exact I.fresh k hk
  | @lookup pre post i sector st c st' h st'' hw hpeek hhd hpos =>
    obtain ⟨hip, p, rfl, hc⟩ := I.workers (.reading i sector st) (by simp [hw])
    obtain ⟨hl, rfl⟩ := peek_some hpeek
    obtain ⟨h16, rfl, rfl⟩ := header_some hhd
    have hp := parse_long (b := (content files i).drop p) (by rw [List.length_drop, headerSize]; omega)
    rw [List.drop_drop] at hp
    refine ⟨?_, I.set hw rfl ⟨hip, p, rfl, h16, rfl, ?_⟩ rfl (Nat.le_refl _)⟩
    · have := MultiPass.HStep.lookup (files := files.map toFile) (size := size) (hi := hi) (s := recH s) (pre := pre.map recW)
        (post := post.map recW) (i := i) (sector := sector) (at_ := p) (r := record ((content files i).drop p))
        (rest := (parse ((content files i).drop (p + recordSize))).1)
        (by simp [recH, hw, recW, hp]) hpos
      have e : p + 16 - 16 = p := by omega
      simp only [recH, List.map_append, List.map_cons, recW, e] at this ⊢
      exact this
    · rw [hp] at hc
      exact hc
  | @badHeader pre post i sector st c st' st'' hw hpeek hhd =>
    obtain ⟨hip, p, rfl, hc⟩ := I.workers (.reading i sector st) (by simp [hw])
    obtain ⟨hl, rfl⟩ := peek_some hpeek
    exfalso
    have h16 : ¬ p + 16 ≤ (content files i).length := by
      intro h16
      rw [readHeader_ok h16] at hhd
      simp at hhd
    rw [parse_short (by simp; omega) (by rw [List.length_drop, headerSize]; omega)] at hc
    cases hc
  | @badPosition pre post i sector st c st' h st'' hw hpeek hhd hpos =>
    obtain ⟨hip, p, rfl, hc⟩ := I.workers (.reading i sector st) (by simp [hw])
    obtain ⟨hl, rfl⟩ := peek_some hpeek
    obtain ⟨h16, rfl, rfl⟩ := header_some hhd
    have hp := parse_long (b := (content files i).drop p) (by rw [List.length_drop, headerSize]; omega)
    rw [List.drop_drop] at hp
    refine ⟨?_, I.workers, I.streams, I.fresh⟩
    have := MultiPass.HStep.badPosition (files := files.map toFile) (size := size) (hi := hi) (s := recH s) (pre := pre.map recW)
      (post := post.map recW) (i := i) (sector := sector) (at_ := p) (r := record ((content files i).drop p))
      (rest := (parse ((content files i).drop (p + recordSize))).1)
      (by simp [recH, hw, recW, hp]) hpos
    simpa [recH] using this
  | @store pre post i sector h st off st' a hw hsec htell ha =>
    obtain ⟨hip, p, rfl, hl, rfl, hc⟩ := I.workers (.store i sector h st) (by simp [hw])
    rw [tellg_good] at htell
    simp only [Prod.mk.injEq, Option.some.injEq] at htell
    obtain ⟨rfl, rfl⟩ := htell
    have e : p + 16 - 16 = p := by omega
    have e2 : p + 16 + dataSize = p + recordSize := by rw [recordSize_eq, headerSize]; omega
    have e3 : p + 16 + 2 * (576 * 144) = p + recordSize := e2
    refine ⟨?_, I.set hw rfl ⟨hip, p + recordSize, ?_, hc⟩ rfl (Nat.le_refl _)⟩
    · have := MultiPass.HStep.store (files := files.map toFile) (size := size) (hi := hi) (s := recH s) (pre := pre.map recW)
        (post := post.map recW) (i := i) (sector := sector) (at_ := p + 16) (r := record ((content files i).drop p))
        (rest := (parse ((content files i).drop (p + recordSize))).1)
        (by simp [recH, hw, recW, e]) hsec ha
      rw [e3] at this
      simp only [recH, List.map_append, List.map_cons, recW, skip_good, e2] at this ⊢
      exact this
    · rw [skip_good, e2]
  | @badTell pre post i sector h st st' hw htell =>
    obtain ⟨hip, p, rfl, hl, rfl, hc⟩ := I.workers (.store i sector h st) (by simp [hw])
    rw [tellg_good] at htell
    simp at htell
  | @badSector pre post i sector h st hw hsec =>
    refine ⟨?_, I.workers, I.streams, I.fresh⟩
    obtain ⟨hip, p, rfl, hl, rfl, hc⟩ := I.workers (.store i sector h st) (by simp [hw])
    have := MultiPass.HStep.badSector (files := files.map toFile) (size := size) (hi := hi) (s := recH s) (pre := pre.map recW)
      (post := post.map recW) (i := i) (sector := sector) (at_ := p + 16) (r := record ((content files i).drop p))
      (rest := (parse ((content files i).drop (p + recordSize))).1)
      (by simp [recH, hw, recW]) hsec
    simpa [recH] using this

theorem hok_init (n lo : Nat) : HOk files (hinit n lo (streamsOf files)) where
  workers := by
    intro w hw
    rw [show w = .test from List.eq_of_mem_replicate hw]
    trivial
  streams := fun i => ⟨0, false, rfl⟩
  fresh := fun i _ => rfl

theorem hrun_rec (hcut : ∀ x ∈ files, (parse x.2).2 = false) {n lo : Nat} {ls : List Unit} {s : HState}
    (h : Run (HStep files size hi) (hinit n lo (streamsOf files)) ls s) :
    Run (MultiPass.HStep (files.map toFile) size hi) (MultiPass.hinit n lo) ls (recH s) ∧ HOk files s := by
  generalize hs0 : hinit n lo (streamsOf files) = s0 at h
  induction h with
  | nil =>
    subst hs0
    refine ⟨?_, hok_init n lo⟩
    have : recH (hinit n lo (streamsOf files)) = MultiPass.hinit n lo := by simp [recH, hinit, MultiPass.hinit, recW]
    rw [this]
    exact .nil _
  | snoc h1 h2 ih =>
    obtain ⟨hr, I⟩ := ih
    obtain ⟨g, I'⟩ := hstep_rec hcut I h2
    exact ⟨hr.snoc g, I'⟩

theorem recW_exited {w : HWorker} : recW w = .exited ↔ w = .exited := by cases w <;> simp [recW]

/-- The streams are as they were opened when they have been rewound. -/
theorem rewound_eq {s : HState} (I : HOk files s) : rewound s.streams = streamsOf files := by
  funext i
  obtain ⟨p, e, h⟩ := I.streams i
  rw [rewound, h, seekg_good]
  rfl

/-- The header pass on bytes goes on as long as that on records. -/
theorem hstep_progress {s : HState} (I : HOk files s) {t : MultiPass.HState (List Nat)}
    (h : MultiPass.HStep (files.map toFile) size hi (recH s) () t) : ∃ s', HStep files size hi s () s' := by
  have reading : ∀ {pre i sector st post}, s.workers = pre ++ .reading i sector st :: post → ∃ s', HStep files size hi s () s' := by
    intro pre i sector st post hw
    rcases hp : st.peek with ⟨c, st'⟩
    cases c with
    | none => exact ⟨_, .eof hw hp⟩
    | some c =>
      rcases hh : readHeader st' with ⟨h, st''⟩
      cases h with
      | none => exact ⟨_, .badHeader hw hp hh⟩
      | some h =>
        by_cases hpos : h.pos < size
        · exact ⟨_, .lookup hw hp hh hpos⟩
        · exact ⟨_, .badPosition hw hp hh (by omega)⟩
  have getW : ∀ {pre post} {v : MultiPass.HWorker (List Nat)}, (recH s).workers = pre ++ v :: post →
      ∃ pre' w post', s.workers = pre' ++ w :: post' ∧ recW w = v := by
    intro pre post v h
    obtain ⟨a, b, c, h1, _, h2, _⟩ := split_map h
    exact ⟨a, b, c, h1, h2⟩
  cases h with
  | done hw hp =>
    obtain ⟨a, w, b, h1, h2⟩ := getW hw
    cases w <;> simp [recW] at h2
    exact ⟨_, .done h1 hp⟩
  | more hw hp =>
    obtain ⟨a, w, b, h1, h2⟩ := getW hw
    cases w <;> simp [recW] at h2
    exact ⟨_, .more h1 hp⟩
  | overrun hw hp =>
    obtain ⟨a, w, b, h1, h2⟩ := getW hw
    cases w <;> simp [recW] at h2
    exact ⟨_, .overrun h1 hp⟩
  | fetch hw hp hf =>
    obtain ⟨a, w, b, h1, h2⟩ := getW hw
    cases w <;> simp [recW] at h2
    rw [List.getElem?_map, Option.map_eq_some_iff] at hf
    obtain ⟨x, hx, _⟩ := hf
    exact ⟨_, .fetch h1 hp hx⟩
  | badStream hw hp hf =>
    obtain ⟨a, w, b, h1, h2⟩ := getW hw
    cases w <;> simp [recW] at h2
    rw [List.getElem?_map, Option.map_eq_none_iff] at hf
    exact ⟨_, .badStream h1 hp hf⟩
  | eof hw =>
    obtain ⟨a, w, b, h1, h2⟩ := getW hw
    cases w <;> simp [recW] at h2
    exact reading h1
  | lookup hw =>
    obtain ⟨a, w, b, h1, h2⟩ := getW hw
    cases w <;> simp [recW] at h2
    exact reading h1
  | badPosition hw =>
    obtain ⟨a, w, b, h1, h2⟩ := getW hw
    cases w <;> simp [recW] at h2
    exact reading h1
  | @store _ _ _ _ _ _ _ aa hw hsec ha =>
    obtain ⟨a, w, b, h1, h2⟩ := getW hw
    cases w with
    | store i sector h st =>
      obtain ⟨hip, p, rfl, hl, rfl, hc⟩ := I.workers (.store i sector h st) (by simp [h1])
      have e : p + 16 - 16 = p := by omega
      simp only [recW, e, MultiPass.HWorker.store.injEq] at h2
      obtain ⟨rfl, rfl, rfl, rfl, rfl⟩ := h2
      exact ⟨_, .store h1 hsec (tellg_good _ _) ha⟩
    | _ => simp [recW] at h2
  | badSector hw hsec =>
    obtain ⟨a, w, b, h1, h2⟩ := getW hw
    cases w with
    | store i sector h st =>
      simp only [recW, MultiPass.HWorker.store.injEq] at h2
      obtain ⟨rfl, rfl, _⟩ := h2
      exact ⟨_, .badSector h1 hsec⟩
    | _ => simp [recW] at h2

end

end Stempy.ByteCounting
