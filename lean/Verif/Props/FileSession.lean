import Verif.Model.FileSession
import Verif.Props.FilePipeline
import Verif.Props.RawFiles

/-!
# C114: sessions with a reader of stream files or of an HDF5 file
-/

namespace Stempy.Props.FileSession
open Stempy.Spec Stempy.FileSession Stempy.FilePipeline Stempy.Props.RawFiles
open Stempy.RawFiles (Call Answer Answers)
open Stempy.BlockPipeline (Setup)
open Stempy.Electron (CountOptions countFrameClassic electronCountClassic)

variable {S : Type} {R : Reader S}

/-! ### Specification -/

/-- The result of `electron_count` if the blocks `rest` were not read yet and there are the blocks `all`: the thresholds are those of the
next blocks, and all blocks are counted. -/
def CountResult (all rest : List Image.Block) (o : Setup) (r : Outcome ((Nat × Nat) × List (List (List Nat)))) : Prop :=
  if rest.length < o.numBlocks then r = .throw "StopIteration"
  else match o.options (rest.take o.numBlocks) with
    | .ok options => r = electronCountClassic (countFrameClassic options) all o.scan
    | .throw m => r = .throw m
    | .ub => r = .ub

/-- What the operations give if the reader goes through the list of blocks `all`, of which `rest` are left: `next` gives the next one, a call
the answer for those that are left. A call that returns leaves none, one that raises may leave some. -/
def Follows (all : List Image.Block) : List Image.Block → List Op → Prop
  | _, [] => True
  | _, .reset :: ops => Follows all all ops
  | rest, .next r :: ops => r = .ok rest.head? ∧ Follows all rest.tail ops
  | rest, .call c a :: ops => Answers rest c a ∧ ∃ n, (a.Returns → rest.length ≤ n) ∧ Follows all (rest.drop n) ops
  | rest, .count o r :: ops => CountResult all rest o r ∧ ∃ n, ((∃ x, r = .ok x) ∧ all.length ≤ n ∧ Follows all (all.drop n) ops) ∨
      ((∀ x, r ≠ .ok x) ∧ (Follows all (all.drop n) ops ∨ Follows all (rest.drop n) ops))

/-- The same with the frames in the blocks, for calls with valid arguments (for images and histograms also with no more than one frame left
for each position): the answers are those for the frames that are left. -/
def Correct (w h W H : Nat) (d : Nat × Nat) (all : List (List Spec.Frame)) : List (List Spec.Frame) → List Op → Prop
  | _, [] => True
  | _, .reset :: ops => Correct w h W H d all all ops
  | rest, .next r :: ops => r = .ok (rest.head?.map (mkBlock d (w, h))) ∧ Correct w h W H d all rest.tail ops
  | rest, .call c a :: ops =>
    (Valid w h W H d c → (NeedsOnce c → (rest.flatten.map (·.1)).Nodup) → if rest = [] then Spent c a else Right w h W H rest.flatten c a) ∧
    ∃ n, (a.Returns → rest.length ≤ n) ∧ Correct w h W H d all (rest.drop n) ops
  | rest, .count o r :: ops => CountResult (all.map (mkBlock d (w, h))) (rest.map (mkBlock d (w, h))) o r ∧
    ∃ n, ((∃ x, r = .ok x) ∧ all.length ≤ n ∧ Correct w h W H d all (all.drop n) ops) ∨
      ((∀ x, r ≠ .ok x) ∧ (Correct w h W H d all (all.drop n) ops ∨ Correct w h W H d all (rest.drop n) ops))

/-! ### Readers with a cursor -/

/-- In the states `At s rest`, the reader gives the blocks `rest` and then reports the end, from C++ and from Python. -/
structure Cursor (R : Reader S) (all : List Image.Block) (At : S → List Image.Block → Prop) : Prop where
  reset : ∀ {s rest}, At s rest → At (R.reset s) all
  same : ∀ {s rest}, At s rest → R.next s = R.read s
  cons : ∀ {s b rest}, At s (b :: rest) → ∃ t, R.read s = (.ok (some b), t) ∧ At t rest
  nil : ∀ {s}, At s [] → ∃ t, R.read s = (.ok none, t) ∧ At t []

variable {all : List Image.Block} {At : S → List Image.Block → Prop}

private theorem reads_at (C : Cursor R all At) {s t : S} {bs rest : List Image.Block} (h : Reads R s bs t) (hs : At s rest) :
    rest = bs ++ rest.drop bs.length ∧ At t (rest.drop bs.length) := by
  induction h generalizing rest with
  | nil s => exact ⟨by simp, by simpa using hs⟩
  | @cons s t u b bs e _ ih =>
    cases rest with
    | nil =>
      obtain ⟨t', h', _⟩ := C.nil hs
      rw [e] at h'
      simp at h'
    | cons b' rest =>
      obtain ⟨t', h', ha⟩ := C.cons hs
      rw [e] at h'
      simp only [Prod.mk.injEq, Outcome.ok.injEq, Option.some.injEq] at h'
      obtain ⟨rfl, rfl⟩ := h'
      obtain ⟨h1, h2⟩ := ih ha
      exact ⟨by simpa using h1, by simpa using h2⟩

private theorem toEnd_at (C : Cursor R all At) {s t : S} {bs rest : List Image.Block} (h : ToEnd R s bs t) (hs : At s rest) :
    bs = rest ∧ At t [] := by
  obtain ⟨u, h1, h2⟩ := h
  obtain ⟨e, ha⟩ := reads_at C h1 hs
  cases hd : rest.drop bs.length with
  | nil =>
    rw [hd] at ha e
    obtain ⟨t', h', hn⟩ := C.nil ha
    rw [h2] at h'
    simp only [Prod.mk.injEq, true_and] at h'
    exact ⟨by simpa using e.symm, h' ▸ hn⟩
  | cons b l =>
    rw [hd] at ha
    obtain ⟨t', h', _⟩ := C.cons ha
    rw [h2] at h'
    simp at h'

private theorem not_fails (C : Cursor R all At) {s t : S} {rest : List Image.Block} (hs : At s rest) : ¬ Fails R s t := by
  rintro ⟨blocks, u, e, v, h1, h2, h3, _⟩
  obtain ⟨_, ha⟩ := reads_at C h1 hs
  cases hd : rest.drop blocks.length with
  | nil =>
    rw [hd] at ha
    obtain ⟨t', h', _⟩ := C.nil ha
    rw [h2] at h'
    exact h3 _ (Prod.mk.inj h').1
  | cons b l =>
    rw [hd] at ha
    obtain ⟨t', h', _⟩ := C.cons ha
    rw [h2] at h'
    exact h3 _ (Prod.mk.inj h').1

private theorem toEnd_exists (C : Cursor R all At) {rest : List Image.Block} : ∀ {s : S}, At s rest → ∃ t, ToEnd R s rest t ∧ At t [] := by
  induction rest with
  | nil =>
    intro s hs
    obtain ⟨t, h1, h2⟩ := C.nil hs
    exact ⟨t, ⟨s, .nil s, h1⟩, h2⟩
  | cons b rest ih =>
    intro s hs
    obtain ⟨t, h1, h2⟩ := C.cons hs
    obtain ⟨u, ⟨v, h3, h4⟩, h5⟩ := ih h2
    exact ⟨u, ⟨v, .cons h1 h3, h4⟩, h5⟩

private theorem readAll_at (C : Cursor R all At) {s : S} {r : Outcome (List Image.Block)} (h : ReadAll R s r) {rest : List Image.Block}
    (hs : At s rest) : r = .ok rest := by
  induction h generalizing rest with
  | done e => rw [(toEnd_at C ⟨_, .nil _, e⟩ hs).1]
  | throw e => exact absurd (⟨[], _, _, _, .nil _, e, by simp, .inl rfl⟩ : Fails R _ _) (not_fails C hs)
  | ub e => exact absurd (⟨[], _, _, _, .nil _, e, by simp, .inl rfl⟩ : Fails R _ _) (not_fails C hs)
  | @step s t b r e _ ih =>
    obtain ⟨h1, h2⟩ := reads_at C (.cons e (.nil t)) hs
    rw [ih h2]
    conv_rhs => rw [h1]
    rfl

private theorem readAll_exists (C : Cursor R all At) {rest : List Image.Block} : ∀ {s : S}, At s rest → ReadAll R s (.ok rest) := by
  induction rest with
  | nil =>
    intro s hs
    obtain ⟨t, h1, _⟩ := C.nil hs
    exact .done h1
  | cons b rest ih =>
    intro s hs
    obtain ⟨t, h1, h2⟩ := C.cons hs
    exact .step h1 (ih h2)

private theorem sample_at (C : Cursor R all At) (n : Nat) : ∀ {s : S} {rest : List Image.Block}, At s rest →
    (FilePipeline.sample R n s).1 = (if rest.length < n then .throw "StopIteration" else .ok (rest.take n)) ∧
    At (FilePipeline.sample R n s).2 (rest.drop n) := by
  induction n with
  | zero => intro s rest hs; exact ⟨by simp [FilePipeline.sample], by simpa [FilePipeline.sample] using hs⟩
  | succ n ih =>
    intro s rest hs
    unfold FilePipeline.sample
    rw [C.same hs]
    cases rest with
    | nil =>
      obtain ⟨t, h1, h2⟩ := C.nil hs
      rw [h1]
      exact ⟨by simp, by simpa using h2⟩
    | cons b rest =>
      obtain ⟨t, h1, h2⟩ := C.cons hs
      rw [h1]
      obtain ⟨h3, h4⟩ := ih h2
      simp only
      rcases hx : FilePipeline.sample R n t with ⟨x, u⟩
      rw [hx] at h3 h4
      simp only at h3 h4
      by_cases hl : rest.length < n
      · rw [if_pos hl] at h3
        subst h3
        exact ⟨by simp [hl], by simpa using h4⟩
      · rw [if_neg hl] at h3
        subst h3
        exact ⟨by simp [hl], by simpa using h4⟩

private theorem counts_at (C : Cursor R all At) {s : S} {rest : List Image.Block} (hs : At s rest) (o : Setup)
    (r : Outcome ((Nat × Nat) × List (List (List Nat)))) : Counts R o s r ↔ CountResult all rest o r := by
  obtain ⟨h1, h2⟩ := sample_at C o.numBlocks hs
  unfold Counts CountResult
  rcases hx : FilePipeline.sample R o.numBlocks s with ⟨x, u⟩
  rw [hx] at h1 h2
  simp only at h1 h2
  have h3 := C.reset h2
  by_cases hl : rest.length < o.numBlocks
  · rw [if_pos hl] at h1 ⊢
    subst h1
    exact Iff.rfl
  · rw [if_neg hl] at h1 ⊢
    subst h1
    simp only
    cases o.options (rest.take o.numBlocks) with
    | throw m => exact Iff.rfl
    | ub => exact Iff.rfl
    | ok options =>
      constructor
      · rintro ⟨r', h4, rfl⟩
        rw [readAll_at C h4 h3]
        rfl
      · rintro rfl
        exact ⟨_, readAll_exists C h3, rfl⟩

private theorem called_at (C : Cursor R all At) {s t : S} {rest : List Image.Block} (hs : At s rest) {c : Call} {a : Answer}
    (h : Called R c s a t) : Answers rest c a ∧ ∃ n, (a.Returns → rest.length ≤ n) ∧ At t (rest.drop n) := by
  cases h with
  | all h ha =>
    obtain ⟨rfl, h2⟩ := toEnd_at C h hs
    exact ⟨ha, _, fun _ => le_rfl, by simpa using h2⟩
  | raised h ha hn hr =>
    obtain ⟨rfl, _⟩ := toEnd_at C h hs
    exact ⟨ha, 1, fun h => absurd h hn, (reads_at C (.cons hr (.nil _)) hs).2⟩
  | failed h _ => exact absurd h (not_fails C hs)

private theorem counted_at (C : Cursor R all At) {s t : S} {rest : List Image.Block} (hs : At s rest) {o : Setup}
    {r : Outcome ((Nat × Nat) × List (List (List Nat)))} (h : FileSession.Counted R o s r t) : CountResult all rest o r ∧
      ∃ n, ((∃ x, r = .ok x) ∧ all.length ≤ n ∧ At t (all.drop n)) ∨ ((∀ x, r ≠ .ok x) ∧ (At t (all.drop n) ∨ At t (rest.drop n))) := by
  obtain ⟨h1, h2⟩ := h
  refine ⟨(counts_at C hs o r).1 h1, ?_⟩
  have h3 := (sample_at C o.numBlocks hs).2
  have h4 := C.reset h3
  rcases h2 with ⟨blocks, h2⟩ | ⟨hn, h2 | ⟨blocks, h2⟩ | h2⟩
  · obtain ⟨rfl, h5⟩ := toEnd_at C h2 h4
    refine ⟨blocks.length, ?_⟩
    have h5 : At t (blocks.drop blocks.length) := by simpa using h5
    by_cases hr : ∃ x, r = .ok x
    · exact .inl ⟨hr, le_rfl, h5⟩
    · exact .inr ⟨fun x hx => hr ⟨x, hx⟩, .inl h5⟩
  · exact ⟨o.numBlocks, .inr ⟨hn, .inr (h2 ▸ h3)⟩⟩
  · exact ⟨blocks.length, .inr ⟨hn, .inl (reads_at C h2 h4).2⟩⟩
  · exact absurd h2 (not_fails C h4)

private theorem next_at (C : Cursor R all At) {s : S} {rest : List Image.Block} (hs : At s rest) :
    (R.next s).1 = .ok rest.head? ∧ At (R.next s).2 rest.tail := by
  rw [C.same hs]
  cases rest with
  | nil =>
    obtain ⟨t, h1, h2⟩ := C.nil hs
    rw [h1]
    exact ⟨rfl, h2⟩
  | cons b rest =>
    obtain ⟨t, h1, h2⟩ := C.cons hs
    rw [h1]
    exact ⟨rfl, h2⟩

/-- The blocks of a session. -/
private theorem follows (C : Cursor R all At) {s t : S} {ops : List Op} (h : Session R s ops t) : ∀ {rest : List Image.Block}, At s rest →
    Follows all rest ops := by
  have does : ∀ {s t : S} {op : Op} {ops : List Op}, Does R s op t → (∀ {rest}, At t rest → Follows all rest ops) →
      ∀ {rest}, At s rest → Follows all rest (op :: ops) := by
    intro s t op ops hd ih rest hs
    cases hd with
    | reset => exact ih (C.reset hs)
    | next => exact ⟨(next_at C hs).1, ih (next_at C hs).2⟩
    | call h =>
      obtain ⟨h1, n, h2, h3⟩ := called_at C hs h
      exact ⟨h1, n, h2, ih h3⟩
    | count h =>
      obtain ⟨h1, n, h2⟩ := counted_at C hs h
      refine ⟨h1, n, h2.imp (fun h => ⟨h.1, h.2.1, ih h.2.2⟩) fun h => ⟨h.1, h.2.imp ih ih⟩⟩
  induction h with
  | nil => intro rest _; trivial
  | step hd _ _ ih => exact fun hs => does hd ih hs
  | undefined hd _ => exact fun hs => does (ops := []) hd (fun _ => trivial) hs

/-- What holds of the frames in all blocks. -/
structure BlocksOK (w h W H : Nat) (bs : List (List Spec.Frame)) : Prop where
  scan : W * H < 2 ^ 32
  wlt : w < 2 ^ 31
  hlt : h < 2 ^ 31
  size : w * h < 2 ^ 32
  count : bs.flatten.length + 32 ≤ 2 ^ 32
  some : ∀ l ∈ bs, l ≠ []
  block : ∀ l ∈ bs, l.length * (w * h) ≤ 2 ^ 32
  len : ∀ f ∈ bs.flatten, f.2.length = w * h
  px : ∀ f ∈ bs.flatten, ∀ v ∈ f.2, v < 65536
  pos : ∀ f ∈ bs.flatten, f.1 < W * H

private theorem BlocksOK.drop {w h W H : Nat} {bs : List (List Spec.Frame)} (ok : BlocksOK w h W H bs) (n : Nat) : BlocksOK w h W H (bs.drop n) := by
  have hs : (bs.drop n).flatten.Sublist bs.flatten := (List.drop_sublist n bs).flatten
  have hl := hs.length_le
  have hc := ok.count
  exact ⟨ok.scan, ok.wlt, ok.hlt, ok.size, by omega, fun l hm => ok.some l (List.mem_of_mem_drop hm), fun l hm => ok.block l (List.mem_of_mem_drop hm),
    fun f hf => ok.len f (hs.subset hf), fun f hf => ok.px f (hs.subset hf), fun f hf => ok.pos f (hs.subset hf)⟩

private theorem BlocksOK.frames {w h W H : Nat} {bs : List (List Spec.Frame)} (ok : BlocksOK w h W H bs) (hne : bs ≠ []) :
    FramesOK w h W H bs.flatten := by
  refine ⟨?_, ok.wlt, ok.hlt, ok.size, ok.count, ok.len, ok.px, ok.pos⟩
  obtain ⟨l, ls, rfl⟩ := List.exists_cons_of_ne_nil hne
  have := ok.some l (by simp)
  simp [this]

private theorem correct {w h W H : Nat} {d : Nat × Nat} {bs : List (List Spec.Frame)} (ok : BlocksOK w h W H bs) (ops : List Op) :
    ∀ {rest : List (List Spec.Frame)}, BlocksOK w h W H rest → Follows (bs.map (mkBlock d (w, h))) (rest.map (mkBlock d (w, h))) ops →
      Correct w h W H d bs rest ops := by
  induction ops with
  | nil => intros; trivial
  | cons op ops ih =>
    intro rest hr hf
    cases op with
    | reset => exact ih ok hf
    | next r =>
      obtain ⟨h1, h2⟩ := hf
      refine ⟨by rw [h1, List.head?_map], ?_⟩
      rw [← List.map_tail] at h2
      refine ih ?_ h2
      rw [← List.drop_one]
      exact hr.drop 1
    | call c a =>
      obtain ⟨h1, n, h2, h3⟩ := hf
      refine ⟨fun hv once => ?_, n, by simpa using h2, ih (hr.drop n) (by rwa [List.map_drop])⟩
      split_ifs with hne
      · subst hne
        exact (answer_spent hv).1 h1
      · exact answer_right ok.scan (hr.frames hne) hr.block hv once h1
    | count o r =>
      obtain ⟨h1, n, h2⟩ := hf
      refine ⟨h1, n, h2.imp (fun h => ⟨h.1, by simpa using h.2.1, ih (ok.drop n) (by rw [List.map_drop]; exact h.2.2)⟩) fun h => ⟨h.1, h.2.imp ?_ ?_⟩⟩
      · intro h; exact ih (ok.drop n) (by rwa [List.map_drop])
      · intro h; exact ih (hr.drop n) (by rwa [List.map_drop])

/-- A session of calls with a rewind after each. -/
private theorem session_exists (C : Cursor R all At) {w h W H : Nat} {d : Nat × Nat} {bs : List (List Spec.Frame)} (ok : BlocksOK w h W H bs)
    (hne : bs ≠ []) (hall : all = bs.map (mkBlock d (w, h))) (calls : List Call) (hv : ∀ c ∈ calls, Valid w h W H d c)
    (once : ∀ c ∈ calls, NeedsOnce c → (bs.flatten.map (·.1)).Nodup) : ∀ {s : S}, At s all →
    ∃ (answers : List Answer) (t : S), answers.length = calls.length ∧
      Session R s ((calls.zip answers).flatMap fun x => [.call x.1 x.2, .reset]) t := by
  induction calls with
  | nil => exact fun {s} _ => ⟨[], s, rfl, .nil _⟩
  | cons c calls ih =>
    intro s hs
    obtain ⟨u, h1, h2⟩ := toEnd_exists C hs
    obtain ⟨answers, t, i1, i2⟩ := ih (fun c hc => hv c (by simp [hc])) (fun c hc => once c (by simp [hc])) (C.reset h2)
    obtain ⟨a, ha⟩ := answer_exists ok.scan (ok.frames hne) (hv c (by simp)) (once c (by simp))
    have hr := answer_right ok.scan (ok.frames hne) ok.block (hv c (by simp)) (once c (by simp)) ha
    refine ⟨a :: answers, t, by simp [i1], ?_⟩
    rw [List.zip_cons_cons, List.flatMap_cons]
    exact .step (.call (.all h1 (hall ▸ ha))) (returns_defined hr.returns) (.step (.reset _) (fun h => h) i2)

/-! ### Stream files -/

/-- The states of a reader of stream files with their blocks. -/
private def StreamAt (v : Nat) (bs : List StreamReader.Block) (s : StreamReader.State) (rest : List Image.Block) : Prop :=
  ∃ l t, Spec.Reads v s l t ∧ StreamReader.read v t = (.ok none, ⟨none, []⟩) ∧ (∀ b ∈ l, b ∈ bs) ∧ rest = l.map ofStream

private theorem stream_cursor {v : Nat} {f : List UInt8} {files : List (List UInt8)} {bss : List (List StreamReader.Block)}
    (hf : List.Forall₂ (Records v) (f :: files) bss) (hv : ∀ b ∈ bss.flatten, b.header.version ≠ 0) :
    Cursor (streamReader v ((f :: files).map some)) (bss.flatten.map ofStream) (StreamAt v bss.flatten) := by
  obtain ⟨s0, t, h1, h2, h3, h4⟩ := C21_round_trip hf
  have hs0 : s0 = ⟨some f, files.map some⟩ := by
    have h1 : (Outcome.ok ⟨some f, files.map some⟩ : Outcome StreamReader.State) = .ok s0 := h1
    injection h1 with h1
    exact h1.symm
  refine ⟨fun {s rest} _ => ?_, fun {s rest} h => ?_, fun {s b rest} h => ?_, fun {s} h => ?_⟩
  · -- the first read opens the first file
    have e : StreamReader.read v ⟨none, (f :: files).map some⟩ = StreamReader.read v s0 := by rw [hs0]; rfl
    refine ⟨bss.flatten, ?_⟩
    generalize bss.flatten = l at h2
    cases h2 with
    | nil => exact ⟨_, .nil _, e.trans h3, by simp, rfl⟩
    | cons h5 h6 => exact ⟨_, .cons (e.trans h5) h6, h3, by simp, rfl⟩
  · obtain ⟨l, t, h1, h2, h3, _⟩ := h
    show convert (StreamReader.nextPy v s) = convert (StreamReader.read v s)
    unfold StreamReader.nextPy
    cases h1 with
    | nil => rw [h2]
    | cons h5 _ => rw [h5]; simp only [if_neg (hv _ (h3 _ (List.mem_cons_self ..)))]
  · obtain ⟨l, t, h1, h2, h3, h4⟩ := h
    cases h1 with
    | nil => simp at h4
    | cons h5 h6 =>
      simp only [List.map_cons, List.cons.injEq] at h4
      obtain ⟨rfl, rfl⟩ := h4
      refine ⟨_, ?_, _, _, h6, h2, fun b hb => h3 b (by simp [hb]), rfl⟩
      show convert (StreamReader.read v s) = _
      rw [h5]
      rfl
  · obtain ⟨l, t, h1, h2, h3, h4⟩ := h
    have : l = [] := by simpa using h4.symm
    subst this
    cases h1
    refine ⟨⟨none, []⟩, ?_, [], _, .nil _, rfl, by simp, rfl⟩
    show convert (StreamReader.read v s) = _
    rw [h2]
    rfl

private theorem stream_blocks {v w h : Nat} {d : Nat × Nat} {files : List (List UInt8)} {bss : List (List StreamReader.Block)}
    (hf : List.Forall₂ (Records v) files bss) (hn : ∀ b ∈ bss.flatten, b.header.frameDimensions = (w, h))
    (hd : ∀ b ∈ bss.flatten, b.header.scanDimensions = d) :
    bss.flatten.map ofStream = (bss.flatten.map (blockFrames w h)).map (mkBlock d (w, h)) := by
  rw [List.map_map]
  refine List.map_congr_left fun b hb => ?_
  obtain ⟨bytes, hw⟩ := records_all hf b hb
  obtain ⟨d', e⟩ := (written_frames hw (hn b hb)).1
  have : d' = d := by
    rw [← hd b hb]
    exact (congrArg Image.Block.scanDims e).symm
  rw [e, this]
  rfl

private theorem stream_ok {v w h W H : Nat} {files : List (List UInt8)} {bss : List (List StreamReader.Block)}
    (hf : List.Forall₂ (Records v) files bss) (hn : ∀ b ∈ bss.flatten, b.header.frameDimensions = (w, h)) (hw16 : w < 65536) (hh16 : h < 65536)
    (hs : ∀ b ∈ bss.flatten, b.header.imageNumbers ≠ []) (hWH : W * H < 2 ^ 32)
    (hc : (bss.flatten.map (blockFrames w h)).flatten.length + 32 ≤ 2 ^ 32)
    (hin : ∀ b ∈ bss.flatten, ∀ p ∈ b.header.imageNumbers, p < W * H) : BlocksOK w h W H (bss.flatten.map (blockFrames w h)) := by
  have hfr : ∀ b ∈ bss.flatten, (blockFrames w h b).length * (w * h) ≤ 2 ^ 32 ∧
      ∀ f ∈ blockFrames w h b, f.2.length = w * h ∧ ∀ x ∈ f.2, x < 65536 := by
    intro b hb
    obtain ⟨bytes, hwr⟩ := records_all hf b hb
    exact (written_frames hwr (hn b hb)).2
  have hmem : ∀ f ∈ (bss.flatten.map (blockFrames w h)).flatten, ∃ b ∈ bss.flatten, f ∈ blockFrames w h b := by
    intro f hf
    obtain ⟨l, h1, h2⟩ := List.mem_flatten.1 hf
    obtain ⟨b, h3, rfl⟩ := List.mem_map.1 h1
    exact ⟨b, h3, h2⟩
  refine ⟨hWH, by omega, by omega, ?_, hc, ?_, ?_, ?_, ?_, ?_⟩
  · exact lt_of_le_of_lt (Nat.mul_le_mul (by omega) (by omega) : w * h ≤ 65535 * 65535) (by norm_num)
  · intro l hl
    obtain ⟨b, hb, rfl⟩ := List.mem_map.1 hl
    intro h0
    refine hs b hb (List.length_eq_zero_iff.1 ?_)
    have := congrArg List.length h0
    simpa [blockFrames] using this
  · intro l hl
    obtain ⟨b, hb, rfl⟩ := List.mem_map.1 hl
    exact (hfr b hb).1
  · intro f hf
    obtain ⟨b, h1, h2⟩ := hmem f hf
    exact ((hfr b h1).2 f h2).1
  · intro f hf
    obtain ⟨b, h1, h2⟩ := hmem f hf
    exact ((hfr b h1).2 f h2).2
  · intro f hf
    obtain ⟨b, h1, h2⟩ := hmem f hf
    refine hin b h1 _ ?_
    unfold blockFrames at h2
    obtain ⟨i, hi, rfl⟩ := List.mem_map.1 h2
    have hi := List.mem_range.1 hi
    have e : b.header.imageNumbers.getD i 0 = b.header.imageNumbers[i] := by simp [hi]
    simp only [e]
    exact List.getElem_mem hi

private theorem stream_start {v : Nat} {f : List UInt8} {files : List (List UInt8)} {bss : List (List StreamReader.Block)}
    (hf : List.Forall₂ (Records v) (f :: files) bss) {s : StreamReader.State} (hs : StreamReader.create ((f :: files).map some) = .ok s) :
    StreamAt v bss.flatten s (bss.flatten.map ofStream) := by
  obtain ⟨s0, t, h1, h2, h3, _⟩ := C21_round_trip hf
  rw [hs] at h1
  cases h1
  exact ⟨_, _, h2, h3, fun b hb => hb, rfl⟩

/-- **C114** Stream files: any program that reads blocks, rewinds, counts electrons and calls the functions on raw data with one reader, in any
order and also after calls that raised, for all schedules of the threads. Each read gives the next block of the files, and each call of a
function the result for the blocks that were not read since the reader was opened or rewound. -/
theorem C114_blocks {v : Nat} {f : List UInt8} {files : List (List UInt8)} {bss : List (List StreamReader.Block)}
    (hf : List.Forall₂ (Records v) (f :: files) bss) (hver : ∀ b ∈ bss.flatten, b.header.version ≠ 0) {s t : StreamReader.State}
    (hs : StreamReader.create ((f :: files).map some) = .ok s) {ops : List Op}
    (h : Session (streamReader v ((f :: files).map some)) s ops t) :
    Follows (bss.flatten.map ofStream) (bss.flatten.map ofStream) ops :=
  follows (stream_cursor hf hver) h (stream_start hf hs)

/-- **C114** Stream files with frames of one size and with the same scan dimensions `d` in all headers (in the formats 1 and 2 there are none,
so that `d = (0, 0)`): the images, histograms, averages, radial sums and maxima are those of the frames that are left. With nothing left there is
an error, or for averages and maxima undefined behaviour. -/
theorem C114_stream {v w h W H : Nat} {d : Nat × Nat} {f : List UInt8} {files : List (List UInt8)} {bss : List (List StreamReader.Block)}
    (hf : List.Forall₂ (Records v) (f :: files) bss) (hver : ∀ b ∈ bss.flatten, b.header.version ≠ 0)
    (hn : ∀ b ∈ bss.flatten, b.header.frameDimensions = (w, h)) (hd : ∀ b ∈ bss.flatten, b.header.scanDimensions = d)
    (hw16 : w < 65536) (hh16 : h < 65536) (hsome : ∀ b ∈ bss.flatten, b.header.imageNumbers ≠ []) (hWH : W * H < 2 ^ 32)
    (hc : (bss.flatten.map (blockFrames w h)).flatten.length + 32 ≤ 2 ^ 32)
    (hin : ∀ b ∈ bss.flatten, ∀ p ∈ b.header.imageNumbers, p < W * H) {s t : StreamReader.State}
    (hs : StreamReader.create ((f :: files).map some) = .ok s) {ops : List Op}
    (hses : Session (streamReader v ((f :: files).map some)) s ops t) :
    Correct w h W H d (bss.flatten.map (blockFrames w h)) (bss.flatten.map (blockFrames w h)) ops := by
  have ok := stream_ok hf hn hw16 hh16 hsome hWH hc hin
  refine correct ok ops ok ?_
  rw [← stream_blocks hf hn hd]
  exact C114_blocks hf hver hs hses

/-- **C114** (sessions exist) Stream files: any valid calls, with a rewind after each. -/
theorem C114_stream_exists {v w h W H : Nat} {d : Nat × Nat} {f : List UInt8} {files : List (List UInt8)} {bss : List (List StreamReader.Block)}
    (hf : List.Forall₂ (Records v) (f :: files) bss) (hver : ∀ b ∈ bss.flatten, b.header.version ≠ 0)
    (hn : ∀ b ∈ bss.flatten, b.header.frameDimensions = (w, h)) (hd : ∀ b ∈ bss.flatten, b.header.scanDimensions = d)
    (hw16 : w < 65536) (hh16 : h < 65536) (hsome : ∀ b ∈ bss.flatten, b.header.imageNumbers ≠ []) (hWH : W * H < 2 ^ 32)
    (hc : (bss.flatten.map (blockFrames w h)).flatten.length + 32 ≤ 2 ^ 32)
    (hin : ∀ b ∈ bss.flatten, ∀ p ∈ b.header.imageNumbers, p < W * H) (hne : bss.flatten ≠ []) {s : StreamReader.State}
    (hs : StreamReader.create ((f :: files).map some) = .ok s) (calls : List Call) (hv : ∀ c ∈ calls, Valid w h W H d c)
    (once : ∀ c ∈ calls, NeedsOnce c → ((bss.flatten.map (blockFrames w h)).flatten.map (·.1)).Nodup) :
    ∃ (answers : List Answer) (t : StreamReader.State), answers.length = calls.length ∧
      Session (streamReader v ((f :: files).map some)) s ((calls.zip answers).flatMap fun x => [.call x.1 x.2, .reset]) t :=
  session_exists (stream_cursor hf hver) (stream_ok hf hn hw16 hh16 hsome hWH hc hin) (by simpa using hne) (stream_blocks hf hn hd) calls hv once
    (stream_start hf hs)

/-! ### HDF5 files -/

/-- The states of a reader of an HDF5 file with their blocks. -/
private def Hdf5At (r : RawFile.Reader) (s : PyReader.State) (rest : List Image.Block) : Prop :=
  PyReader.reset s = PyReader.reset r.state ∧ ∃ fuel blocks u, PyReader.readAll r.stack.frames fuel s = .ok (blocks, true, u) ∧
    rest = blocks.map (hdf5Block r)

private theorem hdf5_cursor {r : RawFile.Reader} {fuel : Nat} {blocks : List (List (List Nat) × List Nat)} {u : PyReader.State}
    (h : PyReader.readAll r.stack.frames fuel (PyReader.reset r.state) = .ok (blocks, true, u)) :
    Cursor (hdf5Reader r) (blocks.map (hdf5Block r)) (Hdf5At r) := by
  have hstep : ∀ {s rest}, Hdf5At r s rest → (∃ t, readHdf5 r s = (.ok none, t) ∧ rest = [] ∧ Hdf5At r t []) ∨
      ∃ b l t, readHdf5 r s = (.ok (some b), t) ∧ rest = b :: l ∧ Hdf5At r t l := by
    rintro s rest ⟨h0, fuel, blocks, u, h1, rfl⟩
    have hrs := readHdf5_reset r s
    cases fuel with
    | zero => simp [PyReader.readAll] at h1
    | succ fuel =>
      have h1' := h1
      simp only [PyReader.readAll] at h1
      unfold readHdf5 at hrs ⊢
      cases hr : PyReader.read r.stack.frames s with
      | throw m => rw [hr] at h1; simp at h1
      | ub => rw [hr] at h1; simp at h1
      | ok x =>
        obtain ⟨b, s'⟩ := x
        rw [hr] at h1 hrs
        simp only [Outcome.ok_bind] at h1
        cases b with
        | end_ =>
          simp only [Outcome.ok.injEq, Prod.mk.injEq] at h1
          have hs : s' = s := by
            unfold PyReader.read at hr
            split_ifs at hr
            · simpa using hr.symm
            · cases h2 : (List.range' s.current ((if (s.current + s.blockSize) % 2 ^ 32 > s.total then s.total else
                (s.current + s.blockSize) % 2 ^ 32) - s.current)).mapM (readAt s.imageNumbers) with
              | ok ids => simp only [h2] at hr; cases hr
              | throw m => simp only [h2] at hr; cases hr
              | ub => simp only [h2] at hr; cases hr
          refine .inl ⟨s', rfl, by rw [← h1.1]; rfl, hrs.trans h0, fuel + 1, [], s', ?_, rfl⟩
          rw [hs] at hr ⊢
          simp only [PyReader.readAll, hr, Outcome.ok_bind]
        | frames data ids =>
          simp only at h1
          cases hr2 : PyReader.readAll r.stack.frames fuel s' with
          | throw m => rw [hr2] at h1; simp at h1
          | ub => rw [hr2] at h1; simp at h1
          | ok y =>
            obtain ⟨l, e, s2⟩ := y
            rw [hr2] at h1
            simp only [Outcome.ok_bind, Outcome.ok.injEq, Prod.mk.injEq] at h1
            obtain ⟨rfl, rfl, rfl⟩ := h1
            exact .inr ⟨_, _, s', rfl, rfl, hrs.trans h0, fuel, l, s2, hr2, rfl⟩
  refine ⟨fun {s rest} hs => ?_, fun _ => rfl, fun {s b rest} hs => ?_, fun {s} hs => ?_⟩
  · have e : (hdf5Reader r).reset s = PyReader.reset r.state := hs.1
    rw [e]
    exact ⟨rfl, fuel, blocks, u, h, rfl⟩
  · rcases hstep hs with ⟨_, _, h2, _⟩ | ⟨b', l, t, h1, h2, h3⟩
    · simp at h2
    · simp only [List.cons.injEq] at h2
      obtain ⟨rfl, rfl⟩ := h2
      exact ⟨t, h1, h3⟩
  · rcases hstep hs with ⟨t, h1, _, h3⟩ | ⟨b', l, t, h1, h2, h3⟩
    · exact ⟨t, h1, h3⟩
    · simp at h2

/-- The frames of an HDF5 file in blocks of at most 32. -/
private theorem hdf5_blocks {f : RawFile.File} {data : RawFile.Stack} {r : RawFile.Reader} {w h W H : Nat} (hr : RawFile.getReader f = .ok r)
    (hfr : f.frames = some data) (hp : ∀ p ∈ f.positions, p.length = data.frames.length) (h32 : data.frames.length + 32 ≤ 2 ^ 32)
    (hw : data.width = w) (hh : data.height = h) (hlen : ∀ px ∈ data.frames, px.length = w * h) (hpx : ∀ px ∈ data.frames, ∀ x ∈ px, x < 65536)
    (hw31 : w < 2 ^ 31) (hh31 : h < 2 ^ 31) (hblock : 32 * (w * h) ≤ 2 ^ 32) (hWH : W * H < 2 ^ 32)
    (hin : ∀ p ∈ RawFile.positionsOf data f.positions, p < W * H) : ∃ bs : List (List Spec.Frame), bs.flatten = hdf5Frames f data ∧
      (∀ l ∈ bs, 0 < l.length ∧ l.length ≤ 32) ∧ BlocksOK w h W H bs ∧
      Cursor (hdf5Reader r) (bs.map (mkBlock r.scanDims (w, h))) (Hdf5At r) ∧ Hdf5At r r.state (bs.map (mkBlock r.scanDims (w, h))) := by
  have hrs : r.stack = data ∧ r.state = PyReader.getHdf5Reader data.frames f.positions := by
    unfold RawFile.getReader at hr
    rw [hfr] at hr
    simp only at hr
    cases hd : RawFile.scanDimensions f with
    | throw m => rw [hd] at hr; simp at hr
    | ub => rw [hd] at hr; simp at hr
    | ok d =>
      rw [hd] at hr
      simp only [Outcome.ok_bind, Outcome.ok.injEq] at hr
      subst hr
      exact ⟨rfl, rfl⟩
  have hlenp : (RawFile.positionsOf data f.positions).length = data.frames.length := by
    unfold RawFile.positionsOf
    cases hpos : f.positions with
    | none => simp
    | some p => exact hp p hpos
  have hstate : r.state = PyReader.create (RawFile.positionsOf data f.positions) 32 data.frames.length := by
    rw [hrs.2]
    unfold PyReader.getHdf5Reader RawFile.positionsOf
    cases f.positions <;> rfl
  have hreset : PyReader.reset r.state = r.state := by rw [hstate]; rfl
  obtain ⟨blocks, u, h1, h2, h3, h4, _⟩ := C37_all_frames data.frames (RawFile.positionsOf data f.positions) 32 (by omega) hlenp h32
    (data.frames.length + 32) (by omega)
  rw [← hstate] at h1
  have hzip : (blocks.map fun x => x.2.zip x.1).flatten = hdf5Frames f data := by
    unfold hdf5Frames
    rw [← h2, ← h3]
    clear h1 h2 h3
    induction blocks with
    | nil => rfl
    | cons x l ih =>
      rw [List.map_cons, List.flatten_cons, ih (fun x hx => h4 x (by simp [hx])), List.map_cons, List.map_cons, List.flatten_cons,
        List.flatten_cons, List.zip_append (h4 x (by simp)).1.symm]
  have hblk : blocks.map (hdf5Block r) = (blocks.map fun x => x.2.zip x.1).map (mkBlock r.scanDims (w, h)) := by
    rw [List.map_map]
    refine List.map_congr_left fun x hx => ?_
    have hl := (h4 x hx).1
    unfold hdf5Block
    simp only [Function.comp, mkBlock]
    rw [hrs.1, hw, hh, List.length_zip, hl, Nat.min_self]
    have e1 : (x.2.zip x.1).map (fun f => f.1) = x.2 := List.map_fst_zip (by omega)
    have e2 : (x.2.zip x.1).map (fun f => f.2) = x.1 := List.map_snd_zip (by omega)
    rw [e1, e2]
  have hsize : ∀ l ∈ blocks.map fun x => x.2.zip x.1, 0 < l.length ∧ l.length ≤ 32 := by
    intro l hl
    obtain ⟨x, hx, rfl⟩ := List.mem_map.1 hl
    have := h4 x hx
    rw [List.length_zip]
    omega
  have hframe : ∀ g ∈ hdf5Frames f data, g.1 ∈ RawFile.positionsOf data f.positions ∧ g.2 ∈ data.frames := by
    intro g hg
    exact List.of_mem_zip hg
  refine ⟨_, hzip, hsize, ⟨hWH, hw31, hh31, by omega, ?_, ?_, ?_, ?_, ?_, ?_⟩, ?_, ?_⟩
  · rw [hzip]
    unfold hdf5Frames
    rw [List.length_zip]
    omega
  · intro l hl h0
    have := (hsize l hl).1
    simp [h0] at this
  · intro l hl
    exact le_trans (Nat.mul_le_mul_right _ (hsize l hl).2) hblock
  · rw [hzip]; exact fun g hg => hlen _ (hframe g hg).2
  · rw [hzip]; exact fun g hg => hpx _ (hframe g hg).2
  · rw [hzip]; exact fun g hg => hin _ (hframe g hg).1
  · rw [← hblk]
    refine hdf5_cursor (fuel := data.frames.length + 32) (u := u) ?_
    rw [hreset, hrs.1]
    exact h1
  · rw [← hblk]
    exact ⟨rfl, _, _, _, by rw [hrs.1]; exact h1, rfl⟩

/-- **C114** HDF5 files: the same for a reader of the frames in a file, which come in blocks of 1 to 32. -/
theorem C114_hdf5 {f : RawFile.File} {data : RawFile.Stack} {r : RawFile.Reader} {w h W H : Nat} (hr : RawFile.getReader f = .ok r)
    (hfr : f.frames = some data) (hp : ∀ p ∈ f.positions, p.length = data.frames.length) (h32 : data.frames.length + 32 ≤ 2 ^ 32)
    (hw : data.width = w) (hh : data.height = h) (hlen : ∀ px ∈ data.frames, px.length = w * h) (hpx : ∀ px ∈ data.frames, ∀ x ∈ px, x < 65536)
    (hw31 : w < 2 ^ 31) (hh31 : h < 2 ^ 31) (hblock : 32 * (w * h) ≤ 2 ^ 32) (hWH : W * H < 2 ^ 32)
    (hin : ∀ p ∈ RawFile.positionsOf data f.positions, p < W * H) :
    ∃ bs : List (List Spec.Frame), bs.flatten = hdf5Frames f data ∧ (∀ l ∈ bs, 0 < l.length ∧ l.length ≤ 32) ∧
      ∀ ops t, Session (hdf5Reader r) r.state ops t → Correct w h W H r.scanDims bs bs ops := by
  obtain ⟨bs, h1, h2, ok, C, h0⟩ := hdf5_blocks hr hfr hp h32 hw hh hlen hpx hw31 hh31 hblock hWH hin
  exact ⟨bs, h1, h2, fun ops t hs => correct ok ops ok (follows C hs h0)⟩

/-- **C114** (sessions exist) HDF5 files: any valid calls, with a rewind after each. -/
theorem C114_hdf5_exists {f : RawFile.File} {data : RawFile.Stack} {r : RawFile.Reader} {w h W H : Nat} (hr : RawFile.getReader f = .ok r)
    (hfr : f.frames = some data) (hp : ∀ p ∈ f.positions, p.length = data.frames.length) (h32 : data.frames.length + 32 ≤ 2 ^ 32)
    (hw : data.width = w) (hh : data.height = h) (hlen : ∀ px ∈ data.frames, px.length = w * h) (hpx : ∀ px ∈ data.frames, ∀ x ∈ px, x < 65536)
    (hw31 : w < 2 ^ 31) (hh31 : h < 2 ^ 31) (hblock : 32 * (w * h) ≤ 2 ^ 32) (hWH : W * H < 2 ^ 32)
    (hin : ∀ p ∈ RawFile.positionsOf data f.positions, p < W * H) (hne : data.frames ≠ []) (calls : List Call)
    (hv : ∀ c ∈ calls, Valid w h W H r.scanDims c) (once : ∀ c ∈ calls, NeedsOnce c → (RawFile.positionsOf data f.positions).Nodup) :
    ∃ (answers : List Answer) (t : PyReader.State), answers.length = calls.length ∧
      Session (hdf5Reader r) r.state ((calls.zip answers).flatMap fun x => [.call x.1 x.2, .reset]) t := by
  obtain ⟨bs, h1, h2, ok, C, h0⟩ := hdf5_blocks hr hfr hp h32 hw hh hlen hpx hw31 hh31 hblock hWH hin
  have hlenp : (RawFile.positionsOf data f.positions).length = data.frames.length := by
    unfold RawFile.positionsOf
    cases hpos : f.positions with
    | none => simp
    | some p => exact hp p hpos
  have e : (hdf5Frames f data).map (·.1) = RawFile.positionsOf data f.positions := List.map_fst_zip (by omega)
  refine session_exists C ok ?_ rfl calls hv (fun c hc hn => by rw [h1, e]; exact once c hc hn) h0
  rintro rfl
  have := congrArg List.length h1
  simp only [List.flatten_nil, List.length_nil, hdf5Frames, List.length_zip, hlenp, Nat.min_self] at this
  exact hne (List.length_eq_zero_iff.1 this.symm)

/-! ### Nothing left -/

/-- **C114** does not hold for the average (or the maximum) after a call that returned, without a rewind: the behaviour is undefined in place of
an error, for all stream files. -/
theorem C114_spent_false {v : Nat} {f : List UInt8} {files : List (List UInt8)} {bss : List (List StreamReader.Block)}
    (hf : List.Forall₂ (Records v) (f :: files) bss) (hver : ∀ b ∈ bss.flatten, b.header.version ≠ 0) {s t : StreamReader.State}
    (hs : StreamReader.create ((f :: files).map some) = .ok s) {c c' : Call} {a a' : Answer}
    (h : Session (streamReader v ((f :: files).map some)) s [.call c a, .call c' a'] t) (ha : a.Returns)
    (hc : c' = .average ∨ ∃ dark, c' = .maximum dark) : a'.Undefined := by
  obtain ⟨_, n, h2, h3, _⟩ := C114_blocks hf hver hs h
  rw [List.drop_eq_nil_of_le (h2 ha)] at h3
  rcases hc with rfl | ⟨dark, rfl⟩ <;> rw [h3] <;> rfl

/-- **C114** In the formats 1 and 2 the scan dimensions have to be given: without them, `create_stem_images` and `radial_sum` raise an error in
any session, even for a reader with blocks left. -/
theorem C114_no_dimensions {b : StreamReader.Block} {rest : List StreamReader.Block} (hd : b.header.scanDimensions = (0, 0)) {scan : Nat × Nat}
    (h0 : scan.1 = 0 ∨ scan.2 = 0) {center : Int × Int} {a : Answer} :
    (Answers ((b :: rest).map ofStream) (.radial scan center) a → ¬ a.Returns) ∧
    ∀ inner outer, Answers ((b :: rest).map ofStream) (.images inner outer scan center) a → ¬ a.Returns := by
  have e : (ofStream b).scanDims = (0, 0) := hd
  constructor
  · rintro ⟨r, h, rfl⟩ ⟨x, rfl⟩
    rw [List.map_cons] at h
    unfold Image.RadialRun at h
    simp only [if_pos h0, e] at h
    simp at h
  · rintro inner outer ⟨r, h, rfl⟩ ⟨x, rfl⟩
    simp only [List.map_cons, PyStem.StemRun, Image.DenseRun, Image.validateDense] at h
    by_cases h1 : (inner.toList.isEmpty || outer.toList.isEmpty) = true
    · rw [if_pos h1] at h; simp at h
    · rw [if_neg h1] at h
      by_cases h2 : inner.toList.length ≠ outer.toList.length
      · rw [if_pos h2] at h; simp at h
      · rw [if_neg h2] at h
        simp [h0, e] at h

/-! ### Examples -/

private def demoCalls : List Call := [.average, .images (.one 0) (.many [2]) (3, 1) (-1, -1), .maximum (0, [])]

private theorem demo_valid {w h : Nat} (hw : w < 2 ^ 31) (hh : h < 2 ^ 31) (hwh : w * h < 2 ^ 32) (d : Nat × Nat) :
    ∀ c ∈ demoCalls, Valid w h 3 1 d c := by
  intro c hc
  simp only [demoCalls, List.mem_cons, List.not_mem_nil, or_false] at hc
  rcases hc with rfl | rfl | rfl
  · trivial
  · refine ⟨.inl rfl, [0], [2], .one 0, .many _, ⟨by simp, rfl, ?_⟩⟩
    intro r hr
    rw [show r = (0, 2) by simpa using hr]
    exact ⟨hwh, hw, hh, by norm_num, by norm_num, by norm_num, by norm_num⟩
  · intro h; exact absurd rfl h

/-- The hypotheses of `C114_stream` and `C114_stream_exists` can be met: two blocks in a file and an empty file, three calls with rewinds. -/
example : ∃ bytes s answers t, StreamReader.create [some bytes, some []] = .ok s ∧ answers.length = 3 ∧
    Session (streamReader 1 [some bytes, some []]) s ((demoCalls.zip answers).flatMap fun x => [.call x.1 x.2, .reset]) t ∧
    Correct 2 2 3 1 (0, 0) [[(2, [20, 0, 0, 0]), (0, [0, 0, 0, 30])], [(1, [0, 40, 0, 0])]]
      [[(2, [20, 0, 0, 0]), (0, [0, 0, 0, 30])], [(1, [0, 40, 0, 0])]]
      ((demoCalls.zip answers).flatMap fun x => [.call x.1 x.2, .reset]) := by
  obtain ⟨bytes, hb⟩ := demo_records
  have hf : List.Forall₂ (Records 1) [bytes, []] [demoBlocks, []] := .cons hb (.cons ⟨[], .nil, rfl⟩ .nil)
  obtain ⟨answers, t, h1, h2⟩ := C114_stream_exists (w := 2) (h := 2) (W := 3) (H := 1) (d := (0, 0)) hf (by decide) (by decide) (by decide) (by decide)
    (by decide) (by decide) (by decide) (by decide) (by decide) (by decide) rfl demoCalls (demo_valid (by decide) (by decide) (by decide) _)
    (fun _ _ _ => by decide)
  exact ⟨bytes, _, answers, t, rfl, h1, h2, C114_stream (w := 2) (h := 2) (W := 3) (H := 1) (d := (0, 0)) hf (by decide) (by decide) (by decide)
    (by decide) (by decide) (by decide) (by decide) (by decide) (by decide) rfl h2⟩

/-- A block is read, a call raises as its radii do not match, and after the rewind the average is that of all three frames; without a rewind the
next average is undefined. The session meets the hypotheses of `C114_spent_false` from the rewind on. -/
example : ∃ bytes s t b, StreamReader.create [some bytes] = .ok s ∧ Session (streamReader 1 [some bytes]) s
    [.next (.ok (some b)), .call (.images (.one 1) (.many [2, 3]) (3, 1) (-1, -1)) (.images (.throw "innerRadii and outerRadii are not the same size!")),
     .reset, .call .average (.average (.ok [20 / 3, 40 / 3, 0, 10])), .call .average (.average .ub)] t := by
  obtain ⟨bytes, hb⟩ := demo_records
  have hf : List.Forall₂ (Records 1) [bytes] [demoBlocks] := .cons hb .nil
  have C := stream_cursor hf (by decide)
  have h0 := stream_start hf rfl
  obtain ⟨h1, h2⟩ := next_at C h0
  obtain ⟨u, h3, h4⟩ := toEnd_exists C h2
  have h5 := C.reset h4
  obtain ⟨x, h6, h7⟩ := toEnd_exists C h5
  obtain ⟨y, h8, h9⟩ := toEnd_exists C h7
  refine ⟨bytes, _, y, ofStream (demoBlocks.head (by decide)), rfl, .step (t := ((streamReader 1 [some bytes]).next ⟨some bytes, []⟩).2) ?_ (fun h => by cases h)
    (.step (.call (.all h3 ?_)) (fun h => by cases h) (.step (.reset _) (fun h => h) (.step (.call (.all h6 ?_)) (fun h => by cases h)
      (.undefined (.call (.all h8 rfl)) rfl))))⟩
  · have := Does.next (R := streamReader 1 [some bytes]) ⟨some bytes, []⟩
    have e : ((streamReader 1 [some bytes]).next ⟨some bytes, []⟩).1 = .ok (some (ofStream (demoBlocks.head (by decide)))) := h1
    rw [e] at this
    exact this
  · exact ⟨_, rfl, rfl⟩
  · show _ = _
    congr 1
    decide +kernel

/-- The hypotheses of `C114_hdf5` and `C114_hdf5_exists` can be met: three frames of 4x1 pixels, three calls with rewinds. -/
example : ∃ (f : RawFile.File) (r : RawFile.Reader) (bs : List (List Spec.Frame)) (answers : List Answer) (t : PyReader.State),
    RawFile.getReader f = .ok r ∧ bs.flatten = [(2, [20, 0, 0, 0]), (0, [0, 0, 0, 30]), (1, [0, 40, 0, 0])] ∧ answers.length = 3 ∧
    Session (hdf5Reader r) r.state ((demoCalls.zip answers).flatMap fun x => [.call x.1 x.2, .reset]) t ∧
    Correct 4 1 3 1 (3, 1) bs bs ((demoCalls.zip answers).flatMap fun x => [.call x.1 x.2, .reset]) := by
  let f : RawFile.File :=
    { frames := some ⟨1, 4, [[20, 0, 0, 0], [0, 0, 0, 30], [0, 40, 0, 0]]⟩, scanDims := some (3, 1), positions := some [2, 0, 1] }
  have hr : RawFile.getReader f = .ok ⟨_, _, (3, 1)⟩ := rfl
  obtain ⟨answers, t, h1, h2⟩ := C114_hdf5_exists (w := 4) (h := 1) (W := 3) (H := 1) hr rfl (by simp [f]) (by simp) rfl rfl (by decide) (by decide)
    (by decide) (by decide) (by decide) (by decide) (by decide) (by decide) demoCalls (demo_valid (by decide) (by decide) (by decide) _)
    (fun _ _ _ => by decide)
  obtain ⟨bs, h3, _, h4⟩ := C114_hdf5 (w := 4) (h := 1) (W := 3) (H := 1) hr rfl (by simp [f]) (by simp) rfl rfl (by decide) (by decide)
    (by decide) (by decide) (by decide) (by decide) (by decide)
  exact ⟨f, _, bs, answers, t, hr, h3, h1, h2, h4 _ _ h2⟩

end Stempy.Props.FileSession
