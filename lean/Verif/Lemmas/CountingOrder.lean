import Verif.Lemmas.CountingReader

/-!
The order in which a worker of the reader delivers the frames to the counting.
-/

namespace Stempy.CountingReader
open Stempy.Spec Stempy.Streaming
open Stempy.MultiPass (PState PWorker PStep pinit ScanMap PInv)

variable {D Θ : Type}

/-- The block of a frame. -/
def blk (files : List (MultiPass.File D)) (map : ScanMap) (p f : Nat) : MultiPass.Block D :=
  MultiPass.processFrame files (((map p).get f).getD fun _ => none) p f

theorem blocks_cons (files : List (MultiPass.File D)) (map : ScanMap) {p hi : Nat} (h : p < hi) :
    blocks files map p hi = (map p).keys.map (blk files map p) ++ blocks files map (p + 1) hi := by
  simp only [blocks, MultiPass.frames_lt map h, List.map_append, List.map_map]
  rfl

theorem blocks_ge (files : List (MultiPass.File D)) (map : ScanMap) {p hi : Nat} (h : hi ≤ p) :
    blocks files map p hi = [] := by
  simp [blocks, MultiPass.frames_ge map h]

/-! ### The first worker alone -/

/-- The first worker is between two frames; `L` are the blocks it reads if the others do nothing. -/
def At (files : List (MultiPass.File D)) (map : ScanMap) (hi : Nat) (rpost : List (PWorker D)) (r : PState D)
    (L : List (MultiPass.Block D)) : Prop :=
  (∀ i, r.locks i = false) ∧
    (r.workers = .test :: rpost ∧ blocks files map r.processed hi = L ∨
      ∃ p fs, r.workers = .image p fs :: rpost ∧ (∀ f ∈ fs, f ∈ (map p).keys) ∧
        fs.map (blk files map p) ++ blocks files map r.processed hi = L)

/-- The first worker reads the next frame. -/
theorem next_block {K : Call D Θ} {files : List (MultiPass.File D)} {map : ScanMap} {hi : Nat} {c : Streaming.State Θ}
    {cpost : List Worker} (hub : c.ub = false) (hc : c.workers = .idle :: cpost) {rpost : List (PWorker D)}
    {b : MultiPass.Block D} {L : List (MultiPass.Block D)} :
    ∀ (n : Nat) (r : PState D), hi - r.processed = n → At files map hi rpost r (b :: L) →
      ∃ r', Reach (Step K files map hi) ⟨r, c⟩ ⟨r', { c with workers := .got (K.tag b) :: cpost }⟩ ∧
        At files map hi rpost r' L := by
  have image : ∀ (r : PState D) (p f : Nat) (fs : List Nat), (∀ i, r.locks i = false) →
      r.workers = .image p (f :: fs) :: rpost → (∀ g ∈ f :: fs, g ∈ (map p).keys) →
      (f :: fs).map (blk files map p) ++ blocks files map r.processed hi = b :: L →
      ∃ r', Reach (Step K files map hi) ⟨r, c⟩ ⟨r', { c with workers := .got (K.tag b) :: cpost }⟩ ∧
        At files map hi rpost r' L := by
    intro r p f fs hl hw hk e
    obtain ⟨a, ha⟩ := Option.isSome_iff_exists.1 (SMap.mem_keys.1 (hk f (by simp)))
    simp only [List.map_cons, List.cons_append, List.cons.injEq] at e
    obtain ⟨e1, e2⟩ := e
    simp only [blk, ha, Option.getD_some] at e1
    obtain ⟨r', g1, g2, g3, g4⟩ := read_block (K := K) (files := files) (map := map) (hi := hi) ha hub hc r hl hw
    rw [e1] at g1
    exact ⟨r', g1, g2, .inr ⟨p, fs, g3, fun g hg => hk g (List.mem_cons_of_mem _ hg), by rw [g4]; exact e2⟩⟩
  intro n
  induction n with
  | zero =>
    intro r hn hA
    obtain ⟨hl, ⟨hw, e⟩ | ⟨p, fs, hw, hk, e⟩⟩ := hA
    · rw [blocks_ge files map (by omega)] at e
      cases e
    · cases fs with
      | nil =>
        rw [blocks_ge files map (by omega)] at e
        cases e
      | cons f fs => exact image r p f fs hl hw hk e
  | succ n ih =>
    have test : ∀ r : PState D, hi - r.processed = n + 1 → (∀ i, r.locks i = false) → r.workers = .test :: rpost →
        blocks files map r.processed hi = b :: L →
        ∃ r', Reach (Step K files map hi) ⟨r, c⟩ ⟨r', { c with workers := .got (K.tag b) :: cpost }⟩ ∧
          At files map hi rpost r' L := by
      intro r hn hl hw e
      have hp : r.processed < hi := by omega
      let r1 : PState D := { r with workers := .fetch :: rpost }
      let r2 : PState D := { r1 with processed := r.processed + 1, workers := .image r.processed (map r.processed).keys :: rpost }
      have s1 : Step K files map hi ⟨r, c⟩ .reader ⟨r1, c⟩ :=
        .read (x := ⟨r, c⟩) (r' := r1) (rpre := []) (cpre := []) hub (.more (pre := []) hw hp) hw rfl (by simp) rfl hc rfl
      have s2 : Step K files map hi ⟨r1, c⟩ .reader ⟨r2, c⟩ :=
        .read (x := ⟨r1, c⟩) (r' := r2) (rpre := []) (cpre := []) hub (.fetch (pre := []) rfl hp) rfl rfl (by simp) rfl hc rfl
      rw [blocks_cons files map hp] at e
      cases hk : (map r.processed).keys with
      | cons f fs =>
        rw [hk] at e
        obtain ⟨r', g1, g2⟩ := image r2 r.processed f fs hl (by simp [r2, hk]) (by simp [hk]) e
        exact ⟨r', .head s1 (.head s2 g1), g2⟩
      | nil =>
        rw [hk] at e
        let r3 : PState D := { r2 with workers := .test :: rpost }
        have s3 : Step K files map hi ⟨r2, c⟩ .reader ⟨r3, c⟩ :=
          .read (x := ⟨r2, c⟩) (r' := r3) (rpre := []) (cpre := []) hub (.end_ (pre := []) (by simp [r2, hk]; rfl)) rfl rfl (by simp)
            rfl hc rfl
        obtain ⟨r', g1, g2⟩ := ih r3 (by simp only [r3, r2]; omega) ⟨hl, .inl ⟨rfl, e⟩⟩
        exact ⟨r', .head s1 (.head s2 (.head s3 g1)), g2⟩
    intro r hn hA
    obtain ⟨hl, ⟨hw, e⟩ | ⟨p, fs, hw, hk, e⟩⟩ := hA
    · exact test r hn hl hw e
    · cases fs with
      | cons f fs => exact image r p f fs hl hw hk e
      | nil =>
        let r3 : PState D := { r with workers := .test :: rpost }
        have s3 : Step K files map hi ⟨r, c⟩ .reader ⟨r3, c⟩ :=
          .read (x := ⟨r, c⟩) (r' := r3) (rpre := []) (cpre := []) hub (.end_ (pre := []) hw) hw rfl (by simp) rfl hc rfl
        obtain ⟨r', g1, g2⟩ := test r3 hn hl rfl e
        exact ⟨r', .head s3 g1, g2⟩

/-- The first worker collects samples and incomplete blocks, while there are not enough samples. -/
theorem collect {K : Call D Θ} {files : List (MultiPass.File D)} {map : ScanMap} {hi : Nat} {cpost : List Worker}
    {rpost : List (PWorker D)} {L : List (MultiPass.Block D)} :
    ∀ (before : List (MultiPass.Block D)) (r : PState D) (c : Streaming.State Θ), c.ub = false → c.locked = false →
      c.counting = false → c.workers = .idle :: cpost → (∀ d, c.main ≠ .done d) →
      c.samples.length + before.countP (·.complete) < K.numBlocks → At files map hi rpost r (before ++ L) →
      ∃ r' I, Reach (Step K files map hi) ⟨r, c⟩
          ⟨r', { c with samples := c.samples ++ (before.filter (·.complete)).map K.tag, incomplete := I }⟩ ∧
        At files map hi rpost r' L := by
  intro before
  induction before with
  | nil =>
    intro r c _ _ _ _ _ _ hA
    refine ⟨r, c.incomplete, ?_, hA⟩
    simp only [List.filter_nil, List.map_nil, List.append_nil]
    exact .refl _
  | cons b before ih =>
    intro r c hub hlk hct hw hd hN hA
    obtain ⟨r1, g1, hA1⟩ := next_block (K := K) hub hw _ r rfl hA
    let c1 : Streaming.State Θ := { c with workers := .got (K.tag b) :: cpost }
    let c2 : Streaming.State Θ := { c1 with workers := .wantLock (K.tag b) :: cpost }
    have s1 : Step K files map hi ⟨r1, c1⟩ (.count .internal) ⟨r1, c2⟩ :=
      .count (x := ⟨r1, c1⟩) (c' := c2) (.noFlag (pre := []) (post := cpost) hub rfl hct) ⟨rfl, by simp [c1, c2], hd⟩
    have hpn : K.params.numBlocks = K.numBlocks := rfl
    cases hb : b.complete with
    | true =>
      rw [List.countP_cons_of_pos (by simpa using hb)] at hN
      let c3 : Streaming.State Θ := { c2 with samples := c.samples ++ [K.tag b], workers := .idle :: cpost }
      have s2 : Step K files map hi ⟨r1, c2⟩ (.count .internal) ⟨r1, c3⟩ :=
        .count (x := ⟨r1, c2⟩) (c' := c3) (.sample (pre := []) (post := cpost) hub rfl hlk
          (by simp only [c2, c1, hpn]; omega) (by simp [Call.tag, hb])) ⟨rfl, by simp [c2, c3], hd⟩
      obtain ⟨r2, I, g2, hA2⟩ := ih r1 c3 hub hlk hct rfl hd (by simp [c3]; omega) hA1
      refine ⟨r2, I, (g1.step s1).step s2 |>.trans ?_, hA2⟩
      have e : c.samples ++ ((b :: before).filter (·.complete)).map K.tag =
          c3.samples ++ (before.filter (·.complete)).map K.tag := by
        simp [hb, c3]
      rw [e]
      convert g2 using 3
    | false =>
      rw [List.countP_cons_of_neg (by simp [hb])] at hN
      let c3 : Streaming.State Θ := { c2 with incomplete := c.incomplete ++ [K.tag b], workers := .idle :: cpost }
      have s2 : Step K files map hi ⟨r1, c2⟩ (.count .internal) ⟨r1, c3⟩ :=
        .count (x := ⟨r1, c2⟩) (c' := c3) (.incomplete (pre := []) (post := cpost) hub rfl hlk
          (by simp only [c2, c1, hpn]; omega) (by simp [Call.tag, hb])) ⟨rfl, by simp [c2, c3], hd⟩
      obtain ⟨r2, I, g2, hA2⟩ := ih r1 c3 hub hlk hct rfl hd (by simpa [c3] using hN) hA1
      refine ⟨r2, I, (g1.step s1).step s2 |>.trans ?_, hA2⟩
      have e : c.samples ++ ((b :: before).filter (·.complete)).map K.tag =
          c3.samples ++ (before.filter (·.complete)).map K.tag := by
        simp [hb, c3, c2, c1]
      rw [e]
      convert g2 using 3

/-- The calling thread counts blocks of the first loop while the workers do nothing. -/
theorem main_pushes {K : Call D Θ} {files : List (MultiPass.File D)} {map : ScanMap} {hi : Nat} {r : PState D} {θ : Θ} {todo : List Blk} :
    ∀ (l : List Blk) (c : Streaming.State Θ), c.ub = false → c.thresholds = some θ → c.main = .extra (l ++ todo) false →
      (∀ b ∈ l, b.pos < c.events.length) → (∀ w ∈ c.workers, ∀ p, pushesAt p w = false) →
      ∃ E C, E.length = c.events.length ∧
        Reach (Step K files map hi) ⟨r, c⟩ ⟨r, { c with events := E, counted := C, main := .extra todo false }⟩ := by
  intro l
  induction l with
  | nil =>
    intro c _ _ hm _ _
    refine ⟨c.events, c.counted, rfl, ?_⟩
    have : c = { c with events := c.events, counted := c.counted, main := .extra todo false } := by
      rw [List.nil_append] at hm
      rw [← hm]
    rw [← this]
    exact .refl _
  | cons b l ih =>
    intro c hub ht hm hp hw
    let c1 : Streaming.State Θ := { c with main := .pushing b (l ++ todo) false }
    let c2 : Streaming.State Θ := { c1 with events := pushEvents K.params c1 θ b, counted := c1.counted ++ [b], main := .extra (l ++ todo) false }
    have s1 : Step K files map hi ⟨r, c⟩ (.count .internal) ⟨r, c1⟩ :=
      .count (x := ⟨r, c⟩) (c' := c1) (.extra hub hm (hp b (by simp)) fun w hw' => hw w hw' _) ⟨rfl, rfl, by intro d h; cases h⟩
    have s2 : Step K files map hi ⟨r, c1⟩ (.count .internal) ⟨r, c2⟩ :=
      .count (x := ⟨r, c1⟩) (c' := c2) (.mainPush hub rfl ht) ⟨rfl, rfl, by intro d h; cases h⟩
    have hl : c2.events.length = c.events.length := by simp [c2, c1, pushEvents]
    obtain ⟨E, C, hE, g⟩ := ih c2 hub ht rfl (by intro b' hb'; rw [hl]; exact hp b' (List.mem_cons_of_mem _ hb')) hw
    exact ⟨E, C, by rw [hE, hl], .head s1 (.head s2 g)⟩

/-! ### One worker -/

theorem single {α : Type} {l pre post : List α} {w : α} (hl : l.length = 1) (h : l = pre ++ w :: post) : pre = [] ∧ post = [] := by
  rw [h] at hl
  simp only [List.length_append, List.length_cons] at hl
  exact ⟨List.length_eq_zero_iff.1 (by omega), List.length_eq_zero_iff.1 (by omega)⟩

/-- One worker delivers the blocks in the order of the positions and frames. -/
theorem one_order {files : List (MultiPass.File D)} {map : ScanMap} {lo hi : Nat} {at_ : Nat → Nat} {rls : List Unit} {r : PState D}
    (h : Run (PStep files map hi) (pinit 1 lo at_) rls r) : ∃ X, r.delivered ++ X = blocks files map lo hi := by
  have key : r.delivered.map (fun b => (b.pos, b.frame)) ++ r.workers.flatMap MultiPass.pheld ++
      MultiPass.frames map r.processed hi = MultiPass.frames map lo hi := by
    induction h with
    | nil => simp [pinit, MultiPass.pheld]
    | @snoc s t _ _ h1 hs ih =>
      have ih := ih
      have hl : s.workers.length = 1 := (pinv_run h1).2
      cases hs with
      | @done pre post hw hp =>
        obtain ⟨rfl, rfl⟩ := single hl hw
        simpa [hw, MultiPass.pheld] using ih
      | @more pre post hw hp =>
        obtain ⟨rfl, rfl⟩ := single hl hw
        simpa [hw, MultiPass.pheld] using ih
      | @overrun pre post hw hp =>
        obtain ⟨rfl, rfl⟩ := single hl hw
        simpa [hw, MultiPass.pheld, MultiPass.frames_ge map hp, MultiPass.frames_ge map (Nat.le_succ_of_le hp)] using ih
      | @fetch pre post hw hp =>
        obtain ⟨rfl, rfl⟩ := single hl hw
        simpa [hw, MultiPass.pheld, MultiPass.frames_lt map hp] using ih
      | @end_ pre post p hw =>
        obtain ⟨rfl, rfl⟩ := single hl hw
        simpa [hw, MultiPass.pheld] using ih
      | @frame pre post p f fs hw =>
        obtain ⟨rfl, rfl⟩ := single hl hw
        simpa [hw, MultiPass.pheld] using ih
      | @missing pre post p f fs j n acc a hw =>
        obtain ⟨rfl, rfl⟩ := single hl hw
        simpa [hw, MultiPass.pheld] using ih
      | @acquire pre post p f fs j n acc a loc hw =>
        obtain ⟨rfl, rfl⟩ := single hl hw
        simpa [hw, MultiPass.pheld] using ih
      | @seek pre post p f fs j n acc loc hw =>
        obtain ⟨rfl, rfl⟩ := single hl hw
        simpa [hw, MultiPass.pheld] using ih
      | @read pre post p f fs j n acc loc hw =>
        obtain ⟨rfl, rfl⟩ := single hl hw
        simpa [hw, MultiPass.pheld] using ih
      | @deliver pre post p f fs n acc hw =>
        obtain ⟨rfl, rfl⟩ := single hl hw
        simpa [hw, MultiPass.pheld] using ih
  have I := (pinv_run h).1
  have e : r.delivered.map (fun b => blk files map b.pos b.frame) = r.delivered := by
    conv_rhs => rw [← List.map_id r.delivered]
    apply List.map_congr_left
    intro b hb
    obtain ⟨a, ha, hbe⟩ := I.good b hb
    simp only [blk, ha, Option.getD_some, id]
    exact hbe.symm
  refine ⟨(r.workers.flatMap MultiPass.pheld ++ MultiPass.frames map r.processed hi).map fun x => blk files map x.1 x.2, ?_⟩
  rw [← e]
  conv_rhs => rw [blocks, ← key]
  simp [Function.comp_def, blk]

/-- The blocks in hand of the workers. -/
def inHand (ws : List Worker) : List Blk := ws.filterMap blkOf

theorem blkOf_wake (w : Worker) : blkOf (wakeWorker w) = blkOf w := by cases w <;> rfl

/-- `col` are the blocks collected before the counting has begun. -/
structure Collected (P : Params Θ) (d : List Blk) (c : Streaming.State Θ) (col rest : List Blk) : Prop where
  parts : d = col ++ rest
  perm : (c.samples ++ c.incomplete).Perm col
  last : ∃ r, rest = r ++ inHand c.workers
  few : c.samples.length < P.numBlocks → rest = inHand c.workers
  enough : P.numBlocks ≤ c.samples.length → ∃ l s, col = l ++ [s] ∧ s.complete = some true
  owed : ∀ a ∈ owed c.samples c.incomplete c.main, a ∈ c.samples ++ c.incomplete

/-- Nothing of the invariant changes. -/
theorem Collected.same {P : Params Θ} {d : List Blk} {c c' : Streaming.State Θ} {col rest : List Blk} (h : Collected P d c col rest)
    (hw : inHand c'.workers = inHand c.workers) (hs : c'.samples = c.samples) (hi : c'.incomplete = c.incomplete)
    (ho : ∀ a ∈ Streaming.owed c.samples c.incomplete c'.main, a ∈ c.samples ++ c.incomplete) : Collected P d c' col rest := by
  obtain ⟨h1, h2, h3, h4, h5, h6⟩ := h
  exact ⟨h1, by rw [hs, hi]; exact h2, by rw [hw]; exact h3, by rw [hs, hw]; exact h4, by rw [hs]; exact h5, by rw [hs, hi]; exact ho⟩

/-- The worker has counted its block. -/
theorem Collected.counted {P : Params Θ} {d : List Blk} {c c' : Streaming.State Θ} {col rest : List Blk} (h : Collected P d c col rest)
    (hf : P.numBlocks ≤ c.samples.length)
    (hw : inHand c'.workers = []) (hs : c'.samples = c.samples) (hi : c'.incomplete = c.incomplete) (hm : c'.main = c.main) :
    Collected P d c' col rest := by
  obtain ⟨h1, h2, h3, h4, h5, h6⟩ := h
  refine ⟨h1, by rw [hs, hi]; exact h2, ⟨rest, by rw [hw]; simp⟩, ?_, by rw [hs]; exact h5, by rw [hs, hi, hm]; exact h6⟩
  intro hlt
  rw [hs] at hlt
  omega

/-- A block is collected. -/
theorem Collected.add {P : Params Θ} {d : List Blk} {c c' : Streaming.State Θ} {col rest : List Blk} {b : Blk} (h : Collected P d c col rest)
    (hf : c.samples.length < P.numBlocks) (hb : inHand c.workers = [b]) (hw : inHand c'.workers = []) (hm : c'.main = c.main)
    (he : early c.main = true)
    (hs : (c'.samples = c.samples ++ [b] ∧ b.complete = some true ∧ c'.incomplete = c.incomplete) ∨
      (c'.samples = c.samples ∧ c'.incomplete = c.incomplete ++ [b])) :
    Collected P d c' (col ++ [b]) [] := by
  obtain ⟨h1, h2, h3, h4, h5, h6⟩ := h
  have h4 := h4 hf
  rw [hb] at h4
  refine ⟨by rw [h1, h4]; simp, ?_, ⟨[], by rw [hw]; rfl⟩, fun _ => by rw [hw], ?_, ?_⟩
  · rcases hs with ⟨e1, _, e2⟩ | ⟨e1, e2⟩
    · rw [e1, e2, List.append_assoc]
      refine List.Perm.trans ?_ (h2.append_right [b])
      rw [List.append_assoc]
      exact List.Perm.append_left _ List.perm_append_comm
    · rw [e1, e2, ← List.append_assoc]
      exact h2.append_right [b]
  · intro hN
    rcases hs with ⟨_, hc, _⟩ | ⟨e1, _⟩
    · exact ⟨col, b, rfl, hc⟩
    · rw [e1] at hN
      omega
  · intro a ha
    rw [hm] at ha
    cases hmm : c.main <;> simp [hmm, early, Streaming.owed] at he ha ⊢ <;> exact ha

/-- What the invariants of the counting say of the calling thread and the workers. -/
theorem phases {K : Call D Θ} (hn : 0 < K.threads) {files : List (MultiPass.File D)} {map : ScanMap} {lo hi : Nat}
    {at_ : Nat → Nat} {ls : List Label} {x : State D Θ} (h : Run (Step K files map hi) (init K lo at_) ls x) :
    x.counting.counting = (!early x.counting.main) ∧
    (x.counting.counting = false → ∀ w ∈ x.counting.workers, active w = false) ∧
    (x.counting.main = .holding ∨ x.counting.counting = true → x.counting.samples.length = K.numBlocks) ∧
    (x.counting.counting = true → (∃ θ, x.counting.thresholds = some θ) ∧ x.counting.events.length = K.positions) ∧
    x.counting.workers.length = K.threads ∧ x.counting.samples.length ≤ K.numBlocks ∧
    (∀ b ∈ x.counting.samples, b.complete = some true) ∧ ∀ b ∈ x.counting.incomplete, b.complete = some false := by
  obtain ⟨_, _, _, rem, als, _, _, _, ⟨_, hr⟩ | ⟨_, _, _, hr⟩⟩ := sim hn h
  · have A := (invAB (s := abs x.counting rem) ⟨_, hr⟩).1
    refine ⟨A.flag, ?_, A.full, fun hc => ⟨⟨_, (A.thr hc).1⟩, (A.thr hc).2.1⟩, by simpa [abs, Call.params] using A.size, A.le, A.smp, A.inc⟩
    intro hc w hw
    have := (A.quiet hc).2 (back w) (List.mem_map.2 ⟨w, hw, rfl⟩)
    cases w <;> simp_all [back, active]
  · have A := (invAB (s := x.counting) ⟨_, hr⟩).1
    exact ⟨A.flag, fun hc => (A.quiet hc).2, A.full, fun hc => ⟨⟨_, (A.thr hc).1⟩, (A.thr hc).2.1⟩, A.size, A.le, A.smp, A.inc⟩

theorem collected {K : Call D Θ} (hn : K.threads = 1) {files : List (MultiPass.File D)} {map : ScanMap} {lo hi : Nat}
    {at_ : Nat → Nat} (hN : 0 < K.numBlocks) {ls : List Label} {x : State D Θ} (h : Run (Step K files map hi) (init K lo at_) ls x) :
    ∃ col rest, Collected K.params (x.reader.delivered.map K.tag) x.counting col rest := by
  have hpn : K.params.numBlocks = K.numBlocks := rfl
  induction h with
  | nil =>
    refine ⟨[], [], ?_, ?_, ⟨[], ?_⟩, ?_, ?_, ?_⟩
    · simp [init, pinit]
    · simp [init, Streaming.init]
    · simp [init, Streaming.init, Call.params, hn, inHand, blkOf]
    · simp [init, Streaming.init, Call.params, hn, inHand, blkOf]
    · simp only [init, Streaming.init, List.length_nil, hpn]
      omega
    · simp [init, Streaming.init, Streaming.owed]
  | @snoc y z ls l hr hs ih =>
    obtain ⟨col, rest, C⟩ := ih
    obtain ⟨hflag, hquiet, hfull, -, hsize, -, -, -⟩ := phases (by omega) hr
    rw [hn] at hsize
    cases hs with
    | @read r' rpre rpost w w' cpre cpost h0 hp h1 h2 h3 h4 h5 h6 =>
      exact ⟨col, rest, by simp only [h4]; exact C⟩
    | @deliver r' rpre rpost w w' cpre cpost b h0 hp h1 h2 h3 h4 h5 h6 =>
      obtain ⟨rfl, rfl⟩ := single hsize h5
      refine ⟨col, rest ++ [K.tag b], ?_, C.perm, ⟨rest, by simp [inHand, blkOf]⟩, ?_, C.enough, C.owed⟩
      · simp only [h4, List.map_append, C.parts]
        simp
      · intro hlt
        have := C.few hlt
        rw [this]
        simp [h5, inHand, blkOf]
    | @finish r' rpre rpost w cpre cpost h0 hp h1 h2 h4 h5 h6 =>
      obtain ⟨rfl, rfl⟩ := single hsize h5
      refine ⟨col, rest, ?_⟩
      simp only [h4]
      exact C.same (by simp only [h5]; rfl) rfl rfl C.owed
    | join h0 h1 h2 =>
      exact ⟨col, rest, C.same rfl rfl rfl (by simp [Streaming.owed])⟩
    | @count l c' hst hin =>
      have hearly : y.counting.samples.length < K.numBlocks → early y.counting.main = true := by
        intro hlt
        cases he : early y.counting.main with
        | true => rfl
        | false =>
          rw [he] at hflag
          have := hfull (.inr hflag)
          omega
      cases hst with
      | @take b p1 p2 pre post g0 g1 g2 =>
        have := congrArg List.length hin.1
        simp [g2] at this
      | @exit pre post g0 g1 g2 =>
        have := hin.2.1
        simp [g1] at this
      | @seeFlag b pre post g0 g1 g2 =>
        exact ⟨col, rest, C.same (by simp [g1, inHand, blkOf]) rfl rfl C.owed⟩
      | @noFlag b pre post g0 g1 g2 =>
        exact ⟨col, rest, C.same (by simp [g1, inHand, blkOf]) rfl rfl C.owed⟩
      | @sample b pre post g0 g1 g2 g3 g4 =>
        obtain ⟨rfl, rfl⟩ := single hsize g1
        have hlt : y.counting.samples.length < K.numBlocks := by omega
        exact ⟨_, _, C.add hlt (by simp [g1, inHand, blkOf]) (by simp [inHand, blkOf]) rfl (hearly hlt) (.inl ⟨rfl, g4, rfl⟩)⟩
      | @lastSample b pre post g0 g1 g2 g3 g4 =>
        obtain ⟨rfl, rfl⟩ := single hsize g1
        have hlt : y.counting.samples.length < K.numBlocks := by omega
        exact ⟨_, _, C.add hlt (by simp [g1, inHand, blkOf]) (by simp [inHand, blkOf]) rfl (hearly hlt) (.inl ⟨rfl, g4, rfl⟩)⟩
      | @incomplete b pre post g0 g1 g2 g3 g4 =>
        obtain ⟨rfl, rfl⟩ := single hsize g1
        exact ⟨_, _, C.add g3 (by simp [g1, inHand, blkOf]) (by simp [inHand, blkOf]) rfl (hearly g3) (.inr ⟨rfl, rfl⟩)⟩
      | @notifyAll pre post g0 g1 =>
        obtain ⟨rfl, rfl⟩ := single hsize g1
        refine ⟨col, rest, C.same (by simp only [g1]; rfl) rfl rfl ?_⟩
        intro a ha
        apply C.owed a
        cases hm : y.counting.main <;> simp_all [wakeMain, Streaming.owed]
      | @sleep b pre post g0 g1 g2 g3 =>
        rcases g1 with ⟨g1, -⟩ | g1 <;> exact ⟨col, rest, C.same (by simp [g1, inHand, blkOf]) rfl rfl C.owed⟩
      | @proceed b pre post g0 g1 g2 g3 =>
        rcases g1 with ⟨g1, -⟩ | g1 <;> exact ⟨col, rest, C.same (by simp [g1, inHand, blkOf]) rfl rfl C.owed⟩
      | @append b hold pre post g0 g1 =>
        exact ⟨col, rest, C.same (by simp [g1, inHand, blkOf]) rfl rfl C.owed⟩
      | @push b hold θ pre post g0 g1 g2 =>
        have hc : y.counting.counting = true := by
          cases hc : y.counting.counting with
          | true => rfl
          | false =>
            have := hquiet hc (.pushing b hold) (by simp [g1])
            cases this
        have := hfull (.inr hc)
        obtain ⟨rfl, rfl⟩ := single hsize g1
        exact ⟨col, rest, C.counted (by omega) (by simp [inHand, blkOf]) rfl rfl rfl⟩
      | sampleUb | appendOut | appendRace | pushUb | mainUb | extraOut | extraRace | mainPushUb =>
        exact ⟨col, rest, C.same rfl rfl rfl C.owed⟩
      | mainSleep | mainLock | mainSpurious =>
        exact ⟨col, rest, C.same rfl rfl rfl (by simp [Streaming.owed])⟩
      | mainStart | mainUnlock =>
        exact ⟨col, rest, C.same rfl rfl rfl (by simp [Streaming.owed])⟩
      | mainNotify g0 g1 =>
        refine ⟨col, rest, C.same ?_ rfl rfl ?_⟩
        · simp [inHand, List.filterMap_map, blkOf_wake]
        · intro a ha
          simp only [Streaming.owed, List.mem_append] at ha ⊢
          rcases ha with ha | ha
          · exact .inl (List.mem_of_mem_take ha)
          · exact .inr (by simpa using ha)
      | @extra b todo second g0 g1 =>
        refine ⟨col, rest, C.same rfl rfl rfl ?_⟩
        intro a ha
        apply C.owed a
        rw [g1]
        simpa [Streaming.owed] using ha
      | @mainPush b todo second θ g0 g1 =>
        refine ⟨col, rest, C.same rfl rfl rfl ?_⟩
        intro a ha
        apply C.owed a
        rw [g1]
        simp only [Streaming.owed, List.mem_append, List.mem_cons] at ha ⊢
        rcases ha with ha | ha
        · exact .inl (.inr ha)
        · exact .inr ha
      | mainSecond =>
        refine ⟨col, rest, C.same rfl rfl rfl ?_⟩
        intro a ha
        simp only [Streaming.owed, List.mem_append] at ha ⊢
        exact .inr (by simpa using ha)
      | mainJoin =>
        exact ⟨col, rest, C.same rfl rfl rfl (by simp [Streaming.owed])⟩
      | mainDone =>
        exact ⟨col, rest, C.same rfl rfl rfl (by simp [Streaming.owed])⟩
      | @spurious b pre post g0 g1 =>
        exact ⟨col, rest, C.same (by simp [g1, inHand, blkOf]) rfl rfl C.owed⟩

end Stempy.CountingReader
