import Verif.Lemmas.ThreadedReader
import Verif.Props.SectorReader
import Mathlib.Data.List.Perm.Subperm

/-!
C27: the single-pass threaded reader.
-/

namespace Stempy.Props
open Stempy.ThreadedReader Stempy.Spec
open Stempy.SectorReader (Rec assemble version4 version5)

variable {D : Type}

/-- All records of the files, with the sector of the file. -/
def sectorRecords (files : List (Entry D)) : List (Nat × Rec D) :=
  files.flatMap fun e => e.rest.map fun r => (e.sector, r)

/-- The records of a frame. -/
def recordsOf (files : List (Entry D)) (k : Nat) : List (Nat × Rec D) :=
  (sectorRecords files).filter fun i => i.2.frameNumber = k

theorem atMostFour {files : List (Entry D)} (h4 : ∀ k, (recordsOf files k).length ≤ 4) :
    AtMostFour files := by
  intro k
  rw [List.countP_eq_length_filter]
  exact h4 k

private theorem inv_reach {files : List (Entry D)} (h4 : ∀ k, (recordsOf files k).length ≤ 4) {threads : Nat}
    {s : State D} (hr : Reach Step (init threads files) s) : Inv files s :=
  hr.inv (Inv files) (inv_init threads files) fun _ _ _ I h => inv_step (atMostFour h4) I h

private theorem block_count (files : List (Entry D)) (bs : List (Block D)) (hg : ∀ b ∈ bs, Good files b) (k : Nat) :
    (bs.flatMap fun b => b.items).countP (fun i => i.2.frameNumber = k) = 4 * bs.countP fun b => b.key = k := by
  induction bs with
  | nil => rfl
  | cons b bs ih =>
    have ih := ih (fun b hb => hg b (by simp [hb]))
    have g := hg b (by simp)
    rw [List.flatMap_cons, List.countP_append, ih, List.countP_cons]
    by_cases hk : b.key = k
    · have : b.items.countP (fun i => decide (i.2.frameNumber = k)) = 4 := by
        rw [← g.four, List.countP_eq_length]
        intro i hi
        simp [g.key i hi, hk]
      rw [this]
      simp [hk]
      omega
    · have : b.items.countP (fun i => decide (i.2.frameNumber = k)) = 0 := by
        rw [List.countP_eq_zero]
        intro i hi
        simp [g.key i hi, hk]
      rw [this]
      simp [hk]

private theorem mem_key {bs : List (Block D)} {k : Nat} (h : bs.countP (fun b => b.key = k) = 1) :
    ∃ b pre post, bs = pre ++ b :: post ∧ b.key = k ∧ (∀ x ∈ pre ++ post, x.key ≠ k) := by
  induction bs with
  | nil => simp at h
  | cons b bs ih =>
    rw [List.countP_cons] at h
    by_cases hk : b.key = k
    · refine ⟨b, [], bs, rfl, hk, ?_⟩
      simp only [hk, decide_true, if_true] at h
      have : bs.countP (fun b => decide (b.key = k)) = 0 := by omega
      rw [List.countP_eq_zero] at this
      intro x hx
      simpa using this x (by simpa using hx)
    · simp only [hk, decide_false, Bool.false_eq_true, if_false, Nat.add_zero] at h
      obtain ⟨b', pre, post, rfl, h1, h2⟩ := ih h
      refine ⟨b', b :: pre, post, rfl, h1, ?_⟩
      intro x hx
      simp only [List.cons_append, List.mem_cons] at hx
      rcases hx with rfl | hx
      · exact hk
      · exact h2 x hx

/-- What the invariant says. -/
theorem once {files : List (Entry D)} (h4 : ∀ k, (recordsOf files k).length ≤ 4) {s : State D} (I : Inv files s) :
    s.ub = false ∧ (s.delivered.map fun b => b.key).Nodup ∧
    (∀ b ∈ s.delivered, b.items.length = 4 ∧ b.items.Perm (recordsOf files b.key) ∧
      ∃ i ∈ recordsOf files b.key, i.2 = b.head) ∧
    (s.workers ≠ [] → (∀ w ∈ s.workers, w = .exited) → ∀ k,
      (s.delivered.countP fun b => b.key = k) = if (recordsOf files k).length = 4 then 1 else 0) := by
  classical
  have hN : ∀ k, (all files).countP (fun i => i.2.frameNumber = k) = (recordsOf files k).length := by
    intro k; rw [List.countP_eq_length_filter]; rfl
  have hle : ∀ k, 4 * (s.delivered.countP fun b => b.key = k) ≤ (recordsOf files k).length := by
    intro k
    have := I.cons k (fun i => i.2.frameNumber = k) (by simp)
    rw [block_count files _ I.good k, hN] at this
    omega
  have hone : ∀ k, (s.delivered.countP fun b => b.key = k) ≤ 1 := by
    intro k
    have := hle k
    have := h4 k
    omega
  refine ⟨I.safe, ?_, ?_, ?_⟩
  · rw [List.nodup_iff_count_le_one]
    intro k
    rw [List.count, List.countP_map]
    have := hone k
    convert this using 2
    funext b
    rw [Bool.eq_iff_iff]
    simp only [Function.comp, beq_iff_eq, decide_eq_true_iff]
  · intro b hb
    have g := I.good b hb
    refine ⟨g.four, ?_, ?_⟩
    · have hc : ∀ i, b.items.count i = (recordsOf files b.key).count i := by
        have hb1 : s.delivered.countP (fun x => decide (x.key = b.key)) = 1 := by
          have h1 := hone b.key
          have h2 : 0 < s.delivered.countP (fun x => decide (x.key = b.key)) := by
            rw [List.countP_pos_iff]
            exact ⟨b, hb, by simp⟩
          omega
        have hK := hle b.key
        have hK4 := h4 b.key
        have hcons := I.cons b.key (fun i => i.2.frameNumber = b.key) (by simp)
        rw [block_count files _ I.good, hN, hb1] at hcons
        obtain ⟨b', pre, post, hd, hk, hother⟩ := mem_key hb1
        have hbb : b = b' := by
          by_contra hne
          rw [hd] at hb
          simp only [List.mem_append, List.mem_cons] at hb
          rcases hb with hb | hb | hb
          · exact hother b (by simp [hb]) rfl
          · exact hne hb
          · exact hother b (by simp [hb]) rfl
        subst hbb
        have hzq : (s.queue.flatMap items).countP (fun i => decide (i.2.frameNumber = b.key)) = 0 := by omega
        have hzw : (s.workers.flatMap held).countP (fun i => decide (i.2.frameNumber = b.key)) = 0 := by omega
        have hzp : (placed s b.key).countP (fun i => decide (i.2.frameNumber = b.key)) = 0 := by omega
        have zero : ∀ (l : List (Nat × Rec D)) (i : Nat × Rec D), i.2.frameNumber = b.key →
            l.countP (fun i => decide (i.2.frameNumber = b.key)) = 0 → l.countP (fun j => decide (j = i)) = 0 := by
          intro l i hi h
          rw [List.countP_eq_zero] at h ⊢
          intro j hj e
          simp at e
          subst e
          exact h j hj (by simpa using hi)
        intro i
        by_cases hi : i.2.frameNumber = b.key
        · have h := I.cons b.key (fun j => decide (j = i)) (by intro j hj; simp at hj; rw [hj]; exact hi)
          rw [zero _ i hi hzq, zero _ i hi hzw, zero _ i hi hzp, hd, flatMap_remove] at h
          have hz : (((pre ++ post).flatMap fun b => b.items).countP fun j => decide (j = i)) = 0 := by
            rw [List.countP_eq_zero]
            intro j hj e
            simp at e
            subst e
            obtain ⟨x, hx, hjx⟩ := List.mem_flatMap.1 hj
            have hgx := (I.good x (by
              rw [hd]; simp only [List.mem_append, List.mem_cons] at hx ⊢
              rcases hx with hx | hx <;> simp [hx])).key j hjx
            exact hother x hx (hgx.symm.trans hi)
          rw [hz] at h
          rw [recordsOf, List.count_filter (by simpa using hi)]
          have e1 : ∀ l : List (Nat × Rec D), l.count i = l.countP fun j => decide (j = i) := by
            intro l
            rw [List.count]
            congr 1
            funext j
            rw [Bool.eq_iff_iff]
            simp only [beq_iff_eq, decide_eq_true_iff]
          rw [e1, e1]
          change _ = (all files).countP _
          omega
        · rw [List.count_eq_zero_of_not_mem (fun h => hi (g.key i h)),
            List.count_eq_zero_of_not_mem (fun h => hi (by simpa using (List.mem_filter.1 h).2))]
      exact List.perm_iff_count.2 hc
    · obtain ⟨sec, hm⟩ := g.headMem
      exact ⟨(sec, b.head), List.mem_filter.2 ⟨hm, by simpa using g.headKey⟩, rfl⟩
  · intro hlen hex k
    obtain ⟨w, ws, hws⟩ : ∃ w ws, s.workers = w :: ws := by
      cases h : s.workers with
      | nil => exact absurd h hlen
      | cons w ws => exact ⟨w, ws, rfl⟩
    have hmem : (.exited : Worker D) ∈ s.workers := by
      have := hex w (by simp [hws])
      rw [hws, this]
      simp
    have h0 := I.exited hmem
    have hq : s.queue = [] := by
      have := I.streams
      rw [h0] at this
      exact List.length_eq_zero_iff.1 (by omega)
    have hh : s.workers.flatMap held = [] := by
      rw [List.flatMap_eq_nil_iff]
      intro x hx
      rw [hex x hx]
      rfl
    have hcons := I.cons k (fun i => i.2.frameNumber = k) (by simp)
    rw [hq, hh, block_count files _ I.good k, hN] at hcons
    simp only [List.flatMap_nil, List.countP_nil] at hcons
    have hp : (placed s k).countP (fun i => decide (i.2.frameNumber = k)) ≤ 3 := by
      unfold placed
      split
      · rename_i o ho
        have h1 := I.cnt k o ho
        have h2 := I.fin k o ho
        have h3 : s.workers.countP (finishing k) = 0 := by
          rw [List.countP_eq_zero]
          intro x hx
          rw [hex x hx]
          simp [finishing]
        have h5 : s.workers.countP (counting k) = 0 := by
          rw [List.countP_eq_zero]
          intro x hx
          rw [hex x hx]
          simp [counting]
        have h6 := I.bound (atMostFour h4 k) ho
        have h7 := List.countP_le_length (p := fun i : Nat × Rec D => decide (i.2.frameNumber = k)) (l := o.placed)
        rw [h3] at h2
        split at h2
        · omega
        · omega
      · simp
    have := h4 k
    split <;> omega

theorem workers_length {a s : State D} (hr : Reach Step a s) : s.workers.length = a.workers.length :=
  hr.inv (fun s => s.workers.length = a.workers.length) rfl (by
    intro a l c ha hs
    cases hs <;> simp_all)

/-- **C27** For files in which no frame has more than four records (one per sector), for any number of threads and any
schedule: there is no access to a freed frame; at any time the delivered blocks are of different frames, each has
exactly four records, which are all the records of this frame; and at the end (all workers returned) a frame
was delivered if and only if it has four records. -/
theorem C27_exactly_once (files : List (Entry D)) (h4 : ∀ k, (recordsOf files k).length ≤ 4) {threads : Nat}
    {s : State D} (hr : Reach Step (init threads files) s) :
    s.ub = false ∧ (s.delivered.map fun b => b.key).Nodup ∧
    (∀ b ∈ s.delivered, b.items.length = 4 ∧ b.items.Perm (recordsOf files b.key) ∧
      ∃ i ∈ recordsOf files b.key, i.2 = b.head) ∧
    (0 < threads → (∀ w ∈ s.workers, w = .exited) → ∀ k,
      (s.delivered.countP fun b => b.key = k) = if (recordsOf files k).length = 4 then 1 else 0) := by
  obtain ⟨h1, h2, h3, h5⟩ := once h4 (inv_reach h4 hr)
  refine ⟨h1, h2, h3, fun hpos => h5 ?_⟩
  have := workers_length hr
  simp only [init, List.length_replicate] at this
  intro h
  rw [h] at this
  simp at this
  omega

/-- **C27** In a delivered frame all sectors are in place (version 4 layout), if the four records come from the four
sectors. -/
theorem C27_pixels_v4 (files : List (Entry (List Nat))) (h4 : ∀ k, (recordsOf files k).length ≤ 4)
    (hd : ∀ i ∈ sectorRecords files, i.2.data.length = 144 * 576) {threads : Nat} {s : State (List Nat)}
    (hr : Reach Step (init threads files) s) {b : Block (List Nat)} (hb : b ∈ s.delivered)
    (hs : ((recordsOf files b.key).map fun i => i.1).Perm [0, 1, 2, 3]) {x y : Nat} (hx : x < 576) (hy : y < 576) :
    ∃ i ∈ recordsOf files b.key, i.1 = x / 144 ∧
      (assemble version4 b.head.pos b.items).data[576 * y + x]? = i.2.data[144 * y + x % 144]? := by
  have hp := ((C27_exactly_once files h4 hr).2.2.1 b hb).2.1
  obtain ⟨i, hi, h1, h2⟩ := C25_frame_v4 (p := b.head.pos) hx hy b.items ((hp.map _).trans hs) (by
    intro i hi
    exact hd i (List.mem_filter.1 (hp.mem_iff.1 hi)).1)
  exact ⟨i, hp.mem_iff.1 hi, h1, h2⟩

/-- **C27** The same for the version 5 layout. -/
theorem C27_pixels_v5 (files : List (Entry (List Nat))) (h4 : ∀ k, (recordsOf files k).length ≤ 4)
    (hd : ∀ i ∈ sectorRecords files, i.2.data.length = 144 * 576) {threads : Nat} {s : State (List Nat)}
    (hr : Reach Step (init threads files) s) {b : Block (List Nat)} (hb : b ∈ s.delivered)
    (hs : ((recordsOf files b.key).map fun i => i.1).Perm [0, 1, 2, 3]) {x y : Nat} (hx : x < 576) (hy : y < 576) :
    ∃ i ∈ recordsOf files b.key, i.1 = y / 144 ∧
      (assemble version5 b.head.pos b.items).data[576 * y + x]? = i.2.data[576 * (y % 144) + x]? := by
  have hp := ((C27_exactly_once files h4 hr).2.2.1 b hb).2.1
  obtain ⟨i, hi, h1, h2⟩ := C25_frame_v5 (p := b.head.pos) hx hy b.items ((hp.map _).trans hs) (by
    intro i hi
    exact hd i (List.mem_filter.1 (hp.mem_iff.1 hi)).1)
  exact ⟨i, hp.mem_iff.1 hi, h1, h2⟩

/-! ### Progress -/

theorem progress {files : List (Entry D)} {s : State D} (I : Inv files s) (hne : ∃ w ∈ s.workers, w ≠ .exited) :
    (∃ t, Step s .work t) ∨ ∃ t u, Step s .spin t ∧ Step t .work u := by
  -- a worker inside of the loop body can go on
  have body : ∀ w ∈ s.workers, w ≠ .loop → w ≠ .next → w ≠ .exited → ∃ t, Step s .work t := by
    intro w hw h1 h2 h3
    obtain ⟨pre, post, hs⟩ := List.append_of_mem hw
    cases w with
    | loop => exact absurd rfl h1
    | next => exact absurd rfl h2
    | exited => exact absurd rfl h3
    | eof => exact ⟨_, .close hs⟩
    | got e r => exact ⟨_, .lookup hs⟩
    | check e r g =>
      obtain ⟨o, hd, _⟩ := I.deref_some hw (k := r.frameNumber) (g := g) rfl
      by_cases hn : o.head = none
      · exact ⟨_, .checkNull hs hd hn⟩
      · exact ⟨_, .checkData hs hd hn⟩
    | lock e r g =>
      obtain ⟨o, hd, _⟩ := I.deref_some hw (k := r.frameNumber) (g := g) rfl
      exact ⟨_, .allocate hs hd⟩
    | write e r g =>
      obtain ⟨o, hd, _, _, hh⟩ := I.deref_some hw (k := r.frameNumber) (g := g) rfl
      exact ⟨_, .write hs hd (hh rfl)⟩
    | count e k g =>
      obtain ⟨o, hd, _⟩ := I.deref_some hw (k := k) (g := g) rfl
      by_cases hn : o.count + 1 = 4
      · exact ⟨_, .countFour hs hd hn⟩
      · exact ⟨_, .count hs hd hn⟩
    | finish e k g =>
      obtain ⟨o, hd, _, _, hh⟩ := I.deref_some hw (k := k) (g := g) rfl
      obtain ⟨r, hr⟩ := Option.ne_none_iff_exists'.1 (hh rfl)
      exact ⟨_, .finish hs hd hr⟩
    | giveback e b =>
      cases b with
      | none => exact ⟨_, .giveback hs⟩
      | some b => exact ⟨_, .givebackBlock hs⟩
    | deliver b => exact ⟨_, .deliver hs⟩
  by_cases hb : ∃ w ∈ s.workers, w ≠ .loop ∧ w ≠ .next ∧ w ≠ .exited
  · obtain ⟨w, hw, h1, h2, h3⟩ := hb
    exact .inl (body w hw h1 h2 h3)
  · have hhold : s.workers.countP holding = 0 := by
      rw [List.countP_eq_zero]
      intro w hw h
      refine hb ⟨w, hw, ?_, ?_, ?_⟩ <;> rintro rfl <;> simp [holding] at h
    obtain ⟨w, hw, hwe⟩ := hne
    obtain ⟨pre, post, hs⟩ := List.append_of_mem hw
    have hst := I.streams
    rw [hhold] at hst
    -- taking an entry of the queue
    have takeStep : ∀ t : State D, t.workers = pre ++ .next :: post → t.queue ≠ [] → ∃ u, Step t .work u := by
      intro t ht hq
      cases h : t.queue with
      | nil => exact absurd h hq
      | cons e q =>
        obtain ⟨sec, rest⟩ := e
        cases rest with
        | nil => exact ⟨_, .takeEnd (qpre := []) ht h⟩
        | cons r rest => exact ⟨_, .take (qpre := []) ht h⟩
    have hw' : w = .loop ∨ w = .next := by
      by_contra hcon
      exact hb ⟨w, hw, fun h => hcon (.inl h), fun h => hcon (.inr h), hwe⟩
    rcases hw' with rfl | rfl
    · by_cases h0 : s.streams = 0
      · exact .inl ⟨_, .exit hs h0⟩
      · right
        obtain ⟨u, hu⟩ := takeStep { s with workers := pre ++ .next :: post } rfl (by
          intro h
          simp only at h
          rw [h] at hst
          exact h0 (by simpa using hst))
        exact ⟨_, u, .test hs h0, hu⟩
    · by_cases hq : s.queue = []
      · right
        rw [hq] at hst
        exact ⟨_, _, .miss hs hq, .exit (pre := pre) (post := post) rfl (by simpa using hst)⟩
      · exact .inl (takeStep s hs hq)

/-- **C27** The reader cannot get stuck: unless all workers have returned, there is a step that does work, possibly
after one test of the loop condition. -/
theorem C27_progress (files : List (Entry D)) (h4 : ∀ k, (recordsOf files k).length ≤ 4) {threads : Nat}
    {s : State D} (hr : Reach Step (init threads files) s) (hne : ∃ w ∈ s.workers, w ≠ .exited) :
    (∃ t, Step s .work t) ∨ ∃ t u, Step s .spin t ∧ Step t .work u :=
  progress (inv_reach h4 hr) hne

private def weight (e : Entry D) : Nat := 10 * e.rest.length + 3

private def potential : Worker D → Nat
  | .exited => 0
  | .loop | .next => 1
  | .eof => 2
  | .got e _ => weight e + 9
  | .check e _ _ => weight e + 8
  | .lock e _ _ => weight e + 7
  | .write e _ _ => weight e + 6
  | .count e _ _ => weight e + 5
  | .finish e _ _ => weight e + 4
  | .giveback e _ => weight e + 3
  | .deliver _ => 2

private def measure (s : State D) : Nat :=
  (s.queue.map weight).sum + (s.workers.map potential).sum

private def gain : Label → Nat
  | .spin => 1
  | .work => 0

private theorem measure_step {files : List (Entry D)} {s t : State D} {l : Label} (I : Inv files s)
    (h : Step s l t) : measure t + 1 ≤ measure s + gain l := by
  cases h with
  | @bad pre post w k g hw hr hd =>
    exfalso
    have href : refOf w = some (k, g) := by
      rcases hr with ⟨e, r, h | h | h, rfl⟩ | ⟨e, h | h⟩ <;> subst h <;> rfl
    obtain ⟨o, h1, _⟩ := I.deref_some (by rw [hw]; simp) href
    rw [h1] at hd
    simp at hd
  | @badNull pre post w k g o hw hr hd hn =>
    exfalso
    have href : refOf w = some (k, g) ∧ needsHead w = true := by
      rcases hr with ⟨e, r, h, rfl⟩ | ⟨e, h⟩ <;> subst h <;> exact ⟨rfl, rfl⟩
    obtain ⟨o', h1, h2, h3, h5⟩ := I.deref_some (by rw [hw]; simp) href.1
    rw [h1] at hd
    obtain rfl := Option.some.inj hd
    exact h5 href.2 hn
  | takeEnd hw hq =>
    simp only [measure, gain, hw, hq, List.map_append, List.map_cons, List.sum_append, List.sum_cons, potential,
      weight, List.length_nil]
    omega
  | take hw hq =>
    simp only [measure, gain, hw, hq, List.map_append, List.map_cons, List.sum_append, List.sum_cons, potential,
      weight, List.length_cons]
    omega
  | exit hw _ =>
    simp only [measure, gain, hw, List.map_append, List.map_cons, List.sum_append, List.sum_cons, potential]
    omega
  | test hw _ =>
    simp only [measure, gain, hw, List.map_append, List.map_cons, List.sum_append, List.sum_cons, potential]
    omega
  | miss hw _ =>
    simp only [measure, gain, hw, List.map_append, List.map_cons, List.sum_append, List.sum_cons, potential]
    omega
  | close hw =>
    simp only [measure, gain, hw, List.map_append, List.map_cons, List.sum_append, List.sum_cons, potential]
    omega
  | lookup hw =>
    simp only [measure, gain, hw, List.map_append, List.map_cons, List.sum_append, List.sum_cons, potential]
    omega
  | checkNull hw _ _ =>
    simp only [measure, gain, hw, List.map_append, List.map_cons, List.sum_append, List.sum_cons, potential]
    omega
  | checkData hw _ _ =>
    simp only [measure, gain, hw, List.map_append, List.map_cons, List.sum_append, List.sum_cons, potential]
    omega
  | allocate hw _ =>
    simp only [measure, gain, hw, List.map_append, List.map_cons, List.sum_append, List.sum_cons, potential]
    omega
  | write hw _ _ =>
    simp only [measure, gain, hw, List.map_append, List.map_cons, List.sum_append, List.sum_cons, potential]
    omega
  | count hw _ _ =>
    simp only [measure, gain, hw, List.map_append, List.map_cons, List.sum_append, List.sum_cons, potential]
    omega
  | countFour hw _ _ =>
    simp only [measure, gain, hw, List.map_append, List.map_cons, List.sum_append, List.sum_cons, potential]
    omega
  | finish hw _ _ =>
    simp only [measure, gain, hw, List.map_append, List.map_cons, List.sum_append, List.sum_cons, potential]
    omega
  | giveback hw =>
    simp only [measure, gain, hw, List.map_append, List.map_cons, List.sum_append, List.sum_cons, potential,
      List.map_nil, List.sum_nil]
    omega
  | givebackBlock hw =>
    simp only [measure, gain, hw, List.map_append, List.map_cons, List.sum_append, List.sum_cons, potential,
      List.map_nil, List.sum_nil]
    omega
  | deliver hw =>
    simp only [measure, gain, hw, List.map_append, List.map_cons, List.sum_append, List.sum_cons, potential]
    omega

/-- **C27** The number of steps that are not busy waiting is bounded: at most 10 for each record, 3 for each file
and 1 for each thread. With `C27_progress`: unless the scheduler runs only waiting workers forever, the call
ends. -/
theorem C27_termination (files : List (Entry D)) (h4 : ∀ k, (recordsOf files k).length ≤ 4) {threads : Nat}
    {s : State D} {ls : List Label} (hr : Run Step (init threads files) ls s) :
    ls.countP (fun l => l = .work) ≤ 10 * (sectorRecords files).length + 3 * files.length + threads := by
  have h := hr.length_le (Inv files) measure gain (inv_init threads files)
    (fun _ _ _ I h => inv_step (atMostFour h4) I h) (fun _ _ _ I h => measure_step I h)
  have hg : ls.length = ls.countP (fun l => decide (l = .work)) + (ls.map gain).sum := by
    clear h hr
    induction ls with
    | nil => rfl
    | cons l ls ih =>
      rw [List.countP_cons, List.map_cons, List.sum_cons, List.length_cons]
      cases l <;> simp [gain] <;> omega
  have hm : measure (init threads files) = 10 * (sectorRecords files).length + 3 * files.length + threads := by
    have h1 : (files.map weight).sum = 10 * (sectorRecords files).length + 3 * files.length := by
      clear h hr h4
      induction files with
      | nil => rfl
      | cons e files ih =>
        simp only [List.map_cons, List.sum_cons, ih, weight, sectorRecords, List.flatMap_cons, List.length_append,
          List.length_map, List.length_cons]
        omega
    simp [measure, init, h1, potential]
  omega

/-! ### What goes wrong -/

private theorem update_update {α : Type} (f : Nat → α) (k : Nat) (a b : α) :
    update (update f k a) k b = update f k b := by
  funext j
  simp only [update]
  split <;> rfl

private theorem update_same {α : Type} (f : Nat → α) (k : Nat) (a : α) : update f k a k = a := by simp [update]

/-- One worker alone takes a record of a file in the queue, up to the increment of the counter. -/
theorem run_count_at {s : State D} {pre post : List (Worker D)} {sec : Nat} {r : Rec D} {rest : List (Rec D)}
    {qp q : List (Entry D)} {o : Obj D} (hw : s.workers = pre ++ .loop :: post) (hst : s.streams ≠ 0)
    (hq : s.queue = qp ++ ⟨sec, r :: rest⟩ :: q) (ho : (s.cache r.frameNumber).getD ⟨none, [], 0⟩ = o) :
    Reach Step s { s with
      queue := qp ++ q
      cache := update s.cache r.frameNumber
        (some ⟨some (o.head.getD r), o.placed ++ [(sec, r)], o.count⟩)
      workers := pre ++ .count ⟨sec, rest⟩ r.frameNumber (s.gen r.frameNumber) :: post } := by
  refine Reach.head (.test hw hst) ?_
  refine Reach.head (.take rfl hq) ?_
  refine Reach.head (.lookup rfl) ?_
  rw [ho]
  cases hh : o.head with
  | none =>
    refine Reach.head (.checkNull (o := o) rfl (by simp [deref, update_same]) hh) ?_
    refine Reach.head (.allocate (o := o) rfl (by simp [deref, update_same])) ?_
    refine Reach.head (.write (o := { o with head := some (o.head.getD r) }) rfl
      (by simp [deref, update_same]) (by simp)) ?_
    simp only [update_update, hh]
    exact Reach.refl _
  | some h =>
    refine Reach.head (.checkData (o := o) rfl (by simp [deref, update_same]) (by simp [hh])) ?_
    refine Reach.head (.write (o := o) rfl (by simp [deref, update_same]) (by simp [hh])) ?_
    simp only [update_update, hh]
    exact Reach.refl _

theorem run_count {s : State D} {pre post : List (Worker D)} {sec : Nat} {r : Rec D} {rest : List (Rec D)}
    {q : List (Entry D)} {o : Obj D} (hw : s.workers = pre ++ .loop :: post) (hst : s.streams ≠ 0)
    (hq : s.queue = ⟨sec, r :: rest⟩ :: q) (ho : (s.cache r.frameNumber).getD ⟨none, [], 0⟩ = o) :
    Reach Step s { s with
      queue := q
      cache := update s.cache r.frameNumber
        (some ⟨some (o.head.getD r), o.placed ++ [(sec, r)], o.count⟩)
      workers := pre ++ .count ⟨sec, rest⟩ r.frameNumber (s.gen r.frameNumber) :: post } :=
  run_count_at (qp := []) hw hst hq ho

/-- ... and up to the return of the stream if the frame is not complete. -/
private theorem run_record {s : State D} {pre post : List (Worker D)} {sec : Nat} {r : Rec D} {rest : List (Rec D)}
    {q : List (Entry D)} {o : Obj D} (hw : s.workers = pre ++ .loop :: post) (hst : s.streams ≠ 0)
    (hq : s.queue = ⟨sec, r :: rest⟩ :: q) (ho : (s.cache r.frameNumber).getD ⟨none, [], 0⟩ = o)
    (hc : o.count + 1 ≠ 4) :
    Reach Step s { s with
      queue := q ++ [⟨sec, rest⟩]
      cache := update s.cache r.frameNumber
        (some ⟨some (o.head.getD r), o.placed ++ [(sec, r)], o.count + 1⟩)
      workers := pre ++ .loop :: post } := by
  refine (run_count hw hst hq ho).trans ?_
  refine Reach.head (.count (o := ⟨some (o.head.getD r), o.placed ++ [(sec, r)], o.count⟩) rfl
    (by simp [deref, update_same]) hc) ?_
  refine Reach.head (.giveback rfl) ?_
  simp only [update_update]
  exact Reach.refl _

/-- Five files, each with one record of frame 7. -/
def fiveFiles (d : D) : List (Entry D) :=
  (List.range 5).map fun i => ⟨i % 4, [⟨0, 7, 1, 1, 0, 0, d⟩]⟩

theorem via {P : State D → Prop} {s t : State D} (h : Reach Step s t) (g : ∃ u, Reach Step t u ∧ P u) :
    ∃ u, Reach Step s u ∧ P u := by
  obtain ⟨u, h1, h2⟩ := g
  exact ⟨u, h.trans h1, h2⟩

theorem via1 {P : State D → Prop} {s t : State D} {l : Label} (h : Step s l t) (g : ∃ u, Reach Step t u ∧ P u) :
    ∃ u, Reach Step s u ∧ P u := via (Reach.head h (Reach.refl _)) g

/-- Each frame has at most four records, or they are in one file, or there is one worker only. -/
def Calm (files : List (Entry D)) (s : State D) : Prop :=
  ∀ k, (recordsOf files k).length ≤ 4 ∨ open_ k s ≤ 1 ∨ s.workers.length ≤ 1

theorem Calm.inv {files : List (Entry D)} {s : State D} (C : Calm files s) (k : Nat) :
    (all files).countP (fun i => i.2.frameNumber = k) ≤ 4 ∨ s.workers.countP (touch k) ≤ 1 := by
  rcases C k with h | h | h
  · left
    rw [List.countP_eq_length_filter]
    exact h
  · right
    unfold open_ at h
    omega
  · right
    exact Nat.le_trans List.countP_le_length h

theorem Calm.step {files : List (Entry D)} {s t : State D} {l : Label} (C : Calm files s) (h : Step s l t) : Calm files t := by
  intro k
  have h1 := open_step h k
  have h2 := workers_length (Reach.head h (Reach.refl t))
  rcases C k with h | h | h
  · exact .inl h
  · exact .inr (.inl (by omega))
  · exact .inr (.inr (by omega))

theorem reach_calm {files : List (Entry D)} {a s : State D} (C : Calm files a) (I : Inv files a) (hr : Reach Step a s) :
    Inv files s ∧ Calm files s :=
  hr.inv (fun s => Inv files s ∧ Calm files s) ⟨I, C⟩ fun _ _ _ I h => ⟨inv_step_or I.2.inv I.1 h, I.2.step h⟩

/-- From any state with the invariant the reading can be finished. -/
theorem finishes {files : List (Entry D)} {a : State D} (C : Calm files a) (I : Inv files a) : ∃ s, Reach Step a s ∧ ∀ w ∈ s.workers, w = .exited := by
  let st : State D → Unit → State D → Prop := fun s _ u => Step s .work u ∨ ∃ t, Step s .spin t ∧ Step t .work u
  have weak : ∀ {us u}, Run st a us u →
      ∃ ls, Run Step a ls u ∧ us.length = ls.countP (fun l => decide (l = .work)) := by
    intro us u h
    induction h with
    | nil => exact ⟨[], .nil _, rfl⟩
    | snoc _ h2 ih =>
      obtain ⟨ls, i1, i2⟩ := ih
      rcases h2 with h2 | ⟨t, h0, h2⟩
      · exact ⟨_, i1.snoc h2, by simp [i2]⟩
      · exact ⟨_, (i1.snoc h0).snoc h2, by simp [i2]⟩
  obtain ⟨u, ⟨us, hu⟩, hf⟩ := Reach.exists_final (st := st) (s := a) (final := fun s => ∀ w ∈ s.workers, w = .exited)
    (n := measure a)
    (by
      rintro t ⟨us, ht⟩ hf
      obtain ⟨ls, h1, _⟩ := weak ht
      have It : Inv files t := (reach_calm C I ⟨ls, h1⟩).1
      rcases progress It (by push Not at hf; exact hf) with ⟨u, h2⟩ | ⟨t', u, h2, h3⟩
      · exact ⟨(), u, .inl h2⟩
      · exact ⟨(), u, .inr ⟨t', h2, h3⟩⟩)
    (by
      intro us t ht
      obtain ⟨ls, h1, h2⟩ := weak ht
      rw [h2]
      have h := h1.length_le (fun s => Inv files s ∧ Calm files s) measure gain ⟨I, C⟩
        (fun _ _ _ I h => ⟨inv_step_or I.2.inv I.1 h, I.2.step h⟩) (fun _ _ _ I h => measure_step I.1 h)
      have hg : ls.length = ls.countP (fun l => decide (l = .work)) + (ls.map gain).sum := by
        clear h h1 h2
        induction ls with
        | nil => rfl
        | cons l ls ih =>
          rw [List.countP_cons, List.map_cons, List.sum_cons, List.length_cons]
          cases l <;> simp [gain] <;> omega
      omega)
  obtain ⟨ls, h1, _⟩ := weak hu
  exact ⟨u, ⟨ls, h1⟩, hf⟩

/-- **C27** There is an execution after which all workers have returned. -/
theorem C27_exists (files : List (Entry D)) (h4 : ∀ k, (recordsOf files k).length ≤ 4) (threads : Nat) :
    ∃ s, Reach Step (init threads files) s ∧ ∀ w ∈ s.workers, w = .exited :=
  finishes (fun k => .inl (h4 k)) (inv_init threads files)

/-- **C27** The bound of four records per frame number is needed: with five records of the same frame number and two
threads, a worker can hold a reference to a frame which another worker has delivered and freed. -/
theorem C27_five_records (d : D) : ∃ s, Reach Step (init 2 (fiveFiles d)) s ∧ s.ub = true := by
  refine via (run_record (pre := []) (post := [.loop]) (sec := 0) (r := ⟨0, 7, 1, 1, 0, 0, d⟩) (rest := [])
    (o := ⟨none, [], 0⟩) rfl (by simp [init, fiveFiles]) rfl rfl (by simp)) ?_
  refine via (run_record (pre := []) (post := [.loop]) (sec := 1) (r := ⟨0, 7, 1, 1, 0, 0, d⟩) (rest := [])
    rfl (by simp [init, fiveFiles]) rfl rfl (by simp [update])) ?_
  refine via (run_record (pre := []) (post := [.loop]) (sec := 2) (r := ⟨0, 7, 1, 1, 0, 0, d⟩) (rest := [])
    rfl (by simp [init, fiveFiles]) rfl rfl (by simp [update])) ?_
  refine via (run_count (pre := []) (post := [.loop]) (sec := 3) (r := ⟨0, 7, 1, 1, 0, 0, d⟩) (rest := [])
    rfl (by simp [init, fiveFiles]) rfl rfl) ?_
  -- the second worker takes the fifth record and looks the frame up
  refine via1 (.test (pre := [.count ⟨3, []⟩ 7 0]) (post := []) rfl (by simp [init, fiveFiles])) ?_
  refine via1 (.take (pre := [.count ⟨3, []⟩ 7 0]) (post := []) (qpre := []) (sector := 0) (rest := [])
    (r := ⟨0, 7, 1, 1, 0, 0, d⟩) rfl rfl) ?_
  refine via1 (.lookup (pre := [.count ⟨3, []⟩ 7 0]) (post := []) rfl) ?_
  -- the first one completes and frees it
  refine via1 (.countFour (pre := []) rfl (by simp only [deref, update_same]; rfl) rfl) ?_
  refine via1 (.finish (pre := []) rfl (by simp only [deref, update_same]; rfl) rfl) ?_
  refine via1 (.bad (pre := [_]) (w := .check ⟨0, []⟩ ⟨0, 7, 1, 1, 0, 0, d⟩ 0) (k := 7) (g := 0)
    (post := []) rfl (.inl ⟨_, _, .inl rfl, rfl⟩) ?_) ⟨_, Reach.refl _, rfl⟩
  simp [deref, update]

/-- No frame of the cache has more than four records. -/
def Few (s : State D) : Prop := ∀ k o, s.cache k = some o → o.count ≤ 4

theorem few_step {files : List (Entry D)} {s t : State D} {l : Label} (C : Calm files s) (I : Inv files s) (F : Few s)
    (h : Step s l t) : Few t := by
  cases h with
  | @lookup pre post e r hw =>
    intro k o ho
    simp only [update] at ho
    split at ho
    · cases hc : s.cache r.frameNumber with
      | none =>
        rw [hc] at ho
        simp at ho
        simp [← ho]
      | some p =>
        rw [hc] at ho
        simp at ho
        exact ho ▸ F _ p hc
    · exact F k o ho
  | @allocate pre post e r g o hw hd =>
    intro k p hp
    simp only [update] at hp
    split at hp
    · simp only [Option.some.injEq] at hp
      exact hp ▸ F _ o (deref_cache hd).1
    · exact F k p hp
  | @write pre post e r g o hw hd hn =>
    intro k p hp
    simp only [update] at hp
    split at hp
    · simp only [Option.some.injEq] at hp
      exact hp ▸ F _ o (deref_cache hd).1
    · exact F k p hp
  | @count pre post e k' g o hw hd hn =>
    intro k p hp
    simp only [update] at hp
    split at hp
    · simp only [Option.some.injEq] at hp
      subst hp
      have h4 := F _ o (deref_cache hd).1
      simp only
      rcases C.inv k' with h | h
      · have h1 := I.bound h (deref_cache hd).1
        have h2 := I.cnt _ o (deref_cache hd).1
        rw [hw] at h2
        simp [List.countP_append, counting] at h2
        omega
      · have := count_ne I hw (deref_cache hd).1 h
        omega
    · exact F k p hp
  | @countFour pre post e k' g o hw hd hn =>
    intro k p hp
    simp only [update] at hp
    split at hp
    · simp only [Option.some.injEq] at hp
      subst hp
      simp only
      omega
    · exact F k p hp
  | @finish pre post e k' g o head hw hd hn =>
    intro k p hp
    simp only [update] at hp
    split at hp
    · simp at hp
    · exact F k p hp
  | _ => exact F

theorem reach_few {files : List (Entry D)} {a s : State D} (C : Calm files a) (I : Inv files a) (F : Few a) (hr : Reach Step a s) :
    Inv files s ∧ Few s :=
  (hr.inv (fun s => (Inv files s ∧ Few s) ∧ Calm files s) ⟨⟨I, F⟩, C⟩ fun _ _ _ I h =>
    ⟨⟨inv_step_or I.2.inv I.1.1 h, few_step I.2 I.1.1 I.1.2 h⟩, I.2.step h⟩).1

/-- What is delivered. -/
theorem settled {files : List (Entry D)} {s : State D} (I : Inv files s) (F : Few s) :
    s.ub = false ∧
    (∀ b ∈ s.delivered, b.items.length = 4 ∧ (∀ i ∈ b.items, i.2.frameNumber = b.key) ∧ ∃ i ∈ recordsOf files b.key, i.2 = b.head) ∧
    (∃ others, (s.delivered.flatMap (fun b => b.items) ++ others).Perm (sectorRecords files)) ∧
    (s.workers ≠ [] → (∀ w ∈ s.workers, w = .exited) → ∀ k,
      (s.delivered.countP fun b => b.key = k) = (recordsOf files k).length / 4 ∧
      (placed s k).length = (recordsOf files k).length % 4) := by
  classical
  refine ⟨I.safe, ?_, ?_, ?_⟩
  · intro b hb
    have g := I.good b hb
    obtain ⟨sec, hm⟩ := g.headMem
    exact ⟨g.four, g.key, (sec, b.head), List.mem_filter.2 ⟨hm, by simpa using g.headKey⟩, rfl⟩
  · have hs : (s.delivered.flatMap fun b => b.items).Subperm (sectorRecords files) := by
      rw [List.subperm_ext_iff]
      intro i _
      have e1 : ∀ l : List (Nat × Rec D), l.count i = l.countP fun j => decide (j = i) := by
        intro l
        rw [List.count]
        congr 1
        funext j
        rw [Bool.eq_iff_iff]
        simp only [beq_iff_eq, decide_eq_true_iff]
      have h := I.cons i.2.frameNumber (fun j => decide (j = i)) (by intro j hj; simp at hj; rw [hj])
      rw [e1, e1]
      change _ ≤ (all files).countP _
      omega
    obtain ⟨l, h2, h3⟩ := hs
    obtain ⟨o, ho⟩ := h3.exists_perm_append
    exact ⟨o, ((h2.symm.append_right o).trans ho.symm)⟩
  · intro hne hex k
    obtain ⟨w, ws, hws⟩ : ∃ w ws, s.workers = w :: ws := by
      cases h : s.workers with
      | nil => exact absurd h hne
      | cons w ws => exact ⟨w, ws, rfl⟩
    have hmem : (.exited : Worker D) ∈ s.workers := by
      have := hex w (by simp [hws])
      rw [hws, this]
      simp
    have h0 := I.exited hmem
    have hq : s.queue = [] := by
      have := I.streams
      rw [h0] at this
      exact List.length_eq_zero_iff.1 (by omega)
    have hh : s.workers.flatMap held = [] := by
      rw [List.flatMap_eq_nil_iff]
      intro x hx
      rw [hex x hx]
      rfl
    have hN : (all files).countP (fun i => i.2.frameNumber = k) = (recordsOf files k).length := by
      rw [List.countP_eq_length_filter]; rfl
    have hcons := I.cons k (fun i => i.2.frameNumber = k) (by simp)
    rw [hq, hh, block_count files _ I.good k, hN] at hcons
    simp only [List.flatMap_nil, List.countP_nil] at hcons
    have hp : (placed s k).countP (fun i => decide (i.2.frameNumber = k)) = (placed s k).length ∧ (placed s k).length ≤ 3 := by
      unfold placed
      split
      · rename_i o ho
        have h1 := I.cnt k o ho
        have h2 := I.fin k o ho
        have hz : ∀ p : Worker D → Bool, p .exited = false → s.workers.countP p = 0 := by
          intro p hp
          rw [List.countP_eq_zero]
          intro x hx
          rw [hex x hx, hp]
          simp
        rw [hz _ rfl] at h1 h2
        have h3 := F k o ho
        refine ⟨?_, ?_⟩
        · rw [List.countP_eq_length]
          intro i hi
          simpa using I.key k o ho i hi
        · split at h2 <;> omega
      · simp
    omega

/-- In how many files the frame has records. -/
def filesWith (files : List (Entry D)) (k : Nat) : Nat := files.countP fun e => e.rest.any fun r => decide (r.frameNumber = k)

theorem calm_init {files : List (Entry D)} {threads : Nat}
    (h : threads ≤ 1 ∨ ∀ k, (recordsOf files k).length ≤ 4 ∨ filesWith files k ≤ 1) : Calm files (init threads files) := by
  intro k
  rcases h with h | h
  · exact .inr (.inr (by simpa [init] using h))
  · refine (h k).imp id fun h => .inl ?_
    have : (List.replicate threads (Worker.loop : Worker D)).countP (touch k) = 0 := by
      rw [List.countP_eq_zero]
      intro w hw
      rw [List.eq_of_mem_replicate hw]
      simp [touch]
    show files.countP (entryHas k) + (List.replicate threads .loop).countP (touch k) ≤ 1
    rw [this]
    exact h

/-- **C27** Frames with more than four records. If these are in one file, or there is one thread, no freed frame is used, each delivered
frame has four records of its number, no record is used twice, and at the end a frame was delivered once for every four
records. Otherwise a freed frame can be used (`C27_freed_iff`). -/
theorem C27_many_records {files : List (Entry D)} {threads : Nat}
    (h : threads ≤ 1 ∨ ∀ k, (recordsOf files k).length ≤ 4 ∨ filesWith files k ≤ 1) {s : State D}
    (hr : Reach Step (init threads files) s) :
    s.ub = false ∧
    (∀ b ∈ s.delivered, b.items.length = 4 ∧ (∀ i ∈ b.items, i.2.frameNumber = b.key) ∧ ∃ i ∈ recordsOf files b.key, i.2 = b.head) ∧
    (∃ others, (s.delivered.flatMap (fun b => b.items) ++ others).Perm (sectorRecords files)) ∧
    (0 < threads → (∀ w ∈ s.workers, w = .exited) → ∀ k, (s.delivered.countP fun b => b.key = k) = (recordsOf files k).length / 4) := by
  obtain ⟨I, F⟩ := reach_few (calm_init h) (inv_init threads files) (by intro k o h; cases h) hr
  obtain ⟨h2, h3, h4, h5⟩ := settled I F
  refine ⟨h2, h3, h4, fun ht h k => (h5 ?_ h k).1⟩
  have := workers_length hr
  simp only [init, List.length_replicate] at this
  intro h
  rw [h] at this
  simp at this
  omega

/-- **C27** ... and there is an execution after which all workers have returned. -/
theorem C27_many_records_exists {files : List (Entry D)} {threads : Nat}
    (h : threads ≤ 1 ∨ ∀ k, (recordsOf files k).length ≤ 4 ∨ filesWith files k ≤ 1) :
    ∃ s, Reach Step (init threads files) s ∧ ∀ w ∈ s.workers, w = .exited :=
  finishes (calm_init h) (inv_init threads files)

/-- Five records of one frame and one thread: it is delivered once. -/
example : ∃ s, Reach Step (init 1 (fiveFiles 3)) s ∧ s.ub = false ∧ (s.delivered.countP fun b => b.key = 7) = 1 := by
  obtain ⟨s, h1, h2⟩ := C27_many_records_exists (files := fiveFiles 3) (threads := 1) (.inl (by omega))
  obtain ⟨h3, -, -, h4⟩ := C27_many_records (files := fiveFiles 3) (.inl (by omega)) h1
  exact ⟨s, h1, h3, h4 (by omega) h2 7⟩

/-- Nine records of one frame in one file, and three threads: it is delivered twice. -/
example : ∃ s, Reach Step (init 3 [⟨2, List.replicate 9 ⟨0, 7, 1, 1, 0, 0, 3⟩⟩, ⟨1, []⟩]) s ∧ s.ub = false ∧
    (s.delivered.countP fun b => b.key = 7) = 2 := by
  have h : ∀ k, filesWith [(⟨2, List.replicate 9 ⟨0, 7, 1, 1, 0, 0, 3⟩⟩ : Entry Nat), ⟨1, []⟩] k ≤ 1 := by
    intro k
    simp only [filesWith, List.countP_cons, List.countP_nil, List.any_nil, Bool.false_eq_true, if_false]
    split <;> omega
  obtain ⟨s, h1, h2⟩ := C27_many_records_exists (files := [(⟨2, List.replicate 9 ⟨0, 7, 1, 1, 0, 0, 3⟩⟩ : Entry Nat), ⟨1, []⟩]) (threads := 3)
    (.inr fun k => .inr (h k))
  obtain ⟨h3, -, -, h4⟩ := C27_many_records (.inr fun k => .inr (h k)) h1
  exact ⟨s, h1, h3, h4 (by omega) h2 7⟩

/-- The number of records of the frame in the cache. -/
def cachedCount (s : State D) (k : Nat) : Nat := ((s.cache k).getD ⟨none, [], 0⟩).count

/-- One worker alone reads a record. -/
theorem read_one {s : State D} {ws : List (Worker D)} {sec : Nat} {r : Rec D} {rest : List (Rec D)} {X : List (Entry D)}
    (hw : s.workers = .loop :: ws) (hst : s.streams ≠ 0) (hq : s.queue.Perm (⟨sec, r :: rest⟩ :: X)) :
    ∃ t, Reach Step s t ∧ t.workers = s.workers ∧ t.streams = s.streams ∧ t.queue.Perm (⟨sec, rest⟩ :: X) ∧
      ∀ k, cachedCount t k = if r.frameNumber = k then (if cachedCount s k + 1 = 4 then 0 else cachedCount s k + 1) else cachedCount s k := by
  obtain ⟨qp, q, hs⟩ := List.append_of_mem (hq.mem_iff.2 List.mem_cons_self)
  have hX : (qp ++ q).Perm X := by
    rw [hs] at hq
    exact List.Perm.cons_inv (List.perm_middle.symm.trans hq)
  have hX' : (qp ++ q ++ [(⟨sec, rest⟩ : Entry D)]).Perm (⟨sec, rest⟩ :: X) := (List.perm_append_singleton _ _).trans (hX.cons _)
  have h := run_count_at (pre := []) (post := ws) hw hst hs rfl
  generalize ho : (s.cache r.frameNumber).getD ⟨none, [], 0⟩ = o at h
  have hco : cachedCount s r.frameNumber = o.count := by rw [cachedCount, ho]
  by_cases h4 : cachedCount s r.frameNumber + 1 = 4
  · refine ⟨_, h.trans (Reach.head (.countFour (pre := []) (o := ⟨some (o.head.getD r), o.placed ++ [(sec, r)], o.count⟩) rfl (by simp only [deref, update_same]; rfl)
      (by rw [← hco]; exact h4))
      (Reach.head (.finish (pre := []) rfl (by simp only [deref, update_same]; rfl) rfl)
      (Reach.head (.givebackBlock (pre := []) rfl) (Reach.head (.deliver (pre := []) rfl) (Reach.refl _))))), hw.symm, rfl, hX', ?_⟩
    intro k
    by_cases hk : r.frameNumber = k
    · subst hk
      rw [if_pos rfl, if_pos h4]
      simp [cachedCount, update]
    · rw [if_neg hk]
      simp [cachedCount, update, Ne.symm hk]
  · refine ⟨_, h.trans (Reach.head (.count (pre := []) (o := ⟨some (o.head.getD r), o.placed ++ [(sec, r)], o.count⟩) rfl (by simp only [deref, update_same]; rfl)
      (by rw [← hco]; exact h4))
      (Reach.head (.giveback (pre := []) rfl) (Reach.refl _))), hw.symm, rfl, hX', ?_⟩
    intro k
    by_cases hk : r.frameNumber = k
    · subst hk
      rw [if_pos rfl, if_neg h4, hco]
      simp [cachedCount, update]
    · rw [if_neg hk]
      simp [cachedCount, update, Ne.symm hk]

/-- Two workers take the fourth and the fifth record of a frame. -/
theorem use_freed {s : State D} {ws : List (Worker D)} {a b : Nat} {r₁ r₂ : Rec D} {t₁ t₂ : List (Rec D)} {X : List (Entry D)}
    (hw : s.workers = .loop :: .loop :: ws) (hst : s.streams ≠ 0) (hq : s.queue.Perm (⟨a, r₁ :: t₁⟩ :: X)) (hb : ⟨b, r₂ :: t₂⟩ ∈ X)
    (hk : r₂.frameNumber = r₁.frameNumber) (hc : cachedCount s r₁.frameNumber = 3) : ∃ u, Reach Step s u ∧ u.ub = true := by
  obtain ⟨qp, q, hs⟩ := List.append_of_mem (hq.mem_iff.2 List.mem_cons_self)
  have hX : (qp ++ q).Perm X := by
    rw [hs] at hq
    exact List.Perm.cons_inv (List.perm_middle.symm.trans hq)
  obtain ⟨qp', q', hs'⟩ := List.append_of_mem (hX.mem_iff.2 hb)
  refine via (run_count_at (pre := []) (post := .loop :: ws) hw hst hs rfl) ?_
  refine via1 (.test (pre := [.count ⟨a, t₁⟩ r₁.frameNumber (s.gen r₁.frameNumber)]) (post := ws) rfl hst) ?_
  refine via1 (.take (pre := [.count ⟨a, t₁⟩ r₁.frameNumber (s.gen r₁.frameNumber)]) (post := ws) (qpre := qp') (sector := b)
    (rest := t₂) (r := r₂) rfl hs') ?_
  refine via1 (.lookup (pre := [.count ⟨a, t₁⟩ r₁.frameNumber (s.gen r₁.frameNumber)]) (post := ws) rfl) ?_
  rw [hk]
  refine via1 (.countFour (pre := []) rfl (by simp only [deref, update_same]; rfl) (by
    show cachedCount s r₁.frameNumber + 1 = 4
    omega)) ?_
  refine via1 (.finish (pre := []) rfl (by simp only [deref, update_same]; rfl) rfl) ?_
  refine via1 (.bad (pre := [_]) (w := .check ⟨b, t₂⟩ r₂ (s.gen r₁.frameNumber)) (k := r₁.frameNumber) (g := s.gen r₁.frameNumber)
    (post := ws) rfl (.inl ⟨_, _, .inl rfl, hk.symm⟩) ?_) ⟨_, Reach.refl _, rfl⟩
  simp [deref, update]

/-- The number of records of the frame in the file. -/
def recordsIn (k : Nat) (e : Entry D) : Nat := e.rest.countP fun r => decide (r.frameNumber = k)

private theorem cons_of {k : Nat} {e : Entry D} (h : 0 < recordsIn k e) : ∃ sec r t, e = ⟨sec, r :: t⟩ := by
  obtain ⟨sec, rest⟩ := e
  cases rest with
  | nil => simp [recordsIn] at h
  | cons r t => exact ⟨sec, r, t, rfl⟩

private theorem recordsIn_cons (k sec : Nat) (r : Rec D) (t : List (Rec D)) :
    recordsIn k ⟨sec, r :: t⟩ = recordsIn k ⟨sec, t⟩ + if r.frameNumber = k then 1 else 0 := by
  simp [recordsIn, List.countP_cons]

private theorem pos_of_sum {α : Type} {f : α → Nat} : ∀ {l : List α}, 0 < (l.map f).sum → ∃ x ∈ l, 0 < f x
  | [], h => by simp at h
  | x :: l, h => by
    rw [List.map_cons, List.sum_cons] at h
    by_cases hx : 0 < f x
    · exact ⟨x, by simp, hx⟩
    · obtain ⟨y, hy, h⟩ := pos_of_sum (l := l) (f := f) (by omega)
      exact ⟨y, by simp [hy], h⟩

/-- The fourth and the fifth record of a frame can be left in different files. -/
theorem reach_freed (k : Nat) (ws : List (Worker D)) : ∀ (N : Nat) (s : State D) (e e' : Entry D) (R : List (Entry D)),
    s.workers = .loop :: .loop :: ws → s.streams ≠ 0 → cachedCount s k ≤ 3 → s.queue.Perm (e :: e' :: R) → 0 < recordsIn k e →
    0 < recordsIn k e' → 5 ≤ cachedCount s k + recordsIn k e + recordsIn k e' + (R.map (recordsIn k)).sum →
    e.rest.length + e'.rest.length + (R.map fun e => e.rest.length).sum ≤ N → ∃ u, Reach Step s u ∧ u.ub = true := by
  intro N
  induction N with
  | zero =>
    intro s e e' R _ _ _ _ he _ _ hN
    obtain ⟨sec, r, t, rfl⟩ := cons_of he
    simp at hN
  | succ N ih =>
    intro s e e' R hw hst hc hq he he' h5 hN
    obtain ⟨a, r, t, rfl⟩ := cons_of he
    obtain ⟨a', r', t', rfl⟩ := cons_of he'
    have hq' : s.queue.Perm (⟨a', r' :: t'⟩ :: ⟨a, r :: t⟩ :: R) := hq.trans (List.Perm.swap _ _ _)
    have hn := recordsIn_cons k a r t
    have hn' := recordsIn_cons k a' r' t'
    simp only [List.length_cons] at hN
    -- reading the first file, and the second one
    have first : 0 < recordsIn k ⟨a, t⟩ → (r.frameNumber = k → cachedCount s k < 3) → ∃ u, Reach Step s u ∧ u.ub = true := by
      intro hpos hlt
      obtain ⟨u, h1, h2, h3, h4, h6⟩ := read_one (ws := .loop :: ws) hw hst hq
      have h6 := h6 k
      refine via h1 (ih u ⟨a, t⟩ ⟨a', r' :: t'⟩ R (h2.trans hw) (h3 ▸ hst) ?_ h4 hpos he' ?_ (by simp only [List.length_cons]; omega))
      · split at h6
        · have := hlt (by assumption)
          split at h6 <;> omega
        · omega
      · split at h6
        · have hk : r.frameNumber = k := by assumption
          have := hlt hk
          rw [if_pos hk] at hn
          split at h6 <;> omega
        · have hk : ¬ r.frameNumber = k := by assumption
          rw [if_neg hk] at hn
          omega
    have second : 0 < recordsIn k ⟨a', t'⟩ → (r'.frameNumber = k → cachedCount s k < 3) → ∃ u, Reach Step s u ∧ u.ub = true := by
      intro hpos hlt
      obtain ⟨u, h1, h2, h3, h4, h6⟩ := read_one (ws := .loop :: ws) hw hst hq'
      have h6 := h6 k
      refine via h1 (ih u ⟨a', t'⟩ ⟨a, r :: t⟩ R (h2.trans hw) (h3 ▸ hst) ?_ h4 hpos he ?_ (by simp only [List.length_cons]; omega))
      · split at h6
        · have := hlt (by assumption)
          split at h6 <;> omega
        · omega
      · split at h6
        · have hk : r'.frameNumber = k := by assumption
          have := hlt hk
          rw [if_pos hk] at hn'
          split at h6 <;> omega
        · have hk : ¬ r'.frameNumber = k := by assumption
          rw [if_neg hk] at hn'
          omega
    by_cases hk : r.frameNumber = k
    · by_cases hk' : r'.frameNumber = k
      · by_cases h3 : cachedCount s k = 3
        · exact use_freed hw hst hq List.mem_cons_self (hk'.trans hk.symm) (hk ▸ h3)
        · by_cases hp : 0 < recordsIn k ⟨a, t⟩
          · exact first hp fun _ => by omega
          · by_cases hp' : 0 < recordsIn k ⟨a', t'⟩
            · exact second hp' fun _ => by omega
            · -- a third file
              rw [if_pos hk] at hn
              rw [if_pos hk'] at hn'
              have hsum : 0 < (R.map (recordsIn k)).sum := by omega
              obtain ⟨x, hx, hxp⟩ := pos_of_sum hsum
              obtain ⟨c, q, v, rfl⟩ := cons_of hxp
              obtain ⟨R₁, R₂, rfl⟩ := List.append_of_mem hx
              have hq3 : s.queue.Perm (⟨c, q :: v⟩ :: ⟨a, r :: t⟩ :: ⟨a', r' :: t'⟩ :: (R₁ ++ R₂)) := by
                refine hq.trans ?_
                refine ((List.perm_middle.cons _).cons _).trans ?_
                exact ((List.Perm.swap _ _ _).cons _).trans (List.Perm.swap _ _ _)
              obtain ⟨u, h1, h2, h4, h6, h7⟩ := read_one (ws := .loop :: ws) hw hst hq3
              have h7 := h7 k
              have hnq := recordsIn_cons k c q v
              refine via h1 (ih u ⟨a, r :: t⟩ ⟨a', r' :: t'⟩ (⟨c, v⟩ :: (R₁ ++ R₂)) (h2.trans hw) (h4 ▸ hst) ?_ (h6.trans ?_) he he' ?_ ?_)
              · split at h7
                · split at h7 <;> omega
                · omega
              · exact (List.Perm.swap _ _ _).trans ((List.Perm.swap _ _ _).cons _)
              · simp only [List.map_append, List.map_cons, List.sum_append, List.sum_cons] at h5 ⊢
                split at h7
                · rename_i hqk
                  rw [if_pos hqk] at hnq
                  split at h7 <;> omega
                · rename_i hqk
                  rw [if_neg hqk] at hnq
                  omega
              · simp only [List.map_append, List.map_cons, List.sum_append, List.sum_cons, List.length_cons] at hN ⊢
                omega
      · exact second (by rw [if_neg hk'] at hn'; omega) fun h => absurd h hk'
    · exact first (by rw [if_neg hk] at hn; omega) fun h => absurd h hk

private theorem two_of {α : Type} {p : α → Bool} : ∀ {l : List α}, 2 ≤ l.countP p → ∃ a b R, l.Perm (a :: b :: R) ∧ p a = true ∧ p b = true
  | [], h => by simp at h
  | x :: l, h => by
    rw [List.countP_cons] at h
    by_cases hx : p x = true
    · rw [if_pos hx] at h
      obtain ⟨y, hy, hpy⟩ := List.countP_pos_iff.1 (show 0 < l.countP p by omega)
      obtain ⟨l₁, l₂, rfl⟩ := List.append_of_mem hy
      exact ⟨x, y, l₁ ++ l₂, List.perm_middle.cons _, hx, hpy⟩
    · rw [if_neg hx] at h
      obtain ⟨a, b, R, h1, h2, h3⟩ := two_of (l := l) h
      exact ⟨a, b, x :: R, (h1.cons x).trans ((List.Perm.swap _ _ _).trans ((List.Perm.swap _ _ _).cons _)), h2, h3⟩

theorem records_sum (files : List (Entry D)) (k : Nat) : (recordsOf files k).length = (files.map (recordsIn k)).sum := by
  induction files with
  | nil => rfl
  | cons e files ih =>
    rw [List.map_cons, List.sum_cons, ← ih]
    simp only [recordsOf, sectorRecords, List.flatMap_cons, List.filter_append, List.length_append, Nat.add_right_cancel_iff]
    rw [← List.countP_eq_length_filter, List.countP_map]
    rfl

/-- From a state in which no record has been taken. -/
theorem freed_start {files : List (Entry D)} {s : State D} {threads k : Nat} (hw : s.workers = List.replicate (threads + 2) .loop)
    (hs : s.streams = files.length) (hq : s.queue = files) (hc : cachedCount s k ≤ 3) (h5 : 5 ≤ cachedCount s k + (recordsOf files k).length)
    (h2 : 2 ≤ filesWith files k) : ∃ u, Reach Step s u ∧ u.ub = true := by
  obtain ⟨e, e', R, hp, he, he'⟩ := two_of h2
  have has : ∀ e : Entry D, (e.rest.any fun r => decide (r.frameNumber = k)) = true → 0 < recordsIn k e := by
    intro e h
    obtain ⟨r, hr, h⟩ := List.any_eq_true.1 h
    exact List.countP_pos_iff.2 ⟨r, hr, h⟩
  refine reach_freed k (List.replicate threads .loop) _ s e e' R hw ?_ hc (hq ▸ hp) (has e he) (has e' he') ?_ (Nat.le_refl _)
  · rw [hs, hp.length_eq]
    simp
  · have := (hp.map (recordsIn k)).sum_nat
    rw [records_sum, this] at h5
    simp only [List.map_cons, List.sum_cons] at h5
    omega

/-- **C27** When a freed frame can be used: for two threads or more, and a frame with five records or more, in two files or more. -/
theorem C27_freed_iff (files : List (Entry D)) (threads : Nat) :
    (∃ s, Reach Step (init threads files) s ∧ s.ub = true) ↔
      2 ≤ threads ∧ ∃ k, 5 ≤ (recordsOf files k).length ∧ 2 ≤ filesWith files k := by
  constructor
  · rintro ⟨s, h1, h2⟩
    by_contra hno
    have : threads ≤ 1 ∨ ∀ k, (recordsOf files k).length ≤ 4 ∨ filesWith files k ≤ 1 := by
      by_cases ht : threads ≤ 1
      · exact .inl ht
      · refine .inr fun k => ?_
        by_contra hk
        push Not at hk
        exact hno ⟨by omega, k, by omega, by omega⟩
    rw [(C27_many_records this h1).1] at h2
    cases h2
  · rintro ⟨ht, k, h5, h2⟩
    obtain ⟨n, rfl⟩ : ∃ n, threads = n + 2 := ⟨threads - 2, by omega⟩
    exact freed_start (s := init (n + 2) files) (threads := n) rfl rfl rfl (by simp [cachedCount, init]) (by simpa [cachedCount, init] using h5) h2

example : ∃ s, Reach Step (init 4 (fiveFiles 3)) s ∧ s.ub = true :=
  (C27_freed_iff _ _).2 ⟨by omega, 7, by decide +kernel, by decide +kernel⟩

/-- **C27** A reference to a freed frame is no reference to the frame that is made for the next records of the same number: with two threads or more, five
records of a frame in one file and one in another, the old reference can be used while the new frame is in the cache. -/
theorem C27_stale {a b k : Nat} {r₁ r₂ r₃ r₄ r₅ r₆ : Rec D} {t u : List (Rec D)} {X : List (Entry D)}
    (hk : ∀ r ∈ [r₁, r₂, r₃, r₄, r₅, r₆], r.frameNumber = k) (threads : Nat) :
    ∃ s, Reach Step (init (threads + 2) (⟨a, r₁ :: r₂ :: r₃ :: r₄ :: r₅ :: t⟩ :: ⟨b, r₆ :: u⟩ :: X)) s ∧ s.ub = true ∧ s.cache k ≠ none := by
  simp only [List.mem_cons, List.not_mem_nil, or_false, forall_eq_or_imp, forall_eq] at hk
  obtain ⟨k1, k2, k3, k4, k5, k6⟩ := hk
  have viaB : ∀ {s t : State D}, Reach Step s t → (∃ s, Reach Step t s ∧ s.ub = true ∧ s.cache k ≠ none) → ∃ u, Reach Step s u ∧ u.ub = true ∧ u.cache k ≠ none :=
    fun h ⟨v, h1, h2⟩ => ⟨v, h.trans h1, h2⟩
  have viaB1 : ∀ {s t : State D} {l}, Step s l t → (∃ s, Reach Step t s ∧ s.ub = true ∧ s.cache k ≠ none) → ∃ u, Reach Step s u ∧ u.ub = true ∧ u.cache k ≠ none :=
    fun h ⟨v, h1, h2⟩ => ⟨v, Reach.head h h1, h2⟩
  obtain ⟨s1, p1, w1, n1, q1, c1⟩ := read_one (s := init (threads + 2) (⟨a, r₁ :: r₂ :: r₃ :: r₄ :: r₅ :: t⟩ :: ⟨b, r₆ :: u⟩ :: X))
    (ws := .loop :: List.replicate threads .loop) rfl (by simp [init]) (.refl _)
  have n1' : s1.streams ≠ 0 := by rw [n1]; simp [init]
  obtain ⟨s2, p2, w2, n2, q2, c2⟩ := read_one (ws := .loop :: List.replicate threads .loop) (w1.trans rfl) n1' q1
  obtain ⟨s3, p3, w3, n3, q3, c3⟩ := read_one (ws := .loop :: List.replicate threads .loop) (w2.trans (w1.trans rfl)) (n2 ▸ n1') q2
  have hc : cachedCount s3 k = 3 := by
    rw [c3, c2, c1, k1, k2, k3]
    simp [cachedCount, init]
  have hw : s3.workers = .loop :: .loop :: List.replicate threads .loop := w3.trans (w2.trans (w1.trans rfl))
  have hst : s3.streams ≠ 0 := n3 ▸ n2 ▸ n1'
  refine viaB (p1.trans (p2.trans p3)) ?_
  obtain ⟨qp, q, hs⟩ := List.append_of_mem (q3.mem_iff.2 List.mem_cons_self)
  have hX : (qp ++ q).Perm (⟨b, r₆ :: u⟩ :: X) := by
    rw [hs] at q3
    exact List.Perm.cons_inv (List.perm_middle.symm.trans q3)
  obtain ⟨qp', q', hs'⟩ := List.append_of_mem (hX.mem_iff.2 List.mem_cons_self)
  refine viaB (run_count_at (pre := []) (post := .loop :: List.replicate threads .loop) hw hst hs rfl) ?_
  rw [k4]
  refine viaB1 (.test (pre := [.count ⟨a, r₅ :: t⟩ k (s3.gen k)]) (post := List.replicate threads .loop) rfl hst) ?_
  refine viaB1 (.take (pre := [.count ⟨a, r₅ :: t⟩ k (s3.gen k)]) (post := List.replicate threads .loop) (qpre := qp') (sector := b)
    (rest := u) (r := r₆) rfl hs') ?_
  refine viaB1 (.lookup (pre := [.count ⟨a, r₅ :: t⟩ k (s3.gen k)]) (post := List.replicate threads .loop) rfl) ?_
  rw [k6]
  refine viaB1 (.countFour (pre := []) rfl (by simp only [deref, update_same]; rfl) (by
    show cachedCount s3 k + 1 = 4
    omega)) ?_
  refine viaB1 (.finish (pre := []) rfl (by simp only [deref, update_same]; rfl) rfl) ?_
  refine viaB1 (.givebackBlock (pre := []) rfl) ?_
  refine viaB1 (.deliver (pre := []) rfl) ?_
  refine viaB1 (.test (pre := []) rfl hst) ?_
  refine viaB1 (.take (pre := []) (qpre := qp' ++ q') (qpost := []) (sector := a) (rest := t) (r := r₅) rfl rfl) ?_
  refine viaB1 (.lookup (pre := []) rfl) ?_
  refine viaB1 (.bad (pre := [_]) (w := .check ⟨b, u⟩ r₆ (s3.gen k)) (k := k) (g := s3.gen k)
    (post := List.replicate threads .loop) rfl (.inl ⟨_, _, .inl rfl, k6.symm⟩) ?_) ⟨_, Reach.refl _, rfl, ?_⟩
  · simp [deref, update]
  · simp [update, k5]

example : ∃ s, Reach Step (init 2 [⟨2, List.replicate 5 ⟨0, 7, 1, 1, 0, 0, 3⟩⟩, ⟨1, [(⟨0, 7, 1, 1, 0, 0, 4⟩ : Rec Nat)]⟩]) s ∧ s.ub = true ∧ s.cache 7 ≠ none :=
  C27_stale (t := []) (u := []) (X := []) (by decide) 0

/-- A worker that reads `m_streams` without a lock, and one that erases an element of it. -/
def StreamsRace (s : State D) : Prop :=
  ∃ pre mid post, s.workers = pre ++ .eof :: (mid ++ .loop :: post) ∨ s.workers = pre ++ .loop :: (mid ++ .eof :: post)

/-- **C27** The test of the loop races with the removal of a stream: for any files (one of them empty, say) and two or
more threads there is an execution in which a worker reads `m_streams` while another one is about to erase from
it (reader.h:395, reader.cpp:828); the two accesses have no common lock. -/
theorem C27_race (files : List (Entry D)) (sec : Nat) (n : Nat) :
    ∃ s, Reach Step (init (n + 2) (⟨sec, []⟩ :: files)) s ∧ StreamsRace s := by
  refine via1 (.test (pre := []) (post := List.replicate (n + 1) .loop) rfl (by simp [init])) ?_
  refine via1 (.takeEnd (pre := []) (post := List.replicate (n + 1) .loop) (qpre := []) (qpost := files)
      (sector := sec) rfl rfl) ?_
  exact ⟨_, Reach.refl _, [], [], List.replicate n .loop, .inl rfl⟩

/-- Four files with two frames each, in different orders. -/
def fourFiles : List (Entry Nat) :=
  [⟨0, [⟨0, 1, 2, 1, 0, 0, 10⟩, ⟨0, 2, 2, 1, 1, 0, 20⟩]⟩, ⟨1, [⟨0, 2, 2, 1, 1, 0, 21⟩, ⟨0, 1, 2, 1, 0, 0, 11⟩]⟩,
   ⟨2, [⟨0, 1, 2, 1, 0, 0, 12⟩, ⟨0, 2, 2, 1, 1, 0, 22⟩]⟩, ⟨3, [⟨0, 1, 2, 1, 0, 0, 13⟩, ⟨0, 2, 2, 1, 1, 0, 23⟩]⟩]

/-- The hypothesis of the theorems above can be met. -/
example : ∀ k, (recordsOf fourFiles k).length ≤ 4 := by
  intro k
  simp only [recordsOf, sectorRecords, fourFiles, List.flatMap_cons, List.flatMap_nil, List.map_cons, List.map_nil,
    List.cons_append, List.nil_append, List.append_nil]
  by_cases h1 : k = 1
  · subst h1; decide
  · by_cases h2 : k = 2
    · subst h2; decide
    · have e1 : ¬ 1 = k := fun h => h1 h.symm
      have e2 : ¬ 2 = k := fun h => h2 h.symm
      simp [e1, e2]

example : (recordsOf fourFiles 1).length = 4 := by decide

end Stempy.Props
