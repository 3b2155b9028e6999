import Verif.Model.ThreadedAgain
import Verif.Props.ThreadedReader
import Mathlib.Data.List.Dedup

/-!
C116: the single-pass threaded reader used again after a rewind.
-/

namespace Stempy.Props.ThreadedAgain
open Stempy.Spec
open Stempy.SectorReader (Rec)
open Stempy.ThreadedReader
open Stempy.ThreadedAgain

variable {D : Type}

theorem update_same {α : Type} (f : Nat → α) (k : Nat) (a : α) : update f k a k = a := by simp [update]

/-- The records of frames which were not delivered. -/
def unfinished (files : List (Entry D)) : List (Entry D) :=
  files.map fun e => { e with rest := e.rest.filter fun r => decide ((recordsOf files r.frameNumber).length ≠ 4) }

/-- The records that are in the cache after `n` passes. -/
def left (files : List (Entry D)) : Nat → List (Entry D)
  | 0 => []
  | n + 1 => unfinished (files ++ left files n)

theorem all_eq (files : List (Entry D)) : all files = sectorRecords files := rfl

theorem records_append (a b : List (Entry D)) (k : Nat) : recordsOf (a ++ b) k = recordsOf a k ++ recordsOf b k := by
  simp [recordsOf, sectorRecords]

theorem sector_unfinished (files : List (Entry D)) :
    sectorRecords (unfinished files) = (sectorRecords files).filter fun i => decide ((recordsOf files i.2.frameNumber).length ≠ 4) := by
  have : ∀ (p : Rec D → Bool) (l : List (Entry D)),
      sectorRecords (l.map fun e => { e with rest := e.rest.filter p }) = (sectorRecords l).filter fun i => p i.2 := by
    intro p l
    induction l with
    | nil => rfl
    | cons e l ih =>
      simp only [sectorRecords, List.map_cons, List.flatMap_cons, List.filter_append] at ih ⊢
      rw [ih]
      congr 1
      rw [List.filter_map]
      rfl
  exact this _ files

theorem records_unfinished (files : List (Entry D)) (k : Nat) :
    recordsOf (unfinished files) k = if (recordsOf files k).length = 4 then [] else recordsOf files k := by
  unfold recordsOf
  rw [sector_unfinished, List.filter_filter]
  split
  · rename_i h
    rw [List.filter_eq_nil_iff]
    intro i _ hi
    simp only [Bool.and_eq_true, decide_eq_true_eq] at hi
    exact hi.2 (by rw [hi.1]; exact h)
  · rename_i h
    refine List.filter_congr fun i _ => ?_
    rw [Bool.eq_iff_iff]
    simp only [Bool.and_eq_true, decide_eq_true_eq, and_iff_left_iff_imp]
    intro e
    rw [e]
    exact h

/-- The cache holds these records, and no frame with four of them. -/
structure Holds (files L : List (Entry D)) (cache : Nat → Option (Obj D)) : Prop where
  placed : ∀ k (P : Nat × Rec D → Bool), (∀ i, P i = true → i.2.frameNumber = k) →
    (match cache k with
      | some o => o.placed
      | none => []).countP P = (sectorRecords L).countP P
  key : ∀ k o, cache k = some o → ∀ i ∈ o.placed, i.2.frameNumber = k
  cnt : ∀ k o, cache k = some o → o.count = o.placed.length ∧ o.count ≠ 4
  head : ∀ k o r, cache k = some o → o.head = some r → r.frameNumber = k ∧ ∃ sec, (sec, r) ∈ sectorRecords files

theorem holds_new (files : List (Entry D)) : Holds files [] (opened files).cache where
  placed := by intro k P _; simp [opened, sectorRecords]
  key := by intro k o h; cases h
  cnt := by intro k o h; cases h
  head := by intro k o r h; cases h

theorem inv_start {files L : List (Entry D)} {r : ThreadedAgain.Reader D} (hc : Holds files L r.cache) (threads : Nat) :
    Inv (files ++ L) ((r.reset files).start threads) := by
  have I := inv_init threads files
  have hz : ∀ p : Worker D → Bool, p .loop = false → (List.replicate threads (Worker.loop : Worker D)).countP p = 0 := by
    intro p hp
    rw [List.countP_eq_zero]
    intro w hw
    rw [List.eq_of_mem_replicate hw, hp]
    simp
  refine ⟨rfl, ?_, ?_, hc.key, ?_, ?_, ?_, ?_, ?_, I.streams, I.exited⟩
  · intro k P hP
    have h1 := I.cons k P hP
    have h2 : (ThreadedReader.placed ((r.reset files).start threads) k).countP P = (sectorRecords L).countP P := hc.placed k P hP
    have h3 : (ThreadedReader.placed (init threads files) k).countP P = 0 := by simp [ThreadedReader.placed, init]
    rw [h2]
    rw [h3] at h1
    have e : (all (files ++ L)).countP P = (all files).countP P + (sectorRecords L).countP P := by
      rw [all_eq, all_eq, sectorRecords, List.flatMap_append, List.countP_append]
      rfl
    rw [e, ← h1, show ((r.reset files).start threads).queue = (init threads files).queue from rfl,
      show ((r.reset files).start threads).workers = (init threads files).workers from rfl,
      show ((r.reset files).start threads).delivered = (init threads files).delivered from rfl]
    omega
  · intro w hw k g h
    rw [List.eq_of_mem_replicate hw] at h
    simp [refOf] at h
  · intro k o ho
    rw [show ((r.reset files).start threads).workers = List.replicate threads .loop from rfl, hz _ rfl]
    exact (hc.cnt k o ho).1
  · intro k o ho
    rw [show ((r.reset files).start threads).workers = List.replicate threads .loop from rfl, hz _ rfl, if_neg (hc.cnt k o ho).2]
  · intro k o h ho hh
    obtain ⟨h1, sec, h2⟩ := hc.head k o h ho hh
    refine ⟨h1, sec, ?_⟩
    rw [all_eq, sectorRecords, List.flatMap_append]
    exact List.mem_append_left _ h2
  · intro b h
    cases h
  · intro w hw b h
    rw [List.eq_of_mem_replicate hw] at h
    simp [blockOf] at h

theorem reach_inv {files : List (Entry D)} (h4 : ∀ k, (recordsOf files k).length ≤ 4) {a s : State D} (I : Inv files a) (hr : Reach Step a s) :
    Inv files s := hr.inv (Inv files) I fun _ _ _ I h => inv_step (atMostFour h4) I h

theorem count_filter_key (files : List (Entry D)) (k : Nat) (P : Nat × Rec D → Bool) (hP : ∀ i, P i = true → i.2.frameNumber = k) :
    (sectorRecords files).countP P = (recordsOf files k).countP P := by
  rw [recordsOf, List.countP_filter]
  refine List.countP_congr fun i _ => ?_
  simp only [Bool.and_eq_true, decide_eq_true_eq]
  exact ⟨fun h => ⟨h, hP i h⟩, fun h => h.1⟩

/-- At the end the cache holds the records of the frames that were not delivered. -/
theorem holds_end {files L : List (Entry D)} (hsub : ∀ i ∈ sectorRecords L, i ∈ sectorRecords files)
    (h4 : ∀ k, (recordsOf (files ++ L) k).length ≤ 4) {s : State D} (I : Inv (files ++ L) s) (hne : s.workers ≠ [])
    (hex : ∀ w ∈ s.workers, w = .exited) : Holds files (unfinished (files ++ L)) s.cache := by
  have hmem : (.exited : Worker D) ∈ s.workers := by
    cases h : s.workers with
    | nil => exact absurd h hne
    | cons w ws => rw [← hex w (by simp [h])]; simp
  have h0 := I.exited hmem
  have hq : s.queue = [] := by
    have := I.streams
    rw [h0] at this
    exact List.length_eq_zero_iff.1 (by omega)
  have hh : s.workers.flatMap held = [] := by
    rw [List.flatMap_eq_nil_iff]
    intro x hx
    rw [hex x hx]
    rfl
  have hz : ∀ p : Worker D → Bool, p .exited = false → s.workers.countP p = 0 := by
    intro p hp
    rw [List.countP_eq_zero]
    intro w hw
    rw [hex w hw, hp]
    simp
  obtain ⟨-, hnd, hit, hone⟩ := once h4 I
  refine ⟨?_, I.key, ?_, ?_⟩
  · intro k P hP
    have h1 := I.cons k P hP
    rw [hq, hh] at h1
    simp only [List.flatMap_nil, List.countP_nil, Nat.zero_add] at h1
    show (ThreadedReader.placed s k).countP P = _
    have h2 : (s.delivered.flatMap fun b => b.items).countP P = if (recordsOf (files ++ L) k).length = 4 then (recordsOf (files ++ L) k).countP P else 0 := by
      have h3 := hone hne hex k
      have key : ∀ (bs : List (Block D)), (∀ b ∈ bs, b.items.Perm (recordsOf (files ++ L) b.key)) →
          (bs.flatMap fun b => b.items).countP P = (bs.countP fun b => b.key = k) * (recordsOf (files ++ L) k).countP P := by
        intro bs hbs
        induction bs with
        | nil => simp
        | cons b bs ih =>
          rw [List.flatMap_cons, List.countP_append, ih fun b hb => hbs b (by simp [hb]), List.countP_cons,
            (hbs b (by simp)).countP_eq, Nat.add_mul]
          by_cases hk : b.key = k
          · simp [hk]; omega
          · have : (recordsOf (files ++ L) b.key).countP P = 0 := by
              rw [List.countP_eq_zero]
              intro i hi hPi
              have e1 := (List.mem_filter.1 hi).2
              simp only [decide_eq_true_eq] at e1
              exact hk (e1.symm.trans (hP i hPi))
            simp [hk, this]
      rw [key _ fun b hb => (hit b hb).2.1, h3]
      split <;> simp
    rw [all_eq, count_filter_key _ k P hP] at h1
    rw [count_filter_key _ k P hP, records_unfinished]
    split
    · rename_i h
      rw [if_pos h] at h2
      simp only [List.countP_nil]
      omega
    · rename_i h
      rw [if_neg h] at h2
      omega
  · intro k o ho
    have h1 := I.cnt k o ho
    have h2 := I.fin k o ho
    rw [hz _ rfl] at h1 h2
    refine ⟨by omega, fun h => ?_⟩
    rw [if_pos h] at h2
    omega
  · intro k o r ho hr
    obtain ⟨h1, sec, h2⟩ := I.head k o r ho hr
    refine ⟨h1, sec, ?_⟩
    rw [all_eq, sectorRecords, List.flatMap_append] at h2
    rcases List.mem_append.1 h2 with h | h
    · exact h
    · exact hsub _ h

theorem left_sub (files : List (Entry D)) (n : Nat) : ∀ i ∈ sectorRecords (left files n), i ∈ sectorRecords files := by
  induction n with
  | zero => intro i h; cases h
  | succ n ih =>
    intro i h
    rw [left, sector_unfinished] at h
    have h := (List.mem_filter.1 h).1
    rw [sectorRecords, List.flatMap_append] at h
    rcases List.mem_append.1 h with h | h
    · exact h
    · exact ih i h

/-- The frames have no record, one, two or all four. -/
def Halves (files : List (Entry D)) : Prop :=
  ∀ k, (recordsOf files k).length = 0 ∨ (recordsOf files k).length = 1 ∨ (recordsOf files k).length = 2 ∨ (recordsOf files k).length = 4

theorem left_records {files : List (Entry D)} (h : Halves files) (n k : Nat) :
    (recordsOf (left files n) k).length = n * (recordsOf files k).length % 4 ∧
    ∃ m, recordsOf (left files n) k = (List.replicate m (recordsOf files k)).flatten := by
  induction n with
  | zero => exact ⟨by simp [left, recordsOf, sectorRecords], 0, rfl⟩
  | succ n ih =>
    obtain ⟨i1, m, i2⟩ := ih
    rw [left, records_unfinished, records_append]
    have hl : (recordsOf files k ++ recordsOf (left files n) k).length = (recordsOf files k).length + n * (recordsOf files k).length % 4 := by
      rw [List.length_append, i1]
    constructor
    · rw [hl]
      rcases h k with h | h | h | h <;> rw [h] at hl i1 ⊢ <;> split <;> simp only [List.length_nil, hl] <;> omega
    · split
      · exact ⟨0, rfl⟩
      · exact ⟨m + 1, by rw [i2, List.replicate_succ, List.flatten_cons]⟩

theorem left_four {files : List (Entry D)} (h : Halves files) (n k : Nat) : (recordsOf (files ++ left files n) k).length ≤ 4 := by
  rw [records_append, List.length_append, (left_records h n k).1]
  rcases h k with h | h | h | h <;> rw [h] <;> omega

theorem passes_holds {files : List (Entry D)} (h : Halves files) {threads : Nat} (ht : 0 < threads) {ds : List (List (Block D))}
    {r : ThreadedAgain.Reader D} (hp : Passes threads files ds r) : Holds files (left files ds.length) r.cache := by
  induction hp with
  | new => exact holds_new files
  | again _ h2 ih =>
    rename_i ds r r' d _
    cases h2 with
    | mk hr hex =>
      rename_i s
      rw [List.length_append, List.length_singleton]
      have hl := workers_length hr
      refine holds_end (left_sub files _) (left_four h _) (reach_inv (left_four h _) (inv_start ih threads) hr) ?_ hex
      intro h0
      rw [h0] at hl
      simp [Reader.start, init] at hl
      omega

/-- **C116** What is delivered in each call of `readAll`, with a rewind before each, for files with no record, one, two or all four of each
frame: a frame with four records in every call, one with two in every second call (with each record twice) and one with one
record in every fourth call. For all numbers of threads and all schedules. -/
theorem C116_passes_exact {files : List (Entry D)} (h : Halves files) {threads : Nat} (ht : 0 < threads) {ds : List (List (Block D))}
    {r : ThreadedAgain.Reader D} (hp : Passes threads files ds r) {n : Nat} {d : List (Block D)} (hd : ds[n]? = some d) (k : Nat) :
    (d.countP fun b => b.key = k) =
        (if (recordsOf files k).length ≠ 0 ∧ (n + 1) * (recordsOf files k).length % 4 = 0 then 1 else 0) ∧
      ∀ b ∈ d, b.key = k → b.items.Perm (List.replicate (4 / (recordsOf files k).length) (recordsOf files k)).flatten ∧
        ∃ i ∈ recordsOf files k, i.2 = b.head := by
  induction hp with
  | new => simp at hd
  | again h1 h2 ih =>
    rename_i ds r r' d'
    by_cases hlt : n < ds.length
    · rw [List.getElem?_append_left hlt] at hd
      exact ih hd
    · have hn : n = ds.length := by
        have := (List.getElem?_eq_some_iff.1 hd).1
        simp at this
        omega
      subst hn
      rw [List.getElem?_append_right (by omega)] at hd
      simp only [Nat.sub_self, List.getElem?_cons_zero, Option.some.injEq] at hd
      subst hd
      have hh := passes_holds h ht h1
      cases h2 with
      | mk hr hex =>
        rename_i s
        have hl := workers_length hr
        have I := reach_inv (left_four h _) (inv_start hh threads) hr
        obtain ⟨-, -, hit, hone⟩ := once (left_four h _) I
        have h3 := hone (by
          intro h0
          rw [h0] at hl
          simp [Reader.start, init] at hl
          omega) hex k
        obtain ⟨l1, m, l2⟩ := left_records h ds.length k
        have hlen : (recordsOf (files ++ left files ds.length) k).length =
            (recordsOf files k).length + ds.length * (recordsOf files k).length % 4 := by
          rw [records_append, List.length_append, l1]
        refine ⟨?_, ?_⟩
        · rw [h3, hlen]
          congr 1
          rw [eq_iff_iff, Nat.succ_mul]
          rcases h k with h | h | h | h <;> rw [h] <;> omega
        · rintro b hb rfl
          obtain ⟨b1, b2, i, hi, b3⟩ := hit b hb
          refine ⟨?_, i, ?_, b3⟩
          · refine b2.trans (List.Perm.of_eq ?_)
            have h5 := b2.length_eq
            rw [b1, records_append, l2] at h5
            rw [records_append, l2]
            have e : recordsOf files b.key ++ (List.replicate m (recordsOf files b.key)).flatten =
                (List.replicate (m + 1) (recordsOf files b.key)).flatten := by rw [List.replicate_succ, List.flatten_cons]
            rw [e] at h5 ⊢
            have e2 : 4 = (m + 1) * (recordsOf files b.key).length := by
              rw [h5]
              simp [List.length_flatten]
            have e3 : 4 / (recordsOf files b.key).length = m + 1 := by
              rw [e2]
              exact Nat.mul_div_cancel _ (Nat.pos_of_ne_zero fun h => by rw [h] at e2; simp at e2)
            rw [e3]
          · rw [records_append, l2] at hi
            rcases List.mem_append.1 hi with h | h
            · exact h
            · obtain ⟨l, hl, h⟩ := List.mem_flatten.1 h
              rw [List.eq_of_mem_replicate hl] at h
              exact h

/-- **C116** Files in which every frame has all four records: every call delivers every frame exactly once, with its four records. -/
theorem C116_complete {files : List (Entry D)} (h : ∀ k, (recordsOf files k).length = 0 ∨ (recordsOf files k).length = 4) {threads : Nat}
    (ht : 0 < threads) {ds : List (List (Block D))} {r : ThreadedAgain.Reader D} (hp : Passes threads files ds r) {d : List (Block D)}
    (hd : d ∈ ds) (k : Nat) :
    (d.countP fun b => b.key = k) = (if (recordsOf files k).length = 4 then 1 else 0) ∧
      ∀ b ∈ d, b.items.Perm (recordsOf files b.key) ∧ ∃ i ∈ recordsOf files b.key, i.2 = b.head := by
  obtain ⟨n, hn⟩ := List.mem_iff_getElem?.1 hd
  have hh : Halves files := fun k => by rcases h k with h | h <;> omega
  refine ⟨?_, fun b hb => ?_⟩
  · rw [(C116_passes_exact hh ht hp hn k).1]
    rcases h k with h | h <;> rw [h] <;> simp
  · obtain ⟨h1, h2⟩ := C116_passes_exact hh ht hp hn b.key
    obtain ⟨h3, h4⟩ := h2 b hb rfl
    refine ⟨?_, h4⟩
    have : (recordsOf files b.key).length = 4 := by
      obtain ⟨i, hi, _⟩ := h4
      rcases h b.key with h | h
      · rw [List.length_eq_zero_iff.1 h] at hi; cases hi
      · exact h
    simpa [this] using h3

/-- The records in the cache, as further files. -/
theorem holds_single {files L : List (Entry D)} (hsub : ∀ i ∈ sectorRecords L, i ∈ sectorRecords files) {s : State D}
    (I : Inv (files ++ L) s) (F : Few s) (h1 : s.workers ≠ []) (hex : ∀ w ∈ s.workers, w = .exited) :
    ∃ L', Holds files L' s.cache ∧ (∀ i ∈ sectorRecords L', i ∈ sectorRecords files) ∧
      ∀ k, (recordsOf L' k).length = ((recordsOf files k).length + (recordsOf L k).length) % 4 := by
  have hz : ∀ p : Worker D → Bool, p .exited = false → s.workers.countP p = 0 := by
    intro p hp
    rw [List.countP_eq_zero]
    intro w hw
    rw [hex w hw, hp]
    simp
  obtain ⟨-, -, -, hend⟩ := settled I F
  have hend := hend h1 hex
  have hkey : ∀ k, ∀ i ∈ ThreadedReader.placed s k, i.2.frameNumber = k := by
    intro k i hi
    unfold ThreadedReader.placed at hi
    split at hi
    · rename_i o ho
      exact I.key k o ho i hi
    · cases hi
  have hmem : ∀ k, ∀ i ∈ ThreadedReader.placed s k, i ∈ sectorRecords files := by
    classical
    intro k i hi
    have h := I.cons k (fun j => decide (j = i)) (by intro j hj; simp at hj; rw [hj]; exact hkey k i hi)
    have h2 : 0 < (ThreadedReader.placed s k).countP (fun j => decide (j = i)) := List.countP_pos_iff.2 ⟨i, hi, by simp⟩
    have h3 : 0 < (all (files ++ L)).countP (fun j => decide (j = i)) := by omega
    obtain ⟨j, hj, e⟩ := List.countP_pos_iff.1 h3
    simp only [decide_eq_true_eq] at e
    subst e
    rw [all_eq, sectorRecords, List.flatMap_append] at hj
    rcases List.mem_append.1 hj with hj | hj
    · exact hj
    · exact hsub _ hj
  let keys := ((sectorRecords files).map fun i => i.2.frameNumber).dedup
  let L' : List (Entry D) := keys.flatMap fun k => (ThreadedReader.placed s k).map fun i => ⟨i.1, [i.2]⟩
  have hL : sectorRecords L' = keys.flatMap fun k => ThreadedReader.placed s k := by
    have : ∀ ks : List Nat, sectorRecords (ks.flatMap fun k => (ThreadedReader.placed s k).map fun i => (⟨i.1, [i.2]⟩ : Entry D)) =
        ks.flatMap fun k => ThreadedReader.placed s k := by
      intro ks
      induction ks with
      | nil => rfl
      | cons k ks ih =>
        rw [List.flatMap_cons, List.flatMap_cons, ← ih]
        simp only [sectorRecords, List.flatMap_append]
        congr 1
        rw [List.flatMap_map]
        simp
    exact this keys
  have hcount : ∀ k (P : Nat × Rec D → Bool), (∀ i, P i = true → i.2.frameNumber = k) →
      (ThreadedReader.placed s k).countP P = (sectorRecords L').countP P := by
    intro k P hP
    have h0 : ∀ j, j ≠ k → (ThreadedReader.placed s j).countP P = 0 := by
      intro j hj
      rw [List.countP_eq_zero]
      intro i hi hPi
      exact hj ((hkey j i hi).symm.trans (hP i hPi))
    have h2 : ∀ ks : List Nat, ks.Nodup → (ks.flatMap fun k => ThreadedReader.placed s k).countP P =
        if k ∈ ks then (ThreadedReader.placed s k).countP P else 0 := by
      intro ks hnd
      induction ks with
      | nil => rfl
      | cons j ks ih =>
        rw [List.flatMap_cons, List.countP_append, ih (List.nodup_cons.1 hnd).2]
        by_cases hj : j = k
        · subst hj
          rw [if_neg (List.nodup_cons.1 hnd).1, if_pos (by simp)]
          omega
        · rw [h0 j hj]
          by_cases hk : k ∈ ks
          · rw [if_pos hk, if_pos (by simp [hk])]
            omega
          · rw [if_neg hk, if_neg (by simp [hk, Ne.symm hj])]
    rw [hL, h2 keys (List.nodup_dedup _)]
    split
    · rfl
    · rename_i hk
      rw [List.countP_eq_zero]
      intro i hi _
      refine hk (List.mem_dedup.2 (List.mem_map.2 ⟨i, hmem k i hi, hkey k i hi⟩))
  refine ⟨L', ⟨hcount, I.key, ?_, ?_⟩, ?_, ?_⟩
  · intro k o ho
    have h1 := I.cnt k o ho
    have h2 := I.fin k o ho
    rw [hz _ rfl] at h1 h2
    refine ⟨by omega, fun h => ?_⟩
    rw [if_pos h] at h2
    omega
  · intro k o r ho hr
    obtain ⟨h1, sec, h2⟩ := I.head k o r ho hr
    refine ⟨h1, sec, ?_⟩
    rw [all_eq, sectorRecords, List.flatMap_append] at h2
    rcases List.mem_append.1 h2 with h | h
    · exact h
    · exact hsub _ h
  · intro i hi
    rw [hL] at hi
    obtain ⟨k, -, hi⟩ := List.mem_flatMap.1 hi
    exact hmem k i hi
  · intro k
    have h2 := hcount k (fun i => i.2.frameNumber = k) (by simp)
    rw [List.countP_eq_length.2 (by intro i hi; simpa using hkey k i hi), (hend k).2, records_append, List.length_append,
      List.countP_eq_length_filter] at h2
    exact h2.symm

theorem few_start {files L : List (Entry D)} {r : ThreadedAgain.Reader D} (hc : Holds files L r.cache) (h : ∀ k, (recordsOf L k).length ≤ 4)
    (threads : Nat) : Few ((r.reset files).start threads) := by
  intro k o ho
  have ho : r.cache k = some o := ho
  have h1 := hc.placed k (fun i => i.2.frameNumber = k) (by simp)
  simp only [ho] at h1
  rw [List.countP_eq_length.2 (by intro i hi; simpa using hc.key k o ho i hi), List.countP_eq_length_filter] at h1
  have h2 := h k
  rw [(hc.cnt k o ho).1, h1]
  exact h2

/-- The calls use no freed frame: there is one thread only, or each frame with three records or with more than four has them in one file. -/
def Quiet (threads : Nat) (files : List (Entry D)) : Prop :=
  threads ≤ 1 ∨ ∀ k, ((recordsOf files k).length ≤ 4 ∧ (recordsOf files k).length ≠ 3) ∨ filesWith files k ≤ 1

theorem calm_start {files L : List (Entry D)} {threads n : Nat} (hq : Quiet threads files) (r : ThreadedAgain.Reader D)
    (hL : ∀ k, (recordsOf L k).length = n * (recordsOf files k).length % 4) : Calm (files ++ L) ((r.reset files).start threads) := by
  intro k
  rcases hq with hq | hq
  · exact .inr (.inr (by simpa [Reader.start, init] using hq))
  · rcases hq k with h | h
    · left
      rw [records_append, List.length_append, hL]
      have : (recordsOf files k).length = 0 ∨ (recordsOf files k).length = 1 ∨ (recordsOf files k).length = 2 ∨ (recordsOf files k).length = 4 := by
        omega
      rcases this with h | h | h | h <;> rw [h] <;> omega
    · right; left
      have : (List.replicate threads (Worker.loop : Worker D)).countP (touch k) = 0 := by
        rw [List.countP_eq_zero]
        intro w hw
        rw [List.eq_of_mem_replicate hw]
        simp [touch]
      show files.countP (entryHas k) + (List.replicate threads .loop).countP (touch k) ≤ 1
      rw [this]
      exact h

theorem workers_ne {threads : Nat} (ht : 0 < threads) {r : ThreadedAgain.Reader D} {s : State D} (hr : Reach Step (r.start threads) s) :
    s.workers ≠ [] := by
  have hl := workers_length hr
  intro h0
  rw [h0] at hl
  simp [Reader.start, init] at hl
  omega

theorem passes_quiet {files : List (Entry D)} {threads : Nat} (hq : Quiet threads files) (ht : 0 < threads) {ds : List (List (Block D))}
    {r : ThreadedAgain.Reader D} (hp : Passes threads files ds r) :
    ∃ L, Holds files L r.cache ∧ (∀ i ∈ sectorRecords L, i ∈ sectorRecords files) ∧
      ∀ k, (recordsOf L k).length = ds.length * (recordsOf files k).length % 4 := by
  induction hp with
  | new => exact ⟨[], holds_new files, (by intro i h; cases h), by simp [recordsOf, sectorRecords]⟩
  | again _ h2 ih =>
    rename_i ds r r' d _
    obtain ⟨L, i1, i2, i3⟩ := ih
    cases h2 with
    | mk hr hex =>
      obtain ⟨I, F⟩ := reach_few (calm_start hq r i3) (inv_start i1 threads) (few_start i1 (fun k => by rw [i3]; omega) threads) hr
      obtain ⟨L', j1, j2, j3⟩ := holds_single i2 I F (workers_ne ht hr) hex
      refine ⟨L', j1, j2, fun k => ?_⟩
      rw [j3, i3, List.length_append, List.length_singleton, Nat.succ_mul]
      omega

/-- **C116** One thread and any files, or any threads and frames that have three records, or more than four, in one file: a frame with `r`
records is delivered in the first `n` calls together `n r / 4` times (rounded down), always with four of its records. -/
theorem C116_exact {files : List (Entry D)} {threads : Nat} (hq : Quiet threads files) (ht : 0 < threads) {ds : List (List (Block D))}
    {r : ThreadedAgain.Reader D} (hp : Passes threads files ds r) {n : Nat} {d : List (Block D)} (hd : ds[n]? = some d) (k : Nat) :
    n * (recordsOf files k).length / 4 + (d.countP fun b => b.key = k) = (n + 1) * (recordsOf files k).length / 4 ∧
      ∀ b ∈ d, b.items.length = 4 ∧ (∀ i ∈ b.items, i ∈ recordsOf files b.key) ∧ ∃ i ∈ recordsOf files b.key, i.2 = b.head := by
  induction hp with
  | new => simp at hd
  | again h1 h2 ih =>
    rename_i ds r r' d'
    by_cases hlt : n < ds.length
    · rw [List.getElem?_append_left hlt] at hd
      exact ih hd
    · have hn : n = ds.length := by
        have := (List.getElem?_eq_some_iff.1 hd).1
        simp at this
        omega
      subst hn
      rw [List.getElem?_append_right (by omega)] at hd
      simp only [Nat.sub_self, List.getElem?_cons_zero, Option.some.injEq] at hd
      subst hd
      obtain ⟨L, i1, i2, i3⟩ := passes_quiet hq ht h1
      cases h2 with
      | mk hr hex =>
        rename_i s
        obtain ⟨I, F⟩ := reach_few (calm_start hq r i3) (inv_start i1 threads) (few_start i1 (fun k => by rw [i3]; omega) threads) hr
        obtain ⟨-, hit, ⟨others, hperm⟩, hend⟩ := settled I F
        have hsub : ∀ k, ∀ i ∈ recordsOf (files ++ L) k, i ∈ recordsOf files k := by
          intro k i hi
          rw [records_append] at hi
          rcases List.mem_append.1 hi with h | h
          · exact h
          · exact List.mem_filter.2 ⟨i2 i (List.mem_filter.1 h).1, (List.mem_filter.1 h).2⟩
        refine ⟨?_, fun b hb => ?_⟩
        · rw [(hend (workers_ne ht hr) hex k).1, records_append, List.length_append, i3, Nat.succ_mul]
          omega
        · obtain ⟨b1, b2, i, b3, b4⟩ := hit b hb
          refine ⟨b1, fun i hi => hsub _ i (List.mem_filter.2 ⟨hperm.mem_iff.1 ?_, by simpa using b2 i hi⟩), i, hsub _ i b3, b4⟩
          exact List.mem_append_left _ (List.mem_flatMap.2 ⟨b, hb, hi⟩)

/-- **C116** Then the calls can be made, any number of times. -/
theorem C116_exists {files : List (Entry D)} {threads : Nat} (hq : Quiet threads files) (ht : 0 < threads) (n : Nat) :
    ∃ ds r, Passes threads files ds r ∧ ds.length = n := by
  induction n with
  | zero => exact ⟨[], _, .new, rfl⟩
  | succ n ih =>
    obtain ⟨ds, r, h1, rfl⟩ := ih
    obtain ⟨L, i1, -, i3⟩ := passes_quiet hq ht h1
    obtain ⟨s, h2, h3⟩ := finishes (calm_start hq r i3) (inv_start i1 threads)
    exact ⟨_, _, .again h1 (.mk h2 h3), by simp⟩

theorem first_holds {files : List (Entry D)} {threads : Nat} (ht : 0 < threads)
    (h : threads ≤ 1 ∨ ∀ k, (recordsOf files k).length ≤ 4 ∨ filesWith files k ≤ 1) {s : State D}
    (hr : Reach Step (((opened files).reset files).start threads) s) (hex : ∀ w ∈ s.workers, w = .exited) :
    ∃ L, Holds files L s.cache ∧ ∀ k, (recordsOf L k).length = (recordsOf files k).length % 4 := by
  have hr' : Reach Step (init threads files) s := hr
  obtain ⟨I, F⟩ := reach_few (calm_init h) (inv_init threads files) (by intro k o h; cases h) hr'
  obtain ⟨L, h1, -, h3⟩ := holds_single (L := []) (by intro i h; cases h) (by simpa using I) F (workers_ne ht hr) hex
  exact ⟨L, h1, fun k => by rw [h3]; simp [recordsOf, sectorRecords]⟩

theorem cached_holds {files L : List (Entry D)} {r : ThreadedAgain.Reader D} (hc : Holds files L r.cache) (threads k : Nat) :
    cachedCount ((r.reset files).start threads) k = (recordsOf L k).length := by
  have h1 := hc.placed k (fun i => i.2.frameNumber = k) (by simp)
  show ((r.cache k).getD ⟨none, [], 0⟩).count = _
  cases ho : r.cache k with
  | none =>
    rw [ho, List.countP_eq_length_filter (l := sectorRecords L)] at h1
    exact h1
  | some o =>
    simp only [ho] at h1
    rw [List.countP_eq_length.2 (by intro i hi; simpa using hc.key k o ho i hi), List.countP_eq_length_filter] at h1
    show o.count = _
    rw [(hc.cnt k o ho).1, h1]
    rfl

/-- **C116** When one of the calls can use a freed frame: for two threads or more and a frame with three records, or with more than four, which
are not all in one file. -/
theorem C116_freed_iff (files : List (Entry D)) {threads : Nat} (ht : 0 < threads) :
    (∃ ds r s, Passes threads files ds r ∧ Reach Step ((r.reset files).start threads) s ∧ s.ub = true) ↔
      2 ≤ threads ∧ ∃ k, ((recordsOf files k).length = 3 ∨ 5 ≤ (recordsOf files k).length) ∧ 2 ≤ filesWith files k := by
  constructor
  · rintro ⟨ds, r, s, hp, hr, hub⟩
    by_contra hno
    have hq : Quiet threads files := by
      by_cases ht : threads ≤ 1
      · exact .inl ht
      · refine .inr fun k => ?_
        by_contra hk
        rw [not_or] at hk
        exact hno ⟨by omega, k, by omega, by omega⟩
    obtain ⟨L, i1, -, i3⟩ := passes_quiet hq ht hp
    rw [(reach_calm (calm_start hq r i3) (inv_start i1 threads) hr).1.safe] at hub
    cases hub
  · rintro ⟨h2, k, hk, hf⟩
    by_cases h5 : ∃ k, 5 ≤ (recordsOf files k).length ∧ 2 ≤ filesWith files k
    · obtain ⟨s, h3, h4⟩ := (C27_freed_iff files threads).2 ⟨h2, h5⟩
      exact ⟨[], _, s, .new, h3, h4⟩
    · have hsafe : threads ≤ 1 ∨ ∀ k, (recordsOf files k).length ≤ 4 ∨ filesWith files k ≤ 1 := by
        refine .inr fun k => ?_
        by_contra hk
        rw [not_or] at hk
        exact h5 ⟨k, by omega, by omega⟩
      have hk3 : (recordsOf files k).length = 3 := by
        rcases hk with h | h
        · exact h
        · exact absurd ⟨k, h, hf⟩ h5
      obtain ⟨s, h3, h4⟩ := C27_many_records_exists hsafe
      obtain ⟨L, j1, j2⟩ := first_holds ht hsafe (show Reach Step (((opened files).reset files).start threads) s from h3) h4
      have hp : Passes threads files [s.delivered] _ := .again (ds := []) .new (.mk h3 h4)
      obtain ⟨n, rfl⟩ : ∃ n, threads = n + 2 := ⟨threads - 2, by omega⟩
      obtain ⟨u, h6, h7⟩ := freed_start (files := files) (threads := n) (k := k)
        (s := ((⟨[], s.cache, (MultiPass.readAllFutures (n + 2) ((opened files).reset files).futures).1⟩ :
          ThreadedAgain.Reader D).reset files).start (n + 2)) rfl rfl rfl
        (by rw [cached_holds j1, j2]; omega) (by rw [cached_holds j1, j2]; omega) hf
      exact ⟨_, _, u, hp, h6, h7⟩

/-- **C116** is false: if a frame has only two records, the first call does not deliver it and the second does, with both records twice. -/
theorem C116_two_false {files : List (Entry D)} (h : Halves files) {threads : Nat} (ht : 0 < threads) {d e : List (Block D)}
    {r : ThreadedAgain.Reader D} (hp : Passes threads files [d, e] r) {k : Nat} (hk : (recordsOf files k).length = 2) :
    (∀ b ∈ d, b.key ≠ k) ∧ ∃ b ∈ e, b.key = k ∧ b.items.Perm (recordsOf files k ++ recordsOf files k) := by
  have h1 := (C116_passes_exact h ht hp (n := 0) rfl k).1
  obtain ⟨h2, h3⟩ := C116_passes_exact h ht hp (n := 1) rfl k
  rw [hk] at h1 h2 h3
  simp only [Nat.reduceAdd, Nat.reduceMul, Nat.reduceMod] at h1 h2
  rw [if_neg (by omega), List.countP_eq_zero] at h1
  rw [if_pos ⟨by omega, trivial⟩] at h2
  refine ⟨fun b hb e => h1 b hb (by simpa using e), ?_⟩
  obtain ⟨b, hb, hbk⟩ := List.countP_pos_iff.1 (show 0 < e.countP fun b => b.key = k by omega)
  simp only [decide_eq_true_eq] at hbk
  refine ⟨b, hb, hbk, ?_⟩
  simpa [List.replicate] using (h3 b hb hbk).1

/-- **C116** The future of the first call gives no exception; that of every later one gives `future_error`, at once and whatever the tasks are
doing. -/
theorem C116_wait {files : List (Entry D)} {threads : Nat} (ht : 0 < threads) {ds : List (List (Block D))} {r : ThreadedAgain.Reader D}
    (hp : Passes threads files ds r) : r.waits threads = if ds = [] then .ok () else .throw "future_error" := by
  have hall : ∀ n, MultiPass.getAll (List.replicate n .pending) = (List.replicate n .consumed, .ok ()) := by
    intro n
    induction n with
    | zero => rfl
    | succ n ih => simp only [List.replicate_succ, MultiPass.getAll, ih]
  have hfut : ∀ {ds : List (List (Block D))} {r : ThreadedAgain.Reader D}, Passes threads files ds r →
      if ds = [] then r.futures = [] else ∃ fs, r.futures = .consumed :: fs := by
    intro ds r hp
    induction hp with
    | new => rfl
    | again h1 h2 ih =>
      rename_i ds r r' d _
      rw [if_neg (by simp)]
      cases h2
      simp only [Reader.reset, MultiPass.readAllFutures]
      split at ih
      · rw [ih, List.nil_append, hall]
        exact ⟨List.replicate (threads - 1) .consumed, by
          rw [← List.replicate_succ, show threads - 1 + 1 = threads by omega]⟩
      · obtain ⟨fs, ih⟩ := ih
        rw [ih]
        exact ⟨_, rfl⟩
  have := hfut hp
  unfold Reader.waits MultiPass.readAllFutures
  split at this
  · rename_i h
    rw [this, if_pos h, List.nil_append, hall]
  · rename_i h
    obtain ⟨fs, this⟩ := this
    rw [this, if_neg h]
    rfl

/-- Frame 1 has four records, frame 2 has two. -/
def two : List (Entry Nat) :=
  [⟨0, [⟨0, 1, 2, 1, 0, 0, 10⟩, ⟨0, 2, 2, 1, 1, 0, 20⟩]⟩, ⟨1, [⟨0, 2, 2, 1, 1, 0, 21⟩, ⟨0, 1, 2, 1, 0, 0, 11⟩]⟩,
   ⟨2, [⟨0, 1, 2, 1, 0, 0, 12⟩]⟩, ⟨3, [⟨0, 1, 2, 1, 0, 0, 13⟩]⟩]

theorem two_halves : Halves two := by
  intro k
  simp only [recordsOf, sectorRecords, two, List.flatMap_cons, List.flatMap_nil, List.map_cons, List.map_nil, List.cons_append,
    List.nil_append]
  by_cases h1 : k = 1
  · subst h1; simp
  · by_cases h2 : k = 2
    · subst h2; simp
    · simp [Ne.symm h1, Ne.symm h2]

theorem quiet_of {files : List (Entry D)} (h : Halves files) (threads : Nat) : Quiet threads files :=
  .inr fun k => .inl (by rcases h k with h | h | h | h <;> omega)

example : ∃ d e r, Passes 3 two [d, e] r ∧ (recordsOf two 2).length = 2 ∧ (∀ b ∈ d, b.key ≠ 2) ∧
    ∃ b ∈ e, b.key = 2 ∧ b.items.Perm (recordsOf two 2 ++ recordsOf two 2) := by
  obtain ⟨ds, r, h, hl⟩ := C116_exists (quiet_of two_halves 3) (by omega) 2
  match ds, hl with
  | [d, e], _ => exact ⟨d, e, r, h, rfl, C116_two_false two_halves (by omega) h rfl⟩

/-- Four records of each of two frames: three calls. -/
example : ∃ ds r, Passes 2 (fourFiles) ds r ∧ ds.length = 3 ∧ ∀ d ∈ ds, (d.countP fun b => b.key = 2) = 1 := by
  have h : ∀ k, (recordsOf fourFiles k).length = 0 ∨ (recordsOf fourFiles k).length = 4 := by
    intro k
    simp only [recordsOf, sectorRecords, fourFiles, List.flatMap_cons, List.flatMap_nil, List.map_cons, List.map_nil, List.cons_append,
      List.nil_append]
    by_cases h1 : k = 1
    · subst h1; simp
    · by_cases h2 : k = 2
      · subst h2; simp
      · simp [Ne.symm h1, Ne.symm h2]
  obtain ⟨ds, r, h1, h2⟩ := C116_exists (files := fourFiles) (quiet_of (fun k => by rcases h k with h | h <;> omega) 2) (by omega) 3
  exact ⟨ds, r, h1, h2, fun d hd => (C116_complete h (by omega) h1 hd 2).1⟩

/-- Three records of frame 7, and an empty file. -/
def three : List (Entry Nat) :=
  [⟨0, [⟨0, 7, 1, 1, 0, 0, 10⟩]⟩, ⟨1, [⟨0, 7, 1, 1, 0, 0, 11⟩]⟩, ⟨2, [⟨0, 7, 1, 1, 0, 0, 12⟩]⟩, ⟨3, []⟩]

/-- With one thread, the second, third and fourth call deliver it, but the first does not. -/
example : ∃ d e f g r, Passes 1 three [d, e, f, g] r ∧ (d.countP fun b => b.key = 7) = 0 ∧ (e.countP fun b => b.key = 7) = 1 ∧
    (f.countP fun b => b.key = 7) = 1 ∧ (g.countP fun b => b.key = 7) = 1 := by
  obtain ⟨ds, r, h, hl⟩ := C116_exists (files := three) (threads := 1) (.inl (by omega)) (by omega) 4
  match ds, hl with
  | [d, e, f, g], _ =>
    have h3 : (recordsOf three 7).length = 3 := by decide +kernel
    have h0 := (C116_exact (.inl (by omega)) (by omega) h (n := 0) rfl 7).1
    have h1 := (C116_exact (.inl (by omega)) (by omega) h (n := 1) rfl 7).1
    have h2 := (C116_exact (.inl (by omega)) (by omega) h (n := 2) rfl 7).1
    have h4 := (C116_exact (.inl (by omega)) (by omega) h (n := 3) rfl 7).1
    rw [h3] at h0 h1 h2 h4
    exact ⟨d, e, f, g, r, h, by omega, by omega, by omega, by omega⟩

/-- With two, a freed frame can be used. -/
example : ∃ ds r s, Passes 2 three ds r ∧ Reach Step ((r.reset three).start 2) s ∧ s.ub = true :=
  (C116_freed_iff three (by omega)).2 ⟨by omega, 7, by decide +kernel, by decide +kernel⟩

/-- Frame 7 has three records in one file, frame 1 has four; two threads. -/
example : ∃ d e r, Passes 2 [(⟨0, [⟨0, 7, 1, 1, 0, 0, 10⟩, ⟨0, 7, 1, 1, 0, 0, 11⟩, ⟨0, 7, 1, 1, 0, 0, 12⟩]⟩ : Entry Nat), ⟨1, []⟩] [d, e] r ∧
    (d.countP fun b => b.key = 7) = 0 ∧ (e.countP fun b => b.key = 7) = 1 := by
  have hq : Quiet 2 [(⟨0, [⟨0, 7, 1, 1, 0, 0, 10⟩, ⟨0, 7, 1, 1, 0, 0, 11⟩, ⟨0, 7, 1, 1, 0, 0, 12⟩]⟩ : Entry Nat), ⟨1, []⟩] := by
    refine .inr fun k => .inr ?_
    simp only [filesWith, List.countP_cons, List.countP_nil, List.any_nil, Bool.false_eq_true, if_false]
    split <;> omega
  obtain ⟨ds, r, h, hl⟩ := C116_exists hq (by omega) 2
  match ds, hl with
  | [d, e], _ =>
    have h0 := (C116_exact hq (by omega) h (n := 0) rfl 7).1
    have h1 := (C116_exact hq (by omega) h (n := 1) rfl 7).1
    have h3 : (recordsOf [(⟨0, [⟨0, 7, 1, 1, 0, 0, 10⟩, ⟨0, 7, 1, 1, 0, 0, 11⟩, ⟨0, 7, 1, 1, 0, 0, 12⟩]⟩ : Entry Nat), ⟨1, []⟩] 7).length = 3 := by
      decide +kernel
    rw [h3] at h0 h1
    exact ⟨d, e, r, h, by omega, by omega⟩

example : ∃ ds r, Passes 2 fourFiles ds r ∧ ds.length = 1 ∧ r.waits 2 = .throw "future_error" := by
  obtain ⟨s, h1, h2⟩ := C27_exists fourFiles (by
    intro k
    simp only [recordsOf, sectorRecords, fourFiles, List.flatMap_cons, List.flatMap_nil, List.map_cons, List.map_nil, List.cons_append,
      List.nil_append]
    by_cases h1 : k = 1
    · subst h1; simp
    · by_cases h2 : k = 2
      · subst h2; simp
      · simp [Ne.symm h1, Ne.symm h2]) 2
  have hp : Passes 2 fourFiles [s.delivered] _ := .again (ds := []) .new (.mk h1 h2)
  exact ⟨_, _, hp, rfl, by rw [C116_wait (by omega) hp]; rfl⟩

end Stempy.Props.ThreadedAgain
