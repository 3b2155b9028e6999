import Verif.Model.EvenReads
import Mathlib.Data.List.Count
import Mathlib.Data.List.Perm.Basic

/-!
C93: the streams are read evenly.
-/

namespace Stempy.EvenReads
open Stempy.Spec

/-- Number of records read from a file. -/
def reads (ls : List Label) (i : Nat) : Nat := ls.count (.read i)

/-- The streams in the hands of the workers. -/
private def held : List Worker → List Entry
  | [] => []
  | .reading e :: ws => e :: held ws
  | _ :: ws => held ws

private theorem held_append (a b : List Worker) : held (a ++ b) = held a ++ held b := by
  induction a with
  | nil => rfl
  | cons w a ih => cases w <;> simp [held, ih]

private structure Inv (files : Nat) (records : Nat → Nat) (ls : List Label) (s : State) : Prop where
  queue : ∀ e ∈ s.queue, e.readCount = reads ls e.file
  hand : ∀ e ∈ held s.workers, e.readCount + 1 = reads ls e.file
  live : ∀ i < files, .close i ∉ ls → i ∈ (s.queue ++ held s.workers).map Entry.file
  range : ∀ e ∈ s.queue ++ held s.workers, e.file < files ∧ .close e.file ∉ ls
  nodup : ((s.queue ++ held s.workers).map Entry.file).Nodup
  bound : ∀ i < files, reads ls i ≤ records i
  closed : ∀ i, .close i ∈ ls → reads ls i = records i
  rest : ∀ i, files ≤ i → reads ls i = 0

private theorem reads_snoc (ls : List Label) (l : Label) (i : Nat) :
    reads (ls ++ [l]) i = reads ls i + if l = .read i then 1 else 0 := by
  unfold reads
  rw [List.count_append, List.count_singleton]
  by_cases h : l = .read i <;> simp [h]

private theorem inv_init (threads files : Nat) (records : Nat → Nat) : Inv files records [] (init threads files) := by
  have h : held (List.replicate threads .free) = [] := by
    induction threads with
    | zero => rfl
    | succ n ih => simpa [List.replicate_succ, held] using ih
  refine ⟨?_, ?_, ?_, ?_, ?_, ?_, ?_, ?_⟩
  · simp [init, reads]
  · simp [init, h]
  · intro i hi _
    simp [init, h, hi]
  · intro e he
    simp only [init, h, List.append_nil, List.mem_map, List.mem_range] at he
    obtain ⟨i, hi, rfl⟩ := he
    exact ⟨hi, by simp⟩
  · simp [init, h, Function.comp_def, List.nodup_range]
  · simp [reads]
  · simp
  · simp [reads]

private theorem inv_step {files : Nat} {records : Nat → Nat} {ls : List Label} {s t : State} {l : Label}
    (I : Inv files records ls s) (h : Step records s l t) : Inv files records (ls ++ [l]) t := by
  obtain ⟨queue, workers⟩ := s
  cases h with
  | @read pre post qpre qpost e hw hq ht hr =>
    simp only at hw hq
    subst hw hq
    have hnd := I.nodup
    have hrange := I.range
    have hlive := I.live
    have hperm : (qpre ++ qpost ++ held (pre ++ .reading e :: post)).Perm (qpre ++ e :: qpost ++ held (pre ++ .free :: post)) := by
      rw [held_append, held_append]
      simp only [held]
      refine List.perm_iff_count.2 fun a => ?_
      simp only [List.count_append, List.count_cons]
      omega
    have hne : ∀ x ∈ qpre ++ qpost ++ held (pre ++ .free :: post), x.file ≠ e.file := by
      have hp : (qpre ++ e :: qpost ++ held (pre ++ .free :: post)).Perm (e :: (qpre ++ qpost ++ held (pre ++ .free :: post))) := by
        simp only [List.append_assoc, List.cons_append]
        exact List.perm_middle
      have := (hp.map Entry.file).nodup_iff.1 hnd
      rw [List.map_cons, List.nodup_cons] at this
      intro x hx hxe
      exact this.1 (List.mem_map.2 ⟨x, hx, hxe⟩)
    have hee := I.queue e (by simp)
    refine ⟨?_, ?_, ?_, ?_, ?_, ?_, ?_, ?_⟩
    · intro x hx
      have h1 := hne x (by simp only [List.mem_append] at hx ⊢; tauto)
      rw [reads_snoc, if_neg (by simpa using fun h => h1 h.symm), Nat.add_zero]
      exact I.queue x (by simp only [List.mem_append, List.mem_cons] at hx ⊢; tauto)
    · intro x hx
      simp only [held_append, held, List.mem_append, List.mem_cons] at hx
      rcases hx with hx | rfl | hx
      · have h1 := hne x (by simp only [held_append, List.mem_append]; tauto)
        rw [reads_snoc, if_neg (by simpa using fun h => h1 h.symm), Nat.add_zero]
        exact I.hand x (by simp only [held_append, List.mem_append]; tauto)
      · rw [reads_snoc, if_pos rfl, hee]
      · have h1 := hne x (by simp only [held_append, held, List.mem_append]; tauto)
        rw [reads_snoc, if_neg (by simpa using fun h => h1 h.symm), Nat.add_zero]
        exact I.hand x (by simp only [held_append, held, List.mem_append]; tauto)
    · intro i hi hc
      exact (hperm.map Entry.file).mem_iff.2 (hlive i hi (by simpa using hc))
    · intro x hx
      have := hrange x (hperm.mem_iff.1 hx)
      exact ⟨this.1, by simpa using this.2⟩
    · exact (hperm.map Entry.file).nodup_iff.2 hnd
    · intro i hi
      rw [reads_snoc]
      split
      · rename_i h
        cases h
        have := hee
        omega
      · have := I.bound i hi; omega
    · intro i hi
      have hi : .close i ∈ ls := by simpa using hi
      have h1 : e.file ≠ i := fun h => (hrange e (by simp)).2 (h ▸ hi)
      rw [reads_snoc, if_neg (by simpa using h1)]
      exact I.closed i hi
    · intro i hi
      have := (hrange e (by simp)).1
      rw [reads_snoc, if_neg (by simp; omega)]
      exact I.rest i hi
  | @close pre post qpre qpost e hw hq ht hr =>
    simp only at hw hq
    subst hq
    have hnd := I.nodup
    have hrange := I.range
    have hp : (qpre ++ e :: qpost ++ held workers).Perm (e :: (qpre ++ qpost ++ held workers)) := by
      simp only [List.append_assoc, List.cons_append]
      exact List.perm_middle
    have hnd' := (hp.map Entry.file).nodup_iff.1 hnd
    rw [List.map_cons, List.nodup_cons] at hnd'
    have hrs : ∀ i, reads (ls ++ [Label.close e.file]) i = reads ls i := by
      intro i; rw [reads_snoc]; simp
    have hee := I.queue e (by simp)
    refine ⟨?_, ?_, ?_, ?_, ?_, ?_, ?_, ?_⟩
    · intro x hx
      rw [hrs]
      exact I.queue x (by simp only [List.mem_append, List.mem_cons] at hx ⊢; tauto)
    · intro x hx
      rw [hrs]
      exact I.hand x hx
    · intro i hi hc
      have hc : .close i ∉ ls ∧ i ≠ e.file := by simpa using hc
      have := (hp.map Entry.file).mem_iff.1 (I.live i hi hc.1)
      rw [List.map_cons, List.mem_cons] at this
      exact this.resolve_left hc.2
    · intro x hx
      have h1 := hrange x (hp.mem_iff.2 (List.mem_cons_of_mem _ hx))
      refine ⟨h1.1, ?_⟩
      have : x.file ≠ e.file := fun h => hnd'.1 (List.mem_map.2 ⟨x, hx, h⟩)
      simp [h1.2, this]
    · exact hnd'.2
    · intro i hi; rw [hrs]; exact I.bound i hi
    · intro i hi
      rw [hrs]
      have hi : .close i ∈ ls ∨ i = e.file := by simpa using hi
      rcases hi with hi | rfl
      · exact I.closed i hi
      · have := I.bound _ (hrange e (by simp)).1
        omega
    · intro i hi; rw [hrs]; exact I.rest i hi
  | @back pre post e hw =>
    simp only at hw
    subst hw
    have hnd := I.nodup
    have hrange := I.range
    have hperm : ((queue ++ [(⟨e.file, e.readCount + 1⟩ : Entry)] ++ held (pre ++ Worker.calling :: post)).map Entry.file).Perm
        ((queue ++ held (pre ++ Worker.reading e :: post)).map Entry.file) := by
      rw [held_append, held_append]
      simp only [held, List.map_append, List.map_cons, List.map_nil]
      refine List.perm_iff_count.2 fun a => ?_
      simp only [List.count_append, List.count_cons, List.count_nil]
      omega
    have hrs : ∀ i, reads (ls ++ [Label.back e.file]) i = reads ls i := by
      intro i; rw [reads_snoc]; simp
    refine ⟨?_, ?_, ?_, ?_, ?_, ?_, ?_, ?_⟩
    · intro x hx
      rw [hrs]
      simp only [List.mem_append, List.mem_singleton] at hx
      rcases hx with hx | rfl
      · exact I.queue x hx
      · exact I.hand e (by simp [held_append, held])
    · intro x hx
      rw [hrs]
      refine I.hand x ?_
      simp only [held_append, held, List.mem_append, List.mem_cons] at hx ⊢
      tauto
    · intro i hi hc
      exact hperm.mem_iff.2 (I.live i hi (by simpa using hc))
    · intro x hx
      have h1 := hperm.mem_iff.1 (List.mem_map.2 ⟨x, hx, rfl⟩)
      obtain ⟨y, hy, hy2⟩ := List.mem_map.1 h1
      have := hrange y hy
      rw [hy2] at this
      exact ⟨this.1, by simpa using this.2⟩
    · exact hperm.nodup_iff.2 hnd
    · intro i hi; rw [hrs]; exact I.bound i hi
    · intro i hi; rw [hrs]; exact I.closed i (by simpa using hi)
    · intro i hi; rw [hrs]; exact I.rest i hi
  | @call pre post hw =>
    simp only at hw
    subst hw
    have he : held (pre ++ .free :: post) = held (pre ++ .calling :: post) := by simp [held_append, held]
    have hrs : ∀ i, reads (ls ++ [Label.call]) i = reads ls i := by
      intro i; rw [reads_snoc]; simp
    refine ⟨?_, ?_, ?_, ?_, ?_, ?_, ?_, ?_⟩
    · intro x hx; rw [hrs]; exact I.queue x hx
    · intro x hx; rw [hrs]; exact I.hand x (by rw [← he]; exact hx)
    · intro i hi hc; simp only [he]; exact I.live i hi (by simpa using hc)
    · intro x hx
      have := I.range x (by simpa only [he] using hx)
      exact ⟨this.1, by simpa using this.2⟩
    · simpa only [he] using I.nodup
    · intro i hi; rw [hrs]; exact I.bound i hi
    · intro i hi; rw [hrs]; exact I.closed i (by simpa using hi)
    · intro i hi; rw [hrs]; exact I.rest i hi

private theorem inv_run {threads files : Nat} {records : Nat → Nat} {ls : List Label} {s : State}
    (h : Run (Step records) (init threads files) ls s) : Inv files records ls s := by
  induction h with
  | nil => exact inv_init threads files records
  | snoc _ h2 ih => exact inv_step ih h2

private theorem workers_length {records : Nat → Nat} {s t : State} {ls : List Label} (h : Run (Step records) s ls t) :
    t.workers.length = s.workers.length := by
  refine h.inv (fun t => t.workers.length = s.workers.length) rfl ?_
  intro a b c ha hs
  rw [← ha]
  cases hs with
  | read hw => simp [hw]
  | close hw => simp
  | back hw => simp [hw]
  | call hw => simp [hw]

/-- **C93** What holds: with one thread the numbers of records read from two files differ by at most one, unless the file with fewer
records has been read to its end. -/
theorem C93_partial {files : Nat} {records : Nat → Nat} {ls : List Label} {s : State} (h : Run (Step records) (init 1 files) ls s)
    (i : Nat) {j : Nat} (hj : j < files) (hc : .close j ∉ ls) : reads ls i ≤ reads ls j + 1 := by
  induction h with
  | nil => simp [reads]
  | @snoc s t ls l h1 h2 ih =>
    have I := inv_run h1
    have hl := workers_length h1
    have hc' : .close j ∉ ls := fun h => hc (by simp [h])
    have ih := ih hc'
    cases h2 with
    | @read pre post qpre qpost e hw hq ht hr =>
      have hlen : pre = [] ∧ post = [] := by
        simp only [init, hw, List.length_append, List.length_cons, List.length_replicate] at hl
        exact ⟨List.length_eq_zero_iff.1 (by omega), List.length_eq_zero_iff.1 (by omega)⟩
      have hlive := I.live j hj hc'
      rw [hw, hlen.1, hlen.2] at hlive
      simp only [List.nil_append, held, List.append_nil, List.mem_map] at hlive
      obtain ⟨x, hx, rfl⟩ := hlive
      have h3 := ht x hx
      have h4 := I.queue x hx
      have h5 := I.queue e (by rw [hq]; simp)
      rw [reads_snoc, reads_snoc]
      by_cases hi : e.file = i
      · subst hi
        simp only [if_true]
        omega
      · rw [if_neg (by simpa using hi)]
        omega
    | close => rw [reads_snoc, reads_snoc]; simpa using ih
    | back => rw [reads_snoc, reads_snoc]; simpa using ih
    | call => rw [reads_snoc, reads_snoc]; simpa using ih

/-- **C93** No stream is starved, with any number of threads: while a stream waits in the queue, no other stream gets further than one
record ahead of it. -/
theorem C93_wait {threads files : Nat} {records : Nat → Nat} {ls ls' : List Label} {s t : State}
    (h : Run (Step records) (init threads files) ls s) {e : Entry} (he : e ∈ s.queue) (h' : Run (Step records) s ls' t)
    (hr : .read e.file ∉ ls') (hc : .close e.file ∉ ls') (i : Nat) :
    reads (ls ++ ls') i ≤ max (reads ls i) (reads ls e.file + 1) := by
  have key : e ∈ t.queue ∧ reads (ls ++ ls') i ≤ max (reads ls i) (reads ls e.file + 1) := by
    induction h' with
    | nil => exact ⟨he, by rw [List.append_nil]; omega⟩
    | @snoc s t ls' l h1 h2 ih =>
      obtain ⟨ih1, ih2⟩ := ih (fun h => hr (by simp [h])) (fun h => hc (by simp [h]))
      have I := inv_run (h.trans h1)
      rw [← List.append_assoc, reads_snoc]
      cases h2 with
      | @read pre post qpre qpost x hw hq ht hx =>
        have hne : x ≠ e := fun h => hr (by simp [h])
        have hin : e ∈ qpre ++ qpost := by
          rw [hq] at ih1
          simp only [List.mem_append, List.mem_cons] at ih1 ⊢
          rcases ih1 with h | h | h
          · exact .inl h
          · exact absurd h.symm hne
          · exact .inr h
        refine ⟨hin, ?_⟩
        split
        · rename_i hxi
          cases hxi
          have h1 := ht e ih1
          have h2 := I.queue e ih1
          have h3 := I.queue x (by rw [hq]; simp)
          have h4 : reads (ls ++ ls') e.file = reads ls e.file := by
            unfold reads
            have h0 : ls'.count (.read e.file) = 0 := List.count_eq_zero.2 fun h => hr (by simp [h])
            rw [List.count_append, h0, Nat.add_zero]
          omega
        · omega
      | @close pre post qpre qpost x hw hq ht hx =>
        have hne : x ≠ e := fun h => hc (by simp [h])
        rw [hq] at ih1
        simp only [List.mem_append, List.mem_cons] at ih1
        refine ⟨?_, by simpa using ih2⟩
        rcases ih1 with h | h | h
        · exact List.mem_append_left _ h
        · exact absurd h.symm hne
        · exact List.mem_append_right _ h
      | back => exact ⟨List.mem_append_left _ ih1, by simpa using ih2⟩
      | call => exact ⟨ih1, by simpa using ih2⟩
  exact key.2

/-! ### The frames which are in memory -/

/-- The frame number of a record of a file. -/
def frameAt (files : List (List Nat)) (i p : Nat) : Option Nat := (files.getD i [])[p]?

/-- A frame is in the cache: some of its records have been read (or are read), others not. -/
def InCache (files : List (List Nat)) (ls : List Label) (k : Nat) : Prop :=
  (∃ i p, frameAt files i p = some k ∧ p < reads ls i) ∧ ∃ i p, frameAt files i p = some k ∧ reads ls i ≤ p

/-- Every frame has the same place in all files which have records of it. -/
def Aligned (files : List (List Nat)) : Prop :=
  ∀ i j p q k, frameAt files i p = some k → frameAt files j q = some k → p = q

/-- Numbers of records of the files. -/
def lengths (files : List (List Nat)) (i : Nat) : Nat := (files.getD i []).length

/-- **C93** With one thread, and files which have the frames at the same places, all frames in the cache have the same place. -/
theorem C93_cache {files : List (List Nat)} (ha : Aligned files) {ls : List Label} {s : State}
    (h : Run (Step (lengths files)) (init 1 files.length) ls s) :
    ∃ p, ∀ k, InCache files ls k → ∀ i q, frameAt files i q = some k → q = p := by
  have I := inv_run h
  have key : ∀ k, InCache files ls k → ∃ i j p, frameAt files i p = some k ∧ reads ls i = p + 1 ∧ j < files.length ∧ .close j ∉ ls ∧
      reads ls j = p := by
    rintro k ⟨⟨i, p, h1, h2⟩, j, q, h3, h4⟩
    have hpq := ha _ _ _ _ _ h1 h3
    subst hpq
    have hlt : p < lengths files j := (List.getElem?_eq_some_iff.1 h3).1
    have hj : j < files.length := by
      by_contra hj
      unfold lengths at hlt
      rw [List.getD_eq_getElem?_getD, List.getElem?_eq_none (by omega)] at hlt
      simp at hlt
    have hc : .close j ∉ ls := fun hc => by have := I.closed j hc; omega
    have := C93_partial h i hj hc
    exact ⟨i, j, p, h1, by omega, hj, hc, by omega⟩
  by_cases hex : ∃ k, InCache files ls k
  · obtain ⟨k, hk⟩ := hex
    obtain ⟨i, j, p, h1, h2, hj, hc, h3⟩ := key k hk
    refine ⟨p, fun k' hk' i' q hq => ?_⟩
    obtain ⟨i2, j2, p2, g1, g2, gj, gc, g3⟩ := key k' hk'
    have := ha _ _ _ _ _ g1 hq
    have a1 := C93_partial h i gj gc
    have a2 := C93_partial h i2 hj hc
    omega
  · exact ⟨0, fun k hk => absurd ⟨k, hk⟩ hex⟩

private theorem countP_le_one {l f : List Nat} (hl : l.Nodup) {p : Nat} (h : ∀ k ∈ l, k ∈ f → f[p]? = some k) :
    l.countP (fun k => k ∈ f) ≤ 1 := by
  by_contra hc
  rw [List.countP_eq_length_filter] at hc
  match hm : l.filter (fun k => k ∈ f) with
  | [] => simp [hm] at hc
  | [_] => simp [hm] at hc
  | a :: b :: r =>
    have hn := hl.filter (fun k => decide (k ∈ f))
    rw [hm] at hn
    have ha : a ∈ l.filter (fun k => k ∈ f) := by rw [hm]; simp
    have hb : b ∈ l.filter (fun k => k ∈ f) := by rw [hm]; simp
    simp only [List.mem_filter, decide_eq_true_eq] at ha hb
    have h1 := h a ha.1 ha.2
    have h2 := h b hb.1 hb.2
    rw [h1] at h2
    simp at h2
    simp [h2] at hn

private theorem sum_countP (ks : List Nat) (files : List (List Nat)) :
    (ks.map fun k => files.countP fun f => k ∈ f).sum = (files.map fun f => ks.countP fun k => k ∈ f).sum := by
  induction ks with
  | nil => simp
  | cons k ks ih =>
    rw [List.map_cons, List.sum_cons, ih]
    clear ih
    induction files with
    | nil => simp
    | cons f files ih =>
      rw [List.map_cons, List.map_cons, List.sum_cons, List.sum_cons, ← Nat.add_assoc, List.countP_cons, List.countP_cons]
      omega

/-- **C93** Hence the cache is small: if each frame is in `m` files, it has at most the number of files divided by `m` frames. -/
theorem C93_memory {files : List (List Nat)} (ha : Aligned files) {ls : List Label} {s : State}
    (h : Run (Step (lengths files)) (init 1 files.length) ls s) {ks : List Nat} (hn : ks.Nodup) (hk : ∀ k ∈ ks, InCache files ls k)
    {m : Nat} (hm : ∀ k ∈ ks, m ≤ files.countP fun f => k ∈ f) : ks.length * m ≤ files.length := by
  obtain ⟨p, hp⟩ := C93_cache ha h
  have h1 : ks.length * m ≤ (ks.map fun k => files.countP fun f => k ∈ f).sum := by
    clear hk hn
    induction ks with
    | nil => simp
    | cons k ks ih =>
      have := ih (fun k hk => hm k (by simp [hk]))
      have := hm k (by simp)
      simp only [List.length_cons, List.map_cons, List.sum_cons, Nat.succ_mul]
      omega
  rw [sum_countP] at h1
  have h2 : ∀ f ∈ files, (ks.countP fun k => k ∈ f) ≤ 1 := by
    intro f hf
    obtain ⟨i, hi, rfl⟩ := List.getElem_of_mem hf
    refine countP_le_one hn (p := p) fun k hks hkf => ?_
    obtain ⟨q, hq, hqk⟩ := List.getElem_of_mem hkf
    have : frameAt files i q = some k := by
      unfold frameAt
      rw [List.getD_eq_getElem?_getD, List.getElem?_eq_getElem hi, Option.getD_some, List.getElem?_eq_getElem hq, hqk]
    have := hp k (hk k hks) i q this
    rw [← this, List.getElem?_eq_getElem hq, hqk]
  have h3 : ∀ l : List (List Nat), (∀ f ∈ l, (ks.countP fun k => k ∈ f) ≤ 1) → (l.map fun f => ks.countP fun k => k ∈ f).sum ≤ l.length := by
    intro l
    induction l with
    | nil => simp
    | cons f l ih =>
      intro h
      have := ih fun g hg => h g (by simp [hg])
      have := h f (by simp)
      simp only [List.map_cons, List.sum_cons, List.length_cons]
      omega
  exact Nat.le_trans h1 (h3 _ h2)

/-! ### Several threads -/

private theorem exists_top {q : List Entry} (h : q ≠ []) : ∃ e ∈ q, Top e q := by
  induction q with
  | nil => exact absurd rfl h
  | cons a q ih =>
    by_cases hq : q = []
    · subst hq
      exact ⟨a, by simp, by simp [Top]⟩
    · obtain ⟨e, he, ht⟩ := ih hq
      by_cases hle : a.readCount ≤ e.readCount
      · refine ⟨a, by simp, ?_⟩
        intro x hx
        rcases List.mem_cons.1 hx with rfl | hx
        · exact Nat.le_refl _
        · exact Nat.le_trans hle (ht x hx)
      · refine ⟨e, by simp [he], ?_⟩
        intro x hx
        rcases List.mem_cons.1 hx with rfl | hx
        · omega
        · exact ht x hx

/-- One free thread can read all streams of the queue to their end. -/
private theorem drain {records : Nat → Nat} {w : Worker} {ws : List Worker} (n : Nat) (q : List Entry)
    (hn : (q.map fun e => records e.file - e.readCount + 1).sum ≤ n) :
    ∃ ls, Run (Step records) ⟨q, w :: .free :: ws⟩ ls ⟨[], w :: .free :: ws⟩ := by
  induction n generalizing q with
  | zero =>
    cases q with
    | nil => exact ⟨[], .nil _⟩
    | cons e q => simp at hn
  | succ n ih =>
    by_cases hq : q = []
    · subst hq; exact ⟨[], .nil _⟩
    · obtain ⟨e, he, ht⟩ := exists_top hq
      obtain ⟨a, b, rfl⟩ := List.append_of_mem he
      simp only [List.map_append, List.map_cons, List.sum_append, List.sum_cons] at hn
      by_cases hr : e.readCount < records e.file
      · obtain ⟨ls, hls⟩ := ih (a ++ b ++ [⟨e.file, e.readCount + 1⟩]) (by
          simp only [List.map_append, List.map_cons, List.map_nil, List.sum_append, List.sum_cons, List.sum_nil]
          omega)
        have s1 : Step records ⟨a ++ e :: b, w :: .free :: ws⟩ (.read e.file) ⟨a ++ b, [w] ++ .reading e :: ws⟩ :=
          .read (pre := [w]) rfl rfl ht hr
        have s2 : Step records ⟨a ++ b, [w] ++ .reading e :: ws⟩ (.back e.file) ⟨a ++ b ++ [⟨e.file, e.readCount + 1⟩], [w] ++ .calling :: ws⟩ :=
          .back (pre := [w]) rfl
        have s3 : Step records ⟨a ++ b ++ [⟨e.file, e.readCount + 1⟩], [w] ++ .calling :: ws⟩ .call
            ⟨a ++ b ++ [⟨e.file, e.readCount + 1⟩], [w] ++ .free :: ws⟩ := .call (pre := [w]) rfl
        exact ⟨_, .cons s1 (.cons s2 (.cons s3 hls))⟩
      · obtain ⟨ls, hls⟩ := ih (a ++ b) (by simp only [List.map_append, List.sum_append]; omega)
        have s1 : Step records ⟨a ++ e :: b, w :: .free :: ws⟩ (.close e.file) ⟨a ++ b, w :: .free :: ws⟩ :=
          .close (pre := [w]) rfl rfl ht (by omega)
        exact ⟨_, .cons s1 hls⟩

/-- **C93** is false with two or more threads, for any files: while one thread reads the first record of the first file, the others can read
all other files to their ends. -/
theorem C93_false {threads files : Nat} (ht : 2 ≤ threads) (hf : 0 < files) {records : Nat → Nat} (h0 : 0 < records 0) :
    ∃ ls s, Run (Step records) (init threads files) ls s ∧ reads ls 0 = 1 ∧ .close 0 ∉ ls ∧
      ∀ i, 0 < i → i < files → reads ls i = records i := by
  obtain ⟨n, rfl⟩ : ∃ n, threads = n + 2 := ⟨threads - 2, by omega⟩
  obtain ⟨m, rfl⟩ : ∃ m, files = m + 1 := ⟨files - 1, by omega⟩
  have hi : init (n + 2) (m + 1) = ⟨⟨0, 0⟩ :: (List.range m).map fun i => ⟨i + 1, 0⟩, .free :: .free :: List.replicate n .free⟩ := by
    simp [init, List.replicate_succ, List.range_succ_eq_map, Function.comp_def]
  have s1 : Step records (init (n + 2) (m + 1)) (.read 0) ⟨(List.range m).map fun i => ⟨i + 1, 0⟩,
      .reading ⟨0, 0⟩ :: .free :: List.replicate n .free⟩ := by
    rw [hi]
    refine Step.read (e := ⟨0, 0⟩) (pre := []) (qpre := []) rfl rfl ?_ h0
    intro x _
    exact Nat.zero_le _
  obtain ⟨ls, hls⟩ := drain (records := records) (w := .reading ⟨0, 0⟩) (ws := List.replicate n .free) _
    ((List.range m).map fun i => ⟨i + 1, 0⟩) (Nat.le_refl _)
  have hrun := hls.cons s1
  have I := inv_run hrun
  have hfree : held (List.replicate n .free) = [] := by
    clear hi s1 hls hrun I
    induction n with
    | zero => rfl
    | succ n ih => simpa [List.replicate_succ, held] using ih (by omega)
  have h1 := I.hand ⟨0, 0⟩ (by simp [held])
  have h2 := I.range ⟨0, 0⟩ (by simp [held])
  refine ⟨_, _, hrun, h1.symm, h2.2, fun i hi0 hi => ?_⟩
  refine I.closed i ?_
  by_contra hc
  have := I.live i hi hc
  simp [held, hfree] at this
  omega

/-- **C93** Then every frame of the first file but its first one, which is also in another file, is in the cache: its size is not bounded by
the number of files or threads. -/
theorem C93_memory_false {threads : Nat} (ht : 2 ≤ threads) {f : List Nat} {files : List (List Nat)} (hf : f ≠ []) :
    ∃ ls s, Run (Step (lengths (f :: files))) (init threads (f :: files).length) ls s ∧
      ∀ k ∈ f.drop 1, (∃ g ∈ files, k ∈ g) → InCache (f :: files) ls k := by
  obtain ⟨ls, s, h1, h2, _, h3⟩ := C93_false ht (files := (f :: files).length) (records := lengths (f :: files)) (by simp)
    (by simpa [lengths] using List.length_pos_iff.2 hf)
  refine ⟨ls, s, h1, ?_⟩
  rintro k hk ⟨g, hg, hkg⟩
  constructor
  · obtain ⟨i, hi, rfl⟩ := List.getElem_of_mem hg
    obtain ⟨p, hp, rfl⟩ := List.getElem_of_mem hkg
    refine ⟨i + 1, p, ?_, ?_⟩
    · simp [frameAt, List.getD_eq_getElem?_getD, hi]
    · rw [h3 (i + 1) (by omega) (by simpa using hi)]
      simpa [lengths, List.getD_eq_getElem?_getD, hi] using hp
  · obtain ⟨p, hp, rfl⟩ := List.getElem_of_mem hk
    refine ⟨0, p + 1, ?_, by omega⟩
    simp only [List.length_drop] at hp
    simp only [frameAt, List.getD_cons_zero, List.getElem_drop, Nat.add_comm 1 p]
    rw [List.getElem?_eq_getElem]

/-! ### Examples -/

/-- The four sectors of two modules, with three frames each; the second module lost nothing. -/
private def demoFiles : List (List Nat) := [[0, 2, 4], [0, 2, 4], [0, 2, 4], [0, 2, 4], [1, 3, 5], [1, 3, 5], [1, 3, 5], [1, 3, 5]]

private theorem demo_aligned : Aligned demoFiles := by
  have hp : ∀ i p k, frameAt demoFiles i p = some k → p = k / 2 := by
    intro i p k h
    have hf : demoFiles.getD i [] = [0, 2, 4] ∨ demoFiles.getD i [] = [1, 3, 5] ∨ demoFiles.getD i [] = [] := by
      match i with
      | 0 | 1 | 2 | 3 => simp [demoFiles]
      | 4 | 5 | 6 | 7 => simp [demoFiles]
      | n + 8 => simp [demoFiles]
    unfold frameAt at h
    rcases hf with e | e | e <;> rw [e] at h
    · match p with
      | 0 | 1 | 2 => simp at h; omega
      | n + 3 => simp at h
    · match p with
      | 0 | 1 | 2 => simp at h; omega
      | n + 3 => simp at h
    · simp at h
  intro i j p q k h1 h2
  rw [hp _ _ _ h1, hp _ _ _ h2]

/-- With one thread at most two frames are in the cache; with two threads four frames can be. -/
example : (∀ ls s, Run (Step (lengths demoFiles)) (init 1 8) ls s → ∀ ks : List Nat, ks.Nodup → (∀ k ∈ ks, InCache demoFiles ls k) →
      (∀ k ∈ ks, k < 6) → ks.length ≤ 2) ∧
    ∃ ls s, Run (Step (lengths demoFiles)) (init 2 8) ls s ∧ ∀ k ∈ [2, 4], InCache demoFiles ls k := by
  constructor
  · intro ls s h ks hn hk h6
    have := C93_memory demo_aligned h hn hk (m := 4) (by
      intro k hk
      have := h6 k hk
      match k with
      | 0 | 1 | 2 | 3 | 4 | 5 => decide)
    simp [demoFiles] at this
    omega
  · obtain ⟨ls, s, h1, h2⟩ := C93_memory_false (threads := 2) (f := [0, 2, 4]) (files := demoFiles.tail) (by decide) (by decide)
    exact ⟨ls, s, h1, fun k hk => h2 k hk ⟨[0, 2, 4], by simp [demoFiles], by
      simp at hk
      rcases hk with rfl | rfl <;> simp⟩⟩

/-- The hypotheses of `C93_partial` and `C93_wait` can be met: of two files, the second waits while the first is read. -/
example : ∃ ls ls' s t, Run (Step (lengths [[7, 8], [7, 8]])) (init 1 2) ls s ∧ Run (Step (lengths [[7, 8], [7, 8]])) s ls' t ∧
    ⟨1, 0⟩ ∈ s.queue ∧ reads ls' 0 = 1 ∧ .read 1 ∉ ls' ∧ .close 1 ∉ ls' := by
  have s1 : Step (lengths [[7, 8], [7, 8]]) (init 1 2) (.read 0) ⟨[⟨1, 0⟩], [.reading ⟨0, 0⟩]⟩ :=
    .read (e := ⟨0, 0⟩) (pre := []) (post := []) (qpre := []) (qpost := [⟨1, 0⟩]) rfl rfl (by intro x _; exact Nat.zero_le _) (by decide)
  exact ⟨[], [.read 0], _, _, .nil _, (Run.nil _).snoc s1, by decide, by decide, by decide, by decide⟩

end Stempy.EvenReads
