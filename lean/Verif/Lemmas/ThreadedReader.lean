import Verif.Model.ThreadedReader
import Mathlib.Tactic.ByContra

/-!
Invariant of the threaded reader.
-/

namespace Stempy.ThreadedReader
open Stempy.SectorReader

variable {D : Type}

def items (e : Entry D) : List (Nat × Rec D) := e.rest.map fun r => (e.sector, r)

/-- Records in the hands of a worker: unread ones of its stream, the current one, those of its finished block. -/
def held : Worker D → List (Nat × Rec D)
  | .loop | .next | .eof | .exited => []
  | .got e r | .check e r _ | .lock e r _ | .write e r _ => (e.sector, r) :: items e
  | .count e _ _ | .finish e _ _ => items e
  | .giveback e none => items e
  | .giveback e (some b) => items e ++ b.items
  | .deliver b => b.items

def blockOf : Worker D → Option (Block D)
  | .giveback _ b => b
  | .deliver b => some b
  | _ => none

def refOf : Worker D → Option (Nat × Nat)
  | .check _ r g | .lock _ r g | .write _ r g => some (r.frameNumber, g)
  | .count _ k g | .finish _ k g => some (k, g)
  | _ => none

def needsHead : Worker D → Bool
  | .write .. | .count .. | .finish .. => true
  | _ => false

def counting (k : Nat) : Worker D → Bool
  | .count _ j _ => j == k
  | _ => false

def finishing (k : Nat) : Worker D → Bool
  | .finish _ j _ => j == k
  | _ => false

/-- The worker has taken a stream out of the queue. -/
def holding : Worker D → Bool
  | .loop | .next | .exited | .deliver _ => false
  | _ => true

def placed (s : State D) (k : Nat) : List (Nat × Rec D) :=
  match s.cache k with
  | some o => o.placed
  | none => []

def all (files : List (Entry D)) : List (Nat × Rec D) := files.flatMap items

/-- A block of a frame with the key `b.key`. -/
structure Good (files : List (Entry D)) (b : Block D) : Prop where
  four : b.items.length = 4
  key : ∀ i ∈ b.items, i.2.frameNumber = b.key
  headKey : b.head.frameNumber = b.key
  headMem : ∃ sec, (sec, b.head) ∈ all files

structure Inv (files : List (Entry D)) (s : State D) : Prop where
  safe : s.ub = false
  cons : ∀ k (P : Nat × Rec D → Bool), (∀ i, P i = true → i.2.frameNumber = k) →
    (s.queue.flatMap items).countP P + (s.workers.flatMap held).countP P + (placed s k).countP P +
      (s.delivered.flatMap fun b => b.items).countP P = (all files).countP P
  ref : ∀ w ∈ s.workers, ∀ k g, refOf w = some (k, g) →
    g = s.gen k ∧ ∃ o, s.cache k = some o ∧ (needsHead w = true → o.head ≠ none)
  key : ∀ k o, s.cache k = some o → ∀ i ∈ o.placed, i.2.frameNumber = k
  cnt : ∀ k o, s.cache k = some o → o.count + s.workers.countP (counting k) = o.placed.length
  fin : ∀ k o, s.cache k = some o → s.workers.countP (finishing k) = if o.count = 4 then 1 else 0
  head : ∀ k o r, s.cache k = some o → o.head = some r → r.frameNumber = k ∧ ∃ sec, (sec, r) ∈ all files
  good : ∀ b ∈ s.delivered, Good files b
  goodHeld : ∀ w ∈ s.workers, ∀ b, blockOf w = some b → Good files b
  streams : s.streams = s.queue.length + s.workers.countP holding
  exited : .exited ∈ s.workers → s.streams = 0

theorem inv_init (threads : Nat) (files : List (Entry D)) : Inv files (init threads files) where
  safe := rfl
  cons := by
    intro k P _
    have : ((List.replicate threads (Worker.loop : Worker D)).flatMap held) = [] := by
      rw [List.flatMap_eq_nil_iff]
      intro w hw
      rw [List.eq_of_mem_replicate hw]
      rfl
    simp [init, all, placed, this]
  ref := by
    intro w hw k g h
    rw [List.eq_of_mem_replicate hw] at h
    simp [refOf] at h
  key := by intro k o h; simp [init] at h
  cnt := by intro k o h; simp [init] at h
  fin := by intro k o h; simp [init] at h
  head := by intro k o r h; simp [init] at h
  good := by intro b h; simp [init] at h
  goodHeld := by
    intro w hw b h
    rw [List.eq_of_mem_replicate hw] at h
    simp [blockOf] at h
  streams := by
    have : (List.replicate threads (Worker.loop : Worker D)).countP holding = 0 := by
      rw [List.countP_eq_zero]
      intro w hw
      rw [List.eq_of_mem_replicate hw]
      simp [holding]
    simp [init, this]
  exited := by
    intro h
    have := List.eq_of_mem_replicate h
    simp at this

/-- A step which leaves the cache as it is. -/
theorem Inv.quiet {files : List (Entry D)} {s s' : State D} (I : Inv files s) {pre post : List (Worker D)}
    {w w' : Worker D} (hw : s.workers = pre ++ w :: post) (hw' : s'.workers = pre ++ w' :: post)
    (hcache : s'.cache = s.cache) (hgen : s'.gen = s.gen) (hub : s'.ub = s.ub)
    (hcons : ∀ P : Nat × Rec D → Bool,
      (s'.queue.flatMap items).countP P + (held w').countP P + (s'.delivered.flatMap fun b => b.items).countP P =
      (s.queue.flatMap items).countP P + (held w).countP P + (s.delivered.flatMap fun b => b.items).countP P)
    (hc : ∀ k, counting k w' = counting k w) (hf : ∀ k, finishing k w' = finishing k w)
    (href : ∀ k g, refOf w' = some (k, g) → g = s.gen k ∧ ∃ o, s.cache k = some o ∧
      (needsHead w' = true → o.head ≠ none))
    (hdel : ∀ b, b ∈ s'.delivered → b ∈ s.delivered ∨ blockOf w = some b)
    (hblk : ∀ b, blockOf w' = some b → blockOf w = some b)
    (hstr : s'.streams + (s.queue.length + if holding w = true then 1 else 0) =
      s.streams + (s'.queue.length + if holding w' = true then 1 else 0))
    (hle : s'.streams ≤ s.streams) (hex : w' = .exited → s'.streams = 0) : Inv files s' where
  safe := hub.trans I.safe
  cons := by
    intro k P hP
    have h := I.cons k P hP
    have := hcons P
    rw [hw] at h
    rw [hw']
    simp only [placed, hcache, List.flatMap_append, List.flatMap_cons, List.countP_append] at h ⊢
    omega
  ref := by
    intro x hx k g hr
    rw [hw'] at hx
    rw [hcache, hgen]
    simp only [List.mem_append, List.mem_cons] at hx
    rcases hx with hx | rfl | hx
    · exact I.ref x (by rw [hw]; simp [hx]) k g hr
    · exact href k g hr
    · exact I.ref x (by rw [hw]; simp [hx]) k g hr
  key := by rw [hcache]; exact I.key
  cnt := by
    rw [hcache, hw']
    intro k o h
    have := I.cnt k o h
    rw [hw] at this
    simp only [List.countP_append, List.countP_cons, hc] at this ⊢
    exact this
  fin := by
    rw [hcache, hw']
    intro k o h
    have := I.fin k o h
    rw [hw] at this
    simp only [List.countP_append, List.countP_cons, hf] at this ⊢
    exact this
  head := by rw [hcache]; exact I.head
  good := by
    intro b hb
    rcases hdel b hb with h | h
    · exact I.good b h
    · exact I.goodHeld w (by rw [hw]; simp) b h
  goodHeld := by
    intro x hx b hb
    rw [hw'] at hx
    simp only [List.mem_append, List.mem_cons] at hx
    rcases hx with hx | rfl | hx
    · exact I.goodHeld x (by rw [hw]; simp [hx]) b hb
    · exact I.goodHeld w (by rw [hw]; simp) b (hblk b hb)
    · exact I.goodHeld x (by rw [hw]; simp [hx]) b hb
  streams := by
    have h := I.streams
    rw [hw] at h
    rw [hw']
    simp only [List.countP_append, List.countP_cons] at h ⊢
    omega
  exited := by
    intro h
    rw [hw'] at h
    simp only [List.mem_append, List.mem_cons] at h
    rcases h with h | h | h
    · have := I.exited (by rw [hw]; simp [h]); omega
    · exact hex h.symm
    · have := I.exited (by rw [hw]; simp [h]); omega

/-- Inserting a new object. -/
theorem Inv.insert {files : List (Entry D)} {s : State D} (I : Inv files s) {k0 : Nat} (h0 : s.cache k0 = none) :
    Inv files { s with cache := update s.cache k0 (some ⟨none, [], 0⟩) } := by
  have noref : ∀ w ∈ s.workers, ∀ g, refOf w ≠ some (k0, g) := by
    intro w hw g h
    obtain ⟨_, o, ho, _⟩ := I.ref w hw k0 g h
    rw [h0] at ho
    exact absurd ho (by simp)
  refine ⟨I.safe, ?_, ?_, ?_, ?_, ?_, ?_, I.good, I.goodHeld, I.streams, I.exited⟩
  · intro k P hP
    have h := I.cons k P hP
    simp only [placed, update] at h ⊢
    by_cases hk : k = k0
    · subst hk
      simpa [h0] using h
    · simpa [hk] using h
  · intro w hw k g h
    have hk : k ≠ k0 := fun e => noref w hw g (e ▸ h)
    simpa [update, hk] using I.ref w hw k g h
  · intro k o h
    simp only [update] at h
    split at h
    · simp only [Option.some.injEq] at h; subst h; simp
    · exact I.key k o h
  · intro k o h
    simp only [update] at h
    split at h
    · rename_i hk
      subst hk
      simp only [Option.some.injEq] at h; subst h
      have : s.workers.countP (counting k) = 0 := by
        rw [List.countP_eq_zero]
        intro w hw hc
        cases w <;> simp [counting] at hc
        rename_i e j g
        subst hc
        exact noref _ hw g rfl
      simp [this]
    · exact I.cnt k o h
  · intro k o h
    simp only [update] at h
    split at h
    · rename_i hk
      subst hk
      simp only [Option.some.injEq] at h; subst h
      have : s.workers.countP (finishing k) = 0 := by
        rw [List.countP_eq_zero]
        intro w hw hc
        cases w <;> simp [finishing] at hc
        rename_i e j g
        subst hc
        exact noref _ hw g rfl
      simp [this]
    · exact I.fin k o h
  · intro k o r h hr
    simp only [update] at h
    split at h
    · simp only [Option.some.injEq] at h; subst h; simp at hr
    · exact I.head k o r h hr

/-- A step which changes the object of a key. -/
theorem Inv.change {files : List (Entry D)} {s s' : State D} (I : Inv files s) {pre post : List (Worker D)}
    {w w' : Worker D} {k0 : Nat} {o o' : Obj D} (hw : s.workers = pre ++ w :: post) (ho : s.cache k0 = some o)
    (hs' : s' = { s with cache := update s.cache k0 (some o'), workers := pre ++ w' :: post })
    (hcons : ∀ P : Nat × Rec D → Bool, (∀ i, P i = true → i.2.frameNumber = k0) →
      (held w').countP P + o'.placed.countP P = (held w).countP P + o.placed.countP P)
    (hcons' : ∀ P : Nat × Rec D → Bool, (∀ i, P i = true → i.2.frameNumber ≠ k0) →
      (held w').countP P = (held w).countP P)
    (hkey : ∀ i ∈ o'.placed, i.2.frameNumber = k0)
    (hcnt : o'.count + (if counting k0 w' = true then 1 else 0) + o.placed.length =
      o.count + (if counting k0 w = true then 1 else 0) + o'.placed.length)
    (hfin : (if o'.count = 4 then 1 else 0) + (if finishing k0 w = true then 1 else 0) =
      (if o.count = 4 then 1 else 0) + (if finishing k0 w' = true then 1 else 0))
    (hc : ∀ k, k ≠ k0 → counting k w' = counting k w) (hf : ∀ k, k ≠ k0 → finishing k w' = finishing k w)
    (hhead : o.head ≠ none → o'.head ≠ none)
    (hhead' : ∀ r, o'.head = some r → r.frameNumber = k0 ∧ ∃ sec, (sec, r) ∈ all files)
    (href : ∀ k g, refOf w' = some (k, g) → k = k0 ∧ g = s.gen k0 ∧ (needsHead w' = true → o'.head ≠ none))
    (hblk : blockOf w' = none) (hhold : holding w' = holding w) (hex : w' ≠ .exited) : Inv files s' := by
  have hcache : ∀ k, k ≠ k0 → s'.cache k = s.cache k := by
    intro k hk; subst hs'; simp [update, hk]
  have hcache0 : s'.cache k0 = some o' := by subst hs'; simp [update]
  have hw' : s'.workers = pre ++ w' :: post := by subst hs'; rfl
  have hgen : s'.gen = s.gen := by subst hs'; rfl
  have other : ∀ x, x ∈ s.workers → ∀ k g, refOf x = some (k, g) →
      g = s'.gen k ∧ ∃ o, s'.cache k = some o ∧ (needsHead x = true → o.head ≠ none) := by
    intro x hx k g hr
    obtain ⟨h1, p, h2, h3⟩ := I.ref x hx k g hr
    rw [hgen]
    refine ⟨h1, ?_⟩
    by_cases hk : k = k0
    · subst hk
      rw [ho] at h2
      obtain rfl := Option.some.inj h2
      exact ⟨o', hcache0, fun h => hhead (h3 h)⟩
    · exact ⟨p, (hcache k hk).trans h2, h3⟩
  refine ⟨by subst hs'; exact I.safe, ?_, ?_, ?_, ?_, ?_, ?_, by subst hs'; exact I.good, ?_, ?_, ?_⟩
  · intro k P hP
    have h := I.cons k P hP
    rw [hw'] 
    rw [hw] at h
    have hq : s'.queue = s.queue := by subst hs'; rfl
    have hd : s'.delivered = s.delivered := by subst hs'; rfl
    rw [hq, hd]
    simp only [List.flatMap_append, List.flatMap_cons, List.countP_append] at h ⊢
    by_cases hk : k = k0
    · subst hk
      have := hcons P hP
      simp only [placed, ho, hcache0] at h ⊢
      omega
    · have := hcons' P (fun i hi e => hk ((hP i hi).symm.trans e))
      simp only [placed, hcache k hk] at h ⊢
      omega
  · intro x hx k g hr
    rw [hw'] at hx
    simp only [List.mem_append, List.mem_cons] at hx
    rcases hx with hx | rfl | hx
    · exact other x (by rw [hw]; simp [hx]) k g hr
    · obtain ⟨rfl, h2, h3⟩ := href k g hr
      exact ⟨by rw [hgen]; exact h2, o', hcache0, h3⟩
    · exact other x (by rw [hw]; simp [hx]) k g hr
  · intro k p h
    by_cases hk : k = k0
    · subst hk
      rw [hcache0] at h
      obtain rfl := Option.some.inj h
      exact hkey
    · rw [hcache k hk] at h
      exact I.key k p h
  · intro k p h
    rw [hw']
    by_cases hk : k = k0
    · subst hk
      rw [hcache0] at h
      obtain rfl := Option.some.inj h
      have := I.cnt k o ho
      rw [hw] at this
      simp only [List.countP_append, List.countP_cons] at this ⊢
      omega
    · rw [hcache k hk] at h
      have := I.cnt k p h
      rw [hw] at this
      simp only [List.countP_append, List.countP_cons, hc k hk] at this ⊢
      exact this
  · intro k p h
    rw [hw']
    by_cases hk : k = k0
    · subst hk
      rw [hcache0] at h
      obtain rfl := Option.some.inj h
      have := I.fin k o ho
      rw [hw] at this
      simp only [List.countP_append, List.countP_cons] at this ⊢
      omega
    · rw [hcache k hk] at h
      have := I.fin k p h
      rw [hw] at this
      simp only [List.countP_append, List.countP_cons, hf k hk] at this ⊢
      exact this
  · intro k p r h hr
    by_cases hk : k = k0
    · subst hk
      rw [hcache0] at h
      obtain rfl := Option.some.inj h
      exact hhead' r hr
    · rw [hcache k hk] at h
      exact I.head k p r h hr
  · intro x hx b hb
    rw [hw'] at hx
    simp only [List.mem_append, List.mem_cons] at hx
    rcases hx with hx | rfl | hx
    · exact I.goodHeld x (by rw [hw]; simp [hx]) b hb
    · rw [hblk] at hb; simp at hb
    · exact I.goodHeld x (by rw [hw]; simp [hx]) b hb
  · have h := I.streams
    rw [hw] at h
    rw [hw']
    have hq : s'.queue = s.queue := by subst hs'; rfl
    have hst : s'.streams = s.streams := by subst hs'; rfl
    simp only [List.countP_append, List.countP_cons, hhold, hq, hst] at h ⊢
    exact h
  · intro h
    have hst : s'.streams = s.streams := by subst hs'; rfl
    rw [hw'] at h
    rw [hst]
    simp only [List.mem_append, List.mem_cons] at h
    rcases h with h | h | h
    · exact I.exited (by rw [hw]; simp [h])
    · exact absurd h.symm hex
    · exact I.exited (by rw [hw]; simp [h])

/-- No key has more than four records. -/
def AtMostFour (files : List (Entry D)) : Prop :=
  ∀ k, (all files).countP (fun i => i.2.frameNumber = k) ≤ 4

theorem Inv.mem_all {files : List (Entry D)} {s : State D} (I : Inv files s) {w : Worker D} (hw : w ∈ s.workers)
    {i : Nat × Rec D} (hi : i ∈ held w) : i ∈ all files := by
  classical
  have h := I.cons i.2.frameNumber (fun j => decide (j = i)) (by intro j hj; simp at hj; rw [hj])
  have : 0 < (s.workers.flatMap held).countP (fun j => decide (j = i)) := by
    rw [List.countP_pos_iff]
    exact ⟨i, List.mem_flatMap.2 ⟨w, hw, hi⟩, by simp⟩
  have : 0 < (all files).countP (fun j => decide (j = i)) := by omega
  rw [List.countP_pos_iff] at this
  obtain ⟨j, hj, e⟩ := this
  simp at e
  exact e ▸ hj

private theorem countP_key (l : List (Nat × Rec D)) (k : Nat) (h : ∀ i ∈ l, i.2.frameNumber = k) :
    l.countP (fun i => i.2.frameNumber = k) = l.length := by
  rw [List.countP_eq_length]
  intro i hi
  simp [h i hi]

/-- The counts of an object never exceed those of the files. -/
theorem Inv.bound {files : List (Entry D)} {s : State D} (I : Inv files s) {k : Nat}
    (h4 : (all files).countP (fun i => i.2.frameNumber = k) ≤ 4) {o : Obj D} (ho : s.cache k = some o) :
    (s.workers.flatMap held).countP (fun i => i.2.frameNumber = k) + o.placed.length ≤ 4 := by
  have h := I.cons k (fun i => i.2.frameNumber = k) (by simp)
  rw [placed, ho] at h
  simp only at h
  rw [countP_key _ _ (I.key k o ho)] at h
  omega

theorem Inv.deref_some {files : List (Entry D)} {s : State D} (I : Inv files s) {w : Worker D}
    (hw : w ∈ s.workers) {k g : Nat} (hr : refOf w = some (k, g)) :
    ∃ o, deref s k g = some o ∧ s.cache k = some o ∧ g = s.gen k ∧ (needsHead w = true → o.head ≠ none) := by
  obtain ⟨rfl, o, h2, h3⟩ := I.ref w hw k g hr
  exact ⟨o, by simp [deref, h2], h2, rfl, h3⟩

theorem deref_cache {s : State D} {k g : Nat} {o : Obj D} (h : deref s k g = some o) : s.cache k = some o ∧
    s.gen k = g := by
  unfold deref at h
  split at h
  · exact ⟨h, by assumption⟩
  · simp at h

theorem flatMap_remove {α β : Type} (f : α → List β) (P : β → Bool) (pre post : List α) (a : α) :
    ((pre ++ a :: post).flatMap f).countP P = ((pre ++ post).flatMap f).countP P + (f a).countP P := by
  simp only [List.flatMap_append, List.flatMap_cons, List.countP_append]
  omega

/-- The file has a record of the frame. -/
def entryHas (k : Nat) (e : Entry D) : Bool := e.rest.any fun r => decide (r.frameNumber = k)

/-- The worker holds a record of the frame, or a file with one. -/
def touch (k : Nat) : Worker D → Bool
  | .got e r | .check e r _ | .lock e r _ | .write e r _ => decide (r.frameNumber = k) || entryHas k e
  | .count e j _ | .finish e j _ => decide (j = k) || entryHas k e
  | .giveback e _ => entryHas k e
  | _ => false

theorem touch_ref {k g : Nat} {w : Worker D} (h : refOf w = some (k, g)) : touch k w = true := by
  cases w <;> simp only [refOf, Option.some.injEq, Prod.mk.injEq, reduceCtorEq] at h <;> simp [touch, h.1]

theorem touch_finishing {k : Nat} {w : Worker D} (h : finishing k w = true) : touch k w = true := by
  cases w <;> simp only [finishing, Bool.false_eq_true] at h
  simp at h
  simp [touch, h]

theorem alone {k : Nat} {w : Worker D} {ws pre post : List (Worker D)} (hw : ws = pre ++ w :: post) (ht : touch k w = true)
    (h : ws.countP (touch k) ≤ 1) : ∀ x, x ∈ pre ∨ x ∈ post → touch k x = false := by
  rw [hw, List.countP_append, List.countP_cons, if_pos ht] at h
  intro x hx
  by_contra hne
  rw [Bool.not_eq_false] at hne
  rcases hx with hx | hx
  · have := List.countP_pos_iff.2 ⟨x, hx, hne⟩
    omega
  · have := List.countP_pos_iff.2 ⟨x, hx, hne⟩
    omega

/-- A worker which counts a record alone has not found the frame complete. -/
theorem count_ne {files : List (Entry D)} {s : State D} (I : Inv files s) {k g : Nat} {e : Entry D} {pre post : List (Worker D)} {o : Obj D}
    (hw : s.workers = pre ++ .count e k g :: post) (hc : s.cache k = some o) (h1 : s.workers.countP (touch k) ≤ 1) : o.count ≠ 4 := by
  intro h
  have hfin := I.fin k o hc
  rw [if_pos h] at hfin
  obtain ⟨x, hx, hf⟩ := List.countP_pos_iff.1 (show 0 < s.workers.countP (finishing k) by omega)
  rw [hw] at hx
  simp only [List.mem_append, List.mem_cons] at hx
  have ha := alone hw (by simp [touch]) h1
  rcases hx with hx | rfl | hx
  · exact absurd (ha x (.inl hx)) (by simp [touch_finishing hf])
  · simp [finishing] at hf
  · exact absurd (ha x (.inr hx)) (by simp [touch_finishing hf])

/-- Each frame has at most four records, or its records are in one file. -/
theorem inv_step_or {files : List (Entry D)} {s s' : State D} {l : Label}
    (h4 : ∀ k, (all files).countP (fun i => i.2.frameNumber = k) ≤ 4 ∨ s.workers.countP (touch k) ≤ 1)
    (I : Inv files s) (h : Step s l s') : Inv files s' := by
  cases h with
  | @exit pre post hw h0 =>
    exact I.quiet hw rfl rfl rfl rfl (by intro P; simp [held]) (fun _ => rfl) (fun _ => rfl) (by simp [refOf])
      (fun _ h => .inl h) (by simp [blockOf]) (by simp [holding]) (Nat.le_refl _) (fun _ => h0)
  | @test pre post hw h0 =>
    exact I.quiet hw rfl rfl rfl rfl (by intro P; simp [held]) (fun _ => rfl) (fun _ => rfl) (by simp [refOf])
      (fun _ h => .inl h) (by simp [blockOf]) (by simp [holding]) (Nat.le_refl _) (by simp)
  | @miss pre post hw h0 =>
    exact I.quiet hw rfl rfl rfl rfl (by intro P; simp [held]) (fun _ => rfl) (fun _ => rfl) (by simp [refOf])
      (fun _ h => .inl h) (by simp [blockOf]) (by simp [holding]) (Nat.le_refl _) (by simp)
  | @takeEnd pre post qpre qpost sector hw hq =>
    exact I.quiet hw rfl rfl rfl rfl (by intro P; rw [hq, flatMap_remove]; simp [held, items]) (fun _ => rfl)
      (fun _ => rfl) (by simp [refOf]) (fun _ h => .inl h) (by simp [blockOf])
      (by simp only [hq, holding, List.length_append, List.length_cons]; simp; omega) (Nat.le_refl _) (by simp)
  | @take pre post qpre qpost sector r rest hw hq =>
    exact I.quiet hw rfl rfl rfl rfl
      (by intro P; rw [hq, flatMap_remove]; simp [held, items, List.countP_cons]) (fun _ => rfl)
      (fun _ => rfl) (by simp [refOf]) (fun _ h => .inl h) (by simp [blockOf])
      (by simp only [hq, holding, List.length_append, List.length_cons]; simp; omega) (Nat.le_refl _) (by simp)
  | @close pre post hw =>
    have hpos : 0 < s.streams := by
      have := I.streams
      rw [hw] at this
      simp only [List.countP_append, List.countP_cons, holding] at this
      simp at this
      omega
    exact I.quiet hw rfl rfl rfl rfl (by intro P; simp [held]) (fun _ => rfl) (fun _ => rfl) (by simp [refOf])
      (fun _ h => .inl h) (by simp [blockOf]) (by simp [holding]; omega) (Nat.sub_le _ _) (by simp)
  | @lookup pre post e r hw =>
    cases hc : s.cache r.frameNumber with
    | some o =>
      have hid : update s.cache r.frameNumber (some ((some o).getD ⟨none, [], 0⟩)) = s.cache := by
        funext k
        simp only [update]
        split
        · rename_i hk; subst hk; simp [hc]
        · rfl
      rw [hid]
      refine I.quiet hw rfl rfl rfl rfl (by intro P; simp [held]) (fun _ => rfl) (fun _ => rfl) ?_
        (fun _ h => .inl h) (by simp [blockOf]) (by simp [holding]) (Nat.le_refl _) (by simp)
      intro k g hr
      simp only [refOf, Option.some.injEq, Prod.mk.injEq] at hr
      obtain ⟨rfl, rfl⟩ := hr
      exact ⟨rfl, o, hc, by simp [needsHead]⟩
    | none =>
      refine (I.insert hc).quiet (w := .got e r) (w' := .check e r (s.gen r.frameNumber)) hw rfl ?_ rfl rfl
        (by intro P; simp [held]) (fun _ => rfl) (fun _ => rfl) ?_
        (fun _ h => .inl h) (by simp [blockOf]) (by simp [holding]) (Nat.le_refl _) (by simp)
      · rfl
      · intro k g hr
        simp only [refOf, Option.some.injEq, Prod.mk.injEq] at hr
        obtain ⟨rfl, rfl⟩ := hr
        exact ⟨rfl, ⟨none, [], 0⟩, by simp [update], by simp [needsHead]⟩
  | @checkNull pre post e r g o hw hd hn =>
    obtain ⟨hc, rfl⟩ := deref_cache hd
    refine I.quiet hw rfl rfl rfl rfl (by intro P; simp [held]) (fun _ => rfl) (fun _ => rfl) ?_
      (fun _ h => .inl h) (by simp [blockOf]) (by simp [holding]) (Nat.le_refl _) (by simp)
    intro k g hr
    simp only [refOf, Option.some.injEq, Prod.mk.injEq] at hr
    obtain ⟨rfl, rfl⟩ := hr
    exact ⟨rfl, o, hc, by simp [needsHead]⟩
  | @checkData pre post e r g o hw hd hn =>
    obtain ⟨hc, rfl⟩ := deref_cache hd
    refine I.quiet hw rfl rfl rfl rfl (by intro P; simp [held]) (fun _ => rfl) (fun _ => rfl) ?_
      (fun _ h => .inl h) (by simp [blockOf]) (by simp [holding]) (Nat.le_refl _) (by simp)
    intro k g hr
    simp only [refOf, Option.some.injEq, Prod.mk.injEq] at hr
    obtain ⟨rfl, rfl⟩ := hr
    exact ⟨rfl, o, hc, fun _ => hn⟩
  | @allocate pre post e r g o hw hd =>
    obtain ⟨hc, rfl⟩ := deref_cache hd
    refine I.change hw hc rfl (by intro P _; simp [held]) (by intro P _; simp [held]) (I.key _ o hc) rfl rfl
      (fun _ _ => rfl) (fun _ _ => rfl) (by simp) ?_ ?_ rfl rfl (by simp)
    · intro r' hr'
      cases hh : o.head with
      | some r0 =>
        rw [hh] at hr'
        simp at hr'
        subst hr'
        exact I.head _ o _ hc hh
      | none =>
        rw [hh] at hr'
        simp at hr'
        subst hr'
        exact ⟨rfl, e.sector, I.mem_all (w := .lock e r (s.gen r.frameNumber)) (by rw [hw]; simp) (by simp [held])⟩
    · intro k g hr
      simp only [refOf, Option.some.injEq, Prod.mk.injEq] at hr
      exact ⟨hr.1.symm, hr.2.symm, by simp⟩
  | @write pre post e r g o hw hd hn =>
    obtain ⟨hc, rfl⟩ := deref_cache hd
    refine I.change hw hc rfl ?_ ?_ ?_ ?_ rfl ?_ (fun _ _ => rfl) (fun h => h) (fun r' => I.head _ o r' hc) ?_
      rfl rfl (by simp)
    · intro P _
      simp only [held, List.countP_cons, List.countP_append, List.countP_nil]
      omega
    · intro P hP
      have : P (e.sector, r) = false := by
        by_contra hne
        exact hP (e.sector, r) (by simpa using hne) rfl
      simp [held, this]
    · intro i hi
      simp only [List.mem_append, List.mem_singleton] at hi
      rcases hi with hi | rfl
      · exact I.key _ o hc i hi
      · rfl
    · simp [counting]; omega
    · intro k hk
      simp [counting]
      exact fun h => hk h.symm
    · intro k g hr
      simp only [refOf, Option.some.injEq, Prod.mk.injEq] at hr
      exact ⟨hr.1.symm, hr.2.symm, fun _ => hn⟩
  | @count pre post e k g o hw hd hn =>
    obtain ⟨hc, rfl⟩ := deref_cache hd
    have hne : o.count ≠ 4 := by
      rcases h4 k with h4 | h1
      · have hb := I.bound h4 hc
        have hcnt := I.cnt k o hc
        rw [hw] at hcnt
        simp [List.countP_append, counting] at hcnt
        omega
      · exact count_ne I hw hc h1
    refine I.change hw hc rfl (by intro P _; simp [held]) (by intro P _; simp [held]) (I.key _ o hc) ?_ ?_ ?_
      (fun _ _ => rfl) (fun h => h) (fun r' => I.head _ o r' hc) ?_ rfl rfl (by simp)
    · simp [counting]
    · simp [finishing, hn, hne]
    · intro j hj
      simp [counting]
      exact fun h => hj h.symm
    · intro j g hr
      simp [refOf] at hr
  | @countFour pre post e k g o hw hd hn =>
    obtain ⟨hc, rfl⟩ := deref_cache hd
    have hhead : o.head ≠ none := by
      obtain ⟨_, o', ho', hh⟩ := I.ref (.count e k (s.gen k)) (by rw [hw]; simp) k _ rfl
      rw [hc] at ho'
      obtain rfl := Option.some.inj ho'
      exact hh rfl
    refine I.change hw hc rfl (by intro P _; simp [held]) (by intro P _; simp [held]) (I.key _ o hc) ?_ ?_ ?_ ?_
      (fun h => h) (fun r' => I.head _ o r' hc) ?_ rfl rfl (by simp)
    · simp [counting]
    · have : o.count ≠ 4 := by omega
      simp [finishing, hn, this]
    · intro j hj
      simp [counting]
      exact fun h => hj h.symm
    · intro j hj
      simp [finishing]
      exact fun h => hj h.symm
    · intro j g hr
      simp only [refOf, Option.some.injEq, Prod.mk.injEq] at hr
      exact ⟨hr.1.symm, hr.2.symm, fun _ => hhead⟩
  | @finish pre post e k g o head hw hd hn =>
    obtain ⟨hc, rfl⟩ := deref_cache hd
    have hcnt := I.cnt k o hc
    have hfin := I.fin k o hc
    have hcount : o.count = 4 := by
      by_contra hne
      rw [hw, if_neg hne, List.countP_eq_zero] at hfin
      have := hfin (.finish e k (s.gen k)) (by simp)
      simp [finishing] at this
    -- no other worker refers to the object
    obtain ⟨hlen, other⟩ : o.placed.length = 4 ∧ ∀ x, x ∈ pre ∨ x ∈ post → ∀ g, refOf x ≠ some (k, g) := by
      rcases h4 k with h4 | h1
      · have hb := I.bound h4 hc
        have hlen : o.placed.length = 4 := by omega
        have hzc : s.workers.countP (counting k) = 0 := by omega
        have hzh : (s.workers.flatMap held).countP (fun i => decide (i.2.frameNumber = k)) = 0 := by omega
        refine ⟨hlen, ?_⟩
        intro x hx g hr
        have hxm : x ∈ s.workers := by
          rw [hw]; rcases hx with h | h <;> simp [h]
        rw [List.countP_eq_zero] at hzc hzh
        have h1 := hzc x hxm
        have hfin1 : finishing k x = false := by
          rw [hw, if_pos hcount] at hfin
          simp only [List.countP_append, List.countP_cons, finishing] at hfin
          simp at hfin
          rcases hx with hx | hx
          · have : pre.countP (finishing k) = 0 := by omega
            rw [List.countP_eq_zero] at this
            simpa using this x hx
          · have : post.countP (finishing k) = 0 := by omega
            rw [List.countP_eq_zero] at this
            simpa using this x hx
        cases x <;> simp only [refOf, Option.some.injEq, Prod.mk.injEq, reduceCtorEq] at hr
        · have := hzh _ (List.mem_flatMap.2 ⟨_, hxm, List.mem_cons_self⟩)
          simp [hr.1] at this
        · have := hzh _ (List.mem_flatMap.2 ⟨_, hxm, List.mem_cons_self⟩)
          simp [hr.1] at this
        · have := hzh _ (List.mem_flatMap.2 ⟨_, hxm, List.mem_cons_self⟩)
          simp [hr.1] at this
        · simp [counting, hr.1] at h1
        · simp [finishing, hr.1] at hfin1
      · have ha := alone hw (by simp [touch]) h1
        have hzc : s.workers.countP (counting k) = 0 := by
          rw [List.countP_eq_zero]
          intro x hx hcx
          rw [hw] at hx
          simp only [List.mem_append, List.mem_cons] at hx
          have htx : touch k x = true := by
            cases x <;> simp only [counting, Bool.false_eq_true] at hcx
            simp at hcx
            simp [touch, hcx]
          rcases hx with hx | rfl | hx
          · rw [ha x (.inl hx)] at htx
            cases htx
          · simp [counting] at hcx
          · rw [ha x (.inr hx)] at htx
            cases htx
        refine ⟨by omega, fun x hx g hr => ?_⟩
        have := ha x hx
        rw [touch_ref hr] at this
        cases this
    have hgood : Good files ⟨k, head, o.placed⟩ :=
      ⟨hlen, I.key k o hc, (I.head k o head hc hn).1, (I.head k o head hc hn).2⟩
    refine ⟨I.safe, ?_, ?_, ?_, ?_, ?_, ?_, I.good, ?_, ?_, ?_⟩
    · intro j P hP
      have h := I.cons j P hP
      rw [hw] at h
      simp only [List.flatMap_append, List.flatMap_cons, List.countP_append, held] at h ⊢
      by_cases hj : j = k
      · subst hj
        simp only [placed, hc, update, if_true, List.countP_nil] at h ⊢
        omega
      · have : o.placed.countP P = 0 := by
          rw [List.countP_eq_zero]
          intro i hi hPi
          exact hj ((hP i hPi).symm.trans (I.key k o hc i hi))
        simp only [placed, update, if_neg hj] at h ⊢
        omega
    · intro x hx j g hr
      simp only [List.mem_append, List.mem_cons] at hx
      have hx' : x ∈ pre ∨ x ∈ post := by
        rcases hx with hx | rfl | hx
        · exact .inl hx
        · simp [refOf] at hr
        · exact .inr hx
      have hj : j ≠ k := fun e => other x hx' g (e ▸ hr)
      have := I.ref x (by rw [hw]; rcases hx' with h | h <;> simp [h]) j g hr
      simpa [update, hj] using this
    · intro j p h
      simp only [update] at h
      split at h
      · simp at h
      · exact I.key j p h
    · intro j p h
      simp only [update] at h
      split at h
      · simp at h
      · have := I.cnt j p h
        rw [hw] at this
        simpa [List.countP_append, List.countP_cons, counting] using this
    · intro j p h
      simp only [update] at h
      split at h
      · simp at h
      · rename_i hj
        have := I.fin j p h
        rw [hw] at this
        simp only [List.countP_append, List.countP_cons, finishing] at this ⊢
        have hkj : ¬ k = j := fun h => hj h.symm
        simpa [hkj] using this
    · intro j p r h hr
      simp only [update] at h
      split at h
      · simp at h
      · exact I.head j p r h hr
    · intro x hx b hb
      simp only [List.mem_append, List.mem_cons] at hx
      rcases hx with hx | rfl | hx
      · exact I.goodHeld x (by rw [hw]; simp [hx]) b hb
      · simp only [blockOf, Option.some.injEq] at hb
        exact hb ▸ hgood
      · exact I.goodHeld x (by rw [hw]; simp [hx]) b hb
    · have h := I.streams
      rw [hw] at h
      simpa [List.countP_append, List.countP_cons, holding] using h
    · intro h
      simp only [List.mem_append, List.mem_cons, reduceCtorEq, false_or] at h
      exact I.exited (by rw [hw]; simpa using h)
  | @giveback pre post e hw =>
    exact I.quiet hw rfl rfl rfl rfl
      (by intro P; simp [held, List.flatMap_append, List.countP_append]) (fun _ => rfl)
      (fun _ => rfl) (by simp [refOf]) (fun _ h => .inl h) (by simp [blockOf])
      (by simp [holding]) (Nat.le_refl _) (by simp)
  | @givebackBlock pre post e b hw =>
    exact I.quiet hw rfl rfl rfl rfl
      (by intro P; simp [held, List.flatMap_append, List.countP_append]; omega) (fun _ => rfl)
      (fun _ => rfl) (by simp [refOf]) (fun _ h => .inl h) (by simp [blockOf])
      (by simp [holding]) (Nat.le_refl _) (by simp)
  | @deliver pre post b hw =>
    exact I.quiet hw rfl rfl rfl rfl
      (by intro P; simp [held, List.flatMap_append, List.countP_append]; omega) (fun _ => rfl)
      (fun _ => rfl) (by simp [refOf])
      (by
        intro b' hb
        simp only [List.mem_append, List.mem_singleton] at hb
        rcases hb with hb | rfl
        · exact .inl hb
        · exact .inr rfl)
      (by simp [blockOf])
      (by simp [holding]) (Nat.le_refl _) (by simp)
  | @bad pre post w k g hw hr hd =>
    exfalso
    have href : refOf w = some (k, g) := by
      rcases hr with ⟨e, r, h | h | h, rfl⟩ | ⟨e, h | h⟩ <;> subst h <;> rfl
    obtain ⟨o, h1, _⟩ := I.deref_some (by rw [hw]; simp) href
    rw [h1] at hd
    simp at hd
  | @badNull pre post w k g o hw hr hd hn =>
    exfalso
    have href : refOf w = some (k, g) ∧ needsHead w = true := by
      rcases hr with ⟨e, r, h, rfl⟩ | ⟨e, h⟩ <;> subst h <;> exact ⟨rfl, rfl⟩
    obtain ⟨o', h1, h2, h3, h5⟩ := I.deref_some (by rw [hw]; simp) href.1
    rw [h1] at hd
    obtain rfl := Option.some.inj hd
    exact h5 href.2 hn

/-- The files in which a frame has a record, whoever holds them. -/
def open_ (k : Nat) (s : State D) : Nat := s.queue.countP (entryHas k) + s.workers.countP (touch k)

theorem open_change {s s' : State D} {pre post : List (Worker D)} {w w' : Worker D} {k : Nat} (hw : s.workers = pre ++ w :: post)
    (hw' : s'.workers = pre ++ w' :: post) (h : s'.queue.countP (entryHas k) + (if touch k w' = true then 1 else 0) ≤
      s.queue.countP (entryHas k) + (if touch k w = true then 1 else 0)) : open_ k s' ≤ open_ k s := by
  simp only [open_, hw, hw', List.countP_append, List.countP_cons]
  omega

theorem or_le (a b : Bool) : (if b = true then 1 else 0) ≤ (if (a || b) = true then 1 else 0) := by
  cases a <;> cases b <;> simp

theorem open_step {s s' : State D} {l : Label} (h : Step s l s') (k : Nat) : open_ k s' ≤ open_ k s := by
  cases h with
  | exit hw | test hw | miss hw | close hw | lookup hw | checkNull hw | checkData hw | allocate hw | write hw | countFour hw
  | deliver hw => exact open_change hw rfl (Nat.le_refl _)
  | finish hw | count hw => exact open_change hw rfl (Nat.add_le_add_left (or_le _ _) _)
  | takeEnd hw hq =>
    refine open_change hw rfl ?_
    rw [hq]
    simp [touch, entryHas]
  | @take pre post qpre qpost sector r rest hw hq =>
    refine open_change hw rfl ?_
    have e : entryHas k ⟨sector, r :: rest⟩ = touch k (.got ⟨sector, rest⟩ r) := rfl
    simp only [hq, List.countP_append, List.countP_cons, e]
    generalize touch k (.got ⟨sector, rest⟩ r) = b
    cases b <;> simp [touch]
    omega
  | @giveback pre post e hw =>
    refine open_change hw rfl ?_
    cases h : entryHas k e <;> simp [List.countP_append, touch, h]
  | @givebackBlock pre post e b hw =>
    refine open_change hw rfl ?_
    cases h : entryHas k e <;> simp [List.countP_append, touch, h]
  | bad | badNull => exact Nat.le_refl _

theorem inv_step {files : List (Entry D)} (h4 : AtMostFour files) {s s' : State D} {l : Label}
    (I : Inv files s) (h : Step s l s') : Inv files s' := inv_step_or (fun k => .inl (h4 k)) I h

end Stempy.ThreadedReader
