import Verif.Lemmas.HeaderPass

/-!
Invariant of the processing pass of the multi-pass reader.
-/

namespace Stempy.MultiPass
open Stempy.SectorReader (Rec)

variable {D : Type}

/-- Data of the sectors `0`, ..., `j - 1` of a frame. -/
def sectorData (files : List (File D)) (a : Sectors) (j : Nat) : List (Nat × D) :=
  (List.range j).flatMap fun j =>
    match a j with
    | none => []
    | some loc => ((dataAt files loc.stream loc.offset).map fun d => (j, d)).toList

def sectorCount (a : Sectors) (j : Nat) : Nat := ((List.range j).filter fun j => (a j).isSome).length

theorem sectorData_succ (files : List (File D)) (a : Sectors) (j : Nat) :
    sectorData files a (j + 1) = sectorData files a j ++
      match a j with
      | none => []
      | some loc => ((dataAt files loc.stream loc.offset).map fun d => (j, d)).toList := by
  simp [sectorData, List.range_succ, List.flatMap_append]

theorem sectorCount_succ (a : Sectors) (j : Nat) :
    sectorCount a (j + 1) = sectorCount a j + if (a j).isSome = true then 1 else 0 := by
  simp only [sectorCount, List.range_succ, List.filter_append, List.length_append]
  congr 1
  cases h : a j <;> simp [h]

/-- Frames that a worker still has to deliver. -/
def pheld : PWorker D → List (Nat × Nat)
  | .test | .fetch | .exited => []
  | .image p fs => fs.map fun f => (p, f)
  | .sector p f fs .. | .seek p f fs .. | .read p f fs .. => (p, f) :: fs.map fun f => (p, f)

/-- Frames of the positions `lo`, ..., `hi - 1`. -/
def frames (map : ScanMap) (lo hi : Nat) : List (Nat × Nat) :=
  (List.range' lo (hi - lo)).flatMap fun p => (map p).keys.map fun f => (p, f)

/-- The stream locked by the worker. -/
def holds (i : Nat) : PWorker D → Bool
  | .seek _ _ _ _ _ _ loc | .read _ _ _ _ _ _ loc => loc.stream == i
  | _ => false

/-- What a worker knows. -/
def Fine (files : List (File D)) (map : ScanMap) (s : PState D) : PWorker D → Prop
  | .test | .fetch | .exited => True
  | .image p fs => ∀ f ∈ fs, ∃ a, (map p).get f = some a
  | .sector p f fs j n acc => (∀ f ∈ fs, ∃ a, (map p).get f = some a) ∧ j ≤ 4 ∧
    ∃ a, (map p).get f = some a ∧ acc = sectorData files a j ∧ n = sectorCount a j
  | .seek p f fs j n acc loc => (∀ f ∈ fs, ∃ a, (map p).get f = some a) ∧ j < 4 ∧
    ∃ a, (map p).get f = some a ∧ acc = sectorData files a j ∧ n = sectorCount a j ∧ a j = some loc
  | .read p f fs j n acc loc => (∀ f ∈ fs, ∃ a, (map p).get f = some a) ∧ j < 4 ∧ s.at_ loc.stream = loc.offset ∧
    ∃ a, (map p).get f = some a ∧ acc = sectorData files a j ∧ n = sectorCount a j ∧ a j = some loc

structure PInv (files : List (File D)) (map : ScanMap) (lo hi : Nat) (s : PState D) : Prop where
  perm : (s.delivered.map (fun b => (b.pos, b.frame)) ++ s.workers.flatMap pheld ++
    frames map s.processed hi).Perm (frames map lo hi)
  good : ∀ b ∈ s.delivered, ∃ a, (map b.pos).get b.frame = some a ∧ b = processFrame files a b.pos b.frame
  lock : ∀ i, s.workers.countP (holds i) = if s.locks i = true then 1 else 0
  fine : ∀ w ∈ s.workers, Fine files map s w
  exited : .exited ∈ s.workers → hi ≤ s.processed

theorem pinv_init (files : List (File D)) (map : ScanMap) (threads lo hi : Nat) (at_ : Nat → Nat) :
    PInv files map lo hi (pinit threads lo at_) := by
  have hall : ∀ w ∈ (pinit threads lo at_ : PState D).workers, w = .test := by
    intro w hw
    exact List.eq_of_mem_replicate hw
  have hh : (pinit threads lo at_ : PState D).workers.flatMap pheld = [] := by
    rw [List.flatMap_eq_nil_iff]
    intro w hw
    rw [hall w hw]
    rfl
  refine ⟨?_, ?_, ?_, ?_, ?_⟩
  · rw [hh]; exact List.Perm.refl _
  · intro b hb; simp [pinit] at hb
  · intro i
    have : (pinit threads lo at_ : PState D).workers.countP (holds i) = 0 := by
      rw [List.countP_eq_zero]
      intro w hw
      rw [hall w hw]
      simp [holds]
    rw [this]
    simp [pinit]
  · intro w hw
    rw [hall w hw]
    trivial
  · intro h; have := hall _ h; simp at this

theorem frames_ge (map : ScanMap) {p hi : Nat} (h : hi ≤ p) : frames map p hi = [] := by
  have : hi - p = 0 := by omega
  simp [frames, this]

theorem frames_lt (map : ScanMap) {p hi : Nat} (h : p < hi) :
    frames map p hi = ((map p).keys.map fun f => (p, f)) ++ frames map (p + 1) hi := by
  obtain ⟨n, hn⟩ : ∃ n, hi - p = n + 1 := ⟨hi - p - 1, by omega⟩
  have h2 : hi - (p + 1) = n := by omega
  simp only [frames, hn, h2, List.range'_succ, List.flatMap_cons]

/-- What is needed for a step of one worker. -/
theorem PInv.next {files : List (File D)} {map : ScanMap} {lo hi : Nat} {s s' : PState D}
    (I : PInv files map lo hi s) {pre post : List (PWorker D)} {w w' : PWorker D}
    (hw : s.workers = pre ++ w :: post) (hw' : s'.workers = pre ++ w' :: post) (hle : s.processed ≤ s'.processed)
    (hperm : (s'.delivered.map (fun b => (b.pos, b.frame)) ++ (pheld w' ++ frames map s'.processed hi)).Perm
      (s.delivered.map (fun b => (b.pos, b.frame)) ++ (pheld w ++ frames map s.processed hi)))
    (hgood : ∀ b ∈ s'.delivered, b ∈ s.delivered ∨
      ∃ a, (map b.pos).get b.frame = some a ∧ b = processFrame files a b.pos b.frame)
    (hlock : ∀ i, (if s'.locks i = true then 1 else 0) + (if holds i w = true then 1 else 0) =
      (if s.locks i = true then 1 else 0) + if holds i w' = true then 1 else 0)
    (hself : Fine files map s' w')
    (hother : ∀ x, x ∈ pre ∨ x ∈ post → ∀ i, holds i x = true → s'.at_ i = s.at_ i)
    (hex : w' = .exited → hi ≤ s'.processed) : PInv files map lo hi s' := by
  have old : ∀ x, x ∈ pre ∨ x ∈ post → x ∈ s.workers := by
    intro x hx
    rw [hw]
    rcases hx with h | h <;> simp [h]
  have mem : ∀ x, x ∈ s'.workers → x = w' ∨ x ∈ pre ∨ x ∈ post := by
    intro x hx
    rw [hw'] at hx
    simp only [List.mem_append, List.mem_cons] at hx
    rcases hx with h | h | h
    · exact .inr (.inl h)
    · exact .inl h
    · exact .inr (.inr h)
  refine ⟨?_, ?_, ?_, ?_, ?_⟩
  · refine List.Perm.trans ?_ I.perm
    rw [hw, hw']
    have c : ∀ (d : List (Nat × Nat)) (v : PWorker D) (r : List (Nat × Nat)),
        (d ++ (pre ++ v :: post).flatMap pheld ++ r).Perm ((pre ++ post).flatMap pheld ++ (d ++ (pheld v ++ r))) := by
      intro d v r
      refine ((List.Perm.append_left d (perm_remove pheld pre post v)).append_right r).trans ?_
      generalize pheld v = a
      generalize (pre ++ post).flatMap pheld = b
      have h1 : (d ++ (a ++ b) ++ r).Perm (b ++ (d ++ a) ++ r) := by
        refine List.Perm.append_right _ ?_
        rw [← List.append_assoc]
        exact List.perm_append_comm
      refine h1.trans ?_
      simp only [List.append_assoc]
      exact List.Perm.refl _
    exact (c _ _ _).trans ((List.Perm.append_left _ hperm).trans (c _ _ _).symm)
  · intro b hb
    rcases hgood b hb with h | h
    · exact I.good b h
    · exact h
  · intro i
    have h := I.lock i
    have := hlock i
    rw [hw] at h
    rw [hw']
    simp only [List.countP_append, List.countP_cons] at h ⊢
    omega
  · intro x hx
    rcases mem x hx with rfl | hx
    · exact hself
    · have h := I.fine x (old x hx)
      have ho := hother x hx
      cases x with
      | read p f fs j n acc loc =>
        have := ho loc.stream (by simp [holds])
        simp only [Fine, this] at h ⊢
        exact h
      | _ => exact h
  · intro h
    rcases mem _ h with h | h
    · exact hex h.symm
    · exact Nat.le_trans (I.exited (old _ h)) hle

/-- The holder of a lock is alone. -/
theorem PInv.alone {files : List (File D)} {map : ScanMap} {lo hi : Nat} {s : PState D}
    (I : PInv files map lo hi s) {pre post : List (PWorker D)} {w : PWorker D}
    (hw : s.workers = pre ++ w :: post) {i : Nat} (hi : holds i w = true) :
    s.locks i = true ∧ ∀ x, x ∈ pre ∨ x ∈ post → holds i x = false := by
  have h := I.lock i
  rw [hw] at h
  simp only [List.countP_append, List.countP_cons, hi, if_true] at h
  split at h
  · rename_i hl
    refine ⟨hl, ?_⟩
    have h1 : pre.countP (holds i) = 0 := by omega
    have h2 : post.countP (holds i) = 0 := by omega
    rw [List.countP_eq_zero] at h1 h2
    rintro x (hx | hx)
    · simpa using h1 x hx
    · simpa using h2 x hx
  · omega

theorem pinv_step {files : List (File D)} {map : ScanMap} {lo hi : Nat} {s s' : PState D} {l : Unit}
    (I : PInv files map lo hi s) (h : PStep files map hi s l s') : PInv files map lo hi s' := by
  cases h with
  | @done pre post hw hp =>
    exact I.next hw rfl (Nat.le_refl _) (by simp [pheld]) (fun _ h => .inl h) (fun _ => rfl) trivial
      (fun _ _ _ _ => rfl) (fun _ => hp)
  | @more pre post hw hp =>
    exact I.next hw rfl (Nat.le_refl _) (by simp [pheld]) (fun _ h => .inl h) (fun _ => rfl) trivial
      (fun _ _ _ _ => rfl) (by simp)
  | @overrun pre post hw hp =>
    exact I.next hw rfl (Nat.le_succ _)
      (by simp [pheld, frames_ge map hp, frames_ge map (Nat.le_succ_of_le hp)])
      (fun _ h => .inl h) (fun _ => rfl) trivial (fun _ _ _ _ => rfl) (fun _ => Nat.le_succ_of_le hp)
  | @fetch pre post hw hp =>
    refine I.next hw rfl (Nat.le_succ _) ?_ (fun _ h => .inl h) (fun _ => rfl) ?_ (fun _ _ _ _ => rfl) (by simp)
    · rw [frames_lt map hp]; simp [pheld]
    · intro f hf
      exact Option.isSome_iff_exists.1 (SMap.mem_keys.1 hf)
  | @end_ pre post p hw =>
    exact I.next hw rfl (Nat.le_refl _) (by simp [pheld]) (fun _ h => .inl h) (fun _ => rfl) trivial
      (fun _ _ _ _ => rfl) (by simp)
  | @frame pre post p f fs hw =>
    have hf := I.fine (.image p (f :: fs)) (by rw [hw]; simp)
    refine I.next hw rfl (Nat.le_refl _) (by simp [pheld]) (fun _ h => .inl h) (fun _ => rfl) ?_
      (fun _ _ _ _ => rfl) (by simp)
    obtain ⟨a, ha⟩ := hf f (by simp)
    exact ⟨fun g hg => hf g (by simp [hg]), by omega, a, ha, rfl, rfl⟩
  | @missing pre post p f fs j n acc a hw hj ha hn =>
    obtain ⟨h1, h2, a', ha', rfl, rfl⟩ := I.fine (.sector p f fs j n acc) (by rw [hw]; simp)
    rw [ha] at ha'
    obtain rfl := Option.some.inj ha'
    refine I.next hw rfl (Nat.le_refl _) (by simp [pheld]) (fun _ h => .inl h) (fun _ => rfl) ?_
      (fun _ _ _ _ => rfl) (by simp)
    refine ⟨h1, by omega, a, ha, ?_, ?_⟩
    · rw [sectorData_succ, hn]; simp
    · rw [sectorCount_succ, hn]; simp
  | @acquire pre post p f fs j n acc a loc hw hj ha hn hl =>
    obtain ⟨h1, h2, a', ha', rfl, rfl⟩ := I.fine (.sector p f fs j n acc) (by rw [hw]; simp)
    rw [ha] at ha'
    obtain rfl := Option.some.inj ha'
    refine I.next hw rfl (Nat.le_refl _) (by simp [pheld]) (fun _ h => .inl h) ?_ ?_
      (fun _ _ _ _ => rfl) (by simp)
    · intro i
      simp only [update, holds]
      by_cases hi : i = loc.stream
      · subst hi; simp [hl]
      · have : ¬ loc.stream = i := fun e => hi e.symm
        simp [hi, this]
    · exact ⟨h1, hj, a, ha, rfl, rfl, hn⟩
  | @seek pre post p f fs j n acc loc hw =>
    obtain ⟨h1, h2, a, ha, rfl, rfl, hn⟩ := I.fine (.seek p f fs j n acc loc) (by rw [hw]; simp)
    have hal := I.alone hw (i := loc.stream) (by simp [holds])
    refine I.next hw rfl (Nat.le_refl _) (by simp [pheld]) (fun _ h => .inl h) (fun _ => rfl) ?_ ?_ (by simp)
    · exact ⟨h1, h2, by simp [update], a, ha, rfl, rfl, hn⟩
    · intro x hx i hi
      have : i ≠ loc.stream := by
        rintro rfl
        rw [hal.2 x hx] at hi
        simp at hi
      simp [update, this]
  | @read pre post p f fs j n acc loc hw =>
    obtain ⟨h1, h2, h3, a, ha, rfl, rfl, hn⟩ := I.fine (.read p f fs j n acc loc) (by rw [hw]; simp)
    have hal := I.alone hw (i := loc.stream) (by simp [holds])
    refine I.next hw rfl (Nat.le_refl _) (by simp [pheld]) (fun _ h => .inl h) ?_ ?_ ?_ (by simp)
    · intro i
      simp only [update, holds]
      by_cases hi : i = loc.stream
      · subst hi; simp [hal.1]
      · have : ¬ loc.stream = i := fun e => hi e.symm
        simp [hi, this]
    · refine ⟨h1, by omega, a, ha, ?_, ?_⟩
      · rw [sectorData_succ, hn, h3]
      · rw [sectorCount_succ, hn]; simp
    · intro x hx i hi
      have : i ≠ loc.stream := by
        rintro rfl
        rw [hal.2 x hx] at hi
        simp at hi
      simp [update, this]
  | @deliver pre post p f fs n acc hw =>
    obtain ⟨h1, h2, a, ha, rfl, rfl⟩ := I.fine (.sector p f fs 4 n acc) (by rw [hw]; simp)
    refine I.next hw rfl (Nat.le_refl _) ?_ ?_ (fun _ => rfl) h1 (fun _ _ _ _ => rfl) (by simp)
    · simp [pheld, List.append_assoc]
    · intro b hb
      simp only [List.mem_append, List.mem_singleton] at hb
      rcases hb with hb | rfl
      · exact .inl hb
      · exact .inr ⟨a, ha, rfl⟩

end Stempy.MultiPass
