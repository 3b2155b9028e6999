import Verif.Model.Stack
import Verif.Lemmas.Loop
import Verif.Props.StemDense

/-!
C07, C09: average and maximum over an image stack.
-/

namespace Stempy.Props
open Stempy.Spec Stempy.Image

theorem accumFrame_eq {α : Type} (op : α → Nat → α) {frames : List (List Nat)} {n i : Nat}
    (hlen : ∀ f ∈ frames, f.length = n) (hsz : frames.length * n ≤ 2 ^ 32) {f : List Nat}
    (hf : frames[i]? = some f) {img : List α} (himg : img.length = n) :
    accumFrame op frames.flatten n i img = .ok (List.zipWith op img f) := by
  have hfl : f.length = n := hlen f (List.mem_of_getElem? hf)
  have hi : i < frames.length := (List.getElem?_eq_some_iff.1 hf).1
  unfold accumFrame
  obtain ⟨r, h1, h2, h3⟩ := foldlM_range_inv n (fun img j => do
      let v ← readAt frames.flatten ((i * n + j) % 2 ^ 32)
      let o ← readAt img j
      writeAt img j (op o v))
    (fun m r => r.length = n ∧ ∀ j, j < n → r[j]? =
      if j < m then (List.zipWith op img f)[j]? else img[j]?) img
    ⟨himg, by simp⟩
    (by
      rintro j hj r ⟨hl, hI⟩
      have hlt : i * n + j < 2 ^ 32 := by
        have : (i + 1) * n ≤ frames.length * n := Nat.mul_le_mul_right _ hi
        have e : (i + 1) * n = i * n + n := by ring
        omega
      have r1 : readAt frames.flatten ((i * n + j) % 2 ^ 32) = .ok f[j] := by
        rw [Nat.mod_eq_of_lt hlt, readAt_eq_ok, flatten_uniform_getElem? _ _ hlen _ _ hj, hf]
        simp [hfl, hj]
      have r2 : readAt r j = .ok (img[j]'(by omega)) := by
        rw [readAt_eq_ok, hI j hj, if_neg (by omega)]; simp [himg, hj]
      rw [r1, r2]
      simp only [Outcome.ok_bind]
      rw [writeAt_lt (by omega)]
      refine ⟨_, rfl, by simpa using hl, ?_⟩
      intro k hk
      by_cases hkj : k = j
      · subst hkj
        rw [List.getElem?_set_self (by omega), if_pos (by omega)]
        simp [himg, hfl, hk]
      · rw [List.getElem?_set_ne (fun h => hkj h.symm), hI k hk]
        have : k < j ↔ k < j + 1 := by omega
        simp only [this])
  rw [h1]
  congr 1
  apply List.ext_getElem?
  intro j
  by_cases hj : j < n
  · rw [h3 j hj, if_pos hj]
  · rw [List.getElem?_eq_none (by omega), List.getElem?_eq_none (by
      rw [List.length_zipWith]; omega)]

theorem accumBlock_eq {α : Type} (op : α → Nat → α) {w h : Nat} (hs : Nat × Nat) {fs : List Frame}
    (hlen : ∀ f ∈ fs, f.2.length = w * h) (hwh : w * h < 2 ^ 32)
    (hsz : fs.length * (w * h) ≤ 2 ^ 32) {img : List α} (himg : img.length = w * h) :
    accumBlock op img (mkBlock hs (w, h) fs) =
      .ok (fs.foldl (fun img f => List.zipWith op img f.2) img) := by
  unfold accumBlock mkBlock
  simp only
  rw [Nat.mod_eq_of_lt hwh]
  obtain ⟨r, h1, h2, h3⟩ := foldlM_range_inv fs.length
    (fun img i => accumFrame op (fs.map (·.2)).flatten (w * h) i img)
    (fun m r => r = (fs.take m).foldl (fun img f => List.zipWith op img f.2) img ∧
      r.length = w * h) img ⟨by simp, himg⟩
    (by
      rintro k hk r ⟨hr, hl⟩
      have hlk := hlen fs[k] (List.getElem_mem hk)
      refine ⟨List.zipWith op r fs[k].2, ?_, ?_, ?_⟩
      · exact accumFrame_eq op (List.forall_mem_map.2 hlen) (by simpa using hsz) (by simp [hk]) hl
      · rw [List.take_add_one, List.foldl_append, ← hr]
        simp [hk]
      · simp [hl, hlk])
  rw [h1, h2, List.take_length]

theorem accumBlocks_eq {α : Type} (op : α → Nat → α) {w h : Nat} (hs : Nat × Nat) (hwh : w * h < 2 ^ 32)
    (bs : List (List Frame)) (hlen : ∀ fs ∈ bs, ∀ f ∈ fs, f.2.length = w * h)
    (hsz : ∀ fs ∈ bs, fs.length * (w * h) ≤ 2 ^ 32) :
    ∀ img : List α, img.length = w * h →
    (bs.map (mkBlock hs (w, h))).foldlM (accumBlock op) img =
      .ok (bs.flatten.foldl (fun img f => List.zipWith op img f.2) img) := by
  induction bs with
  | nil => intro img _; rfl
  | cons fs bs ih =>
    intro img himg
    rw [List.map_cons, List.foldlM_cons, accumBlock_eq op hs (hlen fs (by simp)) hwh
      (hsz fs (by simp)) himg, Outcome.ok_bind, ih (fun f h => hlen f (by simp [h]))
      (fun f h => hsz f (by simp [h])), List.flatten_cons, List.foldl_append]
    have : ∀ (l : List Frame) (img : List α), (∀ f ∈ l, f.2.length = w * h) →
        img.length = w * h → (l.foldl (fun img f => List.zipWith op img f.2) img).length = w * h := by
      intro l
      induction l with
      | nil => intro img _ h; exact h
      | cons f l ih =>
        intro img hl h
        exact ih _ (fun f hf => hl f (by simp [hf])) (by simp [h, hl f (by simp)])
    exact this fs img (hlen fs (by simp)) himg

theorem foldl_zipWith_get {α : Type} (d : α) (op : α → Nat → α) {n : Nat} (l : List Frame)
    (hlen : ∀ f ∈ l, f.2.length = n) :
    ∀ img : List α, img.length = n → ∀ j, j < n →
    (l.foldl (fun img f => List.zipWith op img f.2) img)[j]? =
      some (l.foldl (fun a f => op a (f.2.getD j 0)) (img.getD j d)) := by
  induction l with
  | nil => intro img hi j hj; simp [hi, hj]
  | cons f l ih =>
    intro img hi j hj
    have hf := hlen f (by simp)
    rw [List.foldl_cons, ih (fun f h => hlen f (by simp [h])) _ (by simp [hi, hf]) j hj]
    simp [hi, hf, hj]

theorem foldl_zipWith_length {α : Type} (op : α → Nat → α) {n : Nat} (l : List Frame)
    (hlen : ∀ f ∈ l, f.2.length = n) :
    ∀ img : List α, img.length = n →
    (l.foldl (fun img f => List.zipWith op img f.2) img).length = n := by
  induction l with
  | nil => intro img h; exact h
  | cons f l ih =>
    intro img h
    exact ih (fun f hf => hlen f (by simp [hf])) _ (by simp [h, hlen f (by simp)])

/-- A stack of blocks of `w × h` frames that the averaging functions can index with 32 bit offsets. -/
structure StackBlocksOK (w h : Nat) (bs : List (List Frame)) : Prop where
  blocks : bs ≠ []
  size : w * h < 2 ^ 32
  len : ∀ fs ∈ bs, ∀ f ∈ fs, f.2.length = w * h
  blockSize : ∀ fs ∈ bs, fs.length * (w * h) ≤ 2 ^ 32

theorem StackBlocksOK.lenFlat {w h : Nat} {bs : List (List Frame)} (ok : StackBlocksOK w h bs) :
    ∀ f ∈ bs.flatten, f.2.length = w * h := by
  intro f hf
  obtain ⟨fs, h1, h2⟩ := List.mem_flatten.1 hf
  exact ok.len fs h1 f h2

/-- **C07**. Every pixel of the average is the sum over all frames divided by their number. -/
theorem C07_average {w h : Nat} {bs : List (List Frame)} (hs : Nat × Nat)
    (ok : StackBlocksOK w h bs) (hne : bs.flatten ≠ []) :
    ∃ img, calculateAverage (bs.map (mkBlock hs (w, h))) = .ok img ∧ img.length = w * h ∧
      ∀ j, j < w * h → img[j]? = some
        (((bs.flatten.map fun f => f.2.getD j 0).sum : Nat) / (bs.flatten.length : Rat)) := by
  have hcnt : ((bs.map (mkBlock hs (w, h))).map (·.imagesInBlock)).sum = bs.flatten.length := by
    rw [List.map_map, List.length_flatten]; rfl
  have hsum := accumBlocks_eq (· + ·) hs ok.size bs ok.len ok.blockSize (List.replicate (w * h) 0)
    (by simp)
  refine ⟨(bs.flatten.foldl (fun img f => List.zipWith (· + ·) img f.2)
    (List.replicate (w * h) 0)).map fun s : Nat => (s : Rat) / (bs.flatten.length : Rat), ?_, ?_, ?_⟩
  rotate_left
  · rw [List.length_map]
    exact foldl_zipWith_length (· + ·) _ ok.lenFlat (List.replicate (w * h) 0) (by simp)
  · intro j hj
    rw [List.getElem?_map, foldl_zipWith_get 0 (· + ·) _ ok.lenFlat _ (by simp) j hj, Option.map_some]
    congr 2
    have : ∀ (l : List Frame) (a : Nat), l.foldl (fun a f => a + f.2.getD j 0) a =
        a + (l.map fun f => f.2.getD j 0).sum := by
      intro l
      induction l with
      | nil => intro a; simp
      | cons f l ih => intro a; rw [List.foldl_cons, ih, List.map_cons, List.sum_cons]; omega
    rw [this]; simp [hj]
  · obtain ⟨fs, bs', rfl⟩ := List.exists_cons_of_ne_nil ok.blocks
    have e : calculateAverage ((fs :: bs').map (mkBlock hs (w, h))) = (do
        let sum ← ((fs :: bs').map (mkBlock hs (w, h))).foldlM (accumBlock (· + ·))
          (List.replicate ((w * h) % 2 ^ 32) 0)
        let cnt : Nat := (((fs :: bs').map (mkBlock hs (w, h))).map (·.imagesInBlock)).sum
        if cnt = 0 then .ub else pure (sum.map fun s : Nat => (s : Rat) / (cnt : Rat))) := rfl
    rw [e, Nat.mod_eq_of_lt ok.size, hsum, Outcome.ok_bind, hcnt]
    simp only
    rw [if_neg (fun h0 => hne (List.length_eq_zero_iff.1 h0))]
    rfl

/-- **C07** (order and grouping): two stacks with the same frames in any order and any grouping have
the same average. -/
theorem C07_average_order {w h : Nat} {bs bs' : List (List Frame)} (hs : Nat × Nat)
    (ok : StackBlocksOK w h bs) (ok' : StackBlocksOK w h bs') (hne : bs.flatten ≠ [])
    (hp : bs.flatten.Perm bs'.flatten) :
    calculateAverage (bs.map (mkBlock hs (w, h))) =
      calculateAverage (bs'.map (mkBlock hs (w, h))) := by
  have hne' : bs'.flatten ≠ [] := by
    intro h0; rw [h0] at hp; exact hne (List.perm_nil.1 hp)
  obtain ⟨img, h1, h2, h3⟩ := C07_average hs ok hne
  obtain ⟨img', h1', h2', h3'⟩ := C07_average hs ok' hne'
  rw [h1, h1']
  congr 1
  apply List.ext_getElem?
  intro j
  by_cases hj : j < w * h
  · rw [h3 j hj, h3' j hj, (hp.map fun f => f.2.getD j 0).sum_eq, hp.length_eq]
  · rw [List.getElem?_eq_none (by omega), List.getElem?_eq_none (by omega)]

theorem foldl_max_spec (l : List Nat) : ∀ a m,
    m = l.foldl (fun o v => if v > o then v else o) a →
    a ≤ m ∧ (∀ v ∈ l, v ≤ m) ∧ (m = a ∨ m ∈ l) := by
  induction l with
  | nil => intro a m h; simp [h]
  | cons x l ih =>
    intro a m h
    obtain ⟨h1, h2, h3⟩ := ih _ m h
    simp only at h1 h3
    split at h1
    · rename_i hx
      refine ⟨by omega, ?_, ?_⟩
      · intro v hv
        rcases List.mem_cons.1 hv with e | e
        · omega
        · exact h2 v e
      · right
        rw [if_pos hx] at h3
        rcases h3 with e | e <;> simp [e]
    · rename_i hx
      refine ⟨by omega, ?_, ?_⟩
      · intro v hv
        rcases List.mem_cons.1 hv with e | e
        · omega
        · exact h2 v e
      · rw [if_neg hx] at h3
        rcases h3 with e | e
        · exact Or.inl e
        · right; simp [e]

/-- `m` is the least upper bound of 0 and the values in `l`. -/
def IsMaxOf (l : List Nat) (m : Nat) : Prop := (∀ v ∈ l, v ≤ m) ∧ (m = 0 ∨ m ∈ l)

theorem IsMaxOf.unique {l l' : List Nat} {m m' : Nat} (hp : l.Perm l') (h : IsMaxOf l m)
    (h' : IsMaxOf l' m') : m = m' := by
  obtain ⟨h1, h2⟩ := h
  obtain ⟨h1', h2'⟩ := h'
  have a : m ≤ m' := by
    rcases h2 with e | e
    · omega
    · exact h1' m (hp.mem_iff.1 e)
  have b : m' ≤ m := by
    rcases h2' with e | e
    · omega
    · exact h1 m' (hp.mem_iff.2 e)
  omega

/-- **C09**. Every pixel of the result is the maximum over all frames, minus the dark reference when
one is given (non-zero width). -/
theorem C09_maximum {w h : Nat} {bs : List (List Frame)} (hs : Nat × Nat)
    (ok : StackBlocksOK w h bs) (dark : Nat × List Rat) (hd : dark.1 ≠ 0 → dark.2.length = w * h) :
    ∃ img, maximumDiffractionPattern (bs.map (mkBlock hs (w, h))) dark = .ok img ∧
      img.length = w * h ∧ ∀ j, j < w * h → ∃ m, IsMaxOf (bs.flatten.map fun f => f.2.getD j 0) m ∧
        img[j]? = some ((m : Rat) - if dark.1 = 0 then 0 else dark.2.getD j 0) := by
  let op : Nat → Nat → Nat := fun o v => if v > o then v else o
  have hmx := accumBlocks_eq op hs ok.size bs ok.len ok.blockSize (List.replicate (w * h) 0)
    (by simp)
  let mx := bs.flatten.foldl (fun img f => List.zipWith op img f.2) (List.replicate (w * h) 0)
  have hl : mx.length = w * h := foldl_zipWith_length op _ ok.lenFlat _ (by simp)
  have hget : ∀ j, j < w * h → ∃ m, IsMaxOf (bs.flatten.map fun f => f.2.getD j 0) m ∧
      mx[j]? = some m := by
    intro j hj
    have e := foldl_zipWith_get 0 op _ ok.lenFlat (List.replicate (w * h) 0) (by simp) j hj
    refine ⟨_, ?_, e⟩
    have e0 : (List.replicate (w * h) 0).getD j 0 = 0 := by simp [hj]
    rw [e0]
    have e1 : bs.flatten.foldl (fun a f => op a (f.2.getD j 0)) 0 =
        (bs.flatten.map fun f => f.2.getD j 0).foldl op 0 := by rw [List.foldl_map]
    rw [e1]
    obtain ⟨_, h2, h3⟩ := foldl_max_spec (bs.flatten.map fun f => f.2.getD j 0) 0 _ rfl
    exact ⟨h2, h3⟩
  obtain ⟨fs, bs', rfl⟩ := List.exists_cons_of_ne_nil ok.blocks
  have e : maximumDiffractionPattern ((fs :: bs').map (mkBlock hs (w, h))) dark = (do
      let mx ← ((fs :: bs').map (mkBlock hs (w, h))).foldlM (accumBlock op)
        (List.replicate ((w * h) % 2 ^ 32) 0)
      if dark.1 > 0 then
        (List.range ((w * h) % 2 ^ 32)).mapM fun i => do
          let m ← readAt mx i
          let d ← readAt dark.2 i
          pure ((m : Rat) - d)
      else pure (mx.map fun m : Nat => (m : Rat))) := rfl
  rw [e, Nat.mod_eq_of_lt ok.size, hmx, Outcome.ok_bind]
  by_cases h0 : dark.1 > 0
  · rw [if_pos h0]
    have hdl := hd (by omega)
    refine ⟨(List.range (w * h)).map fun i => ((mx.getD i 0 : Nat) : Rat) - dark.2.getD i 0, ?_,
      by simp, ?_⟩
    · apply mapM_ok
      intro i hi
      have hi : i < w * h := by simpa using hi
      have r1 : readAt mx i = .ok (mx.getD i 0) := by
        rw [readAt_eq_ok]; simp [hl, hi]
      have r2 : readAt dark.2 i = .ok (dark.2.getD i 0) := by
        rw [readAt_eq_ok]; simp [hdl, hi]
      show (do let m ← readAt mx i; let d ← readAt dark.2 i; pure ((m : Rat) - d)) = _
      rw [r1, r2]; rfl
    · intro j hj
      obtain ⟨m, hm1, hm2⟩ := hget j hj
      refine ⟨m, hm1, ?_⟩
      rw [List.getElem?_map, List.getElem?_range hj, if_neg (by omega)]
      simp [hm2]
  · rw [if_neg h0]
    refine ⟨mx.map fun m : Nat => (m : Rat), rfl, by simpa using hl, ?_⟩
    intro j hj
    obtain ⟨m, hm1, hm2⟩ := hget j hj
    refine ⟨m, hm1, ?_⟩
    rw [List.getElem?_map, hm2, if_pos (by omega)]
    simp

/-- **C09** (order and grouping). -/
theorem C09_maximum_order {w h : Nat} {bs bs' : List (List Frame)} (hs : Nat × Nat)
    (ok : StackBlocksOK w h bs) (ok' : StackBlocksOK w h bs') (dark : Nat × List Rat)
    (hd : dark.1 ≠ 0 → dark.2.length = w * h) (hp : bs.flatten.Perm bs'.flatten) :
    maximumDiffractionPattern (bs.map (mkBlock hs (w, h))) dark =
      maximumDiffractionPattern (bs'.map (mkBlock hs (w, h))) dark := by
  obtain ⟨img, h1, h2, h3⟩ := C09_maximum hs ok dark hd
  obtain ⟨img', h1', h2', h3'⟩ := C09_maximum hs ok' dark hd
  rw [h1, h1']
  congr 1
  apply List.ext_getElem?
  intro j
  by_cases hj : j < w * h
  · obtain ⟨m, a1, a2⟩ := h3 j hj
    obtain ⟨m', b1, b2⟩ := h3' j hj
    rw [a2, b2, IsMaxOf.unique (hp.map fun f => f.2.getD j 0) a1 b1]
  · rw [List.getElem?_eq_none (by omega), List.getElem?_eq_none (by omega)]

example : StackBlocksOK 2 1 [[(0, [1, 2]), (1, [5, 0])], [(2, [3, 3])]] := by
  constructor
  · simp
  · norm_num
  · decide
  · decide
example : maximumDiffractionPattern ([[(0, [1, 2]), (1, [5, 0])], [(2, [3, 3])]].map
    (mkBlock (3, 1) (2, 1))) (2, [1, 1]) = .ok [4, 2] := by decide +kernel
example : calculateAverage ([[(0, [1, 2]), (1, [5, 0])], [(2, [3, 3])]].map
    (mkBlock (3, 1) (2, 1))) = .ok [3, 5 / 3] := by
  decide +kernel

end Stempy.Props
