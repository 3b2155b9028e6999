import Verif.Model.Image
import Verif.Spec.Stem
import Verif.Lemmas.ListSum
import Verif.Props.Mask

/-!
Helper lemmas for the STEM image theorems.
-/

namespace Stempy.Image
open Stempy.Mask Stempy.Spec Stempy.Props

/-- closed form of the mask as a function of the pixel index -/
def maskFn (w h : Nat) (inner outer cx cy : Int) (i : Nat) : Nat :=
  if inAnnulus inner outer (effCenter w cx) (effCenter h cy) (i % w) (i / w) then 0xFFFF else 0

theorem land_mask {v : Nat} (hv : v < 65536) (b : Prop) [Decidable b] :
    v &&& (if b then 0xFFFF else 0) = if b then v else 0 := by
  split
  · have : (0xFFFF : Nat) = 2 ^ 16 - 1 := by norm_num
    rw [this, Nat.and_two_pow_sub_one_eq_mod, Nat.mod_eq_of_lt (by simpa using hv)]
  · simp

/-- The STEM value of frame number `i` of a flat buffer. -/
theorem calculateSTEMValues_eq {w h : Nat} {inner outer cx cy : Int} (hsz : w * h < 2 ^ 32)
    (frames : List (List Nat)) (hlen : ∀ f ∈ frames, f.length = w * h)
    (hpx : ∀ f ∈ frames, ∀ v ∈ f, v < 65536) (i : Nat) (f : List Nat) (hf : frames[i]? = some f) :
    calculateSTEMValues frames.flatten (i * (w * h)) (w * h)
      ((List.range (w * h)).map (maskFn w h inner outer cx cy)) =
    .ok (annulusSum w h inner outer (effCenter w cx) (effCenter h cy) f) := by
  have hfm : f ∈ frames := List.mem_of_getElem? hf
  have hfl := hlen f hfm
  let g : Nat → Nat := fun j =>
    if inAnnulus inner outer (effCenter w cx) (effCenter h cy) (j % w) (j / w)
    then f.getD j 0 else 0
  unfold calculateSTEMValues
  rw [foldlM_ok (g := fun acc j => (acc + g j) % 2 ^ 64) (I := fun _ => True) (hs := trivial)]
  · rw [foldl_add_mod _ _ _ _ (by norm_num), Nat.zero_add, Nat.mod_eq_of_lt]
    · rw [sum_range_mul]
      unfold annulusSum
      congr 2
      apply List.map_congr_left
      intro y _
      congr 1
      apply List.map_congr_left
      intro x hx
      have hx : x < w := by simpa using hx
      simp only [g, flat_mod y hx, flat_div y hx]
    · have hle : ((List.range (w * h)).map g).sum ≤ (w * h) * 65536 := by
        have := sum_map_le (List.range (w * h)) g 65536 (by
          intro j hj
          have hj : j < w * h := by simpa using hj
          simp only [g]
          split
          · have hj' : j < f.length := by omega
            rw [List.getD_eq_getElem?_getD, List.getElem?_eq_getElem hj', Option.getD_some]
            exact Nat.le_of_lt (hpx f hfm _ (List.getElem_mem hj'))
          · omega)
        simpa using this
      calc _ ≤ (w * h) * 65536 := hle
        _ < 2 ^ 64 := by omega
  · intro s _ j hj
    have hj : j < w * h := by simpa using hj
    have hj' : j < f.length := by omega
    refine ⟨?_, trivial⟩
    have h1 : readAt frames.flatten (i * (w * h) + j) = .ok f[j] := by
      rw [readAt_eq_ok, flatten_uniform_getElem? _ _ hlen _ _ hj, hf]
      simp [hj']
    have h2 : readAt ((List.range (w * h)).map (maskFn w h inner outer cx cy)) j =
        .ok (maskFn w h inner outer cx cy j) := by
      rw [readAt_eq_ok, List.getElem?_map, List.getElem?_range hj]; rfl
    rw [h1, h2]
    simp only [Outcome.ok_bind, Outcome.pure_eq, maskFn, g]
    rw [land_mask (hpx f hfm _ (List.getElem_mem hj'))]
    simp [hj']

/-- The writes of one task in closed form. -/
theorem taskWrites_eq {w h : Nat} {inner outer cx cy : Int} (hsz : w * h < 2 ^ 32) (k : Nat)
    (frames : List Frame) (hlen : ∀ f ∈ frames, f.2.length = w * h)
    (hpx : ∀ f ∈ frames, ∀ v ∈ f.2, v < 65536) :
    taskWrites k (frames.map (·.2)).flatten (frames.map (·.1)) (w * h)
      ((List.range (w * h)).map (maskFn w h inner outer cx cy)) =
    .ok (frames.map fun f =>
      (k, f.1, annulusSum w h inner outer (effCenter w cx) (effCenter h cy) f.2)) := by
  unfold taskWrites
  rw [mapM_ok (g := fun i => (k, (frames.getD i (0, [])).1,
    annulusSum w h inner outer (effCenter w cx) (effCenter h cy) (frames.getD i (0, [])).2))]
  · congr 1
    apply List.ext_getElem
    · simp
    · intro i h1 h2
      have hi : i < frames.length := by simpa using h1
      simp [hi]
  · intro i hi
    have hi : i < frames.length := by simpa using hi
    rw [calculateSTEMValues_eq hsz _ (List.forall_mem_map.2 hlen) (List.forall_mem_map.2 hpx) i frames[i].2
      (by simp [hi])]
    have : readAt (frames.map (·.1)) i = .ok frames[i].1 := by
      rw [readAt_eq_ok]; simp [hi]
    rw [Outcome.ok_bind, this]
    simp [hi]

/-- The last value written to pixel `n` of image `k` by a list of writes. -/
def lastWrite (ops : List (Nat × Nat × Nat)) (k n : Nat) : Option Nat :=
  ((ops.filter fun o => o.1 = k ∧ o.2.1 = n).getLast?).map (·.2.2)

/-- plain version of `applyWrite` -/
def applyWrite' (images : List (List Nat)) (op : Nat × Nat × Nat) : List (List Nat) :=
  images.set op.1 ((images.getD op.1 []).set op.2.1 op.2.2)

/-- all images have `P` pixels, and there are `N` images -/
def Shape (N P : Nat) (images : List (List Nat)) : Prop :=
  images.length = N ∧ ∀ img ∈ images, img.length = P

theorem applyWrite_ok {N P : Nat} {images : List (List Nat)} {op : Nat × Nat × Nat}
    (h : Shape N P images) (hk : op.1 < N) (hn : op.2.1 < P) :
    applyWrite images op = .ok (applyWrite' images op) ∧ Shape N P (applyWrite' images op) := by
  obtain ⟨hl, hi⟩ := h
  have hk' : op.1 < images.length := by omega
  have hlen : (images[op.1]).length = P := hi _ (List.getElem_mem hk')
  constructor
  · unfold applyWrite applyWrite'
    rw [readAt_lt hk', Outcome.ok_bind, writeAt_lt (by omega), Outcome.ok_bind]
    simp [hk']
  · refine ⟨by simp [applyWrite', hl], ?_⟩
    intro img himg
    unfold applyWrite' at himg
    rcases List.mem_or_eq_of_mem_set himg with h | h
    · exact hi _ h
    · subst h; simp [hk', hlen]

theorem applyWrite'_get {N P : Nat} {images : List (List Nat)} {op : Nat × Nat × Nat}
    (h : Shape N P images) (hk : op.1 < N) (hn : op.2.1 < P) (k n : Nat) :
    pixelAt (applyWrite' images op) k n =
      if op.1 = k ∧ op.2.1 = n then some op.2.2 else pixelAt images k n := by
  obtain ⟨hl, hi⟩ := h
  have hk' : op.1 < images.length := by omega
  have hlen : (images[op.1]).length = P := hi _ (List.getElem_mem hk')
  unfold applyWrite' pixelAt
  by_cases h1 : op.1 = k
  · subst h1
    rw [List.getElem?_set_self hk']
    simp only [Option.bind_some, true_and]
    rw [List.getD_eq_getElem?_getD, List.getElem?_eq_getElem hk']
    simp only [Option.getD_some, Option.bind_some]
    by_cases h2 : op.2.1 = n
    · subst h2
      rw [List.getElem?_set_self (by omega), if_pos rfl]
    · rw [List.getElem?_set_ne h2, if_neg h2]
  · rw [List.getElem?_set_ne h1, if_neg (by simp [h1])]

theorem runWrites {N P : Nat} (ops : List (Nat × Nat × Nat))
    (hops : ∀ o ∈ ops, o.1 < N ∧ o.2.1 < P) :
    ∀ (images : List (List Nat)), Shape N P images →
    ∃ final, ops.foldlM applyWrite images = .ok final ∧ Shape N P final ∧
      ∀ k n, k < N → n < P → pixelAt final k n =
        match lastWrite ops k n with
        | some v => some v
        | none => pixelAt images k n := by
  induction ops with
  | nil => intro images h; exact ⟨images, rfl, h, by simp [lastWrite]⟩
  | cons o ops ih =>
    intro images h
    obtain ⟨hk, hn⟩ := hops o (by simp)
    obtain ⟨hok, hsh⟩ := applyWrite_ok h hk hn
    obtain ⟨final, h1, h2, h3⟩ := ih (fun o ho => hops o (by simp [ho])) _ hsh
    refine ⟨final, by rw [List.foldlM_cons, hok]; exact h1, h2, ?_⟩
    intro k n hkN hnP
    rw [h3 k n hkN hnP]
    have hlast : lastWrite (o :: ops) k n = match lastWrite ops k n with
        | some v => some v
        | none => if o.1 = k ∧ o.2.1 = n then some o.2.2 else none := by
      unfold lastWrite
      rw [List.filter_cons]
      split
      · rename_i hc
        have hc : o.1 = k ∧ o.2.1 = n := by simpa using hc
        rw [if_pos hc, List.getLast?_cons]
        cases (ops.filter (fun o => decide (o.1 = k ∧ o.2.1 = n))).getLast? <;> rfl
      · rename_i hc
        have hc : ¬ (o.1 = k ∧ o.2.1 = n) := by simpa using hc
        rw [if_neg hc]
        cases (ops.filter (fun o => decide (o.1 = k ∧ o.2.1 = n))).getLast? <;> rfl
    rw [hlast]
    cases lastWrite ops k n with
    | some v => rfl
    | none =>
      simp only
      rw [applyWrite'_get h hk hn]
      split <;> rfl

theorem zeroImages_shape (N : Nat) (scan : Nat × Nat) (h : scan.1 * scan.2 < 2 ^ 32) :
    Shape N (scan.1 * scan.2) (zeroImages N scan) := by
  unfold zeroImages
  rw [Nat.mod_eq_of_lt h]
  refine ⟨by simp, ?_⟩
  intro img himg
  rw [List.eq_of_mem_replicate himg]; simp

theorem zeroImages_get (N : Nat) (scan : Nat × Nat) (h : scan.1 * scan.2 < 2 ^ 32) {k n : Nat}
    (hk : k < N) (hn : n < scan.1 * scan.2) :
    pixelAt (zeroImages N scan) k n = some 0 := by
  unfold zeroImages
  rw [Nat.mod_eq_of_lt h]
  simp [pixelAt, hk, hn]

end Stempy.Image
