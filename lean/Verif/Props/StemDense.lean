import Verif.Lemmas.Stem

/-!
C02, C04 (dense), C05 (dense): STEM images from raw data.
-/

namespace Stempy.Props
open Stempy.Mask Stempy.Spec Stempy.Image

/-- A block holding the given frames, in order. -/
def mkBlock (scan frame : Nat × Nat) (fs : List Frame) : Block where
  scanDims := scan
  frameDims := frame
  imagesInBlock := fs.length
  imageNumbers := fs.map (·.1)
  data := (fs.map (·.2)).flatten

/-- A stack of frames for a `w × h` detector and a scan of `P` positions. -/
structure StackOK (w h P : Nat) (fs : List Frame) : Prop where
  len : ∀ f ∈ fs, f.2.length = w * h
  px : ∀ f ∈ fs, ∀ v ∈ f.2, v < 65536
  pos : ∀ f ∈ fs, f.1 < P

theorem makeMasks_eq {w h : Nat} {inner outer : List Int} {cx cy : Int}
    (g : ∀ r ∈ inner.zip outer, GeometryOK w h r.1 r.2 cx cy) :
    makeMasks (w, h) inner outer (cx, cy) = .ok ((inner.zip outer).map fun r =>
      (List.range (w * h)).map (maskFn w h r.1 r.2 cx cy)) := by
  unfold makeMasks
  apply mapM_ok
  intro r hr
  exact createAnnularMask_eq (g r hr)

theorem denseTasks_eq {w h P : Nat} {cx cy : Int} (scan : Nat × Nat) (hsz : w * h < 2 ^ 32)
    (bs : List (List Frame)) (hok : ∀ fs ∈ bs, StackOK w h P fs) (radii : List (Int × Int)) :
    denseTasks (bs.map (mkBlock scan (w, h)))
      (radii.map fun r => (List.range (w * h)).map (maskFn w h r.1 r.2 cx cy)) (w * h) =
    .ok (bs.map fun fs => radii.zipIdx.map fun rk => fs.map fun f =>
      (rk.2, f.1, annulusSum w h rk.1.1 rk.1.2 (effCenter w cx) (effCenter h cy) f.2)).flatten := by
  unfold denseTasks
  rw [mapM_map_ok (g := fun fs : List Frame => radii.zipIdx.map fun rk => fs.map fun f =>
    (rk.2, f.1, annulusSum w h rk.1.1 rk.1.2 (effCenter w cx) (effCenter h cy) f.2))]
  · rfl
  · intro fs hfs
    rw [List.zipIdx_map]
    apply mapM_map_ok
    intro rk _
    exact taskWrites_eq hsz _ fs (hok fs hfs).len (hok fs hfs).px

theorem perm_filter_eq_of_length_le_one {α : Type} {p : α → Bool} {l l' : List α}
    (h : l.Perm l') {x : List α} (hx : l'.filter p = x) (hlen : x.length ≤ 1) :
    l.filter p = x := by
  have hp := h.filter p
  rw [hx] at hp
  match x, hlen with
  | [], _ => exact List.perm_nil.1 hp
  | [a], _ => exact List.perm_singleton.1 hp

/-- All writes of all tasks to pixel `n` of image `k`. -/
theorem filter_tasks {w h : Nat} {cx cy : Int} (bs : List (List Frame)) (radii : List (Int × Int))
    (k n : Nat) (r : Int × Int) (hk : radii[k]? = some r) :
    ((bs.map fun fs => radii.zipIdx.map fun rk => fs.map fun f =>
      (rk.2, f.1, annulusSum w h rk.1.1 rk.1.2 (effCenter w cx) (effCenter h cy)
        f.2)).flatten.flatten).filter (fun o => decide (o.1 = k ∧ o.2.1 = n)) =
    (bs.flatten.filter (fun f => f.1 = n)).map fun f =>
      (k, n, annulusSum w h r.1 r.2 (effCenter w cx) (effCenter h cy) f.2) := by
  induction bs with
  | nil => simp
  | cons fs bs ih =>
    rw [List.map_cons, List.flatten_cons, List.flatten_append, List.filter_append, ih,
      List.flatten_cons, List.filter_append, List.map_append]
    congr 1
    clear ih
    -- one block: only the task of image `k` contributes
    suffices H : ∀ (s : Nat) (rs : List (Int × Int)),
        ((((rs.zipIdx s).map fun rk => fs.map fun f => (rk.2, f.1,
          annulusSum w h rk.1.1 rk.1.2 (effCenter w cx) (effCenter h cy) f.2)).flatten).filter
            (fun o => decide (o.1 = k ∧ o.2.1 = n))) =
        if s ≤ k then (match rs[k - s]? with
          | some r => (fs.filter (fun f => f.1 = n)).map fun f =>
              (k, n, annulusSum w h r.1 r.2 (effCenter w cx) (effCenter h cy) f.2)
          | none => []) else [] by
      have := H 0 radii
      simpa [hk] using this
    intro s rs
    induction rs generalizing s with
    | nil => simp
    | cons r' rs ih =>
      rw [List.zipIdx_cons, List.map_cons, List.flatten_cons, List.filter_append, ih]
      by_cases hs : s = k
      · subst hs
        rw [if_neg (by omega), if_pos (Nat.le_refl _)]
        simp only [Nat.sub_self, List.getElem?_cons_zero, List.append_nil]
        clear ih
        induction fs with
        | nil => rfl
        | cons f fs ihf =>
          rw [List.map_cons, List.filter_cons, List.filter_cons, ihf]
          by_cases hf : f.1 = n <;> simp [hf]
      · have e : (fs.map fun f => (s, f.1, annulusSum w h r'.1 r'.2 (effCenter w cx)
            (effCenter h cy) f.2)).filter (fun o => decide (o.1 = k ∧ o.2.1 = n)) = [] := by
          rw [List.filter_eq_nil_iff]
          intro o ho
          obtain ⟨f, _, rfl⟩ := List.mem_map.1 ho
          simp [hs]
        rw [e, List.nil_append]
        by_cases hle : s ≤ k
        · rw [if_pos (by omega), if_pos hle]
          have : k - s = (k - (s + 1)) + 1 := by omega
          rw [this, List.getElem?_cons_succ]
        · rw [if_neg (by omega), if_neg hle]

/-- The arguments of a well-formed dense STEM computation: blocks `bs` of frames of a `w × h`
detector, a scan of `W × H` positions, radii lists of equal non-zero length. -/
structure DenseOK (w h W H : Nat) (bs : List (List Frame)) (inner outer : List Int)
    (cx cy : Int) : Prop where
  blocks : bs ≠ []
  radii : inner ≠ []
  same : inner.length = outer.length
  geo : ∀ r ∈ inner.zip outer, GeometryOK w h r.1 r.2 cx cy
  frame : w * h < 2 ^ 32
  scan : W * H < 2 ^ 32
  Wpos : 0 < W
  Hpos : 0 < H
  stack : ∀ fs ∈ bs, StackOK w h (W * H) fs

theorem DenseRun_iff {w h W H : Nat} {bs : List (List Frame)} {inner outer : List Int}
    {cx cy : Int} (ok : DenseOK w h W H bs inner outer cx cy) (hs : Nat × Nat)
    (r : Outcome (List (List Nat))) :
    DenseRun (bs.map (mkBlock hs (w, h))) inner outer (W, H) (cx, cy) r ↔
    ∃ tr, Interleave (bs.map fun fs => (inner.zip outer).zipIdx.map fun rk => fs.map fun f =>
      (rk.2, f.1, annulusSum w h rk.1.1 rk.1.2 (effCenter w cx) (effCenter h cy) f.2)).flatten tr ∧
      r = tr.foldlM applyWrite (zeroImages inner.length (W, H)) := by
  have hout : outer ≠ [] := by
    intro h; have := ok.same; rw [h] at this; exact ok.radii (List.length_eq_zero_iff.1 (by simpa using this))
  have hv : validateDense (bs.map (mkBlock hs (w, h))) inner outer (W, H) =
      .ok (mkBlock hs (w, h) (bs.head ok.blocks), (W, H)) := by
    have hb := ok.blocks
    cases bs with
    | nil => exact absurd rfl hb
    | cons b bs =>
      unfold validateDense
      have hW := ok.Wpos
      have hH := ok.Hpos
      simp [ok.radii, hout, ok.same, Nat.pos_iff_ne_zero.1 hW, Nat.pos_iff_ne_zero.1 hH]
  unfold DenseRun
  rw [hv]
  simp only [mkBlock]
  rw [makeMasks_eq ok.geo, Nat.mod_eq_of_lt ok.frame]
  simp only
  have := denseTasks_eq (cx := cx) (cy := cy) hs ok.frame bs ok.stack (inner.zip outer)
  rw [this]

/-- **C02**. Whatever the grouping of frames in blocks and the interleaving of the worker threads,
the run ends normally with one image per radius pair, where every pixel whose scan position was
supplied exactly once holds the sum of that frame inside the annulus, and every pixel without frame
is 0. -/
theorem C02_dense {w h W H : Nat} {bs : List (List Frame)} {inner outer : List Int} {cx cy : Int}
    (ok : DenseOK w h W H bs inner outer cx cy) (hs : Nat × Nat) {r : Outcome (List (List Nat))}
    (hr : DenseRun (bs.map (mkBlock hs (w, h))) inner outer (W, H) (cx, cy) r) :
    ∃ images : List (List Nat), r = .ok images ∧ images.length = inner.length ∧
      (∀ img ∈ images, img.length = W * H) ∧
      ∀ k a b, (inner.zip outer)[k]? = some (a, b) → ∀ p, p < W * H →
        (∀ px, bs.flatten.filter (fun f => f.1 = p) = [(p, px)] →
          pixelAt images k p =
            some (annulusSum w h a b (effCenter w cx) (effCenter h cy) px)) ∧
        ((∀ f ∈ bs.flatten, f.1 ≠ p) → pixelAt images k p = some 0) := by
  obtain ⟨tr, htr, rfl⟩ := (DenseRun_iff ok hs r).1 hr
  have hperm := htr.perm
  have hzl : (inner.zip outer).length = inner.length := by simp [ok.same]
  obtain ⟨final, h1, h2, h3⟩ := runWrites (N := inner.length) (P := W * H) tr (by
      intro o ho
      have ho := hperm.mem_iff.1 ho
      simp only [List.mem_flatten, List.mem_map] at ho
      obtain ⟨t, ⟨l, ⟨fs, hfs, rfl⟩, ht⟩, hot⟩ := ho
      obtain ⟨rk, hrk, rfl⟩ := List.mem_map.1 ht
      obtain ⟨f, hf, rfl⟩ := List.mem_map.1 hot
      have := List.snd_lt_of_mem_zipIdx hrk
      exact ⟨by omega, (ok.stack fs hfs).pos f hf⟩) _
    (zeroImages_shape inner.length (W, H) ok.scan)
  refine ⟨final, h1, h2.1, h2.2, ?_⟩
  intro k a b hk p hp
  have hkN : k < inner.length := by
    have := (List.getElem?_eq_some_iff.1 hk).1; omega
  have hfilter := filter_tasks (w := w) (h := h) (cx := cx) (cy := cy) bs (inner.zip outer) k p
    (a, b) hk
  constructor
  · intro px hpx
    rw [h3 k p hkN hp]
    have e := perm_filter_eq_of_length_le_one hperm hfilter (by rw [hpx]; simp)
    unfold lastWrite
    rw [e, hpx]
    rfl
  · intro hno
    rw [h3 k p hkN hp]
    have hnil : bs.flatten.filter (fun f => decide (f.1 = p)) = [] := by
      rw [List.filter_eq_nil_iff]; intro f hf; simpa using hno f hf
    have e := perm_filter_eq_of_length_le_one hperm hfilter (by rw [hnil]; simp)
    unfold lastWrite
    rw [e, hnil]
    exact zeroImages_get _ _ ok.scan hkN hp

/-- **C02** (runs exist): the relation `DenseRun` is not empty. -/
theorem C02_run_exists {w h W H : Nat} {bs : List (List Frame)} {inner outer : List Int}
    {cx cy : Int} (ok : DenseOK w h W H bs inner outer cx cy) (hs : Nat × Nat) :
    ∃ r, DenseRun (bs.map (mkBlock hs (w, h))) inner outer (W, H) (cx, cy) r :=
  ⟨_, (DenseRun_iff ok hs _).2 ⟨_, Interleave.sequential _, rfl⟩⟩

/-- **C02** (the "exactly once" is needed): with two frames at one position the result depends on the
schedule. -/
theorem C02_duplicate_depends_on_schedule :
    ∃ (bs : List (List Frame)) (r r' : Outcome (List (List Nat))),
      DenseOK 1 1 1 1 bs [0] [1] 0 0 ∧
      DenseRun (bs.map (mkBlock (1, 1) (1, 1))) [0] [1] (1, 1) (0, 0) r ∧
      DenseRun (bs.map (mkBlock (1, 1) (1, 1))) [0] [1] (1, 1) (0, 0) r' ∧ r ≠ r' := by
  have ok : DenseOK 1 1 1 1 [[(0, [5])], [(0, [7])]] [0] [1] 0 0 := by
    constructor
    · simp
    · simp
    · rfl
    · intro r hr
      have : r = (0, 1) := by simpa using hr
      subst this
      constructor <;> norm_num
    · norm_num
    · norm_num
    · norm_num
    · norm_num
    · intro fs hfs
      have : fs = [(0, [5])] ∨ fs = [(0, [7])] := by simpa using hfs
      rcases this with rfl | rfl <;> constructor <;> simp
  refine ⟨[[(0, [5])], [(0, [7])]], .ok [[7]], .ok [[5]], ok, ?_, ?_, by simp⟩
  · rw [DenseRun_iff ok]
    exact ⟨_, Interleave.sequential _, by decide⟩
  · rw [DenseRun_iff ok]
    refine ⟨[(0, 0, 7), (0, 0, 5)], ?_, by decide⟩
    have e : ((([[(0, [5])], [(0, [7])]] : List (List Frame)).map fun fs =>
      (([0] : List Int).zip [1]).zipIdx.map fun rk => fs.map fun f =>
      (rk.2, f.1, annulusSum 1 1 rk.1.1 rk.1.2 (effCenter 1 0) (effCenter 1 0) f.2)).flatten) =
      [[(0, 0, 5)], [(0, 0, 7)]] := by decide
    rw [e]
    exact .step (pre := [[(0, 0, 5)]]) (post := []) (.step (pre := []) (post := [[]])
      (.done (by simp)))

/-- Non-vacuity: a 3x2 detector, a 2x2 scan with a missing position, two blocks, two radius pairs. -/
example : DenseOK 3 2 2 2 [[(2, [1, 2, 3, 4, 5, 6]), (0, [9, 9, 9, 9, 9, 9])], [(1, [0, 0, 0, 7, 0, 0])]]
    [0, 1] [1, 2] (-1) (-1) := by
  constructor
  · simp
  · simp
  · rfl
  · intro r hr
    have : r = (0, 1) ∨ r = (1, 2) := by simpa using hr
    rcases this with rfl | rfl <;> constructor <;> norm_num
  · norm_num
  · norm_num
  · norm_num
  · norm_num
  · intro fs hfs
    have : fs = [(2, [1, 2, 3, 4, 5, 6]), (0, [9, 9, 9, 9, 9, 9])] ∨
      fs = [(1, [0, 0, 0, 7, 0, 0])] := by simpa using hfs
    rcases this with rfl | rfl <;> constructor <;> simp

end Stempy.Props
