import Verif.Model.Radial
import Verif.Lemmas.Loop
import Verif.Props.StemDense

/-!
C08: radial sum.
-/

namespace Stempy.Props
open Stempy.Spec Stempy.Image Stempy.Mask

/-- Specification: `r` is the distance of pixel `(x,y)` to the center, rounded up. -/
def isRadius (cx cy : Int) (x y r : Nat) : Prop :=
  dist2 cx cy x y ≤ (r : Int) ^ 2 ∧ (r = 0 ∨ ((r : Int) - 1) ^ 2 < dist2 cx cy x y)

instance (cx cy : Int) (x y r : Nat) : Decidable (isRadius cx cy x y r) := by
  unfold isRadius; infer_instance

/-- Specification: sum of the pixels of a frame at radius `r`. -/
def ringSum (w h : Nat) (cx cy : Int) (r : Nat) (px : List Nat) : Nat :=
  ((List.range h).map fun y => ((List.range w).map fun x =>
    if isRadius cx cy x y r then px.getD (y * w + x) 0 else 0).sum).sum

theorem ceilSqrt_spec (d r : Nat) : ceilSqrt d = r ↔ d ≤ r * r ∧ (r = 0 ∨ (r - 1) * (r - 1) < d) := by
  have h1 := Nat.sqrt_le d
  have h2 := Nat.lt_succ_sqrt d
  simp only [Nat.succ_eq_add_one] at h2
  have key : ceilSqrt d ≤ r ↔ d ≤ r * r := by
    unfold ceilSqrt
    split
    · rename_i he
      constructor
      · intro h; rw [← he]; exact Nat.mul_le_mul h h
      · intro h; by_contra hc; rw [not_le] at hc
        have := Nat.mul_lt_mul'' hc hc; omega
    · rename_i he
      constructor
      · intro h
        have := Nat.mul_le_mul h h; omega
      · intro h
        by_contra hc
        rw [not_le] at hc
        have : r ≤ Nat.sqrt d := by omega
        have := Nat.mul_le_mul this this
        omega
  have key2 : ∀ s, ceilSqrt d ≤ s ↔ d ≤ s * s := by
    intro s
    unfold ceilSqrt
    split
    · rename_i he
      constructor
      · intro h; rw [← he]; exact Nat.mul_le_mul h h
      · intro h; by_contra hc; rw [not_le] at hc
        have := Nat.mul_lt_mul'' hc hc; omega
    · rename_i he
      constructor
      · intro h
        have := Nat.mul_le_mul h h; omega
      · intro h
        by_contra hc
        rw [not_le] at hc
        have : s ≤ Nat.sqrt d := by omega
        have := Nat.mul_le_mul this this
        omega
  constructor
  · intro h
    refine ⟨(key2 r).1 (by omega), ?_⟩
    by_cases h0 : r = 0
    · exact Or.inl h0
    · right
      by_contra hc
      have := (key2 (r - 1)).2 (by omega)
      omega
  · rintro ⟨a, b⟩
    have h3 := (key2 r).2 a
    rcases b with b | b
    · omega
    · by_contra hc
      have := (key2 (r - 1)).1 (by omega)
      omega

theorem ceilSqrt_le {d e : Nat} (h : d ≤ e) : ceilSqrt d ≤ ceilSqrt e := by
  have h1 := (ceilSqrt_spec d _).1 rfl
  have h2 := (ceilSqrt_spec e _).1 rfl
  by_contra hc
  rw [not_le] at hc
  rcases h1.2 with h0 | h0
  · omega
  · have : ceilSqrt e ≤ ceilSqrt d - 1 := by omega
    have := Nat.mul_le_mul this this
    omega

theorem distance2_eq (x y : Nat) (cx cy : Int) : (distance2 x y cx cy : Int) = dist2 cx cy x y := by
  unfold distance2 dist2
  rw [Int.toNat_of_nonneg]
  positivity

theorem radius_iff (x y : Nat) (cx cy : Int) (r : Nat) :
    ceilSqrt (distance2 x y cx cy) = r ↔ isRadius cx cy x y r := by
  rw [ceilSqrt_spec, isRadius, ← distance2_eq]
  have e1 : distance2 x y cx cy ≤ r * r ↔ (distance2 x y cx cy : Int) ≤ (r : Int) ^ 2 := by
    rw [pow_two]; exact_mod_cast Iff.rfl
  rw [e1]
  by_cases h0 : r = 0
  · simp [h0]
  · have e2 : (r - 1) * (r - 1) < distance2 x y cx cy ↔
        ((r : Int) - 1) ^ 2 < (distance2 x y cx cy : Int) := by
      have : ((r - 1 : Nat) : Int) = (r : Int) - 1 := by omega
      rw [← this, pow_two]; exact_mod_cast Iff.rfl
    rw [e2]

/-- Any pixel of the detector is at most as far from the center as the farthest corner. -/
theorem radius_le_max {w h x y : Nat} (cx cy : Int) (hx : x < w) (hy : y < h) :
    ceilSqrt (distance2 x y cx cy) ≤ maxRadius (w, h) cx cy := by
  unfold maxRadius
  apply ceilSqrt_le
  have hmax : ∀ a b c d : Nat,
      (let f := fun (mx dd : Nat) => if dd > mx then dd else mx
       let m := f (f (f (f 0 a) b) c) d
       a ≤ m ∧ b ≤ m ∧ c ≤ m ∧ d ≤ m) := by
    intro a b c d
    simp only
    split_ifs <;> omega
  have hm := hmax (distance2 ((0 : Nat) : Int) ((0 : Nat) : Int) cx cy)
    (distance2 ((0 : Nat) : Int) (h : Int) cx cy)
    (distance2 (w : Int) ((0 : Nat) : Int) cx cy) (distance2 (w : Int) (h : Int) cx cy)
  simp only at hm
  obtain ⟨h1, h2, h3, h4⟩ := hm
  simp only [List.foldl_cons, List.foldl_nil]
  generalize hM : (if distance2 (w : Int) (h : Int) cx cy > _ then distance2 (w : Int) (h : Int) cx cy else _) = M at *
  have hx' : (x : Int) < w := by exact_mod_cast hx
  have hy' : (y : Int) < h := by exact_mod_cast hy
  have hx0 : (0 : Int) ≤ x := by omega
  have hy0 : (0 : Int) ≤ y := by omega
  have le_of : ∀ u v : Nat, ((x : Int) - cx) ^ 2 ≤ ((u : Int) - cx) ^ 2 →
      ((y : Int) - cy) ^ 2 ≤ ((v : Int) - cy) ^ 2 →
      distance2 x y cx cy ≤ distance2 u v cx cy := by
    intro u v a b
    have : (distance2 x y cx cy : Int) ≤ distance2 u v cx cy := by
      rw [distance2_eq, distance2_eq]; unfold dist2; omega
    exact_mod_cast this
  by_cases c1 : (x : Int) ≤ cx <;> by_cases c2 : (y : Int) ≤ cy
  · exact le_trans (le_of 0 0 (by push_cast; nlinarith) (by push_cast; nlinarith)) h1
  · exact le_trans (le_of 0 h (by push_cast; nlinarith) (by nlinarith)) h2
  · exact le_trans (le_of w 0 (by nlinarith) (by push_cast; nlinarith)) h3
  · exact le_trans (le_of w h (by nlinarith) (by nlinarith)) h4

/-- total added to address `i` by a list of additions -/
def opSum (ops : List (Nat × Nat)) (i : Nat) : Nat :=
  (ops.map fun o => if o.1 = i then o.2 else 0).sum

theorem opSum_perm {l l' : List (Nat × Nat)} (h : l.Perm l') (i : Nat) : opSum l i = opSum l' i :=
  (h.map _).sum_eq

theorem opSum_flatten (ls : List (List (Nat × Nat))) (i : Nat) :
    opSum ls.flatten i = (ls.map fun l => opSum l i).sum := by
  induction ls with
  | nil => rfl
  | cons l ls ih =>
    rw [List.flatten_cons, List.map_cons, List.sum_cons, ← ih]
    simp [opSum, List.map_append, List.sum_append]

theorem runAdds (P : Nat) (ops : List (Nat × Nat)) (hops : ∀ o ∈ ops, o.1 < P) :
    ∃ mem, ops.foldlM atomicAdd (List.replicate P 0) = .ok mem ∧ mem.length = P ∧
      ∀ i, i < P → mem[i]? = some (opSum ops i % 2 ^ 64) := by
  apply foldlM_list_inv ops atomicAdd
    (fun pre mem => mem.length = P ∧ ∀ i, i < P → mem[i]? = some (opSum pre i % 2 ^ 64))
  · refine ⟨by simp, ?_⟩
    intro i hi; simp [hi, opSum]
  · rintro pre o post mem hl ⟨h1, h2⟩
    have ho : o.1 < P := hops o (by rw [hl]; simp)
    unfold atomicAdd
    have hr : readAt mem o.1 = .ok (opSum pre o.1 % 2 ^ 64) := readAt_eq_ok.2 (h2 o.1 ho)
    rw [hr, Outcome.ok_bind, writeAt_lt (by omega)]
    refine ⟨_, rfl, by simpa using h1, ?_⟩
    intro i hi
    have hs : opSum (pre ++ [o]) i = opSum pre i + if o.1 = i then o.2 else 0 := by
      simp [opSum, List.map_append, List.sum_append]
    by_cases hoi : o.1 = i
    · subst hoi
      rw [List.getElem?_set_self (by omega), hs, if_pos rfl, Nat.mod_add_mod]
    · rw [List.getElem?_set_ne hoi, h2 i hi, hs, if_neg hoi, Nat.add_zero]

/-- The additions of one frame in closed form. -/
theorem radialSumFrame_eq {w h W H : Nat} {cx cy : Int} {frames : List (List Nat)} {i : Nat}
    {f : List Nat} {n : Nat} (hlen : ∀ f ∈ frames, f.length = w * h) (hf : frames[i]? = some f)
    (hwh : w * h < 2 ^ 32) (hmem : (W * H) * (maxRadius (w, h) cx cy + 1) < 2 ^ 32) (hn : n < W * H)
    (hsc : W * H ≤ 2 ^ 31) :
    radialSumFrame cx cy frames.flatten (i * (w * h)) (w, h) (W, H) n =
      .ok ((List.range (w * h)).map fun j =>
        (ceilSqrt (distance2 ((j % w : Nat) : Int) ((j / w : Nat) : Int) cx cy) * (W * H) + n,
          f.getD j 0)) := by
  unfold radialSumFrame
  simp only
  rw [Nat.mod_eq_of_lt hwh]
  apply mapM_ok
  intro j hj
  have hj : j < w * h := by simpa using hj
  have hfl := hlen f (List.mem_of_getElem? hf)
  have hr : readAt frames.flatten (i * (w * h) + j) = .ok (f.getD j 0) := by
    rw [readAt_eq_ok, flatten_uniform_getElem? _ _ hlen _ _ hj, hf]; simp [hfl, hj]
  rw [hr, Outcome.ok_bind]
  obtain ⟨hx, hy⟩ := divmod_lt hj
  have hle := radius_le_max cx cy hx hy
  generalize ceilSqrt (distance2 ((j % w : Nat) : Int) ((j / w : Nat) : Int) cx cy) = r at *
  have e : r * W * H = r * (W * H) := by ring
  have hlt : r * (W * H) < 2 ^ 32 := by
    have := Nat.mul_le_mul_right (W * H) hle
    nlinarith
  rw [e, Nat.mod_eq_of_lt hlt, toInt32_of_lt (by omega)]
  rw [if_neg (by omega)]
  simp only [Outcome.pure_eq]
  congr 2

theorem opSum_frame {w h P n r p : Nat} {cx cy : Int} (f : List Nat) (hn : n < P) (hp : p < P) :
    opSum ((List.range (w * h)).map fun j =>
        (ceilSqrt (distance2 ((j % w : Nat) : Int) ((j / w : Nat) : Int) cx cy) * P + n,
          f.getD j 0)) (r * P + p) = if n = p then ringSum w h cx cy r f else 0 := by
  unfold opSum
  rw [List.map_map]
  have key : ∀ a : Nat, a * P + n = r * P + p ↔ a = r ∧ n = p := by
    intro a
    constructor
    · intro h
      have h1 := flat_div a hn
      have h2 := flat_mod a hn
      rw [h, flat_div r hp] at h1
      rw [h, flat_mod r hp] at h2
      exact ⟨h1.symm, h2.symm⟩
    · rintro ⟨rfl, rfl⟩; rfl
  by_cases hnp : n = p
  · rw [if_pos hnp]
    rw [sum_range_mul]
    unfold ringSum
    congr 1
    apply List.map_congr_left
    intro y _
    congr 1
    apply List.map_congr_left
    intro x hx
    have hx : x < w := by simpa using hx
    simp only [Function.comp, flat_mod y hx, flat_div y hx, key]
    simp only [radius_iff, hnp, and_true]
  · rw [if_neg hnp]
    have : ∀ (l : List Nat), (l.map ((fun o : Nat × Nat => if o.1 = r * P + p then o.2 else 0) ∘ fun j =>
        (ceilSqrt (distance2 ((j % w : Nat) : Int) ((j / w : Nat) : Int) cx cy) * P + n,
          f.getD j 0))).sum = 0 := by
      intro l
      induction l with
      | nil => rfl
      | cons a l ih =>
        rw [List.map_cons, List.sum_cons, ih]
        simp only [Function.comp, key, hnp, and_false, if_false]
    exact this _

/-- The arguments of a well-formed radial sum. -/
structure RadialOK (w h W H : Nat) (bs : List (List Frame)) (cx cy : Int) : Prop where
  blocks : bs ≠ []
  wlt : w < 2 ^ 31
  hlt : h < 2 ^ 31
  size : w * h < 2 ^ 32
  Wpos : 0 < W
  Hpos : 0 < H
  scan : W * H ≤ 2 ^ 31
  mem : (W * H) * (maxRadius (w, h) (effCenter w cx) (effCenter h cy) + 1) < 2 ^ 32
  len : ∀ fs ∈ bs, ∀ f ∈ fs, f.2.length = w * h
  pos : ∀ fs ∈ bs, ∀ f ∈ fs, f.1 < W * H

/-- **C08**. In every interleaving of the worker threads the radial sum ends normally (no access
outside of the profile), and entry (radius `r`, position `p`) is the sum over the frames of position
`p` of their pixels at radius `r`, in 64 bit arithmetic. The center may be anywhere. -/
theorem C08_radial {w h W H : Nat} {bs : List (List Frame)} {cx cy : Int} (hs : Nat × Nat)
    (ok : RadialOK w h W H bs cx cy) {r : Outcome (Nat × List Nat)}
    (hr : RadialRun (bs.map (mkBlock hs (w, h))) (W, H) (cx, cy) r) :
    ∃ radii mem, r = .ok (radii, mem) ∧ mem.length = W * H * radii ∧
      (∀ x y, x < w → y < h → ∃ rr, rr < radii ∧
        isRadius (effCenter w cx) (effCenter h cy) x y rr) ∧
      ∀ rr p, rr < radii → p < W * H → mem[rr * (W * H) + p]? = some
        ((bs.flatten.map fun f => if f.1 = p then
          ringSum w h (effCenter w cx) (effCenter h cy) rr f.2 else 0).sum % 2 ^ 64) := by
  set ex := effCenter w cx with hex
  set ey := effCenter h cy with hey
  let fops : Frame → List (Nat × Nat) := fun f => (List.range (w * h)).map fun j =>
    (ceilSqrt (distance2 ((j % w : Nat) : Int) ((j / w : Nat) : Int) ex ey) * (W * H) + f.1,
      f.2.getD j 0)
  have htasks : (bs.map (mkBlock hs (w, h))).mapM (fun b =>
      radialSumFrames ex ey b (w, h) (W, H) ((w * h) % 2 ^ 32)) =
      .ok (bs.map fun fs => (fs.map fops).flatten) := by
    apply mapM_map_ok
    intro fs hfs
    unfold radialSumFrames mkBlock
    simp only
    rw [mapM_ok (g := fun i => fops (fs.getD i (0, [])))]
    · rw [Outcome.ok_bind]
      simp only [Outcome.pure_eq]
      congr 2
      apply List.ext_getElem
      · simp
      · intro i h1 h2
        have hi : i < fs.length := by simpa using h2
        simp [hi]
    · intro i hi
      have hi : i < fs.length := by simpa using hi
      have hr1 : readAt (fs.map (·.1)) i = .ok fs[i].1 := by rw [readAt_eq_ok]; simp [hi]
      rw [hr1, Outcome.ok_bind, Nat.mod_eq_of_lt ok.size]
      rw [radialSumFrame_eq (List.forall_mem_map.2 (ok.len fs hfs)) (f := fs[i].2)
        (by simp [hi]) ok.size ok.mem (ok.pos fs hfs _ (List.getElem_mem hi)) ok.scan]
      have e : fs.getD i (0, []) = fs[i] := by simp [hi]
      rw [e]
  have hrun : ∃ tr, Interleave (bs.map fun fs => (fs.map fops).flatten) tr ∧
      r = (fun m => (maxRadius (w, h) ex ey + 1, m)) <$>
        tr.foldlM atomicAdd (List.replicate ((W * H * (maxRadius (w, h) ex ey + 1)) % 2 ^ 32) 0) := by
    obtain ⟨fs, bs', rfl⟩ := List.exists_cons_of_ne_nil ok.blocks
    unfold RadialRun at hr
    simp only [List.map_cons] at hr
    have hW := ok.Wpos
    have hH := ok.Hpos
    have hc : ¬ ((W, H).1 = 0 ∨ (W, H).2 = 0) := by simp only; omega
    rw [if_neg hc, if_neg hc] at hr
    have f1 : (mkBlock hs (w, h) fs).frameDims = (w, h) := rfl
    rw [f1] at hr
    simp only [defaultCenter_eq ok.wlt, defaultCenter_eq ok.hlt] at hr
    rw [← hex, ← hey] at hr
    simp only [List.map_cons] at htasks
    rw [htasks] at hr
    simpa using hr
  obtain ⟨tr, htr, rfl⟩ := hrun
  have hperm := htr.perm
  rw [Nat.mod_eq_of_lt ok.mem]
  obtain ⟨mem, h1, h2, h3⟩ := runAdds (W * H * (maxRadius (w, h) ex ey + 1)) tr (by
    intro o ho
    have ho := hperm.mem_iff.1 ho
    simp only [List.mem_flatten, List.mem_map] at ho
    obtain ⟨t, ⟨fs, hfs, rfl⟩, hot⟩ := ho
    obtain ⟨l, hl, hol⟩ := List.mem_flatten.1 hot
    obtain ⟨f, hf, rfl⟩ := List.mem_map.1 hl
    obtain ⟨j, hj, rfl⟩ := List.mem_map.1 hol
    have hj : j < w * h := by simpa using hj
    obtain ⟨hx, hy⟩ := divmod_lt hj
    have hle := radius_le_max ex ey hx hy
    have hpos := ok.pos fs hfs f hf
    have := flat_lt (w := W * H) (h := maxRadius (w, h) ex ey + 1) hpos (Nat.lt_succ_of_le hle)
    exact this)
  refine ⟨maxRadius (w, h) ex ey + 1, mem, by rw [h1]; rfl, h2, ?_, ?_⟩
  · intro x y hx hy
    exact ⟨_, Nat.lt_succ_of_le (radius_le_max ex ey hx hy), (radius_iff x y ex ey _).1 rfl⟩
  · intro rr p hrr hp
    have hlt := flat_lt (w := W * H) (h := maxRadius (w, h) ex ey + 1) hp hrr
    rw [h3 _ hlt, opSum_perm hperm, opSum_flatten]
    congr 2
    -- sum over blocks, then over frames
    have hb : ∀ fs ∈ bs, opSum (fs.map fops).flatten (rr * (W * H) + p) =
        (fs.map fun f => if f.1 = p then ringSum w h ex ey rr f.2 else 0).sum := by
      intro fs hfs
      rw [opSum_flatten, List.map_map]
      congr 1
      apply List.map_congr_left
      intro f hf
      exact opSum_frame f.2 (ok.pos fs hfs f hf) hp
    rw [List.map_map]
    have : (bs.map ((fun l => opSum l (rr * (W * H) + p)) ∘ fun fs => (fs.map fops).flatten)) =
        bs.map fun fs => (fs.map fun f => if f.1 = p then ringSum w h ex ey rr f.2 else 0).sum :=
      List.map_congr_left hb
    rw [this]
    exact sum_map_flatten bs _

theorem le_sum_of_mem' {l : List Nat} {a : Nat} (h : a ∈ l) : a ≤ l.sum := by
  induction l with
  | nil => simp at h
  | cons b l ih =>
    rw [List.sum_cons]
    rcases List.mem_cons.1 h with e | e
    · omega
    · have := ih e; omega

theorem sum_swap {α β : Type} (l : List α) (m : List β) (f : α → β → Nat) :
    (l.map fun a => (m.map fun b => f a b).sum).sum =
      (m.map fun b => (l.map fun a => f a b).sum).sum := by
  induction l with
  | nil => simp
  | cons a l ih =>
    simp only [List.map_cons, List.sum_cons, ih]
    rw [sum_map_add']

theorem sum_ite_unique (n r0 v : Nat) (p : Nat → Prop) [DecidablePred p] (h : r0 < n)
    (hp : ∀ r, p r ↔ r = r0) : ((List.range n).map fun r => if p r then v else 0).sum = v := by
  have : ∀ m, ((List.range m).map fun r => if p r then v else 0).sum = if r0 < m then v else 0 := by
    intro m
    induction m with
    | zero => simp
    | succ m ih =>
      rw [List.range_succ, List.map_append, List.sum_append, ih]
      simp only [List.map_cons, List.map_nil, List.sum_cons, List.sum_nil, hp]
      by_cases h1 : r0 < m
      · rw [if_pos h1, if_neg (by omega), if_pos (by omega)]; rfl
      · by_cases h2 : m = r0
        · rw [if_neg h1, if_pos h2, if_pos (by omega)]; omega
        · rw [if_neg h1, if_neg h2, if_neg (by omega)]; rfl
  rw [this, if_pos h]

/-- **C08** (conservation): when the radii cover the detector, the profile of a frame sums to its
total intensity. -/
theorem C08_conservation {w h radii : Nat} {cx cy : Int} (px : List Nat)
    (hcov : ∀ x y, x < w → y < h → ∃ rr, rr < radii ∧ isRadius cx cy x y rr)
    (hlen : px.length = w * h) :
    ((List.range radii).map fun r => ringSum w h cx cy r px).sum = px.sum := by
  unfold ringSum
  rw [sum_swap]
  have hrow : ∀ y ∈ List.range h, ((List.range radii).map fun r => ((List.range w).map fun x =>
      if isRadius cx cy x y r then px.getD (y * w + x) 0 else 0).sum).sum =
      ((List.range w).map fun x => px.getD (y * w + x) 0).sum := by
    intro y hy
    rw [sum_swap]
    congr 1
    apply List.map_congr_left
    intro x hx
    obtain ⟨rr, h1, h2⟩ := hcov x y (by simpa using hx) (by simpa using hy)
    apply sum_ite_unique _ rr _ _ h1
    intro r
    rw [← radius_iff] at h2
    rw [← radius_iff, h2]
    exact eq_comm
  rw [List.map_congr_left hrow, ← sum_range_mul w h (fun i => px.getD i 0), ← hlen]
  congr 1
  apply List.ext_getElem
  · simp
  · intro i h1 h2
    simp [h2]

/-- **C08** (combined): for a position with a single frame, the computed profile sums to the total
intensity of the frame, whatever the interleaving. -/
theorem C08_radial_total {w h W H : Nat} {bs : List (List Frame)} {cx cy : Int} (hs : Nat × Nat)
    (ok : RadialOK w h W H bs cx cy) {r : Outcome (Nat × List Nat)}
    (hr : RadialRun (bs.map (mkBlock hs (w, h))) (W, H) (cx, cy) r) {p : Nat} (hp : p < W * H)
    {px : List Nat} (honce : bs.flatten.filter (fun f => f.1 = p) = [(p, px)])
    (hsmall : px.sum < 2 ^ 64) :
    ∃ radii mem, r = .ok (radii, mem) ∧
      ((List.range radii).map fun rr => mem.getD (rr * (W * H) + p) 0).sum = px.sum := by
  obtain ⟨radii, mem, h1, h2, h3, h4⟩ := C08_radial hs ok hr
  refine ⟨radii, mem, h1, ?_⟩
  have hmem : (p, px) ∈ bs.flatten := by
    have : (p, px) ∈ bs.flatten.filter (fun f => decide (f.1 = p)) := by rw [honce]; simp
    exact (List.mem_filter.1 this).1
  have hlen : px.length = w * h := by
    obtain ⟨fs, a, b⟩ := List.mem_flatten.1 hmem
    exact ok.len fs a _ b
  have hcons := C08_conservation px h3 hlen
  have hsel : ∀ rr, (bs.flatten.map fun f => if f.1 = p then
      ringSum w h (effCenter w cx) (effCenter h cy) rr f.2 else 0).sum =
      ringSum w h (effCenter w cx) (effCenter h cy) rr px := by
    intro rr
    have : ∀ l : List Frame, (l.map fun f => if f.1 = p then
      ringSum w h (effCenter w cx) (effCenter h cy) rr f.2 else 0).sum =
      ((l.filter fun f => decide (f.1 = p)).map fun f =>
        ringSum w h (effCenter w cx) (effCenter h cy) rr f.2).sum := by
      intro l
      induction l with
      | nil => rfl
      | cons f l ih =>
        rw [List.map_cons, List.sum_cons, ih, List.filter_cons]
        by_cases hf : f.1 = p <;> simp [hf]
    rw [this, honce]; simp
  rw [← hcons]
  congr 1
  apply List.map_congr_left
  intro rr hrr
  have hrr' : rr < radii := by simpa using hrr
  have hle : ringSum w h (effCenter w cx) (effCenter h cy) rr px ≤ px.sum := by
    rw [← hcons]
    exact le_sum_of_mem' (List.mem_map.2 ⟨rr, hrr, rfl⟩)
  rw [List.getD_eq_getElem?_getD, h4 rr p hrr' hp, hsel, Option.getD_some, Nat.mod_eq_of_lt (by omega)]

/-- An image number outside of the scan writes outside of the profile. -/
theorem C08_out_of_scan : RadialRun [mkBlock (1, 1) (1, 1) [(5, [1])]] (1, 1) (0, 0) .ub := by
  unfold RadialRun
  refine ⟨_, Interleave.sequential _, ?_⟩
  decide +kernel

example : RadialOK 3 2 2 1 [[(0, [1, 2, 3, 4, 5, 6])], [(1, [1, 1, 1, 1, 1, 1])]] (-1) 7 := by
  have : maxRadius (3, 2) (effCenter 3 (-1)) (effCenter 2 7) = 8 := by decide +kernel
  constructor
  · simp
  · norm_num
  · norm_num
  · norm_num
  · norm_num
  · norm_num
  · norm_num
  · rw [this]; norm_num
  · decide
  · decide

end Stempy.Props
