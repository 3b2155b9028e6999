import Verif.Lemmas.SectorReader
import Mathlib.Data.List.Nodup

/-!
C24-C26: the sector reader.
-/

namespace Stempy.Props
open Stempy.SectorReader

variable {D F : Type}

/-- Files of a detector that were not cut in a header. -/
def GoodFiles (files : List (Stream D)) : Prop :=
  ∀ st ∈ files, (0 ≤ st.sector ∧ st.sector < 4) ∧ st.cut = false

/-- **C24** Reading until the end: the records arrive in some order `arr`, in which the records of each file are in
their order. The frames returned are: complete groups `gs` of four records of one position each, then incomplete
groups `os` with 1-3 records each, in strictly increasing order of the positions, and then the end. For
every position the groups are exactly the records of that position, each used once, in the order of their arrival. -/
theorem C24_assembly (L : Layout D F) (files : List (Stream D)) (hf : GoodFiles files) :
    ∃ (arr : List (Nat × Rec D)) (gs os : List (Nat × List (Nat × Rec D))) (t : State D F),
      Interleave (files.map fun s => s.records.map fun r => (s.sector.toNat, r)) arr ∧
      Reads L (create files) ((gs ++ os).map fun g => assemble L g.1 g.2) t ∧ (read L t).1 = .ok none ∧
      (∀ g ∈ gs, g.2.length = 4) ∧ (∀ g ∈ os, 1 ≤ g.2.length ∧ g.2.length ≤ 3) ∧
      os.Pairwise (fun a b => a.1 < b.1) ∧
      ∀ p, (((gs ++ os).filter fun g => g.1 = p).flatMap fun g => g.2) = arr.filter fun i => i.2.pos = p := by
  obtain ⟨arr, h1, t, h2, h3⟩ := read_all L (create files) hf
  obtain ⟨hi, gs, hg⟩ := feedAll_spec arr (invFeed_nil L) (groups_nil L)
  simp only [List.nil_append] at hi hg
  have hc : (create files : State D F).cache = [] := rfl
  rw [hc] at h2
  have hmem : ∀ e ∈ (feedAll L [] arr).1, openGroup arr e.1 ≠ [] ∧
      e.2 = ⟨assemble L e.1 (openGroup arr e.1), (openGroup arr e.1).length⟩ := by
    intro e he
    have := find_mem hi.sorted he
    rw [hi.find] at this
    split at this
    · simp at this
    · rename_i hne
      simp only [Option.some.injEq] at this
      exact ⟨hne, this.symm⟩
  refine ⟨arr, gs, (feedAll L [] arr).1.map (fun e => (e.1, openGroup arr e.1)), t, h1, ?_,
    h3, hg.four, ?_, ?_, ?_⟩
  · rw [List.map_append, ← hg.outs, List.map_map]
    convert h2 using 2
    apply List.map_congr_left
    intro e he
    simp [(hmem e he).2]
  · intro g hgm
    obtain ⟨e, he, rfl⟩ := List.mem_map.1 hgm
    have := List.length_pos_of_ne_nil (hmem e he).1
    have h4 := openGroup_length arr e.1
    simp only
    omega
  · rw [List.pairwise_map]
    exact hi.sorted
  · intro p
    rw [List.filter_append, List.flatMap_append]
    have hall := hg.all p
    simp only [at'] at hall
    rw [← hall]
    congr 1
    -- the open groups of the position
    have key : ∀ c : Cache F, Sorted c →
        ((c.map fun e => (e.1, openGroup arr e.1)).filter fun g => decide (g.1 = p)).flatMap (fun g => g.2) =
          if (find p c).isSome then openGroup arr p else [] := by
      intro c hs
      induction c with
      | nil => simp [find]
      | cons e c ih =>
        have hs' := List.pairwise_cons.1 hs
        have ih := ih hs'.2
        rw [List.map_cons, List.filter_cons]
        simp only [find]
        by_cases he : e.1 = p
        · have hn : find p c = none := find_none_of_lt (fun x hx => by have := hs'.1 x hx; omega)
          rw [hn] at ih
          simp only [Option.isSome_none, Bool.false_eq_true, if_false] at ih
          simp [he, ih]
        · simp only [he, decide_false, Bool.false_eq_true, if_false]
          exact ih
    rw [key _ hi.sorted, hi.find]
    by_cases ho : openGroup arr p = []
    · simp [ho]
    · simp [ho]

private theorem count_groups (l : List (Nat × List (Nat × Rec D))) (p : Nat) (h : ∀ g ∈ l, g.2.length = 4) :
    ((l.filter fun g => g.1 = p).flatMap fun g => g.2).length = 4 * l.countP fun g => g.1 = p := by
  induction l with
  | nil => rfl
  | cons g l ih =>
    have ih := ih (fun g hg => h g (by simp [hg]))
    have h4 := h g (by simp)
    rw [List.filter_cons, List.countP_cons]
    by_cases hp : g.1 = p
    · simp only [hp, decide_true, if_true, List.flatMap_cons, List.length_append, ih, h4]
      omega
    · simp only [hp, decide_false, Bool.false_eq_true, if_false, ih]
      omega

private theorem count_partial (l : List (Nat × List (Nat × Rec D))) (p : Nat)
    (h : ∀ g ∈ l, 1 ≤ g.2.length ∧ g.2.length ≤ 3) (hs : l.Pairwise fun a b => a.1 < b.1) :
    let n := ((l.filter fun g => g.1 = p).flatMap fun g => g.2).length
    n ≤ 3 ∧ l.countP (fun g => g.1 = p) = if n = 0 then 0 else 1 := by
  induction l with
  | nil => simp
  | cons g l ih =>
    have hs' := List.pairwise_cons.1 hs
    have ih := ih (fun g hg => h g (by simp [hg])) hs'.2
    have h4 := h g (by simp)
    simp only at ih ⊢
    rw [List.filter_cons, List.countP_cons]
    by_cases hp : g.1 = p
    · have hn : l.filter (fun g => decide (g.1 = p)) = [] := by
        rw [List.filter_eq_nil_iff]
        intro x hx
        have := hs'.1 x hx
        simp; omega
      have hc : l.countP (fun g => decide (g.1 = p)) = 0 := by
        rw [List.countP_eq_length_filter, hn]; rfl
      simp only [hp, decide_true, if_true, List.flatMap_cons, List.length_append, hn, List.flatMap_nil,
        List.length_nil, hc]
      refine ⟨by omega, ?_⟩
      rw [if_neg (by omega)]
    · simp only [hp, decide_false, Bool.false_eq_true, if_false]
      simpa using ih

/-- **C24** Number of frames: a position with `n` records gives `n / 4` complete frames (one, if it has its four
sectors) and one more partial frame if `n` is not a multiple of four; in particular a position
with 1-4 records gives exactly one frame, and one without records gives none. -/
theorem C24_count (L : Layout D F) (files : List (Stream D)) (hf : GoodFiles files) :
    ∃ (full part : List (Frame F)) (t : State D F),
      Reads L (create files) (full ++ part) t ∧ (read L t).1 = .ok none ∧
      part.Pairwise (fun a b => a.pos < b.pos) ∧
      ∀ p, let n := (files.map fun s => s.records.countP fun r => r.pos = p).sum
        full.countP (fun f => f.pos = p) = n / 4 ∧
        part.countP (fun f => f.pos = p) = if n % 4 = 0 then 0 else 1 := by
  obtain ⟨arr, gs, os, t, h1, h2, h3, h4, h5, h6, h7⟩ := C24_assembly L files hf
  refine ⟨gs.map (fun g => assemble L g.1 g.2), os.map (fun g => assemble L g.1 g.2), t, ?_, h3, ?_, ?_⟩
  · rw [← List.map_append]; exact h2
  · rw [List.pairwise_map]; exact h6
  · intro p
    have hn : (files.map fun s => s.records.countP fun r => r.pos = p).sum =
        (arr.filter fun i => i.2.pos = p).length := by
      rw [← List.countP_eq_length_filter, h1.perm.countP_eq]
      clear h1 h2 hf
      induction files with
      | nil => simp
      | cons s files ih =>
        simp only [List.map_cons, List.sum_cons, List.flatten_cons, List.countP_append, ih, List.countP_map]
        rfl
    have e := h7 p
    rw [List.filter_append, List.flatMap_append] at e
    have e := congrArg List.length e
    rw [List.length_append, count_groups gs p h4] at e
    obtain ⟨c1, c2⟩ := count_partial os p h5 h6
    have m1 : (gs.map fun g => assemble L g.1 g.2).countP (fun f => f.pos = p) =
        gs.countP fun g => g.1 = p := by
      rw [List.countP_map]; rfl
    have m2 : (os.map fun g => assemble L g.1 g.2).countP (fun f => f.pos = p) =
        os.countP fun g => g.1 = p := by
      rw [List.countP_map]; rfl
    simp only
    rw [m1, m2, hn, c2]
    generalize ((os.filter fun g => decide (g.1 = p)).flatMap fun g => g.2).length = a at *
    refine ⟨by omega, ?_⟩
    split <;> split <;> omega

/-- The record is of a position of a scan of `w` columns and `h` rows. -/
def InScan (w h : Nat) (r : Rec D) : Prop := r.width = w ∧ r.height = h ∧ r.x < w ∧ r.y < h

/-- Positions are numbered row by row. -/
theorem pos_coordinates {w h x y : Nat} {r : Rec D} (hr : InScan w h r) (hsz : w * h ≤ 2 ^ 32) (hx : x < w) :
    r.pos = y * w + x ↔ r.x = x ∧ r.y = y := by
  obtain ⟨rfl, rfl, h3, h4⟩ := hr
  have h5 : (r.y + 1) * r.width ≤ r.height * r.width := Nat.mul_le_mul_right _ h4
  have h6 : r.y * r.width + r.x < 2 ^ 32 := by
    rw [Nat.succ_mul] at h5
    rw [Nat.mul_comm] at hsz
    omega
  unfold Rec.pos
  rw [Nat.mod_eq_of_lt h6]
  constructor
  · intro h
    have e1 : (r.y * r.width + r.x) % r.width = r.x := by
      rw [Nat.add_comm, Nat.add_mul_mod_self_right, Nat.mod_eq_of_lt h3]
    have e2 : (y * r.width + x) % r.width = x := by
      rw [Nat.add_comm, Nat.add_mul_mod_self_right, Nat.mod_eq_of_lt hx]
    have hxx : r.x = x := by rw [← e1, h, e2]
    refine ⟨hxx, ?_⟩
    rw [hxx] at h
    have := Nat.add_right_cancel h
    exact Nat.eq_of_mul_eq_mul_right (by omega) this
  · rintro ⟨rfl, rfl⟩; rfl

/-- **C24** Number of frames by column and row: the frames with image number `y * width + x` come from the records whose
header has column `x` and row `y`. -/
theorem C24_coordinates (L : Layout D F) (files : List (Stream D)) (hf : GoodFiles files) {w h : Nat}
    (hscan : ∀ s ∈ files, ∀ r ∈ s.records, InScan w h r) (hsz : w * h ≤ 2 ^ 32) :
    ∃ (full part : List (Frame F)) (t : State D F),
      Reads L (create files) (full ++ part) t ∧ (read L t).1 = .ok none ∧
      part.Pairwise (fun a b => a.pos < b.pos) ∧
      ∀ x y, x < w → let n := (files.map fun s => s.records.countP fun r => r.x = x ∧ r.y = y).sum
        full.countP (fun f => f.pos = y * w + x) = n / 4 ∧
        part.countP (fun f => f.pos = y * w + x) = if n % 4 = 0 then 0 else 1 := by
  obtain ⟨full, part, t, h1, h2, h3, h4⟩ := C24_count L files hf
  refine ⟨full, part, t, h1, h2, h3, ?_⟩
  intro x y hx
  have := h4 (y * w + x)
  have he : (files.map fun s => s.records.countP fun r => r.pos = y * w + x) =
      files.map fun s => s.records.countP fun r => r.x = x ∧ r.y = y := by
    apply List.map_congr_left
    intro s hs
    apply List.countP_congr
    intro r hr
    simp only [decide_eq_true_eq]
    exact pos_coordinates (hscan s hs r hr) hsz hx
  rw [he] at this
  exact this

/-- **C24** A file whose number is not 0-3 (no module number in its name, or more than four modules) makes the
reader write outside of the frame. -/
theorem C24_bad_sector (L : Layout D F) (st : Stream D) (files : List (Stream D)) (r : Rec D) (rs : List (Rec D))
    (h : st.records = r :: rs) (hs : st.sector < 0 ∨ 4 ≤ st.sector) :
    (read L (create (st :: files) : State D F)).1 = .ub := by
  obtain ⟨a, b, c⟩ := st
  simp only at h hs
  subst h
  rw [create, SectorReader.read]
  simp only
  rw [if_neg (by omega)]

/-! ### C25 -/

theorem writes_length (ws : List (Nat × Nat)) (f : List Nat) : (writes f ws).length = f.length := by
  induction ws generalizing f with
  | nil => rfl
  | cons w ws ih =>
    simp only [writes, List.foldl_cons] at ih ⊢
    rw [ih]; simp

/-- Value of a pixel after writes: if all writes to it write `v`, and there is one, it is `v`. -/
private theorem writes_hit (ws : List (Nat × Nat)) (f : List Nat) (i v : Nat) (hi : i < f.length)
    (hv : ∀ w ∈ ws, w.1 = i → w.2 = v) (h : (∃ w ∈ ws, w.1 = i) ∨ f[i]? = some v) :
    (writes f ws)[i]? = some v := by
  induction ws generalizing f with
  | nil => simpa [writes] using h
  | cons w ws ih =>
    simp only [writes, List.foldl_cons]
    refine ih (f.set w.1 w.2) (by simpa using hi) (fun w hw => hv w (by simp [hw])) ?_
    by_cases hw : w.1 = i
    · right
      rw [hw, hv w (by simp) hw]
      simp [hi]
    · rcases h with ⟨x, hx, hxi⟩ | h
      · rcases List.mem_cons.1 hx with rfl | hx
        · exact absurd hxi hw
        · exact .inl ⟨x, hx, hxi⟩
      · right
        rw [List.getElem?_set_ne hw]
        exact h

private theorem writes_miss (ws : List (Nat × Nat)) (f : List Nat) (i : Nat) (h : ∀ w ∈ ws, w.1 ≠ i) :
    (writes f ws)[i]? = f[i]? := by
  induction ws generalizing f with
  | nil => rfl
  | cons w ws ih =>
    simp only [writes, List.foldl_cons]
    have := ih (f.set w.1 w.2) (fun w hw => h w (by simp [hw]))
    simp only [writes] at this
    rw [this, List.getElem?_set_ne (h w (by simp))]

/-- Writing a sector in the version 4 layout: pixel `(x, y)` belongs to sector `x / 144` and is at
`144 y + x mod 144` in its data. Pixels for which the data is too short are not changed. -/
theorem C25_place_v4 {s x y : Nat} (hs : s < 4) (hx : x < 576) (hy : y < 576) (data f : List Nat)
    (hf : f.length = 576 * 576) :
    (place4 s data f)[576 * y + x]? =
      if x / 144 = s then (data[144 * y + x % 144]?).or f[576 * y + x]? else f[576 * y + x]? := by
  have hmem : ∀ w ∈ ((List.range 576).flatMap fun y => (List.range 144).filterMap fun j =>
      data[144 * y + j]?.map fun v => (576 * y + s * 144 + j, v)), w.1 = 576 * y + x →
      x / 144 = s ∧ data[144 * y + x % 144]? = some w.2 := by
    intro w hw e
    simp only [List.mem_flatMap, List.mem_range, List.mem_filterMap, Option.map_eq_some_iff] at hw
    obtain ⟨y', hy', j, hj, v, hv, rfl⟩ := hw
    simp only at e ⊢
    obtain rfl : y' = y := by omega
    obtain rfl : j = x % 144 := by omega
    exact ⟨by omega, hv⟩
  unfold place4
  by_cases hxs : x / 144 = s
  · rw [if_pos hxs]
    cases hd : data[144 * y + x % 144]? with
    | none =>
      rw [writes_miss]
      · simp
      · intro w hw e
        have := (hmem w hw e).2
        simp [hd] at this
    | some v =>
      rw [Option.some_or]
      apply writes_hit _ _ _ _ (by omega)
      · intro w hw e
        have := (hmem w hw e).2
        rw [hd] at this
        simpa using this.symm
      · left
        refine ⟨(576 * y + s * 144 + x % 144, v), ?_, by simp only; omega⟩
        simp only [List.mem_flatMap, List.mem_range, List.mem_filterMap, Option.map_eq_some_iff]
        exact ⟨y, hy, x % 144, by omega, v, hd, rfl⟩
  · rw [if_neg hxs, writes_miss]
    intro w hw e
    exact hxs (hmem w hw e).1

/-- Writing a sector in the version 5 layout: pixel `(x, y)` belongs to sector `y / 144` and is at
`576 (y mod 144) + x` in its data. -/
theorem C25_place_v5 {s x y : Nat} (hs : s < 4) (hx : x < 576) (hy : y < 576) (data f : List Nat)
    (hf : f.length = 576 * 576) :
    (place5 s data f)[576 * y + x]? =
      if y / 144 = s then (data[576 * (y % 144) + x]?).or f[576 * y + x]? else f[576 * y + x]? := by
  have hmem : ∀ w ∈ ((List.range (576 * 144)).filterMap fun j =>
      data[j]?.map fun v => (s * 144 * 576 + j, v)), w.1 = 576 * y + x →
      y / 144 = s ∧ data[576 * (y % 144) + x]? = some w.2 := by
    intro w hw e
    simp only [List.mem_range, List.mem_filterMap, Option.map_eq_some_iff] at hw
    obtain ⟨j, hj, v, hv, rfl⟩ := hw
    simp only at e ⊢
    have h1 : y / 144 = s := by omega
    have h2 : j = 576 * (y % 144) + x := by omega
    rw [h2] at hv
    exact ⟨h1, hv⟩
  unfold place5
  by_cases hxs : y / 144 = s
  · rw [if_pos hxs]
    cases hd : data[576 * (y % 144) + x]? with
    | none =>
      rw [writes_miss]
      · simp
      · intro w hw e
        have := (hmem w hw e).2
        simp [hd] at this
    | some v =>
      rw [Option.some_or]
      apply writes_hit _ _ _ _ (by omega)
      · intro w hw e
        have := (hmem w hw e).2
        rw [hd] at this
        simpa using this.symm
      · left
        refine ⟨(s * 144 * 576 + (576 * (y % 144) + x), v), ?_, by simp only; omega⟩
        simp only [List.mem_range, List.mem_filterMap, Option.map_eq_some_iff]
        exact ⟨576 * (y % 144) + x, by omega, v, hd, rfl⟩
  · rw [if_neg hxs, writes_miss]
    intro w hw e
    exact hxs (hmem w hw e).1

/-- "Pixel `i` of the frame always gets the value `k` of the data of sector `s`." -/
def CopiedFrom (L : Layout (List Nat) (List Nat)) (i s k : Nat) : Prop :=
  s < 4 ∧ k < 144 * 576 ∧ ∀ data f : List Nat, data.length = 144 * 576 → f.length = 576 * 576 →
    (L.place s data f)[i]? = data[k]?

private theorem tiling_unique {L : Layout (List Nat) (List Nat)} {i s k : Nat} (hi : i < 576 * 576)
    (hother : ∀ s', s' < 4 → s' ≠ s → ∀ data f : List Nat, f.length = 576 * 576 → (L.place s' data f)[i]? = f[i]?)
    (h : CopiedFrom L i s k) : ∀ s' k', CopiedFrom L i s' k' → s' = s ∧ k' = k := by
  rintro s' k' ⟨h1, h2, h3⟩
  have hs : s' = s := by
    by_contra hne
    have e1 := hother s' h1 hne (List.replicate (144 * 576) 0) (List.replicate (576 * 576) 1)
      List.length_replicate
    rw [h3 _ _ List.length_replicate List.length_replicate, List.getElem?_replicate_of_lt hi,
      List.getElem?_replicate_of_lt h2] at e1
    simp at e1
  refine ⟨hs, ?_⟩
  subst hs
  have hl : ((List.range (144 * 576)).map fun j => if j = k then 1 else 0).length = 144 * 576 := by
    rw [List.length_map, List.length_range]
  have a := h.2.2 ((List.range (144 * 576)).map fun j => if j = k then 1 else 0) (List.replicate (576 * 576) 1)
    hl List.length_replicate
  have b := h3 ((List.range (144 * 576)).map fun j => if j = k then 1 else 0) (List.replicate (576 * 576) 1)
    hl List.length_replicate
  rw [a, List.getElem?_map, List.getElem?_map, List.getElem?_range h2, List.getElem?_range h.2.1] at b
  by_contra hne
  simp [hne] at b

theorem version4_place : version4.place = place4 := by rw [version4]

theorem version4_length : version4.empty.length = 576 * 576 := by
  rw [version4, List.length_replicate]

theorem version5_place : version5.place = place5 := by rw [version5]

theorem version5_length : version5.empty.length = 576 * 576 := by
  rw [version5, List.length_replicate]

/-- **C25** The four sectors tile the detector, version 4 (column strips): every pixel of the frame is written by
exactly one pixel of exactly one sector. -/
theorem C25_tiling_v4 (i : Nat) (hi : i < 576 * 576) :
    ∃ s k, CopiedFrom version4 i s k ∧ ∀ s' k', CopiedFrom version4 i s' k' → s' = s ∧ k' = k := by
  have e : i = 576 * (i / 576) + i % 576 := by omega
  have h : CopiedFrom version4 i (i % 576 / 144) (144 * (i / 576) + i % 576 % 144) := by
    refine ⟨by omega, by omega, ?_⟩
    intro data f hd hf
    have := C25_place_v4 (s := i % 576 / 144) (x := i % 576) (y := i / 576) (by omega) (by omega) (by omega)
      data f hf
    rw [← e, if_pos rfl] at this
    have hlt : 144 * (i / 576) + i % 576 % 144 < data.length := by omega
    rw [version4_place, this, List.getElem?_eq_getElem hlt, Option.some_or]
  refine ⟨_, _, h, tiling_unique hi ?_ h⟩
  intro s' hs' hne data f hf
  have := C25_place_v4 (s := s') (x := i % 576) (y := i / 576) hs' (by omega) (by omega) data f hf
  rw [← e, if_neg (fun h => hne h.symm)] at this
  rw [version4_place]
  exact this

/-- **C25** The same for version 5 (row strips). -/
theorem C25_tiling_v5 (i : Nat) (hi : i < 576 * 576) :
    ∃ s k, CopiedFrom version5 i s k ∧ ∀ s' k', CopiedFrom version5 i s' k' → s' = s ∧ k' = k := by
  have e : i = 576 * (i / 576) + i % 576 := by omega
  have h : CopiedFrom version5 i (i / 576 / 144) (576 * (i / 576 % 144) + i % 576) := by
    refine ⟨by omega, by omega, ?_⟩
    intro data f hd hf
    have := C25_place_v5 (s := i / 576 / 144) (x := i % 576) (y := i / 576) (by omega) (by omega) (by omega)
      data f hf
    rw [← e, if_pos rfl] at this
    have hlt : 576 * (i / 576 % 144) + i % 576 < data.length := by omega
    rw [version5_place, this, List.getElem?_eq_getElem hlt, Option.some_or]
  refine ⟨_, _, h, tiling_unique hi ?_ h⟩
  intro s' hs' hne data f hf
  have := C25_place_v5 (s := s') (x := i % 576) (y := i / 576) hs' (by omega) (by omega) data f hf
  rw [← e, if_neg (fun h => hne h.symm)] at this
  rw [version5_place]
  exact this

theorem fold_place {L : Layout (List Nat) (List Nat)} {x y own idx : Nat}
    (hlen : ∀ s data f, (L.place s data f).length = f.length)
    (hplace : ∀ s, s < 4 → ∀ data f : List Nat, f.length = 576 * 576 → (L.place s data f)[576 * y + x]? =
      if own = s then (data[idx]?).or f[576 * y + x]? else f[576 * y + x]?)
    (g : List (Nat × Rec (List Nat))) (hs : (g.map fun i => i.1).Nodup) (h4 : ∀ i ∈ g, i.1 < 4)
    (f : List Nat) (hf : f.length = 576 * 576) :
    (g.foldl (fun f i => L.place i.1 i.2.data f) f)[576 * y + x]? =
      match g.find? (fun i => i.1 = own) with
      | none => f[576 * y + x]?
      | some i => (i.2.data[idx]?).or f[576 * y + x]? := by
  induction g generalizing f with
  | nil => rfl
  | cons i g ih =>
    have hs' := List.nodup_cons.1 hs
    rw [List.foldl_cons, ih hs'.2 (fun i hi => h4 i (by simp [hi])) _ (by rw [hlen]; exact hf),
      hplace i.1 (h4 i (by simp)) _ _ hf, List.find?_cons]
    by_cases hi : i.1 = own
    · have hn : g.find? (fun i => decide (i.1 = own)) = none := by
        rw [List.find?_eq_none]
        intro j hj
        have : i.1 ≠ j.1 := fun e => hs'.1 (by
          simp only [List.mem_map]
          exact ⟨j, hj, e.symm⟩)
        simp
        omega
      rw [hn]
      simp [hi]
    · rw [if_neg (fun h => hi h.symm)]
      simp only [hi, decide_false]

/-- **C25** A frame assembled from four records of the four sectors, in any order: pixel `(x, y)` is the pixel of
the strip it lies in. -/
theorem C25_frame_v4 {p x y : Nat} (hx : x < 576) (hy : y < 576) (g : List (Nat × Rec (List Nat)))
    (hs : (g.map fun i => i.1).Perm [0, 1, 2, 3]) (hd : ∀ i ∈ g, i.2.data.length = 144 * 576) :
    ∃ i ∈ g, i.1 = x / 144 ∧
      (assemble version4 p g).data[576 * y + x]? = i.2.data[144 * y + x % 144]? := by
  have hmem : x / 144 ∈ g.map fun i => i.1 := by
    rw [hs.mem_iff]; simp; omega
  have h := fold_place (L := version4) (own := x / 144) (idx := 144 * y + x % 144)
    (by intro s d f; rw [version4_place]; exact writes_length _ _)
    (by rw [version4_place]; exact fun s hs data f hf => C25_place_v4 hs hx hy data f hf) g (hs.nodup_iff.2 (by simp))
    (by
      intro i hi
      have : i.1 ∈ g.map fun i => i.1 := List.mem_map.2 ⟨i, hi, rfl⟩
      rw [hs.mem_iff] at this
      simp at this; omega)
    version4.empty version4_length
  cases hfind : g.find? (fun i => decide (i.1 = x / 144)) with
  | none =>
    obtain ⟨i, hi, e⟩ := List.mem_map.1 hmem
    have := List.find?_eq_none.1 hfind i hi
    simp [e] at this
  | some i =>
    refine ⟨i, List.mem_of_find?_eq_some hfind, by simpa using List.find?_some hfind, ?_⟩
    rw [hfind] at h
    have hlt : 144 * y + x % 144 < i.2.data.length := by
      rw [hd i (List.mem_of_find?_eq_some hfind)]; omega
    simp only [List.getElem?_eq_getElem hlt, Option.some_or] at h ⊢
    exact h

/-- **C25** The same for the version 5 layout. -/
theorem C25_frame_v5 {p x y : Nat} (hx : x < 576) (hy : y < 576) (g : List (Nat × Rec (List Nat)))
    (hs : (g.map fun i => i.1).Perm [0, 1, 2, 3]) (hd : ∀ i ∈ g, i.2.data.length = 144 * 576) :
    ∃ i ∈ g, i.1 = y / 144 ∧
      (assemble version5 p g).data[576 * y + x]? = i.2.data[576 * (y % 144) + x]? := by
  have hmem : y / 144 ∈ g.map fun i => i.1 := by
    rw [hs.mem_iff]; simp; omega
  have h := fold_place (L := version5) (own := y / 144) (idx := 576 * (y % 144) + x)
    (by intro s d f; rw [version5_place]; exact writes_length _ _)
    (by rw [version5_place]; exact fun s hs data f hf => C25_place_v5 hs hx hy data f hf) g (hs.nodup_iff.2 (by simp))
    (by
      intro i hi
      have : i.1 ∈ g.map fun i => i.1 := List.mem_map.2 ⟨i, hi, rfl⟩
      rw [hs.mem_iff] at this
      simp at this; omega)
    version5.empty version5_length
  cases hfind : g.find? (fun i => decide (i.1 = y / 144)) with
  | none =>
    obtain ⟨i, hi, e⟩ := List.mem_map.1 hmem
    have := List.find?_eq_none.1 hfind i hi
    simp [e] at this
  | some i =>
    refine ⟨i, List.mem_of_find?_eq_some hfind, by simpa using List.find?_some hfind, ?_⟩
    rw [hfind] at h
    have hlt : 576 * (y % 144) + x < i.2.data.length := by
      rw [hd i (List.mem_of_find?_eq_some hfind)]; omega
    simp only [List.getElem?_eq_getElem hlt, Option.some_or] at h ⊢
    exact h

/-- **C25** The pixels of a sector that is missing are zero, version 4. -/
theorem C25_missing_v4 {p x y : Nat} (hx : x < 576) (hy : y < 576) (g : List (Nat × Rec (List Nat)))
    (hs : (g.map fun i => i.1).Nodup) (h4 : ∀ i ∈ g, i.1 < 4) (hm : ∀ i ∈ g, i.1 ≠ x / 144) :
    (assemble version4 p g).data[576 * y + x]? = some 0 := by
  have h := fold_place (L := version4) (x := x) (y := y) (own := x / 144) (idx := 144 * y + x % 144)
    (by intro s d f; rw [version4_place]; exact writes_length _ _)
    (by rw [version4_place]; exact fun s hs data f hf => C25_place_v4 hs hx hy data f hf) g hs h4
    version4.empty version4_length
  have hn : g.find? (fun i => decide (i.1 = x / 144)) = none := by
    rw [List.find?_eq_none]
    intro i hi
    simpa using hm i hi
  rw [hn] at h
  refine Eq.trans h ?_
  rw [version4]
  exact List.getElem?_replicate_of_lt (by omega)

/-- **C25** The pixels of a sector that is missing are zero, version 5. -/
theorem C25_missing_v5 {p x y : Nat} (hx : x < 576) (hy : y < 576) (g : List (Nat × Rec (List Nat)))
    (hs : (g.map fun i => i.1).Nodup) (h4 : ∀ i ∈ g, i.1 < 4) (hm : ∀ i ∈ g, i.1 ≠ y / 144) :
    (assemble version5 p g).data[576 * y + x]? = some 0 := by
  have h := fold_place (L := version5) (x := x) (y := y) (own := y / 144) (idx := 576 * (y % 144) + x)
    (by intro s d f; rw [version5_place]; exact writes_length _ _)
    (by rw [version5_place]; exact fun s hs data f hf => C25_place_v5 hs hx hy data f hf) g hs h4
    version5.empty version5_length
  have hn : g.find? (fun i => decide (i.1 = y / 144)) = none := by
    rw [List.find?_eq_none]
    intro i hi
    simpa using hm i hi
  rw [hn] at h
  refine Eq.trans h ?_
  rw [version5]
  exact List.getElem?_replicate_of_lt (by omega)

/-! ### C26 -/

/-- An operation of the user of a sector reader. -/
inductive SectorOp where
  | read
  | reset

/-- Results of a sequence of operations. -/
def runSector (L : Layout D F) (files : List (Stream D)) :
    State D F → List SectorOp → List (Outcome (Option (Frame F))) × State D F
  | s, [] => ([], s)
  | s, .read :: ops =>
    ((read L s).1 :: (runSector L files (read L s).2 ops).1, (runSector L files (read L s).2 ops).2)
  | s, .reset :: ops => runSector L files (reset files s) ops

private theorem runSector_append (L : Layout D F) (files : List (Stream D)) (s : State D F)
    (a b : List SectorOp) : (runSector L files s (a ++ b)).1 =
      (runSector L files s a).1 ++ (runSector L files (runSector L files s a).2 b).1 := by
  induction a generalizing s with
  | nil => rfl
  | cons op a ih =>
    cases op with
    | read => simp only [List.cons_append, runSector, ih]
    | reset => simp only [List.cons_append, runSector, ih]

/-- A read that reports the end leaves the cache empty. -/
theorem read_none_cache (L : Layout D F) (s : State D F) (h : (read L s).1 = .ok none) :
    (read L s).2.cache = [] := by
  obtain ⟨vs, todo, c⟩ := s
  generalize hn : 2 * (work vs + work todo) + (if todo = [] then 1 else 0) = n
  induction n using Nat.strongRecOn generalizing vs todo c with
  | _ n ih =>
    subst hn
    cases todo with
    | nil =>
      by_cases hv : vs = []
      · subst hv
        rw [SectorReader.read] at h ⊢
        cases c with
        | nil => rfl
        | cons e c => simp at h
      · rw [read_wrap L vs c hv] at h ⊢
        exact ih _ (by simp [hv, work]) [] vs c h rfl
    | cons st rest =>
      cases hr : st.records with
      | nil =>
        cases hc : st.cut with
        | true =>
          exfalso
          rw [SectorReader.read] at h
          obtain ⟨a, b, d⟩ := st
          simp only at hr hc
          subst hr hc
          simp at h
        | false =>
          rw [read_erase L vs rest st c hr hc] at h ⊢
          refine ih _ ?_ vs rest c h rfl
          simp only [work, List.map_cons, List.sum_cons]
          split <;> simp <;> omega
      | cons r rs =>
        by_cases hs : 0 ≤ st.sector ∧ st.sector < 4
        · rw [read_record L vs rest st c r rs hr hs] at h ⊢
          cases hf : feed L c st.sector.toNat r with
          | mk c' o =>
            rw [hf] at h
            cases o with
            | some f => simp at h
            | none =>
              simp only at h ⊢
              refine ih _ ?_ _ rest c' h rfl
              simp only [work, List.map_cons, List.sum_cons, List.map_append, List.sum_append, List.map_nil,
                List.sum_nil, hr, List.length_cons]
              split <;> simp <;> omega
        · exfalso
          rw [SectorReader.read] at h
          obtain ⟨a, b, d⟩ := st
          simp only at hr hs
          subst hr
          simp [hs] at h

/-- **C26** After a history that leaves no frame in the cache, a rewind makes the reader behave as a new one.
Missing for the full statement: a rewind while frames are incomplete, for which it is false
(`C26_rewind_false`). -/
theorem C26_rewind_partial (L : Layout D F) (files : List (Stream D)) (history future : List SectorOp)
    (h : (runSector L files (create files) history).2.cache = []) :
    (runSector L files (create files) (history ++ .reset :: future)).1 =
      (runSector L files (create files) history).1 ++ (runSector L files (create files) future).1 := by
  rw [runSector_append]
  congr 1
  simp only [runSector, reset, h]
  rfl

/-- **C26** Such a history is one in which the last read reported the end. -/
theorem C26_rewind_after_end (L : Layout D F) (files : List (Stream D)) (history future : List SectorOp)
    (h : (read L (runSector L files (create files) history).2).1 = .ok none) :
    (runSector L files (create files) (history ++ .read :: .reset :: future)).1 =
      (runSector L files (create files) history).1 ++ .ok none :: (runSector L files (create files) future).1 := by
  rw [runSector_append]
  congr 1
  simp only [runSector, h, reset, read_none_cache L _ h]
  rfl

def mkRec (p : Nat) (d : D) : Rec D := ⟨0, 0, 2, 1, p, 0, d⟩

def demoFiles (a b : D) : List (Stream D) :=
  [⟨0, [mkRec 1 a, mkRec 0 b], false⟩, ⟨1, [mkRec 0 b, mkRec 1 a], false⟩, ⟨2, [mkRec 0 b, mkRec 1 a], false⟩,
   ⟨3, [mkRec 0 b, mkRec 1 a], false⟩]

/-- Number of frames of position 1 among results. -/
def framesAtOne (l : List (Outcome (Option (Frame F)))) : Nat :=
  l.countP fun o => match o with
    | .ok (some f) => f.pos == 1
    | _ => false

/-- **C26** is false: a rewind after the first frame leaves one sector of the second frame in the cache; after the
rewind position 1 is returned twice: once "complete" although it lacks sector 3, and once as a partial frame.
A new reader returns it once. For any pixel data. -/
theorem C26_rewind_false (L : Layout D F) (a b : D) :
    framesAtOne (runSector L (demoFiles a b) (create (demoFiles a b)) [.read, .read, .read]).1 = 1 ∧
    framesAtOne (runSector L (demoFiles a b) (create (demoFiles a b))
      [.read, .reset, .read, .read, .read]).1 = 2 ∧
    (runSector L (demoFiles a b) (create (demoFiles a b)) [.read, .reset, .read, .read]).1[2]? =
      some (.ok (some ⟨0, (2, 1), 1, L.place 2 a (L.place 1 a (L.place 0 a (L.place 0 a L.empty)))⟩)) := by
  refine ⟨?_, ?_, ?_⟩ <;>
    simp [runSector, create, demoFiles, mkRec, SectorReader.read, feed, addSector, find, SectorReader.insert, erase, Rec.pos, reset,
      framesAtOne]

/-- Files for which the hypotheses of C24 hold. -/
example : GoodFiles (demoFiles (5 : Nat) 6) := by
  intro st hst
  simp [demoFiles] at hst
  rcases hst with rfl | rfl | rfl | rfl <;> simp

/-- All of their records are in a scan of two columns and one row; those of column 1 have position 1. -/
example : (∀ s ∈ demoFiles (5 : Nat) 6, ∀ r ∈ s.records, InScan 2 1 r) ∧ (mkRec 1 (5 : Nat)).pos = 0 * 2 + 1 := by
  refine ⟨?_, rfl⟩
  intro s hs r hr
  simp [demoFiles] at hs
  rcases hs with rfl | rfl | rfl | rfl <;> simp at hr <;> rcases hr with rfl | rfl <;> simp [InScan, mkRec]

end Stempy.Props
