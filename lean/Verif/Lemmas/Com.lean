import Verif.Lemmas.PyImage

/-! Center of mass: both implementations, for arbitrary coordinate functions. -/

namespace Stempy.PyImage
open Numpy Sparse

/-- As `kept` and `centerOfMass`, with coordinates `X` and `Y`. -/
def keptXY (X Y : Nat → Nat) (crop : Option Rat) (init : Option (Rat × Rat)) (ev : List Nat) : List Nat :=
  match crop with
  | none => ev
  | some r => ev.filter fun e =>
      sqrtLe (((X e : Rat) - (init.getD (average X ev, average Y ev)).1) ^ 2 +
        ((Y e : Rat) - (init.getD (average X ev, average Y ev)).2) ^ 2) r

def comXY (X Y : Nat → Nat) (crop : Option Rat) (init : Option (Rat × Rat)) (ev : List Nat) : Option (Rat × Rat) :=
  let l := keptXY X Y crop init ev
  if l = [] then none else some (average Y l, average X l)

theorem kept_eq (w : Nat) (crop : Option Rat) (init : Option (Rat × Rat)) (ev : List Nat) :
    kept w crop init ev = keptXY (· / w) (· % w) crop init ev := by
  cases crop with
  | none => rfl
  | some r => simp only [kept, keptXY, sqrtLe, eventDist2, pow_two]

theorem centerOfMass_eq (w : Nat) (crop : Option Rat) (init : Option (Rat × Rat)) (ev : List Nat) :
    centerOfMass w crop init ev = comXY (· / w) (· % w) crop init ev := by
  simp only [centerOfMass, comXY, kept_eq]

def initVal (init : Option (Num × Num)) : Option (Rat × Rat) := init.map fun c => (c.1.val, c.2.val)

def InitNear (init : Option (Num × Num)) : Prop := ∀ c, init = some c → c.1.Near ∧ c.2.Near

theorem mean_map (f : Nat → Nat) (ev : List Nat) : mean (ev.map f) = average f ev := by
  simp [mean, average]

theorem comPosition_eq {f0 f1 : Nat} (crop : Option Rat) {init : Option (Num × Num)} (hi : InitNear init) {ev : List Nat}
    (hx : ∀ e ∈ ev, e / f0 < 32768 ∧ e % f1 < 32768) :
    comPosition f0 f1 crop init ev =
      ((comXY (· / f0) (· % f1) crop (initVal init) ev).map Prod.fst,
       (comXY (· / f0) (· % f1) crop (initVal init) ev).map Prod.snd) := by
  unfold comPosition comXY
  cases ev with
  | nil => cases crop <;> simp [keptXY]
  | cons e0 l =>
    rw [if_pos (by simp)]
    generalize hev : e0 :: l = ev at *
    have hne : ev ≠ [] := by rw [← hev]; simp
    cases crop with
    | none => simp [keptXY, hne, mean_map]
    | some r =>
      have key : ((ev.map (· / f0)).zip (ev.map (· % f1))).filter (fun p => sqrtLe (dist2 p.1 p.2
            (cropAround init (ev.map (· / f0)) (ev.map (· % f1))).1
            (cropAround init (ev.map (· / f0)) (ev.map (· % f1))).2) r)
          = (keptXY (· / f0) (· % f1) (some r) (initVal init) ev).map fun e => (e / f0, e % f1) := by
        rw [List.zip_map', List.filter_map]
        congr 1
        simp only [keptXY]
        apply List.filter_congr
        intro e he
        obtain ⟨h1, h2⟩ := hx e he
        simp only [Function.comp]
        cases init with
        | none =>
          simp only [cropAround, initVal, Option.map_none, Option.getD_none, mean_map]
          rw [dist2_eq (cx := .float _) (cy := .float _) h1 h2 trivial trivial]; rfl
        | some c =>
          simp only [cropAround, initVal, Option.map_some, Option.getD_some]
          rw [dist2_eq h1 h2 (hi c rfl).1 (hi c rfl).2]
      simp only [key, List.length_map, List.map_map]
      by_cases hk : keptXY (· / f0) (· % f1) (some r) (initVal init) ev = []
      · simp [hk]
      · have : (keptXY (· / f0) (· % f1) (some r) (initVal init) ev).length > 0 := List.length_pos_iff.2 hk
        rw [if_pos this, if_neg hk]
        simp only [Option.map_some, ← mean_map]
        rfl

/-- The events of position `j`. -/
def at_ (j : Nat) (T : List Ev) : List Ev := T.filter fun e => e.1 = j

theorem bincountLength_eq {pos : List Nat} {n : Nat} (h : ∀ p ∈ pos, p < n) : bincountLength pos n = n := by
  unfold bincountLength
  induction pos with
  | nil => rfl
  | cons p l ih =>
    rw [List.foldl_cons]
    have := h p (by simp)
    rw [show max n (p + 1) = n by omega]
    exact ih fun q hq => h q (by simp [hq])

theorem count_at (j : Nat) (T : List Ev) : (T.map Prod.fst).count j = (at_ j T).length := by
  induction T with
  | nil => rfl
  | cons e l ih =>
    simp only [List.map_cons, List.count_cons, at_, List.filter_cons] at *
    by_cases h : e.1 = j
    · simp [h, ih]
    · simp [h, ih]

theorem sum_at (j : Nat) (T : List Ev) (f : Nat × Nat → Nat) :
    ((((T.map Prod.fst).zip (T.map fun e => f e.2)).filter fun p => p.1 = j).map Prod.snd).sum =
      ((at_ j T).map fun e => f e.2).sum := by
  rw [List.zip_map', List.filter_map, List.map_map]
  rfl

theorem quotients_eq {α : Type} {n : Nat} (d : α) (g : Rat → α) (T : List Ev) (f : Nat × Nat → Nat)
    (h : ∀ e ∈ T, e.1 < n) :
    quotients n d g (bincountW (T.map Prod.fst) (T.map fun e => f e.2) n) (bincount (T.map Prod.fst) n) =
      .ok ((List.range n).map fun j => if at_ j T = [] then d
        else g (((((at_ j T).map fun e => f e.2).sum : Nat) : Rat) / ((at_ j T).length : Nat))) := by
  have hl : bincountLength (T.map Prod.fst) n = n := bincountLength_eq (by simpa using fun a b c h' => h _ h')
  unfold quotients bincountW bincount
  rw [hl, if_pos (by simp), List.zip_map', List.map_map]
  congr 1
  apply List.map_congr_left
  intro j _
  simp only [Function.comp, sum_at, count_at]
  by_cases h0 : at_ j T = []
  · simp [h0]
  · rw [if_neg h0, if_pos (List.length_pos_iff.2 h0)]

/-- The center used for cropping. -/
def cropCenter (init : Option (Rat × Rat)) (T : List Ev) (j : Nat) : Rat × Rat :=
  init.getD (((((at_ j T).map (·.2.1)).sum : Nat) : Rat) / ((at_ j T).length : Nat),
    ((((at_ j T).map (·.2.2)).sum : Nat) : Rat) / ((at_ j T).length : Nat))

theorem gather_range_map {α : Type} {n : Nat} (f : Nat → α) {pos : List Nat} (h : ∀ p ∈ pos, p < n) :
    gather ((List.range n).map f) pos = .ok (pos.map f) := by
  unfold gather
  refine mapM_ok _ _ _ ?_
  intro p hp
  have := h p hp
  simp [this]

theorem at_self_ne {T : List Ev} {e : Ev} (he : e ∈ T) : at_ e.1 T ≠ [] := by
  intro h
  have : e ∈ at_ e.1 T := by simp [at_, he]
  rw [h] at this
  cases this

theorem zip_filter {α β : Type} (l : List α) (g : α → β) (p : α × β → Bool) :
    ((l.zip (l.map g)).filter p).map Prod.fst = l.filter fun a => p (a, g a) := by
  rw [show l.zip (l.map g) = l.map fun a => (a, g a) by
    conv_lhs => rw [show l.zip (l.map g) = (l.map id).zip (l.map g) by simp]
    rw [List.zip_map']; rfl]
  rw [List.filter_map, List.map_map]
  simp [Function.comp_def]

theorem cropEvents_eq {n : Nat} (r : Rat) (init : Option (Num × Num)) (T : List Ev) (h : ∀ e ∈ T, e.1 < n) :
    cropEvents n (some r) init T = .ok (T.filter fun e =>
      sqrtLe (((e.2.1 : Rat) - (cropCenter (initVal init) T e.1).1) ^ 2 +
        ((e.2.2 : Rat) - (cropCenter (initVal init) T e.1).2) ^ 2) r) := by
  unfold cropEvents
  cases init with
  | some c => simp [initVal, cropCenter]
  | none =>
    simp only [initVal, Option.map_none]
    have hp : ∀ p ∈ T.map Prod.fst, p < n := by simpa using fun a b c h' => h _ h'
    rw [quotients_eq 0 id T Prod.fst h, quotients_eq 0 id T Prod.snd h]
    simp only [Outcome.ok_bind, gather_range_map _ hp]
    congr 1
    rw [List.map_map, List.map_map, List.zip_map', zip_filter]
    apply List.filter_congr
    intro e he
    have hne := at_self_ne he
    simp only [Function.comp, if_neg hne, id, cropCenter, Option.getD_none]

/-- The events of the data with their scan positions and coordinates. -/
def located (X Y : Nat → Nat) (data : List (List (List Nat))) (k : Nat) : List Ev :=
  (data.zipIdx k).flatMap fun r => r.1.flatten.map fun e => (r.2, X e, Y e)

theorem located_at (X Y : Nat → Nat) (data : List (List (List Nat))) (k j : Nat) (hk : k ≤ j) :
    at_ j (located X Y data k) = (data.getD (j - k) []).flatten.map fun e => (j, X e, Y e) := by
  induction data generalizing k with
  | nil => simp [located, at_]
  | cons row l ih =>
    have e1 : located X Y (row :: l) k = (row.flatten.map fun e => (k, X e, Y e)) ++ located X Y l (k + 1) := by
      simp [located, List.zipIdx_cons]
    rw [e1]
    simp only [at_, List.filter_append] at *
    rcases Nat.eq_or_lt_of_le hk with rfl | hlt
    · have h2 : (located X Y l (k + 1)).filter (fun e => decide (e.1 = k)) = [] := by
        rw [List.filter_eq_nil_iff]
        intro e he
        simp only [located, List.mem_flatMap, List.mem_map] at he
        obtain ⟨r, hr, x, _, rfl⟩ := he
        have := List.mem_zipIdx hr
        simp; omega
      rw [h2, Nat.sub_self]
      simp [List.filter_map, Function.comp_def]
    · rw [ih (k + 1) hlt]
      have h3 : ((row.flatten.map fun e => (k, X e, Y e)).filter fun e => decide (e.1 = j)) = [] := by
        rw [List.filter_eq_nil_iff]
        intro e he
        obtain ⟨x, _, rfl⟩ := List.mem_map.1 he
        simp; omega
      rw [h3, show j - k = (j - (k + 1)) + 1 by omega]
      simp

theorem located_lt (X Y : Nat → Nat) (data : List (List (List Nat))) : ∀ e ∈ located X Y data 0, e.1 < data.length := by
  intro e he
  simp only [located, List.mem_flatMap, List.mem_map] at he
  obtain ⟨r, hr, x, _, rfl⟩ := he
  have := List.mem_zipIdx hr
  simp; omega

/-- The two images. -/
def images (replace : Bool) (l : List (Option (Rat × Rat))) : Com :=
  if replace then (replaceNans (l.map fun v => v.map Prod.fst), replaceNans (l.map fun v => v.map Prod.snd))
  else (l.map fun v => v.map Prod.fst, l.map fun v => v.map Prod.snd)

/-- Kept events at a position. -/
theorem cropped_at (X Y : Nat → Nat) (data : List (List (List Nat))) (r : Rat) (init : Option (Num × Num)) (j : Nat) :
    at_ j ((located X Y data 0).filter fun e =>
      sqrtLe (((e.2.1 : Rat) - (cropCenter (initVal init) (located X Y data 0) e.1).1) ^ 2 +
        ((e.2.2 : Rat) - (cropCenter (initVal init) (located X Y data 0) e.1).2) ^ 2) r) =
      (keptXY X Y (some r) (initVal init) (data.getD j []).flatten).map fun e => (j, X e, Y e) := by
  unfold at_
  rw [List.filter_comm]
  rw [show (located X Y data 0).filter (fun e => decide (e.1 = j)) = at_ j (located X Y data 0) from rfl,
    located_at X Y data 0 j (Nat.zero_le _), List.filter_map]
  congr 1
  simp only [keptXY, Nat.sub_zero]
  apply List.filter_congr
  intro e _
  simp only [Function.comp, cropCenter, located_at X Y data 0 j (Nat.zero_le _), Nat.sub_zero, List.map_map, List.length_map]
  rfl

theorem values_of (T : List Ev) (X Y : Nat → Nat) (n : Nat) (K : Nat → List Nat)
    (h : ∀ j, at_ j T = (K j).map fun e => (j, X e, Y e)) (g : Nat × Nat → Nat) :
    ((List.range n).map fun j => if at_ j T = [] then none
        else some (((((at_ j T).map fun e => g e.2).sum : Nat) : Rat) / ((at_ j T).length : Nat))) =
      (List.range n).map fun j => if K j = [] then none else some (average (fun e => g (X e, Y e)) (K j)) := by
  apply List.map_congr_left
  intro j _
  rw [h j]
  simp only [List.map_eq_nil_iff, List.map_map, List.length_map, average]
  rfl

theorem nanmean_none (n : Nat) : nanmean (List.replicate n none) = none := by
  simp [nanmean]

theorem replaceNans_none (n : Nat) : replaceNans (List.replicate n none) = List.replicate n none := by
  unfold replaceNans
  rw [nanmean_none]
  simp

theorem images_none (replace : Bool) (n : Nat) (f : Nat → Option (Rat × Rat)) (h : ∀ p < n, f p = none) :
    images replace ((List.range n).map f) = (List.replicate n none, List.replicate n none) := by
  have e : (List.range n).map f = List.replicate n none := by
    rw [List.eq_replicate_iff]
    refine ⟨by simp, ?_⟩
    intro b hb
    obtain ⟨p, hp, rfl⟩ := List.mem_map.1 hb
    exact h p (List.mem_range.1 hp)
  rw [e]
  unfold images
  simp [replaceNans_none]

theorem comXY_nil (X Y : Nat → Nat) (crop : Option Rat) (init : Option (Rat × Rat)) : comXY X Y crop init [] = none := by
  cases crop <;> simp [comXY, keptXY]

theorem comXY_fst (X Y : Nat → Nat) (crop : Option Rat) (init : Option (Rat × Rat)) (l : List Nat) :
    (comXY X Y crop init l).map Prod.fst =
      if keptXY X Y crop init l = [] then none else some (average Y (keptXY X Y crop init l)) := by
  unfold comXY
  by_cases h : keptXY X Y crop init l = [] <;> simp [h]

theorem comXY_snd (X Y : Nat → Nat) (crop : Option Rat) (init : Option (Rat × Rat)) (l : List Nat) :
    (comXY X Y crop init l).map Prod.snd =
      if keptXY X Y crop init l = [] then none else some (average X (keptXY X Y crop init l)) := by
  unfold comXY
  by_cases h : keptXY X Y crop init l = [] <;> simp [h]

/-- The second part of the kernel, for the events that are kept. -/
theorem kernel_tail {T : List Ev} {n : Nat} (h : ∀ e ∈ T, e.1 < n) (X Y : Nat → Nat) (crop : Option Rat)
    (init : Option (Rat × Rat)) (L : Nat → List Nat)
    (hT : ∀ j, at_ j T = (keptXY X Y crop init (L j)).map fun e => (j, X e, Y e)) (replace : Bool) :
    (do let com ← comValues n T
        Outcome.ok (if replace then (replaceNans com.1, replaceNans com.2) else com)) =
      .ok (images replace ((List.range n).map fun p => comXY X Y crop init (L p))) := by
  unfold comValues
  by_cases h0 : T = []
  · subst h0
    have : ∀ p < n, comXY X Y crop init (L p) = none := by
      intro p _
      have := hT p
      simp only [at_, List.filter_nil] at this
      have := List.map_eq_nil_iff.1 this.symm
      simp [comXY, this]
    rw [images_none _ _ _ this]
    cases replace <;> simp [replaceNans_none]
  · rw [if_pos (List.length_pos_iff.2 h0)]
    simp only
    rw [quotients_eq none some T Prod.snd h, quotients_eq none some T Prod.fst h]
    simp only [Outcome.ok_bind]
    rw [values_of T X Y n _ hT Prod.snd, values_of T X Y n _ hT Prod.fst]
    congr 1
    simp only [images, List.map_map, Function.comp_def, comXY_fst, comXY_snd]

theorem comSparseV1_eq {a : SparseArray} (hlen : a.data.length = prod a.scanShape) {s0 s1 f0 f1 : Nat}
    (hs : a.scanShape = [s0, s1]) (hf : a.frameShape = [f0, f1])
    (hlt : ∀ row ∈ a.data, ∀ fr ∈ row, ∀ e ∈ fr, e < f0 * f1)
    (crop : Option Rat) (init : Option (Num × Num)) (replace : Bool) :
    comSparseV1 a crop init replace = .ok (images replace ((List.range (s0 * s1)).map fun p =>
      comXY (· / f0) (· % f1) crop (initVal init) (eventsAt a p))) := by
  have hn : a.data.length = s0 * s1 := by rw [hlen, hs]; simp [prod]
  unfold comSparseV1 comV1Kernel
  rw [hs, hf]
  simp only
  generalize hE : (a.data.zipIdx.flatMap fun r => r.1.flatten.map fun e => (r.2, e)) = E
  have hloc : ∀ X Y : Nat → Nat, E.map (fun p => (p.1, X p.2, Y p.2)) = located X Y a.data 0 := by
    intro X Y
    rw [← hE, List.map_flatMap]
    simp only [List.map_map, located]
    rfl
  by_cases h0 : E = []
  · rw [if_pos (by simp [h0])]
    congr 1
    symm
    apply images_none
    intro p _
    have h1 := hloc id id
    rw [h0, List.map_nil] at h1
    have h2 := located_at id id a.data 0 p (Nat.zero_le _)
    rw [← h1] at h2
    simp only [at_, List.filter_nil] at h2
    have h3 := List.map_eq_nil_iff.1 h2.symm
    simp only [eventsAt, Nat.sub_zero] at *
    rw [h3, comXY_nil]
  · rw [if_neg (by simpa using h0)]
    have hpos : f0 * f1 ≠ 0 := by
      obtain ⟨x, l, hx⟩ := List.exists_cons_of_ne_nil h0
      have : x ∈ E := by rw [hx]; simp
      rw [← hE] at this
      obtain ⟨r, hr, hx2⟩ := List.mem_flatMap.1 this
      obtain ⟨e, he, _⟩ := List.mem_map.1 hx2
      obtain ⟨fr, hfr, he2⟩ := List.mem_flatten.1 he
      have := hlt r.1 (List.fst_mem_of_mem_zipIdx hr) fr hfr e he2
      omega
    have hf0 : f0 ≠ 0 := fun h => hpos (by simp [h])
    have hf1 : f1 ≠ 0 := fun h => hpos (by simp [h])
    simp only [decodeX_eq hf0, decodeY_eq hf1]
    rw [hloc (· / f0) (· % f1)]
    have hlt' : ∀ e ∈ located (· / f0) (· % f1) a.data 0, e.1 < s0 * s1 := by
      rw [← hn]; exact located_lt _ _ _
    cases crop with
    | none =>
      simp only [cropEvents, Outcome.ok_bind, List.isEmpty_nil, if_true]
      refine kernel_tail hlt' _ _ none (initVal init) (eventsAt a) ?_ replace
      intro j
      rw [located_at _ _ a.data 0 j (Nat.zero_le _)]
      rfl
    | some r =>
      rw [cropEvents_eq r init _ hlt']
      simp only [Outcome.ok_bind, List.isEmpty_nil, if_true]
      refine kernel_tail (fun e he => hlt' e (List.mem_of_mem_filter he)) _ _ (some r) (initVal init) (eventsAt a) ?_ replace
      intro j
      rw [cropped_at (· / f0) (· % f1) a.data r init j]
      rfl

theorem comSparseV0_eq {a : SparseArray} (hlen : a.data.length = prod a.scanShape) {s0 s1 f0 f1 : Nat}
    (hs : a.scanShape = [s0, s1]) (hf : a.frameShape = [f0, f1]) (hfr : ∀ row ∈ a.data, row ≠ [])
    (hlt : ∀ row ∈ a.data, ∀ fr ∈ row, ∀ e ∈ fr, e < f0 * f1) (hsmall : f1 ≤ 32768)
    (crop : Option Rat) {init : Option (Num × Num)} (hi : InitNear init) (replace : Bool) :
    comSparseV0 a crop init replace = .ok (images replace ((List.range (s0 * s1)).map fun p =>
      comXY (· / f0) (· % f1) crop (initVal init) (eventsAt a p))) := by
  have hn : a.data.length = s0 * s1 := by rw [hlen, hs]; simp [prod]
  unfold comSparseV0
  rw [hf, hs]
  simp only
  have key : (a.data.mapM fun frames => do
        let ev ← concatenate frames
        Outcome.ok (comPosition f0 f1 crop init ev)) =
      .ok (a.data.map fun frames => ((comXY (· / f0) (· % f1) crop (initVal init) frames.flatten).map Prod.fst,
        (comXY (· / f0) (· % f1) crop (initVal init) frames.flatten).map Prod.snd)) := by
    apply mapM_ok
    intro row hrow
    have h1 : concatenate row = .ok row.flatten := by
      unfold concatenate; rw [if_neg (by simpa using hfr row hrow)]
    rw [h1, Outcome.ok_bind, comPosition_eq crop hi]
    intro e he
    obtain ⟨fr, hfr2, he2⟩ := List.mem_flatten.1 he
    have h2 := hlt row hrow fr hfr2 e he2
    have hpos : 0 < f1 := by
      rcases Nat.eq_zero_or_pos f1 with h | h
      · simp [h] at h2
      · exact h
    exact ⟨lt_of_lt_of_le (Nat.div_lt_of_lt_mul h2) hsmall, lt_of_lt_of_le (Nat.mod_lt _ hpos) hsmall⟩
  rw [key]
  have hmap : ∀ g : List Nat → Option (Rat × Rat), (a.data.map fun frames => g frames.flatten) =
      (List.range (s0 * s1)).map fun p => g (eventsAt a p) := by
    intro g
    conv_lhs => rw [← map_getD_range a.data [], hn, List.map_map]
    rfl
  simp only [Outcome.ok_bind, List.map_map]
  have hm := hmap (comXY (· / f0) (· % f1) crop (initVal init))
  unfold images
  rw [← hm]
  simp only [List.map_map]
  cases replace <;> rfl

end Stempy.PyImage
