import Verif.Props.SparseIndex

/-!
# C44: index expressions with an ellipsis

`_split_slices` does not know the ellipsis: it is counted as an element for one axis.
-/

namespace Stempy.Numpy

theorem selection_noarray {shape : List Nat} {items : List Item} (h : ∀ it ∈ items, it.isArray = false) :
    selection shape items = select shape (expandEllipsis shape.length items) := by
  unfold selection
  split
  · rename_i x y n m
    rw [h x (by simp)]
    rfl
  · rfl

theorem expandEllipsis_at (n : Nat) (pre post : List Item) (h : Item.ellipsis ∉ pre) :
    expandEllipsis n (pre ++ .ellipsis :: post) =
      pre ++ List.replicate (n - ((pre.map axes).sum + (post.map axes).sum)) .all ++ post := by
  have hi : (pre ++ .ellipsis :: post).idxOf? Item.ellipsis = some pre.length := by
    rw [List.idxOf?_eq_some_iff]
    refine ⟨by simp, by simp, fun j hj => ?_⟩
    rw [List.getElem_append_left hj]
    intro he
    exact h (he ▸ List.getElem_mem hj)
  unfold expandEllipsis
  rw [hi]
  simp [axes]

end Stempy.Numpy

namespace Stempy.Sparse
open Numpy

private theorem splitSlices_noarray (a : SparseArray) (ha : WF a) (key : List Item) (hk : ∀ it ∈ key, it.isArray = false)
    (hlen : key.length ≤ a.scanShape.length + 2) :
    splitSlices a key = .ok (key.take a.scanShape.length, key.drop a.scanShape.length) := by
  have hmd : ∀ it : Item, it.isArray = false → ∀ n, tooManyDims it n = false := fun it h n => by simp [tooManyDims, h]
  have hmo : ∀ it : Item, it.isArray = false → ∀ s, maskOk it s = true := fun it h s => by
    cases it <;> first | rfl | simp [Item.isArray] at h
  have hany : ∀ l : List Item, (∀ it ∈ l, it.isArray = false) → l.any Item.isArray = false := fun l h => by
    rw [List.any_eq_false]; intro x hx; simp [h x hx]
  have hfo : ∀ l : List Item, (∀ it ∈ l, it.isArray = false) → l.length ≤ 2 → frameSlicesOk l = true := fun l h hl => by
    match l, h, hl with
    | [], _, _ => rfl
    | [x], h, _ => simp [frameSlicesOk, hmd x (h x (by simp))]
    | [x, y], h, _ => simp [frameSlicesOk, hmd x (h x (by simp)), hmd y (h y (by simp))]
    | x :: y :: z :: l, _, hl => simp at hl
  have hhead : ∀ l : List Item, (∀ it ∈ l, it.isArray = false) → (l.headD .all).isArray = false := fun l h => by
    cases l with
    | nil => rfl
    | cons x l => exact h x (by simp)
  cases key with
  | nil => simp [splitSlices]
  | cons first rest =>
    have h1 := hk first (by simp)
    have h2 : ∀ it ∈ rest, it.isArray = false := fun it hit => hk it (by simp [hit])
    rw [splitSlices, if_neg (by simp [hmd first h1])]
    rcases ha.ndim with hn | hn
    · rw [hn] at hlen ⊢
      simp only [Nat.lt_irrefl, decide_false, Bool.false_and, Bool.false_eq_true, if_false, List.take_succ_cons,
        List.take_zero, List.drop_succ_cons, List.drop_zero, gt_iff_lt]
      rw [hfo rest h2 (by simpa using hlen), hany rest h2, hmo first h1, hmo _ (hhead rest h2)]
      simp
    · have h3 : ∀ it ∈ rest.drop 1, it.isArray = false := fun it hit => h2 it (List.mem_of_mem_drop hit)
      rw [hn] at hlen ⊢
      simp only [gt_iff_lt, show (1 : Nat) < 2 by omega, decide_true, h1, Bool.not_false, Bool.true_or, Bool.and_self, if_true,
        Bool.true_and, List.take_succ_cons, List.drop_succ_cons]
      rw [hmd _ (hhead rest h2), hfo _ h3 (by simp at hlen ⊢; omega), hany _ h3, hmo first h1, hmo _ (hhead _ h3)]
      simp

private theorem frame_nodup {shape : List Nat} {items : List Item} (h : ∀ it ∈ items, it.isArray = false) :
    ∀ fs, selection shape items = .ok fs → fs.idx.Nodup := fun fs hf =>
  (selection_ok hf).2 fun it hit => by
    have := h it hit
    cases it <;> trivial

/-- The result of slicing without arrays. -/
private theorem getitem_noarray {a : SparseArray} (ha : WF a) (hfr : a.frameShape.length = 2) (hsp : a.sparseSlicing = true)
    {key : List Item} (hk : ∀ it ∈ key, it.isArray = false) (hlen : key.length ≤ a.scanShape.length + 2) :
    (getitem a key).bind Value.toDense =
      (selection a.scanShape (key.take a.scanShape.length)).bind fun ss =>
        (selection a.frameShape (key.drop a.scanShape.length)).bind fun fs => .ok (.dense (picked a ss fs)) := by
  have hne : a.frameShape ≠ [] := by intro h; rw [h] at hfr; simp at hfr
  have hg : getitem a key = sliceSparse a (key.take a.scanShape.length) (key.drop a.scanShape.length) := by
    rw [getitem, splitSlices_noarray a ha key hk hlen, Outcome.ok_bind]
    simp only [hsp, if_true]
  rw [hg, sliceSparse_bind' ha hne (by simp) (by simp; omega)
    (frame_nodup fun it h => hk it (List.mem_of_mem_drop h))]

private theorem basic_facts {l : List Item} (h : ∀ it ∈ l, it.Basic) :
    Item.ellipsis ∉ l ∧ (∀ it ∈ l, it.isArray = false) ∧ (l.map axes).sum = l.length := by
  refine ⟨fun hm => h _ hm, fun it hit => basic_isArray (h it hit), ?_⟩
  induction l with
  | nil => rfl
  | cons x l ih =>
    have hx := h x (by simp)
    rw [List.map_cons, List.sum_cons, ih fun it hit => h it (by simp [hit]), List.length_cons]
    cases x <;> first | (simp [axes]; omega) | exact hx.elim

private theorem two_noarray {x y : Item} (hx : x.isArray = false) (hy : y.isArray = false) : ∀ it ∈ [x, y], it.isArray = false := by
  intro it hit
  simp only [List.mem_cons, List.not_mem_nil, or_false] at hit
  rcases hit with rfl | rfl
  · exact hx
  · exact hy

private theorem two_basic {x y : Item} (hx : x.Basic) (hy : y.Basic) : ∀ it ∈ [x, y], it.Basic := by
  intro it hit
  simp only [List.mem_cons, List.not_mem_nil, or_false] at hit
  rcases hit with rfl | rfl
  · exact hx
  · exact hy

/-- **C44** An ellipsis among the first elements (as many as the scan has axes) is taken for `:`. So the result is that of NumPy only if the ellipsis
is for one axis, or no element follows. -/
theorem C44_ellipsis_scan (a : SparseArray) (ha : WF a) (hfr : a.frameShape.length = 2) (hsp : a.sparseSlicing = true)
    (pre post : List Item) (hpre : ∀ it ∈ pre, it.Basic) (hpost : ∀ it ∈ post, it.Basic)
    (hp : pre.length < a.scanShape.length) (hlen : pre.length + 1 + post.length ≤ a.shape.length) :
    (getitem a (pre ++ .ellipsis :: post)).bind Value.toDense =
      (index (dense a) (pre ++ .all :: post)).bind fun x => .ok (.dense x) := by
  have hl : a.shape.length = a.scanShape.length + 2 := by simp [SparseArray.shape, hfr]
  rw [hl] at hlen
  obtain ⟨e1, n1, s1⟩ := basic_facts hpre
  obtain ⟨e2, n2, s2⟩ := basic_facts hpost
  have hb : ∀ it ∈ pre ++ .all :: post, it.Basic := by
    intro it hit
    rcases List.mem_append.1 hit with h | h
    · exact hpre it h
    · rcases List.mem_cons.1 h with rfl | h
      · exact all_basic
      · exact hpost it h
  have hna : ∀ it ∈ pre ++ .ellipsis :: post, it.isArray = false := by
    intro it hit
    rcases List.mem_append.1 hit with h | h
    · exact n1 it h
    · rcases List.mem_cons.1 h with rfl | h
      · rfl
      · exact n2 it h
  rw [← C44_basic a ha hfr hsp _ hb (by rw [hl]; simp; omega),
    getitem_noarray ha hfr hsp hna (by simp; omega),
    getitem_noarray ha hfr hsp (fun it h => basic_isArray (hb it h)) (by simp; omega)]
  have hd : (pre ++ Item.ellipsis :: post).drop a.scanShape.length = (pre ++ Item.all :: post).drop a.scanShape.length := by
    obtain ⟨k, hk⟩ : ∃ k, a.scanShape.length = pre.length + (k + 1) := ⟨a.scanShape.length - pre.length - 1, by omega⟩
    rw [hk, List.drop_append, List.drop_append]
    simp
  rw [hd]
  congr 1
  match hsh : a.scanShape, ha.ndim, hp, hlen with
  | [n], _, hp, _ =>
    have : pre = [] := List.length_eq_zero_iff.1 (by simpa using hp)
    subst this
    show selection [n] [.ellipsis] = selection [n] [.all]
    rw [selection_noarray (by simp [Item.isArray]), selection_noarray (by simp [Item.isArray, Item.all])]
    rfl
  | [n, m], _, hp, _ =>
    match pre, hp with
    | [], _ =>
      cases post with
      | nil =>
        show selection [n, m] [.ellipsis] = selection [n, m] [.all]
        rw [selection_noarray (by simp [Item.isArray]), selection_all]
        show select [n, m] [.all, .all] = _
        obtain ⟨s, hs⟩ := select_alls_ok (shape := [n, m]) (items := [.all, .all]) (by simp) (by simp)
        rw [hs, select_alls (by simp) hs]
      | cons x post =>
        have hx : axes x = 1 := by
          have := hpost x (by simp)
          cases x <;> first | rfl | exact this.elim
        show selection [n, m] [.ellipsis, x] = selection [n, m] [.all, x]
        rw [selection_noarray (two_noarray rfl (n2 x (by simp))), selection_basic (two_basic all_basic (hpost x (by simp)))]
        have := expandEllipsis_at 2 [] [x] (by simp)
        simp only [List.nil_append, List.map_cons, hx, List.map_nil, List.sum_cons, List.sum_nil, List.replicate_one,
          List.singleton_append, Nat.add_zero, Nat.zero_add, Nat.reduceSub] at this
        exact congrArg _ this
    | [x], _ =>
      have hx : axes x = 1 := by
        have := hpre x (by simp)
        cases x <;> first | rfl | exact this.elim
      show selection [n, m] [x, .ellipsis] = selection [n, m] [x, .all]
      rw [selection_noarray (two_noarray (n1 x (by simp)) rfl), selection_basic (two_basic (hpre x (by simp)) all_basic)]
      have := expandEllipsis_at 2 [x] [] e1
      simp only [List.map_cons, hx, List.map_nil, List.sum_cons, List.sum_nil, List.replicate_one,
        List.singleton_append, Nat.add_zero, Nat.reduceSub, List.append_nil] at this
      exact congrArg _ this
    | _ :: _ :: _, hp => simp at hp; omega
  | [], h, _, _ => simp at h
  | _ :: _ :: _ :: _, h, _, _ => simp at h

/-- **C44** After all axes of the scan an ellipsis is right. -/
theorem C44_ellipsis_frame_partial (a : SparseArray) (ha : WF a) (hfr : a.frameShape.length = 2) (hsp : a.sparseSlicing = true)
    (pre post : List Item) (hpre : ∀ it ∈ pre, it.Basic) (hpost : ∀ it ∈ post, it.Basic)
    (hp : a.scanShape.length ≤ pre.length) (hlen : pre.length + 1 + post.length ≤ a.shape.length) :
    (getitem a (pre ++ .ellipsis :: post)).bind Value.toDense =
      (index (dense a) (pre ++ .ellipsis :: post)).bind fun x => .ok (.dense x) := by
  have hl : a.shape.length = a.scanShape.length + 2 := by simp [SparseArray.shape, hfr]
  rw [hl] at hlen
  obtain ⟨e1, n1, s1⟩ := basic_facts hpre
  obtain ⟨e2, n2, s2⟩ := basic_facts hpost
  have hna : ∀ it ∈ pre ++ .ellipsis :: post, it.isArray = false := by
    intro it hit
    rcases List.mem_append.1 hit with h | h
    · exact n1 it h
    · rcases List.mem_cons.1 h with rfl | h
      · rfl
      · exact n2 it h
  rw [getitem_noarray ha hfr hsp hna (by simp; omega)]
  rw [List.take_append_of_le_length hp, List.drop_append_of_le_length hp]
  have ht : ∀ it ∈ pre.take a.scanShape.length, it.Basic := fun it h => hpre it (List.mem_of_mem_take h)
  have hd : ∀ it ∈ pre.drop a.scanShape.length, it.Basic := fun it h => hpre it (List.mem_of_mem_drop h)
  obtain ⟨e3, n3, s3⟩ := basic_facts ht
  obtain ⟨e4, n4, s4⟩ := basic_facts hd
  have hsh : (dense a).shape = a.scanShape ++ a.frameShape := rfl
  have hsel : selection (dense a).shape (pre ++ .ellipsis :: post) =
      (selection a.scanShape (pre.take a.scanShape.length)).bind fun ss =>
        (selection a.frameShape (pre.drop a.scanShape.length ++ .ellipsis :: post)).bind fun fs =>
          .ok (ss.product fs (prod a.frameShape)) := by
    rw [hsh, selection_noarray hna, selection_basic ht, selection_noarray (by
        intro it hit
        rcases List.mem_append.1 hit with h | h
        · exact n4 it h
        · exact hna it (List.mem_append_right _ h)),
      expandEllipsis_at _ _ _ e1, expandEllipsis_at _ _ _ e4, s1, s2, s4, List.length_drop, List.length_append, hfr]
    have hn : a.scanShape.length + 2 - (pre.length + post.length) = 2 - (pre.length - a.scanShape.length + post.length) := by omega
    rw [hn]
    have := select_append' a.scanShape a.frameShape (pre.take a.scanShape.length)
      (pre.drop a.scanShape.length ++ List.replicate (2 - (pre.length - a.scanShape.length + post.length)) .all ++ post)
      (fun it hit he => e3 (he ▸ hit)) (.inl (by rw [s3, List.length_take]; omega))
    rw [← this]
    congr 1
    rw [← List.append_assoc, ← List.append_assoc, List.take_append_drop]
  rw [index, hsel]
  cases h1 : selection a.scanShape (pre.take a.scanShape.length) with
  | throw m => rfl
  | ub => rfl
  | ok ss =>
    cases h2 : selection a.frameShape (pre.drop a.scanShape.length ++ .ellipsis :: post) with
    | throw m => rfl
    | ub => rfl
    | ok fs =>
      show Outcome.ok (Value.dense (picked a ss fs)) =
        ((gather (dense a).flat (ss.product fs (prod a.frameShape)).idx).bind fun l =>
          Outcome.ok (NArray.mk (ss.product fs (prod a.frameShape)).shape l)).bind fun x => Outcome.ok (Value.dense x)
      rw [gather_dense a (selection_ok h1).1 (selection_ok h2).1]
      rfl

/-- **C44** With an element for every axis, an ellipsis (for no axis) is always an error for the sparse array, but not for NumPy. -/
theorem C44_ellipsis_empty (a : SparseArray) (ha : WF a) (hfr : a.frameShape.length = 2)
    (pre post : List Item) (hpre : ∀ it ∈ pre, it.Basic) (hpost : ∀ it ∈ post, it.Basic)
    (hlen : pre.length + post.length = a.shape.length) :
    getitem a (pre ++ .ellipsis :: post) = .throw "IndexError" ∧
      index (dense a) (pre ++ .ellipsis :: post) = index (dense a) (pre ++ post) := by
  have hl : a.shape.length = a.scanShape.length + 2 := by simp [SparseArray.shape, hfr]
  obtain ⟨e1, n1, s1⟩ := basic_facts hpre
  obtain ⟨e2, n2, s2⟩ := basic_facts hpost
  have hna : ∀ it ∈ pre ++ .ellipsis :: post, it.isArray = false := by
    intro it hit
    rcases List.mem_append.1 hit with h | h
    · exact n1 it h
    · rcases List.mem_cons.1 h with rfl | h
      · rfl
      · exact n2 it h
  constructor
  · have hs : splitSlices a (pre ++ .ellipsis :: post) = .throw "IndexError" := by
      have hkl : (pre ++ Item.ellipsis :: post).length = a.scanShape.length + 3 := by simp; omega
      generalize pre ++ Item.ellipsis :: post = key at hna hkl
      cases key with
      | nil => simp at hkl
      | cons first rest =>
        have h1 := hna first (by simp)
        have h2 : tooManyDims (rest.headD .all) 1 = false := by
          cases rest with
          | nil => rfl
          | cons x _ => simp [tooManyDims, hna x (by simp)]
        have hno : ∀ l : List Item, 2 < l.length → frameSlicesOk l = false
          | _ :: _ :: _ :: _, _ => rfl
          | [], h => by simp at h
          | [_], h => by simp at h
          | [_, _], h => by simp at h
        simp only [splitSlices]
        rw [if_neg (by simp [tooManyDims, h1]), h2]
        simp only [Bool.and_false, Bool.false_eq_true, if_false]
        rw [if_pos]
        simp only [h1, Bool.not_false, Bool.true_or, Bool.and_true, Bool.not_eq_true']
        apply hno
        rcases ha.ndim with hn | hn
        · rw [hn] at hkl
          rw [if_neg (by simp [hn])]
          simp at hkl ⊢; omega
        · rw [hn] at hkl
          rw [if_pos (by simp [hn])]
          simp at hkl ⊢; omega
    rw [getitem, hs]; rfl
  · have hb : ∀ it ∈ pre ++ post, it.Basic := by
      intro it hit
      rcases List.mem_append.1 hit with h | h
      · exact hpre it h
      · exact hpost it h
    have hd : (dense a).shape.length = a.shape.length := rfl
    rw [index, index, selection_noarray hna, selection_basic hb, expandEllipsis_at _ _ _ e1, s1, s2, hd, ← hlen]
    simp

/-- `a[..., 1]`, `a[1, ..., 0]` and `a[1, 0, ..., 2]`. -/
example : (getitem sample [.ellipsis, .int 1]).bind Value.toDense = .ok (.dense ⟨[2, 2, 3], [0, 0, 0, 0, 0, 1, 1, 0, 2, 0, 0, 0]⟩) ∧
    index (dense sample) [.ellipsis, .int 1] = .ok ⟨[2, 2, 2], [0, 2, 0, 0, 1, 0, 0, 0]⟩ ∧
    (getitem sample [.int 1, .ellipsis, .int 0]).bind Value.toDense = .ok (.dense ⟨[2, 3], [0, 1, 1, 1, 0, 2]⟩) ∧
    (getitem sample [.int 1, .int 0, .ellipsis, .int 2]).bind Value.toDense = .ok (.dense ⟨[2], [1, 0]⟩) ∧
    index (dense sample) [.int 1, .int 0, .ellipsis, .int 2] = .ok ⟨[2], [1, 0]⟩ := by
  refine ⟨by decide, by decide, by decide, by decide, by decide⟩

end Stempy.Sparse
