import Verif.Model.SectorPasses
import Verif.Lemmas.SectorStreams
import Verif.Props.ThreadedReader

/-!
C115: sector files read from the beginning to the end, with the state bits of the streams, whole or cut.
-/

namespace Stempy.Props.SectorPasses
open Stempy.Spec
open Stempy.SectorReader (Rec)
open Stempy.SectorFile (field)
open Stempy.SectorStreams
open Stempy.SectorPasses

/-- The sector in which a pixel of the detector is. -/
def sectorOf : Version → Nat → Nat → Nat
  | .v4, x, _ => x / 144
  | .v5, _, y => y / 144

/-- The number of the pixel in its sector. -/
def indexOf : Version → Nat → Nat → Nat
  | .v4, x, y => 144 * y + x % 144
  | .v5, x, y => 576 * (y % 144) + x

/-- The record of a file which begins at `p`: the pixels that are in the file are in their places, all else is as it was. -/
structure Written (v : Version) (sector : Nat) (b : List UInt8) (p : Nat) (m m' : List UInt8) : Prop where
  length : m'.length = m.length
  bytes : ∀ x y e, x < 576 → y < 576 → e < 2 → m'[2 * (576 * y + x) + e]? =
    if sectorOf v x y = sector then (b[p + 16 + (2 * indexOf v x y + e)]?).or m[2 * (576 * y + x) + e]? else m[2 * (576 * y + x) + e]?

theorem put_length {m bs : List UInt8} {off : Nat} (h : off + bs.length ≤ m.length) : (put m off bs).length = m.length := by
  simp [put]; omega

theorem put_get {m bs : List UInt8} {off : Nat} (h : off + bs.length ≤ m.length) (k : Nat) :
    (put m off bs)[k]? = if off ≤ k ∧ k < off + bs.length then bs[k - off]? else m[k]? := by
  unfold put
  by_cases h1 : k < off
  · rw [if_neg (by omega), List.getElem?_append_left (by simp; omega), List.getElem?_append_left (by simp; omega),
      List.getElem?_take_of_lt h1]
  · by_cases h2 : k < off + bs.length
    · rw [if_pos ⟨by omega, h2⟩, List.getElem?_append_left (by simp; omega), List.getElem?_append_right (by simp; omega)]
      congr 1
      simp; omega
    · rw [if_neg (by omega), List.getElem?_append_right (by simp; omega), List.getElem?_drop]
      congr 1
      simp; omega

/-- A stream before row `y` of the pixels at `p`. -/
def At (b : List UInt8) (p n : Nat) (s : IStream) : Prop :=
  (s = ⟨b, p + n, false, false⟩ ∧ p + n ≤ b.length) ∨ (s.fail = true ∧ b.length < p + n)

theorem at_read {b : List UInt8} {p n k : Nat} {s : IStream} (h : At b p n s) :
    (s.read k).1 = (b.drop (p + n)).take k ∧ At b p (n + k) (s.read k).2 := by
  rcases h with ⟨rfl, h⟩ | ⟨h1, h2⟩
  · rw [read_good]
    refine ⟨rfl, ?_⟩
    have hl : ((b.drop (p + n)).take k).length = min k (b.length - (p + n)) := by rw [List.length_take, List.length_drop]
    by_cases hk : p + n + k ≤ b.length
    · left
      rw [hl, Nat.min_eq_left (by omega)]
      exact ⟨by simp [Nat.add_assoc], by omega⟩
    · right
      simp only [hl]
      exact ⟨by simp; omega, by omega⟩
  · rw [read_fail h1]
    refine ⟨?_, .inr ⟨rfl, by omega⟩⟩
    rw [List.drop_eq_nil_of_le (by omega)]
    simp

theorem readRows_spec {b : List UInt8} {p sector : Nat} (hs : sector < 4) (k : Nat) :
    ∀ (y0 : Nat) (m : List UInt8) (s : IStream), m.length = 2 * (576 * 576) → y0 + k ≤ 576 → At b p (288 * y0) s →
      (readRows sector (List.range' y0 k) (m, s)).1.length = m.length ∧
      At b p (288 * (y0 + k)) (readRows sector (List.range' y0 k) (m, s)).2 ∧
      ∀ x y e, x < 576 → y < 576 → e < 2 → (readRows sector (List.range' y0 k) (m, s)).1[2 * (576 * y + x) + e]? =
        if x / 144 = sector ∧ y0 ≤ y ∧ y < y0 + k then (b[p + (2 * (144 * y + x % 144) + e)]?).or m[2 * (576 * y + x) + e]?
        else m[2 * (576 * y + x) + e]? := by
  induction k with
  | zero =>
    intro y0 m s hm hk h
    refine ⟨rfl, h, fun x y e _ _ _ => ?_⟩
    rw [if_neg (by omega)]
    rfl
  | succ k ih =>
    intro y0 m s hm hk h
    obtain ⟨h1, h2⟩ := at_read (k := 144 * 2) h
    have hl : (s.read (144 * 2)).1.length = min 288 (b.length - (p + 288 * y0)) := by
      rw [h1, List.length_take, List.length_drop]
    have hfit : 2 * (576 * y0 + sector * 144) + (s.read (144 * 2)).1.length ≤ m.length := by rw [hm, hl]; omega
    obtain ⟨i1, i2, i3⟩ := ih (y0 + 1) (put m (2 * (576 * y0 + sector * 144)) (s.read (144 * 2)).1) (s.read (144 * 2)).2
      ((put_length hfit).trans hm) (by omega) (by rwa [show 288 * (y0 + 1) = 288 * y0 + 144 * 2 by omega])
    rw [put_length hfit] at i1
    rw [List.range'_succ]
    refine ⟨i1, by rwa [show y0 + (k + 1) = y0 + 1 + k by omega], fun x y e hx hy he => ?_⟩
    refine (i3 x y e hx hy he).trans ?_
    rw [put_get hfit]
    by_cases hsec : x / 144 = sector
    · by_cases hy0 : y = y0
      · subst hy0
        rw [if_neg (c := x / 144 = sector ∧ y + 1 ≤ y ∧ y < y + 1 + k) (by omega),
          if_pos (c := x / 144 = sector ∧ y ≤ y ∧ y < y + (k + 1)) ⟨hsec, Nat.le_refl _, by omega⟩]
        have ek : 2 * (576 * y + x) + e - 2 * (576 * y + sector * 144) = 2 * (x % 144) + e := by omega
        by_cases hin : 2 * (x % 144) + e < (s.read (144 * 2)).1.length
        · rw [if_pos (by omega), ek, h1, List.getElem?_take_of_lt (by omega), List.getElem?_drop]
          have hb : p + 288 * y + (2 * (x % 144) + e) < b.length := by omega
          rw [show p + (2 * (144 * y + x % 144) + e) = p + 288 * y + (2 * (x % 144) + e) by omega, List.getElem?_eq_getElem hb]
          rfl
        · rw [if_neg (by omega)]
          have hb : b.length ≤ p + (2 * (144 * y + x % 144) + e) := by omega
          rw [List.getElem?_eq_none hb]
          rfl
      · rw [if_neg (c := 2 * (576 * y0 + sector * 144) ≤ _ ∧ _) (by omega)]
        by_cases hy1 : y0 + 1 ≤ y ∧ y < y0 + 1 + k
        · rw [if_pos ⟨hsec, hy1⟩, if_pos ⟨hsec, by omega⟩]
        · rw [if_neg (by omega), if_neg (by omega)]
    · rw [if_neg (c := x / 144 = sector ∧ y0 + 1 ≤ y ∧ y < y0 + 1 + k) (by omega),
        if_neg (c := x / 144 = sector ∧ y0 ≤ y ∧ y < y0 + (k + 1)) (by omega), if_neg (by omega)]

theorem at_whole {b : List UInt8} {p n : Nat} {s : IStream} (h : At b (p + 16) n s) (hn : n = 165888 := by decide) : At b p 165904 s := by
  subst hn
  unfold At at *
  rwa [Nat.add_assoc] at h

theorem readSector_spec {b : List UInt8} {p : Nat} (v : Version) {sector : Nat} (hs : sector < 4) {m : List UInt8}
    (hm : m.length = 2 * (576 * 576)) (hp : p + 16 ≤ b.length) :
    Written v sector b p m (readSector v sector m ⟨b, p + 16, false, false⟩).1 ∧
    At b p 165904 (readSector v sector m ⟨b, p + 16, false, false⟩).2 := by
  have hat : At b (p + 16) 0 ⟨b, p + 16, false, false⟩ := .inl ⟨rfl, hp⟩
  cases v with
  | v4 =>
    obtain ⟨h1, h2, h3⟩ := readRows_spec hs 576 0 m _ hm (by omega) hat
    simp only [readSector]
    generalize readRows sector (List.range' 0 576) (m, ⟨b, p + 16, false, false⟩) = r at h1 h2 h3
    refine ⟨⟨h1, fun x y e hx hy he => (h3 x y e hx hy he).trans ?_⟩, ?_⟩
    · by_cases hsec : x / 144 = sector
      · rw [if_pos (c := sectorOf .v4 x y = sector) hsec, if_pos ⟨hsec, by omega, by omega⟩]; rfl
      · rw [if_neg (c := sectorOf .v4 x y = sector) hsec, if_neg (by omega)]
    · exact at_whole h2
  | v5 =>
    obtain ⟨h1, h2⟩ := at_read (k := 576 * 144 * 2) hat
    have hl : ((⟨b, p + 16, false, false⟩ : IStream).read (576 * 144 * 2)).1.length = min 165888 (b.length - (p + 16)) := by
      rw [h1, List.length_take, List.length_drop]
    have hfit : 2 * (sector * 144 * 576) + ((⟨b, p + 16, false, false⟩ : IStream).read (576 * 144 * 2)).1.length ≤ m.length := by
      rw [hm, hl]; omega
    refine ⟨⟨put_length hfit, fun x y e hx hy he => (put_get hfit _).trans ?_⟩, ?_⟩
    · by_cases hsec : y / 144 = sector
      · rw [if_pos (c := sectorOf .v5 x y = sector) hsec]
        have ek : 2 * (576 * y + x) + e - 2 * (sector * 144 * 576) = 2 * (576 * (y % 144) + x) + e := by omega
        by_cases hin : 2 * (576 * (y % 144) + x) + e < ((⟨b, p + 16, false, false⟩ : IStream).read (576 * 144 * 2)).1.length
        · rw [if_pos (by omega), ek, h1, List.getElem?_take_of_lt (by omega), List.getElem?_drop]
          have hb : p + 16 + (2 * (576 * (y % 144) + x) + e) < b.length := by omega
          simp only [indexOf, Nat.add_zero]
          rw [List.getElem?_eq_getElem hb]
          rfl
        · rw [if_neg (by omega)]
          have hb : b.length ≤ p + 16 + (2 * (576 * (y % 144) + x) + e) := by omega
          simp only [indexOf]
          rw [List.getElem?_eq_none hb]
          rfl
      · rw [if_neg (c := sectorOf .v5 x y = sector) hsec, if_neg (by omega)]
    · exact at_whole h2

/-- The header of the record which begins at `p`. -/
def header (b : List UInt8) (p : Nat) : Rec Unit :=
  ⟨field b p 4, field b (p + 4) 4, field b (p + 8) 2, field b (p + 10) 2, field b (p + 12) 2, field b (p + 14) 2, ()⟩

theorem headerAt_drop (b : List UInt8) (p : Nat) : headerAt (b.drop p) = header b p := by
  simp [headerAt, header, field_drop]

theorem at_next {b : List UInt8} {p : Nat} {s : IStream} (h : At b p 165904 s) : At b (p + 165904) 0 s := by
  unfold At at *
  rwa [Nat.add_zero]

theorem next_end {b : List UInt8} {p : Nat} {s : IStream} (h : At b p 0 s) (hp : b.length ≤ p) (v : Version) (sector : Nat)
    (frame : Rec Unit → List UInt8) : ∃ t, nextRecord v sector frame s = .ok (none, t) := by
  rcases h with ⟨rfl, h⟩ | ⟨h, _⟩
  · exact ⟨⟨b, p, true, false⟩, by simp only [nextRecord, Nat.add_zero, peek_end hp]⟩
  · refine ⟨{ s with fail := true }, ?_⟩
    simp [nextRecord, IStream.peek, IStream.sentry, h]

theorem next_cut {b : List UInt8} {p : Nat} {s : IStream} (h : At b p 0 s) (hp : p < b.length) (hc : b.length < p + 16) (v : Version)
    (sector : Nat) (frame : Rec Unit → List UInt8) : nextRecord v sector frame s = .ub := by
  rcases h with ⟨rfl, h⟩ | ⟨_, h⟩
  · have := readHeader_cut hc
    simp only [nextRecord, Nat.add_zero, peek_byte hp]
    rcases hr : readHeader ⟨b, p, false, false⟩ with ⟨x, t⟩
    rw [hr] at this
    simp only at this
    subst this
    rfl
  · omega

theorem next_record {b : List UInt8} {p : Nat} {s : IStream} (h : At b p 0 s) (hp : p + 16 ≤ b.length) (v : Version)
    {sector : Nat} (hs : sector < 4) (frame : Rec Unit → List UInt8) (hm : (frame (header b p)).length = 2 * (576 * 576)) :
    ∃ m t, nextRecord v sector frame s = .ok (some (header b p, m), t) ∧ Written v sector b p (frame (header b p)) m ∧
      At b (p + 165904) 0 t := by
  rcases h with ⟨rfl, h⟩ | ⟨_, h⟩
  · obtain ⟨h1, h2⟩ := readSector_spec v hs hm hp
    refine ⟨_, _, ?_, h1, at_next h2⟩
    simp only [nextRecord, Nat.add_zero, peek_byte (show p < b.length by omega), readHeader_ok hp, headerAt_drop]
  · omega

theorem passes_spec {b : List UInt8} {v : Version} {sector : Nat} (hs : sector < 4) {s : IStream}
    {l : List (Rec Unit × List UInt8 × List UInt8)} {r : Outcome Unit} (hP : Passes v sector s l r) :
    ∀ p, At b p 0 s → (∀ e ∈ l, e.2.1.length = 2 * (576 * 576)) →
      (∀ j h m m', l[j]? = some (h, m, m') → h = header b (p + j * 165904) ∧ Written v sector b (p + j * 165904) m m') ∧
      (∀ j, j < l.length ↔ p + j * 165904 + 16 ≤ b.length) ∧
      (r = .ok () ∧ (∀ j, p + j * 165904 < b.length → p + j * 165904 + 16 ≤ b.length) ∨
       r = .ub ∧ ∃ j, p + j * 165904 < b.length ∧ b.length < p + j * 165904 + 16) := by
  induction hP with
  | @done s t frame hn =>
    intro p hat _
    have hp : b.length ≤ p := by
      by_contra hlt
      by_cases hc : b.length < p + 16
      · rw [next_cut hat (by omega) hc] at hn; cases hn
      · have e : ∀ m : (Rec Unit × List UInt8) × IStream, nextRecord v sector frame s = .ok (some m.1, m.2) → False := by
          intro m hm; rw [hm] at hn; cases hn
        rcases hat with ⟨rfl, h⟩ | ⟨_, h⟩
        · apply e ((_, _), _)
          simp only [nextRecord, Nat.add_zero, peek_byte (show p < b.length by omega), readHeader_ok (show p + 16 ≤ b.length by omega)]
          rfl
        · omega
    refine ⟨by simp, fun j => by simp; omega, .inl ⟨rfl, fun j hj => by omega⟩⟩
  | @cut s frame hn =>
    intro p hat _
    have hp : p < b.length ∧ b.length < p + 16 := by
      constructor
      · by_contra h
        obtain ⟨t, ht⟩ := next_end hat (by omega) v sector frame
        rw [ht] at hn; cases hn
      · by_contra hc
        rcases hat with ⟨rfl, h⟩ | ⟨_, h⟩
        · simp only [nextRecord, Nat.add_zero, peek_byte (show p < b.length by omega), readHeader_ok (show p + 16 ≤ b.length by omega)] at hn
          cases hn
        · omega
    refine ⟨by simp, fun j => by simp; omega, .inr ⟨rfl, 0, by omega, by omega⟩⟩
  | @step s t frame h m l r hn _ ih =>
    intro p hat hm
    have hp : p + 16 ≤ b.length := by
      by_contra hc
      by_cases h0 : b.length ≤ p
      · obtain ⟨t, ht⟩ := next_end hat h0 v sector frame
        rw [ht] at hn; cases hn
      · rw [next_cut hat (by omega) (by omega)] at hn; cases hn
    have hh : h = header b p := by
      rcases hat with ⟨rfl, _⟩ | ⟨_, h⟩
      · simp only [nextRecord, Nat.add_zero, peek_byte (show p < b.length by omega), readHeader_ok hp, headerAt_drop] at hn
        cases hn
        rfl
      · omega
    subst hh
    obtain ⟨m', t', h1, h2, h3⟩ := next_record hat hp v hs frame (hm (header b p, frame (header b p), m) (by simp))
    rw [h1] at hn
    cases hn
    obtain ⟨i1, i2, i3⟩ := ih _ h3 fun e he => hm e (by simp [he])
    have e : ∀ j, p + 165904 + j * 165904 = p + (j + 1) * 165904 := fun j => by omega
    refine ⟨?_, ?_, ?_⟩
    · intro j h0 m0 m1 hj
      cases j with
      | zero =>
        simp only [List.getElem?_cons_zero, Option.some.injEq, Prod.mk.injEq] at hj
        obtain ⟨rfl, rfl, rfl⟩ := hj
        simpa using h2
      | succ j =>
        rw [← e]
        exact i1 j h0 m0 m1 (by simpa using hj)
    · intro j
      cases j with
      | zero => simp; omega
      | succ j =>
        rw [← e, ← i2]
        simp
    · rcases i3 with ⟨rfl, i4⟩ | ⟨rfl, j, i4, i5⟩
      · refine .inl ⟨rfl, fun j hj => ?_⟩
        cases j with
        | zero => omega
        | succ j => rw [← e] at hj ⊢; exact i4 j hj
      · exact .inr ⟨rfl, j + 1, by rw [← e]; exact i4, by rw [← e]; exact i5⟩

/-- **C115** A sector file of any bytes, read from the beginning to the end in either layout: for each record of which the file has the
header there is one pass; the header is that of the record, the pixels in the file go to their places in the frame, and no other byte of the
frame is changed, also if the pixels were cut. The reading ends regularly unless the file ends inside of a header. -/
theorem C115_passes {b : List UInt8} {v : Version} {sector : Nat} (hs : sector < 4) {l : List (Rec Unit × List UInt8 × List UInt8)}
    {r : Outcome Unit} (h : Passes v sector (opened b) l r) (hm : ∀ e ∈ l, e.2.1.length = 2 * (576 * 576)) :
    (∀ j h m m', l[j]? = some (h, m, m') → h = header b (j * 165904) ∧ Written v sector b (j * 165904) m m') ∧
    l.length = (b.length + 165888) / 165904 ∧
    (r = .ok () ↔ b.length % 165904 = 0 ∨ 16 ≤ b.length % 165904) := by
  obtain ⟨h1, h2, h3⟩ := passes_spec hs h 0 (.inl ⟨rfl, Nat.zero_le _⟩) hm
  simp only [Nat.zero_add] at h1 h2 h3
  refine ⟨h1, ?_, ?_⟩
  · have a := h2 l.length
    have b' := h2 (l.length - 1)
    omega
  · rcases h3 with ⟨rfl, h4⟩ | ⟨rfl, j, h4, h5⟩
    · have := h4 (b.length / 165904)
      simp only [true_iff]
      omega
    · simp only [reduceCtorEq, false_iff]
      omega

/-- **C115** A file which ends inside of a header: the values which were not read are used. -/
theorem C115_cut_header_false {b : List UInt8} {v : Version} {sector : Nat} (hs : sector < 4)
    {l : List (Rec Unit × List UInt8 × List UInt8)} {r : Outcome Unit} (h : Passes v sector (opened b) l r)
    (hm : ∀ e ∈ l, e.2.1.length = 2 * (576 * 576)) (h0 : 0 < b.length % 165904) (h1 : b.length % 165904 < 16) : r = .ub := by
  obtain ⟨_, _, h3⟩ := passes_spec hs h 0 (.inl ⟨rfl, Nat.zero_le _⟩) hm
  rcases h3 with ⟨rfl, h4⟩ | ⟨rfl, _⟩
  · have := h4 (b.length / 165904)
    simp only [Nat.zero_add] at this
    omega
  · rfl

/-- **C115** Every file can be read, whatever is in the frames. -/
theorem C115_exists (b : List UInt8) (v : Version) {sector : Nat} (hs : sector < 4) (frame : Nat → List UInt8)
    (hf : ∀ j, (frame j).length = 2 * (576 * 576)) :
    ∃ l r, Passes v sector (opened b) l r ∧ ∀ j e, l[j]? = some e → e.2.1 = frame j := by
  suffices H : ∀ n p j s, b.length ≤ p + n → At b p 0 s → ∃ l r, Passes v sector s l r ∧ ∀ i e, l[i]? = some e → e.2.1 = frame (j + i) by
    obtain ⟨l, r, h1, h2⟩ := H b.length 0 0 (opened b) (by omega) (.inl ⟨rfl, Nat.zero_le _⟩)
    exact ⟨l, r, h1, fun j e he => by simpa using h2 j e he⟩
  intro n
  induction n with
  | zero =>
    intro p j s hn hat
    obtain ⟨t, ht⟩ := next_end hat (by omega) v sector fun _ => frame j
    exact ⟨[], _, .done ht, by simp⟩
  | succ n ih =>
    intro p j s hn hat
    by_cases h0 : b.length ≤ p
    · obtain ⟨t, ht⟩ := next_end hat h0 v sector fun _ => frame j
      exact ⟨[], _, .done ht, by simp⟩
    by_cases hc : b.length < p + 16
    · exact ⟨[], _, .cut (next_cut hat (by omega) hc v sector fun _ => frame j), by simp⟩
    · obtain ⟨m, t, h1, _, h3⟩ := next_record hat (by omega) v hs (fun _ => frame j) (hf j)
      obtain ⟨l, r, h4, h5⟩ := ih (p + 165904) (j + 1) t (by omega) h3
      refine ⟨_, r, .step h1 h4, ?_⟩
      intro i e he
      cases i with
      | zero =>
        simp only [List.getElem?_cons_zero, Option.some.injEq] at he
        subst he
        rfl
      | succ i =>
        rw [h5 i e (by simpa using he)]
        congr 1
        omega

/-! ### The frames of the threaded reader -/

/-- Number of records of a file. -/
def records (b : List UInt8) : Nat := (b.length + 165888) / 165904

/-- The files (sector and bytes) for `Model/ThreadedReader`: the data of a record are the number of its file and its number in it. -/
def entries (files : List (Nat × List UInt8)) : List (ThreadedReader.Entry (Nat × Nat)) :=
  files.mapIdx fun i x => ⟨x.1, (List.range (records x.2)).map fun j =>
    let h := header x.2 (j * 165904)
    ⟨h.scanNumber, h.frameNumber, h.width, h.height, h.x, h.y, (i, j)⟩⟩

/-- The bytes of a file. -/
def content (files : List (Nat × List UInt8)) (i : Nat) : List UInt8 := ((files[i]?).map Prod.snd).getD []

/-- The memory of a frame after the reads of sectors, from `m` on: what each read makes of it is `Written`. -/
inductive Filled (v : Version) (files : List (Nat × List UInt8)) : List UInt8 → List (Nat × Rec (Nat × Nat)) → List UInt8 → Prop where
  | nil (m : List UInt8) : Filled v files m [] m
  | cons {m m' m'' : List UInt8} {sec : Nat} {r : Rec (Nat × Nat)} {l} : Written v sec (content files r.data.1) (r.data.2 * 165904) m m' →
      Filled v files m' l m'' → Filled v files m ((sec, r) :: l) m''

theorem filled_length {v : Version} {files : List (Nat × List UInt8)} {m m' : List UInt8} {l} (h : Filled v files m l m') :
    m'.length = m.length := by
  induction h with
  | nil => rfl
  | cons h _ ih => exact ih.trans h.length

theorem filled_bytes {v : Version} {files : List (Nat × List UInt8)} {m m' : List UInt8} {l} (h : Filled v files m l m')
    (hd : (l.map fun i => i.1).Nodup) {x y e : Nat} (hx : x < 576) (hy : y < 576) (he : e < 2) :
    ((∀ i ∈ l, i.1 ≠ sectorOf v x y) → m'[2 * (576 * y + x) + e]? = m[2 * (576 * y + x) + e]?) ∧
    ∀ i ∈ l, i.1 = sectorOf v x y → m'[2 * (576 * y + x) + e]? =
      ((content files i.2.data.1)[i.2.data.2 * 165904 + 16 + (2 * indexOf v x y + e)]?).or m[2 * (576 * y + x) + e]? := by
  induction h with
  | nil => exact ⟨fun _ => rfl, by simp⟩
  | @cons m m1 m2 sec r l h1 h2 ih =>
    have hd := List.nodup_cons.1 hd
    obtain ⟨i1, i2⟩ := ih hd.2
    have hb := h1.bytes x y e hx hy he
    constructor
    · intro hn
      rw [i1 fun i hi => hn i (by simp [hi]), hb, if_neg fun h => hn (sec, r) (by simp) h.symm]
    · intro i hi hs
      rcases List.mem_cons.1 hi with rfl | hi
      · rw [i1 ?_, hb, if_pos hs.symm]
        intro k hk hks
        exact hd.1 (List.mem_map.2 ⟨k, hk, hks.trans hs.symm⟩)
      · rw [i2 i hi hs, hb, if_neg]
        intro h
        exact hd.1 (List.mem_map.2 ⟨i, hi, hs.trans h⟩)

/-- **C115** The frames of the threaded reader, for any number of threads and any schedule: in a delivered frame of four sectors every byte
of a pixel is the byte of the record of its sector that is in the file, or zero if the file ends before it. -/
theorem C115_delivered (v : Version) (files : List (Nat × List UInt8)) (h4 : ∀ k, (recordsOf (entries files) k).length ≤ 4) {threads : Nat}
    {s : ThreadedReader.State (Nat × Nat)} (hr : Reach ThreadedReader.Step (ThreadedReader.init threads (entries files)) s)
    {b : ThreadedReader.Block (Nat × Nat)} (hb : b ∈ s.delivered)
    (hs : ((recordsOf (entries files) b.key).map fun i => i.1).Perm [0, 1, 2, 3]) {m : List UInt8}
    (hm : Filled v files (List.replicate (2 * (576 * 576)) 0) b.items m) {x y e : Nat} (hx : x < 576) (hy : y < 576) (he : e < 2) :
    ∃ (f : Nat) (p : List UInt8) (j : Nat), files[f]? = some (sectorOf v x y, p) ∧ j * 165904 + 16 ≤ p.length ∧ (header p (j * 165904)).frameNumber = b.key ∧
      m[2 * (576 * y + x) + e]? = some ((p[j * 165904 + 16 + (2 * indexOf v x y + e)]?).getD 0) := by
  have hp := ((C27_exactly_once (entries files) h4 hr).2.2.1 b hb).2.1
  have hperm := (hp.map fun i => i.1).trans hs
  have hsec : sectorOf v x y ∈ b.items.map fun i => i.1 := by
    rw [hperm.mem_iff]
    cases v <;> simp [sectorOf] <;> omega
  obtain ⟨i, hi, his⟩ := List.mem_map.1 hsec
  have h1 := (filled_bytes hm (hperm.nodup_iff.2 (by simp)) hx hy he).2 i hi his
  have h2 := hp.mem_iff.1 hi
  unfold recordsOf at h2
  rw [List.mem_filter] at h2
  obtain ⟨h2, h3⟩ := h2
  unfold sectorRecords at h2
  obtain ⟨en, hen, h2⟩ := List.mem_flatMap.1 h2
  obtain ⟨r, hrm, rfl⟩ := List.mem_map.1 h2
  unfold entries at hen
  obtain ⟨f, hf, rfl⟩ := List.mem_mapIdx.1 hen
  simp only at hrm his h1 h3
  obtain ⟨j, hj, rfl⟩ := List.mem_map.1 hrm
  refine ⟨f, files[f].2, j, ?_, ?_, by simpa using h3, ?_⟩
  · rw [List.getElem?_eq_getElem hf, ← his]
  · have := List.mem_range.1 hj
    unfold records at this
    omega
  · rw [h1]
    have hc : content files f = files[f].2 := by simp [content, List.getElem?_eq_getElem hf]
    simp only [hc]
    rw [List.getElem?_replicate_of_lt (by omega)]
    cases files[f].2[j * 165904 + 16 + (2 * indexOf v x y + e)]? <;> rfl

/-- No two records have the same place. -/
theorem records_nodup (files : List (Nat × List UInt8)) : ((sectorRecords (entries files)).map fun i => i.2.data).Nodup := by
  have key : ∀ (fs : List (Nat × List UInt8)) (n : Nat),
      ((sectorRecords (fs.mapIdx fun i x => (⟨x.1, (List.range (records x.2)).map fun j =>
        let h := header x.2 (j * 165904)
        ⟨h.scanNumber, h.frameNumber, h.width, h.height, h.x, h.y, (i + n, j)⟩⟩ : ThreadedReader.Entry (Nat × Nat)))).map fun i => i.2.data).Nodup ∧
      ∀ d ∈ (sectorRecords (fs.mapIdx fun i x => (⟨x.1, (List.range (records x.2)).map fun j =>
        let h := header x.2 (j * 165904)
        ⟨h.scanNumber, h.frameNumber, h.width, h.height, h.x, h.y, (i + n, j)⟩⟩ : ThreadedReader.Entry (Nat × Nat)))).map fun i => i.2.data, n ≤ d.1 := by
    intro fs
    induction fs with
    | nil => intro n; exact ⟨by simp [sectorRecords], by simp [sectorRecords]⟩
    | cons x fs ih =>
      intro n
      obtain ⟨h1, h2⟩ := ih (n + 1)
      have e : ∀ i : Nat, i + 1 + n = i + (n + 1) := fun i => by omega
      simp only [sectorRecords] at h1 h2
      simp only [sectorRecords, List.mapIdx_cons, List.flatMap_cons, List.map_append, List.map_map, Nat.zero_add, e]
      constructor
      · rw [List.nodup_append]
        refine ⟨?_, h1, ?_⟩
        · refine List.Nodup.map ?_ List.nodup_range
          intro a c h
          simpa using h
        · intro a ha c hc hac
          subst hac
          have := h2 a hc
          obtain ⟨j, _, rfl⟩ := List.mem_map.1 ha
          simp only [Function.comp] at this
          omega
      · intro d hd
        rcases List.mem_append.1 hd with hd | hd
        · obtain ⟨j, _, rfl⟩ := List.mem_map.1 hd
          simp
        · have := h2 d hd
          omega
  exact (key files 0).1

/-- A byte after the reads of any sectors: that of one of the records of its sector, and the old one only if none of them has it. -/
theorem filled_any {v : Version} {files : List (Nat × List UInt8)} {m m' : List UInt8} {l} (h : Filled v files m l m')
    {x y e : Nat} (hx : x < 576) (hy : y < 576) (he : e < 2) :
    (∃ i ∈ l, i.1 = sectorOf v x y ∧ ∃ c, (content files i.2.data.1)[i.2.data.2 * 165904 + 16 + (2 * indexOf v x y + e)]? = some c ∧
      m'[2 * (576 * y + x) + e]? = some c) ∨
    (m'[2 * (576 * y + x) + e]? = m[2 * (576 * y + x) + e]? ∧ ∀ i ∈ l, i.1 = sectorOf v x y →
      (content files i.2.data.1).length ≤ i.2.data.2 * 165904 + 16 + (2 * indexOf v x y + e)) := by
  induction h with
  | nil => exact .inr ⟨rfl, by simp⟩
  | @cons m m1 m2 sec r l h1 h2 ih =>
    have hb := h1.bytes x y e hx hy he
    rcases ih with ⟨i, hi, h3⟩ | ⟨h3, h4⟩
    · exact .inl ⟨i, by simp [hi], h3⟩
    · by_cases hs : sectorOf v x y = sec
      · rw [if_pos hs] at hb
        cases hc : (content files r.data.1)[r.data.2 * 165904 + 16 + (2 * indexOf v x y + e)]? with
        | some c =>
          rw [hc] at hb
          exact .inl ⟨(sec, r), by simp, hs.symm, c, hc, by rw [h3, hb]; rfl⟩
        | none =>
          rw [hc] at hb
          refine .inr ⟨by rw [h3, hb]; rfl, ?_⟩
          intro i hi
          rcases List.mem_cons.1 hi with rfl | hi
          · exact fun _ => List.getElem?_eq_none_iff.1 hc
          · exact h4 i hi
      · rw [if_neg hs] at hb
        refine .inr ⟨by rw [h3, hb], ?_⟩
        intro i hi
        rcases List.mem_cons.1 hi with rfl | hi
        · exact fun h => absurd h.symm hs
        · exact h4 i hi

/-- The items of delivered frames are records of the files, with the sector of the file and the number of the frame. -/
theorem item_file (files : List (Nat × List UInt8)) {i : Nat × Rec (Nat × Nat)} (hi : i ∈ sectorRecords (entries files)) :
    ∃ p, files[i.2.data.1]? = some (i.1, p) ∧ i.2.data.2 * 165904 + 16 ≤ p.length ∧
      (header p (i.2.data.2 * 165904)).frameNumber = i.2.frameNumber := by
  unfold sectorRecords at hi
  obtain ⟨en, hen, h2⟩ := List.mem_flatMap.1 hi
  obtain ⟨r, hrm, rfl⟩ := List.mem_map.1 h2
  unfold entries at hen
  obtain ⟨f, hf, rfl⟩ := List.mem_mapIdx.1 hen
  simp only at hrm
  obtain ⟨j, hj, rfl⟩ := List.mem_map.1 hrm
  refine ⟨files[f].2, List.getElem?_eq_getElem hf, ?_, rfl⟩
  have := List.mem_range.1 hj
  unfold records at this
  simp only
  omega

/-- **C115** The frames of the threaded reader in all cases in which it uses no freed frame (`C27_freed_iff`), for any number of threads, any schedule and
files with any number of records of a frame: a frame is made of four different records of its number, and each byte of a pixel is, in its place, that of
one of those which are in a file of its sector; it is zero instead only if there are none or their files end before the byte. -/
theorem C115_bytes (v : Version) (files : List (Nat × List UInt8)) {threads : Nat}
    (hc : threads ≤ 1 ∨ ∀ k, (recordsOf (entries files) k).length ≤ 4 ∨ filesWith (entries files) k ≤ 1)
    {s : ThreadedReader.State (Nat × Nat)} (hr : Reach ThreadedReader.Step (ThreadedReader.init threads (entries files)) s)
    {b : ThreadedReader.Block (Nat × Nat)} (hb : b ∈ s.delivered) :
    b.items.length = 4 ∧ (b.items.map fun i => i.2.data).Nodup ∧
    (∀ i ∈ b.items, ∃ p, files[i.2.data.1]? = some (i.1, p) ∧ i.2.data.2 * 165904 + 16 ≤ p.length ∧
      (header p (i.2.data.2 * 165904)).frameNumber = b.key) ∧
    ∀ m, Filled v files (List.replicate (2 * (576 * 576)) 0) b.items m → ∀ x y e, x < 576 → y < 576 → e < 2 →
      (∃ i ∈ b.items, ∃ p c, files[i.2.data.1]? = some (sectorOf v x y, p) ∧ p[i.2.data.2 * 165904 + 16 + (2 * indexOf v x y + e)]? = some c ∧
        m[2 * (576 * y + x) + e]? = some c) ∨
      (m[2 * (576 * y + x) + e]? = some 0 ∧ ∀ i ∈ b.items, ∀ p, files[i.2.data.1]? = some (sectorOf v x y, p) →
        p.length ≤ i.2.data.2 * 165904 + 16 + (2 * indexOf v x y + e)) := by
  obtain ⟨-, h2, ⟨others, h3⟩, -⟩ := C27_many_records hc hr
  obtain ⟨h4, h5, -⟩ := h2 b hb
  have hmem : ∀ i ∈ b.items, i ∈ sectorRecords (entries files) := fun i hi =>
    h3.mem_iff.1 (List.mem_append.2 (.inl (List.mem_flatMap.2 ⟨b, hb, hi⟩)))
  have hfile : ∀ i ∈ b.items, ∃ p, files[i.2.data.1]? = some (i.1, p) ∧ i.2.data.2 * 165904 + 16 ≤ p.length ∧
      (header p (i.2.data.2 * 165904)).frameNumber = b.key := by
    intro i hi
    obtain ⟨p, q1, q2, q3⟩ := item_file files (hmem i hi)
    exact ⟨p, q1, q2, q3.trans (h5 i hi)⟩
  refine ⟨h4, ?_, hfile, ?_⟩
  · have hn : ((s.delivered.flatMap (fun b => b.items) ++ others).map fun i => i.2.data).Nodup :=
      (h3.map _).nodup_iff.2 (records_nodup files)
    rw [List.map_append] at hn
    have hn := (List.nodup_append.1 hn).1
    refine hn.sublist (List.Sublist.map _ ?_)
    obtain ⟨p, q, hpq⟩ := List.append_of_mem hb
    rw [hpq, List.flatMap_append, List.flatMap_cons]
    exact (List.sublist_append_left _ _).trans (List.sublist_append_right _ _)
  · intro m hm x y e hx hy he
    have hcont : ∀ i ∈ b.items, ∀ p q, files[i.2.data.1]? = some (q, p) → content files i.2.data.1 = p := by
      intro i _ p q h
      simp [content, h]
    rcases filled_any hm hx hy he with ⟨i, hi, q1, c, q2, q3⟩ | ⟨q1, q2⟩
    · obtain ⟨p, r1, -, -⟩ := hfile i hi
      rw [hcont i hi p _ r1] at q2
      rw [q1] at r1
      exact .inl ⟨i, hi, p, c, r1, q2, q3⟩
    · refine .inr ⟨by rw [q1, List.getElem?_replicate_of_lt (by omega)], ?_⟩
      intro i hi p hp
      obtain ⟨p', r1, -, -⟩ := hfile i hi
      have hq : i.1 = sectorOf v x y := by
        rw [hp] at r1
        simp only [Option.some.injEq, Prod.mk.injEq] at r1
        exact r1.1.symm
      have := q2 i hi hq
      rwa [hcont i hi p _ hp] at this

/-- **C115** The records of `Model/ThreadedReader` are the passes over the files. -/
theorem C115_entries (v : Version) (files : List (Nat × List UInt8)) {f sector : Nat} {b : List UInt8} (hf : files[f]? = some (sector, b))
    (hs : sector < 4) {l : List (Rec Unit × List UInt8 × List UInt8)} {r : Outcome Unit} (h : Passes v sector (opened b) l r)
    (hm : ∀ e ∈ l, e.2.1.length = 2 * (576 * 576)) :
    ∃ rs, (entries files)[f]? = some ⟨sector, rs⟩ ∧ rs.length = l.length ∧
      ∀ (j : Nat) (h1 : j < rs.length) (h2 : j < l.length), rs[j].data = (f, j) ∧ rs[j].frameNumber = l[j].1.frameNumber ∧
        rs[j].pos = l[j].1.pos ∧ Written v sector (content files f) (j * 165904) l[j].2.1 l[j].2.2 := by
  obtain ⟨h1, h2, _⟩ := C115_passes hs h hm
  have hc : content files f = b := by simp [content, hf]
  refine ⟨_, by simp only [entries, List.getElem?_mapIdx, hf, Option.map_some]; rfl, by simp [records, h2], ?_⟩
  intro j h3 h4
  obtain ⟨e1, e2⟩ := h1 j l[j].1 l[j].2.1 l[j].2.2 (List.getElem?_eq_getElem h4)
  rw [hc]
  simp only [List.getElem_map, List.getElem_range]
  exact ⟨trivial, by rw [e1], by rw [e1]; rfl, e2⟩

/-- **C115** The reads of a frame can be made, so there is such a memory. -/
theorem C115_filled (v : Version) (files : List (Nat × List UInt8)) (l : List (Nat × Rec (Nat × Nat)))
    (h : ∀ i ∈ l, i.1 < 4 ∧ i.2.data.2 * 165904 + 16 ≤ (content files i.2.data.1).length) {m : List UInt8} (hm : m.length = 2 * (576 * 576)) :
    ∃ m', Filled v files m l m' := by
  induction l generalizing m with
  | nil => exact ⟨m, .nil m⟩
  | cons i l ih =>
    obtain ⟨sec, r⟩ := i
    have h0 := h (sec, r) (by simp)
    have hw := (readSector_spec (b := content files r.data.1) (p := r.data.2 * 165904) v h0.1 hm h0.2).1
    obtain ⟨m', hm'⟩ := ih (fun i hi => h i (by simp [hi])) (hw.length.trans hm)
    exact ⟨m', .cons hw hm'⟩

/-! ### Examples -/

/-- Files with one record of which only two pixels and a half were written. -/
def cutFiles : List (Nat × List UInt8) := (List.range 4).map fun i => (i, [1, 0, 0, 0, 5, 0, 0, 0, 2, 0, 1, 0, 1, 0, 0, 0, 10, 0, 11, 1, 7])

theorem cutFiles_four : ∀ k, (recordsOf (entries cutFiles) k).length = if k = 5 then 4 else 0 := by
  intro k
  have e : (sectorRecords (entries cutFiles)).map (fun i => i.2.frameNumber) = [5, 5, 5, 5] := by decide +kernel
  have e2 : (recordsOf (entries cutFiles) k).length = ([5, 5, 5, 5] : List Nat).countP (fun n => n = k) := by
    rw [← e, List.countP_map, List.countP_eq_length_filter]
    rfl
  rw [e2]
  by_cases hk : k = 5
  · subst hk; decide
  · have : ¬ (5 = k) := fun h => hk h.symm
    simp [hk, this]

/-- `C115_passes`, `C115_exists`: a cut file is read in one pass, without an error. -/
example (frame : List UInt8) (hf : frame.length = 2 * (576 * 576)) :
    ∃ l, Passes .v4 2 (opened [1, 0, 0, 0, 5, 0, 0, 0, 2, 0, 1, 0, 1, 0, 0, 0, 10, 0, 11, 1, 7]) l (.ok ()) ∧ l.length = 1 := by
  obtain ⟨l, r, h1, h2⟩ := C115_exists [1, 0, 0, 0, 5, 0, 0, 0, 2, 0, 1, 0, 1, 0, 0, 0, 10, 0, 11, 1, 7] .v4 (sector := 2) (by decide)
    (fun _ => frame) fun _ => hf
  obtain ⟨_, h3, h4⟩ := C115_passes (by decide) h1 (fun e he => by
    obtain ⟨j, hj⟩ := List.mem_iff_getElem?.1 he
    rw [h2 j e hj]
    exact hf)
  rw [h4.2 (by decide)] at h1
  exact ⟨l, h1, by rw [h3]; decide⟩

/-- `C115_delivered`: the frame of the cut files is delivered, and its memory exists. -/
example (threads : Nat) (ht : 0 < threads) : ∃ s, Reach ThreadedReader.Step (ThreadedReader.init threads (entries cutFiles)) s ∧
    ∃ b ∈ s.delivered, b.key = 5 ∧ ((recordsOf (entries cutFiles) b.key).map fun i => i.1).Perm [0, 1, 2, 3] ∧
      ∃ m, Filled .v5 cutFiles (List.replicate (2 * (576 * 576)) 0) b.items m := by
  have h4 : ∀ k, (recordsOf (entries cutFiles) k).length ≤ 4 := fun k => by rw [cutFiles_four]; split <;> omega
  obtain ⟨s, h1, h2⟩ := C27_exists (entries cutFiles) h4 threads
  obtain ⟨_, _, h5, h6⟩ := C27_exactly_once (entries cutFiles) h4 h1
  have h7 := h6 ht h2 5
  rw [cutFiles_four, if_pos rfl, if_pos rfl] at h7
  obtain ⟨b, hb, hk⟩ := List.countP_pos_iff.1 (show 0 < s.delivered.countP fun b => b.key = 5 by omega)
  simp only [decide_eq_true_eq] at hk
  have hperm : ((recordsOf (entries cutFiles) 5).map fun i => i.1).Perm [0, 1, 2, 3] := by decide +kernel
  refine ⟨s, h1, b, hb, hk, hk ▸ hperm, ?_⟩
  apply C115_filled
  · intro i hi
    have h8 := (h5 b hb).2.1.mem_iff.1 hi
    rw [hk] at h8
    have : ∀ i ∈ recordsOf (entries cutFiles) 5, i.1 < 4 ∧ i.2.data.2 * 165904 + 16 ≤ (content cutFiles i.2.data.1).length := by
      decide +kernel
    exact this i h8
  · exact List.length_replicate

/-- Five files with one record of the same frame, two of them with the same sector. -/
def fiveCut : List (Nat × List UInt8) := cutFiles ++ [(3, [1, 0, 0, 0, 5, 0, 0, 0, 2, 0, 1, 0, 1, 0, 0, 0, 20])]

/-- `C115_bytes`: one thread delivers a frame of four of the five records, and its memory exists. -/
example : 4 < (recordsOf (entries fiveCut) 5).length ∧ ∃ s, Reach ThreadedReader.Step (ThreadedReader.init 1 (entries fiveCut)) s ∧
    ∃ b ∈ s.delivered, b.key = 5 ∧ ∃ m, Filled .v5 fiveCut (List.replicate (2 * (576 * 576)) 0) b.items m := by
  have e : (sectorRecords (entries fiveCut)).map (fun i => i.2.frameNumber) = [5, 5, 5, 5, 5] := by decide +kernel
  have e2 : (recordsOf (entries fiveCut) 5).length = 5 := by
    rw [show (recordsOf (entries fiveCut) 5).length = ([5, 5, 5, 5, 5] : List Nat).countP (fun n => n = 5) by
      rw [← e, List.countP_map, List.countP_eq_length_filter]
      rfl]
    decide
  obtain ⟨s, h1, h2⟩ := C27_many_records_exists (files := entries fiveCut) (threads := 1) (.inl (by omega))
  obtain ⟨-, -, -, h4⟩ := C27_many_records (files := entries fiveCut) (.inl (by omega)) h1
  have h7 := h4 (by omega) h2 5
  rw [e2] at h7
  obtain ⟨b, hb, hk⟩ := List.countP_pos_iff.1 (show 0 < s.delivered.countP fun b => b.key = 5 by omega)
  obtain ⟨-, -, h8, -⟩ := C115_bytes .v5 fiveCut (.inl (by omega)) h1 hb
  refine ⟨by omega, s, h1, b, hb, by simpa using hk, C115_filled _ _ _ ?_ List.length_replicate⟩
  intro i hi
  obtain ⟨p, q1, q2, -⟩ := h8 i hi
  refine ⟨?_, by simpa [content, q1] using q2⟩
  have : ∀ f ∈ fiveCut, f.1 < 4 := by decide +kernel
  exact this _ (List.mem_of_getElem? q1)

end Stempy.Props.SectorPasses
