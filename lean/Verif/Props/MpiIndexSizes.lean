import Verif.Model.MpiIndexSizes
import Verif.Props.MpiSizes

/-!
C120: the sizes of the messages with the index of sector locations.
-/

namespace Stempy.MpiSizes
open Stempy.Archive Stempy.Props
open Stempy.MultiPass (ScanMap)

private theorem toInt32_small {n : Nat} (h : n < 2 ^ 31) : toInt32 n = n := by
  unfold toInt32
  obtain ⟨m, hm⟩ : ∃ m : Nat, m = 2 ^ 32 := ⟨_, rfl⟩
  rw [← hm]
  obtain ⟨q, h1, h2, h3⟩ := bmod_spec n m 2147483648 (by omega) (by omega)
  have hm' : (m : Int) = 4294967296 := by omega
  rw [hm'] at h1
  omega

private theorem slices (msgs : List Bytes) (pre : Bytes) {ds : List Int}
    (h : displacements (msgs.map fun b => (b.length : Int)) pre.length = .ok ds) :
    (ds.zip (msgs.map fun b => (b.length : Int))).map
      (fun x => ((pre ++ msgs.flatten).drop x.1.toNat).take x.2.toNat) = msgs := by
  induction msgs generalizing pre ds with
  | nil => simp
  | cons b msgs ih =>
    rw [List.map_cons] at h
    obtain ⟨rest, h1, rfl⟩ := displacements_inv h
    have e : (pre.length : Int) + (b.length : Int) = ((pre ++ b).length : Nat) := by
      rw [List.length_append]
      omega
    rw [e] at h1
    have := ih (pre ++ b) h1
    rw [List.append_assoc] at this
    have e2 : ((pre ++ (b ++ msgs.flatten)).drop pre.length).take b.length = b := by
      rw [List.drop_append, List.drop_of_length_le (Nat.le_refl _), Nat.sub_self, List.drop_zero, List.nil_append,
        List.take_append_of_le_length (Nat.le_refl _), List.take_of_length_le (Nat.le_refl _)]
    rw [List.map_cons, List.zip_cons_cons, List.map_cons, List.flatten_cons, this, Int.toNat_natCast, Int.toNat_natCast, e2]

private theorem fold_slices {α β : Type} (l : List α) (sl : α → Bytes) (g : β → Bytes → Nat → Outcome β) (b : β) :
    l.zipIdx.foldlM (fun b x => g b (sl x.1) x.2) b = (l.map sl).zipIdx.foldlM (fun b x => g b x.1 x.2) b := by
  rw [List.zipIdx_map, List.foldlM_map]
  rfl

private theorem le_sum {l : List Nat} {a : Nat} (h : a ∈ l) : a ≤ l.sum := by
  induction l with
  | nil => simp at h
  | cons b l ih =>
    rw [List.sum_cons]
    rcases List.mem_cons.1 h with rfl | h
    · omega
    · have := ih h; omega

private theorem sizes_eq {maps : List ScanMap} {size : Nat} (h : ∀ m ∈ maps, (indexMessage m size).length < 2 ^ 31) :
    ((maps.map fun m => indexMessage m size).map fun b => toInt32 b.length) =
      (maps.map fun m => indexMessage m size).map fun b => (b.length : Int) := by
  refine List.map_congr_left fun b hb => ?_
  obtain ⟨m, hm, rfl⟩ := List.mem_map.1 hb
  exact toInt32_small (h m hm)

private theorem sizes_sum (maps : List ScanMap) (size : Nat) :
    ((maps.map fun m => indexMessage m size).map fun b => (b.length : Int)).sum =
      ((maps.map fun m => (indexMessage m size).length).sum : Nat) := by
  rw [List.map_map]
  exact sum_cast _ (fun m => (indexMessage m size).length) maps fun _ _ => rfl

private theorem sizes_nonneg (msgs : List Bytes) : ∀ x ∈ msgs.map (fun b => (b.length : Int)), 0 ≤ x := by
  intro x hx
  obtain ⟨b, _, rfl⟩ := List.mem_map.1 hx
  exact Int.natCast_nonneg _

private theorem foldlM_fun {α β : Type} {f g : β → α → Outcome β} (l : List α) (b : β) (h : ∀ b a, f b a = g b a) :
    l.foldlM f b = l.foldlM g b := by
  have : f = g := funext fun b => funext fun a => h b a
  rw [this]

private theorem gatherScanMap_step (maps : List ScanMap) (size me : Nat) : Mpi.gatherScanMap maps size me =
    (maps.map fun m => indexMessage m size).zipIdx.foldlM (fun b x => receiveIndex me b x.1 x.2) (maps.getD me fun _ => []) := by
  rw [← fold_slices maps (fun m => indexMessage m size) (receiveIndex me)]
  unfold Mpi.gatherScanMap
  refine foldlM_fun _ _ fun map r => ?_
  unfold receiveIndex indexMessage
  by_cases h : r.2 = me
  · rw [if_pos h, if_pos h]
  · rw [if_neg h, if_neg h]
    cases loadScanMap (saveScanMap (Mpi.sparse r.1 size)) <;> rfl

private theorem cut_eq {b : Bytes} (h : b.length < 2 ^ 31) : b.take (toInt32 b.length).toNat = b := by
  refine List.take_of_length_le ?_
  have := toInt32_small h
  omega

private theorem map_fix {α : Type} (l : List α) (f : α → α) (h : ∀ a ∈ l, f a = a) : l.map f = l := by
  rw [List.map_congr_left (g := id) h, List.map_id]

private theorem merge_messages {α : Type} (msgs : List Bytes) (g : α → Bytes → Nat → Outcome α) (a : α)
    (h : (msgs.map fun b => (b.length : Int)).sum < 2147483648) :
    (do
      let ds ← displacements (msgs.map fun b => (b.length : Int)) 0
      if 2 ^ 63 - 1 < totalSize (msgs.map fun b => (b.length : Int)) then .throw "std::length_error"
      else if (msgs.map fun b => (b.length : Int)).any (fun s => decide (s < 0)) then .ub
      else
        (ds.zip (msgs.map fun b => (b.length : Int))).zipIdx.foldlM
          (fun map x => g map ((msgs.flatten.drop x.1.1.toNat).take x.1.2.toNat) x.2) a) =
      msgs.zipIdx.foldlM (fun b x => g b x.1 x.2) a := by
  have hnn := sizes_nonneg msgs
  have hr : InRange (msgs.map fun b => (b.length : Int)) := (nonneg_inRange hnn).2 h
  obtain ⟨ds, hd⟩ := (displacements_range _).1 hr
  have hsl := slices msgs [] (ds := ds) hd
  rw [List.nil_append] at hsl
  have h0 := sum_nonneg' _ hnn
  have ht : ¬2 ^ 63 - 1 < totalSize (msgs.map fun b => (b.length : Int)) := by
    rw [totalSize_eq]
    generalize (msgs.map fun b => (b.length : Int)).sum = x at h h0
    omega
  have ha : ¬((msgs.map fun b => (b.length : Int)).any (fun s => decide (s < 0)) = true) := by
    rw [List.any_eq_true]
    rintro ⟨x, hx, h2⟩
    have := hnn x hx
    simp only [decide_eq_true_eq] at h2
    omega
  rw [hd, Outcome.ok_bind, if_neg ht, if_neg ha]
  have := fold_slices (ds.zip (msgs.map fun b => (b.length : Int)))
    (fun x => (msgs.flatten.drop x.1.toNat).take x.2.toNat) g a
  rw [hsl] at this
  exact this

/-- **C120** When the messages have less than 2^31 bytes together, the index is merged as in C35. -/
theorem C120_small_partial (maps : List ScanMap) (size me : Nat)
    (h : (maps.map fun m => (indexMessage m size).length).sum < 2 ^ 31) :
    gatherScanMap maps size me = Mpi.gatherScanMap maps size me := by
  have hsm : ∀ m ∈ maps, (indexMessage m size).length < 2 ^ 31 := by
    intro m hm
    exact Nat.lt_of_le_of_lt (le_sum (List.mem_map.2 ⟨m, hm, rfl⟩)) h
  have hcut : ((maps.map fun m => indexMessage m size).map fun b => b.take (toInt32 b.length).toNat) =
      maps.map fun m => indexMessage m size := by
    refine map_fix _ _ fun b hb => ?_
    obtain ⟨m, hm, rfl⟩ := List.mem_map.1 hb
    exact cut_eq (hsm m hm)
  have hlt : ((maps.map fun m => indexMessage m size).map fun b => (b.length : Int)).sum < 2147483648 := by
    rw [sizes_sum]
    generalize (maps.map fun m => (indexMessage m size).length).sum = t at h ⊢
    omega
  unfold gatherScanMap
  simp only
  rw [sizes_eq hsm, hcut, gatherScanMap_step]
  exact merge_messages _ (receiveIndex me) _ hlt

/-- **C120** When every message has less than 2^31 bytes but all together have not, the sum of the sizes overflows, on every
rank. -/
theorem C120_total_false (maps : List ScanMap) (size me : Nat) (h1 : ∀ m ∈ maps, (indexMessage m size).length < 2 ^ 31)
    (h2 : 2 ^ 31 ≤ (maps.map fun m => (indexMessage m size).length).sum) : gatherScanMap maps size me = .ub := by
  unfold gatherScanMap
  simp only
  rw [sizes_eq h1, (displacements_range _).2 (fun hr => by
    have := (nonneg_inRange (sizes_nonneg _)).1 hr
    rw [sizes_sum] at this
    omega)]
  rfl

private theorem location_length (l : Location) : (saveLocation l).length = 14 := by
  unfold saveLocation saveInt
  simp only [List.length_append, encodeLE_length]

private theorem locations_length (a : MultiPass.Sectors) : ((locations a).flatMap saveLocation).length = 56 := by
  simp only [locations, List.range, List.range.loop, List.map_cons, List.map_nil, List.flatMap_cons, List.flatMap_nil,
    List.length_append, location_length, List.length_nil]

private theorem frames_length (m : SMap MultiPass.Sectors) :
    (saveMap (fun (a : List Location) => a.flatMap saveLocation) (m.map fun e => (e.1, locations e.2))).length =
      8 + 60 * m.length := by
  unfold saveMap saveVector
  rw [List.length_append, encodeLE_length]
  congr 1
  induction m with
  | nil => rfl
  | cons e m ih =>
    rw [List.map_cons, List.flatMap_cons, List.length_append, ih]
    unfold savePair
    rw [List.length_append, encodeLE_length, locations_length, List.length_cons]
    omega

/-- The size of a message: 8 bytes, and for every scan position with frames 12 bytes and 60 for every frame. -/
theorem indexMessage_length (map : ScanMap) (size : Nat) : (indexMessage map size).length =
    8 + ((List.range size).map fun p => if (map p).isEmpty then 0 else 12 + 60 * (map p).length).sum := by
  unfold indexMessage saveScanMap Mpi.sparse
  rw [saveMap, saveVector, List.length_append, encodeLE_length]
  congr 1
  generalize List.range size = l
  induction l with
  | nil => rfl
  | cons p l ih =>
    rw [List.map_cons, List.sum_cons, ← ih]
    by_cases he : (map p).isEmpty = true
    · rw [List.filterMap_cons_none (by rw [if_pos he]), if_pos he, Nat.zero_add]
    · rw [List.filterMap_cons_some (by rw [if_neg he]), List.flatMap_cons, List.length_append, if_neg he]
      congr 1
      unfold savePair
      rw [List.length_append, encodeLE_length, frames_length]
      omega

private theorem sum_const {α : Type} (l : List α) (f : α → Nat) (c : Nat) (h : ∀ a ∈ l, f a = c) : (l.map f).sum = l.length * c := by
  induction l with
  | nil => simp
  | cons a l ih =>
    rw [List.map_cons, List.sum_cons, h a (by simp), ih fun b hb => h b (by simp [hb]), List.length_cons, Nat.add_mul]
    omega

/-- The message of a rank whose files have a sector of one frame for each of the positions. -/
theorem one_frame_length {map : ScanMap} {size : Nat} (h : ∀ p < size, (map p).length = 1) :
    (indexMessage map size).length = 8 + size * 72 := by
  rw [indexMessage_length, sum_const _ _ 72, List.length_range]
  intro p hp
  have := h p (List.mem_range.1 hp)
  rw [if_neg (by rw [List.isEmpty_iff]; intro e; rw [e] at this; simp at this), this]

/-- **C120** Four ranks, each with the files of one sector of a scan with one frame at every position: from 7456541 positions
on (a square of 2731) the sum overflows, up to 29826161. -/
theorem C120_four_false (maps : List ScanMap) (size me : Nat) (hl : maps.length = 4)
    (h : ∀ m ∈ maps, ∀ p < size, (m p).length = 1) (h1 : 7456541 ≤ size) (h2 : size ≤ 29826161) :
    gatherScanMap maps size me = .ub := by
  refine C120_total_false maps size me ?_ ?_
  · intro m hm
    rw [one_frame_length (h m hm)]
    omega
  · rw [sum_const _ _ (8 + size * 72) fun m hm => one_frame_length (h m hm), hl]
    omega

/-- **C120** For the same scan with fewer positions the index is merged. -/
theorem C120_four_partial (maps : List ScanMap) (size me : Nat) (hl : maps.length = 4)
    (h : ∀ m ∈ maps, ∀ p < size, (m p).length = 1) (h1 : size < 7456541) :
    gatherScanMap maps size me = Mpi.gatherScanMap maps size me := by
  refine C120_small_partial maps size me ?_
  rw [sum_const _ _ (8 + size * 72) fun m hm => one_frame_length (h m hm), hl]
  omega

private def oneSector (j : Nat) : ScanMap := fun p => [(p, fun i => if i = j then some ⟨j, 0⟩ else none)]

example : gatherScanMap [oneSector 0, oneSector 1, oneSector 2, oneSector 3] (4096 * 4096) 2 = .ub ∧
    gatherScanMap [oneSector 0, oneSector 1, oneSector 2, oneSector 3] (1024 * 1024) 2 =
      Mpi.gatherScanMap [oneSector 0, oneSector 1, oneSector 2, oneSector 3] (1024 * 1024) 2 := by
  have h : ∀ m ∈ [oneSector 0, oneSector 1, oneSector 2, oneSector 3], ∀ n, ∀ p < n, (m p).length = 1 := by
    intro m hm n p _
    simp only [List.mem_cons, List.not_mem_nil, or_false] at hm
    rcases hm with rfl | rfl | rfl | rfl <;> rfl
  exact ⟨C120_four_false _ _ 2 rfl (fun m hm => h m hm _) (by norm_num) (by norm_num),
    C120_four_partial _ _ 2 rfl (fun m hm => h m hm _) (by norm_num)⟩

/-! ### Messages of all sizes -/

private theorem toInt32_spec (n : Nat) : ∃ q : Int, toInt32 n = n - q * 4294967296 ∧ -2147483648 ≤ toInt32 n ∧
    toInt32 n < 2147483648 := by
  unfold toInt32
  obtain ⟨m, hm⟩ : ∃ m : Nat, m = 2 ^ 32 := ⟨_, rfl⟩
  rw [← hm]
  obtain ⟨q, h1, h2, h3⟩ := bmod_spec n m 2147483648 (by omega) (by omega)
  have hm' : (m : Int) = 4294967296 := by omega
  rw [hm'] at h1
  exact ⟨q, h1, h2, h3⟩

/-- The bytes of a message that are sent. -/
def cut (b : Bytes) : Bytes := b.take (toInt32 b.length).toNat

private theorem cut_length' {b : Bytes} (h : 0 ≤ toInt32 b.length) : toInt32 b.length = ((cut b).length : Nat) := by
  unfold cut
  rw [List.length_take]
  obtain ⟨q, h1, h2, h3⟩ := toInt32_spec b.length
  generalize toInt32 b.length = x at h h1 h2 h3 ⊢
  omega

private theorem cut_short {b : Bytes} (h : 0 ≤ toInt32 b.length) (hb : 2147483648 ≤ b.length) :
    (toInt32 b.length).toNat < b.length := by
  obtain ⟨q, h1, h2, h3⟩ := toInt32_spec b.length
  generalize toInt32 b.length = x at h h1 h2 h3 ⊢
  omega

/-- reader_mpi.cpp:150-155: the sizes that all ranks have. -/
def indexSizes (maps : List ScanMap) (size : Nat) : List Int :=
  (maps.map fun m => indexMessage m size).map fun b => toInt32 b.length

private theorem map_cut (msgs : List Bytes) (h : ∀ b ∈ msgs, 0 ≤ toInt32 b.length) :
    (msgs.map fun b => toInt32 b.length) = (msgs.map cut).map fun b => (b.length : Int) := by
  rw [List.map_map]
  exact List.map_congr_left fun b hb => cut_length' (h b hb)

private theorem gather_cut (maps : List ScanMap) (size me : Nat) (hr : InRange (indexSizes maps size))
    (hp : ∀ x ∈ indexSizes maps size, 0 ≤ x) :
    gatherScanMap maps size me = ((maps.map fun m => indexMessage m size).map cut).zipIdx.foldlM
      (fun b x => receiveIndex me b x.1 x.2) (maps.getD me fun _ => []) := by
  have hlt := (nonneg_inRange hp).1 hr
  unfold indexSizes at hp hlt
  have e := map_cut (maps.map fun m => indexMessage m size) (fun b hb => hp _ (List.mem_map.2 ⟨b, hb, rfl⟩))
  unfold gatherScanMap
  simp only
  rw [e] at hlt ⊢
  exact merge_messages _ (receiveIndex me) _ hlt

private theorem foldlM_mem {α β : Type} {f g : β → α → Outcome β} (l : List α) (b : β) (h : ∀ b, ∀ a ∈ l, f b a = g b a) :
    l.foldlM f b = l.foldlM g b := by
  induction l generalizing b with
  | nil => rfl
  | cons a l ih =>
    rw [List.foldlM_cons, List.foldlM_cons, h b a (by simp)]
    congr 1
    funext b'
    exact ih b' fun b a ha => h b a (by simp [ha])

private theorem foldlM_throw {α β : Type} {f : β → α → Outcome β} {e : String} (l : List α) (b : β)
    (h : ∀ b a, (∃ b', f b a = .ok b') ∨ f b a = .throw e) (hx : ∃ a ∈ l, ∀ b, f b a = .throw e) : l.foldlM f b = .throw e := by
  induction l generalizing b with
  | nil => obtain ⟨a, ha, _⟩ := hx; simp at ha
  | cons a l ih =>
    rw [List.foldlM_cons]
    rcases h b a with ⟨b', hb⟩ | hb
    · rw [hb, Outcome.ok_bind]
      refine ih b' ?_
      obtain ⟨a', ha, hf⟩ := hx
      rcases List.mem_cons.1 ha with rfl | ha
      · rw [hf b] at hb
        cases hb
      · exact ⟨a', ha, hf⟩
    · rw [hb]
      rfl

private theorem local_map {α : Type} {g : Load α} (hg : Local g) : Local (loadMap g) :=
  local_bind (h := fun (l : List (Nat × α)) bs => some (l.foldl (fun (m : SMap α) (e : Nat × α) => m.put e.1 e.2) ([] : SMap α), bs))
    (local_vector (local_pair (local_num 4) hg)) fun _ => local_pure _

private theorem local_int (k : Nat) : Local (loadInt k) := local_bind (local_num k) fun n => local_pure (Int.bmod n (256 ^ k))

private theorem local_location : Local loadLocation :=
  local_bind (local_int 2) fun s => local_bind (local_int 4) fun i => local_bind (local_num 8) fun o => local_pure (Location.mk s i o)

private theorem local_scanMap : Local loadScanMap := local_map (local_map (local_many local_location 4))

/-- **C120** The result for messages of all sizes: undefined when a sum of sizes as `int`s overflows, or when a size is negative and
the sum is not; an exception when the sum is negative, or when the message of another rank is cut; otherwise the index of C35. -/
theorem C120_table (maps : List ScanMap) (size me : Nat) (hs : ∀ m ∈ maps, SendableMap size m) :
    (¬InRange (indexSizes maps size) → gatherScanMap maps size me = .ub) ∧
    (InRange (indexSizes maps size) → (indexSizes maps size).sum < 0 → gatherScanMap maps size me = .throw "std::length_error") ∧
    (InRange (indexSizes maps size) → 0 ≤ (indexSizes maps size).sum → (∃ x ∈ indexSizes maps size, x < 0) →
      gatherScanMap maps size me = .ub) ∧
    (InRange (indexSizes maps size) → (∀ x ∈ indexSizes maps size, 0 ≤ x) →
      (∃ r m, maps[r]? = some m ∧ r ≠ me ∧ 2147483648 ≤ (indexMessage m size).length) →
      gatherScanMap maps size me = .throw "cereal") ∧
    (InRange (indexSizes maps size) → (∀ x ∈ indexSizes maps size, 0 ≤ x) →
      (∀ r m, maps[r]? = some m → r ≠ me → (indexMessage m size).length < 2147483648) →
      gatherScanMap maps size me = Mpi.gatherScanMap maps size me) := by
  obtain ⟨d1, d2⟩ := displacements_range (indexSizes maps size)
  refine ⟨?_, ?_, ?_, ?_, ?_⟩
  · intro h
    have := d2 h
    unfold indexSizes at this
    unfold gatherScanMap
    simp only
    rw [this]
    rfl
  · intro h hn
    obtain ⟨ds, hd⟩ := d1 h
    have hl := h _ (Nat.le_refl _)
    rw [List.take_length] at hl
    have ht : 2 ^ 63 - 1 < totalSize (indexSizes maps size) := by
      rw [totalSize_eq]
      generalize (indexSizes maps size).sum = x at hn hl
      omega
    unfold indexSizes at hd ht
    unfold gatherScanMap
    simp only
    rw [hd, Outcome.ok_bind, if_pos ht]
  · intro h hn hx
    obtain ⟨ds, hd⟩ := d1 h
    have hl := h _ (Nat.le_refl _)
    rw [List.take_length] at hl
    have ht : ¬2 ^ 63 - 1 < totalSize (indexSizes maps size) := by
      rw [totalSize_eq]
      generalize (indexSizes maps size).sum = x at hn hl
      omega
    have ha : (indexSizes maps size).any (fun s => decide (s < 0)) = true := by
      rw [List.any_eq_true]
      obtain ⟨x, h1, h2⟩ := hx
      exact ⟨x, h1, by simpa using h2⟩
    unfold indexSizes at hd ht ha
    unfold gatherScanMap
    simp only
    rw [hd, Outcome.ok_bind, if_neg ht, if_pos ha]
  · rintro h hp ⟨r, m, h1, h2, h3⟩
    rw [gather_cut maps size me h hp]
    refine foldlM_throw _ _ (fun map x => ?_) ⟨(cut (indexMessage m size), r), ?_, fun map => ?_⟩
    · unfold receiveIndex
      by_cases hx : x.2 = me
      · exact .inl ⟨map, by rw [if_pos hx]⟩
      · rw [if_neg hx]
        cases loadScanMap x.1 with
        | none => exact .inr rfl
        | some y => exact .inl ⟨_, rfl⟩
    · rw [List.mem_zipIdx_iff_getElem?]
      simp only [List.getElem?_map, h1, Option.map_some]
    · have hm : m ∈ maps := List.mem_of_getElem? h1
      have h0 : 0 ≤ toInt32 (indexMessage m size).length := by
        refine hp _ ?_
        unfold indexSizes
        exact List.mem_map.2 ⟨_, List.mem_map.2 ⟨m, hm, rfl⟩, rfl⟩
      have hc : loadScanMap (cut (indexMessage m size)) = none :=
        cut_none (rt_scanMap (hs m hm)) local_scanMap (cut_short h0 h3)
      unfold receiveIndex
      simp only
      rw [if_neg h2, hc]
  · intro h hp hw
    rw [gather_cut maps size me h hp, gatherScanMap_step, ← fold_slices _ cut (receiveIndex me)]
    refine foldlM_mem _ _ fun map x hx => ?_
    rw [List.mem_zipIdx_iff_getElem?] at hx
    by_cases hm : x.2 = me
    · unfold receiveIndex
      rw [if_pos hm, if_pos hm]
    · rw [List.getElem?_map] at hx
      obtain ⟨m, hm1, hm2⟩ := Option.map_eq_some_iff.1 hx
      have : cut x.1 = x.1 := by
        rw [← hm2]
        exact cut_eq (hw x.2 m hm1 hm)
      rw [this]

/-- **C120** Exactly when rank `me` gets the index of C35: no size is negative as an `int`, their sum is less than 2^31, and the
messages of the other ranks are shorter than 2^31 bytes. -/
theorem C120_iff (maps : List ScanMap) (size me : Nat) (hs : ∀ m ∈ maps, SendableMap size m) :
    gatherScanMap maps size me = Mpi.gatherScanMap maps size me ↔
      (∀ x ∈ indexSizes maps size, 0 ≤ x) ∧ (indexSizes maps size).sum < 2 ^ 31 ∧
        ∀ r m, maps[r]? = some m → r ≠ me → (indexMessage m size).length < 2147483648 := by
  obtain ⟨t1, t2, t3, t4, t5⟩ := C120_table maps size me hs
  constructor
  · intro h
    obtain ⟨res, hres⟩ := gatherScanMap_ok maps size me hs
    rw [hres] at h
    by_cases hr : InRange (indexSizes maps size)
    · by_cases hp : ∀ x ∈ indexSizes maps size, 0 ≤ x
      · refine ⟨hp, (nonneg_inRange hp).1 hr, fun r m h1 h2 => ?_⟩
        by_contra h3
        rw [t4 hr hp ⟨r, m, h1, h2, by omega⟩] at h
        cases h
      · push Not at hp
        rcases lt_or_ge (indexSizes maps size).sum 0 with hn | hn
        · rw [t2 hr hn] at h
          cases h
        · rw [t3 hr hn hp] at h
          cases h
    · rw [t1 hr] at h
      cases h
  · rintro ⟨h1, h2, h3⟩
    exact t5 ((nonneg_inRange h1).2 h2) h1 h3

private def two (j : Nat) : ScanMap := fun p => if p < 2 then [(p, fun i => if i = j then some ⟨j, 0⟩ else none)] else []

private theorem two_sendable {j : Nat} (hj : j < 4) : SendableMap 2 (two j) := by
  constructor
  · norm_num
  · intro p hp
    simp only [two]
    rw [if_neg (by omega)]
  · intro p
    simp only [two]
    split <;> simp [SMap.Sorted]
  · intro p e he
    simp only [two] at he
    split at he
    · simp only [List.mem_singleton] at he
      subst he
      simp only
      omega
    · simp at he
  · intro p e he i _ l hl
    simp only [two] at he
    split at he
    · simp only [List.mem_singleton] at he
      subst he
      simp only at hl
      split at hl
      · cases hl
        simp only
        omega
      · cases hl
    · simp at he

example : gatherScanMap [two 0, two 3] 2 1 = Mpi.gatherScanMap [two 0, two 3] 2 1 := by
  have l : ∀ j, (indexMessage (two j) 2).length = 152 := by
    intro j
    rw [one_frame_length]
    intro p hp
    simp [two, hp]
  have e : indexSizes [two 0, two 3] 2 = [152, 152] := by
    simp only [indexSizes, List.map_cons, List.map_nil, l]
    rw [toInt32_small (by norm_num)]
    rfl
  refine (C120_iff _ _ _ ?_).2 ⟨?_, ?_, ?_⟩
  · intro m hm
    simp only [List.mem_cons, List.not_mem_nil, or_false] at hm
    rcases hm with rfl | rfl
    · exact two_sendable (by norm_num)
    · exact two_sendable (by norm_num)
  · rw [e]
    simp
  · rw [e]
    simp
  · intro r m h1 _
    have := List.mem_of_getElem? h1
    simp only [List.mem_cons, List.not_mem_nil, or_false] at this
    rcases this with rfl | rfl <;> rw [l] <;> norm_num

end Stempy.MpiSizes
