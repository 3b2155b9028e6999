import Verif.Props.MpiSizes

/-!
C119: the model of C35 is that of C119 when the sizes are `int`s.
-/

namespace Stempy.MpiSizes
open Stempy.Archive Stempy.Props

private theorem displacements_cast (l : List Nat) (d : Int) :
    Mpi.displacements l d = displacements (l.map fun (n : Nat) => (n : Int)) d := by
  induction l generalizing d with
  | nil => rfl
  | cons a l ih =>
    rw [List.map_cons]
    unfold Mpi.displacements displacements
    cases int32 (d + a) with
    | ok d' => rw [Outcome.ok_bind, Outcome.ok_bind, ih d']
    | throw e => rfl
    | ub => rfl

private theorem cut_whole {bl : List Block} (h : (message bl).length < 2 ^ 31) :
    (message bl).take (localSize bl).toNat = message bl := by
  refine List.take_of_length_le ?_
  have := localSize_small.2 h
  generalize localSize bl = x at this
  omega

/-- **C119** When every message is shorter than 2^31 bytes, both models of the gathering agree, so that C35 and the theorems
on counting with several ranks apply to the sizes of the code. -/
theorem C119_agrees (root : List Block) (others : List (List Block))
    (h : ∀ bl ∈ root :: others, (message bl).length < 2 ^ 31) : gatherBlocks root others = Mpi.gatherBlocks root others := by
  have hsz : (root :: others).map localSize = ((root :: others).map fun bl => (message bl).length).map fun (n : Nat) => (n : Int) := by
    rw [List.map_map]
    exact List.map_congr_left fun bl hb => localSize_small.2 (h bl hb)
  have hcut : ((root :: others).map fun bl => (message bl).take (localSize bl).toNat) = (root :: others).map message :=
    List.map_congr_left fun bl hb => cut_whole (h bl hb)
  have hany : ((((root :: others).map fun bl => (message bl).length).map fun (n : Nat) => (n : Int)).any fun s => decide (s < 0)) = false := by
    rw [List.any_eq_false]
    intro x hx
    obtain ⟨n, _, rfl⟩ := List.mem_map.1 hx
    simp
  have hany' : ((((root :: others).map (saveVector saveBlock)).map List.length).any fun s => decide (2 ^ 31 ≤ s)) = false := by
    rw [List.any_eq_false]
    intro x hx
    obtain ⟨b, hb, rfl⟩ := List.mem_map.1 hx
    obtain ⟨bl, hbl, rfl⟩ := List.mem_map.1 hb
    have := h bl hbl
    unfold message at this
    simp only [decide_eq_true_eq]
    omega
  have hlen : ((root :: others).map (saveVector saveBlock)).map List.length = (root :: others).map fun bl => (message bl).length := by
    rw [List.map_map]
    rfl
  have hmsg : (root :: others).map (saveVector saveBlock) = (root :: others).map message := rfl
  have hnat : (((root :: others).map fun bl => (message bl).length).map fun (n : Nat) => (n : Int)).map Int.toNat =
      (root :: others).map fun bl => (message bl).length := by
    rw [List.map_map]
    refine (List.map_congr_left (g := id) fun n _ => Int.toNat_natCast n).trans (List.map_id _)
  unfold gatherBlocks Mpi.gatherBlocks
  simp only
  rw [hany', hlen, hmsg, hsz, hcut, hnat, displacements_cast]
  generalize hs : (root :: others).map (fun bl => (message bl).length) = sizes at hany ⊢
  generalize (root :: others).map message = msgs
  have hnn : ∀ x ∈ sizes.map (fun (n : Nat) => (n : Int)), 0 ≤ x := by
    intro x hx
    obtain ⟨n, _, rfl⟩ := List.mem_map.1 hx
    exact Int.natCast_nonneg _
  have hsum := sum_cast (fun (n : Nat) => (n : Int)) id sizes fun _ _ => rfl
  rw [List.map_id] at hsum
  obtain ⟨d1, d2⟩ := displacements_range (sizes.map fun (n : Nat) => (n : Int))
  by_cases hr : InRange (sizes.map fun (n : Nat) => (n : Int))
  · obtain ⟨ds, hd⟩ := d1 hr
    have hlt := (nonneg_inRange hnn).1 hr
    have ht : ¬2 ^ 31 - 1 < totalSize (sizes.map fun (n : Nat) => (n : Int)) := by
      rw [check_iff hr, hsum]
      omega
    have ht' : ¬2 ^ 31 ≤ sizes.sum := by
      rw [hsum] at hlt
      omega
    simp only [hd, Outcome.ok_bind, if_neg ht, if_neg ht', hany, Bool.false_eq_true, if_false]
  · simp only [d2 hr, Bool.false_eq_true, if_false]
    rfl

example : gatherBlocks [smallBlock] [[], [smallBlock, smallBlock]] = Mpi.gatherBlocks [smallBlock] [[], [smallBlock, smallBlock]] :=
  C119_agrees _ _ (by decide)

end Stempy.MpiSizes
