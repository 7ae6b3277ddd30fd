import Verif.Proofs.Cluster
import Verif.Proofs.BfsApi

/-! node masks and filled node maps -/

open GB Spec Model Model.Graph Proofs Proofs.Bfs

namespace Proofs.Cluster

variable {K α β : Type} {n : Nat}

theorem nodemapFill_eq (mask : NodeMask n) (v : Vec n β) (c : β)
    (hv : ∀ i, inMask mask i = false → v i = none) (i) :
    nodemapFill mask v c i = if inMask mask i then some ((v i).getD c) else none := by
  cases mask with
  | none => simp [nodemapFill, inMask]
  | some p =>
    have hin : ∀ j, inMask (some p) j = (p j).isSome := fun _ => rfl
    unfold nodemapFill
    simp only
    by_cases hp : inMask (some p) i
    · rw [if_pos hp]
      split
      · unfold vaccum
        rw [if_pos (show vS p i = true from hp)]
        cases v i <;> rfl
      · rename_i hlt
        have hsub : (Finset.univ.filter fun i => (v i).isSome) ⊆ Finset.univ.filter fun i => (p i).isSome := by
          intro j hj
          simp only [Finset.mem_filter, Finset.mem_univ, true_and] at hj ⊢
          by_contra hp
          rw [hv j (by rw [hin]; simpa using hp)] at hj
          simp at hj
        have heq := Finset.eq_of_subset_of_card_le hsub (by unfold nvals at hlt; omega)
        have : i ∈ Finset.univ.filter fun i => (v i).isSome := by
          rw [heq]; rw [hin] at hp; simpa using hp
        simp only [Finset.mem_filter, Finset.mem_univ, true_and] at this
        obtain ⟨x, hx⟩ := Option.isSome_iff_exists.1 this
        rw [hx]; rfl
    · rw [if_neg hp]
      have h0 := hv i (by simpa using hp)
      split
      · unfold vaccum
        rw [if_neg (show ¬ vS p i = true from hp)]
        exact h0
      · exact h0

theorem maskNew_none {mask : NodeMask n} {v : Vec n β} {i} (h : inMask mask i = false) :
    maskNew mask v i = none := by
  cases mask with
  | none => simp [inMask] at h
  | some p => simp only [inMask] at h; simp [maskNew, vassignR, vS, h]

/-- was node `u` asked for -/
def Asked (nodes : Option (List K)) (u : K) : Prop := ∀ l, nodes = some l → u ∈ l

variable [DecidableEq K] {G : Graph K α}

theorem listToMask_ok (h : G.WF) {nodes : Option (List K)}
    (hn : ∀ l, nodes = some l → ∀ u ∈ l, G.Node u) :
    ∃ mask, listToMask G nodes = .ok mask ∧ (nodes = none ↔ mask = none) ∧
      ∀ u i, G.At u i → (inMask mask i = true ↔ Asked nodes u) := by
  cases nodes with
  | none => exact ⟨none, rfl, by simp, fun u i _ => by simp [inMask, Asked]⟩
  | some l =>
    obtain ⟨ids, hids, hf⟩ := listToIds_ok h (hn l rfl)
    refine ⟨some (vofIds ids true), ?_, by simp, fun u i hu => ?_⟩
    · unfold listToMask
      simp only [hids]; rfl
    · simp only [inMask, Asked, Option.some.injEq, forall_eq']
      rw [forall₂_mem hf h hu]
      unfold vofIds
      split <;> simp_all

theorem listToMask_error (h : G.WF) {l : List K} {u} (hu : u ∈ l) (hn : ¬ G.Node u) :
    listToMask G (some l) = .error .keyError := by
  unfold listToMask
  simp only [listToIds_error h hu hn]; rfl

end Proofs.Cluster
