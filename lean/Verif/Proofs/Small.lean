import Verif.Model.Small
import Verif.Spec.Small
import Verif.Proofs.Cuts
import Verif.Proofs.NodeMask
import Mathlib.Algebra.Order.BigOperators.Group.Finset

open GB Spec Model Model.Graph

namespace Proofs.Small

variable {K α : Type} {n : Nat}

theorem countRow_some {m : Nat} {A : Mat m n α} {i} : (countRow A i).isSome ↔ ∃ j, (A i j).isSome := by
  rw [← nvals_pos, countRow]
  by_cases hn : nvals (A i) = 0
  · simp [hn]
  · simp [hn, Nat.pos_of_ne_zero hn]

theorem countRow_get {m : Nat} {A : Mat m n α} {i} {x} (h : countRow A i = some x) : x = nvals (A i) := by
  rw [countRow] at h
  split at h <;> simp_all

theorem totalDegreesP_some {A : Mat n n α} {i} :
    (totalDegreesP A i).isSome ↔ ∃ j, (A i j).isSome ∨ (A j i).isSome := by
  rw [totalDegreesP, vadd, isSome_omerge, Bool.or_eq_true, countRow_some, countRow_some]
  simp only [transpose]
  constructor
  · rintro (⟨j, h⟩ | ⟨j, h⟩)
    · exact ⟨j, .inl h⟩
    · exact ⟨j, .inr h⟩
  · rintro ⟨j, h | h⟩
    · exact .inl ⟨j, h⟩
    · exact .inr ⟨j, h⟩

theorem foldl_land {ι : Type*} (g : ι → Option Bool) (l : List ι) (a : Option Bool) :
    (l.foldl (fun acc i => omerge (· && ·) acc (g i)) a).getD true = true ↔
      a.getD true = true ∧ ∀ i ∈ l, (g i).getD true = true := by
  induction l generalizing a with
  | nil => simp
  | cons x l ih =>
    rw [List.foldl_cons, ih]
    have : (omerge (· && ·) a (g x)).getD true = true ↔ a.getD true = true ∧ (g x).getD true = true := by
      cases a <;> cases g x <;> simp
    rw [this]
    simp [and_assoc]

theorem reduce_land (v : Vec n Bool) :
    (reduce (· && ·) v).getD true = true ↔ ∀ i, (v i).getD true = true := by
  unfold reduce
  rw [foldl_land]
  simp

theorem nvals_full {v : Vec n α} : nvals v = n ↔ ∀ i, (v i).isSome := by
  unfold nvals
  constructor
  · intro h i
    have := (Finset.card_eq_iff_eq_univ _).1 (h.trans (Fintype.card_fin n).symm)
    have hi : i ∈ Finset.univ.filter fun i => (v i).isSome := by rw [this]; exact Finset.mem_univ i
    simpa using hi
  · intro h
    rw [Finset.filter_true_of_mem fun i _ => h i, Finset.card_univ, Fintype.card_fin]

end Proofs.Small
