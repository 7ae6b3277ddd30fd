import Verif.Model.Truss
import Verif.Spec.Truss
import Verif.Proofs.Count
import Mathlib.Algebra.Order.BigOperators.Group.Finset

open GB Spec Model Model.Graph Proofs

namespace Proofs.Truss

variable {α : Type} {n : Nat}

/-- common stored neighbours -/
def supp (S : Mat n n α) (i j : Fin n) : Nat := ∑ l, ind (S i l) * ind (S j l)

theorem trussStep_eq (k : Int) (S : Mat n n α) (hk : 3 ≤ k) (i j) :
    trussStep k S i j = if (S i j).isSome ∧ k - 2 ≤ (supp S i j : Int) then some (supp S i j) else none := by
  unfold trussStep mselect massignR mS
  have hg : (mxm (· + ·) pairN S (transpose S) i j).getD 0 = supp S i j := mxm_pair_getD _ _ _ _
  cases hs : S i j with
  | none => simp
  | some a =>
    simp only [Option.isSome_some, if_true, true_and]
    cases hm : mxm (· + ·) pairN S (transpose S) i j with
    | none =>
      rw [hm] at hg
      have : supp S i j = 0 := hg.symm
      rw [this, if_neg (by omega)]; rfl
    | some c =>
      rw [hm] at hg
      have : c = supp S i j := hg
      subst this
      by_cases h : k - 2 ≤ (supp S i j : Int) <;> simp [Option.filter, h]

theorem supp_mono {β : Type} {S : Mat n n α} {T : Mat n n β}
    (h : ∀ i j, (S i j).isSome → (T i j).isSome) (i j) : supp S i j ≤ supp T i j := by
  unfold supp
  refine Finset.sum_le_sum fun l _ => ?_
  have h1 := h i l
  have h2 := h j l
  revert h1 h2
  cases S i l <;> cases S j l <;> cases T i l <;> cases T j l <;> simp

theorem supp_congr {β : Type} {S : Mat n n α} {T : Mat n n β}
    (h : ∀ i j, (S i j).isSome = (T i j).isSome) (i j) : supp S i j = supp T i j := by
  unfold supp ind; simp only [h]

theorem supp_symm (S : Mat n n α) (i j) : supp S i j = supp S j i := by
  unfold supp; simp only [mul_comm]

/-- what the loop guarantees -/
structure Good (k : Int) (S : Mat n n α) (C : Mat n n Nat) : Prop where
  sub : ∀ i j, (C i j).isSome → (S i j).isSome
  symm : ∀ i j, (C i j).isSome = (C j i).isSome
  val : ∀ i j c, C i j = some c → c = supp C i j ∧ k - 2 ≤ (c : Int)
  greatest : ∀ H : Fin n → Fin n → Bool, (∀ i j, H i j → (S i j).isSome) →
    (∀ i j, H i j → k - 2 ≤ ((∑ l, (if H i l then 1 else 0) * (if H j l then 1 else 0) : Nat) : Int)) →
    ∀ i j, H i j → (C i j).isSome

theorem step_sub (k : Int) (S : Mat n n α) (hk : 3 ≤ k) (i j) :
    (trussStep k S i j).isSome → (S i j).isSome := by
  rw [trussStep_eq k S hk]; split <;> simp_all

theorem step_symm (k : Int) (S : Mat n n α) (hk : 3 ≤ k) (hs : ∀ i j, (S i j).isSome = (S j i).isSome)
    (i j) : (trussStep k S i j).isSome = (trussStep k S j i).isSome := by
  rw [trussStep_eq k S hk, trussStep_eq k S hk, hs i j, supp_symm S i j]

theorem step_keeps (k : Int) (S : Mat n n α) (hk : 3 ≤ k) (H : Fin n → Fin n → Bool)
    (hs : ∀ i j, H i j → (S i j).isSome)
    (ht : ∀ i j, H i j → k - 2 ≤ ((∑ l, (if H i l then 1 else 0) * (if H j l then 1 else 0) : Nat) : Int))
    (i j) (h : H i j) : (trussStep k S i j).isSome := by
  rw [trussStep_eq k S hk, if_pos]
  · rfl
  · refine ⟨hs i j h, (ht i j h).trans ?_⟩
    have : (∑ l, (if H i l then 1 else 0) * (if H j l then 1 else 0)) ≤ supp S i j := by
      unfold supp
      refine Finset.sum_le_sum fun l _ => ?_
      have h1 := hs i l
      have h2 := hs j l
      revert h1 h2
      cases H i l <;> cases H j l <;> cases S i l <;> cases S j l <;> simp
    exact_mod_cast this

theorem mnvals_mono {β : Type} {S : Mat n n α} {T : Mat n n β}
    (h : ∀ i j, (S i j).isSome → (T i j).isSome) : mnvals S ≤ mnvals T := by
  unfold mnvals
  apply Finset.card_le_card
  intro p hp
  simp only [Finset.mem_filter, Finset.mem_univ, true_and] at hp ⊢
  exact h _ _ hp

theorem mnvals_eq {β : Type} {S : Mat n n α} {T : Mat n n β}
    (h : ∀ i j, (S i j).isSome → (T i j).isSome) (he : mnvals S = mnvals T) (i j) :
    (S i j).isSome = (T i j).isSome := by
  have hsub : (Finset.univ.filter fun p : Fin n × Fin n => (S p.1 p.2).isSome) ⊆
      Finset.univ.filter fun p : Fin n × Fin n => (T p.1 p.2).isSome := by
    intro p hp
    simp only [Finset.mem_filter, Finset.mem_univ, true_and] at hp ⊢
    exact h _ _ hp
  have heq := Finset.eq_of_subset_of_card_le hsub (le_of_eq he.symm)
  have := congrArg (fun s => (i, j) ∈ s) heq
  simp only [Finset.mem_filter, Finset.mem_univ, true_and, eq_iff_iff] at this
  exact Bool.eq_iff_iff.2 this

/-- the loop invariant, with `T` the previous matrix and `S` the initial one -/
theorem loop_good {β : Type} (k : Int) (hk : 3 ≤ k) (S : Mat n n α) :
    ∀ (fuel : Nat) (T : Mat n n β), mnvals T + 1 ≤ fuel →
      (∀ i j, (T i j).isSome → (S i j).isSome) →
      (∀ i j, (T i j).isSome = (T j i).isSome) →
      (∀ H : Fin n → Fin n → Bool, (∀ i j, H i j → (S i j).isSome) →
        (∀ i j, H i j → k - 2 ≤ ((∑ l, (if H i l then 1 else 0) * (if H j l then 1 else 0) : Nat) : Int)) →
        ∀ i j, H i j → (T i j).isSome) →
      ∃ C, trussLoop k fuel (trussStep k T) (mnvals T) = some C ∧ Good k S C := by
  intro fuel
  induction fuel generalizing β with
  | zero => intro T h; omega
  | succ fuel ih =>
    intro T hf hsub hsy hgr
    unfold trussLoop
    split
    · rename_i heq
      refine ⟨_, rfl, ?_, step_symm k T hk hsy, ?_, ?_⟩
      · exact fun i j h => hsub i j (step_sub k T hk i j h)
      · intro i j c hc
        have hcg := supp_congr (fun i j => mnvals_eq (step_sub k T hk) heq i j) i j
        rw [hcg]
        rw [trussStep_eq k T hk] at hc
        split at hc
        · rename_i hcond
          simp only [Option.some.injEq] at hc
          rw [← hc]
          exact ⟨rfl, hcond.2⟩
        · cases hc
      · intro H hs ht i j h
        exact step_keeps k T hk H (hgr H hs ht) ht i j h
    · rename_i hne
      have hlt : mnvals (trussStep k T) < mnvals T :=
        lt_of_le_of_ne (mnvals_mono (step_sub k T hk)) hne
      apply ih (trussStep k T) (by omega)
      · exact fun i j h => hsub i j (step_sub k T hk i j h)
      · exact step_symm k T hk hsy
      · intro H hs ht i j h
        exact step_keeps k T hk H (hgr H hs ht) ht i j h

end Proofs.Truss
