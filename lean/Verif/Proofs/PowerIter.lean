import Verif.Model.PowerIter
import Verif.Spec.PageRank
import Verif.Proofs.Count
import Verif.Proofs.Cluster
import Verif.Proofs.Small
import Mathlib.Algebra.Order.Field.Basic
import Mathlib.Algebra.Order.BigOperators.Group.Finset
import Mathlib.Tactic.FieldSimp
import Mathlib.Tactic.Ring

/-! Lemmas about power iterations -/

open GB Spec Model Model.Graph Proofs

namespace Proofs.Power

/-! ### the loop -/

section loop
variable {σ : Type} {step : σ → σ} {conv : σ → σ → Bool}

theorem powerIter_ok {m : Nat} {x r : σ} : powerIter step conv m x = .ok r ↔
    ∃ k < m, r = step^[k + 1] x ∧ conv (step^[k] x) (step^[k + 1] x) = true ∧
      ∀ j < k, conv (step^[j] x) (step^[j + 1] x) = false := by
  induction m generalizing x with
  | zero => simp [powerIter]
  | succ m ih =>
    unfold powerIter
    by_cases hc : conv x (step x) = true
    · rw [if_pos hc]
      constructor
      · intro h; cases h
        exact ⟨0, by omega, rfl, hc, by simp⟩
      · rintro ⟨k, -, rfl, hk, hj⟩
        cases k with
        | zero => rfl
        | succ k => have := hj 0 (by omega); simp [hc] at this
    · rw [if_neg hc, ih]
      constructor
      · rintro ⟨k, hk, rfl, h1, h2⟩
        refine ⟨k + 1, by omega, rfl, h1, fun j hj => ?_⟩
        cases j with
        | zero => simpa using hc
        | succ j => exact h2 j (by omega)
      · rintro ⟨k, hk, rfl, h1, h2⟩
        cases k with
        | zero => exact absurd h1 hc
        | succ k => exact ⟨k, by omega, rfl, h1, fun j hj => h2 (j + 1) (by omega)⟩

theorem powerIter_error {m : Nat} {x : σ} {e : Err} : powerIter step conv m x = .error e ↔
    e = .convergence ∧ ∀ j < m, conv (step^[j] x) (step^[j + 1] x) = false := by
  induction m generalizing x with
  | zero =>
    constructor
    · intro h; cases h; exact ⟨rfl, fun j hj => absurd hj (Nat.not_lt_zero _)⟩
    · rintro ⟨rfl, -⟩; rfl
  | succ m ih =>
    unfold powerIter
    by_cases hc : conv x (step x) = true
    · rw [if_pos hc]
      simp only [reduceCtorEq, false_iff, not_and, not_forall]
      rintro -
      exact ⟨0, by omega, by simpa using hc⟩
    · rw [if_neg hc, ih]
      refine and_congr_right fun _ => ⟨fun h j hj => ?_, fun h j hj => h (j + 1) (by omega)⟩
      cases j with
      | zero => simpa using hc
      | succ j => exact h j (by omega)

/-- two loops that run in lock step -/
theorem iterate_rel {τ : Type} {R : σ → τ → Prop} {step' : τ → τ}
    (hs : ∀ x y, R x y → R (step x) (step' y)) {x : σ} {y : τ} (h : R x y) (k : Nat) :
    R (step^[k] x) (step'^[k] y) := by
  induction k with
  | zero => exact h
  | succ k ih => rw [Function.iterate_succ_apply', Function.iterate_succ_apply']; exact hs _ _ ih

end loop

/-! ### reading vectors at nodes -/

variable {K F : Type} [Field F] [LinearOrder F] [DecidableEq K] {G : Graph K F}

/-- vector `v` holds the numbers `x` (absent = 0) -/
def Rep (h : G.WF) (v : Vec G.n F) (x : K → F) : Prop := ∀ i, (v i).getD 0 = x (keyFn h i)

omit [DecidableEq K] [LinearOrder F] in
theorem vsum_eq {n : Nat} (v : Vec n F) : vsum v = ∑ i, (v i).getD 0 := reduce_add v

omit [DecidableEq K] [LinearOrder F] in
theorem vsum_rep (h : G.WF) {v : Vec G.n F} {x : K → F} (hv : Rep h v x) :
    vsum v = sumOver G.nodes x := by
  rw [vsum_eq, sumOver_nodes h]
  exact Finset.sum_congr rfl fun i _ => hv i

omit [DecidableEq K] in
theorem isConverged_rep [IsStrictOrderedRing F] (h : G.WF) (tol : F) {v w : Vec G.n F} {x y : K → F}
    (hv : Rep h v x) (hw : Rep h w y) :
    isConverged tol v w = true ↔ l1 G.nodes x y < G.nodes.length * tol := by
  unfold isConverged l1
  rw [decide_eq_true_iff, nodes_length h, vsum_eq, sumOver_nodes h]
  have : ∀ i, (vapply abs (vadd (· - ·) v w) i).getD 0 = |x (keyFn h i) - y (keyFn h i)| := by
    intro i
    rw [← hv i, ← hw i]
    unfold vapply vadd
    cases v i <;> cases w i <;> simp
  simp only [this]

end Proofs.Power
