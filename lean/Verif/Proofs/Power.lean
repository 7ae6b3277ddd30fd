import Verif.Spec.Power
import Verif.Proofs.PageRank
import Mathlib.Algebra.Order.BigOperators.Ring.Finset

/-! The loops of katz_centrality, eigenvector_centrality and hits compute the maps of `Spec.Power`. -/

open GB Spec Model Model.Graph Proofs

namespace Proofs.Power

variable {K F : Type} [Field F] [LinearOrder F] [DecidableEq K] {G : Graph K F}

omit [LinearOrder F] in
theorem vxm_rep (h : G.WF) {v : Vec G.n F} {x : K → F} (hv : Rep h v x) :
    Rep h (vxm (· + ·) (· * ·) v G.A) (inSum G.nodes G.weight? x) := by
  intro j
  unfold inSum
  rw [vxm_times_getD, sumOver_nodes h]
  exact Finset.sum_congr rfl fun i _ => by rw [hv i, weight?_keyFn]

omit [LinearOrder F] in
theorem mxv_rep (h : G.WF) {v : Vec G.n F} {x : K → F} (hv : Rep h v x) :
    Rep h (mxv (· + ·) (· * ·) G.A v) (outSum G.nodes G.weight? x) := by
  intro j
  unfold outSum
  rw [mxv_times_getD, sumOver_nodes h]
  exact Finset.sum_congr rfl fun i _ => by rw [hv i, weight?_keyFn]

omit [DecidableEq K] in
theorem scaleBy_rep (h : G.WF) {v : Vec G.n F} {x : K → F} (hv : Rep h v x) (c : F) :
    Rep h (scaleBy c v) (over c x) := by
  intro i
  unfold scaleBy over
  by_cases hc : c = 0
  · rw [if_pos hc, if_pos hc]; exact hv i
  · rw [if_neg hc, if_neg hc, ← hv i]
    unfold vapply
    cases v i <;> simp [div_eq_mul_inv]

omit [DecidableEq K] in
theorem normalizeL1_rep (h : G.WF) {v : Vec G.n F} {x : K → F} (hv : Rep h v x) :
    Rep h (normalizeL1 v) (over (sumOver G.nodes x) x) := by
  unfold normalizeL1
  rw [vsum_rep h hv]
  exact scaleBy_rep h hv _

omit [DecidableEq K] in
theorem normalizeL2_rep (h : G.WF) (sqrt : F → F) {v : Vec G.n F} {x : K → F} (hv : Rep h v x) :
    Rep h (normalizeL2 sqrt v) (over (norm2 sqrt G.nodes x) x) := by
  unfold normalizeL2
  have : (dot (· + ·) (· * ·) v v).getD 0 = sumOver G.nodes fun u => x u * x u := by
    unfold dot
    rw [reduce_add, sumOver_nodes h]
    exact Finset.sum_congr rfl fun i _ => by rw [ointer_mul_getD, hv i]
  rw [this]
  exact scaleBy_rep h hv _

omit [Field F] [DecidableEq K] in
theorem foldr_max_le [Zero F] {l : List F} {c : F} : l.foldr max 0 ≤ c ↔ 0 ≤ c ∧ ∀ a ∈ l, a ≤ c := by
  induction l with
  | nil => simp
  | cons a l ih =>
    simp only [List.foldr_cons, max_le_iff, ih, List.mem_cons, forall_eq_or_imp]
    tauto

omit [DecidableEq K] in
theorem maxOver_le {N : List K} {x : K → F} {c : F} : maxOver N x ≤ c ↔ 0 ≤ c ∧ ∀ v ∈ N, x v ≤ c := by
  unfold maxOver
  rw [foldr_max_le]
  simp

omit [DecidableEq K] in
theorem normalizeLinf_rep (h : G.WF) {v : Vec G.n F} {x : K → F} (hv : Rep h v x)
    (h0 : ∀ i a, v i = some a → 0 ≤ a) :
    Rep h (normalizeLinf v) (over (maxOver G.nodes x) x) := by
  unfold normalizeLinf
  have : (reduce max v).getD 0 = maxOver G.nodes x := by
    refine le_antisymm ?_ ?_
    · cases hr : reduce max v with
      | none => exact (maxOver_le.1 le_rfl).1
      | some c =>
        obtain ⟨⟨i, hi⟩, -⟩ := reduce_max.1 hr
        have e := hv i
        rw [hi] at e
        show c ≤ _
        have e' : c = x (keyFn h i) := e
        rw [e']
        exact (maxOver_le.1 le_rfl).2 _ (keyFn_at h i).node
    · rw [maxOver_le]
      cases hr : reduce max v with
      | none =>
        refine ⟨le_rfl, fun u hu => ?_⟩
        obtain ⟨i, rfl⟩ := exists_keyFn h hu
        rw [← hv i, (reduce_eq_none _ _).1 hr i]
      | some c =>
        obtain ⟨⟨i, hi⟩, hle⟩ := reduce_max.1 hr
        refine ⟨h0 i c hi, fun u hu => ?_⟩
        obtain ⟨j, rfl⟩ := exists_keyFn h hu
        rw [← hv j]
        cases hj : v j with
        | none => exact h0 i c hi
        | some a => exact hle j a hj
  rw [this]
  exact scaleBy_rep h hv _

theorem start_rep (h : G.WF) {d : Option (List (K × F))} {v : Option (Vec G.n F)}
    (hs : ∀ l, d = some l → ∃ v', v = some v' ∧ Rep h v' (valueIn l)) :
    ∀ v', v = some v' → d.isSome → ∃ l, d = some l ∧ Rep h v' (valueIn l) := by
  intro v' hv hd
  obtain ⟨l, rfl⟩ := Option.isSome_iff_exists.1 hd
  obtain ⟨v'', e, hr⟩ := hs l rfl
  rw [hv] at e; cases e
  exact ⟨l, rfl, hr⟩

theorem scaled_rep (h : G.WF) {v : Vec G.n F} {d : List (K × F)} (hv : Rep h v (valueIn d))
    (dflt : K → F) :
    Rep h (vapply (fun a => a * (1 / vsum v)) v) (distOf G.nodes (some d) dflt) := by
  have := div_rep h hv dflt
  simpa only [div_eq_mul_inv, one_mul] using this

end Proofs.Power
