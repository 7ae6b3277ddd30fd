import Verif.Props.ProgramsNum
import Verif.Props.ClusterW
import Mathlib.Algebra.Order.Ring.Rat

/-!
# The weighted `average_clustering` on a graph object: C06, C79

`Props.Programs` says the weighted average does not depend on earlier calls; here its value on a graph object
is the value of the pure function whose meaning is the subject of `Props.ClusterW`.
-/

open GB Spec.Prop Model Model.Cache Model.Memo Proofs.CacheMath Proofs.Cache Proofs.Memo

namespace Props

variable {ι K : Type} [DecidableEq ι] [DecidableEq K]

/-- `cbrt(w / max)` for `cbrt` any function: the weights as the code normalises them -- cluster.py:49-51,
105-107.  (`max` is the empty scalar when there are no non-loop edges; the value is then irrelevant.) -/
def normBy (cbrt : ℚ → ℚ) : Norm ℚ := fun m w => cbrt (w / m.getD 1)

omit [DecidableEq K] in
theorem clustVal_weighted (e : Env ι ℚ) (G : Graph K ℚ) (mx : ι) (hmx : e.f mx = max) (cbrt : ℚ → ℚ)
    {m : ℚ} (hm : maxElem G.A = .ok m) (mask : NodeMask G.n) :
    clustVal (e.of G) mx (normBy cbrt) true mask = clusteringBranchW (fun w => cbrt (w / m)) G mask := by
  have h1 : reduceScalar ((e.of G).f mx) (offdiag (e.of G).A) = some m := by
    change reduceScalar (e.f mx) (offdiag G.A) = some m
    rw [hmx]
    unfold maxElem at hm
    cases h : reduceScalar max (offdiag G.A) with
    | none => rw [h] at hm; cases hm
    | some m' => rw [h] at hm; cases hm; rfl
  unfold clustVal clusteringBranchW
  dsimp only
  rw [h1]
  rfl

/-- **C06, C79** the weighted `nx.average_clustering(G, nodes, weight, count_zeros)` on the object of a
graph without self-loops, after any history in which no *unweighted* average over all nodes was requested,
is the average that `Props.ClusterW` speaks about -/
theorem weighted_average_clustering_on_object_partial {e : Env ι ℚ} {G : Graph K ℚ} {o : Free G.n ℚ}
    {mx : ι} (hmx : e.f mx = max) (cbrt : ℚ → ℚ) (hv : (e.of G).Valid)
    (hG : G.WF) (hl : ¬ HasLoop G) {m : ℚ} (hmw : MaxWeight G m)
    (h : List (Event ι K ℚ G.n)) (ht : ∀ t ∈ h, t.Tame e G)
    (hw : ∀ cz, Event.average none false cz ∉ h)
    (nodes : Option (List K)) {mask : NodeMask G.n} (hmask : listToMask G nodes = .ok mask) (cz : Bool) :
    (callAverage (e.of G) mx (normBy cbrt) mask true cz (objectAfter e G o mx (normBy cbrt) h)).1 =
      averageClusteringWeighted cbrt G nodes cz := by
  have hm := maxElem_eq hG hmw
  have hc : SameWeight (fun _ => true) h := by
    intro wt cz hmem
    cases wt
    · exact absurd hmem (hw cz)
    · rfl
  have hb : maxElemBranch G = .ok m := by
    unfold maxElemBranch maxElemLU
    split_ifs with h1 h2
    · exact hm
    · exact absurd h2 (by simpa using nvals_diag_zero.2 (by simpa [HasLoop] using hl))
    · exact hm
  rcases (callAverage_inv hv (objInv_objectAfter (o := o) (mx := mx) (f := normBy cbrt) hv h ht hc) mask true cz
    (fun _ => rfl)).2 with h | ⟨-, i1, -⟩
  · rw [h]
    unfold averageClusteringWeighted
    by_cases h0 : G.n = 0
    · rw [if_pos (show (e.of G).n = 0 from h0), if_pos h0]
    · rw [if_neg (show ¬ (e.of G).n = 0 from h0), if_neg h0, hmask, hb]
      exact congrArg (fun v => averageOf v cz mask) (clustVal_weighted e G mx hmx cbrt hm mask)
  · exact absurd (i1 trivial) hl

end Props

namespace Ex

theorem wtri_env_valid : (eQ.toEnv.of Props.Ex.wtri).Valid where
  assoc := twoQ_env_valid.assoc
  comm := twoQ_env_valid.comm
  min := fun _ _ => rfl
  nonneg := by simp [eQ]
  iso := by simp [eQ]
  symm := fun _ => by decide +kernel

end Ex

namespace Props
open _root_.Ex

-- the hypotheses are met, after a history of other calls, one of them a weighted average
example : Ex.wtri.WF ∧ ¬ HasLoop Ex.wtri ∧ MaxWeight Ex.wtri 8 ∧ eQ.toEnv.f QOp.max = max ∧
    (eQ.toEnv.of Ex.wtri).Valid ∧
    (callAverage (eQ.toEnv.of Ex.wtri) QOp.max (normBy id) none true false
      (objectAfter eQ.toEnv Ex.wtri ⟨fun a _ => a, fun a _ => a, fun a b => ⌊a / b⌋⟩ .max (normBy id)
        [.transitivity, .query (.negativeEdgeCycle), .average none true true])).1 = .ok (7/576) := by
  refine ⟨⟨by decide, by decide⟩, ?_, Ex.wtri_max, rfl, wtri_env_valid, by decide +kernel⟩
  unfold HasLoop
  decide +kernel

end Props
