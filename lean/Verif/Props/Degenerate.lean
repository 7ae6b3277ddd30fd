import Verif.Props.Centrality
import Verif.Props.Linalg
import Verif.Props.Cuts
import Verif.Props.Small2

/-!
# C98: graphs of the wrong kind, and graphs without nodes
-/

open GB Spec Model Model.Graph Proofs Proofs.Power

namespace Props

section numeric
variable {K F : Type} [Field F] [LinearOrder F] [DecidableEq K] {G : Graph K F}

/-- **C98.** On a graph without nodes `pagerank`, `katz_centrality` and `hits` return empty dicts without reading their other
arguments, `eigenvector_centrality` raises NetworkXPointlessConcept, and `algorithms.hits(..., with_authority=True)`
returns two empty vectors when it is given no start values. -/
theorem null_graph_results (hn : G.n = 0) (hm : G.multi = false) (sqrt : F → F) (fill : Bool)
    (iso : Option F) (alpha tol : F) (beta : F ⊕ List (K × F)) (maxIter : Int)
    (d1 d2 d3 : Option (List (K × F))) (normalized : Bool) :
    pagerank G iso alpha d1 maxIter tol d2 d3 = .ok none ∧
    katzCentrality fill sqrt G iso alpha beta maxIter tol d1 normalized = .ok none ∧
    hits G maxIter tol d1 normalized = .ok none ∧
    eigenvectorCentrality sqrt G maxIter tol d1 = .error .pointless ∧
    hitsAuthority G maxIter tol none normalized = .ok (vempty, vempty) := by
  refine ⟨?_, ?_, ?_, eigenvector_null hn hm sqrt maxIter tol d1, ?_⟩
  · unfold pagerank; rw [if_pos hn]
  · unfold katzCentrality; rw [hm, if_pos hn]; rfl
  · unfold hits; rw [if_pos hn]
  · unfold hitsAuthority
    show hitsAuthV G.A maxIter tol none normalized = _
    unfold hitsAuthV
    rw [if_pos hn]

/-- **C98.** `katz_centrality` and `eigenvector_centrality` reject every multigraph, whatever its nodes and edges. -/
theorem multigraph_centrality_rejected (hm : G.multi = true) (sqrt : F → F) (fill : Bool)
    (iso : Option F) (alpha tol : F) (beta : F ⊕ List (K × F)) (maxIter : Int)
    (nstart : Option (List (K × F))) (normalized : Bool) :
    katzCentrality fill sqrt G iso alpha beta maxIter tol nstart normalized = .error .notImplemented ∧
    eigenvectorCentrality sqrt G maxIter tol nstart = .error .notImplemented := by
  constructor
  · unfold katzCentrality; rw [if_pos hm]
  · unfold eigenvectorCentrality; rw [if_pos hm]

/-- **C98.** `bethe_hessian_matrix` and `modularity_matrix` are for undirected simple graphs only;
`directed_modularity_matrix` for directed simple ones only: exactly those reach the computation. -/
theorem matrices_wrong_kind (r : Option F) (nodelist : Option (List K)) (isWeighted : Bool) :
    ((G.directed = true ∨ G.multi = true) → betheHessianMatrix G r nodelist = .error .notImplemented ∧
      modularityMatrix G nodelist isWeighted = .error .notImplemented) ∧
    ((G.directed = false ∨ G.multi = true) →
      directedModularityMatrix G nodelist isWeighted = .error .notImplemented) := by
  constructor
  · intro h
    have : (G.directed || G.multi) = true := by simpa using h
    constructor
    · unfold betheHessianMatrix; rw [if_pos this]
    · unfold modularityMatrix; rw [if_pos this]
  · intro h
    have : (!G.directed || G.multi) = true := by simpa using h
    unfold directedModularityMatrix; rw [if_pos this]

end numeric

section small
variable {K α : Type} [DecidableEq K] {G : Graph K α}

/-- **C98.** the functions for directed graphs reject every undirected one, whatever it holds and whatever the other
arguments are (even nodes that do not exist); `is_k_regular` rejects every directed graph. -/
theorem wrong_kind_rejected :
    (G.directed = false → isTournament G = .error .notImplemented ∧ scoreSequence G = .error .notImplemented ∧
      overallReciprocity G = .error .notImplemented ∧ (∀ u, reciprocityNode G u = .error .notImplemented) ∧
      (∀ us, reciprocityNodes G us = .error .notImplemented)) ∧
    (G.directed = true → ∀ k, isKRegular G k = .error .notImplemented) := by
  constructor
  · intro h
    refine ⟨?_, ?_, ?_, fun u => ?_, fun us => ?_⟩
    · unfold isTournament; rw [if_pos h]
    · unfold scoreSequence; rw [if_pos h]
    · unfold overallReciprocity; rw [if_pos h]
    · unfold reciprocityNode; rw [if_pos h]
    · unfold reciprocityNodes; rw [if_pos h]
  · intro h k
    unfold isKRegular; rw [if_pos h]

/-- **C51, C98.** the weighted `cut_size` of a digraph with `T` omitted raises TypeError too. -/
theorem cut_size_weighted_directed_without_target [Zero α] [Add α] (h : G.WF) (hd : G.directed = true) (S : List K) :
    cutSizeWeighted G S none = .error .typeError := by
  obtain ⟨v1, e1, -⟩ := setToVector_ok h S
  unfold cutSizeWeighted
  rw [e1]
  show cutSizeW G.directed G.A v1 none = _
  unfold cutSizeW
  rw [hd]
  rfl

end small

/-- concrete graphs of each kind meet the hypotheses -/
example : Ex.ug.directed = false ∧ Ex.dg.directed = true ∧ Ex.dg.WF ∧
    isTournament Ex.ug = .error .notImplemented ∧ isKRegular Ex.dg 2 = .error .notImplemented ∧
    cutSizeWeighted Ex.dg [1] none = .error .typeError :=
  ⟨rfl, rfl, ⟨by decide, by decide⟩, (wrong_kind_rejected.1 rfl).1, wrong_kind_rejected.2 rfl 2,
    cut_size_weighted_directed_without_target ⟨by decide, by decide⟩ rfl [1]⟩

example : ∃ G : Graph Nat ℚ, G.n = 0 ∧ G.multi = false ∧ G.WF :=
  ⟨{ n := 0, A := fun i => i.elim0, keyToId := [], directed := false }, rfl, rfl, ⟨by simp, by simp⟩⟩

end Props
