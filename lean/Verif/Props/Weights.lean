import Verif.Proofs.Weights
import Verif.Props.Examples
import Verif.Props.Square

/-!
# C115: functions about structure ignore edge weights

`Spec.reweigh G w`: the same nodes and edges, other weights, possibly of another type.
-/

set_option linter.unusedSectionVars false
set_option linter.unusedSimpArgs false

open GB Model Spec Proofs.Wt

namespace Props

variable {K α β : Type} [DecidableEq K] (G : Graph K α) (w : Fin G.n → Fin G.n → β)

/-- **C115** -/
theorem single_source_shortest_path_length_ignores_weights (u : K) (c : Option Int) :
    Model.singleSourceSPL (reweigh G w) u c = Model.singleSourceSPL G u c := by
  obtain ⟨n, A, k2i, d, m⟩ := G
  dsimp only [reweigh_mk]
  simp only [singleSourceSPL, bfsLevel, bfsMatrix_mre, bfsLevelFrom_mre, getId_mre]

/-- **C115** -/
theorem single_target_shortest_path_length_ignores_weights (u : K) (c : Option Int) :
    Model.singleTargetSPL (reweigh G w) u c = Model.singleTargetSPL G u c := by
  obtain ⟨n, A, k2i, d, m⟩ := G
  dsimp only [reweigh_mk]
  simp only [singleTargetSPL, bfsLevel, bfsMatrix_mre, bfsLevelFrom_mre, getId_mre]

/-- **C115** -/
theorem all_pairs_shortest_path_length_ignores_weights (c chunk : Option Int) :
    Model.allPairsSPL (reweigh G w) c chunk = Model.allPairsSPL G c chunk := by
  obtain ⟨n, A, k2i, d, m⟩ := G
  dsimp only [reweigh_mk]
  simp only [allPairsSPL, singleSourceSPL, bfsLevel, bfsMatrix_mre, bfsLevelFrom_mre, getId_mre, offdiag_mre, bfsLevelsFrom_mre, keyOf_mre, listToIds_mre]

/-- **C115** -/
theorem bidirectional_shortest_path_length_ignores_weights (u v : K) :
    Model.bidirectionalSPL (reweigh G w) u v = Model.bidirectionalSPL G u v := by
  obtain ⟨n, A, k2i, d, m⟩ := G
  dsimp only [reweigh_mk]
  simp only [bidirectionalSPL, getId_mre, contains_mre, offdiag_mre, bidirLoop_mre]

/-- **C115** -/
theorem has_path_ignores_weights (u v : K) :
    Model.hasPath (reweigh G w) u v = Model.hasPath G u v := by
  obtain ⟨n, A, k2i, d, m⟩ := G
  dsimp only [reweigh_mk]
  simp only [hasPath, bidirectionalSPL, getId_mre, contains_mre, offdiag_mre, bidirLoop_mre]

/-- **C115** -/
theorem efficiency_ignores_weights {F : Type} [DivisionRing F] (u v : K) :
    Model.efficiency (F := F) (reweigh G w) u v = Model.efficiency (F := F) G u v := by
  obtain ⟨n, A, k2i, d, m⟩ := G
  dsimp only [reweigh_mk]
  simp only [efficiency, bidirectionalSPL, getId_mre, contains_mre, offdiag_mre, bidirLoop_mre]

/-- **C115** -/
theorem descendants_ignores_weights (u : K) :
    Model.descendants (reweigh G w) u = Model.descendants G u := by
  obtain ⟨n, A, k2i, d, m⟩ := G
  dsimp only [reweigh_mk]
  simp only [descendants, bfsPlain, bfsMatrix_mre, bfsPlainFrom_mre, getId_mre]

/-- **C115** -/
theorem ancestors_ignores_weights (u : K) :
    Model.ancestors (reweigh G w) u = Model.ancestors G u := by
  obtain ⟨n, A, k2i, d, m⟩ := G
  dsimp only [reweigh_mk]
  simp only [ancestors, bfsPlain, bfsMatrix_mre, bfsPlainFrom_mre, getId_mre]

/-- **C115** -/
theorem node_connected_component_ignores_weights (u : K) :
    Model.nodeConnectedComponent (reweigh G w) u = Model.nodeConnectedComponent G u := by
  obtain ⟨n, A, k2i, d, m⟩ := G
  dsimp only [reweigh_mk]
  simp only [nodeConnectedComponent, bfsPlain, bfsMatrix_mre, bfsPlainFrom_mre, getId_mre]

/-- **C115** -/
theorem is_connected_ignores_weights :
    Model.isConnected (reweigh G w) = Model.isConnected G := by
  obtain ⟨n, A, k2i, d, m⟩ := G
  dsimp only [reweigh_mk]
  simp only [isConnected, bfsPlain, Graph.len, bfsMatrix_mre, bfsPlainFrom_mre, getId_mre, firstNode_mre]
  rfl

/-- **C115** -/
theorem is_weakly_connected_ignores_weights :
    Model.isWeaklyConnected (reweigh G w) = Model.isWeaklyConnected G := by
  obtain ⟨n, A, k2i, d, m⟩ := G
  dsimp only [reweigh_mk]
  simp only [isWeaklyConnected, bfsPlainBidirectional, Graph.len, getId_mre, offdiag_mre, bfsBiLoop_mre, firstNode_mre]
  rfl

/-- **C115** -/
theorem bfs_layers_ignores_weights (us : List K) :
    Model.bfsLayers (reweigh G w) us = Model.bfsLayers G us := by
  obtain ⟨n, A, k2i, d, m⟩ := G
  dsimp only [reweigh_mk]
  simp only [bfsLayers, listToIds_mre, offdiag_mre, bfsLayersLoop_mre]

/-- **C115** -/
theorem descendants_at_distance_ignores_weights (u : K) (k : Int) :
    Model.descendantsAtDistance (reweigh G w) u k = Model.descendantsAtDistance G u k := by
  obtain ⟨n, A, k2i, d, m⟩ := G
  dsimp only [reweigh_mk]
  simp only [descendantsAtDistance, getId_mre, offdiag_mre, dadLoop_mre]

/-- **C115** -/
theorem bfs_parent_ignores_weights (u : K) (v : Option K) (c : Option Int) (tr : Bool) :
    Model.bfsParent (reweigh G w) u v c tr = Model.bfsParent G u v c tr := by
  obtain ⟨n, A, k2i, d, m⟩ := G
  dsimp only [reweigh_mk]
  simp only [bfsParent, getId_mre, bfsMatrix_mre, bfsParentLoop_mre]

/-- **C115** -/
theorem lowest_common_ancestor_ignores_weights (u v : K) :
    Model.lowestCommonAncestor (reweigh G w) u v = Model.lowestCommonAncestor G u v := by
  obtain ⟨n, A, k2i, d, m⟩ := G
  dsimp only [reweigh_mk]
  simp only [lowestCommonAncestor, bfsPlain_pat (fun i j => mre_isSome w A i j), mxv_pairB, keyOf_mre]
  cases bfsPlain ⟨n, A, k2i, d, m⟩ u none true with
  | error _ => rfl
  | ok a =>
    cases bfsPlain ⟨n, A, k2i, d, m⟩ v none true with
    | error _ => rfl
    | ok b =>
      simp only [bind, Except.bind]
      split
      · rfl
      · generalize List.head? _ = y
        cases y with
        | none => rfl
        | some i => rfl

/-- **C115** -/
theorem triangles_ignores_weights (us : Option (List K)) :
    Model.triangles (reweigh G w) us = Model.triangles G us := by
  obtain ⟨n, A, k2i, d, m⟩ := G
  dsimp only [reweigh_mk]
  simp only [triangles, listToMask_mre, getId_mre, trianglesVec_mre]

/-- **C115** -/
theorem single_triangle_ignores_weights (u : K) :
    Model.singleTriangle (reweigh G w) u = Model.singleTriangle G u := by
  obtain ⟨n, A, k2i, d, m⟩ := G
  dsimp only [reweigh_mk]
  simp only [singleTriangle, listToMask_mre, getId_mre, singleTriangleAt_mre]

/-- **C115** -/
theorem transitivity_ignores_weights :
    Model.transitivity (reweigh G w) = Model.transitivity G := by
  obtain ⟨n, A, k2i, d, m⟩ := G
  dsimp only [reweigh_mk]
  simp only [transitivity, totalTriangles_mre, offdiag_mre, countRow_mre]

/-- **C115** -/
theorem transitivity_directed_ignores_weights :
    Model.transitivityDirected (reweigh G w) = Model.transitivityDirected G := by
  obtain ⟨n, A, k2i, d, m⟩ := G
  dsimp only [reweigh_mk]
  simp only [transitivityDirected, offdiag_mre, countRow_mre, transpose_mre, mS_mre, mxm_pairN, mxm_pairN']

/-- **C115** -/
theorem clustering_ignores_weights (us : Option (List K)) :
    Model.clustering (reweigh G w) us = Model.clustering G us := by
  obtain ⟨n, A, k2i, d, m⟩ := G
  dsimp only [reweigh_mk]
  simp only [clustering, listToMask_mre, getId_mre, clusteringVec_mre]

/-- **C115** -/
theorem single_clustering_ignores_weights (u : K) :
    Model.singleClustering (reweigh G w) u = Model.singleClustering G u := by
  obtain ⟨n, A, k2i, d, m⟩ := G
  dsimp only [reweigh_mk]
  simp only [singleClustering, listToMask_mre, getId_mre, singleClusteringAt_mre]

/-- **C115** -/
theorem clustering_directed_ignores_weights (us : Option (List K)) :
    Model.clusteringDirected (reweigh G w) us = Model.clusteringDirected G us := by
  obtain ⟨n, A, k2i, d, m⟩ := G
  dsimp only [reweigh_mk]
  simp only [clusteringDirected, listToMask_mre, getId_mre, clusteringDirVec_mre]

/-- **C115** -/
theorem single_clustering_directed_ignores_weights (u : K) :
    Model.singleClusteringDirected (reweigh G w) u = Model.singleClusteringDirected G u := by
  obtain ⟨n, A, k2i, d, m⟩ := G
  dsimp only [reweigh_mk]
  simp only [singleClusteringDirected, listToMask_mre, getId_mre, singleClusteringDirAt_mre]

/-- **C115** -/
theorem average_clustering_ignores_weights (us : Option (List K)) (z : Bool) :
    Model.averageClustering (reweigh G w) us z = Model.averageClustering G us z := by
  obtain ⟨n, A, k2i, d, m⟩ := G
  dsimp only [reweigh_mk]
  simp only [averageClustering, listToMask_mre, getId_mre, clusteringVec_mre, clusteringDirVec_mre]

/-- **C115** -/
theorem generalized_degree_ignores_weights (us : Option (List K)) :
    Model.generalizedDegree (reweigh G w) us = Model.generalizedDegree G us := by
  obtain ⟨n, A, k2i, d, m⟩ := G
  dsimp only [reweigh_mk]
  simp only [generalizedDegree, listToMask_mre, getId_mre, offdiag_mre, triEdges_mre]

/-- **C115** -/
theorem single_generalized_degree_ignores_weights (u : K) :
    Model.singleGeneralizedDegree (reweigh G w) u = Model.singleGeneralizedDegree G u := by
  obtain ⟨n, A, k2i, d, m⟩ := G
  dsimp only [reweigh_mk]
  simp only [singleGeneralizedDegree, listToMask_mre, getId_mre, offdiag_mre, triEdges_mre]

/-- **C115** -/
theorem edge_boundary_ignores_weights (S : List K) (T : Option (List K)) :
    Model.edgeBoundary (reweigh G w) S T = Model.edgeBoundary G S T := by
  obtain ⟨n, A, k2i, d, m⟩ := G
  dsimp only [reweigh_mk]
  simp only [edgeBoundary, setToVector_mre, setToVector?_mre, listToVector_mre, otherSide_mre, edgeBoundaryU_mre, keyAt_mre]

/-- **C115** -/
theorem node_boundary_ignores_weights (S : List K) (T : Option (List K)) :
    Model.nodeBoundary (reweigh G w) S T = Model.nodeBoundary G S T := by
  obtain ⟨n, A, k2i, d, m⟩ := G
  dsimp only [reweigh_mk]
  simp only [nodeBoundary, setToVector_mre, setToVector?_mre, listToVector_mre, otherSide_mre, nodeBoundaryV_mre]

/-- **C115** -/
theorem cut_size_ignores_weights (S : List K) (T : Option (List K)) :
    Model.cutSize (reweigh G w) S T = Model.cutSize G S T := by
  obtain ⟨n, A, k2i, d, m⟩ := G
  dsimp only [reweigh_mk]
  simp only [cutSize, setToVector_mre, setToVector?_mre, listToVector_mre, otherSide_mre, cutSizeU_mre]

/-- **C115** -/
theorem volume_ignores_weights (S : List K) :
    Model.volume (reweigh G w) S = Model.volume G S := by
  obtain ⟨n, A, k2i, d, m⟩ := G
  dsimp only [reweigh_mk]
  simp only [volume, setToVector_mre, setToVector?_mre, listToVector_mre, otherSide_mre, volumeU_mre]

/-- **C115** -/
theorem normalized_cut_size_ignores_weights (S : List K) (T : Option (List K)) :
    Model.normalizedCutSize (reweigh G w) S T = Model.normalizedCutSize G S T := by
  obtain ⟨n, A, k2i, d, m⟩ := G
  dsimp only [reweigh_mk]
  simp only [normalizedCutSize, setToVector_mre, setToVector?_mre, listToVector_mre, otherSide_mre, cutSizeU_mre, volumeU_mre]

/-- **C115** -/
theorem conductance_ignores_weights (S : List K) (T : Option (List K)) :
    Model.conductance (reweigh G w) S T = Model.conductance G S T := by
  obtain ⟨n, A, k2i, d, m⟩ := G
  dsimp only [reweigh_mk]
  simp only [conductance, setToVector_mre, setToVector?_mre, listToVector_mre, otherSide_mre, cutSizeU_mre, volumeU_mre]

/-- **C115** -/
theorem edge_expansion_ignores_weights (S : List K) (T : Option (List K)) :
    Model.edgeExpansion (reweigh G w) S T = Model.edgeExpansion G S T := by
  obtain ⟨n, A, k2i, d, m⟩ := G
  dsimp only [reweigh_mk]
  simp only [edgeExpansion, setToVector_mre, setToVector?_mre, listToVector_mre, otherSide_mre, cutSizeU_mre]

/-- **C115** -/
theorem mixing_expansion_ignores_weights (S : List K) (T : Option (List K)) :
    Model.mixingExpansion (reweigh G w) S T = Model.mixingExpansion G S T := by
  obtain ⟨n, A, k2i, d, m⟩ := G
  dsimp only [reweigh_mk]
  simp only [mixingExpansion, setToVector_mre, setToVector?_mre, listToVector_mre, otherSide_mre, cutSizeU_mre, mnvals_mre]

/-- **C115** -/
theorem node_expansion_ignores_weights (S : List K) :
    Model.nodeExpansion (reweigh G w) S = Model.nodeExpansion G S := by
  obtain ⟨n, A, k2i, d, m⟩ := G
  dsimp only [reweigh_mk]
  simp only [nodeExpansion, setToVector_mre, setToVector?_mre, listToVector_mre, otherSide_mre, vxm_pairB]

/-- **C115** -/
theorem boundary_expansion_ignores_weights (S : List K) :
    Model.boundaryExpansion (reweigh G w) S = Model.boundaryExpansion G S := by
  obtain ⟨n, A, k2i, d, m⟩ := G
  dsimp only [reweigh_mk]
  simp only [boundaryExpansion, setToVector_mre, setToVector?_mre, listToVector_mre, otherSide_mre, nodeBoundaryV_mre]

/-- **C115** -/
theorem is_dominating_set_ignores_weights (S : List K) :
    Model.isDominatingSet (reweigh G w) S = Model.isDominatingSet G S := by
  obtain ⟨n, A, k2i, d, m⟩ := G
  dsimp only [reweigh_mk]
  simp only [isDominatingSet, setToVector_mre, setToVector?_mre, listToVector_mre, otherSide_mre, isDominatingV_mre]

/-- **C115** -/
theorem is_isolate_ignores_weights (u : K) :
    Model.isIsolate (reweigh G w) u = Model.isIsolate G u := by
  obtain ⟨n, A, k2i, d, m⟩ := G
  dsimp only [reweigh_mk]
  simp only [isIsolate, getId_mre, degreesP_mre]

/-- **C115** -/
theorem isolates_ignores_weights :
    Model.isolates (reweigh G w) = Model.isolates G := by
  obtain ⟨n, A, k2i, d, m⟩ := G
  funext i
  change (if (degreesP ⟨n, mre w A, k2i, d, m⟩ i).isSome then none else some true) = _
  rw [degreesP_mre]
  rfl

/-- **C115** -/
theorem number_of_isolates_ignores_weights :
    Model.numberOfIsolates (reweigh G w) = Model.numberOfIsolates G := by
  obtain ⟨n, A, k2i, d, m⟩ := G
  dsimp only [reweigh_mk]
  simp only [numberOfIsolates, degreesP_mre]

/-- **C115** -/
theorem is_regular_ignores_weights :
    Model.isRegular (reweigh G w) = Model.isRegular G := by
  obtain ⟨n, A, k2i, d, m⟩ := G
  dsimp only [reweigh_mk]
  simp only [isRegular, isRegularU_mre, isRegularD_mre]

/-- **C115** -/
theorem is_k_regular_ignores_weights (k : Int) :
    Model.isKRegular (reweigh G w) k = Model.isKRegular G k := by
  obtain ⟨n, A, k2i, d, m⟩ := G
  dsimp only [reweigh_mk]
  simp only [isKRegular, countRow_mre]

/-- **C115** -/
theorem is_tournament_ignores_weights :
    Model.isTournament (reweigh G w) = Model.isTournament G := by
  obtain ⟨n, A, k2i, d, m⟩ := G
  dsimp only [reweigh_mk]
  simp only [isTournament, mnvals_mre, mre_isSome, mS_mre, transpose_mre, triu1_mre, massignR_mre]

/-- **C115** -/
theorem score_sequence_ignores_weights :
    Model.scoreSequence (reweigh G w) = Model.scoreSequence G := by
  obtain ⟨n, A, k2i, d, m⟩ := G
  dsimp only [reweigh_mk]
  simp only [scoreSequence, countRow_mre]

/-- **C115** -/
theorem is_simple_path_ignores_weights (l : List K) :
    Model.isSimplePath (reweigh G w) l = Model.isSimplePath G l := by
  obtain ⟨n, A, k2i, d, m⟩ := G
  dsimp only [reweigh_mk]
  simp only [isSimplePath, contains_mre, mnvals_mre, listToIds_mre, simplePathIds_mre]

/-- **C115** -/
theorem overall_reciprocity_ignores_weights :
    Model.overallReciprocity (reweigh G w) = Model.overallReciprocity G := by
  obtain ⟨n, A, k2i, d, m⟩ := G
  dsimp only [reweigh_mk]
  simp only [overallReciprocity, mnvals_mre, transpose_mre, mmul_pairN, mmul_pairN', mre_isSome, diagVec_mre, nvals_vre]

/-- **C115** -/
theorem reciprocity_node_ignores_weights (u : K) :
    Model.reciprocityNode (reweigh G w) u = Model.reciprocityNode G u := by
  obtain ⟨n, A, k2i, d, m⟩ := G
  dsimp only [reweigh_mk]
  simp only [reciprocityNode, listToMask_mre, getId_mre, reciprocityV_mre]

/-- **C115** -/
theorem reciprocity_nodes_ignores_weights (us : List K) :
    Model.reciprocityNodes (reweigh G w) us = Model.reciprocityNodes G us := by
  obtain ⟨n, A, k2i, d, m⟩ := G
  dsimp only [reweigh_mk]
  simp only [reciprocityNodes, listToMask_mre, getId_mre, reciprocityV_mre]

/-- **C115** -/
theorem s_metric_ignores_weights :
    Model.sMetric (reweigh G w) = Model.sMetric G := by
  obtain ⟨n, A, k2i, d, m⟩ := G
  dsimp only [reweigh_mk]
  simp only [sMetric, degreesP_mre, mre, first_map_right]

/-- **C115** -/
theorem intra_community_edges_ignores_weights (P : List (List K)) :
    Model.intraCommunityEdges (reweigh G w) P = Model.intraCommunityEdges G P := by
  obtain ⟨n, A, k2i, d, m⟩ := G
  dsimp only [reweigh_mk]
  simp only [intraCommunityEdges, setToVector_mre, intraV_mre]

/-- **C115** -/
theorem inter_community_edges_ignores_weights (P : List (List K)) :
    Model.interCommunityEdges (reweigh G w) P = Model.interCommunityEdges G P := by
  obtain ⟨n, A, k2i, d, m⟩ := G
  dsimp only [reweigh_mk]
  simp only [interCommunityEdges, setToVector_mre, interV_mre]

/-- **C115** -/
theorem is_triad_ignores_weights :
    Model.isTriad (reweigh G w) = Model.isTriad G := by
  obtain ⟨n, A, k2i, d, m⟩ := G
  dsimp only [reweigh_mk]
  simp only [isTriad, mre_isSome]

/-- **C115** -/
theorem degree_centrality_ignores_weights {F : Type} [Field F] :
    Model.degreeCentrality (F := F) (reweigh G w) = Model.degreeCentrality (F := F) G := by
  obtain ⟨n, A, k2i, d, m⟩ := G
  dsimp only [reweigh_mk]
  simp only [degreeCentrality, degreesP_mre, countRow_mre, totalDegreesP_mre]

/-- **C115** -/
theorem in_degree_centrality_ignores_weights {F : Type} [Field F] :
    Model.inDegreeCentrality (F := F) (reweigh G w) = Model.inDegreeCentrality (F := F) G := by
  obtain ⟨n, A, k2i, d, m⟩ := G
  dsimp only [reweigh_mk]
  simp only [inDegreeCentrality, transpose_mre, countRow_mre]

/-- **C115** -/
theorem out_degree_centrality_ignores_weights {F : Type} [Field F] :
    Model.outDegreeCentrality (F := F) (reweigh G w) = Model.outDegreeCentrality (F := F) G := by
  obtain ⟨n, A, k2i, d, m⟩ := G
  dsimp only [reweigh_mk]
  simp only [outDegreeCentrality, countRow_mre]

/-! ### two graphs -/

/-- **C115** -/
theorem faster_could_be_isomorphic_ignores_weights {K' α' β' : Type} (H : Graph K' α') (w' : Fin H.n → Fin H.n → β') :
    Model.fasterCouldBeIsomorphic (reweigh G w) (reweigh H w') = Model.fasterCouldBeIsomorphic G H := by
  obtain ⟨n, A, k2i, d, m⟩ := G
  obtain ⟨n', A', k2i', d', m'⟩ := H
  dsimp only [reweigh_mk]
  simp only [Model.fasterCouldBeIsomorphic, degreesP_mre]

/-- **C115** -/
theorem fast_could_be_isomorphic_ignores_weights {K' α' β' : Type} (H : Graph K' α') (w' : Fin H.n → Fin H.n → β') :
    Model.fastCouldBeIsomorphic (reweigh G w) (reweigh H w') = Model.fastCouldBeIsomorphic G H := by
  obtain ⟨n, A, k2i, d, m⟩ := G
  obtain ⟨n', A', k2i', d', m'⟩ := H
  dsimp only [reweigh_mk]
  simp only [Model.fastCouldBeIsomorphic, degreesP_mre, trianglesVec_mre]

/-! ### functions that return graphs: the same graph up to the weights -/

/-- **C115** k_truss -/
theorem k_truss_ignores_weights (k : Int) :
    (Model.kTruss (reweigh G w) k).map forget = (Model.kTruss G k).map forget := by
  obtain ⟨n, A, k2i, d, m⟩ := G
  dsimp only [reweigh_mk]
  simp only [Model.kTruss, Model.trussMat, offdiag_mre, trussStep_mre, mnvals_mre]
  by_cases hk : k < 3
  · simp only [hk, if_true, bind, Except.bind]
    have h : ∀ i j, (mapply (Sum.inl : β → β ⊕ Nat) (mre w (offdiag A)) i j).isSome =
        (mapply (Sum.inl : α → α ⊕ Nat) (offdiag A) i j).isSome := fun i j => by simp [mapply, mre]
    rw [indices_congr (fun i => ?_)]
    · exact subGraph_forget h _ _ _ _
    · simp only [reduceRow]
      rw [Bool.eq_iff_iff, reduce_isSome, reduce_isSome]
      simp only [h]
  · simp only [hk, if_false]
    cases trussLoop k (mnvals (offdiag A) + 1) (trussStep k (offdiag A)) (mnvals (offdiag A)) with
    | none => rfl
    | some C =>
      simp only [bind, Except.bind]
      have h : ∀ i j, (mapply (Sum.inr : Nat → β ⊕ Nat) C i j).isSome =
          (mapply (Sum.inr : Nat → α ⊕ Nat) C i j).isSome := fun i j => by simp [mapply]
      rw [indices_congr (fun i => ?_)]
      · exact subGraph_forget h _ _ _ _
      · simp only [reduceRow]
        rw [Bool.eq_iff_iff, reduce_isSome, reduce_isSome]
        simp only [h]

/-- **C115** ego_graph; which operand `any` returns does not matter either. -/
theorem ego_graph_ignores_weights (c : α → α → α) (c' : β → β → β) (u : K) (r : Int) (center undirected : Bool) :
    (Model.egoGraph c' (reweigh G w) u r center undirected).map forget =
      (Model.egoGraph c G u r center undirected).map forget := by
  obtain ⟨n, A, k2i, d, m⟩ := G
  dsimp only [reweigh_mk]
  have key : ∀ v : Vec n Bool, (Model.egoFinish ⟨n, mre w A, k2i, d, m⟩ u center v).map forget =
      (Model.egoFinish ⟨n, A, k2i, d, m⟩ u center v).map forget := by
    intro v
    simp only [Model.egoFinish, getId_mre]
    cases Graph.getId ⟨n, A, k2i, d, m⟩ u with
    | error _ => rfl
    | ok i => exact subGraph_forget (fun i j => mre_isSome w A i j) _ _ _ _
  by_cases hc : (undirected && d) = true
  · have e1 : Model.egoGraph c' ⟨n, mre w A, k2i, d, m⟩ u r center undirected =
        (Model.bfsPlain ⟨n, madd c' (mre w A) (transpose (mre w A)), k2i, false, false⟩ u (some r)).bind
          fun v => Model.egoFinish ⟨n, mre w A, k2i, d, m⟩ u center v := by
      simp only [Bool.and_eq_true] at hc
      obtain ⟨rfl, rfl⟩ := hc
      rfl
    have e2 : Model.egoGraph c ⟨n, A, k2i, d, m⟩ u r center undirected =
        (Model.bfsPlain ⟨n, madd c A (transpose A), k2i, false, false⟩ u (some r)).bind
          fun v => Model.egoFinish ⟨n, A, k2i, d, m⟩ u center v := by
      simp only [Bool.and_eq_true] at hc
      obtain ⟨rfl, rfl⟩ := hc
      rfl
    rw [e1, e2, bfsPlain_pat (B := madd c A (transpose A))]
    · cases Model.bfsPlain ⟨n, madd c A (transpose A), k2i, false, false⟩ u (some r) with
      | error _ => rfl
      | ok v => exact key v
    · intro i j
      simp only [madd, mre, transpose]
      cases A i j <;> cases A j i <;> rfl
  · have e1 : Model.egoGraph c' ⟨n, mre w A, k2i, d, m⟩ u r center undirected =
        (Model.bfsPlain ⟨n, mre w A, k2i, d, m⟩ u (some r)).bind
          fun v => Model.egoFinish ⟨n, mre w A, k2i, d, m⟩ u center v := by
      cases undirected <;> cases d <;> first | rfl | exact absurd rfl hc
    have e2 : Model.egoGraph c ⟨n, A, k2i, d, m⟩ u r center undirected =
        (Model.bfsPlain ⟨n, A, k2i, d, m⟩ u (some r)).bind
          fun v => Model.egoFinish ⟨n, A, k2i, d, m⟩ u center v := by
      cases undirected <;> cases d <;> first | rfl | exact absurd rfl hc
    rw [e1, e2, bfsPlain_pat (fun i j => mre_isSome w A i j)]
    cases Model.bfsPlain ⟨n, A, k2i, d, m⟩ u (some r) with
    | error _ => rfl
    | ok v => exact key v

/-! ### matrices asked for without weights -/

section
variable {F : Type} [Field F] (H : Graph K F) (x : Fin H.n → Fin H.n → F)

theorem onesOf_mre {p q : Nat} (A : Mat p q F) (y : Fin p → Fin q → F) : onesOf (mre y A) = onesOf A := by
  simp only [onesOf, mapply_const]

theorem degreesF_mre {p : Nat} (A : Mat p p F) (y : Fin p → Fin p → F) : degreesF (mre y A) = degreesF A := by
  simp only [degreesF, countRow_mre]

/-- **C115** `adjacency_matrix(G, weight=None)` of a graph that is not a multigraph. -/
theorem adjacency_matrix_ignores_weights (hm : H.multi = false) (l : Option (List K)) :
    Model.adjacencyMatrix (reweigh H x) l false = Model.adjacencyMatrix H l false := by
  obtain ⟨n, A, k2i, d, m⟩ := H
  obtain rfl : m = false := hm
  dsimp only [reweigh_mk]
  cases l <;>
    simp only [Model.adjacencyMatrix, listToIds_mre, oneUnless, extract_mre, onesOf_mre, Bool.or_false, Bool.false_eq_true,
      if_false]

/-- the Laplacian parts -/
theorem laplacianHelper_ignores (hm : H.multi = false) (l : Option (List K)) :
    Model.laplacianHelper (reweigh H x) l false = Model.laplacianHelper H l false := by
  obtain ⟨n, A, k2i, d, m⟩ := H
  obtain rfl : m = false := hm
  dsimp only [reweigh_mk]
  cases l <;>
    simp only [Model.laplacianHelper, listToIds_mre, oneUnless, extract_mre, onesOf_mre, Bool.or_false, Bool.false_eq_true,
      if_false, degreesProp, degreesF_mre]

/-- **C115** -/
theorem laplacian_matrix_ignores_weights (hm : H.multi = false) (l : Option (List K)) :
    Model.laplacianMatrix (reweigh H x) l false = Model.laplacianMatrix H l false := by
  simp only [Model.laplacianMatrix, laplacianHelper_ignores H x hm]

/-- **C115** -/
theorem normalized_laplacian_matrix_ignores_weights (sqrt : F → F) (hm : H.multi = false) (l : Option (List K)) :
    Model.normalizedLaplacianMatrix sqrt (reweigh H x) l false = Model.normalizedLaplacianMatrix sqrt H l false := by
  simp only [Model.normalizedLaplacianMatrix, laplacianHelper_ignores H x hm]

/-- **C115** -/
theorem modularity_matrix_ignores_weights (l : Option (List K)) :
    Model.modularityMatrix (reweigh H x) l false = Model.modularityMatrix H l false := by
  have e : (reweigh H x).directed = H.directed := rfl
  have e' : (reweigh H x).multi = H.multi := rfl
  simp only [Model.modularityMatrix, e, e']
  split
  · rfl
  · next h =>
    rw [laplacianHelper_ignores H x (by simp only [Bool.or_eq_true, not_or, Bool.not_eq_true] at h; exact h.2)]

/-- **C115** -/
theorem directed_modularity_matrix_ignores_weights (l : Option (List K)) :
    Model.directedModularityMatrix (reweigh H x) l false = Model.directedModularityMatrix H l false := by
  obtain ⟨n, A, k2i, d, m⟩ := H
  dsimp only [reweigh_mk]
  cases l <;>
    simp only [Model.directedModularityMatrix, listToIds_mre, oneUnless, extract_mre, onesOf_mre, Bool.false_eq_true,
      if_false, degreesF_mre, transpose_mre]

end

/-! ### examples and limits -/

/-- weights 0, 1, 2, … by row on the example digraph, and no weights at all: the same triangles, the same
distances -/
example : Model.triangles (reweigh _root_.Ex.ug fun i _ => (i.val : Int)) none = Model.triangles _root_.Ex.ug none :=
  triangles_ignores_weights _ _ _

/-- **C115, limit.** `square_clustering` is the exception: two graphs with the same edges and different
weights, different results. -/
theorem square_clustering_does_not_ignore_weights :
    ∃ (G : Graph Nat Int) (w : Fin G.n → Fin G.n → Int),
      squareClusteringSingle (reweigh G w) 2 ≠ squareClusteringSingle G 2 :=
  ⟨Ex.sq, fun _ _ => 2, by decide +kernel⟩

end Props
