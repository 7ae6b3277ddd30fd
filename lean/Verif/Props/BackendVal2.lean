import Verif.Props.BackendVal
import Verif.Props.NodeRows
import Verif.Props.FloydWarshall
import Verif.Props.BellmanFordPath
import Verif.Props.GenDegree
import Verif.Props.HitsAuth
import Verif.Props.Katz
import Verif.Props.Linalg
import Verif.Props.Google
import Verif.Props.Square

/-! # C105, continued: more functions through the NetworkX backend -/

open GB Spec Model Model.Graph Proofs
open Cluster (Asked)

namespace Props

variable {K S α : Type} [DecidableEq K] [DecidableEq S] [DecidableEq α]

/-- `result[u][v]` for the `NodeNodeMap` of the matrix `D` -- nodemap.py:354-362, 42-50 -/
def item2 {β : Type} (G : Graph K α) (D : Mat G.n G.n β) (u v : K) : Except Err β :=
  match (rmStep G true ⟨D, none, none⟩ (.getitem u)).1 with
  | .ok (.row r) => item G r v
  | .ok _ => .error .keyError
  | .error e => .error e

theorem item2_eq [AddMonoid α] {G : Graph K α} (h : G.WF) {β : Type} (D : Mat G.n G.n β) (u v : K) :
    item2 G D u v = match G.view2 D u v with
      | some d => .ok d
      | none => .error .keyError := by
  unfold item2 rmStep Graph.view2
  dsimp only
  by_cases hu : G.Node u
  · obtain ⟨i, hi⟩ := Node.exists_id h hu
    obtain ⟨r1, r2, r3, r4, r5⟩ := rmRows_spec (⟨D, none, none⟩ : RMap G.n G.n β) (by intro r hr; cases hr)
    rw [(getId_eq_ok h).2 hi, (idOf_eq_some h).2 hi]
    simp only [Option.isSome_none, Bool.false_eq_true, if_false, Option.bind_some]
    by_cases hn : nvals (D i) = 0
    · rw [if_neg (by rw [r1]; simpa using hn)]
      have := nvals_eq_zero.1 hn
      cases hv : G.idOf v with
      | none => rfl
      | some j => simp [this]
    · rw [if_pos ((r1 i).2 hn)]
      dsimp only
      rw [r2, item_eq h]
      rfl
  · rw [getId_eq_error h hu, (idOf_eq_none h).2 hu]
    rfl

/-- the elements of the `NodeSet` of a vector -/
theorem vec_set [AddMonoid α] {G : Graph K α} (h : G.WF) {β : Type} {v : Vec G.n β} {P : K → Prop}
    (hP : ∀ u, (G.view v u).isSome ↔ P u) : IsSet (vectorToSet G v) P := by
  have hd : Decodable Codec.plain (⟨v, none⟩ : NMap G.n β β) := by
    intro i r _; exact ⟨r, rfl⟩
  obtain ⟨l, hl, -, hen⟩ := nm_enum h hd
  refine ⟨l, hl, hen.1, fun u => ?_⟩
  rw [hen.2, ← hP]
  show ((G.view v u).bind fun r => (Codec.plain.dec r).toOption).isSome = true ↔ _
  cases G.view v u <;> simp [Codec.plain, Except.toOption]

section plain
variable [AddMonoid α] {one : α} {H : NxFull K S α} {a : NxArgs S α} {x : Option S}

/-- **C105.** `bfs_layers`: layer `t` is the set of nodes at distance `t` from the sources; no layer is empty or
missing. -/
theorem nx_bfs_layers (hc : NxCall one H a x) {sources : List K} (hne : sources ≠ [])
    (hn : ∀ u ∈ sources, u ∈ H.nodes) :
    ∃ L : List (Except Err (List K)),
      nxRun one H a (fun G => (bfsLayers G sources).map fun L => L.map fun v => vectorToSet G v) = .ok L ∧
      (∀ t e, L[t]? = some e → IsSet e (IsDistFrom (NxEdge H) (· ∈ sources) t) ∧
        ∃ u, IsDistFrom (NxEdge H) (· ∈ sources) t u) ∧
      ∀ u d, IsDistFrom (NxEdge H) (· ∈ sources) d u → d < L.length := by
  obtain ⟨G, hG, hwf, hN, hd, hm, hE, hw, hW, hsy⟩ := nx_call hc
  rw [hG, ← hE]
  rw [← hN] at hn
  obtain ⟨L, hL, h1, h2⟩ := bfs_layers_correct hwf hne hn
  refine ⟨L.map fun v => vectorToSet G v, by rw [hL]; rfl, ?_, by simpa using h2⟩
  intro t e he
  rw [List.getElem?_map] at he
  obtain ⟨v, hv, rfl⟩ := Option.map_eq_some_iff.1 he
  obtain ⟨h3, u, hu⟩ := h1 t v hv
  exact ⟨vec_set hwf h3, u, (h3 u).1 hu⟩

/-- **C105.** `all_pairs_shortest_path_length`: every node once, with its map of distances. -/
theorem nx_all_pairs_shortest_path_length (hc : NxCall one H a x) (c : Option Int) (chunksize : Option Int)
    (hcut : ∀ x, c = some x → 0 ≤ x) (u : K) :
    ∃ L : List (K × Except Err Nat),
      nxRun one H a (fun G => (allPairsSPL G c chunksize).map fun L => L.map fun p => (p.1, item G p.2 u)) = .ok L ∧
      (L.map Prod.fst).Perm H.nodes ∧
      ∀ p ∈ L, ∀ d, p.2 = .ok d ↔ IsDist (NxEdge H) p.1 d u ∧ Within c d := by
  obtain ⟨G, hG, hwf, hN, hd, hm, hE, hw, hW, hsy⟩ := nx_call hc
  rw [hG, ← hE, ← hN]
  obtain ⟨L, hL, h1, h2⟩ := all_pairs_shortest_path_length_chunksize_independent hwf c chunksize
  refine ⟨L.map fun p => (p.1, item G p.2 u), by rw [hL]; rfl, by rw [List.map_map]; exact h1, ?_⟩
  intro p hp d
  obtain ⟨q, hq, rfl⟩ := List.mem_map.1 hp
  have hs : G.Node q.1 := h1.mem_iff.1 (List.mem_map_of_mem hq)
  obtain ⟨r, hr, hv⟩ := single_source_shortest_path_length_correct hwf hs c hcut
  rw [h2 q hq] at hr
  obtain rfl := Except.ok.inj hr
  dsimp only
  rw [item_eq hwf, ← hv]
  cases G.view q.2 u <;> simp

/-- **C105.** `efficiency` of two different nodes. -/
theorem nx_efficiency {F : Type} [DivisionRing F] (hc : NxCall one H a x) {u v : K} (hu : u ∈ H.nodes)
    (hv : v ∈ H.nodes) (huv : u ≠ v) :
    (∃ d, IsDist (NxEdge H) u d v ∧ nxRun one H a (fun G => efficiency (F := F) G u v) = .ok (1 / (d : F))) ∨
    (¬ Reach (NxEdge H) u v ∧ nxRun one H a (fun G => efficiency (F := F) G u v) = .ok 0) := by
  obtain ⟨G, hG, hwf, hN, hd, hm, hE, hw, hW, hsy⟩ := nx_call hc
  rw [hG, ← hE]
  rw [← hN] at hu hv
  exact efficiency_correct hwf hu hv huv

/-- **C105.** `lowest_common_ancestor` in an acyclic digraph. -/
theorem nx_lowest_common_ancestor (hc : NxCall one H a x) (hdir : isDirectedClass H.cls = true)
    (hac : ∀ y k, ¬ Walk (NxEdge H) (k+1) y y) {u v : K} (hu : u ∈ H.nodes) (hv : v ∈ H.nodes) :
    (∃ c, nxRun one H a (fun G => lowestCommonAncestor G u v) = .ok (some c) ∧ c ∈ H.nodes ∧
      Reach (NxEdge H) c u ∧ Reach (NxEdge H) c v ∧
      ∀ b, NxEdge H c b → ¬ (Reach (NxEdge H) b u ∧ Reach (NxEdge H) b v)) ∨
    (nxRun one H a (fun G => lowestCommonAncestor G u v) = .ok none ∧
      ∀ c ∈ H.nodes, ¬ (Reach (NxEdge H) c u ∧ Reach (NxEdge H) c v)) := by
  obtain ⟨G, hG, hwf, hN, hd, hm, hE, hw, hW, hsy⟩ := nx_call hc
  rw [hG, ← hE, ← hN]
  rw [← hN] at hu hv
  rw [← hE] at hac
  exact lowest_common_ancestor_correct hwf (hd.trans hdir) hac hu hv

/-- **C105.** `generalized_degree`: item `t` of item `u`. -/
theorem nx_generalized_degree (hc : NxCall one H a x) {nodes : Option (List K)}
    (hn : ∀ l, nodes = some l → ∀ u ∈ l, u ∈ H.nodes) :
    ∃ f : K → Nat → Option Nat,
      nxRun one H a (fun G => (generalizedDegree G nodes).map fun M => genDegAt G M) = .ok f ∧
      ∀ u t c, f u t = some c ↔ (u ∈ H.nodes ∧ Asked nodes u) ∧ 0 < c ∧ c = genDegree H.nodes (NxEdge H) u t := by
  obtain ⟨G, hG, hwf, hN, hd, hm, hE, hw, hW, hsy⟩ := nx_call hc
  rw [hG]
  rw [← hN] at hn
  obtain ⟨M, hM, h1⟩ := generalized_degree_correct hwf hn
  refine nx_move hN hE (fun N E _ => ∃ f : K → Nat → Option Nat, _ = Except.ok f ∧
      ∀ u t c, f u t = some c ↔ (u ∈ N ∧ Asked nodes u) ∧ 0 < c ∧ c = genDegree N E u t) ?_
  exact ⟨genDegAt G M, by rw [hM]; rfl, h1⟩

/-- **C105.** `edge_boundary` of an undirected graph that is not a multigraph, and `node_boundary`. -/
theorem nx_boundaries_partial (hc : NxCall one H a x) (A : List K) (B : Option (List K)) :
    (isDirectedClass H.cls = false → ∃ r, nxRun one H a (fun G => edgeBoundary G A B) = .ok r ∧ r.Nodup ∧
      ∀ u v, (u, v) ∈ r ↔ NxEdge H u v ∧ u ∈ A ∧ Other A B v) ∧
    IsSet (nxRun one H a (elemsOf fun G => nodeBoundary G A B))
      (fun v => v ∉ A ∧ (∀ l, B = some l → v ∈ l) ∧ ∃ u ∈ A, NxEdge H u v) := by
  obtain ⟨G, hG, hwf, hN, hd, hm, hE, hw, hW, hsy⟩ := nx_call hc
  simp only [hG]
  rw [← hE]
  constructor
  · intro hu
    obtain ⟨⟨r, hr, h1, h2⟩, -⟩ := edge_boundary_correct_partial hwf A B
    refine ⟨r, hr, h1, fun u v => ?_⟩
    rw [h2]
    constructor
    · rintro ⟨e, hA, hT⟩
      have := (edge_boundary_undirected (hsy (hd.trans hu)) A B e).1 hT
      exact ⟨e, hA, by cases B <;> exact this⟩
    · rintro ⟨e, hA, hT⟩
      exact ⟨e, hA, (edge_boundary_undirected (hsy (hd.trans hu)) A B e).2 (by cases B <;> exact hT)⟩
  · obtain ⟨r, hr, h1⟩ := node_boundary_correct hwf A B
    exact nxElems_set hwf (f := fun G => nodeBoundary G A B) hr h1

/-- edges between `P` and `Q`, both ways in a digraph -/
def nxCut (H : NxFull K S α) (P Q : K → Prop) [DecidablePred P] [DecidablePred Q] : Nat :=
  edgesFromTo H.nodes (NxEdge H) P Q + if isDirectedClass H.cls then edgesFromTo H.nodes (NxEdge H) Q P else 0

/-- **C105.** `conductance`, `normalized_cut_size`, `edge_expansion`, `mixing_expansion` with two sets, or in an
undirected graph with one. -/
theorem nx_cut_ratios_partial (hc : NxCall one H a x) (A : List K) (B : Option (List K))
    (hB : B = none → isDirectedClass H.cls = false) :
    let cut := nxCut H (· ∈ A) (Other A B)
    let va := vol H.nodes (NxEdge H) (· ∈ A)
    let vb := vol H.nodes (NxEdge H) (Other A B)
    nxRun one H a (fun G => conductance G A B) = ratio cut (min va vb) ∧
    nxRun one H a (fun G => normalizedCutSize G A B) =
      (if va = 0 ∨ vb = 0 then .error .zeroDivision else .ok (cut * (1 / (va : ℚ) + 1 / (vb : ℚ)))) ∧
    nxRun one H a (fun G => edgeExpansion G A B) =
      ratio cut (min (countOf H.nodes (· ∈ A)) (countOf H.nodes (Other A B))) ∧
    nxRun one H a (fun G => mixingExpansion G A B) = ratio cut (edgeCount H.nodes (NxEdge H)) := by
  obtain ⟨G, hG, hwf, hN, hd, hm, hE, hw, hW, hsy⟩ := nx_call hc
  simp only [hG]
  unfold nxCut
  rw [← hd]
  refine nx_move hN hE (fun N E _ =>
    let cut := edgesFromTo N E (· ∈ A) (Other A B) + if G.directed then edgesFromTo N E (Other A B) (· ∈ A) else 0
    conductance G A B = ratio cut (min (vol N E (· ∈ A)) (vol N E (Other A B))) ∧
    normalizedCutSize G A B =
      (if vol N E (· ∈ A) = 0 ∨ vol N E (Other A B) = 0 then .error .zeroDivision
        else .ok (cut * (1 / (vol N E (· ∈ A) : ℚ) + 1 / (vol N E (Other A B) : ℚ)))) ∧
    edgeExpansion G A B = ratio cut (min (countOf N (· ∈ A)) (countOf N (Other A B))) ∧
    mixingExpansion G A B = ratio cut (edgeCount N E)) ?_
  obtain ⟨h1, h2⟩ := conductance_correct hwf A B
  obtain ⟨h3, h4⟩ := edge_expansion_correct hwf hsy A B fun e => hd.trans (hB e)
  exact ⟨h1, h2, h3, h4⟩

/-- **C105.** `node_expansion`, `boundary_expansion`. -/
theorem nx_expansions (hc : NxCall one H a x) (A : List K) :
    ((∀ u ∈ A, u ∈ H.nodes) → nxRun one H a (fun G => nodeExpansion G A) =
      ratio (countOf H.nodes fun v => ∃ u ∈ A, NxEdge H u v) (countOf H.nodes (· ∈ A))) ∧
    nxRun one H a (fun G => boundaryExpansion G A) =
      ratio (countOf H.nodes fun v => v ∉ A ∧ ∃ u ∈ A, NxEdge H u v) (countOf H.nodes (· ∈ A)) := by
  obtain ⟨G, hG, hwf, hN, hd, hm, hE, hw, hW, hsy⟩ := nx_call hc
  simp only [hG]
  refine nx_move hN hE (fun N E _ =>
    ((∀ u ∈ A, u ∈ N) → nodeExpansion G A = ratio (countOf N fun v => ∃ u ∈ A, E u v) (countOf N (· ∈ A))) ∧
    boundaryExpansion G A = ratio (countOf N fun v => v ∉ A ∧ ∃ u ∈ A, E u v) (countOf N (· ∈ A))) ?_
  exact node_expansion_correct hwf A

/-- **C105.** `inter_community_edges`, `intra_community_edges`, for a list of blocks. -/
theorem nx_community (hc : NxCall one H a x) (P : List (List K)) :
    nxRun one H a (fun G => intraCommunityEdges G P) =
      .ok (P.map fun b => edgesFromTo H.nodes (NxEdge H) (· ∈ b) (· ∈ b)).sum ∧
    nxRun one H a (fun G => interCommunityEdges G P) =
      .ok (P.map fun b => edgesFromTo H.nodes (NxEdge H) (· ∉ b) (· ∈ b)).sum := by
  obtain ⟨G, hG, hwf, hN, hd, hm, hE, hw, hW, hsy⟩ := nx_call hc
  simp only [hG]
  refine nx_move hN hE (fun N E _ =>
    intraCommunityEdges G P = .ok (P.map fun b => edgesFromTo N E (· ∈ b) (· ∈ b)).sum ∧
    interCommunityEdges G P = .ok (P.map fun b => edgesFromTo N E (· ∉ b) (· ∈ b)).sum) ?_
  exact community_edges_correct hwf P

/-- **C105.** `is_regular` of a graph with edges, `is_k_regular` for `k ≠ 0`. -/
theorem nx_regular_partial (hc : NxCall one H a x) :
    ((∃ u v, NxEdge H u v) → ∃ b, nxRun one H a isRegular = .ok b ∧ (b = true ↔
      if isDirectedClass H.cls then (∃ k, Regular H.nodes (NxEdge H) k) ∧ ∃ k, InRegular H.nodes (NxEdge H) k
      else ∃ k, Regular H.nodes (NxEdge H) k)) ∧
    (isDirectedClass H.cls = false → ∀ k : Int, k ≠ 0 → ∃ b, nxRun one H a (fun G => isKRegular G k) = .ok b ∧
      (b = true ↔ ∀ u ∈ H.nodes, (outDeg H.nodes (NxEdge H) u : Int) = k)) := by
  obtain ⟨G, hG, hwf, hN, hd, hm, hE, hw, hW, hsy⟩ := nx_call hc
  simp only [hG, ← hd]
  refine nx_move hN hE (fun N E _ =>
    ((∃ u v, E u v) → ∃ b, isRegular G = .ok b ∧ (b = true ↔
      if G.directed then (∃ k, Regular N E k) ∧ ∃ k, InRegular N E k else ∃ k, Regular N E k)) ∧
    (G.directed = false → ∀ k : Int, k ≠ 0 → ∃ b, isKRegular G k = .ok b ∧
      (b = true ↔ ∀ u ∈ N, (outDeg N E u : Int) = k))) ?_
  exact ⟨fun he => is_regular_correct_partial hwf he, fun hf k hk => is_k_regular_correct_partial hwf hf k hk⟩

/-- **C105.** `reciprocity` of a node and of a list of nodes of a digraph. -/
theorem nx_reciprocity (hc : NxCall one H a x) (hdir : isDirectedClass H.cls = true) :
    let deg := fun u => outDeg H.nodes (NxEdge H) u + inDeg H.nodes (NxEdge H) u
    let rc := fun u => 2 * (mutualDeg H.nodes (NxEdge H) u : ℚ) /
      ((outDeg H.nodes (NxEdge H) u : ℚ) + inDeg H.nodes (NxEdge H) u)
    (∀ u ∈ H.nodes, nxRun one H a (fun G => reciprocityNode G u) =
      if deg u ≠ 0 then .ok (rc u) else .error .emptyGraph) ∧
    ∀ l : List K, (∀ u ∈ l, u ∈ H.nodes) →
      IsMapping (fun u => nxRun one H a (itemOf (fun G => reciprocityNodes G l) u))
        fun u r => u ∈ H.nodes ∧ (u ∈ l ∧ deg u ≠ 0) ∧ r = rc u := by
  obtain ⟨G, hG, hwf, hN, hd, hm, hE, hw, hW, hsy⟩ := nx_call hc
  simp only [hG]
  refine nx_move hN hE (fun N E _ =>
    (∀ u ∈ N, reciprocityNode G u = if outDeg N E u + inDeg N E u ≠ 0 then
      .ok (2 * (mutualDeg N E u : ℚ) / ((outDeg N E u : ℚ) + inDeg N E u)) else .error .emptyGraph) ∧
    ∀ l : List K, (∀ u ∈ l, u ∈ N) →
      IsMapping (fun u => itemOf (fun G => reciprocityNodes G l) u G)
        fun u r => u ∈ N ∧ (u ∈ l ∧ outDeg N E u + inDeg N E u ≠ 0) ∧
          r = 2 * (mutualDeg N E u : ℚ) / ((outDeg N E u : ℚ) + inDeg N E u)) ?_
  refine ⟨fun u hu => reciprocity_node_correct hwf (hd.trans hdir) hu, fun l hl => ?_⟩
  obtain ⟨R, hR, h1⟩ := reciprocity_nodes_correct hwf (hd.trans hdir) hl
  refine nxItem_mapping hwf (f := fun G => reciprocityNodes G l) hR fun u d => ?_
  by_cases hu : G.Node u
  · rw [h1 u hu]
    split_ifs with hc
    · exact ⟨fun e => ⟨hu, hc, (Option.some.inj e).symm⟩, fun e => congrArg some e.2.2.symm⟩
    · exact ⟨fun e => (by cases e), fun e => absurd e.2.1 hc⟩
  · constructor
    · intro e
      obtain ⟨i, hi, -⟩ := (view_eq_some hwf).1 e
      exact absurd hi.node hu
    · exact fun e => absurd e.1 hu

/-- **C105.** `s_metric` of an undirected graph without self-loops: over the edges, each listed once, the sum of the
products of the degrees; `is_triad`. -/
theorem nx_s_metric_partial (hc : NxCall one H a x) :
    (isDirectedClass H.cls = false → (∀ u, ¬ NxEdge H u u) → ∀ EL : List (K × K), EL.Nodup →
      (∀ p ∈ EL, NxEdge H p.1 p.2 ∧ (p.2, p.1) ∉ EL) →
      (∀ u v, NxEdge H u v → (u, v) ∈ EL ∨ (v, u) ∈ EL) →
      nxRun one H a (fun G => .ok (sMetric G)) = .ok
        (((EL.map fun p => outDeg H.nodes (NxEdge H) p.1 * outDeg H.nodes (NxEdge H) p.2).sum : Nat) : ℚ)) ∧
    ∃ b, nxRun one H a (fun G => .ok (isTriad G)) = .ok b ∧
      (b = true ↔ isDirectedClass H.cls = true ∧ H.nodes.length = 3 ∧ ∀ u, ¬ NxEdge H u u) := by
  obtain ⟨G, hG, hwf, hN, hd, hm, hE, hw, hW, hsy⟩ := nx_call hc
  simp only [hG, ← hd]
  refine nx_move hN hE (fun N E _ =>
    (G.directed = false → (∀ u, ¬ E u u) → ∀ EL : List (K × K), EL.Nodup →
      (∀ p ∈ EL, E p.1 p.2 ∧ (p.2, p.1) ∉ EL) → (∀ u v, E u v → (u, v) ∈ EL ∨ (v, u) ∈ EL) →
      (Except.ok (sMetric G) : Except Err ℚ) = .ok (((EL.map fun p => outDeg N E p.1 * outDeg N E p.2).sum : Nat) : ℚ)) ∧
    ∃ b, (Except.ok (isTriad G) : Except Err Bool) = .ok b ∧
      (b = true ↔ G.directed = true ∧ N.length = 3 ∧ ∀ u, ¬ E u u)) ?_
  exact ⟨fun hf hl EL h1 h2 h3 => congrArg _ (s_metric_correct_partial hwf (hsy hf) hf hl EL h1 h2 h3),
    _, rfl, is_triad_correct hwf⟩

/-- **C105.** `number_of_isolates`; `square_clustering` is below, for counted edges. -/
theorem nx_number_of_isolates (hc : NxCall one H a x) [DecidablePred (Isolated (NxEdge H))] :
    nxRun one H a (fun G => .ok (numberOfIsolates G)) = .ok (countOf H.nodes (Isolated (NxEdge H))) := by
  obtain ⟨G, hG, hwf, hN, hd, hm, hE, hw, hW, hsy⟩ := nx_call hc
  rw [hG]
  classical
  have h1 := (isolates_correct hwf hsy).2
  rw [h1]
  simp only [hN, hE]

end plain

/-! ## weights -/

section cutsW
variable {α : Type} [DecidableEq α] [AddCommMonoid α] {one : α} {H : NxFull K S α} {a : NxArgs S α} {x : Option S}

/-- **C105.** `cut_size` with weights and two sets, or one set in an undirected graph; `mutual_weight`. -/
theorem nx_weighted_cuts_partial (hc : NxCall one H a x) (A : List K) (B : Option (List K))
    (hB : B = none → isDirectedClass H.cls = false) :
    nxRun one H a (fun G => cutSizeWeighted G A B) =
      .ok (weightFromTo H.nodes (nxWeight one H x) (· ∈ A) (Other A B) +
        if isDirectedClass H.cls then weightFromTo H.nodes (nxWeight one H x) (Other A B) (· ∈ A) else 0) ∧
    ∀ u v, nxRun one H a (fun G => mutualWeight G u v) =
      .ok ((nxWeight one H x u v).getD 0 + (nxWeight one H x v u).getD 0) := by
  obtain ⟨G, hG, hwf, hN, hd, hm, hE, hw, hW, hsy⟩ := nx_call hc
  simp only [hG]
  rw [← hN, ← hw, ← hd]
  refine ⟨?_, fun u v => (mutual_weight_correct hwf u v).1⟩
  cases B with
  | some B => exact cut_size_weighted_correct hwf A B
  | none =>
    have hf := hd.trans (hB rfl)
    rw [cut_size_weighted_complement hwf (hsy hf) hf]
    rw [hf]
    simp only [Bool.false_eq_true, if_false, add_zero]
    rfl

end cutsW

section paths
variable {α : Type} [AddCommGroup α] [LinearOrder α] [IsOrderedAddMonoid α] {one : α} {H : NxFull K S α}
  {a : NxArgs S α} {x : Option S}

/-- **C105.** `floyd_warshall` without negative cycles: item `v` of item `u` is the weighted distance. -/
theorem nx_floyd_warshall (hc : NxCall one H a x) (hno : ∀ u ∈ H.nodes, ¬ NegCycleAt (NxW one H x) u)
    (choose : α → α → α) {u : K} (hu : u ∈ H.nodes) :
    IsMapping (fun v => nxRun one H a fun G => item2 G (fwDist G.directed choose G.A) u v)
      fun v d => v ∈ H.nodes ∧ IsWDist (NxW one H x) u d v := by
  obtain ⟨G, hG, hwf, hN, hd, hm, hE, hw, hW, hsy⟩ := nx_call hc
  simp only [hG]
  have hW' : NxW one H x = G.WEdge := hW.symm
  rw [hW'] at hno ⊢
  rw [← hN] at hno hu ⊢
  have h1 := floyd_warshall_correct hwf hsy hno choose u
  constructor
  · intro v d
    beta_reduce
    rw [item2_eq hwf]
    have := h1 v d
    cases e : G.view2 (fwDist G.directed choose G.A) u v with
    | none =>
      rw [e] at this
      exact ⟨fun e => (by cases e), fun e => absurd (this.2 ⟨hu, e⟩) (by simp)⟩
    | some y =>
      rw [e] at this
      constructor
      · intro e
        exact (this.1 (congrArg some (Except.ok.inj e))).2
      · intro e
        exact congrArg _ (Option.some.inj (this.2 ⟨hu, e⟩))
  · intro v e
    beta_reduce
    rw [item2_eq hwf]
    cases G.view2 (fwDist G.directed choose G.A) u v <;> simp [eq_comm]

/-- **C105.** `bellman_ford_path_length` and `bellman_ford_path` when no negative cycle is reachable from the source. -/
theorem nx_bellman_ford_path_partial (hc : NxCall one H a x) {iso : Option α}
    (hiso : ∀ c, iso = some c → ∀ u v w, NxW one H x u v w → w = c) {s t : K} (hs : s ∈ H.nodes)
    (ht : t ∈ H.nodes) (hno : ¬ NegCycleFrom (NxW one H x) s) :
    ((∃ d, IsWDist (NxW one H x) s d t ∧ nxRun one H a (fun G => bellmanFordPathLength G iso s t) = .ok d) ∨
      (¬ WReach (NxW one H x) s t ∧ nxRun one H a (fun G => bellmanFordPathLength G iso s t) = .error .noPath)) ∧
    ((∀ u w, NxW one H x u u w → 0 ≤ w) → (iso.isSome → ∀ u v w, NxW one H x u v w → 0 ≤ w) →
      (∃ l, nxRun one H a (fun G => bellmanFordPath G iso s t) = .ok l ∧ IsShortestPath (NxW one H x) s t l) ∨
      (¬ WReach (NxW one H x) s t ∧ nxRun one H a (fun G => bellmanFordPath G iso s t) = .ok [])) := by
  obtain ⟨G, hG, hwf, hN, hd, hm, hE, hw, hW, hsy⟩ := nx_call hc
  simp only [hG]
  have hW' : NxW one H x = G.WEdge := hW.symm
  rw [hW'] at hiso hno ⊢
  rw [← hN] at hs ht
  exact ⟨bellman_ford_path_length_correct_partial hwf hsy hiso hs ht hno,
    fun h1 h2 => bellman_ford_path_correct_partial hwf hiso hs ht hno h1 h2⟩

/-- **C105.** `all_pairs_bellman_ford_path_length`. -/
theorem nx_all_pairs_bellman_ford (hc : NxCall one H a x) {iso : Option α}
    (hiso : ∀ c, iso = some c → ∀ u v w, NxW one H x u v w → w = c) (fdiv : α → α → Int) (chunksize : Option Int)
    (hno : ∀ u ∈ H.nodes, ¬ NegCycleFrom (NxW one H x) u) (u : K) :
    ∃ L : List (K × Except Err α),
      nxRun one H a (fun G => (allPairsBF G iso fdiv chunksize).map fun L => L.map fun p => (p.1, item G p.2 u)) =
        .ok L ∧ (L.map Prod.fst).Perm H.nodes ∧ ∀ p ∈ L, ∀ d, p.2 = .ok d ↔ IsWDist (NxW one H x) p.1 d u := by
  obtain ⟨G, hG, hwf, hN, hd, hm, hE, hw, hW, hsy⟩ := nx_call hc
  have hW' : NxW one H x = G.WEdge := hW.symm
  rw [hW'] at hiso hno ⊢
  rw [hG, ← hN]
  rw [← hN] at hno
  rcases all_pairs_bellman_ford_path_length_chunksize_independent hwf hsy hiso fdiv chunksize with
    ⟨⟨u, hu, hneg⟩, -⟩ | ⟨-, L, hL, h1, h2⟩
  · exact absurd hneg (hno u hu)
  · refine ⟨L.map fun p => (p.1, item G p.2 u), by rw [hL]; rfl, by rw [List.map_map]; exact h1, ?_⟩
    intro p hp d
    obtain ⟨q, hq, rfl⟩ := List.mem_map.1 hp
    have hs : G.Node q.1 := h1.mem_iff.1 (List.mem_map_of_mem hq)
    rcases single_source_bellman_ford_path_length_correct hwf hsy hiso fdiv hs with ⟨hn, -⟩ | ⟨-, r, hr, hv⟩
    · exact absurd hn (hno _ hs)
    · rw [h2 q hq] at hr
      obtain rfl := Except.ok.inj hr
      dsimp only
      rw [item_eq hwf, ← hv]
      cases G.view q.2 u <;> simp

end paths

/-! ## centrality and ranks -/

section ranks
variable {F : Type} [Field F] [LinearOrder F] [IsStrictOrderedRing F] {one : F} {H : NxFull K S F} {a : NxArgs S F}
  {x : Option S}

/-- the step at which the iteration of `T` from `x0` first moves less than `N * tol` -/
def StopsAt (N : List K) (tol : F) (maxIter : Int) (T : (K → F) → K → F) (x0 : K → F) (k : Nat) : Prop :=
  (k : Int) < maxIter ∧ l1 N (T^[k] x0) (T^[k + 1] x0) < N.length * tol ∧
    ∀ j < k, ¬ l1 N (T^[j] x0) (T^[j + 1] x0) < N.length * tol

omit [IsStrictOrderedRing F] [DecidableEq K] in
theorem stopsAt_unique {N : List K} {tol : F} {m : Int} {T : (K → F) → K → F} {x0 : K → F} {k k' : Nat}
    (h : StopsAt N tol m T x0 k) (h' : StopsAt N tol m T x0 k') : k = k' := by
  rcases Nat.lt_trichotomy k k' with e | e | e
  · exact absurd h.2.1 (h'.2.2 k e)
  · exact e
  · exact absurd h'.2.1 (h.2.2 k' e)

omit [IsStrictOrderedRing F] in
theorem nxDist_valid {G : Graph K F} (hN : G.nodes = H.nodes) {d : Option (List (K × F))} (hd : NxDist H d) :
    ∀ l, d = some l → Proofs.Power.ValidDict G l ∧ sumOver G.nodes (valueIn l) ≠ 0 := by
  intro l hl
  obtain ⟨h1, h2, h3, h4⟩ := hd l hl
  rw [← hN] at h3 h4
  exact ⟨⟨h1, h2, h3⟩, h4⟩

/-- **C105.** `eigenvector_centrality` of a graph that is not a multigraph: the first iterate of power iteration that
moved less than `N * tol`, or `PowerIterationFailedConvergence`.  (A node missing from `nstart` can be missing from the
result.) -/
theorem nx_eigenvector_centrality (hc : NxCall one H a x) (hmul : isMultiClass H.cls = false) (hne : H.nodes ≠ [])
    {nstart : Option (List (K × F))} (hs : NxDist H nstart) (sqrt : F → F) (maxIter : Int) (tol : F) :
    let T := eigMap sqrt H.nodes (nxWeight one H x)
    let x0 := distOf H.nodes nstart (uniform H.nodes)
    let run := fun u => nxRun one H a (itemOf (fun G => eigenvectorCentrality sqrt G maxIter tol nstart) u)
    (∀ k, StopsAt H.nodes tol maxIter T x0 k → ∀ u ∈ H.nodes,
      run u = .ok (T^[k + 1] x0 u) ∨
        (nstart ≠ none ∧ T^[k + 1] x0 u = 0 ∧ run u = .error .keyError)) ∧
    ((∀ k, ¬ StopsAt H.nodes tol maxIter T x0 k) → ∀ u, run u = .error .convergence) := by
  obtain ⟨G, hG, hwf, hN, hd, hm, hE, hw, hW, hsy⟩ := nx_call hc
  simp only [hG]
  rw [← hN] at hne
  obtain ⟨h1, h2⟩ := eigenvector_correct hwf (hm.trans hmul) hne (nxDist_valid hN hs) sqrt maxIter tol
  rw [← hN, ← hw]
  unfold prStart at h1 h2
  have hex : ∀ e, eigenvectorCentrality sqrt G maxIter tol nstart = .error e ↔ e = .convergence ∧
      ∀ k, ¬ StopsAt G.nodes tol maxIter (eigMap sqrt G.nodes G.weight?) (distOf G.nodes nstart (uniform G.nodes)) k :=
    fun e => (h2 e).trans ⟨fun h => ⟨h.1, fun k hk => h.2 k hk.1 hk.2⟩, fun h => ⟨h.1, fun k hk hf => h.2 k ⟨hk, hf⟩⟩⟩
  constructor
  · intro k hk u hu
    cases hR : eigenvectorCentrality sqrt G maxIter tol nstart with
    | error e => exact absurd hk (((hex e).1 hR).2 k)
    | ok r =>
      obtain ⟨k', hk', hf, hv, hsome⟩ := h1 r hR
      obtain rfl := stopsAt_unique (⟨hk', hf⟩ : StopsAt _ _ _ _ _ k') hk
      unfold itemOf
      beta_reduce
      rw [hR]
      show item G r u = _ ∨ _ ∧ _ ∧ item G r u = _
      rw [item_eq hwf]
      have hval := hv u hu
      cases hr : G.view r u with
      | some y =>
        rw [hr] at hval
        exact .inl (congrArg _ hval)
      | none =>
        rw [hr] at hval
        refine .inr ⟨fun h0 => ?_, hval.symm, rfl⟩
        have := hsome h0 u hu
        rw [hr] at this
        cases this
  · intro hno u
    unfold itemOf
    beta_reduce
    rw [(hex .convergence).2 ⟨rfl, hno⟩]
    rfl

/-- what `katz_centrality` asks of its arguments: a graph that is not a multigraph, with nodes; `nstart` and `beta`
dicts over the nodes, `beta` complete.  `fill`: `beta` is made dense, or need not be. -/
structure NxKatz (H : NxFull K S F) (fill : Bool) (beta : F ⊕ List (K × F)) (nstart : Option (List (K × F))) : Prop where
  simple : isMultiClass H.cls = false
  nonempty : H.nodes ≠ []
  nstart_ok : ∀ l, nstart = some l → l ≠ [] ∧ (l.map Prod.fst).Nodup ∧ ∀ k b, (k, b) ∈ l → k ∈ H.nodes
  beta_ok : ∀ l, beta = .inr l → l ≠ [] ∧ (l.map Prod.fst).Nodup ∧ (∀ k b, (k, b) ∈ l → k ∈ H.nodes) ∧
    ∀ u ∈ H.nodes, ∃ b, (u, b) ∈ l
  fill_ok : fill = true ∨ (∃ l, beta = .inr l) ∨
    (nstart = none ∧ ∀ v ∈ H.nodes, ∃ u ∈ H.nodes, NxEdge H u v)

/-- **C105.** `katz_centrality`. -/
theorem nx_katz_centrality (hc : NxCall one H a x) {fill : Bool} {iso : Option F}
    (hiso : ∀ c, iso = some c → ∀ u v w, nxWeight one H x u v = some w → w = c) {beta : F ⊕ List (K × F)}
    {nstart : Option (List (K × F))} (ha : NxKatz H fill beta nstart)
    (sqrt : F → F) (alpha : F) (maxIter : Int) (tol : F) (normalized : Bool) :
    let T := katzMap H.nodes (nxWeight one H x) alpha (betaOf beta)
    let run := fun u => nxRun one H a
      (itemOpt (fun G => katzCentrality fill sqrt G iso alpha beta maxIter tol nstart normalized) u)
    (∀ k, StopsAt H.nodes tol maxIter T (katzStart nstart) k → ∀ u ∈ H.nodes,
      run u = .ok (let y := T^[k + 1] (katzStart nstart)
        if normalized then over (norm2 sqrt H.nodes y) y u else y u)) ∧
    ((∀ k, ¬ StopsAt H.nodes tol maxIter T (katzStart nstart) k) → ∀ u, run u = .error .convergence) := by
  obtain ⟨G, hG, hwf, hN, hd, hm, hE, hw, hW, hsy⟩ := nx_call hc
  simp only [hG]
  have ha' : KatzArgs G fill iso beta nstart := by
    obtain ⟨k1, k2, k3, k4, k5⟩ := ha
    rw [← hN] at k2 k3 k4 k5
    rw [← hE] at k5
    refine ⟨hm.trans k1, k2, ?_, fun l hl => ⟨(k3 l hl).1, (k3 l hl).2.1, (k3 l hl).2.2⟩,
      fun l hl => ⟨⟨(k4 l hl).1, (k4 l hl).2.1, (k4 l hl).2.2.1⟩, (k4 l hl).2.2.2⟩, k5⟩
    intro c hc u v w e
    rw [hW] at e
    exact hiso c hc u v w e
  obtain ⟨h1, h2⟩ := katz_correct hwf ha' sqrt alpha maxIter tol normalized
  rw [← hN, ← hw]
  have hex : ∀ e, katzCentrality fill sqrt G iso alpha beta maxIter tol nstart normalized = .error e ↔
      e = .convergence ∧ ∀ k, ¬ StopsAt G.nodes tol maxIter (katzMap G.nodes G.weight? alpha (betaOf beta))
        (katzStart nstart) k :=
    fun e => (h2 e).trans ⟨fun h => ⟨h.1, fun k hk => h.2 k hk.1 hk.2⟩, fun h => ⟨h.1, fun k hk hf => h.2 k ⟨hk, hf⟩⟩⟩
  constructor
  · intro k hk u hu
    cases hR : katzCentrality fill sqrt G iso alpha beta maxIter tol nstart normalized with
    | error e => exact absurd hk (((hex e).1 hR).2 k)
    | ok R =>
      obtain ⟨k', r, hk', rfl, hf, hv⟩ := h1 R hR
      obtain rfl := stopsAt_unique (⟨hk', hf⟩ : StopsAt _ _ _ _ _ k') hk
      unfold itemOpt
      beta_reduce
      rw [hR]
      show item G r u = _
      rw [item_eq hwf, hv u hu]
  · intro hno u
    unfold itemOpt
    beta_reduce
    rw [(hex .convergence).2 ⟨rfl, hno⟩]
    rfl

/-- item `u` of the hubs (`true`) or authorities of `hits` -/
def hitsItem (G : Graph K F) (maxIter : Int) (tol : F) (nstart : Option (List (K × F))) (normalized hub : Bool) (u : K) :
    Except Err F := do
  match ← hits G maxIter tol nstart normalized with
  | none => .error .keyError
  | some p => item G (if hub then p.1 else p.2) u

/-- **C105.** `hits` of a graph whose weights are not negative. -/
theorem nx_hits (hc : NxCall one H a x) (hne : H.nodes ≠ []) (hpos : ∀ u v w, nxWeight one H x u v = some w → 0 ≤ w)
    {nstart : Option (List (K × F))} (hs : NxDist H nstart) (hs0 : ∀ l, nstart = some l → ∀ k b, (k, b) ∈ l → 0 ≤ b)
    (maxIter : Int) (tol : F) (normalized : Bool) :
    let T := hubMap H.nodes (nxWeight one H x)
    let x0 := distOf H.nodes nstart (uniform H.nodes)
    let run := fun hub u => nxRun one H a fun G => hitsItem G maxIter tol nstart normalized hub u
    (∀ k, StopsAt H.nodes tol maxIter T x0 k → ∀ u ∈ H.nodes,
      run true u = .ok (let y := T^[k + 1] x0
        if normalized then over (sumOver H.nodes y) y u else y u) ∧
      run false u = .ok (hitsScale H.nodes normalized (inSum H.nodes (nxWeight one H x) (T^[k] x0)) u)) ∧
    ((∀ k, ¬ StopsAt H.nodes tol maxIter T x0 k) → ∀ hub u,
      run hub u = .error (if maxIter < 1 then .valueError else .convergence)) := by
  obtain ⟨G, hG, hwf, hN, hd, hm, hE, hw, hW, hsy⟩ := nx_call hc
  simp only [hG]
  rw [← hN] at hne
  have hpos' : ∀ u v w, G.WEdge u v w → 0 ≤ w := by
    intro u v w e
    rw [hW] at e
    exact hpos u v w e
  obtain ⟨h1, h2⟩ := hits_correct hwf hne hpos'
    (fun l hl => ⟨(nxDist_valid hN hs l hl).1, (nxDist_valid hN hs l hl).2, hs0 l hl⟩) maxIter tol normalized
  rw [← hN, ← hw]
  unfold prStart at h1 h2
  constructor
  · intro k hk u hu
    cases hR : hits G maxIter tol nstart normalized with
    | error e => exact absurd hk.2 (((h2 e).1 hR).2 k hk.1)
    | ok R =>
      obtain ⟨k', hub, auth, hk', rfl, hf, hv, hv'⟩ := h1 R hR
      obtain rfl := stopsAt_unique (⟨hk', hf⟩ : StopsAt _ _ _ _ _ k') hk
      unfold hitsItem
      rw [hR]
      constructor
      · show item G hub u = _
        rw [item_eq hwf, hv u hu]
      · show item G auth u = _
        rw [item_eq hwf, hv' u hu]
  · intro hno hub u
    unfold hitsItem
    rw [(h2 _).2 ⟨rfl, fun k hk hf => hno k ⟨hk, hf⟩⟩]
    rfl

end ranks

/-! ## matrices -/

section matrices
variable {F : Type} [Field F] [DecidableEq F] {one : F} {H : NxFull K S F} {a : NxArgs S F} {x : Option S}

/-- `nx.f(H, …, backend="graphblas")` for an `f` that returns a matrix: convert, call, convert the result
-- interface.py:174-266 -/
def nxMatrix (one : F) (H : NxFull K S F) (a : NxArgs S F) (name : String)
    (f : Graph K F → Except Err (Σ m, Mat m m F)) : Except Err (NxValue K F) := do
  let M ← nxRun one H a f
  convertToNx (.matrix M.1 M.2) name

/-- the result is a SciPy sparse array (`sparse`) or a NumPy array whose rows and columns are named by `rows` in
order and whose entries are given by `e` -/
def MatrixIs (r : Except Err (NxValue K F)) (sparse : Bool) (rows : List K) (e : Bool → K → K → F) : Prop :=
  ∃ (m : Nat) (M : Fin m → Fin m → F),
    (if sparse then ∃ A : Mat m m F, r = .ok (.sparse m A) ∧ M = fun i j => (A i j).getD 0
      else r = .ok (.dense m M)) ∧ m = rows.length ∧
    ∀ i j u v, rows[i.val]? = some u → rows[j.val]? = some v → M i j = e (decide (i = j)) u v

omit [DecidableEq F] in
/-- the rows of the adjacency matrix follow the order of the nodes of the NetworkX graph -/
theorem convert_from_nx_order [DecidableEq F] {r : Converted K S F} (h : convertFromNx one H a = .ok r) :
    r.G.keyToId = H.nodes.zipIdx := by
  unfold convertFromNx at h
  cases he : effectiveAttrs H a with
  | error e => rw [he] at h; cases h
  | ok ea =>
    rw [he] at h
    simp only [bind, Except.bind] at h
    split_ifs at h
    all_goals
      cases hw : effectiveWeight one ea a.weight with
      | error e => rw [hw] at h; cases h
      | ok w =>
        rw [hw] at h
        unfold convertClass at h
        cases hcls : H.cls <;> rw [hcls] at h <;> first | (cases h; done) | skip
        all_goals
          obtain rfl := Except.ok.inj h
          rfl

theorem nx_rowName {G : Graph K F}
    (hG : ∀ (β : Type) (f : Graph K F → Except Err β), nxRun one H a f = f G) (nodelist : Option (List K))
    (i : Nat) (u : K) : RowName G nodelist i u ↔ (nodelist.getD H.nodes)[i]? = some u := by
  have hk : G.keyToId = H.nodes.zipIdx := by
    have := hG _ fun G => .ok G.keyToId
    unfold nxRun at this
    cases hr : convertFromNx one H a with
    | error e => rw [hr] at this; cases this
    | ok r =>
      rw [hr] at this
      exact (Except.ok.inj this).symm.trans (convert_from_nx_order hr)
  cases nodelist with
  | some L => rfl
  | none =>
    show (u, i) ∈ G.keyToId ↔ _
    rw [hk]
    exact List.mem_zipIdx_iff_getElem?

/-- from the matrix of the graph object to the matrix NetworkX users receive -/
theorem matrixIs_of {G : Graph K F}
    (hG : ∀ (β : Type) (f : Graph K F → Except Err β), nxRun one H a f = f G) (hN : G.nodes = H.nodes)
    {nodelist : Option (List K)} {f : Graph K F → Except Err (Σ m, Mat m m F)} {M : Σ m, Mat m m F}
    (hM : f G = .ok M) (hlen : M.1 = (chosen G nodelist).length) {e : Bool → K → K → F}
    (he : ∀ i j u v, RowName G nodelist i.val u → RowName G nodelist j.val v →
      (M.2 i j).getD 0 = e (decide (i = j)) u v) {name : String} {sparse : Bool}
    (hname : if sparse then name ∈ sparseNames else name ∉ sparseNames ∧ name ∈ denseNames) :
    MatrixIs (nxMatrix one H a name f) sparse (nodelist.getD H.nodes) e := by
  refine ⟨M.1, fun i j => (M.2 i j).getD 0, ?_, ?_, ?_⟩
  · unfold nxMatrix
    rw [hG, hM]
    show if sparse then ∃ A, convertToNx (.matrix M.1 M.2) name = _ ∧ _ else convertToNx (.matrix M.1 M.2) name = _
    unfold convertToNx
    cases sparse with
    | true =>
      rw [if_pos rfl] at hname ⊢
      dsimp only
      rw [if_pos hname]
      exact ⟨M.2, rfl, rfl⟩
    | false =>
      rw [if_neg (by simp)] at hname ⊢
      dsimp only
      rw [if_neg hname.1, if_pos hname.2]
  · rw [hlen]
    unfold chosen
    rw [hN]
  · intro i j u v hu hv
    exact he i j u v ((nx_rowName hG nodelist i.val u).2 hu) ((nx_rowName hG nodelist j.val v).2 hv)

/-- **C105.** `adjacency_matrix`, `laplacian_matrix`, `normalized_laplacian_matrix` (SciPy sparse arrays).  `weighted`:
a weight attribute was asked for.  The Laplacians of a digraph without weights and without a node list raise (C70). -/
theorem nx_matrices_partial (hc : NxCall one H a x) {nodelist : Option (List K)}
    (hL : ∀ L, nodelist = some L → ∀ u ∈ L, u ∈ H.nodes) (weighted : Bool) :
    let rows := nodelist.getD H.nodes
    let w := weightsOf (isMultiClass H.cls || weighted) (nxWeight one H x)
    MatrixIs (nxMatrix one H a "adjacency_matrix" fun G => adjacencyMatrix G nodelist weighted) true rows
      (fun _ u v => (w u v).getD 0) ∧
    ((nodelist ≠ none ∨ isDirectedClass H.cls = false ∨ isMultiClass H.cls = true ∨ weighted = true) →
      MatrixIs (nxMatrix one H a "laplacian_matrix" fun G => laplacianMatrix G nodelist weighted) true rows
        (lapEntry rows w)) := by
  obtain ⟨G, hG, hwf, hN, hd, hm, hE, hw, hW, hsy⟩ := nx_call hc
  rw [← hN] at hL
  have hrows : nodelist.getD H.nodes = chosen G nodelist := by unfold chosen; rw [hN]
  refine ⟨?_, fun hok => ?_⟩
  · obtain ⟨M, hM, h1, h2⟩ := adjacency_matrix_correct hwf hL weighted
    refine matrixIs_of hG hN (f := fun G => adjacencyMatrix G nodelist weighted) hM h1 ?_ (by decide)
    intro i j u v hu hv
    rw [h2 i j u v hu hv, hm, hw]
  · rw [← hd, ← hm] at hok
    obtain ⟨M, hM, h1, h2, -⟩ := laplacian_matrix_correct_partial hwf hL weighted hok
    refine matrixIs_of hG hN (f := fun G => laplacianMatrix G nodelist weighted) hM h1 ?_ (by decide)
    intro i j u v hu hv
    rw [h2 i j u v hu hv, hm, hw, hrows]

/-- **C105.** `normalized_laplacian_matrix`, when every node has out-weight above 0 or no out-edge. -/
theorem nx_normalized_laplacian_matrix_partial [LinearOrder F] [IsStrictOrderedRing F] {one : F} {H : NxFull K S F}
    {a : NxArgs S F} (hc : NxCall one H a x)
    {nodelist : Option (List K)} (hL : ∀ L, nodelist = some L → ∀ u ∈ L, u ∈ H.nodes) (weighted : Bool)
    (hok : nodelist ≠ none ∨ isDirectedClass H.cls = false ∨ isMultiClass H.cls = true ∨ weighted = true)
    {sqrt : F → F} (hsqrt : ∀ x, 0 < x → sqrt x * sqrt x = x) :
    let rows := nodelist.getD H.nodes
    let w := weightsOf (isMultiClass H.cls || weighted) (nxWeight one H x)
    (∀ u ∈ rows, Dangling rows w u ∨ 0 < outWeight rows w u) →
    MatrixIs (nxMatrix one H a "normalized_laplacian_matrix" fun G => normalizedLaplacianMatrix sqrt G nodelist weighted)
      true rows (normLapEntry sqrt rows w) := by
  obtain ⟨G, hG, hwf, hN, hd, hm, hE, hw, hW, hsy⟩ := nx_call hc
  rw [← hN] at hL
  have hrows : nodelist.getD H.nodes = chosen G nodelist := by unfold chosen; rw [hN]
  intro rows w hpos
  rw [← hd, ← hm] at hok
  have hw' : w = weightsOf (G.multi || weighted) G.weight? := by rw [hm, hw]
  have hr' : rows = chosen G nodelist := hrows
  rw [hw', hr'] at hpos
  obtain ⟨M, hM, h1, h2⟩ := normalized_laplacian_matrix_correct_partial hwf hL weighted hok hsqrt hpos
  refine matrixIs_of hG hN (f := fun G => normalizedLaplacianMatrix sqrt G nodelist weighted) hM h1 ?_ (by decide)
  intro i j u v hu hv
  rw [h2 i j u v hu hv, hw', hr']

/-- **C105.** `modularity_matrix` and `directed_modularity_matrix` (NumPy arrays) of graphs that are not multigraphs
and whose total weight is not 0. -/
theorem nx_modularity_matrix (hc : NxCall one H a x) (hmul : isMultiClass H.cls = false)
    {nodelist : Option (List K)} (hL : ∀ L, nodelist = some L → ∀ u ∈ L, u ∈ H.nodes) (weighted : Bool) :
    let rows := nodelist.getD H.nodes
    let w := weightsOf weighted (nxWeight one H x)
    totalWeight rows w ≠ 0 →
    (isDirectedClass H.cls = false →
      MatrixIs (nxMatrix one H a "modularity_matrix" fun G => modularityMatrix G nodelist weighted) false rows
        fun _ => modEntry rows w) ∧
    (isDirectedClass H.cls = true →
      MatrixIs (nxMatrix one H a "directed_modularity_matrix" fun G => directedModularityMatrix G nodelist weighted)
        false rows fun _ => dirModEntry rows w) := by
  obtain ⟨G, hG, hwf, hN, hd, hm, hE, hw, hW, hsy⟩ := nx_call hc
  rw [← hN] at hL
  have hrows : nodelist.getD H.nodes = chosen G nodelist := by unfold chosen; rw [hN]
  intro rows w ht
  have hw' : w = weightsOf weighted G.weight? := by rw [hw]
  have hr' : rows = chosen G nodelist := hrows
  rw [hw', hr'] at ht
  constructor
  · intro hu
    obtain ⟨M, hM, h1, h2, -⟩ := modularity_matrix_correct hwf (hsy (hd.trans hu)) (hd.trans hu) (hm.trans hmul) hL
      weighted (.inl ht)
    refine matrixIs_of hG hN (f := fun G => modularityMatrix G nodelist weighted) hM h1 ?_ (by decide)
    intro i j u v hu hv
    rw [h2 i j u v hu hv, hw', hr']
  · intro hu
    obtain ⟨M, hM, h1, h2, -⟩ := directed_modularity_matrix_correct hwf (hd.trans hu) (hm.trans hmul) hL
      weighted (.inl ht)
    refine matrixIs_of hG hN (f := fun G => directedModularityMatrix G nodelist weighted) hM h1 ?_ (by decide)
    intro i j u v hu hv
    rw [h2 i j u v hu hv, hw', hr']

/-- **C105.** `bethe_hessian_matrix` (SciPy sparse) of an undirected graph that is not a multigraph; the default `r` is
the mean squared degree over the mean degree, minus 1. -/
theorem nx_bethe_hessian_matrix (hc : NxCall one H a x) (hu : isDirectedClass H.cls = false)
    (hmul : isMultiClass H.cls = false) {nodelist : Option (List K)}
    (hL : ∀ L, nodelist = some L → ∀ u ∈ L, u ∈ H.nodes) (r : Option F) :
    let rows := nodelist.getD H.nodes
    let w := nxWeight one H x
    let deg := fun u => outWeight H.nodes (unitWeights w) u
    (r = none → sumOver H.nodes deg ≠ 0) →
    MatrixIs (nxMatrix one H a "bethe_hessian_matrix" fun G => betheHessianMatrix G r nodelist) true rows
      (betheEntry rows w (r.getD (sumOver H.nodes (fun u => deg u ^ 2) / sumOver H.nodes deg - 1))) := by
  obtain ⟨G, hG, hwf, hN, hd, hm, hE, hw, hW, hsy⟩ := nx_call hc
  rw [← hN] at hL
  have hrows : nodelist.getD H.nodes = chosen G nodelist := by unfold chosen; rw [hN]
  intro rows w deg hr
  have hw' : w = G.weight? := hw.symm
  have hr' : rows = chosen G nodelist := hrows
  have hdeg : deg = fun u => outWeight G.nodes (unitWeights G.weight?) u := by rw [hN, hw]
  rw [hdeg, ← hN] at hr
  obtain ⟨M, hM, h1, h2, -⟩ := bethe_hessian_matrix_correct hwf (hd.trans hu) (hm.trans hmul) hL r hr
  refine matrixIs_of hG hN (f := fun G => betheHessianMatrix G r nodelist) hM h1 ?_ (by decide)
  intro i j u v hu hv
  rw [h2 i j u v hu hv, hw', hr', hdeg, ← hN]
  rfl

/-- **C105.** `tournament_matrix` (SciPy sparse): the weight of `u v` minus that of `v u`, and minus itself when
transposed. -/
theorem nx_tournament_matrix (hc : NxCall one H a x) :
    MatrixIs (nxMatrix one H a "tournament_matrix" fun G => .ok ⟨G.n, tournamentMatrix G⟩) true H.nodes
      fun _ u v => (nxWeight one H x u v).getD 0 - (nxWeight one H x v u).getD 0 := by
  obtain ⟨G, hG, hwf, hN, hd, hm, hE, hw, hW, hsy⟩ := nx_call hc
  refine matrixIs_of (nodelist := none) hG hN (f := fun G => .ok ⟨G.n, tournamentMatrix G⟩) rfl
    (nodes_length hwf).symm ?_ (by decide)
  intro i j u v hu hv
  rw [← hw, At.key_unique hwf hu (keyFn_at hwf i), At.key_unique hwf hv (keyFn_at hwf j)]
  exact (tournament_matrix_correct hwf i j).2.1

/-- **C105.** `google_matrix` (NumPy) without a node list. -/
theorem nx_google_matrix {F : Type} [Field F] [LinearOrder F] [IsStrictOrderedRing F] {one : F} {H : NxFull K S F}
    {a : NxArgs S F} (hc : NxCall one H a x) (hne : H.nodes ≠ [])
    (hrows : ∀ u ∈ H.nodes, ¬ Dangling H.nodes (nxWeight one H x) u → outWeight H.nodes (nxWeight one H x) u ≠ 0)
    {pers dangling : Option (List (K × F))} (hp : NxDist H pers) (hdg : NxDist H dangling) (alpha : F) :
    let p := distOf H.nodes pers (uniform H.nodes)
    MatrixIs (nxMatrix one H a "google_matrix" fun G => (googleMatrix G alpha pers dangling).map fun M => ⟨G.n, M⟩)
      false H.nodes fun _ => googleEntry H.nodes (nxWeight one H x) alpha p (distOf H.nodes dangling p) := by
  obtain ⟨G, hG, hwf, hN, hd, hm, hE, hw, hW, hsy⟩ := nx_call hc
  rw [← hN] at hne
  have ha : GMArgs G G.nodes pers dangling := by
    refine ⟨?_, nxDist_valid hN hp, fun l hl => ⟨(nxDist_valid hN hdg l hl).1, fun _ => (nxDist_valid hN hdg l hl).2⟩⟩
    rw [hN, hw]
    exact hrows
  obtain ⟨M, hM, h1⟩ := google_matrix_correct hwf hne ha alpha
  refine matrixIs_of (nodelist := none) hG hN
    (f := fun G => (googleMatrix G alpha pers dangling).map fun M => ⟨G.n, M⟩) (M := ⟨G.n, M⟩)
    (by rw [hM]; rfl) (nodes_length hwf).symm ?_ (by decide)
  intro i j u v hu hv
  rw [h1 u v i j hu hv, hN, hw]

end matrices

/-- **C105.** `square_clustering` of a simple graph without self-loops whose weight attribute was not asked for. -/
theorem nx_square_clustering_partial {H : NxFull K S Int} {a : NxArgs S Int} {x : Option S} (hc : NxCall (1 : Int) H a x)
    (hu : isDirectedClass H.cls = false) (hloop : ∀ u, ¬ NxEdge H u u)
    (hunit : ∀ u v w, nxWeight (1 : Int) H x u v = some w → w = 1) (chunk : Option Int)
    (hchunk : chunk = none ∨ ∃ u v, NxEdge H u v) :
    IsMapping (fun u => nxRun (1 : Int) H a (itemOf (fun G => squareClustering G chunk) u))
      fun u c => u ∈ H.nodes ∧ c = squareCoeff H.nodes (NxEdge H) u := by
  obtain ⟨G, hG, hwf, hN, hd, hm, hE, hw, hW, hsy⟩ := nx_call hc
  simp only [hG]
  rw [← hE] at hchunk hloop
  have hS : Simple G := by
    refine ⟨hwf, hsy (hd.trans hu), hloop, fun u v w e => ?_⟩
    rw [hW] at e
    exact hunit u v w e
  refine nx_move hN hE (fun N E _ => IsMapping _ fun u c => u ∈ N ∧ c = squareCoeff N E u) ?_
  obtain ⟨r, hr, hv⟩ := square_clustering_correct hS chunk hchunk
  exact nxItem_mapping hwf (f := fun G => squareClustering G chunk) hr hv

-- the multigraph of `nxm_call`: weights 5 + 1, 2, 1
example :
    nxRun (1 : Int) _root_.Ex.nxm _root_.Ex.nxa (fun G => item2 G (fwDist G.directed (fun x _ => x) G.A) "b" "a") = .ok 3 ∧
    nxRun (1 : Int) _root_.Ex.nxm _root_.Ex.nxa (fun G => item2 G (fwDist G.directed (fun x _ => x) G.A) "b" "d") =
      .error .keyError ∧
    nxRun (1 : Int) _root_.Ex.nxm _root_.Ex.nxa (fun G => bellmanFordPath G none "b" "a") = .ok ["b", "c", "a"] ∧
    nxRun (1 : Int) _root_.Ex.nxm _root_.Ex.nxa (fun G => cutSizeWeighted G ["a"] none) = .ok 7 ∧
    nxRun (1 : Int) _root_.Ex.nxm _root_.Ex.nxa (fun G => edgeBoundary G ["a"] none) = .ok [("a", "c"), ("a", "b")] ∧
    nxRun (1 : Int) _root_.Ex.nxm _root_.Ex.nxa (fun G => conductance G ["a"] none) = .ok 1 := by
  decide +kernel

end Props

namespace Ex

/-- a weighted digraph whose node order is not its alphabetical order -/
def nxq : NxFull String String ℚ where
  cls := .digraph
  nodes := ["b", "c", "a"]
  data := fun u v =>
    if u = "a" ∧ v = "b" then [[("weight", 5)]]
    else if u = "b" ∧ v = "a" then [[]]
    else if u = "b" ∧ v = "c" then [[("weight", 2)]]
    else []
  nodeAttrs := fun _ => []
  graphAttrs := []

/-- the conversion NetworkX asks for with `weight="weight"` -/
def nxqa : NxArgs String ℚ := { edgeAttrs := some [("weight", some 1)] }

end Ex

namespace Props

theorem nxq_call : NxCall (1 : ℚ) _root_.Ex.nxq _root_.Ex.nxqa (some "weight") where
  wf := ⟨by decide, by
    intro u v h
    unfold _root_.Ex.nxq at h ⊢
    dsimp only at h ⊢
    split_ifs at h with h1 h2 h3
    · obtain ⟨rfl, rfl⟩ := h1; decide
    · obtain ⟨rfl, rfl⟩ := h2; decide
    · obtain ⟨rfl, rfl⟩ := h3; decide
    · exact absurd rfl h⟩
  symm := by
    intro h
    exact absurd h (by decide)
  ok := ⟨by simp [_root_.Ex.nxqa], rfl, by simp [_root_.Ex.nxqa], by decide,
    [("weight", some 1)], .inr ⟨.inl rfl, rfl⟩, .inr ⟨"weight", some 1, rfl, rfl, .inr rfl, rfl⟩⟩

-- the entries of the matrices follow the order of the nodes
example : MatrixIs (nxMatrix (1 : ℚ) _root_.Ex.nxq _root_.Ex.nxqa "laplacian_matrix" fun G => laplacianMatrix G none true)
    true ["b", "c", "a"] (lapEntry ["b", "c", "a"] (nxWeight 1 _root_.Ex.nxq (some "weight"))) :=
  (nx_matrices_partial nxq_call (nodelist := none) (by simp) true).2 (.inr (.inr (.inr rfl)))

example : lapEntry ["b", "c", "a"] (nxWeight (1 : ℚ) _root_.Ex.nxq (some "weight")) true "b" "b" = 3 := by decide +kernel

end Props
