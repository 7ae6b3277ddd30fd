import Verif.Props.Bfs
import Verif.Props.BellmanFord
import Verif.Props.FloydWarshall
import Verif.Props.Cluster
import Verif.Props.Truss
import Verif.Props.Cuts
import Verif.Props.Small
import Mathlib.Algebra.Order.BigOperators.Group.List

/-!
# C118 Adding nodes and edges

`Grows G H` says that `H` has every node and every edge of `G` (and possibly more); the two graph
objects may number their nodes differently and store weights of different types.
-/

open GB Spec Model Model.Graph Proofs

namespace Props

variable {K α β : Type} [DecidableEq K] {G : Graph K α} {H : Graph K β}

/-- every node and every edge of `G` is one of `H` -/
structure Grows (G : Graph K α) (H : Graph K β) : Prop where
  nodes : ∀ u, G.Node u → H.Node u
  edges : ∀ u v, G.Edge u v → H.Edge u v

/-! ## walks and counts -/

theorem walk_grows {V : Type} {E E' : V → V → Prop} (h : ∀ u v, E u v → E' u v) {k : Nat} {u v : V}
    (hw : Walk E k u v) : Walk E' k u v := by
  induction hw with
  | nil u => exact .nil u
  | snoc _ e ih => exact ih.snoc (h _ _ e)

theorem reach_grows {V : Type} {E E' : V → V → Prop} (h : ∀ u v, E u v → E' u v) {u v : V}
    (hw : Reach E u v) : Reach E' u v := hw.imp fun _ => walk_grows h

theorem reach_dist {V : Type} {E : V → V → Prop} {u v : V} (h : Reach E u v) : ∃ d, IsDist E u d v := by
  classical
  exact ⟨Nat.find h, Nat.find_spec h, fun k hk => Nat.find_min' h hk⟩

theorem dist_grows {V : Type} {E E' : V → V → Prop} (h : ∀ u v, E u v → E' u v) {u v : V} {d : Nat}
    (hd : IsDist E u d v) : ∃ d' ≤ d, IsDist E' u d' v := by
  obtain ⟨d', hd'⟩ := reach_dist ⟨d, walk_grows h hd.1⟩
  exact ⟨d', hd'.2 _ (walk_grows h hd.1), hd'⟩

theorem countOf_grows {V : Type} {N M : List V} (hN : N.Nodup) (hs : ∀ u ∈ N, u ∈ M)
    (p q : V → Prop) [DecidablePred p] [DecidablePred q] (hpq : ∀ u ∈ N, p u → q u) :
    countOf N p ≤ countOf M q := by
  unfold countOf
  rw [List.countP_eq_length_filter, List.countP_eq_length_filter]
  refine (List.subperm_of_subset (hN.filter _) ?_).length_le
  intro u hu
  rw [List.mem_filter] at hu ⊢
  exact ⟨hs u hu.1, by simpa using hpq u hu.1 (by simpa using hu.2)⟩

theorem sumOver_grows {V : Type} {N M : List V} (hN : N.Nodup) (hs : ∀ u ∈ N, u ∈ M)
    (f g : V → Nat) (hfg : ∀ u ∈ N, f u ≤ g u) : sumOver N f ≤ sumOver M g := by
  unfold sumOver
  obtain ⟨L, hL, hsub⟩ := List.subperm_of_subset hN hs
  calc (N.map f).sum ≤ (N.map g).sum := List.sum_le_sum hfg
    _ = (L.map g).sum := (hL.map g).sum_eq.symm
    _ ≤ (M.map g).sum := (hsub.map g).sum_le_sum (by simp)

theorem Grows.mem (hg : Grows G H) : ∀ u ∈ G.nodes, u ∈ H.nodes := fun u hu => hg.nodes u hu

theorem nodes_nodup (h : G.WF) : G.nodes.Nodup := h.keys_nodup

/-! ## hop distances and reachability -/

/-- adding nodes and edges never makes a hop distance longer, for every cutoff, from a source, to a
target and between two nodes -/
theorem hop_distances_shrink (hG : G.WF) (hH : H.WF) (sG : G.directed = false → G.Symm)
    (sH : H.directed = false → H.Symm) (hg : Grows G H) {s : K} (hs : G.Node s) (c : Option Int) :
    (∃ r q, singleSourceSPL G s c = .ok r ∧ singleSourceSPL H s c = .ok q ∧
      ∀ u d, G.view r u = some d → ∃ d' ≤ d, H.view q u = some d') ∧
    (∃ r q, singleTargetSPL G s c = .ok r ∧ singleTargetSPL H s c = .ok q ∧
      ∀ u d, G.view r u = some d → ∃ d' ≤ d, H.view q u = some d') ∧
    ∀ t, G.Node t → ∀ d, bidirectionalSPL G s t = .ok d → ∃ d' ≤ d, bidirectionalSPL H s t = .ok d' := by
  have hsH := hg.nodes s hs
  refine ⟨?_, ?_, ?_⟩
  · by_cases hc : ∃ x, c = some x ∧ x < 0
    · obtain ⟨x, rfl, hx⟩ := hc
      obtain ⟨⟨r, hr, er⟩, _⟩ := shortest_path_length_negative_cutoff hG hs hx
      obtain ⟨⟨q, hq, eq⟩, _⟩ := shortest_path_length_negative_cutoff hH hsH hx
      exact ⟨r, q, hr, hq, fun u d h => ⟨d, le_rfl, (eq u d).2 ((er u d).1 h)⟩⟩
    · have hc' : ∀ x, c = some x → 0 ≤ x := fun x e => not_lt.1 fun h => hc ⟨x, e, h⟩
      obtain ⟨r, hr, er⟩ := single_source_shortest_path_length_correct hG hs c hc'
      obtain ⟨q, hq, eq⟩ := single_source_shortest_path_length_correct hH hsH c hc'
      refine ⟨r, q, hr, hq, fun u d h => ?_⟩
      obtain ⟨hd, hw⟩ := (er u d).1 h
      obtain ⟨d', hle, hd'⟩ := dist_grows hg.edges hd
      exact ⟨d', hle, (eq u d').2 ⟨hd', fun x e => le_trans (by exact_mod_cast hle) (hw x e)⟩⟩
  · by_cases hc : ∃ x, c = some x ∧ x < 0
    · obtain ⟨x, rfl, hx⟩ := hc
      obtain ⟨_, r, hr, er⟩ := shortest_path_length_negative_cutoff hG hs hx
      obtain ⟨_, q, hq, eq⟩ := shortest_path_length_negative_cutoff hH hsH hx
      exact ⟨r, q, hr, hq, fun u d h => ⟨d, le_rfl, (eq u d).2 ((er u d).1 h)⟩⟩
    · have hc' : ∀ x, c = some x → 0 ≤ x := fun x e => not_lt.1 fun h => hc ⟨x, e, h⟩
      obtain ⟨r, hr, er⟩ := single_target_shortest_path_length_correct hG sG hs c hc'
      obtain ⟨q, hq, eq⟩ := single_target_shortest_path_length_correct hH sH hsH c hc'
      refine ⟨r, q, hr, hq, fun u d h => ?_⟩
      obtain ⟨⟨hn, hd⟩, hw⟩ := (er u d).1 h
      obtain ⟨d', hle, hd'⟩ := dist_grows hg.edges hd
      exact ⟨d', hle, (eq u d').2 ⟨⟨hg.nodes u hn, hd'⟩,
        fun x e => le_trans (by exact_mod_cast hle) (hw x e)⟩⟩
  · intro t ht d hd
    rcases bidirectional_shortest_path_length_correct hG hs ht with ⟨d0, h0, e0⟩ | ⟨_, e0⟩
    · rw [e0] at hd; cases hd
      obtain ⟨d', hle, hd'⟩ := dist_grows hg.edges h0
      rcases bidirectional_shortest_path_length_correct hH hsH (hg.nodes t ht) with ⟨d1, h1, e1⟩ | ⟨hn, _⟩
      · exact ⟨d1, by rw [dist_unique h1 hd']; exact hle, e1⟩
      · exact absurd ⟨d', hd'.1⟩ hn
    · rw [e0] at hd; cases hd

/-- what is reachable stays reachable -/
theorem reachable_sets_grow (hG : G.WF) (hH : H.WF) (sG : G.directed = false → G.Symm)
    (sH : H.directed = false → H.Symm) (hg : Grows G H) {s : K} (hs : G.Node s) :
    (∃ r q, descendants G s = .ok r ∧ descendants H s = .ok q ∧
      ∀ u, (G.view r u).isSome → (H.view q u).isSome) ∧
    (∃ r q, ancestors G s = .ok r ∧ ancestors H s = .ok q ∧
      ∀ u, (G.view r u).isSome → (H.view q u).isSome) ∧
    (∃ r q, nodeConnectedComponent G s = .ok r ∧ nodeConnectedComponent H s = .ok q ∧
      ∀ u, (G.view r u).isSome → (H.view q u).isSome) ∧
    (∀ t, G.Node t → hasPath G s t = .ok true → hasPath H s t = .ok true) ∧
    ((∀ u, H.Node u → G.Node u) →
      ((∀ u v, G.Edge u v → G.Edge v u) → (∀ u v, H.Edge u v → H.Edge v u) →
        isConnected G = .ok true → isConnected H = .ok true) ∧
      (isWeaklyConnected G = .ok true → isWeaklyConnected H = .ok true)) := by
  have hsH := hg.nodes s hs
  refine ⟨?_, ?_, ?_, ?_, ?_⟩
  · obtain ⟨r, hr, er⟩ := descendants_correct hG hs
    obtain ⟨q, hq, eq⟩ := descendants_correct hH hsH
    exact ⟨r, q, hr, hq, fun u h => (eq u).2 (((er u).1 h).imp_right (reach_grows hg.edges))⟩
  · obtain ⟨r, hr, er⟩ := ancestors_correct hG sG hs
    obtain ⟨q, hq, eq⟩ := ancestors_correct hH sH hsH
    exact ⟨r, q, hr, hq, fun u h => (eq u).2
      (((er u).1 h).imp_right fun h => ⟨hg.nodes u h.1, reach_grows hg.edges h.2⟩)⟩
  · obtain ⟨r, hr, er⟩ := node_connected_component_correct hG hs
    obtain ⟨q, hq, eq⟩ := node_connected_component_correct hH hsH
    exact ⟨r, q, hr, hq, fun u h => (eq u).2 (reach_grows hg.edges ((er u).1 h))⟩
  · intro t ht hp
    obtain ⟨b, hb, eb⟩ := has_path_correct hG hs ht
    obtain ⟨b', hb', eb'⟩ := has_path_correct hH hsH (hg.nodes t ht)
    rw [hb] at hp; cases hp
    rw [hb', eb'.2 (reach_grows hg.edges (eb.1 rfl))]
  · intro hn
    constructor
    · intro yG yH hc
      rcases is_connected_structural hG yG with ⟨_, e⟩ | ⟨_, b, e, hb⟩
      · rw [e] at hc; cases hc
      · rw [e] at hc; cases hc
        rcases is_connected_structural hH yH with ⟨h0, _⟩ | ⟨_, b', e', hb'⟩
        · obtain ⟨i, hi⟩ := hsH.exists_id hH
          have hlt := i.isLt
          have hlen : H.len = H.n := by
            have := hH.ids_perm.length_eq; simp [Graph.len] at this ⊢; try exact this
          omega
        · rw [e', hb'.2 fun u v hu hv => reach_grows hg.edges (hb.1 rfl u v (hn u hu) (hn v hv))]
    · intro hc
      rcases is_weakly_connected_correct hG with ⟨_, e⟩ | ⟨_, b, e, hb⟩
      · rw [e] at hc; cases hc
      · rw [e] at hc; cases hc
        rcases is_weakly_connected_correct hH with ⟨h0, _⟩ | ⟨_, b', e', hb'⟩
        · obtain ⟨i, hi⟩ := hsH.exists_id hH
          have hlt := i.isLt
          have hlen : H.len = H.n := by
            have := hH.ids_perm.length_eq; simp [Graph.len] at this ⊢; try exact this
          omega
        · rw [e', hb'.2 fun u v hu hv => reach_grows
            (fun a b hab => hab.imp (hg.edges _ _) (hg.edges _ _)) (hb.1 rfl u v (hn u hu) (hn v hv))]

/-- two nodes never become less efficiently connected -/
theorem efficiency_grows {F : Type} [Field F] [LinearOrder F] [IsStrictOrderedRing F] (hG : G.WF)
    (hH : H.WF) (hg : Grows G H) {u v : K} (hu : G.Node u) (hv : G.Node v) (huv : u ≠ v) :
    ∃ x y, efficiency (F := F) G u v = .ok x ∧ efficiency (F := F) H u v = .ok y ∧ x ≤ y := by
  have pos : ∀ {E : K → K → Prop} {d}, IsDist E u d v → 0 < d := fun {E d} h => by
    rcases Nat.eq_zero_or_pos d with rfl | h'
    · cases h.1; exact absurd rfl huv
    · exact h'
  rcases efficiency_correct (F := F) hG hu hv huv with ⟨d, hd, e⟩ | ⟨hn, e⟩
  · obtain ⟨d', hle, hd'⟩ := dist_grows hg.edges hd
    rcases efficiency_correct (F := F) hH (hg.nodes u hu) (hg.nodes v hv) huv with ⟨d1, h1, e1⟩ | ⟨hn, _⟩
    · obtain rfl := dist_unique h1 hd'
      refine ⟨_, _, e, e1, one_div_le_one_div_of_le ?_ ?_⟩
      · exact_mod_cast pos h1
      · exact_mod_cast hle
    · exact absurd ⟨d', hd'.1⟩ hn
  · rcases efficiency_correct (F := F) hH (hg.nodes u hu) (hg.nodes v hv) huv with ⟨d1, h1, e1⟩ | ⟨_, e1⟩
    · refine ⟨_, _, e, e1, ?_⟩
      positivity
    · exact ⟨_, _, e, e1, le_rfl⟩

/-! ## counts -/

theorem degree_grows (hG : G.WF) (hg : Grows G H) (u : K) :
    degree G.nodes G.Edge u ≤ degree H.nodes H.Edge u :=
  countOf_grows (nodes_nodup hG) hg.mem _ _ fun v _ h => ⟨h.1, hg.edges _ _ h.2⟩

theorem triPairs_grows (hG : G.WF) (hg : Grows G H) (u : K) :
    triPairs G.nodes G.Edge u ≤ triPairs H.nodes H.Edge u :=
  sumOver_grows (nodes_nodup hG) hg.mem _ _ fun a _ =>
    countOf_grows (nodes_nodup hG) hg.mem _ _ fun b _ h =>
      ⟨h.1, h.2.1, h.2.2.1, hg.edges _ _ h.2.2.2.1, hg.edges _ _ h.2.2.2.2.1, hg.edges _ _ h.2.2.2.2.2⟩

theorem edgesFromTo_grows (hG : G.WF) (hg : Grows G H) (P Q : K → Prop) [DecidablePred P] [DecidablePred Q] :
    edgesFromTo G.nodes G.Edge P Q ≤ edgesFromTo H.nodes H.Edge P Q :=
  sumOver_grows (nodes_nodup hG) hg.mem _ _ fun a _ =>
    countOf_grows (nodes_nodup hG) hg.mem _ _ fun b _ h => ⟨h.1, h.2.1, hg.edges _ _ h.2.2⟩

/-- no node loses triangles, and neither does the whole graph -/
theorem triangles_grow (hG : G.WF) (hH : H.WF) (sG : G.Symm) (sH : H.Symm) (hg : Grows G H)
    {nodes : Option (List K)} (hn : ∀ l, nodes = some l → ∀ u ∈ l, G.Node u) :
    (∃ r q, triangles G nodes = .ok r ∧ triangles H nodes = .ok q ∧
      ∀ u t, G.view r u = some t → ∃ t' ≥ t, H.view q u = some t') ∧
    totalTriangles G.A ≤ totalTriangles H.A := by
  refine ⟨?_, ?_⟩
  · obtain ⟨r, hr, er⟩ := triangles_correct hG sG hn
    obtain ⟨q, hq, eq⟩ := triangles_correct hH sH (nodes := nodes) fun l e u hu => hg.nodes u (hn l e u hu)
    refine ⟨r, q, hr, hq, fun u t h => ?_⟩
    obtain ⟨⟨hu, ha⟩, ht⟩ := (er u t).1 h
    obtain ⟨t', _, ht'⟩ := single_triangle_correct hH sH (hg.nodes u hu)
    refine ⟨t', ?_, (eq u t').2 ⟨⟨hg.nodes u hu, ha⟩, ht'⟩⟩
    have := triPairs_grows hG hg u
    omega
  · refine Nat.le_of_mul_le_mul_left (c := 6) ?_ (by decide)
    rw [total_triangles_correct hG sG, total_triangles_correct hH sH]
    exact sumOver_grows (nodes_nodup hG) hg.mem _ _ fun u _ => triPairs_grows hG hg u

/-- cuts and volumes grow, boundaries grow, and a dominating set stays one when no node is added -/
theorem cuts_grow (hG : G.WF) (hH : H.WF) (hd : G.directed = H.directed) (hg : Grows G H) (S T : List K) :
    (∃ a b, cutSize G S (some T) = .ok a ∧ cutSize H S (some T) = .ok b ∧ a ≤ b) ∧
    ((∀ u ∈ S, G.Node u) → ∃ a b, volume G S = .ok a ∧ volume H S = .ok b ∧ a ≤ b) ∧
    (∃ r q, nodeBoundary G S none = .ok r ∧ nodeBoundary H S none = .ok q ∧
      ∀ u, (G.view r u).isSome → (H.view q u).isSome) ∧
    ((∀ u, H.Node u → G.Node u) → isDominatingSet G S = .ok true → isDominatingSet H S = .ok true) := by
  refine ⟨⟨_, _, cut_size_correct hG S T, cut_size_correct hH S T, ?_⟩, fun hS => ?_, ?_, ?_⟩
  · rw [hd]
    have h1 := edgesFromTo_grows hG hg (· ∈ S) (· ∈ T)
    have h2 := edgesFromTo_grows hG hg (· ∈ T) (· ∈ S)
    cases H.directed
    · simpa using h1
    · simpa using add_le_add h1 h2
  · refine ⟨_, _, volume_correct hG hS, volume_correct hH fun u hu => hg.nodes u (hS u hu), ?_⟩
    refine sumOver_grows (nodes_nodup hG) hg.mem _ _ fun u _ => ?_
    by_cases hu : u ∈ S
    · simpa [hu, outDeg] using countOf_grows (nodes_nodup hG) hg.mem _ _ fun v _ h => hg.edges _ _ h
    · simp [hu]
  · obtain ⟨r, hr, er⟩ := node_boundary_correct hG S none
    obtain ⟨q, hq, eq⟩ := node_boundary_correct hH S none
    refine ⟨r, q, hr, hq, fun u h => (eq u).2 ?_⟩
    obtain ⟨h1, _, v, hv, hvu⟩ := (er u).1 h
    exact ⟨h1, by simp, v, hv, hg.edges _ _ hvu⟩
  · intro hn ht
    obtain ⟨b, hb, eb⟩ := is_dominating_set_correct hG S
    obtain ⟨b', hb', eb'⟩ := is_dominating_set_correct hH S
    rw [hb] at ht; cases ht
    rw [hb', eb'.2 fun v hv hvS => ?_]
    obtain ⟨u, hu, e⟩ := eb.1 rfl v (hn v hv) hvS
    exact ⟨u, hu, hg.edges _ _ e⟩

/-- a node of the smaller graph without edges in the larger one has none in the smaller one -/
theorem isolates_shrink (hG : G.WF) (hH : H.WF) (sG : G.directed = false → G.Symm)
    (sH : H.directed = false → H.Symm) (hg : Grows G H) :
    (∀ u, G.Node u → (H.view (isolates H) u).isSome → (G.view (isolates G) u).isSome) ∧
    ((∀ u, H.Node u → G.Node u) → numberOfIsolates H ≤ numberOfIsolates G) := by
  classical
  have hi : ∀ u, Isolated H.Edge u → Isolated G.Edge u := fun u h => by
    simp only [Isolated] at h ⊢
    intro v
    exact ⟨fun e => (h v).1 (hg.edges _ _ e), fun e => (h v).2 (hg.edges _ _ e)⟩
  refine ⟨fun u hu h => ?_, fun hn => ?_⟩
  · exact ((isolates_correct hG sG).1 u).2 ⟨hu, hi u (((isolates_correct hH sH).1 u).1 h).2⟩
  · rw [(isolates_correct hH sH).2, (isolates_correct hG sG).2]
    exact countOf_grows (nodes_nodup hH) (fun u hu => hn u hu) _ _ fun u _ h => hi u h

/-! ## k_truss -/

theorem isTruss_nodes {V : Type} {N M : List V} (hN : N.Nodup) (hs : ∀ u ∈ N, u ∈ M) {k k' : Int} (hk : k' ≤ k)
    {E : V → V → Prop} (h : IsTruss N k E) : IsTruss M k' E := by
  classical
  intro u v huv
  have h1 := h u v huv
  have h2 := countOf_grows hN hs (fun w => E u w ∧ E v w) (fun w => E u w ∧ E v w) fun _ _ h => h
  have h3 : (countOf N (fun w => E u w ∧ E v w) : Int) ≤ countOf M (fun w => E u w ∧ E v w) := by
    exact_mod_cast h2
  exact le_trans (by omega) h3

/-- counting common neighbours among the end points of edges is enough -/
theorem isTruss_restrict {V : Type} {N M : List V} (hN : N.Nodup) {k : Int} {E : V → V → Prop}
    (hE : ∀ u v, E u v → v ∈ M) (h : IsTruss N k E) : IsTruss M k E := by
  classical
  intro u v huv
  refine (h u v huv).trans (Int.ofNat_le.2 ?_)
  unfold countOf
  rw [List.countP_eq_length_filter, List.countP_eq_length_filter]
  refine (List.subperm_of_subset (hN.filter _) ?_).length_le
  intro w hw'
  rw [List.mem_filter] at hw' ⊢
  exact ⟨hE u w (of_decide_eq_true hw'.2).1, hw'.2⟩

/-- the k-truss of a larger graph contains the k-truss of a smaller one, and the trusses of one graph
are nested: a larger `k` gives a smaller truss -/
theorem k_truss_monotone (hG : G.WF) (hH : H.WF) (sG : G.Symm) (sH : H.Symm) (hg : Grows G H)
    {k k' : Int} (hk : k' ≤ k) :
    ∃ T U, kTruss G k = .ok T ∧ kTruss H k' = .ok U ∧ Grows T U := by
  obtain ⟨T, hT, _, _, hsub, htr, _, hnode, _⟩ := k_truss_correct hG sG k
  obtain ⟨U, hU, _, _, _, _, hmax, hnode', _⟩ := k_truss_correct hH sH k'
  have he : ∀ u v, T.Edge u v → U.Edge u v :=
    hmax T.Edge ⟨fun u v h => hg.edges _ _ (hsub.sub u v h), hsub.irrefl, hsub.symm⟩
      (isTruss_nodes (nodes_nodup hG) hg.mem hk htr)
  refine ⟨T, U, hT, hU, fun u hu => ?_, he⟩
  obtain ⟨v, hv⟩ := (hnode u).1 hu
  exact (hnode' u).2 ⟨v, he u v hv⟩

/-- the truss of an undirected graph is an undirected graph, weights included -/
theorem k_truss_symm (hG : G.WF) (sG : G.Symm) {k : Int} {T} (hT : kTruss G k = .ok T) : T.Symm := by
  obtain ⟨T', hT', hwf, _, hsub, _, _, _, hw⟩ := k_truss_correct hG sG k
  rw [hT] at hT'; cases hT'
  have key : ∀ i j x, T.A i j = some x → T.A j i = some x := by
    intro i j x hx
    have hxe : T.WEdge (keyFn hwf i) (keyFn hwf j) x := ⟨i, j, keyFn_at hwf i, keyFn_at hwf j, hx⟩
    have he : T.Edge (keyFn hwf j) (keyFn hwf i) :=
      hsub.symm _ _ ((edge_keyFn hwf i j).2 (by rw [hx]; rfl))
    obtain ⟨y, hy⟩ := Option.isSome_iff_exists.1 ((edge_keyFn hwf j i).1 he)
    have hye : T.WEdge (keyFn hwf j) (keyFn hwf i) y := ⟨j, i, keyFn_at hwf j, keyFn_at hwf i, hy⟩
    rw [hy]
    rcases hw _ _ _ hxe with ⟨hk, w, rfl, h1⟩ | ⟨hk, rfl⟩ <;>
      rcases hw _ _ _ hye with ⟨hk', w', rfl, h2⟩ | ⟨hk', rfl⟩
    · obtain ⟨a, b, ha, hb, e⟩ := h1
      obtain ⟨b', a', hb', ha', e'⟩ := h2
      obtain rfl := At.id_unique hG ha ha'
      obtain rfl := At.id_unique hG hb hb'
      rw [sG, e'] at e
      rw [Option.some.inj e]
    · omega
    · omega
    · congr 2
      unfold countOf
      congr 1
      funext w
      exact decide_eq_decide.2 and_comm
  intro i j
  cases h1 : T.A i j with
  | some x => rw [key i j x h1]
  | none =>
    cases h2 : T.A j i with
    | none => rfl
    | some y => rw [key j i y h2] at h1; cases h1

/-- a k-truss is its own k-truss, its nodes have at least `k - 1` neighbours inside it, and it is a
part of the original graph -/
theorem k_truss_stable (hG : G.WF) (sG : G.Symm) (k : Int) :
    ∃ T U, kTruss G k = .ok T ∧ kTruss T k = .ok U ∧ Grows T G ∧
      (∀ u v, U.Edge u v ↔ T.Edge u v) ∧ (∀ u, U.Node u ↔ T.Node u) ∧
      ∀ u, T.Node u → k - 1 ≤ (degree T.nodes T.Edge u : Int) ∧ 1 ≤ degree T.nodes T.Edge u := by
  obtain ⟨T, hT, hwf, _, hsub, htr, _, hnode, hw⟩ := k_truss_correct hG sG k
  have sT := k_truss_symm hG sG hT
  obtain ⟨U, hU, _, _, hsubU, _, hmax, hnodeU, _⟩ := k_truss_correct hwf sT k
  have hgr : Grows T G := ⟨fun u hu => by
    obtain ⟨v, hv⟩ := (hnode u).1 hu
    exact (hsub.sub u v hv).node_left, hsub.sub⟩
  have hno : ∀ u v, T.Edge u v → v ∈ T.nodes := fun u v h => h.node_right
  have htr' : IsTruss T.nodes k T.Edge := isTruss_restrict (nodes_nodup hG) hno htr
  have he : ∀ u v, U.Edge u v ↔ T.Edge u v := fun u v =>
    ⟨hsubU.sub u v, hmax T.Edge ⟨fun _ _ h => h, hsub.irrefl, hsub.symm⟩ htr' u v⟩
  refine ⟨T, U, hT, hU, hgr, he, fun u => ?_, fun u hu => ?_⟩
  · rw [hnodeU, hnode]; exact exists_congr fun v => he u v
  · obtain ⟨v, hv⟩ := (hnode u).1 hu
    have h1 := htr' u v hv
    have hvn := hno u v hv
    have hne : v ≠ u := by rintro rfl; exact hsub.irrefl _ hv
    -- the neighbour `v` itself and the common neighbours of `u` and `v`
    have h2 : countOf T.nodes (fun w => T.Edge u w ∧ T.Edge v w) + 1 ≤ degree T.nodes T.Edge u := by
      unfold degree countOf
      rw [List.countP_eq_length_filter, List.countP_eq_length_filter, ← List.length_cons (a := v)]
      refine (List.subperm_of_subset (List.nodup_cons.2 ⟨?_, (nodes_nodup hwf).filter _⟩) ?_).length_le
      · rw [List.mem_filter]
        rintro ⟨_, h⟩
        exact hsub.irrefl _ (of_decide_eq_true h).2
      · intro w hw'
        rw [List.mem_filter]
        rcases List.mem_cons.1 hw' with rfl | hw'
        · exact ⟨hvn, by simp [hne, hv]⟩
        · rw [List.mem_filter] at hw'
          have hh := of_decide_eq_true hw'.2
          have : w ≠ u := by rintro rfl; exact hsub.irrefl _ hh.1
          exact ⟨hw'.1, by simp [this, hh.1]⟩
    have h3 : (countOf T.nodes (fun w => T.Edge u w ∧ T.Edge v w) : Int) + 1 ≤ degree T.nodes T.Edge u := by
      exact_mod_cast h2
    have h1' : k - 2 ≤ (countOf T.nodes (fun w => T.Edge u w ∧ T.Edge v w) : Int) := by
      convert h1
    constructor
    · omega
    · omega

/-! ## weighted distances -/

variable [AddCommGroup α] [LinearOrder α] [IsOrderedAddMonoid α]

/-- `H` has every node of `G`, and for every edge of `G` an edge of at most that weight -/
structure Cheaper (G H : Graph K α) : Prop where
  nodes : ∀ u, G.Node u → H.Node u
  edges : ∀ u v w, G.WEdge u v w → ∃ w' ≤ w, H.WEdge u v w'

omit [DecidableEq K] in
theorem wwalk_cheaper {W W' : K → K → α → Prop} (h : ∀ u v w, W u v w → ∃ w' ≤ w, W' u v w') {k : Nat}
    {c : α} {u v : K} (hw : WWalk W k c u v) : ∃ c' ≤ c, WWalk W' k c' u v := by
  induction hw with
  | nil u => exact ⟨0, le_rfl, .nil u⟩
  | snoc _ e ih =>
    obtain ⟨c', hc, hw'⟩ := ih
    obtain ⟨a', ha, e'⟩ := h _ _ _ e
    exact ⟨c' + a', add_le_add hc ha, hw'.snoc e'⟩

omit [DecidableEq K] in
theorem wreach_cheaper {W W' : K → K → α → Prop} (h : ∀ u v w, W u v w → ∃ w' ≤ w, W' u v w') {u v : K}
    (hw : WReach W u v) : WReach W' u v := by
  obtain ⟨k, c, hw⟩ := hw
  obtain ⟨c', _, hw'⟩ := wwalk_cheaper h hw
  exact ⟨k, c', hw'⟩

omit [DecidableEq K] in
theorem negCycleAt_cheaper {W W' : K → K → α → Prop} (h : ∀ u v w, W u v w → ∃ w' ≤ w, W' u v w') {u : K}
    (hw : NegCycleAt W u) : NegCycleAt W' u := by
  obtain ⟨k, c, hw, hc⟩ := hw
  obtain ⟨c', hle, hw'⟩ := wwalk_cheaper h hw
  exact ⟨k, c', hw', lt_of_le_of_lt hle hc⟩

/-- more or cheaper edges: as long as the new graph has no negative cycle within reach, the old one
has none either and no distance grows -/
theorem weighted_distances_shrink {G H : Graph K α} (hG : G.WF) (hH : H.WF)
    (sG : G.directed = false → G.Symm) (sH : H.directed = false → H.Symm) {iso iso' : Option α}
    (hiso : IsoValid G iso) (hiso' : IsoValid H iso') (fdiv : α → α → Int) (hg : Cheaper G H) {s : K}
    (hs : G.Node s) {q} (hq : singleSourceBF H iso' fdiv s none = .ok q) :
    ∃ r, singleSourceBF G iso fdiv s none = .ok r ∧
      ∀ u d, G.view r u = some d → ∃ d' ≤ d, H.view q u = some d' := by
  rcases single_source_bellman_ford_path_length_correct hH sH hiso' fdiv (hg.nodes s hs) with
    ⟨_, e⟩ | ⟨hno, q', e, eq⟩
  · rw [e] at hq; cases hq
  · rw [e] at hq; cases hq
    rcases single_source_bellman_ford_path_length_correct hG sG hiso fdiv hs with ⟨hneg, _⟩ | ⟨_, r, hr, er⟩
    · obtain ⟨x, hx, hn⟩ := hneg
      exact absurd ⟨x, wreach_cheaper hg.edges hx, negCycleAt_cheaper hg.edges hn⟩ hno
    · refine ⟨r, hr, fun u d hd => ?_⟩
      obtain ⟨⟨k, hk⟩, _⟩ := (er u d).1 hd
      obtain ⟨c', hle, hw'⟩ := wwalk_cheaper hg.edges hk
      rcases bellman_ford_path_length_correct_partial hH sH hiso' (hg.nodes s hs)
        (WWalk_node (hg.nodes s hs) hw') hno with ⟨d', hd', _⟩ | ⟨hnr, _⟩
      · exact ⟨d', (hd'.2 _ _ hw').trans hle, (eq u d').2 hd'⟩
      · exact absurd ⟨k, c', hw'⟩ hnr

/-- a negative cycle survives -/
theorem negative_edge_cycle_grows {G H : Graph K α} (hG : G.WF) (hH : H.WF)
    (sG : G.directed = false → G.Symm) (sH : H.directed = false → H.Symm) (hg : Cheaper G H)
    (hn : negativeEdgeCycle G = true) : negativeEdgeCycle H = true := by
  obtain ⟨u, hu, h⟩ := (negative_edge_cycle_correct hG sG).1 hn
  exact (negative_edge_cycle_correct hH sH).2 ⟨u, hg.nodes u hu, negCycleAt_cheaper hg.edges h⟩

/-! ## concrete graphs -/

namespace Ex

/-- the path 1 - 2 - 3 - 4 -/
def small : Graph Nat Int where
  n := 4
  A := _root_.Ex.ofTriples 4 [(0,1,5),(1,0,5),(1,2,5),(2,1,5),(2,3,5),(3,2,5)]
  keyToId := [(1,0),(2,1),(3,2),(4,3)]

/-- the same with more nodes and edges, numbered differently: a complete graph on 1 … 4 and a pendant 9 -/
def large : Graph Nat Int where
  n := 5
  A := _root_.Ex.ofTriples 5 [(4,3,2),(3,4,2),(3,2,5),(2,3,5),(2,1,1),(1,2,1),(4,2,3),(2,4,3),
    (4,1,1),(1,4,1),(3,1,1),(1,3,1),(0,1,1),(1,0,1)]
  keyToId := [(1,4),(2,3),(3,2),(4,1),(9,0)]

theorem small_wf : small.WF := ⟨by decide, by decide⟩
theorem large_wf : large.WF := ⟨by decide, by decide⟩
theorem small_symm : small.Symm := by unfold Graph.Symm; decide
theorem large_symm : large.Symm := by unfold Graph.Symm; decide

theorem grows : Grows small large := by
  have h1 : ∀ u ∈ small.nodes, large.Node u := by decide
  have h2 : ∀ u ∈ small.nodes, ∀ v ∈ small.nodes, small.Edge u v → large.Edge u v := by decide
  exact ⟨h1, fun u v he => h2 u he.node_left v he.node_right he⟩

/-- and it is cheaper as well -/
theorem cheaper : Cheaper small large := by
  have h2 : ∀ u ∈ small.nodes, ∀ v ∈ small.nodes, ∀ w ∈ ([5] : List Int), small.WEdge u v w →
      ∃ w' ∈ ([1,2,5] : List Int), w' ≤ w ∧ large.WEdge u v w' := by decide
  have h5 : ∀ i j w, small.A i j = some w → w = 5 := by
    intro i j w h
    have : ∀ i j, small.A i j = none ∨ small.A i j = some 5 := by decide
    rcases this i j with e | e <;> rw [e] at h <;> cases h
    rfl
  refine ⟨grows.nodes, fun u v w he => ?_⟩
  have he' := he
  obtain ⟨i, j, _, _, e⟩ := he'
  have hE : small.Edge u v := (edge_iff_wedge).2 ⟨w, he⟩
  obtain ⟨w', _, hle, h'⟩ := h2 u hE.node_left v hE.node_right w (by simp [h5 i j w e]) he
  exact ⟨w', hle, h'⟩

example : bellmanFordPathLength small none 1 4 = .ok 15 ∧ bellmanFordPathLength large none 1 4 = .ok 1 := by
  constructor <;> decide +kernel

/-- the distance from 1 to 4 drops from 3 to 1; node 2 gains three triangles; the 4-truss of the small
graph is empty and that of the large one has 12 stored edges -/
example : bidirectionalSPL small 1 4 = .ok 3 ∧ bidirectionalSPL large 1 4 = .ok 1 := by
  constructor <;> decide +kernel

example : singleTriangle small 2 = .ok 0 ∧ singleTriangle large 2 = .ok 3 := by
  constructor <;> decide +kernel

example : (match kTruss small 4 with | .ok T => mnvals T.A | .error _ => 99) = 0 ∧
    (match kTruss large 4 with | .ok T => mnvals T.A | .error _ => 99) = 12 := by
  constructor <;> decide +kernel

/-- a triangle -/
def tri : Graph Nat Int where
  n := 3
  A := _root_.Ex.ofTriples 3 [(0,1,1),(1,0,1),(1,2,1),(2,1,1),(0,2,1),(2,0,1)]
  keyToId := [(0,0),(1,1),(2,2)]

/-- a triangle with a fourth node attached to one corner -/
def triTail : Graph Nat Int where
  n := 4
  A := _root_.Ex.ofTriples 4 [(0,1,1),(1,0,1),(1,2,1),(2,1,1),(0,2,1),(2,0,1),(2,3,1),(3,2,1)]
  keyToId := [(0,0),(1,1),(2,2),(3,3)]

/-- clustering coefficients and transitivity are *not* monotone: one more edge can lower them -/
example : transitivity tri = 1 ∧ transitivity triTail < 1 ∧ Grows tri triTail := by
  have h1 : ∀ u ∈ tri.nodes, triTail.Node u := by decide
  have h2 : ∀ u ∈ tri.nodes, ∀ v ∈ tri.nodes, tri.Edge u v → triTail.Edge u v := by decide
  refine ⟨by decide +kernel, by decide +kernel, h1, fun u v he => h2 u he.node_left v he.node_right he⟩

end Ex

end Props
