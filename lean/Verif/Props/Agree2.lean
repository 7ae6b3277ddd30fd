import Verif.Props.Agree
import Verif.Props.Cluster
import Verif.Props.ClusterDir
import Verif.Props.Small

/-!
# C96 laws between graph operators and traversals, C97 totals agree with the parts
-/

open GB Spec Model Model.Graph Proofs

namespace Props

variable {K α : Type} [DecidableEq K] {G H : Graph K α}

/-! ### C96 -/

/-- **C96, reversal.** Asking the reversed graph forwards is asking the graph backwards: for distances to a target and
for ancestors. -/
theorem reverse_swaps_directions (h : G.WF) (hd : G.directed = true) {s : K} (hs : G.Node s) :
    ∃ R, reverse G = .ok R ∧
      (∃ a b, singleSourceSPL R s none = .ok a ∧ singleTargetSPL G s none = .ok b ∧ ∀ u, R.view a u = G.view b u) ∧
      (∃ a b, descendants R s = .ok a ∧ ancestors G s = .ok b ∧ ∀ u, (R.view a u).isSome = (G.view b u).isSome) ∧
      (∃ a b, ancestors R s = .ok a ∧ descendants G s = .ok b ∧ ∀ u, (R.view a u).isSome = (G.view b u).isSome) := by
  obtain ⟨R, hR, hw, hRd, hn, he, -⟩ := (reverse_correct h).1 hd
  have hE : ∀ u v, R.Edge u v ↔ Rev G.Edge u v := by
    intro u v
    unfold Rev
    rw [edge_iff_wedge, edge_iff_wedge]
    exact exists_congr fun w => he u v w
  have hE' : ∀ u v, G.Edge u v ↔ Rev R.Edge u v := fun u v => (hE v u).symm
  have hW : ∀ d, Within none d := by simp [Within]
  have hsR : R.Node s := (hn s).2 hs
  have hreach : ∀ u v, Reach R.Edge u v ↔ Reach G.Edge v u := by
    intro u v
    unfold Reach
    exact exists_congr fun k => (walk_congr hE).trans walk_rev
  have nodeOf : ∀ {u v}, G.Node u → Reach G.Edge u v → G.Node v := fun hu ⟨k, hk⟩ => Walk_node hu hk
  have nodeOf' : ∀ {u v}, G.Node v → Reach G.Edge u v → G.Node u := by
    rintro u v hv ⟨k, hk⟩
    exact (hn u).1 (Walk_node ((hn v).2 hv) ((walk_congr hE).2 (walk_rev.2 hk)))
  refine ⟨R, hR, ?_, ?_, ?_⟩
  · obtain ⟨a, ha, hav⟩ := single_source_shortest_path_length_correct hw hsR none (by simp)
    obtain ⟨b, hb, hbv⟩ := single_target_shortest_path_length_correct h (by simp [hd]) hs none (by simp)
    refine ⟨a, b, ha, hb, fun u => opt_ext fun d => ?_⟩
    rw [hav, hbv, and_iff_left (hW _), and_iff_left (hW _), isDist_congr hE]
    unfold IsDist
    simp only [walk_rev]
    exact ⟨fun x => ⟨nodeOf' hs ⟨d, x.1⟩, x⟩, fun x => x.2⟩
  · obtain ⟨a, ha, hav⟩ := descendants_correct hw hsR
    obtain ⟨b, hb, hbv⟩ := ancestors_correct h (by simp [hd]) hs
    refine ⟨a, b, ha, hb, fun u => isSome_congr ?_⟩
    rw [hav, hbv, hreach]
    exact ⟨fun x => ⟨x.1, nodeOf' hs x.2, x.2⟩, fun x => ⟨x.1, x.2.2⟩⟩
  · obtain ⟨a, ha, hav⟩ := ancestors_correct hw (by simp [hRd]) hsR
    obtain ⟨b, hb, hbv⟩ := descendants_correct h hs
    refine ⟨a, b, ha, hb, fun u => isSome_congr ?_⟩
    rw [hav, hbv, hreach]
    exact ⟨fun x => ⟨x.1, x.2.2⟩, fun x => ⟨x.1, (hn u).2 (nodeOf hs x.2), x.2⟩⟩

/-- **C96, weak connectivity.** `is_weakly_connected(G)` is `is_connected(G.to_undirected())`, errors included,
whatever the `any` operator picks. -/
theorem weakly_connected_is_connected_undirected (h : G.WF) {choose : α → α → α}
    (hc : ∀ a b, choose a b = a ∨ choose a b = b) :
    isWeaklyConnected G = isConnected (toUndirected choose G false) := by
  obtain ⟨hw, -, hn, he, -⟩ := to_undirected_correct h hc
  have hs : ∀ u v, (toUndirected choose G false).Edge u v → (toUndirected choose G false).Edge v u :=
    fun u v e => (he v u).2 ((he u v).1 e).symm
  have hr : ∀ u v, Reach (toUndirected choose G false).Edge u v ↔ Reach (Sym G.Edge) u v :=
    fun u v => exists_congr fun k => walk_congr he
  rcases is_weakly_connected_correct h with ⟨h0, e0⟩ | ⟨h0, b, e0, hb⟩ <;>
  rcases is_connected_structural hw hs with ⟨h1, e1⟩ | ⟨h1, c, e1, hcb⟩
  · rw [e0, e1]
  · exact absurd h0 h1
  · exact absurd h1 h0
  · rw [e0, e1]
    congr 1
    rw [Bool.eq_iff_iff, hb, hcb]
    simp only [hr, hn]

/-- **C96, algebra of edge sets** for graphs on the same nodes: `difference(G, G)` has no edges, the symmetric
difference is the two differences together and does not depend on the order, the intersection neither, and
`difference(G, difference(G, H))` is the intersection. -/
theorem edge_set_algebra (hG : G.WF) (hH : H.WF) (h1 : G.multi = false) (h2 : H.multi = false)
    (hn : ∀ u, G.Node u ↔ H.Node u) (one : α) :
    (∃ Z, difference one G G = .ok Z ∧ (∀ u, Z.Node u ↔ G.Node u) ∧ ∀ u v, ¬ Z.Edge u v) ∧
    ∃ GH HG S T I J D, difference one G H = .ok GH ∧ difference one H G = .ok HG ∧
      symmetricDifference one G H = .ok S ∧ symmetricDifference one H G = .ok T ∧
      intersection one G H = .ok I ∧ intersection one H G = .ok J ∧ difference one G GH = .ok D ∧
      (∀ u v, S.Edge u v ↔ GH.Edge u v ∨ HG.Edge u v) ∧ (∀ u v, S.Edge u v ↔ T.Edge u v) ∧
      (∀ u v, I.Edge u v ↔ J.Edge u v) ∧ (∀ u v, D.Edge u v ↔ I.Edge u v) ∧
      (∀ u v, G.Edge u v ↔ GH.Edge u v ∨ I.Edge u v) ∧ ∀ u v, ¬ (GH.Edge u v ∧ I.Edge u v) := by
  obtain ⟨Z, hZ, -, -, -, hZn, hZe, -⟩ := (difference_correct hG hG h1 h1 one).1 fun u => Iff.rfl
  obtain ⟨GH, hGH, wGH, -, mGH, nGH, eGH, -⟩ := (difference_correct hG hH h1 h2 one).1 hn
  obtain ⟨HG, hHG, -, -, -, -, eHG, -⟩ := (difference_correct hH hG h2 h1 one).1 fun u => (hn u).symm
  obtain ⟨S, hS, -, -, -, -, eS, -⟩ := (symmetric_difference_correct hG hH h1 h2 one).1 hn
  obtain ⟨T, hT, -, -, -, -, eT, -⟩ := (symmetric_difference_correct hH hG h2 h1 one).1 fun u => (hn u).symm
  obtain ⟨I, hI, -, -, -, -, eI, -⟩ := intersection_correct hG hH h1 h2 one
  obtain ⟨J, hJ, -, -, -, -, eJ, -⟩ := intersection_correct hH hG h2 h1 one
  obtain ⟨D, hD, -, -, -, -, eD, -⟩ := (difference_correct hG wGH h1 mGH one).1 fun u => (nGH u).symm
  refine ⟨⟨Z, hZ, hZn, fun u v e => ((hZe u v).1 e).2 ((hZe u v).1 e).1⟩,
    GH, HG, S, T, I, J, D, hGH, hHG, hS, hT, hI, hJ, hD, ?_, ?_, ?_, ?_, ?_, ?_⟩
  · intro u v; rw [eS, eGH, eHG]
  · intro u v; rw [eS, eT]; exact or_comm
  · intro u v; rw [eI, eJ]; exact and_comm
  · intro u v
    rw [eD, eGH, eI]
    constructor
    · rintro ⟨a, b⟩; exact ⟨a, by_contra fun c => b ⟨a, c⟩⟩
    · rintro ⟨a, b⟩; exact ⟨a, fun c => c.2 b⟩
  · intro u v
    rw [eGH, eI]
    constructor
    · intro a
      by_cases b : H.Edge u v
      · exact .inr ⟨a, b⟩
      · exact .inl ⟨a, b⟩
    · rintro (a | a) <;> exact a.1
  · rintro u v ⟨a, b⟩
    exact ((eGH u v).1 a).2 ((eI u v).1 b).2

/-- **C96, complements.** `complement` agrees with `difference` from the complete graph: no edge of `G` is in the
complement and between different nodes exactly one of the two has the edge. -/
theorem complement_partitions (hG : G.WF) (one : α) {u v : K} (hu : G.Node u) (hv : G.Node v) (huv : u ≠ v) :
    ((complement one G).Edge u v ↔ ¬ G.Edge u v) ∧ ¬ (complement one G).Edge u u := by
  obtain ⟨-, -, -, he, -⟩ := complement_correct hG one
  refine ⟨?_, fun e => ((he u u).1 e).2.2.1 rfl⟩
  rw [he]
  exact ⟨fun x => x.2.2.2, fun x => ⟨hu, hv, huv, x⟩⟩

/-! ### C97 -/

theorem view_node {β : Type} (h : G.WF) {r : Vec G.n β} {u : K} {b : β} (e : G.view r u = some b) : G.Node u := by
  obtain ⟨i, hi, -⟩ := (view_eq_some h).1 e
  exact hi.node

/-- **C97, triangles.** One node asked alone, some nodes asked together and all nodes asked together get the same
number; the numbers of all nodes add up to three times the number of triangles. -/
theorem triangle_counts_agree (h : G.WF) (hs : G.Symm) {l : List K} (hl : ∀ u ∈ l, G.Node u) :
    ∃ all some', triangles G none = .ok all ∧ triangles G (some l) = .ok some' ∧
      (∀ u, G.Node u → ∃ t, singleTriangle G u = .ok t ∧ G.view all u = some t) ∧
      (∀ u, u ∈ l → G.view some' u = G.view all u) ∧ (∀ u, u ∉ l → G.view some' u = none) ∧
      sumOver G.nodes (fun u => (G.view all u).getD 0) = 3 * totalTriangles G.A := by
  obtain ⟨a, ha, hav⟩ := triangles_correct h hs (nodes := none) (by simp)
  obtain ⟨b, hb, hbv⟩ := triangles_correct h hs (nodes := some l) (by rintro l' ⟨⟩; exact hl)
  have hA : ∀ u, Cluster.Asked (none : Option (List K)) u := by simp [Cluster.Asked]
  have hAl : ∀ u, Cluster.Asked (some l) u ↔ u ∈ l := by simp [Cluster.Asked]
  have hval : ∀ u, G.Node u → ∃ t, singleTriangle G u = .ok t ∧ 2 * t = triPairs G.nodes G.Edge u ∧ G.view a u = some t := by
    intro u hu
    obtain ⟨t, ht, ht2⟩ := single_triangle_correct h hs hu
    exact ⟨t, ht, ht2, (hav _ _).2 ⟨⟨hu, hA u⟩, ht2⟩⟩
  refine ⟨a, b, ha, hb, fun u hu => ?_, fun u hu => ?_, fun u hu => ?_, ?_⟩
  · obtain ⟨t, ht, -, hv⟩ := hval u hu
    exact ⟨t, ht, hv⟩
  · apply opt_ext
    intro t
    rw [hav, hbv, hAl]
    exact ⟨fun x => ⟨⟨x.1.1, hA u⟩, x.2⟩, fun x => ⟨⟨x.1.1, hu⟩, x.2⟩⟩
  · cases hx : G.view b u with
    | none => rfl
    | some t => exact absurd ((hAl u).1 ((hbv _ _).1 hx).1.2) hu
  · have h6 := total_triangles_correct h hs
    have h2 : 2 * sumOver G.nodes (fun u => (G.view a u).getD 0) = sumOver G.nodes fun u => triPairs G.nodes G.Edge u := by
      rw [sumOver_nodes h, sumOver_nodes h, Finset.mul_sum]
      refine Finset.sum_congr rfl fun i _ => ?_
      obtain ⟨t, -, ht, hv⟩ := hval _ (keyFn_at h i).node
      rw [hv, ← ht]; rfl
    omega

/-- **C97, clustering.** One node asked alone and all nodes asked together get the same coefficient, and
`average_clustering` is the mean of the coefficients that `clustering` returns. -/
theorem clustering_apis_agree (h : G.WF) (hs : G.Symm) (hd : G.directed = false) (hn : 0 < G.n) :
    ∃ all, clustering G none = .ok all ∧
      (∀ u, G.Node u → ∃ c, singleClustering G u = .ok c ∧ G.view all u = some c) ∧
      averageClustering G none true = .ok (sumOver G.nodes (fun u => (G.view all u).getD 0) / G.len) := by
  obtain ⟨a, ha, hav⟩ := clustering_correct h hs (nodes := none) (by simp)
  have hA : ∀ u, Cluster.Asked (none : Option (List K)) u := by simp [Cluster.Asked]
  have hv : ∀ u, G.Node u → G.view a u = some (coeff G u) := fun u hu => (hav _ _).2 ⟨⟨hu, hA u⟩, rfl⟩
  refine ⟨a, ha, fun u hu => ⟨_, single_clustering_correct h hs hu, hv u hu⟩, ?_⟩
  rw [average_clustering_correct h hd hs (nodes := none) (by simp) true, if_neg hn.ne']
  have hlen : G.nodes.length = G.n := by
    show (G.keyToId.map Prod.fst).length = _
    rw [List.length_map, h.length]
  simp only [if_true, averagedOver, meanOf]
  rw [if_neg (by rw [hlen]; exact hn.ne'), hlen]
  have : sumOver G.nodes (coeff G) = sumOver G.nodes (fun u => (G.view a u).getD 0) := by
    rw [sumOver_nodes h, sumOver_nodes h]
    refine Finset.sum_congr rfl fun i _ => ?_
    rw [hv _ (keyFn_at h i).node]; rfl
  rw [this]; rfl

/-- **C97, isolates.** `number_of_isolates` is the number of nodes for which `is_isolate` is True, and these are the
nodes that `isolates` returns. -/
theorem isolate_apis_agree (h : G.WF) (hs : G.directed = false → G.Symm) :
    numberOfIsolates G = G.nodes.countP (fun u => (isIsolate G u).toOption == some true) ∧
    ∀ u, G.Node u → isIsolate G u = .ok (G.view (isolates G) u).isSome := by
  classical
  obtain ⟨h1, h2⟩ := isolates_correct h hs
  have h3 : ∀ u, G.Node u → isIsolate G u = .ok (G.view (isolates G) u).isSome := by
    intro u hu
    obtain ⟨b, hb, hbi⟩ := (is_isolate_correct h hs u).1 hu
    rw [hb]
    congr 1
    rw [Bool.eq_iff_iff, hbi, h1]
    exact ⟨fun x => ⟨hu, x⟩, fun x => x.2⟩
  refine ⟨?_, h3⟩
  rw [h2]
  unfold countOf
  apply List.countP_congr
  intro u hu
  rw [h3 u hu]
  have := h1 u
  simp only [decide_eq_true_eq]
  show _ ↔ (some _ == some true) = true
  rw [beq_iff_eq, Option.some.injEq, this]
  exact ⟨fun x => ⟨hu, x⟩, fun x => x.2⟩

/-! ### the hypotheses are met -/

example : Ex.dg.WF ∧ Ex.dg.Node 10 ∧ Ex.dg.directed = true := ⟨⟨by decide, by decide⟩, by unfold Graph.Node; decide, rfl⟩
example : isWeaklyConnected Ex.dg = isConnected (toUndirected (fun a _ => a) Ex.dg false) :=
  weakly_connected_is_connected_undirected ⟨by decide, by decide⟩ (by simp)
example : (isWeaklyConnected Ex.dg).toOption = some false := by decide +kernel
example : totalTriangles Ex.ug.A = 1 := by decide +kernel
example : (singleSourceSPL Ex.dg 10 none).toOption.map (fun r => Ex.dg.nodes.map (Ex.dg.view r)) =
    some [some 0, some 1, some 2, none] := by decide +kernel

end Props
