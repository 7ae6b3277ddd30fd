import Verif.Props.Monotone
import Verif.Props.Ego
import Verif.Props.Small2

/-!
# C119 Results depend only on the part of the graph they are about

`SameOut G H s`: everything reachable from `s` in `G` has the same outgoing edges in `G` and `H`.
The rest of the two graphs, the numbering and the node order may differ.
-/

open GB Spec Model Model.Graph Proofs

namespace Props

variable {K α β : Type} [DecidableEq K] {G : Graph K α} {H : Graph K β}

/-- the same edges leave every node reachable from `s` -/
structure SameOut {V : Type} (E E' : V → V → Prop) (s : V) : Prop where
  out : ∀ u, Reach E s u → ∀ v, E u v ↔ E' u v

theorem SameOut.walk {V : Type} {E E' : V → V → Prop} {s : V} (h : SameOut E E' s) {k : Nat} {u : V} :
    Walk E k s u ↔ Walk E' k s u := by
  constructor
  · intro hw
    induction hw with
    | nil u => exact .nil u
    | snoc hw e ih => exact (ih h).snoc ((h.out _ ⟨_, hw⟩ _).1 e)
  · intro hw
    induction hw with
    | nil u => exact .nil u
    | snoc hw e ih => exact (ih h).snoc ((h.out _ ⟨_, ih h⟩ _).2 e)

theorem SameOut.reach {V : Type} {E E' : V → V → Prop} {s : V} (h : SameOut E E' s) {u : V} :
    Reach E s u ↔ Reach E' s u := exists_congr fun _ => h.walk

theorem SameOut.dist {V : Type} {E E' : V → V → Prop} {s : V} (h : SameOut E E' s) {u : V} {d : Nat} :
    IsDist E s d u ↔ IsDist E' s d u := by
  unfold IsDist
  rw [h.walk]
  exact and_congr_right fun _ => forall_congr' fun k => by rw [h.walk]

theorem opt_ext' {β : Type} {a b : Option β} (h : ∀ x, a = some x ↔ b = some x) : a = b := Option.ext h

theorem reach_node {u s : K} (hs : G.Node s) (h : Reach G.Edge u s) : G.Node u := by
  obtain ⟨k, hk⟩ := h
  cases k with
  | zero => cases hk; exact hs
  | succ k =>
    obtain ⟨v, e, _⟩ := walk_succ'.1 hk
    exact e.node_left

/-- searches from `s` see only what is reachable from `s` -/
theorem searches_local (hG : G.WF) (hH : H.WF) {s : K} (hs : G.Node s) (hs' : H.Node s)
    (h : SameOut G.Edge H.Edge s) :
    (∀ c, ∃ r q, singleSourceSPL G s c = .ok r ∧ singleSourceSPL H s c = .ok q ∧
      ∀ u, G.view r u = H.view q u) ∧
    (∃ r q, descendants G s = .ok r ∧ descendants H s = .ok q ∧
      ∀ u, (G.view r u).isSome = (H.view q u).isSome) ∧
    (∃ r q, nodeConnectedComponent G s = .ok r ∧ nodeConnectedComponent H s = .ok q ∧
      ∀ u, (G.view r u).isSome = (H.view q u).isSome) ∧
    (∀ d : Nat, ∃ r q, descendantsAtDistance G s d = .ok r ∧ descendantsAtDistance H s d = .ok q ∧
      ∀ u, (G.view r u).isSome = (H.view q u).isSome) ∧
    ∀ t, G.Node t → H.Node t → bidirectionalSPL G s t = bidirectionalSPL H s t ∧ hasPath G s t = hasPath H s t := by
  refine ⟨fun c => ?_, ?_, ?_, fun d => ?_, fun t ht ht' => ⟨?_, ?_⟩⟩
  · by_cases hc : ∃ x, c = some x ∧ x < 0
    · obtain ⟨x, rfl, hx⟩ := hc
      obtain ⟨⟨r, hr, er⟩, _⟩ := shortest_path_length_negative_cutoff hG hs hx
      obtain ⟨⟨q, hq, eq⟩, _⟩ := shortest_path_length_negative_cutoff hH hs' hx
      exact ⟨r, q, hr, hq, fun u => opt_ext' fun d => (er u d).trans (eq u d).symm⟩
    · have hc' : ∀ x, c = some x → 0 ≤ x := fun x e => not_lt.1 fun h => hc ⟨x, e, h⟩
      obtain ⟨r, hr, er⟩ := single_source_shortest_path_length_correct hG hs c hc'
      obtain ⟨q, hq, eq⟩ := single_source_shortest_path_length_correct hH hs' c hc'
      exact ⟨r, q, hr, hq, fun u => opt_ext' fun d => by rw [er, eq, h.dist]⟩
  · obtain ⟨r, hr, er⟩ := descendants_correct hG hs
    obtain ⟨q, hq, eq⟩ := descendants_correct hH hs'
    exact ⟨r, q, hr, hq, fun u => Bool.eq_iff_iff.2 (by rw [er, eq, h.reach])⟩
  · obtain ⟨r, hr, er⟩ := node_connected_component_correct hG hs
    obtain ⟨q, hq, eq⟩ := node_connected_component_correct hH hs'
    exact ⟨r, q, hr, hq, fun u => Bool.eq_iff_iff.2 (by rw [er, eq, h.reach])⟩
  · obtain ⟨r, hr, er⟩ := descendants_at_distance_correct hG hs d
    obtain ⟨q, hq, eq⟩ := descendants_at_distance_correct hH hs' d
    exact ⟨r, q, hr, hq, fun u => Bool.eq_iff_iff.2 (by rw [er, eq, h.dist])⟩
  · rcases bidirectional_shortest_path_length_correct hG hs ht with ⟨d, hd, e⟩ | ⟨hn, e⟩ <;>
      rcases bidirectional_shortest_path_length_correct hH hs' ht' with ⟨d', hd', e'⟩ | ⟨hn', e'⟩
    · rw [e, e', dist_unique (h.dist.1 hd) hd']
    · exact absurd ⟨d, (h.dist.1 hd).1⟩ hn'
    · exact absurd ⟨d', (h.dist.2 hd').1⟩ hn
    · rw [e, e']
  · obtain ⟨b, hb, eb⟩ := has_path_correct hG hs ht
    obtain ⟨b', hb', eb'⟩ := has_path_correct hH hs' ht'
    rw [hb, hb', Bool.eq_iff_iff.2 (eb.trans (h.reach.trans eb'.symm))]

/-- searches towards `s` see only what leads to `s` -/
theorem ancestors_local (hG : G.WF) (hH : H.WF) (sG : G.directed = false → G.Symm)
    (sH : H.directed = false → H.Symm) {s : K} (hs : G.Node s) (hs' : H.Node s)
    (h : SameOut (Rev G.Edge) (Rev H.Edge) s) :
    (∃ r q, ancestors G s = .ok r ∧ ancestors H s = .ok q ∧
      ∀ u, (G.view r u).isSome = (H.view q u).isSome) ∧
    ∀ c, ∃ r q, singleTargetSPL G s c = .ok r ∧ singleTargetSPL H s c = .ok q ∧
      ∀ u, G.view r u = H.view q u := by
  have hd : ∀ {u d}, IsDist G.Edge u d s ↔ IsDist H.Edge u d s := fun {u d} => by
    have := h.dist (u := u) (d := d)
    simpa only [IsDist, walk_rev] using this
  have hr : ∀ {u}, Reach G.Edge u s ↔ Reach H.Edge u s := fun {u} => by
    have := h.reach (u := u)
    rwa [reach_rev, reach_rev] at this
  refine ⟨?_, fun c => ?_⟩
  · obtain ⟨r, hr', er⟩ := ancestors_correct hG sG hs
    obtain ⟨q, hq, eq⟩ := ancestors_correct hH sH hs'
    refine ⟨r, q, hr', hq, fun u => Bool.eq_iff_iff.2 ?_⟩
    rw [er, eq]
    exact and_congr_right fun _ =>
      ⟨fun x => ⟨reach_node hs' (hr.1 x.2), hr.1 x.2⟩, fun x => ⟨reach_node hs (hr.2 x.2), hr.2 x.2⟩⟩
  · by_cases hc : ∃ x, c = some x ∧ x < 0
    · obtain ⟨x, rfl, hx⟩ := hc
      obtain ⟨_, r, hr, er⟩ := shortest_path_length_negative_cutoff hG hs hx
      obtain ⟨_, q, hq, eq⟩ := shortest_path_length_negative_cutoff hH hs' hx
      exact ⟨r, q, hr, hq, fun u => opt_ext' fun d => (er u d).trans (eq u d).symm⟩
    · have hc' : ∀ x, c = some x → 0 ≤ x := fun x e => not_lt.1 fun h => hc ⟨x, e, h⟩
      obtain ⟨r, hr', er⟩ := single_target_shortest_path_length_correct hG sG hs c hc'
      obtain ⟨q, hq, eq⟩ := single_target_shortest_path_length_correct hH sH hs' c hc'
      refine ⟨r, q, hr', hq, fun u => opt_ext' fun d => ?_⟩
      rw [er, eq]
      exact and_congr_left fun _ =>
        ⟨fun x => ⟨reach_node hs' ⟨d, (hd.1 x.2).1⟩, hd.1 x.2⟩,
         fun x => ⟨reach_node hs ⟨d, (hd.2 x.2).1⟩, hd.2 x.2⟩⟩

/-- `ego_graph` (hop radius) sees only what is reachable from its centre -/
theorem ego_graph_local {G H : Graph K α} (hG : G.WF) (hH : H.WF) {choose : α → α → α} {s : K}
    (hs : G.Node s) (hs' : H.Node s)
    (h : ∀ u, Reach G.Edge s u → ∀ v w, G.WEdge u v w ↔ H.WEdge u v w) {r : Int} (hr : 0 ≤ r) (center : Bool) :
    ∃ S T, egoGraph choose G s r center false = .ok S ∧ egoGraph choose H s r center false = .ok T ∧
      (∀ u, S.Node u ↔ T.Node u) ∧ ∀ u v w, S.WEdge u v w ↔ T.WEdge u v w := by
  have hl : SameOut G.Edge H.Edge s := ⟨fun u hu v => by
    rw [edge_iff_wedge, edge_iff_wedge]; exact exists_congr fun w => h u hu v w⟩
  obtain ⟨S, hS, iS⟩ := ego_graph_correct hG (choose := choose) hs hr center false
  obtain ⟨T, hT, iT⟩ := ego_graph_correct hH (choose := choose) hs' hr center false
  simp only [Bool.false_and, Bool.false_eq_true, if_false] at iS iT
  have hin : ∀ u, ((∃ d : Nat, IsDist G.Edge s d u ∧ (d : Int) ≤ r) ∧ (center = false → u ≠ s)) ↔
      ((∃ d : Nat, IsDist H.Edge s d u ∧ (d : Int) ≤ r) ∧ (center = false → u ≠ s)) := fun u =>
    and_congr_left fun _ => exists_congr fun d => by rw [hl.dist]
  refine ⟨S, T, hS, hT, fun u => by rw [iS.nodes, iT.nodes, hin], fun u v w => ?_⟩
  rw [iS.edges, iT.edges, hin, hin]
  constructor
  · rintro ⟨e, ⟨⟨d, hd, hle⟩, hc⟩, hv⟩
    exact ⟨(h u ⟨d, (hl.dist.2 hd).1⟩ v w).1 e, ⟨⟨d, hd, hle⟩, hc⟩, hv⟩
  · rintro ⟨e, ⟨⟨d, hd, hle⟩, hc⟩, hv⟩
    exact ⟨(h u ⟨d, (hl.dist.2 hd).1⟩ v w).2 e, ⟨⟨d, hd, hle⟩, hc⟩, hv⟩

/-! ## counts -/

theorem countOf_le {V : Type} {N M : List V} (hN : N.Nodup) {p q : V → Prop} [DecidablePred p] [DecidablePred q]
    (h : ∀ u ∈ N, p u → u ∈ M ∧ q u) : countOf N p ≤ countOf M q := by
  unfold countOf
  rw [List.countP_eq_length_filter, List.countP_eq_length_filter]
  refine (List.subperm_of_subset (hN.filter _) ?_).length_le
  intro u hu
  rw [List.mem_filter] at hu ⊢
  have := h u hu.1 (of_decide_eq_true hu.2)
  exact ⟨this.1, decide_eq_true this.2⟩

theorem countOf_eq {V : Type} {N M : List V} (hN : N.Nodup) (hM : M.Nodup) {p q : V → Prop} [DecidablePred p]
    [DecidablePred q] (h : ∀ u, (u ∈ N ∧ p u) ↔ (u ∈ M ∧ q u)) : countOf N p = countOf M q :=
  le_antisymm (countOf_le hN fun u hu hp => (h u).1 ⟨hu, hp⟩) (countOf_le hM fun u hu hp => (h u).2 ⟨hu, hp⟩)

theorem sumOver_support {V : Type} {R : Type} [AddCommMonoid R] (N : List V) (f : V → R) (p : V → Prop)
    [DecidablePred p] (h : ∀ u ∈ N, ¬ p u → f u = 0) : sumOver N f = sumOver (N.filter fun u => p u) f := by
  unfold sumOver
  induction N with
  | nil => rfl
  | cons a l ih =>
    have ih := ih fun u hu => h u (List.mem_cons_of_mem _ hu)
    by_cases hp : p a
    · simp [hp, ih]
    · simp [hp, ih, h a (List.mem_cons_self ..) hp]

theorem sumOver_eq {V : Type} {R : Type} [AddCommMonoid R] {N M : List V} (hN : N.Nodup) (hM : M.Nodup)
    (f g : V → R) (p : V → Prop) (hp : ∀ u, (u ∈ N ∧ p u) ↔ (u ∈ M ∧ p u)) (hf : ∀ u ∈ N, ¬ p u → f u = 0)
    (hg : ∀ u ∈ M, ¬ p u → g u = 0) (hfg : ∀ u, p u → f u = g u) : sumOver N f = sumOver M g := by
  classical
  rw [sumOver_support N f p hf, sumOver_support M g p hg]
  have hperm : (N.filter fun u => p u).Perm (M.filter fun u => p u) := by
    rw [List.perm_ext_iff_of_nodup (hN.filter _) (hM.filter _)]
    intro u
    simp only [List.mem_filter, decide_eq_true_eq]
    exact hp u
  unfold sumOver
  rw [← (hperm.map g).sum_eq]
  congr 1
  refine List.map_congr_left fun u hu => hfg u ?_
  simpa using (List.mem_filter.1 hu).2

/-- the same edges at `u` and between the neighbours of `u` -/
structure SameAround {V : Type} (E E' : V → V → Prop) (u : V) : Prop where
  at_u : ∀ v, E u v ↔ E' u v
  between : ∀ v w, E u v → E u w → (E v w ↔ E' v w)

theorem triPairs_local (hG : G.WF) (hH : H.WF) {u : K} (h : SameAround G.Edge H.Edge u) :
    triPairs G.nodes G.Edge u = triPairs H.nodes H.Edge u := by
  have hm : ∀ v, (v ∈ G.nodes ∧ G.Edge u v) ↔ (v ∈ H.nodes ∧ G.Edge u v) := fun v =>
    and_congr_left fun e => iff_of_true e.node_right ((h.at_u v).1 e).node_right
  refine sumOver_eq (nodes_nodup hG) (nodes_nodup hH) _ _ (fun a => G.Edge u a) hm ?_ ?_ ?_
  · intro a _ ha
    unfold countOf
    rw [List.countP_eq_zero]
    intro b _ hb
    exact ha (of_decide_eq_true hb).2.2.2.1
  · intro a _ ha
    unfold countOf
    rw [List.countP_eq_zero]
    intro b _ hb
    exact ha ((h.at_u a).2 (of_decide_eq_true hb).2.2.2.1)
  · intro a ha
    refine countOf_eq (nodes_nodup hG) (nodes_nodup hH) fun b => ?_
    constructor
    · rintro ⟨_, h1, h2, h3, h4, h5, h6⟩
      exact ⟨((h.at_u b).1 h5).node_right, h1, h2, h3, (h.at_u a).1 h4, (h.at_u b).1 h5, (h.between a b h4 h5).1 h6⟩
    · rintro ⟨_, h1, h2, h3, h4, h5, h6⟩
      have h5' := (h.at_u b).2 h5
      exact ⟨h5'.node_right, h1, h2, h3, ha, h5', (h.between a b ha h5').2 h6⟩

theorem degree_local (hG : G.WF) (hH : H.WF) {u : K} (h : ∀ v, G.Edge u v ↔ H.Edge u v) :
    degree G.nodes G.Edge u = degree H.nodes H.Edge u := by
  refine countOf_eq (nodes_nodup hG) (nodes_nodup hH) fun v => ?_
  constructor
  · rintro ⟨_, h1, h2⟩; exact ⟨((h v).1 h2).node_right, h1, (h v).1 h2⟩
  · rintro ⟨_, h1, h2⟩; exact ⟨((h v).2 h2).node_right, h1, (h v).2 h2⟩

/-- triangles and the clustering coefficient of a node depend only on its neighbours and the edges
between them -/
theorem triangles_local (hG : G.WF) (hH : H.WF) (sG : G.Symm) (sH : H.Symm) {u : K} (hu : G.Node u)
    (hu' : H.Node u) (h : SameAround G.Edge H.Edge u) :
    singleTriangle G u = singleTriangle H u ∧ singleClustering G u = singleClustering H u := by
  have ht := triPairs_local hG hH h
  refine ⟨?_, ?_⟩
  · obtain ⟨t, e, ht1⟩ := single_triangle_correct hG sG hu
    obtain ⟨t', e', ht2⟩ := single_triangle_correct hH sH hu'
    rw [e, e']
    congr 1; omega
  · rw [single_clustering_correct hG sG hu, single_clustering_correct hH sH hu']
    unfold coeff
    rw [ht, degree_local hG hH h.at_u]

theorem edgesFromTo_local (hG : G.WF) (hH : H.WF) {P Q : K → Prop} [DecidablePred P] [DecidablePred Q]
    (h : ∀ u v, P u → Q v → (G.Edge u v ↔ H.Edge u v)) :
    edgesFromTo G.nodes G.Edge P Q = edgesFromTo H.nodes H.Edge P Q := by
  refine sumOver_eq (nodes_nodup hG) (nodes_nodup hH) _ _ (fun a => P a ∧ ∃ b, Q b ∧ G.Edge a b) ?_ ?_ ?_ ?_
  · rintro a
    exact and_congr_left fun ⟨hp, b, hb, e⟩ => iff_of_true e.node_left ((h a b hp hb).1 e).node_left
  · intro a _ ha
    unfold countOf
    rw [List.countP_eq_zero]
    intro b _ hb
    obtain ⟨h1, h2, h3⟩ := of_decide_eq_true hb
    exact ha ⟨h1, b, h2, h3⟩
  · intro a _ ha
    unfold countOf
    rw [List.countP_eq_zero]
    intro b _ hb
    obtain ⟨h1, h2, h3⟩ := of_decide_eq_true hb
    exact ha ⟨h1, b, h2, (h a b h1 h2).2 h3⟩
  · rintro a -
    refine countOf_eq (nodes_nodup hG) (nodes_nodup hH) fun b => ?_
    constructor
    · rintro ⟨_, h1, h2, h3⟩
      exact ⟨((h a b h1 h2).1 h3).node_right, h1, h2, (h a b h1 h2).1 h3⟩
    · rintro ⟨_, h1, h2, h3⟩
      exact ⟨((h a b h1 h2).2 h3).node_right, h1, h2, (h a b h1 h2).2 h3⟩

/-- a cut depends only on the edges between the two sets, a node boundary only on the edges leaving
the set -/
theorem cuts_local (hG : G.WF) (hH : H.WF) (hd : G.directed = H.directed) {S T : List K} :
    ((∀ u ∈ S, ∀ v ∈ T, (G.Edge u v ↔ H.Edge u v) ∧ (G.Edge v u ↔ H.Edge v u)) →
      cutSize G S (some T) = cutSize H S (some T)) ∧
    ((∀ u ∈ S, ∀ v, G.Edge u v ↔ H.Edge u v) →
      ∃ r q, nodeBoundary G S none = .ok r ∧ nodeBoundary H S none = .ok q ∧
        ∀ u, (G.view r u).isSome = (H.view q u).isSome) := by
  refine ⟨fun h => ?_, fun h => ?_⟩
  · rw [cut_size_correct hG, cut_size_correct hH, hd,
      edgesFromTo_local hG hH (P := (· ∈ S)) (Q := (· ∈ T)) fun u v hu hv => (h u hu v hv).1,
      edgesFromTo_local hG hH (P := (· ∈ T)) (Q := (· ∈ S)) fun u v hu hv => (h v hv u hu).2]
  · obtain ⟨r, hr, er⟩ := node_boundary_correct hG S none
    obtain ⟨q, hq, eq⟩ := node_boundary_correct hH S none
    refine ⟨r, q, hr, hq, fun u => Bool.eq_iff_iff.2 ?_⟩
    rw [er, eq]
    refine and_congr_right fun _ => and_congr_right fun _ => exists_congr fun v => and_congr_right fun hv => h v hv u

/-! ## isolated nodes -/

/-- graphs with the same edges, one of which may have more isolated nodes -/
def SameEdges (G : Graph K α) (H : Graph K β) : Prop := ∀ u v, G.Edge u v ↔ H.Edge u v

theorem edgesFromTo_true (N : List K) (E : K → K → Prop) [∀ u v, Decidable (E u v)] :
    edgeCount N E = edgesFromTo N E (fun _ => True) (fun _ => True) := by
  unfold edgeCount edgesFromTo outDeg
  simp

/-- transitivity, the number of triangles and the k-trusses ignore isolated nodes -/
theorem isolated_nodes_irrelevant (hG : G.WF) (hH : H.WF) (sG : G.Symm) (sH : H.Symm) (h : SameEdges G H) :
    transitivity G = transitivity H ∧ totalTriangles G.A = totalTriangles H.A ∧
    ∀ k, ∃ T U, kTruss G k = .ok T ∧ kTruss H k = .ok U ∧ (∀ u, T.Node u ↔ U.Node u) ∧
      ∀ u v, T.Edge u v ↔ U.Edge u v := by
  have ht : ∀ u, triPairs G.nodes G.Edge u = triPairs H.nodes H.Edge u := fun u =>
    triPairs_local hG hH ⟨h u, fun v w _ _ => h v w⟩
  have hdg : ∀ u, degree G.nodes G.Edge u = degree H.nodes H.Edge u := fun u => degree_local hG hH (h u)
  have hm : ∀ v, (v ∈ G.nodes ∧ ∃ w, G.Edge v w) ↔ (v ∈ H.nodes ∧ ∃ w, G.Edge v w) := fun v =>
    and_congr_left fun ⟨w, e⟩ => iff_of_true e.node_left ((h v w).1 e).node_left
  have d0 : ∀ u, (¬ ∃ w, G.Edge u w) → degree G.nodes G.Edge u = 0 := by
    intro u hu
    unfold degree countOf
    rw [List.countP_eq_zero]
    intro b _ hb
    exact hu ⟨b, (of_decide_eq_true hb).2⟩
  have t0 : ∀ u, u ∈ G.nodes → (¬ ∃ w, G.Edge u w) → triPairs G.nodes G.Edge u = 0 := by
    intro u hun hu
    have := triPairs_le hG hun
    rw [d0 u hu] at this
    omega
  have t0' : ∀ u, u ∈ H.nodes → (¬ ∃ w, G.Edge u w) → triPairs H.nodes H.Edge u = 0 := by
    intro u hun hu
    have := triPairs_le hH hun
    rw [← hdg, d0 u hu] at this
    omega
  have hsum : sumOver G.nodes (fun u => triPairs G.nodes G.Edge u) = sumOver H.nodes fun u => triPairs H.nodes H.Edge u :=
    sumOver_eq (nodes_nodup hG) (nodes_nodup hH) _ _ (fun a => ∃ w, G.Edge a w) hm (fun u hu h => t0 u hu h)
      (fun u hu h => t0' u hu h) fun u _ => ht u
  have hden : sumOver G.nodes (fun u => degree G.nodes G.Edge u * (degree G.nodes G.Edge u - 1)) =
      sumOver H.nodes fun u => degree H.nodes H.Edge u * (degree H.nodes H.Edge u - 1) :=
    sumOver_eq (nodes_nodup hG) (nodes_nodup hH) _ _ (fun a => ∃ w, G.Edge a w) hm
      (fun u _ h => by simp [d0 u h]) (fun u _ h => by simp [← hdg, d0 u h]) fun u _ => by rw [hdg]
  refine ⟨?_, ?_, fun k => ?_⟩
  · rw [(transitivity_correct hG sG).1, (transitivity_correct hH sH).1, hsum, hden]
  · refine Nat.eq_of_mul_eq_mul_left (n := 6) (by decide) ?_
    rw [total_triangles_correct hG sG, total_triangles_correct hH sH, hsum]
  · obtain ⟨T, hT, _, _, hsub, htr, hmax, hn, _⟩ := k_truss_correct hG sG k
    obtain ⟨U, hU, _, _, hsub', htr', hmax', hn', _⟩ := k_truss_correct hH sH k
    have e1 : ∀ u v, T.Edge u v → U.Edge u v := hmax' T.Edge
      ⟨fun u v e => (h u v).1 (hsub.sub u v e), hsub.irrefl, hsub.symm⟩
      (isTruss_restrict (nodes_nodup hG) (fun u v e => ((h u v).1 (hsub.sub u v e)).node_right) htr)
    have e2 : ∀ u v, U.Edge u v → T.Edge u v := hmax U.Edge
      ⟨fun u v e => (h u v).2 (hsub'.sub u v e), hsub'.irrefl, hsub'.symm⟩
      (isTruss_restrict (nodes_nodup hH) (fun u v e => ((h u v).2 (hsub'.sub u v e)).node_right) htr')
    have he : ∀ u v, T.Edge u v ↔ U.Edge u v := fun u v => ⟨e1 u v, e2 u v⟩
    exact ⟨T, U, hT, hU, fun u => by rw [hn, hn']; exact exists_congr fun v => he u v, he⟩

/-- so does the overall reciprocity of a directed graph -/
theorem overall_reciprocity_ignores_isolated (hG : G.WF) (hH : H.WF) (dG : G.directed = true)
    (dH : H.directed = true) (h : SameEdges G H) : overallReciprocity G = overallReciprocity H := by
  have h1 : edgeCount G.nodes G.Edge = edgeCount H.nodes H.Edge := by
    rw [edgesFromTo_true, edgesFromTo_true]
    exact edgesFromTo_local hG hH fun u v _ _ => h u v
  have h2 : mutualEdges G.nodes G.Edge = mutualEdges H.nodes H.Edge := by
    refine sumOver_eq (nodes_nodup hG) (nodes_nodup hH) _ _ (fun a => ∃ b, G.Edge a b) ?_ ?_ ?_ ?_
    · exact fun a => and_congr_left fun ⟨b, e⟩ => iff_of_true e.node_left ((h a b).1 e).node_left
    · intro a _ ha
      unfold countOf
      rw [List.countP_eq_zero]
      exact fun b _ hb => ha ⟨b, (of_decide_eq_true hb).2.1⟩
    · intro a _ ha
      unfold countOf
      rw [List.countP_eq_zero]
      exact fun b _ hb => ha ⟨b, (h a b).2 (of_decide_eq_true hb).2.1⟩
    · rintro a -
      refine countOf_eq (nodes_nodup hG) (nodes_nodup hH) fun b => ?_
      constructor
      · rintro ⟨_, h1, h2, h3⟩
        exact ⟨((h a b).1 h2).node_right, h1, (h a b).1 h2, (h b a).1 h3⟩
      · rintro ⟨_, h1, h2, h3⟩
        exact ⟨((h a b).2 h2).node_right, h1, (h a b).2 h2, (h b a).2 h3⟩
  rw [overall_reciprocity_correct hG dG, overall_reciprocity_correct hH dH, h1, h2]

/-! ## weighted distances -/

variable [AddCommGroup α] [LinearOrder α] [IsOrderedAddMonoid α]

omit [LinearOrder α] [IsOrderedAddMonoid α] [DecidableEq K] in
theorem wwalk_local {W W' : K → K → α → Prop} {s : K} (h : ∀ u, WReach W s u → ∀ v w, W u v w ↔ W' u v w)
    {u : K} (hu : WReach W s u) {k : Nat} {c : α} {v : K} : WWalk W k c u v ↔ WWalk W' k c u v := by
  have htr : ∀ {k c v}, WWalk W k c u v → WReach W s v := by
    intro k c v hw
    induction hw with
    | nil u => exact hu
    | snoc _ e ih =>
      obtain ⟨k', c', hw'⟩ := ih hu
      exact ⟨_, _, hw'.snoc e⟩
  constructor
  · intro hw
    induction hw with
    | nil u => exact .nil u
    | snoc hw e ih => exact (ih hu htr).snoc ((h _ (htr hw) _ _).1 e)
  · intro hw
    induction hw with
    | nil u => exact .nil u
    | snoc hw e ih => exact (ih hu htr).snoc ((h _ (htr (ih hu htr)) _ _).2 e)

/-- weighted distances from `s`, and whether they are defined, depend only on what is reachable from
`s` -/
theorem bellman_ford_local {G H : Graph K α} (hG : G.WF) (hH : H.WF) (sG : G.directed = false → G.Symm)
    (sH : H.directed = false → H.Symm) {iso iso' : Option α} (hiso : IsoValid G iso) (hiso' : IsoValid H iso')
    (fdiv : α → α → Int) {s : K} (hs : G.Node s) (hs' : H.Node s)
    (h : ∀ u, WReach G.WEdge s u → ∀ v w, G.WEdge u v w ↔ H.WEdge u v w) :
    (singleSourceBF G iso fdiv s none = .error .unbounded ∧ singleSourceBF H iso' fdiv s none = .error .unbounded) ∨
    ∃ r q, singleSourceBF G iso fdiv s none = .ok r ∧ singleSourceBF H iso' fdiv s none = .ok q ∧
      ∀ u, G.view r u = H.view q u := by
  have h0 : WReach G.WEdge s s := ⟨0, 0, .nil s⟩
  have hr : ∀ u, WReach G.WEdge s u ↔ WReach H.WEdge s u := fun u =>
    exists_congr fun k => exists_congr fun c => wwalk_local h h0
  have hd : ∀ u d, IsWDist G.WEdge s d u ↔ IsWDist H.WEdge s d u := fun u d => by
    unfold IsWDist
    simp only [wwalk_local h h0]
  have hn : NegCycleFrom G.WEdge s ↔ NegCycleFrom H.WEdge s := by
    unfold NegCycleFrom NegCycleAt
    refine exists_congr fun x => ?_
    rw [← hr]
    exact and_congr_right fun hx => exists_congr fun k => exists_congr fun c => by rw [wwalk_local h hx]
  rcases single_source_bellman_ford_path_length_correct hG sG hiso fdiv hs with ⟨n1, e1⟩ | ⟨n1, r, e1, er⟩ <;>
    rcases single_source_bellman_ford_path_length_correct hH sH hiso' fdiv hs' with ⟨n2, e2⟩ | ⟨n2, q, e2, eq⟩
  · exact .inl ⟨e1, e2⟩
  · exact absurd (hn.1 n1) n2
  · exact absurd (hn.2 n2) n1
  · exact .inr ⟨r, q, e1, e2, fun u => opt_ext' fun d => by rw [er, eq, hd]⟩

/-! ## concrete graphs -/

namespace Ex

/-- 1 → 2 → 3 and, out of reach, 7 → 1 with a negative cycle 7 ⇄ 8 -/
def near : Graph Nat Int where
  n := 5
  A := _root_.Ex.ofTriples 5 [(0,1,4),(1,2,-1),(3,0,1),(3,4,-1),(4,3,-1)]
  keyToId := [(1,0),(2,1),(3,2),(7,3),(8,4)]
  directed := true

/-- 1 → 2 → 3 and nothing else, numbered differently -/
def nearOnly : Graph Nat Int where
  n := 3
  A := _root_.Ex.ofTriples 3 [(2,1,4),(1,0,-1)]
  keyToId := [(3,0),(2,1),(1,2)]
  directed := true

theorem near_wf : near.WF := ⟨by decide, by decide⟩
theorem nearOnly_wf : nearOnly.WF := ⟨by decide, by decide⟩

/-- the hypotheses of `searches_local`, `ego_graph_local` and `bellman_ford_local` -/
theorem near_same : ∀ u, WReach near.WEdge 1 u → ∀ v w, near.WEdge u v w ↔ nearOnly.WEdge u v w := by
  have h1 : ∀ u ∈ ([1,2,3] : List Nat), ∀ v ∈ near.nodes, near.Edge u v → v ∈ ([1,2,3] : List Nat) := by decide
  have h2 : ∀ u ∈ ([1,2,3] : List Nat), ∀ v ∈ near.nodes, near.weight? u v = nearOnly.weight? u v := by decide
  have h3 : ∀ v ∈ nearOnly.nodes, v ∈ near.nodes := by decide
  have hclosed : ∀ k c s u, WWalk near.WEdge k c s u → s ∈ ([1,2,3] : List Nat) → u ∈ ([1,2,3] : List Nat) := by
    intro k c s u hw
    induction hw with
    | nil => exact id
    | snoc _ e ih =>
      intro hs
      have hE := edge_iff_wedge.2 ⟨_, e⟩
      exact h1 _ (ih hs) _ hE.node_right hE
  rintro u ⟨k, c, hw⟩ v w
  have hu := hclosed _ _ _ _ hw (by decide)
  rw [← weight?_eq_some near_wf, ← weight?_eq_some nearOnly_wf]
  constructor
  · intro e
    have hv : v ∈ near.nodes := (edge_iff_wedge.2 ⟨_, (weight?_eq_some near_wf).1 e⟩ : near.Edge u v).node_right
    rw [← h2 u hu v hv]; exact e
  · intro e
    have hv : v ∈ nearOnly.nodes :=
      (edge_iff_wedge.2 ⟨_, (weight?_eq_some nearOnly_wf).1 e⟩ : nearOnly.Edge u v).node_right
    rw [h2 u hu v (h3 v hv)]; exact e

example : singleSourceBF near none (fun x c => x / c) 7 none = .error .unbounded := by decide +kernel

/-- and on these graphs the theorem gives what the computation gives -/
example : bellmanFordPathLength near none 1 3 = .ok 3 ∧ bellmanFordPathLength nearOnly none 1 3 = .ok 3 := by
  constructor <;> decide +kernel

/-- corner 0 of the triangle has the same surroundings with and without the tail at corner 2 -/
example : SameAround tri.Edge triTail.Edge 0 := by
  have h1 : ∀ v ∈ triTail.nodes, tri.Edge 0 v ↔ triTail.Edge 0 v := by decide
  have h2 : ∀ v ∈ tri.nodes, ∀ w ∈ tri.nodes, tri.Edge 0 v → tri.Edge 0 w → (tri.Edge v w ↔ triTail.Edge v w) := by
    decide
  have h3 : ∀ v ∈ tri.nodes, v ∈ triTail.nodes := by decide
  refine ⟨fun v => ⟨fun e => (h1 v (h3 v e.node_right)).1 e, fun e => (h1 v e.node_right).2 e⟩, fun v w e e' => ?_⟩
  exact h2 v e.node_right w e'.node_right e e'

/-- the triangle with a fourth, isolated node -/
def triIso : Graph Nat Int where
  n := 4
  A := _root_.Ex.ofTriples 4 [(0,1,1),(1,0,1),(1,2,1),(2,1,1),(0,2,1),(2,0,1)]
  keyToId := [(0,0),(1,1),(2,2),(9,3)]

example : SameEdges tri triIso := by
  have h1 : ∀ u ∈ triIso.nodes, ∀ v ∈ triIso.nodes, tri.Edge u v ↔ triIso.Edge u v := by decide
  have h3 : ∀ v ∈ tri.nodes, v ∈ triIso.nodes := by decide
  exact fun u v => ⟨fun e => (h1 u (h3 u e.node_left) v (h3 v e.node_right)).1 e,
    fun e => (h1 u e.node_left v e.node_right).2 e⟩

end Ex

end Props
