import Verif.Proofs.Relabel
import Verif.Props.Bfs
import Verif.Props.BellmanFord
import Verif.Props.FloydWarshall

/-!
# C81 Results do not depend on node names or on the internal numbering: traversals and shortest paths

`Relabels f G H` (Proofs/Relabel.lean): `H` is `G` with the nodes renamed by `f`, stored with any
numbering.  With `f = id` the two objects are the same graph built in different node orders.
-/

open GB Spec Model Model.Graph Proofs

namespace Props

variable {K K' α : Type} [DecidableEq K] [DecidableEq K'] {f : K → K'} {G : Graph K α} {H : Graph K' α}

/-- the two node maps hold the same values at corresponding nodes -/
def SameMap {β : Type} (f : K → K') (G : Graph K α) (H : Graph K' α) (r : Vec G.n β) (s : Vec H.n β) : Prop :=
  ∀ u, H.view s (f u) = G.view r u

/-- the two node sets hold corresponding nodes -/
def SameSet {β : Type} (f : K → K') (G : Graph K α) (H : Graph K' α) (r : Vec G.n β) (s : Vec H.n β) : Prop :=
  ∀ u, (H.view s (f u)).isSome ↔ (G.view r u).isSome

theorem Agree.errors {A B : Type} {rel : A → B → Prop} {x : Except Err A} {y : Except Err B} {e : Err}
    (hx : x = .error e) (hy : y = .error e) : Agree rel x y := by rw [hx, hy]; exact rfl

theorem Agree.oks {A B : Type} {rel : A → B → Prop} {x : Except Err A} {y : Except Err B} {a b}
    (hx : x = .ok a) (hy : y = .ok b) (h : rel a b) : Agree rel x y := by rw [hx, hy]; exact h

theorem Agree.of_eq {A : Type} {x y : Except Err A} (h : x = y) : Agree Eq x y := by
  rw [h]; cases y <;> exact rfl

/-- agreement with equality is equality -/
theorem agree_eq {A : Type} {x y : Except Err A} : Agree Eq x y ↔ x = y := by
  refine ⟨fun h => ?_, Agree.of_eq⟩
  cases x <;> cases y <;> simp_all [Agree]

theorem sameMap_of {β : Type} {r : Vec G.n β} {s : Vec H.n β} {P : K → β → Prop} {Q : K' → β → Prop}
    (hr : ∀ u d, G.view r u = some d ↔ P u d) (hs : ∀ x d, H.view s x = some d ↔ Q x d)
    (hPQ : ∀ u d, Q (f u) d ↔ P u d) : SameMap f G H r s := by
  intro u
  apply Option.ext
  intro d
  show H.view s (f u) = some d ↔ G.view r u = some d
  rw [hr, hs, hPQ]

/-- **C81.** `single_source_shortest_path_length` -/
theorem relabel_single_source_shortest_path_length (h : Relabels f G H) (hG : G.WF) (hH : H.WF) (s : K)
    (c : Option Int) (hc : ∀ x, c = some x → 0 ≤ x) :
    Agree (SameMap f G H) (singleSourceSPL G s c) (singleSourceSPL H (f s) c) := by
  by_cases hs : G.Node s
  · obtain ⟨r, e, hr⟩ := single_source_shortest_path_length_correct hG hs c hc
    obtain ⟨r', e', hr'⟩ := single_source_shortest_path_length_correct hH ((Relabel.node' h).2 hs) c hc
    exact Agree.oks e e' (sameMap_of hr hr' fun u d => by rw [Relabel.isDist h])
  · exact Agree.errors (single_source_shortest_path_length_missing hG hs c)
      (single_source_shortest_path_length_missing hH (fun h' => hs ((Relabel.node' h).1 h')) c)

/-- **C81.** `single_target_shortest_path_length` -/
theorem relabel_single_target_shortest_path_length (h : Relabels f G H) (hG : G.WF) (hH : H.WF)
    (hsym : G.directed = false → G.Symm) {t : K} (ht : G.Node t)
    (c : Option Int) (hc : ∀ x, c = some x → 0 ≤ x) :
    Agree (SameMap f G H) (singleTargetSPL G t c) (singleTargetSPL H (f t) c) := by
  obtain ⟨r, e, hr⟩ := single_target_shortest_path_length_correct hG hsym ht c hc
  obtain ⟨r', e', hr'⟩ := single_target_shortest_path_length_correct hH
    (fun hd => Relabel.symm h hH (hsym (h.directed ▸ hd))) ((Relabel.node' h).2 ht) c hc
  exact Agree.oks e e' (sameMap_of hr hr' fun u d => by rw [Relabel.isDist h, Relabel.node' h])

/-- **C81.** `all_pairs_shortest_path_length`: both yield every source once, with agreeing results, for any
two chunk sizes -/
theorem relabel_all_pairs_shortest_path_length (h : Relabels f G H) (hG : G.WF) (hH : H.WF)
    (c : Option Int) (hc : ∀ x, c = some x → 0 ≤ x) (chunksize chunksize' : Option Int) :
    ∃ L L', allPairsSPL G c chunksize = .ok L ∧ allPairsSPL H c chunksize' = .ok L' ∧
      (L'.map Prod.fst).Perm (L.map fun p => f p.1) ∧
      ∀ p ∈ L, ∀ p' ∈ L', p'.1 = f p.1 → SameMap f G H p.2 p'.2 := by
  obtain ⟨L, e, hp, hL⟩ := all_pairs_shortest_path_length_chunksize_independent hG c chunksize
  obtain ⟨L', e', hp', hL'⟩ := all_pairs_shortest_path_length_chunksize_independent hH c chunksize'
  refine ⟨L, L', e, e', ?_, ?_⟩
  · refine hp'.trans ((Relabel.nodes_perm h hG hH).trans ?_)
    have := (hp.map f).symm
    rw [List.map_map (l := L)] at this
    exact this
  · intro p hp p' hp' hpp
    have := relabel_single_source_shortest_path_length h hG hH p.1 c hc
    rw [hL p hp, ← hpp, hL' p' hp'] at this
    exact this

/-- **C81.** `bidirectional_shortest_path_length` and `has_path` -/
theorem relabel_bidirectional_shortest_path_length (h : Relabels f G H) (hG : G.WF) (hH : H.WF) (s t : K) :
    bidirectionalSPL H (f s) (f t) = bidirectionalSPL G s t ∧ hasPath H (f s) (f t) = hasPath G s t := by
  have key : bidirectionalSPL H (f s) (f t) = bidirectionalSPL G s t := by
    by_cases hst : G.Node s ∧ G.Node t
    · have c := bidirectional_shortest_path_length_correct hG hst.1 hst.2
      have c' := bidirectional_shortest_path_length_correct hH ((Relabel.node' h).2 hst.1)
        ((Relabel.node' h).2 hst.2)
      rw [Relabel.reach h] at c'
      simp only [Relabel.isDist h] at c'
      rcases c with ⟨d, hd, e⟩ | ⟨hn, e⟩ <;> rcases c' with ⟨d', hd', e'⟩ | ⟨hn', e'⟩
      · rw [e, e', Nat.le_antisymm (hd.2 _ hd'.1) (hd'.2 _ hd.1)]
      · exact absurd ⟨_, hd.1⟩ hn'
      · exact absurd ⟨_, hd'.1⟩ hn
      · rw [e, e']
    · rw [bidirectional_shortest_path_length_missing (G := G) (by tauto),
        bidirectional_shortest_path_length_missing (G := H) (by rw [Relabel.node' h, Relabel.node' h]; tauto)]
  refine ⟨key, ?_⟩
  unfold hasPath
  rw [key]

/-- **C81.** `efficiency` -/
theorem relabel_efficiency {F : Type} [DivisionRing F] (h : Relabels f G H) (hG : G.WF) (hH : H.WF) (s t : K) :
    efficiency (F := F) H (f s) (f t) = efficiency G s t := by
  unfold efficiency
  rw [(relabel_bidirectional_shortest_path_length h hG hH s t).1]

/-- **C81.** `descendants` -/
theorem relabel_descendants (h : Relabels f G H) (hG : G.WF) (hH : H.WF) (s : K) :
    Agree (SameSet f G H) (descendants G s) (descendants H (f s)) := by
  by_cases hs : G.Node s
  · obtain ⟨r, e, hr⟩ := descendants_correct hG hs
    obtain ⟨r', e', hr'⟩ := descendants_correct hH ((Relabel.node' h).2 hs)
    refine Agree.oks e e' fun u => ?_
    rw [hr, hr', Relabel.reach h, ne_eq, h.inj.eq_iff]
  · exact Agree.errors (descendants_ancestors_missing hG hs).1
      (descendants_ancestors_missing hH (fun h' => hs ((Relabel.node' h).1 h'))).1

/-- **C81.** `ancestors` -/
theorem relabel_ancestors (h : Relabels f G H) (hG : G.WF) (hH : H.WF)
    (hsym : G.directed = false → G.Symm) (s : K) :
    Agree (SameSet f G H) (ancestors G s) (ancestors H (f s)) := by
  by_cases hs : G.Node s
  · obtain ⟨r, e, hr⟩ := ancestors_correct hG hsym hs
    obtain ⟨r', e', hr'⟩ := ancestors_correct hH (fun hd => Relabel.symm h hH (hsym (h.directed ▸ hd)))
      ((Relabel.node' h).2 hs)
    refine Agree.oks e e' fun u => ?_
    rw [hr, hr', Relabel.reach h, ne_eq, h.inj.eq_iff, Relabel.node' h]
  · exact Agree.errors (descendants_ancestors_missing hG hs).2
      (descendants_ancestors_missing hH (fun h' => hs ((Relabel.node' h).1 h'))).2

/-- **C81.** `descendants_at_distance` -/
theorem relabel_descendants_at_distance (h : Relabels f G H) (hG : G.WF) (hH : H.WF) {s : K} (hs : G.Node s)
    (d : Nat) : Agree (SameSet f G H) (descendantsAtDistance G s d) (descendantsAtDistance H (f s) d) := by
  obtain ⟨r, e, hr⟩ := descendants_at_distance_correct hG hs d
  obtain ⟨r', e', hr'⟩ := descendants_at_distance_correct hH ((Relabel.node' h).2 hs) d
  refine Agree.oks e e' fun u => ?_
  rw [hr, hr', Relabel.isDist h]

/-- **C81.** `bfs_layers`: the same number of layers, layer by layer the same nodes -/
theorem relabel_bfs_layers (h : Relabels f G H) (hG : G.WF) (hH : H.WF) {sources : List K}
    (hne : sources ≠ []) (hn : ∀ u ∈ sources, G.Node u) :
    Agree (fun L L' => L'.length = L.length ∧
        ∀ (t : Nat) x x', L[t]? = some x → L'[t]? = some x' → SameSet f G H x x')
      (bfsLayers G sources) (bfsLayers H (sources.map f)) := by
  have hn' : ∀ u ∈ sources.map f, H.Node u := by
    intro u hu
    obtain ⟨v, hv, rfl⟩ := List.mem_map.1 hu
    exact (Relabel.node' h).2 (hn v hv)
  obtain ⟨L, e, hL, hlen⟩ := bfs_layers_correct hG hne hn
  obtain ⟨L', e', hL', hlen'⟩ := bfs_layers_correct hH (by simpa using hne) hn'
  refine Agree.oks e e' ⟨?_, ?_⟩
  · apply Nat.le_antisymm
    · by_contra hlt
      have hlt : L.length < L'.length := by omega
      obtain ⟨hx, x, hx'⟩ := hL' L.length _ (List.getElem?_eq_getElem hlt)
      rw [hx] at hx'
      obtain ⟨⟨s, hs, hw⟩, hm⟩ := id hx'
      obtain ⟨s, hs', rfl⟩ := List.mem_map.1 hs
      obtain ⟨v, rfl, -⟩ := (Relabel.walk h).1 hw
      exact absurd (hlen v _ ((Relabel.isDistFrom h).1 hx')) (lt_irrefl _)
    · by_contra hlt
      have hlt : L'.length < L.length := by omega
      obtain ⟨hx, x, hx'⟩ := hL L'.length _ (List.getElem?_eq_getElem hlt)
      rw [hx] at hx'
      exact absurd (hlen' (f x) _ ((Relabel.isDistFrom h).2 hx')) (lt_irrefl _)
  · intro t x x' hx hx' u
    rw [(hL t x hx).1, (hL' t x' hx').1, Relabel.isDistFrom h]

/-- **C81.** `node_connected_component` -/
theorem relabel_node_connected_component (h : Relabels f G H) (hG : G.WF) (hH : H.WF) {s : K} (hs : G.Node s) :
    Agree (SameSet f G H) (nodeConnectedComponent G s) (nodeConnectedComponent H (f s)) := by
  obtain ⟨r, e, hr⟩ := node_connected_component_correct hG hs
  obtain ⟨r', e', hr'⟩ := node_connected_component_correct hH ((Relabel.node' h).2 hs)
  refine Agree.oks e e' fun u => ?_
  rw [hr, hr', Relabel.reach h]

omit [DecidableEq K] [DecidableEq K'] in
theorem relabel_len (h : Relabels f G H) (hG : G.WF) (hH : H.WF) : H.len = G.len := by
  have e := Relabel.length h hG hH
  have : ∀ {K : Type} {G : Graph K α}, G.WF → G.nodes.length = G.n := by
    intro K G hG
    have := hG.ids_perm.length_eq
    simpa [Graph.nodes] using this
  rw [this hG, this hH] at e
  exact e

/-- **C81.** `is_connected` -/
theorem relabel_is_connected (h : Relabels f G H) (hG : G.WF) (hH : H.WF) (hsym : G.Symm) :
    isConnected H = isConnected G := by
  have c := is_connected_correct hG hsym
  have c' := is_connected_correct hH (Relabel.symm h hH hsym)
  rw [relabel_len h hG hH] at c'
  rcases c with ⟨h0, e⟩ | ⟨h0, b, e, hb⟩ <;> rcases c' with ⟨h0', e'⟩ | ⟨h0', b', e', hb'⟩
  · rw [e, e']
  · exact absurd h0 h0'
  · exact absurd h0' h0
  · rw [e, e']
    congr 1
    rw [Bool.eq_iff_iff, hb, hb']
    constructor
    · intro hh u v hu hv
      exact (Relabel.reach h).1 (hh _ _ ((Relabel.node' h).2 hu) ((Relabel.node' h).2 hv))
    · intro hh x y hx hy
      obtain ⟨u, hu, rfl⟩ := (h.node x).1 hx
      obtain ⟨v, hv, rfl⟩ := (h.node y).1 hy
      exact (Relabel.reach h).2 (hh u v hu hv)

/-- **C81.** `is_weakly_connected` -/
theorem relabel_is_weakly_connected (h : Relabels f G H) (hG : G.WF) (hH : H.WF) :
    isWeaklyConnected H = isWeaklyConnected G := by
  have c := is_weakly_connected_correct hG
  have c' := is_weakly_connected_correct hH
  rw [relabel_len h hG hH] at c'
  rcases c with ⟨h0, e⟩ | ⟨h0, b, e, hb⟩ <;> rcases c' with ⟨h0', e'⟩ | ⟨h0', b', e', hb'⟩
  · rw [e, e']
  · exact absurd h0 h0'
  · exact absurd h0' h0
  · rw [e, e']
    congr 1
    rw [Bool.eq_iff_iff, hb, hb']
    constructor
    · intro hh u v hu hv
      exact (Relabel.sym_reach h).1 (hh _ _ ((Relabel.node' h).2 hu) ((Relabel.node' h).2 hv))
    · intro hh x y hx hy
      obtain ⟨u, hu, rfl⟩ := (h.node x).1 hx
      obtain ⟨v, hv, rfl⟩ := (h.node y).1 hy
      exact (Relabel.sym_reach h).2 (hh u v hu hv)

section
variable [AddCommGroup α] [LinearOrder α] [IsOrderedAddMonoid α]

omit [DecidableEq K] [DecidableEq K'] [IsOrderedAddMonoid α] in
theorem isoValid_relabel (h : Relabels f G H) {iso : Option α} (hi : IsoValid G iso) : IsoValid H iso := by
  intro c hc x y w e
  obtain ⟨u, v, rfl, rfl, e'⟩ := Relabel.wedge_exists h e
  exact hi c hc u v w e'

/-- **C81.** `single_source_bellman_ford_path_length` -/
theorem relabel_single_source_bellman_ford (h : Relabels f G H) (hG : G.WF) (hH : H.WF)
    (hsym : G.directed = false → G.Symm) {iso : Option α} (hi : IsoValid G iso) (fdiv : α → α → Int) (s : K) :
    Agree (SameMap f G H) (singleSourceBF G iso fdiv s none) (singleSourceBF H iso fdiv (f s) none) := by
  by_cases hs : G.Node s
  · have c := single_source_bellman_ford_path_length_correct hG hsym hi fdiv hs
    have c' := single_source_bellman_ford_path_length_correct hH
      (fun hd => Relabel.symm h hH (hsym (h.directed ▸ hd))) (isoValid_relabel h hi) fdiv
      ((Relabel.node' h).2 hs)
    rw [Relabel.negCycleFrom h] at c'
    rcases c with ⟨hn, e⟩ | ⟨hn, r, e, hr⟩ <;> rcases c' with ⟨hn', e'⟩ | ⟨hn', r', e', hr'⟩
    · exact Agree.errors e e'
    · exact absurd hn hn'
    · exact absurd hn' hn
    · exact Agree.oks e e' (sameMap_of hr hr' fun u d => by rw [Relabel.isWDist h])
  · exact Agree.errors (single_source_bellman_ford_path_length_missing hG fdiv hs none)
      (single_source_bellman_ford_path_length_missing hH fdiv (fun h' => hs ((Relabel.node' h).1 h')) none)

/-- **C81.** with a cutoff -/
theorem relabel_single_source_bellman_ford_cutoff (h : Relabels f G H) (hG : G.WF) (hH : H.WF)
    {iso : Option α} (hi : IsoValid G iso) (h0 : iso ≠ some 0) {fdiv : α → α → Int} (hf : FloorDiv fdiv)
    (hnn : ∀ u v w, G.WEdge u v w → 0 ≤ w) {s : K} (hs : G.Node s) {x : α} (hx : 0 ≤ x)
    (hpos : ∀ c, iso = some c → 0 ≤ c) :
    Agree (SameMap f G H) (singleSourceBF G iso fdiv s (some x)) (singleSourceBF H iso fdiv (f s) (some x)) := by
  obtain ⟨r, e, hr⟩ := single_source_bellman_ford_path_length_cutoff hG hi h0 hf hnn hs hx hpos
  obtain ⟨r', e', hr'⟩ := single_source_bellman_ford_path_length_cutoff hH (isoValid_relabel h hi) h0 hf
    (by
      intro a b w e
      obtain ⟨u, v, rfl, rfl, e'⟩ := Relabel.wedge_exists h e
      exact hnn u v w e') ((Relabel.node' h).2 hs) hx hpos
  exact Agree.oks e e' (sameMap_of hr hr' fun u d => by rw [Relabel.isWDist h])

/-- **C81.** `bellman_ford_path_length` when no negative cycle is reachable from the source -/
theorem relabel_bellman_ford_path_length (h : Relabels f G H) (hG : G.WF) (hH : H.WF)
    (hsym : G.directed = false → G.Symm) {iso : Option α} (hi : IsoValid G iso) (s t : K)
    (hno : ¬ NegCycleFrom G.WEdge s) :
    bellmanFordPathLength H iso (f s) (f t) = bellmanFordPathLength G iso s t := by
  by_cases hst : G.Node s ∧ G.Node t
  · have c := bellman_ford_path_length_correct_partial hG hsym hi hst.1 hst.2 hno
    have c' := bellman_ford_path_length_correct_partial hH
      (fun hd => Relabel.symm h hH (hsym (h.directed ▸ hd))) (isoValid_relabel h hi)
      ((Relabel.node' h).2 hst.1) ((Relabel.node' h).2 hst.2) (by rwa [Relabel.negCycleFrom h])
    simp only [Relabel.isWDist h, Relabel.wreach h] at c'
    rcases c with ⟨d, hd, e⟩ | ⟨hn, e⟩ <;> rcases c' with ⟨d', hd', e'⟩ | ⟨hn', e'⟩
    · obtain ⟨k, hk⟩ := hd.1
      obtain ⟨k', hk'⟩ := hd'.1
      rw [e, e', le_antisymm (hd.2 _ _ hk') (hd'.2 _ _ hk)]
    · obtain ⟨k, hk⟩ := hd.1
      exact absurd ⟨_, _, hk⟩ hn'
    · obtain ⟨k, hk⟩ := hd'.1
      exact absurd ⟨_, _, hk⟩ hn
    · rw [e, e']
  · rw [bellman_ford_path_length_missing hG (by tauto),
      bellman_ford_path_length_missing hH (by rw [Relabel.node' h, Relabel.node' h]; tauto)]

/-- **C81.** `negative_edge_cycle` -/
theorem relabel_negative_edge_cycle (h : Relabels f G H) (hG : G.WF) (hH : H.WF)
    (hsym : G.directed = false → G.Symm) : negativeEdgeCycle H = negativeEdgeCycle G := by
  rw [Bool.eq_iff_iff, negative_edge_cycle_correct hG hsym,
    negative_edge_cycle_correct hH (fun hd => Relabel.symm h hH (hsym (h.directed ▸ hd)))]
  constructor
  · rintro ⟨x, hx, hn⟩
    obtain ⟨u, hu, rfl⟩ := (h.node x).1 hx
    exact ⟨u, hu, (Relabel.negCycleAt h).1 hn⟩
  · rintro ⟨u, hu, hn⟩
    exact ⟨f u, (Relabel.node' h).2 hu, (Relabel.negCycleAt h).2 hn⟩

/-- **C81.** `floyd_warshall` distances (no negative cycle), and hop counts -/
theorem relabel_floyd_warshall (h : Relabels f G H) (hG : G.WF) (hH : H.WF)
    (hsym : G.directed = false → G.Symm) (hno : ∀ u, G.Node u → ¬ NegCycleAt G.WEdge u)
    (choose : α → α → α) (u v : K) :
    H.view2 (fwDist H.directed choose H.A) (f u) (f v) = G.view2 (fwDist G.directed choose G.A) u v := by
  apply Option.ext
  intro d
  show _ = some d ↔ _ = some d
  rw [floyd_warshall_correct hG hsym hno, floyd_warshall_correct hH
    (fun hd => Relabel.symm h hH (hsym (h.directed ▸ hd)))]
  · rw [Relabel.node' h, Relabel.node' h, Relabel.isWDist h]
  · intro x hx hn
    obtain ⟨u, hu, rfl⟩ := (h.node x).1 hx
    exact hno u hu ((Relabel.negCycleAt h).1 hn)

end

/-- the graph `G` renamed by `f` and renumbered by the permutation `σ` -/
def relabelled (f : K → K') (G : Graph K α) (σ : Equiv.Perm (Fin G.n)) : Graph K' α where
  n := G.n
  A := fun i j => G.A (σ.symm i) (σ.symm j)
  keyToId := G.keyToId.map fun p => (f p.1, if h : p.2 < G.n then (σ ⟨p.2, h⟩).val else p.2)
  directed := G.directed
  multi := G.multi

omit [DecidableEq K] [DecidableEq K'] in
/-- **C81, the hypothesis is met**: every graph, injective renaming and renumbering gives a relabelled graph. -/
theorem relabels_relabelled (hf : Function.Injective f) (hG : G.WF) (σ : Equiv.Perm (Fin G.n)) :
    Relabels f G (relabelled f G σ) ∧ (relabelled f G σ).WF := by
  have hlt : ∀ p ∈ G.keyToId, p.2 < G.n := by
    intro p hp
    have := hG.ids_perm.mem_iff.1 (List.mem_map_of_mem (f := Prod.snd) hp)
    simpa using this
  have at' : ∀ u (i : Fin G.n), (relabelled f G σ).At (f u) i ↔ G.At u (σ.symm i) := by
    intro u i
    unfold Graph.At
    show (f u, i.val) ∈ G.keyToId.map _ ↔ _
    rw [List.mem_map]
    constructor
    · rintro ⟨⟨v, m⟩, hp, e⟩
      have hm := hlt _ hp
      simp only [Prod.mk.injEq, dif_pos hm] at e
      obtain ⟨e1, e2⟩ := e
      rw [← hf e1]
      have : σ.symm i = ⟨m, hm⟩ := by rw [Equiv.symm_apply_eq]; exact Fin.ext e2.symm
      rw [this]; exact hp
    · intro hp
      exact ⟨_, hp, by simp⟩
  refine ⟨⟨hf, rfl, rfl, ?_, ?_⟩, ⟨?_, ?_⟩⟩
  · intro x
    show x ∈ (G.keyToId.map _).map Prod.fst ↔ ∃ u, u ∈ G.keyToId.map Prod.fst ∧ f u = x
    simp only [List.mem_map]
    constructor
    · rintro ⟨_, ⟨p, hp, rfl⟩, rfl⟩; exact ⟨p.1, ⟨p, hp, rfl⟩, rfl⟩
    · rintro ⟨_, ⟨p, hp, rfl⟩, rfl⟩; exact ⟨_, ⟨p, hp, rfl⟩, rfl⟩
  · intro u v w
    constructor
    · rintro ⟨i, j, hi, hj, e⟩
      exact ⟨σ.symm i, σ.symm j, (at' u i).1 hi, (at' v j).1 hj, e⟩
    · rintro ⟨i, j, hi, hj, e⟩
      refine ⟨σ i, σ j, (at' u _).2 ?_, (at' v _).2 ?_, ?_⟩
      · rw [Equiv.symm_apply_apply]; exact hi
      · rw [Equiv.symm_apply_apply]; exact hj
      · show G.A (σ.symm (σ i)) (σ.symm (σ j)) = _
        rw [Equiv.symm_apply_apply, Equiv.symm_apply_apply]; exact e
  · show ((G.keyToId.map _).map Prod.fst).Nodup
    rw [List.map_map]
    have := hG.keys_nodup.map hf
    rw [List.map_map] at this
    exact this
  · show ((G.keyToId.map _).map Prod.snd).Perm (List.range G.n)
    rw [List.map_map]
    have h1 := hG.ids_perm.map (fun m => if h : m < G.n then (σ ⟨m, h⟩).val else m)
    rw [List.map_map] at h1
    refine h1.trans ?_
    rw [← List.map_coe_finRange_eq_range, List.map_map]
    have h2 : ((List.finRange G.n).map σ).Perm (List.finRange G.n) := by
      refine (List.perm_ext_iff_of_nodup ((List.nodup_finRange _).map σ.injective) (List.nodup_finRange _)).2 ?_
      intro i; simp only [List.mem_finRange, List.mem_map, iff_true, true_and]
      exact ⟨σ.symm i, by simp⟩
    have h3 := h2.map Fin.val
    rw [List.map_map] at h3
    refine List.Perm.trans (List.Perm.of_eq ?_) h3
    refine List.map_congr_left fun i _ => ?_
    simp

example : (relabelled (· + 1) _root_.Ex.dg (Fin.revPerm (n := 4))).keyToId =
      [(11, 1), (21, 3), (31, 2), (41, 0)] ∧
    bidirectionalSPL (relabelled (· + 1) _root_.Ex.dg (Fin.revPerm (n := 4))) 11 31 = .ok 2 := by
  decide +kernel

end Props
