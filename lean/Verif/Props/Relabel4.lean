import Verif.Props.Relabel2
import Verif.Props.Relabel3
import Verif.Props.RelabelBf
import Verif.Props.ExactMisc
import Verif.Props.Operators
import Verif.Props.OperatorsErr
import Verif.Props.Ego
import Verif.Props.Linalg
import Verif.Props.Google
import Verif.Props.Degenerate
import Verif.Props.ClusterLoops

/-!
# C82 (every argument), C111 Graph-valued and matrix-valued results do not depend on names or numbering
-/

open GB Spec Model Model.Graph Proofs Proofs.Cluster

namespace Props

variable {K K' α : Type} [DecidableEq K] [DecidableEq K'] {f : K → K'} {G : Graph K α} {H : Graph K' α}

/-- **C82.** `tournament_matrix`: entries at corresponding nodes are equal, present or not -/
theorem relabel_tournament_matrix [AddCommGroup α] (h : Relabels f G H) (hG : G.WF) (hH : H.WF) (u v : K) :
    H.view2 (tournamentMatrix H) (f u) (f v) = G.view2 (tournamentMatrix G) u v := by
  have key : ∀ {L : Type} [DecidableEq L] {Q : Graph L α} (_ : Q.WF) (x y : L), Q.view2 (tournamentMatrix Q) x y =
      ounion (fun a b => a - b) 0 0 (Q.weight? x y) (Q.weight? y x) := by
    intro L _ Q hQ x y
    by_cases hx : Q.Node x
    · by_cases hy : Q.Node y
      · obtain ⟨i, rfl⟩ := exists_keyFn hQ hx
        obtain ⟨j, rfl⟩ := exists_keyFn hQ hy
        rw [weight?_keyFn, weight?_keyFn]
        unfold Graph.view2
        rw [(idOf_eq_some hQ).2 (keyFn_at hQ i), (idOf_eq_some hQ).2 (keyFn_at hQ j)]
        rfl
      · have e1 : Q.weight? x y = none := by unfold Graph.weight?; rw [(idOf_eq_none hQ).2 hy]; simp
        have e2 : Q.weight? y x = none := by unfold Graph.weight?; rw [(idOf_eq_none hQ).2 hy]; simp
        rw [e1, e2]; unfold Graph.view2; rw [(idOf_eq_none hQ).2 hy]; simp [ounion]
    · have e1 : Q.weight? x y = none := by unfold Graph.weight?; rw [(idOf_eq_none hQ).2 hx]; simp
      have e2 : Q.weight? y x = none := by unfold Graph.weight?; rw [(idOf_eq_none hQ).2 hx]; simp
      rw [e1, e2]; unfold Graph.view2; rw [(idOf_eq_none hQ).2 hx]; simp [ounion]
  rw [key hG, key hH, Relabel.weight h hG hH, Relabel.weight h hG hH]

/-- **C82.** `is_k_regular` of any graph, for any `k` -/
theorem relabel_is_k_regular_all (h : Relabels f G H) (hG : G.WF) (hH : H.WF) (k : Int) :
    isKRegular H k = isKRegular G k := by
  obtain ⟨e1, e2⟩ := is_k_regular_exact hG k
  obtain ⟨e1', e2'⟩ := is_k_regular_exact hH k
  cases hd : G.directed with
  | true => rw [e1 hd, e1' (h.directed.trans hd)]
  | false =>
    obtain ⟨b, e, hb⟩ := e2 hd
    obtain ⟨b', e', hb'⟩ := e2' (h.directed.trans hd)
    rw [e, e']
    congr 1
    rw [Bool.eq_iff_iff, hb, hb']
    have hl : H.nodes = [] ↔ G.nodes = [] := by
      rw [← List.length_eq_zero_iff, ← List.length_eq_zero_iff, Relabel.length h hG hH]
    rw [hl]
    refine and_congr_left fun _ => ?_
    constructor
    · intro hh u hu
      have := hh (f u) ((Relabel.node' h).2 hu)
      rwa [Relabel.outDeg h hG hH] at this
    · intro hh x hx
      obtain ⟨u, hu, rfl⟩ := (h.node x).1 hx
      rw [Relabel.outDeg h hG hH]; exact hh u hu

/-- **C82.** `cut_size` with the second set omitted -/
theorem relabel_cut_size_complement [AddCommMonoid α] (h : Relabels f G H) (hG : G.WF) (hH : H.WF)
    (hs : G.directed = false → G.Symm) (S : List K) :
    cutSize H (S.map f) none = cutSize G S none ∧ cutSizeWeighted H (S.map f) none = cutSizeWeighted G S none := by
  have hS := mem_map_iff h.inj S
  cases hd : G.directed with
  | true =>
    have hd' := h.directed.trans hd
    rw [cut_size_directed_without_target hG hd, cut_size_directed_without_target hH hd',
      cut_size_weighted_directed_without_target hG hd, cut_size_weighted_directed_without_target hH hd']
    exact ⟨rfl, rfl⟩
  | false =>
    have hd' := h.directed.trans hd
    have sG := hs hd
    have sH := Relabel.symm h hH sG
    rw [cut_size_complement hG sG hd, cut_size_complement hH sH hd', cut_size_weighted_complement hG sG hd,
      cut_size_weighted_complement hH sH hd',
      edgesFromTo_relabel h hG hH _ _ _ _ hS (fun u => not_congr (hS u)),
      weightFromTo_relabel h hG hH _ _ _ _ hS (fun u => not_congr (hS u))]
    exact ⟨rfl, rfl⟩

/-! ### C112 unknown nodes -/

/-- **C112.** Every function that takes a list of nodes through `list_to_mask`, `list_to_vector` or `list_to_ids`
raises KeyError if a single member of the list is not a node, whatever else is in the list (`average_clustering` of a
graph without nodes divides by zero first; `reciprocity` refuses undirected graphs first). -/
theorem unknown_nodes_rejected [AddCommMonoid α] (h : G.WF) {l : List K} {u : K} (hu : u ∈ l) (hn : ¬ G.Node u) :
    triangles G (some l) = .error .keyError ∧ clustering G (some l) = .error .keyError ∧
    clusteringDirected G (some l) = .error .keyError ∧ generalizedDegree G (some l) = .error .keyError ∧
    (∀ z, G.nodes ≠ [] → averageClustering G (some l) z = .error .keyError) ∧
    (G.directed = true → reciprocityNodes G l = .error .keyError) ∧
    volume G l = .error .keyError ∧ volumeWeighted G l = .error .keyError ∧ nodeExpansion G l = .error .keyError := by
  have e1 := listToMask_error h hu hn
  have e2 := listToVector_error h hu hn
  refine ⟨triangles_missing h hu hn, ?_, ?_, ?_, fun z hne => ?_, fun hd => ?_, volume_missing h hu hn, ?_, ?_⟩
  · unfold clustering; rw [e1]; rfl
  · unfold clusteringDirected; rw [e1]; rfl
  · unfold generalizedDegree; rw [e1]; rfl
  · unfold averageClustering
    have h0 : G.n ≠ 0 := by
      rw [← nodes_length h]; simpa using hne
    rw [if_neg h0, e1]; rfl
  · unfold reciprocityNodes; rw [if_neg (by simp [hd]), e1]; rfl
  · unfold volumeWeighted; rw [e2]; rfl
  · unfold nodeExpansion; rw [e2]; rfl

/-- **C112.** the same for `square_clustering(G, nodes)` -/
theorem square_clustering_unknown {G : Graph K Int} (h : G.WF) {l : List K} {u : K} (hu : u ∈ l) (hn : ¬ G.Node u)
    (c : Option Int) : squareClusteringOf G l c = .error .keyError := by
  unfold squareClusteringOf
  rw [Proofs.Bfs.listToIds_error h hu hn]; rfl

/-- **C112.** Every function that takes one node raises KeyError if it is not a node. -/
theorem unknown_node_rejected (h : G.WF) {u : K} (hn : ¬ G.Node u) :
    singleTriangle G u = .error .keyError ∧ singleClustering G u = .error .keyError ∧
    singleClusteringDirected G u = .error .keyError ∧ singleGeneralizedDegree G u = .error .keyError ∧
    isIsolate G u = .error .keyError ∧
    (G.directed = true → reciprocityNode G u = .error .keyError) := by
  have e := getId_eq_error h hn
  refine ⟨?_, ?_, ?_, ?_, ?_, fun hd => ?_⟩
  · unfold singleTriangle; rw [e]; rfl
  · unfold singleClustering; rw [e]; rfl
  · unfold singleClusteringDirected; rw [e]; rfl
  · unfold singleGeneralizedDegree; rw [e]; rfl
  · unfold isIsolate; rw [e]; rfl
  · unfold reciprocityNode
    rw [if_neg (by simp [hd]), listToMask_error h (List.mem_singleton.2 rfl) hn]; rfl

/-! ### C82 for every list of nodes -/

omit [DecidableEq K] [DecidableEq K'] in
/-- a list of nodes, or a member that is none -/
theorem nodes_or_unknown (nodes : Option (List K)) :
    (∀ l, nodes = some l → ∀ u ∈ l, G.Node u) ∨ ∃ l u, nodes = some l ∧ u ∈ l ∧ ¬ G.Node u := by
  classical
  by_cases hn : ∀ l, nodes = some l → ∀ u ∈ l, G.Node u
  · exact Or.inl hn
  · push Not at hn
    obtain ⟨l, e, u, hu, hx⟩ := hn
    exact Or.inr ⟨l, u, e, hu, hx⟩

omit [DecidableEq K] [DecidableEq K'] in
theorem unknown_map (h : Relabels f G H) {u : K} (hn : ¬ G.Node u) : ¬ H.Node (f u) :=
  fun h' => hn ((Relabel.node' h).1 h')

/-- **C82.** `triangles`, `clustering` (undirected and directed) and `generalized_degree` for every list: lists naming
unknown nodes raise the same error -/
theorem relabel_clustering_all (h : Relabels f G H) (hG : G.WF) (hH : H.WF) (nodes : Option (List K)) :
    (G.Symm → Agree (SameMap f G H) (triangles G nodes) (triangles H (nodes.map (List.map f)))) ∧
    (G.Symm → Agree (SameMap f G H) (clustering G nodes) (clustering H (nodes.map (List.map f)))) ∧
    Agree (SameMap f G H) (clusteringDirected G nodes) (clusteringDirected H (nodes.map (List.map f))) ∧
    Agree (fun M M' => ∀ u t, genDegAt H M' (f u) t = genDegAt G M u t)
      (generalizedDegree G nodes) (generalizedDegree H (nodes.map (List.map f))) := by
  rcases nodes_or_unknown (G := G) nodes with hn | ⟨l, u, rfl, hu, hx⟩
  · exact ⟨fun hs => relabel_triangles h hG hH hs hn, fun hs => relabel_clustering h hG hH hs hn,
      relabel_clustering_directed_loops h hG hH hn, relabel_generalized_degree h hG hH hn⟩
  · have e1 := listToMask_error hG hu hx
    have e2 := listToMask_error hH (List.mem_map_of_mem (f := f) hu) (unknown_map h hx)
    refine ⟨fun _ => ?_, fun _ => ?_, ?_, ?_⟩
    · exact Agree.errors (e := .keyError) (by unfold triangles; rw [e1]; rfl)
        (by unfold triangles; rw [Option.map_some, e2]; rfl)
    · exact Agree.errors (e := .keyError) (by unfold clustering; rw [e1]; rfl)
        (by unfold clustering; rw [Option.map_some, e2]; rfl)
    · exact Agree.errors (e := .keyError) (by unfold clusteringDirected; rw [e1]; rfl)
        (by unfold clusteringDirected; rw [Option.map_some, e2]; rfl)
    · exact Agree.errors (e := .keyError) (by unfold generalizedDegree; rw [e1]; rfl)
        (by unfold generalizedDegree; rw [Option.map_some, e2]; rfl)

/-- **C82.** `volume` and `node_expansion` for every list -/
theorem relabel_volume_all [AddCommMonoid α] (h : Relabels f G H) (hG : G.WF) (hH : H.WF) (S : List K) :
    volume H (S.map f) = volume G S ∧ volumeWeighted H (S.map f) = volumeWeighted G S ∧
    nodeExpansion H (S.map f) = nodeExpansion G S := by
  rcases nodes_or_unknown (G := G) (some S) with hn | ⟨l, u, e, hu, hx⟩
  · have hS := hn S rfl
    refine ⟨(relabel_volume h hG hH hS).1, (relabel_volume h hG hH hS).2, ?_⟩
    rw [(node_expansion_correct hG S).1 hS, (node_expansion_correct hH (S.map f)).1
      (nodes_map_ok h (nodes := some S) (by rintro l ⟨⟩; exact hS) _ rfl),
      Relabel.countOf_eq h hG hH _ _ (mem_map_iff h.inj S),
      Relabel.countOf_eq h hG hH (fun v => ∃ u ∈ S.map f, H.Edge u v) (fun v => ∃ u ∈ S, G.Edge u v)
        (fun v => by simp only [List.mem_map, exists_exists_and_eq_and, Relabel.edge h])]
  · cases e
    obtain ⟨-, -, -, -, -, -, a1, a2, a3⟩ := unknown_nodes_rejected hG hu hx
    obtain ⟨-, -, -, -, -, -, b1, b2, b3⟩ :=
      unknown_nodes_rejected hH (List.mem_map_of_mem (f := f) hu) (unknown_map h hx)
    rw [a1, a2, a3, b1, b2, b3]
    exact ⟨rfl, rfl, rfl⟩

/-- **C82.** `edge_expansion` and `mixing_expansion` with the second set omitted: a digraph raises TypeError under both
names -/
theorem relabel_expansions_directed (h : Relabels f G H) (hG : G.WF) (hH : H.WF) (hd : G.directed = true) (S : List K) :
    edgeExpansion G S none = .error .typeError ∧ edgeExpansion H (S.map f) none = .error .typeError ∧
    mixingExpansion G S none = .error .typeError ∧ mixingExpansion H (S.map f) none = .error .typeError := by
  have key : ∀ {L : Type} [DecidableEq L] {Q : Graph L α} (_ : Q.WF) (_ : Q.directed = true) (S : List L),
      edgeExpansion Q S none = .error .typeError ∧ mixingExpansion Q S none = .error .typeError := by
    intro L _ Q hQ hdQ S
    obtain ⟨v, hv, -⟩ := setToVector_ok hQ S
    constructor
    · unfold edgeExpansion; rw [hv, hdQ]; rfl
    · unfold mixingExpansion; rw [hv, hdQ]; rfl
  exact ⟨(key hG hd S).1, (key hH (h.directed.trans hd) _).1, (key hG hd S).2, (key hH (h.directed.trans hd) _).2⟩

/-! ### C111 graph-valued results -/

omit [DecidableEq K] [DecidableEq K'] in
/-- a relabelled pair from corresponding nodes and edges -/
theorem relabels_of {R : Graph K α} {R' : Graph K' α} (hf : Function.Injective f)
    (hd : R'.directed = R.directed) (hm : R'.multi = R.multi)
    (hn : ∀ x, R'.Node x ↔ ∃ u, R.Node u ∧ f u = x) (hw : ∀ u v w, R'.WEdge (f u) (f v) w ↔ R.WEdge u v w) :
    Relabels f R R' := ⟨hf, hd, hm, hn, hw⟩

omit [DecidableEq K] [DecidableEq K'] in
theorem wedge_uniform {R : Graph K α} {one : α} (h1 : ∀ u v w, R.WEdge u v w → w = one) {u v : K} {w : α} :
    R.WEdge u v w ↔ R.Edge u v ∧ w = one := by
  rw [Relabel.edge_iff_wedge]
  constructor
  · intro e; exact ⟨⟨w, e⟩, h1 _ _ _ e⟩
  · rintro ⟨⟨w', e⟩, rfl⟩; rw [← h1 _ _ _ e]; exact e

/-- **C111.** `complement` -/
theorem relabel_complement (h : Relabels f G H) (hG : G.WF) (hH : H.WF) (one : α) :
    Relabels f (complement one G) (complement one H) := by
  obtain ⟨-, d, n, e, w⟩ := complement_correct hG one
  obtain ⟨-, d', n', e', w'⟩ := complement_correct hH one
  refine relabels_of h.inj (by rw [d, d', h.directed]) h.multi (fun x => ?_) fun u v x => ?_
  · rw [n', h.node]; simp only [n]
  · rw [wedge_uniform w, wedge_uniform w', e, e', Relabel.node' h, Relabel.node' h, Relabel.edge h, ne_eq, h.inj.eq_iff]

/-- **C111.** `reverse` -/
theorem relabel_reverse (h : Relabels f G H) (hG : G.WF) (hH : H.WF) :
    Agree (Relabels f) (reverse G) (reverse H) := by
  obtain ⟨a, b⟩ := reverse_correct hG
  obtain ⟨a', b'⟩ := reverse_correct hH
  cases hd : G.directed with
  | false => exact Agree.errors (b hd) (b' (h.directed.trans hd))
  | true =>
    have hm : ∀ {L : Type} {Q R : Graph L α}, reverse Q = .ok R → R.multi = Q.multi := by
      intro L Q R e
      unfold reverse at e
      split_ifs at e
      cases e; rfl
    obtain ⟨R, e, -, d, n, w, -⟩ := a hd
    obtain ⟨R', e', -, d', n', w', -⟩ := a' (h.directed.trans hd)
    refine Agree.oks e e' (relabels_of h.inj (by rw [d, d']) (by rw [hm e, hm e', h.multi]) (fun x => ?_)
      fun u v x => ?_)
    · rw [n', h.node]; simp only [n]
    · rw [w, w', h.wedge]

/-- **C111.** `ego_graph`, any node and radius -/
theorem relabel_ego_graph (h : Relabels f G H) (hG : G.WF) (hH : H.WF) (choose : α → α → α) (s : K) (r : Int)
    (center undirected : Bool) :
    Agree (Relabels f) (egoGraph choose G s r center undirected) (egoGraph choose H (f s) r center undirected) := by
  by_cases hs : G.Node s
  · have main : ∀ r : Int, 0 ≤ r →
        Agree (Relabels f) (egoGraph choose G s r center undirected) (egoGraph choose H (f s) r center undirected) := by
      intro r hr
      obtain ⟨S, e, hI⟩ := ego_graph_correct hG (choose := choose) hs hr center undirected
      obtain ⟨S', e', hI'⟩ := ego_graph_correct hH (choose := choose) ((Relabel.node' h).2 hs) hr center undirected
      have hb : ∀ u, (∃ d : Nat, IsDist (if undirected && H.directed then Sym H.Edge else H.Edge) (f s) d (f u) ∧
          (d : Int) ≤ r) ↔ ∃ d : Nat, IsDist (if undirected && G.directed then Sym G.Edge else G.Edge) s d u ∧
          (d : Int) ≤ r := by
        intro u
        rw [h.directed]
        split
        · have hw : ∀ k, Walk (Sym H.Edge) k (f s) (f u) ↔ Walk (Sym G.Edge) k s u := fun k => by
            rw [Relabel.sym_walk h]
            exact ⟨fun ⟨v, e, hv⟩ => by rwa [← h.inj e], fun hv => ⟨u, rfl, hv⟩⟩
          unfold IsDist
          simp only [hw]
        · simp only [Relabel.isDist h]
      have hin : ∀ u, ((∃ d : Nat, IsDist (if undirected && H.directed then Sym H.Edge else H.Edge) (f s) d (f u) ∧
          (d : Int) ≤ r) ∧ (center = false → f u ≠ f s)) ↔
          ((∃ d : Nat, IsDist (if undirected && G.directed then Sym G.Edge else G.Edge) s d u ∧ (d : Int) ≤ r) ∧
          (center = false → u ≠ s)) := by
        intro u; rw [hb, ne_eq, ne_eq, h.inj.eq_iff]
      refine Agree.oks e e' (relabels_of h.inj (by rw [hI.kind.1, hI'.kind.1, h.directed])
        (by rw [hI.kind.2, hI'.kind.2, h.multi]) (fun x => ?_) fun u v w => ?_)
      · rw [hI'.nodes]
        constructor
        · intro hx
          have hnx : ∃ u, f u = x := by
            obtain ⟨⟨d, hd, -⟩, -⟩ := hx
            have hw := hd.1
            split at hw
            · obtain ⟨v, e, -⟩ := (Relabel.sym_walk h).1 hw; exact ⟨v, e⟩
            · obtain ⟨v, e, -⟩ := (Relabel.walk h).1 hw; exact ⟨v, e⟩
          obtain ⟨u, rfl⟩ := hnx
          exact ⟨u, (hI.nodes u).2 ((hin u).1 hx), rfl⟩
        · rintro ⟨u, hu, rfl⟩
          exact (hin u).2 ((hI.nodes u).1 hu)
      · rw [hI.edges, hI'.edges, h.wedge, hin, hin]
    by_cases hr : 0 ≤ r
    · exact main r hr
    · rw [ego_graph_negative_radius choose G s (by omega), ego_graph_negative_radius choose H (f s) (by omega)]
      exact main 0 le_rfl
  · exact Agree.errors (ego_graph_missing hG hs r center undirected)
      (ego_graph_missing hH (unknown_map h hs) r center undirected)

section pointwise

/-- a graph whose entries are computed from those in both directions -/
def mixed (F : Option α → Option α → Option α) (d m : Bool) (G : Graph K α) : Graph K α :=
  { n := G.n, A := fun i j => F (G.A i j) (G.A j i), keyToId := G.keyToId, directed := d, multi := m }

theorem mixed_wedge (F : Option α → Option α → Option α) (d m : Bool) (hG : G.WF) (u v : K) (w : α) :
    (mixed F d m G).WEdge u v w ↔ G.Node u ∧ G.Node v ∧ F (G.weight? u v) (G.weight? v u) = some w := by
  constructor
  · rintro ⟨i, j, hi, hj, e⟩
    have hi' : G.At u i := hi
    have hj' : G.At v j := hj
    refine ⟨hi'.node, hj'.node, ?_⟩
    unfold Graph.weight?
    rw [(idOf_eq_some hG).2 hi', (idOf_eq_some hG).2 hj']
    exact e
  · rintro ⟨hu, hv, e⟩
    obtain ⟨i, hi⟩ := hu.exists_id hG
    obtain ⟨j, hj⟩ := hv.exists_id hG
    refine ⟨i, j, hi, hj, ?_⟩
    unfold Graph.weight? at e
    rw [(idOf_eq_some hG).2 hi, (idOf_eq_some hG).2 hj] at e
    exact e

theorem relabel_mixed (F : Option α → Option α → Option α) (d m : Bool) (h : Relabels f G H) (hG : G.WF)
    (hH : H.WF) : Relabels f (mixed F d m G) (mixed F d m H) := by
  refine relabels_of h.inj rfl rfl h.node fun u v w => ?_
  rw [mixed_wedge F d m hG, mixed_wedge F d m hH, Relabel.node' h, Relabel.node' h, Relabel.weight h hG hH,
    Relabel.weight h hG hH]

/-- **C111.** `G.to_undirected()`, reciprocal or not, weights included -/
theorem relabel_to_undirected (h : Relabels f G H) (hG : G.WF) (hH : H.WF) (choose : α → α → α) (r : Bool) :
    Relabels f (toUndirected choose G r) (toUndirected choose H r) := by
  cases r
  · exact relabel_mixed (fun a b => omerge choose a b) false false h hG hH
  · exact relabel_mixed (fun a b => ointer choose a b) false false h hG hH

end pointwise

section binary
variable {G₁ G₂ : Graph K α} {H₁ H₂ : Graph K' α}

theorem agree_of_raised {A B : Type} {rel : A → B → Prop} {x : Except Err A} {y : Except Err B}
    (h : raised x = raised y) (hok : ∀ a b, x = .ok a → y = .ok b → rel a b) : Agree rel x y := by
  cases x <;> cases y <;> simp_all [Agree, raised]

/-- two operators that treat multigraphs alike agree as soon as they agree on graphs -/
theorem agree_multi {rel : Graph K α → Graph K' α → Prop} {op : Graph K α → Graph K α → Except Err (Graph K α)}
    {op' : Graph K' α → Graph K' α → Except Err (Graph K' α)} (hm : MultiRule fun G H => raised (op G H))
    (hm' : MultiRule fun G H => raised (op' G H)) (h₁ : H₁.multi = G₁.multi) (h₂ : H₂.multi = G₂.multi)
    (h : G₁.multi = false → G₂.multi = false → Agree rel (op G₁ G₂) (op' H₁ H₂)) :
    Agree rel (op G₁ G₂) (op' H₁ H₂) := by
  cases e₁ : G₁.multi <;> cases e₂ : G₂.multi
  · exact h e₁ e₂
  · refine agree_of_raised ((hm.mixed _ _ (by simp [e₁, e₂])).trans (hm'.mixed _ _ (by simp [h₁, h₂, e₁, e₂])).symm) ?_
    intro a b ha
    have := hm.mixed G₁ G₂ (by simp [e₁, e₂])
    simp [ha, raised] at this
  · refine agree_of_raised ((hm.mixed _ _ (by simp [e₁, e₂])).trans (hm'.mixed _ _ (by simp [h₁, h₂, e₁, e₂])).symm) ?_
    intro a b ha
    have := hm.mixed G₁ G₂ (by simp [e₁, e₂])
    simp [ha, raised] at this
  · refine agree_of_raised ((hm.both _ _ e₁ e₂).trans (hm'.both _ _ (h₁.trans e₁) (h₂.trans e₂)).symm) ?_
    intro a b ha
    have := hm.both G₁ G₂ e₁ e₂
    simp [ha, raised] at this

variable (r₁ : Relabels f G₁ H₁) (r₂ : Relabels f G₂ H₂) (w₁ : G₁.WF) (w₂ : G₂.WF) (v₁ : H₁.WF) (v₂ : H₂.WF)
include r₁ r₂ w₁ w₂ v₁ v₂

omit [DecidableEq K] [DecidableEq K'] w₁ w₂ v₁ v₂ in
theorem overlap_relabel : (∃ x, H₁.Node x ∧ H₂.Node x) ↔ ∃ u, G₁.Node u ∧ G₂.Node u := by
  constructor
  · rintro ⟨x, h1, h2⟩
    obtain ⟨u, hu, rfl⟩ := (r₁.node x).1 h1
    exact ⟨u, hu, (Relabel.node' r₂).1 h2⟩
  · rintro ⟨u, h1, h2⟩
    exact ⟨f u, (Relabel.node' r₁).2 h1, (Relabel.node' r₂).2 h2⟩

omit [DecidableEq K] [DecidableEq K'] w₁ w₂ v₁ v₂ in
theorem sameNodes_relabel : (∀ x, H₁.Node x ↔ H₂.Node x) ↔ ∀ u, G₁.Node u ↔ G₂.Node u := by
  constructor
  · intro h u; rw [← Relabel.node' r₁, ← Relabel.node' r₂]; exact h _
  · intro h x; rw [r₁.node, r₂.node]; simp only [h]

/-- **C111.** `union`, `intersection`, `difference`, `symmetric_difference` and `full_join`: the results are relabelled
in the same way, weights included, or both calls raise the same error; multigraphs included -/
theorem relabel_operators (one : α) :
    Agree (Relabels f) (Model.union G₁ G₂) (Model.union H₁ H₂) ∧
    Agree (Relabels f) (Model.intersection one G₁ G₂) (Model.intersection one H₁ H₂) ∧
    Agree (Relabels f) (Model.difference one G₁ G₂) (Model.difference one H₁ H₂) ∧
    Agree (Relabels f) (Model.symmetricDifference one G₁ G₂) (Model.symmetricDifference one H₁ H₂) ∧
    Agree (Relabels f) (fullJoin one G₁ G₂) (fullJoin one H₁ H₂) := by
  obtain ⟨u1, -, u3, u4, u5, -, u7⟩ := operators_reject_multigraphs (K := K) (α := α) one
  obtain ⟨t1, -, t3, t4, t5, -, t7⟩ := operators_reject_multigraphs (K := K') (α := α) one
  refine ⟨agree_multi u1 t1 r₁.multi r₂.multi fun m₁ m₂ => ?_, agree_multi u3 t3 r₁.multi r₂.multi fun m₁ m₂ => ?_,
    agree_multi u4 t4 r₁.multi r₂.multi fun m₁ m₂ => ?_, agree_multi u5 t5 r₁.multi r₂.multi fun m₁ m₂ => ?_,
    agree_multi u7 t7 r₁.multi r₂.multi fun m₁ m₂ => ?_⟩ <;>
  have n₁ := r₁.multi.trans m₁ <;> have n₂ := r₂.multi.trans m₂
  · by_cases hd : ∃ u, G₁.Node u ∧ G₂.Node u
    · obtain ⟨u, a, b⟩ := id hd
      obtain ⟨x, c, d⟩ := (overlap_relabel r₁ r₂).2 hd
      exact Agree.errors (union_overlap m₁ m₂ a b) (union_overlap n₁ n₂ c d)
    · have hd' := fun h => hd ((overlap_relabel r₁ r₂).1 h)
      obtain ⟨R, e, -, d, m, n, w⟩ := union_correct w₁ w₂ m₁ m₂ fun u a b => hd ⟨u, a, b⟩
      obtain ⟨R', e', -, d', m', n', w'⟩ := union_correct v₁ v₂ n₁ n₂ fun u a b => hd' ⟨u, a, b⟩
      refine Agree.oks e e' (relabels_of r₁.inj (by rw [d, d', r₁.directed]) (by rw [m, m']) (fun x => ?_)
        fun u v x => ?_)
      · rw [n', r₁.node, r₂.node]; simp only [n, or_and_right, exists_or]
      · rw [w, w', r₁.wedge, r₂.wedge]
  · obtain ⟨R, e, -, d, m, n, ed, w⟩ := intersection_correct w₁ w₂ m₁ m₂ one
    obtain ⟨R', e', -, d', m', n', ed', w'⟩ := intersection_correct v₁ v₂ n₁ n₂ one
    refine Agree.oks e e' (relabels_of r₁.inj (by rw [d, d', r₁.directed]) (by rw [m, m']) (fun x => ?_)
      fun u v x => ?_)
    · rw [n']
      constructor
      · rintro ⟨a, b⟩
        obtain ⟨u, hu, rfl⟩ := (r₁.node x).1 a
        exact ⟨u, (n u).2 ⟨hu, (Relabel.node' r₂).1 b⟩, rfl⟩
      · rintro ⟨u, hu, rfl⟩
        exact ⟨(Relabel.node' r₁).2 ((n u).1 hu).1, (Relabel.node' r₂).2 ((n u).1 hu).2⟩
    · rw [wedge_uniform w, wedge_uniform w', ed, ed', Relabel.edge r₁, Relabel.edge r₂]
  · obtain ⟨a, b⟩ := difference_correct w₁ w₂ m₁ m₂ one
    obtain ⟨a', b'⟩ := difference_correct v₁ v₂ n₁ n₂ one
    by_cases hd : ∀ u, G₁.Node u ↔ G₂.Node u
    · obtain ⟨R, e, -, d, m, n, ed, w⟩ := a hd
      obtain ⟨R', e', -, d', m', n', ed', w'⟩ := a' ((sameNodes_relabel r₁ r₂).2 hd)
      refine Agree.oks e e' (relabels_of r₁.inj (by rw [d, d', r₁.directed]) (by rw [m, m']) (fun x => ?_)
        fun u v x => ?_)
      · rw [n', r₁.node]; simp only [n]
      · rw [wedge_uniform w, wedge_uniform w', ed, ed', Relabel.edge r₁, Relabel.edge r₂]
    · exact Agree.errors (b hd) (b' fun h => hd ((sameNodes_relabel r₁ r₂).1 h))
  · obtain ⟨a, b⟩ := symmetric_difference_correct w₁ w₂ m₁ m₂ one
    obtain ⟨a', b'⟩ := symmetric_difference_correct v₁ v₂ n₁ n₂ one
    by_cases hd : ∀ u, G₁.Node u ↔ G₂.Node u
    · obtain ⟨R, e, -, d, m, n, ed, w⟩ := a hd
      obtain ⟨R', e', -, d', m', n', ed', w'⟩ := a' ((sameNodes_relabel r₁ r₂).2 hd)
      refine Agree.oks e e' (relabels_of r₁.inj (by rw [d, d', r₁.directed]) (by rw [m, m']) (fun x => ?_)
        fun u v x => ?_)
      · rw [n', r₁.node]; simp only [n]
      · rw [wedge_uniform w, wedge_uniform w', ed, ed', Relabel.edge r₁, Relabel.edge r₂]
    · exact Agree.errors (b hd) (b' fun h => hd ((sameNodes_relabel r₁ r₂).1 h))
  · by_cases hd : ∃ u, G₁.Node u ∧ G₂.Node u
    · obtain ⟨u, a, b⟩ := id hd
      obtain ⟨x, c, d⟩ := (overlap_relabel r₁ r₂).2 hd
      exact Agree.errors (full_join_overlap m₁ m₂ one a b) (full_join_overlap n₁ n₂ one c d)
    · have hd' := fun h => hd ((overlap_relabel r₁ r₂).1 h)
      have hmul : ∀ {L : Type} [DecidableEq L] {A B R : Graph L α}, fullJoin one A B = .ok R → A.multi = false →
          R.multi = false := by
        intro L _ A B R e hA
        unfold fullJoin at e
        rcases hu : Model.union A B with er | rv
        · rw [hu] at e; cases e
        · rw [hu] at e
          cases e
          show rv.multi = false
          unfold Model.union at hu
          rcases hc : multiCheck A B with er | ⟨⟩
          · rw [hc] at hu; cases hu
          · rw [hc] at hu
            simp only [bind, Except.bind] at hu
            split_ifs at hu
            cases hu
            exact hA
      obtain ⟨R, e, -, d, n, w⟩ := full_join_correct w₁ w₂ m₁ m₂ (fun u a b => hd ⟨u, a, b⟩) one
      obtain ⟨R', e', -, d', n', w'⟩ := full_join_correct v₁ v₂ n₁ n₂ (fun u a b => hd' ⟨u, a, b⟩) one
      refine Agree.oks e e' (relabels_of r₁.inj (by rw [d, d', r₁.directed]) (by rw [hmul e m₁, hmul e' n₁])
        (fun x => ?_) fun u v x => ?_)
      · rw [n', r₁.node, r₂.node]; simp only [n, or_and_right, exists_or]
      · rw [w, w', r₁.wedge, r₂.wedge, Relabel.node' r₁, Relabel.node' r₁, Relabel.node' r₂, Relabel.node' r₂]

/-- **C111.** `compose` of graphs with the same nodes, or with no common node -/
theorem relabel_compose_partial (m₁ : G₁.multi = false) (m₂ : G₂.multi = false)
    (hn : (∀ u, G₁.Node u ↔ G₂.Node u) ∨ ∀ u, G₁.Node u → ¬ G₂.Node u) :
    Agree (Relabels f) (compose G₁ G₂) (compose H₁ H₂) := by
  have n₁ := r₁.multi.trans m₁
  have n₂ := r₂.multi.trans m₂
  rcases hn with hn | hn
  · obtain ⟨R, e, -, d, m, n, w⟩ := compose_same_nodes w₁ w₂ m₁ m₂ hn
    obtain ⟨R', e', -, d', m', n', w'⟩ := compose_same_nodes v₁ v₂ n₁ n₂ ((sameNodes_relabel r₁ r₂).2 hn)
    refine Agree.oks e e' (relabels_of r₁.inj (by rw [d, d', r₁.directed]) (by rw [m, m']) (fun x => ?_)
      fun u v x => ?_)
    · rw [n', r₁.node]; simp only [n]
    · rw [w, w', r₁.wedge, r₂.wedge, Relabel.edge r₂]
  · obtain ⟨R, e, -, d, m, n, w⟩ := compose_disjoint w₁ w₂ m₁ m₂ hn
    obtain ⟨R', e', -, d', m', n', w'⟩ := compose_disjoint v₁ v₂ n₁ n₂ fun x a b => by
      obtain ⟨u, a, b⟩ := (overlap_relabel r₁ r₂).1 ⟨x, a, b⟩
      exact hn u a b
    refine Agree.oks e e' (relabels_of r₁.inj (by rw [d, d', r₁.directed]) (by rw [m, m']) (fun x => ?_)
      fun u v x => ?_)
    · rw [n', r₁.node, r₂.node]; simp only [n, or_and_right, exists_or]
    · rw [w, w', r₁.wedge, r₂.wedge]

end binary

/-- the edge 3 - 4 of `Ex.ch`, numbered the other way round -/
def chRev : Graph Nat Int := relabelled id Ex.ch (Fin.revPerm (n := 2))

/-- **C111 fails for `compose`** when the node sets overlap: with the same graphs, one of them built in another node
order, the result is a graph or is not. -/
theorem compose_depends_on_numbering : Ex.cg.WF ∧ Ex.ch.WF ∧ chRev.WF ∧ Relabels id Ex.ch chRev ∧
    ∃ R R', compose Ex.cg Ex.ch = .ok R ∧ compose Ex.cg chRev = .ok R' ∧
      R.getId 4 = .error .indexError ∧ R'.WF := by
  have hw : Ex.ch.WF := ⟨by decide, by decide⟩
  obtain ⟨hr, hw'⟩ := relabels_relabelled (f := id) Function.injective_id hw (Fin.revPerm (n := 2))
  exact ⟨⟨by decide, by decide⟩, hw, hw', hr, _, _, rfl, rfl, by decide +kernel,
    ⟨by decide +kernel, by decide +kernel⟩⟩

/-! ### C111 matrices -/

section matrices
variable {F : Type} [Field F] {G : Graph K F} {H : Graph K' F}

/-- position `i` of a matrix of `G` and position `j` of a matrix of `H` belong together: the same position in the node
list, or, without one, the rows of a node and of its image -/
def SamePos (f : K → K') (G : Graph K F) (H : Graph K' F) (nodelist : Option (List K)) (i j : Nat) : Prop :=
  match nodelist with
  | none => ∃ u, (u, i) ∈ G.keyToId ∧ (f u, j) ∈ H.keyToId
  | some _ => i = j

/-- two square matrices of one size with equal entries at corresponding positions (a missing entry is 0) -/
def SameMatrix (f : K → K') (G : Graph K F) (H : Graph K' F) (nodelist : Option (List K))
    (M M' : Σ m, Mat m m F) : Prop :=
  M'.1 = M.1 ∧ ∀ i j i' j', SamePos f G H nodelist i.val i'.val → SamePos f G H nodelist j.val j'.val →
    (M'.2 i' j').getD 0 = (M.2 i j).getD 0

omit [DecidableEq K] [DecidableEq K'] [Field F] in
theorem chosen_perm (h : Relabels f G H) (hG : G.WF) (hH : H.WF) (nodelist : Option (List K)) :
    (chosen H (nodelist.map (List.map f))).Perm ((chosen G nodelist).map f) := by
  cases nodelist with
  | none => exact Relabel.nodes_perm h hG hH
  | some L => exact List.Perm.refl _

theorem sumOver_chosen (h : Relabels f G H) (hG : G.WF) (hH : H.WF) (nodelist : Option (List K)) (g : K' → F) :
    sumOver (chosen H (nodelist.map (List.map f))) g = sumOver (chosen G nodelist) fun u => g (f u) := by
  rw [sumOver_perm (chosen_perm h hG hH nodelist)]
  unfold sumOver
  rw [List.map_map]; rfl

/-- equal entries from the two descriptions of the entries -/
theorem sameMatrix_of (h : Relabels f G H) (hG : G.WF) (hH : H.WF) {nodelist : Option (List K)}
    {M M' : Σ m, Mat m m F} (hm : M.1 = (chosen G nodelist).length)
    (hm' : M'.1 = (chosen H (nodelist.map (List.map f))).length)
    {e : Bool → K → K → F} {e' : Bool → K' → K' → F}
    (hM : ∀ (i j : Fin M.1) u v, RowName G nodelist i.val u → RowName G nodelist j.val v →
      (M.2 i j).getD 0 = e (decide (i = j)) u v)
    (hM' : ∀ (i j : Fin M'.1) u v, RowName H (nodelist.map (List.map f)) i.val u →
      RowName H (nodelist.map (List.map f)) j.val v → (M'.2 i j).getD 0 = e' (decide (i = j)) u v)
    (he : ∀ s u v, e' s (f u) (f v) = e s u v) : SameMatrix f G H nodelist M M' := by
  have hlen : M'.1 = M.1 := by
    rw [hm, hm', (chosen_perm h hG hH nodelist).length_eq, List.length_map]
  refine ⟨hlen, fun i j i' j' hi hj => ?_⟩
  cases nodelist with
  | none =>
    obtain ⟨u, hu, hu'⟩ := hi
    obtain ⟨v, hv, hv'⟩ := hj
    rw [hM i j u v hu hv, hM' i' j' (f u) (f v) hu' hv', he]
    congr 1
    have hn : M.1 = G.n := hm.trans (nodes_length hG)
    have hn' : M'.1 = H.n := hm'.trans (nodes_length hH)
    rw [decide_eq_decide, Fin.ext_iff, Fin.ext_iff]
    have a : G.At u ⟨i.val, hn ▸ i.isLt⟩ := hu
    have b : G.At v ⟨j.val, hn ▸ j.isLt⟩ := hv
    have a' : H.At (f u) ⟨i'.val, hn' ▸ i'.isLt⟩ := hu'
    have b' : H.At (f v) ⟨j'.val, hn' ▸ j'.isLt⟩ := hv'
    constructor
    · intro e
      have : f u = f v := At.key_unique hH a' (by
        have : (⟨i'.val, hn' ▸ i'.isLt⟩ : Fin H.n) = ⟨j'.val, hn' ▸ j'.isLt⟩ := Fin.ext e
        rw [this]; exact b')
      rw [h.inj this] at a
      exact Fin.mk.inj (At.id_unique hG a b)
    · intro e
      have : u = v := At.key_unique hG a (by
        have : (⟨i.val, hn ▸ i.isLt⟩ : Fin G.n) = ⟨j.val, hn ▸ j.isLt⟩ := Fin.ext e
        rw [this]; exact b)
      rw [this] at a'
      exact Fin.mk.inj (At.id_unique hH a' b')
  | some L =>
    have hi : i.val = i'.val := hi
    have hj : j.val = j'.val := hj
    have li : i.val < L.length := lt_of_lt_of_eq i.isLt hm
    have lj : j.val < L.length := lt_of_lt_of_eq j.isLt hm
    have gi : L[i.val]? = some L[i.val] := List.getElem?_eq_getElem li
    have gj : L[j.val]? = some L[j.val] := List.getElem?_eq_getElem lj
    have gi' : (L.map f)[i'.val]? = some (f L[i.val]) := by rw [List.getElem?_map, ← hi, gi]; rfl
    have gj' : (L.map f)[j'.val]? = some (f L[j.val]) := by rw [List.getElem?_map, ← hj, gj]; rfl
    rw [hM i j _ _ gi gj, hM' i' j' _ _ gi' gj', he]
    congr 1
    rw [decide_eq_decide, Fin.ext_iff, Fin.ext_iff, hi, hj]

variable (h : Relabels f G H) (hG : G.WF) (hH : H.WF) (nodelist : Option (List K)) (wt : Bool)
include h hG hH

/-- the weights used, at corresponding nodes -/
theorem weightsOf_relabel (u v : K) : weightsOf wt H.weight? (f u) (f v) = weightsOf wt G.weight? u v := by
  unfold weightsOf
  cases wt
  · show unitWeights H.weight? (f u) (f v) = unitWeights G.weight? u v
    unfold unitWeights; rw [Relabel.weight h hG hH]
  · exact Relabel.weight h hG hH u v

theorem outWeight_chosen (u : K) :
    outWeight (chosen H (nodelist.map (List.map f))) (weightsOf wt H.weight?) (f u) =
      outWeight (chosen G nodelist) (weightsOf wt G.weight?) u := by
  unfold outWeight
  rw [sumOver_chosen h hG hH]
  simp only [weightsOf_relabel h hG hH]

theorem inWeight_chosen (u : K) :
    inWeight (chosen H (nodelist.map (List.map f))) (weightsOf wt H.weight?) (f u) =
      inWeight (chosen G nodelist) (weightsOf wt G.weight?) u := by
  unfold inWeight
  rw [sumOver_chosen h hG hH]
  simp only [weightsOf_relabel h hG hH]

theorem totalWeight_chosen :
    totalWeight (chosen H (nodelist.map (List.map f))) (weightsOf wt H.weight?) =
      totalWeight (chosen G nodelist) (weightsOf wt G.weight?) := by
  unfold totalWeight
  rw [sumOver_chosen h hG hH]
  simp only [outWeight_chosen h hG hH]

theorem dangling_chosen (u : K) :
    Dangling (chosen H (nodelist.map (List.map f))) (weightsOf wt H.weight?) (f u) ↔
      Dangling (chosen G nodelist) (weightsOf wt G.weight?) u := by
  unfold Dangling
  have hp := chosen_perm h hG hH nodelist
  constructor
  · intro hh v hv
    rw [← weightsOf_relabel h hG hH]
    exact hh _ (hp.mem_iff.2 (List.mem_map_of_mem hv))
  · intro hh x hx
    obtain ⟨v, hv, rfl⟩ := List.mem_map.1 (hp.mem_iff.1 hx)
    rw [weightsOf_relabel h hG hH]; exact hh v hv

variable {nodelist}
variable (hL : ∀ L, nodelist = some L → ∀ u ∈ L, G.Node u)
include h hG hH hL

/-- **C111.** `adjacency_matrix` -/
theorem relabel_adjacency_matrix :
    Agree (SameMatrix f G H nodelist) (adjacencyMatrix G nodelist wt)
      (adjacencyMatrix H (nodelist.map (List.map f)) wt) := by
  obtain ⟨M, e, m, hM⟩ := adjacency_matrix_correct hG hL wt
  obtain ⟨M', e', m', hM'⟩ := adjacency_matrix_correct hH (nodes_map_ok h hL) wt
  refine Agree.oks e e' (sameMatrix_of h hG hH m m'
    (e := fun _ u v => (weightsOf (G.multi || wt) G.weight? u v).getD 0)
    (e' := fun _ u v => (weightsOf (H.multi || wt) H.weight? u v).getD 0)
    (fun i j u v a b => by rw [hM i j u v a b]) (fun i j u v a b => by rw [hM' i j u v a b]) fun s u v => ?_)
  rw [h.multi, weightsOf_relabel h hG hH]

/-- **C111.** `laplacian_matrix`, also where it raises -/
theorem relabel_laplacian_matrix :
    Agree (SameMatrix f G H nodelist) (laplacianMatrix G nodelist wt)
      (laplacianMatrix H (nodelist.map (List.map f)) wt) := by
  by_cases hok : nodelist ≠ none ∨ G.directed = false ∨ G.multi = true ∨ wt = true
  · obtain ⟨M, e, m, hM, -⟩ := laplacian_matrix_correct_partial hG hL wt hok
    obtain ⟨M', e', m', hM', -⟩ := laplacian_matrix_correct_partial hH (nodes_map_ok h hL) wt
      (by rw [h.directed, h.multi]; simpa using hok)
    refine Agree.oks e e' (sameMatrix_of h hG hH m m' hM hM' fun s u v => ?_)
    unfold lapEntry
    rw [h.multi, weightsOf_relabel h hG hH, outWeight_chosen h hG hH]
  · push Not at hok
    obtain ⟨rfl, hd, hm, hw⟩ := hok
    have hw : wt = false := by simpa using hw
    subst hw
    have hd : G.directed = true := by simpa using hd
    have hm : G.multi = false := by simpa using hm
    exact Agree.errors (laplacian_matrix_digraph_raises G hd hm id).1
      (laplacian_matrix_digraph_raises H (h.directed.trans hd) (h.multi.trans hm) id).1

/-- **C111.** `modularity_matrix`, also where it raises -/
theorem relabel_modularity_matrix (hs : G.directed = false → G.Symm)
    (ht : totalWeight (chosen G nodelist) (weightsOf wt G.weight?) ≠ 0 ∨
      ∀ u ∈ chosen G nodelist, ∀ v ∈ chosen G nodelist, ¬ G.Edge u v) :
    Agree (SameMatrix f G H nodelist) (modularityMatrix G nodelist wt)
      (modularityMatrix H (nodelist.map (List.map f)) wt) := by
  by_cases hk : G.directed = true ∨ G.multi = true
  · exact Agree.errors ((modularity_matrix_kinds G nodelist wt).1 hk)
      ((modularity_matrix_kinds H _ wt).1 (by rwa [h.directed, h.multi]))
  · have hd : G.directed = false := by simpa using fun x => hk (Or.inl x)
    have hm : G.multi = false := by simpa using fun x => hk (Or.inr x)
    have ht' : totalWeight (chosen H (nodelist.map (List.map f))) (weightsOf wt H.weight?) ≠ 0 ∨
        ∀ u ∈ chosen H (nodelist.map (List.map f)), ∀ v ∈ chosen H (nodelist.map (List.map f)), ¬ H.Edge u v := by
      rw [totalWeight_chosen h hG hH]
      refine ht.imp_right fun hh x hx y hy => ?_
      have hp := chosen_perm h hG hH nodelist
      obtain ⟨u, hu, rfl⟩ := List.mem_map.1 (hp.mem_iff.1 hx)
      obtain ⟨v, hv, rfl⟩ := List.mem_map.1 (hp.mem_iff.1 hy)
      rw [Relabel.edge h]; exact hh u hu v hv
    obtain ⟨M, e, m, hM, -⟩ := modularity_matrix_correct hG (hs hd) hd hm hL wt ht
    obtain ⟨M', e', m', hM', -⟩ := modularity_matrix_correct hH (Relabel.symm h hH (hs hd)) (h.directed.trans hd)
      (h.multi.trans hm) (nodes_map_ok h hL) wt ht'
    refine Agree.oks e e' (sameMatrix_of h hG hH m m'
      (e := fun _ u v => modEntry (chosen G nodelist) (weightsOf wt G.weight?) u v)
      (e' := fun _ u v => modEntry (chosen H (nodelist.map (List.map f))) (weightsOf wt H.weight?) u v)
      hM hM' fun s u v => ?_)
    unfold modEntry
    rw [weightsOf_relabel h hG hH, outWeight_chosen h hG hH, outWeight_chosen h hG hH, totalWeight_chosen h hG hH]

/-- **C111.** `directed_modularity_matrix`, also where it raises -/
theorem relabel_directed_modularity_matrix
    (ht : totalWeight (chosen G nodelist) (weightsOf wt G.weight?) ≠ 0 ∨
      ∀ u ∈ chosen G nodelist, ∀ v ∈ chosen G nodelist, ¬ G.Edge u v) :
    Agree (SameMatrix f G H nodelist) (directedModularityMatrix G nodelist wt)
      (directedModularityMatrix H (nodelist.map (List.map f)) wt) := by
  by_cases hk : G.directed = false ∨ G.multi = true
  · exact Agree.errors ((modularity_matrix_kinds G nodelist wt).2 hk)
      ((modularity_matrix_kinds H _ wt).2 (by rwa [h.directed, h.multi]))
  · have hd : G.directed = true := by simpa using fun x => hk (Or.inl x)
    have hm : G.multi = false := by simpa using fun x => hk (Or.inr x)
    have ht' : totalWeight (chosen H (nodelist.map (List.map f))) (weightsOf wt H.weight?) ≠ 0 ∨
        ∀ u ∈ chosen H (nodelist.map (List.map f)), ∀ v ∈ chosen H (nodelist.map (List.map f)), ¬ H.Edge u v := by
      rw [totalWeight_chosen h hG hH]
      refine ht.imp_right fun hh x hx y hy => ?_
      have hp := chosen_perm h hG hH nodelist
      obtain ⟨u, hu, rfl⟩ := List.mem_map.1 (hp.mem_iff.1 hx)
      obtain ⟨v, hv, rfl⟩ := List.mem_map.1 (hp.mem_iff.1 hy)
      rw [Relabel.edge h]; exact hh u hu v hv
    obtain ⟨M, e, m, hM, -⟩ := directed_modularity_matrix_correct hG hd hm hL wt ht
    obtain ⟨M', e', m', hM', -⟩ := directed_modularity_matrix_correct hH (h.directed.trans hd)
      (h.multi.trans hm) (nodes_map_ok h hL) wt ht'
    refine Agree.oks e e' (sameMatrix_of h hG hH m m'
      (e := fun _ u v => dirModEntry (chosen G nodelist) (weightsOf wt G.weight?) u v)
      (e' := fun _ u v => dirModEntry (chosen H (nodelist.map (List.map f))) (weightsOf wt H.weight?) u v)
      hM hM' fun s u v => ?_)
    unfold dirModEntry
    rw [weightsOf_relabel h hG hH, outWeight_chosen h hG hH, inWeight_chosen h hG hH, totalWeight_chosen h hG hH]

/-- **C111.** `normalized_laplacian_matrix`, also where it raises -/
theorem relabel_normalized_laplacian_matrix [LinearOrder F] [IsStrictOrderedRing F] {sqrt : F → F}
    (hsqrt : ∀ x, 0 < x → sqrt x * sqrt x = x)
    (hpos : ∀ u ∈ chosen G nodelist,
      Dangling (chosen G nodelist) (weightsOf (G.multi || wt) G.weight?) u ∨
      0 < outWeight (chosen G nodelist) (weightsOf (G.multi || wt) G.weight?) u) :
    Agree (SameMatrix f G H nodelist) (normalizedLaplacianMatrix sqrt G nodelist wt)
      (normalizedLaplacianMatrix sqrt H (nodelist.map (List.map f)) wt) := by
  by_cases hok : nodelist ≠ none ∨ G.directed = false ∨ G.multi = true ∨ wt = true
  · obtain ⟨M, e, m, hM⟩ := normalized_laplacian_matrix_correct_partial hG hL wt hok hsqrt hpos
    obtain ⟨M', e', m', hM'⟩ := normalized_laplacian_matrix_correct_partial hH (nodes_map_ok h hL) wt
      (by rw [h.directed, h.multi]; simpa using hok) hsqrt (fun x hx => by
        obtain ⟨u, hu, rfl⟩ := List.mem_map.1 ((chosen_perm h hG hH nodelist).mem_iff.1 hx)
        rw [h.multi, dangling_chosen h hG hH, outWeight_chosen h hG hH]
        exact hpos u hu)
    refine Agree.oks e e' (sameMatrix_of h hG hH m m' hM hM' fun s u v => ?_)
    unfold normLapEntry lapEntry invSqrtDeg
    simp only [h.multi, weightsOf_relabel h hG hH, outWeight_chosen h hG hH, dangling_chosen h hG hH]
  · push Not at hok
    obtain ⟨rfl, hd, hm, hw⟩ := hok
    have hw : wt = false := by simpa using hw
    subst hw
    have hd : G.directed = true := by simpa using hd
    have hm : G.multi = false := by simpa using hm
    exact Agree.errors (laplacian_matrix_digraph_raises G hd hm sqrt).2
      (laplacian_matrix_digraph_raises H (h.directed.trans hd) (h.multi.trans hm) sqrt).2

/-- **C111.** `bethe_hessian_matrix` -/
theorem relabel_bethe_hessian_matrix [DecidableEq F] (hd : G.directed = false) (hm : G.multi = false) (r : Option F)
    (hr : r = none → sumOver G.nodes (fun u => outWeight G.nodes (unitWeights G.weight?) u) ≠ 0) :
    Agree (SameMatrix f G H nodelist) (betheHessianMatrix G r nodelist)
      (betheHessianMatrix H r (nodelist.map (List.map f))) := by
  have ow : ∀ u, outWeight H.nodes (unitWeights H.weight?) (f u) = outWeight G.nodes (unitWeights G.weight?) u :=
    outWeight_chosen h hG hH none false
  have so : ∀ φ : F → F, sumOver H.nodes (fun u => φ (outWeight H.nodes (unitWeights H.weight?) u)) =
      sumOver G.nodes (fun u => φ (outWeight G.nodes (unitWeights G.weight?) u)) := by
    intro φ
    refine (sumOver_chosen h hG hH none _).trans ?_
    simp only [ow]; rfl
  have hdr : defaultR H = defaultR G := by
    unfold defaultR
    rw [so fun x => x ^ 2, so fun x => x]
  obtain ⟨M, e, m, hM, -⟩ := bethe_hessian_matrix_correct hG hd hm hL r hr
  obtain ⟨M', e', m', hM', -⟩ := bethe_hessian_matrix_correct hH (h.directed.trans hd) (h.multi.trans hm)
    (nodes_map_ok h hL) r (fun hh => by rw [so fun x => x]; exact hr hh)
  refine Agree.oks e e' (sameMatrix_of h hG hH m m' hM hM' fun s u v => ?_)
  have w := weightsOf_relabel h hG hH true u v
  have o := outWeight_chosen h hG hH nodelist true u
  unfold betheEntry
  rw [hdr]
  show (if s = true then r.getD (defaultR G) ^ 2 - 1 + outWeight _ (weightsOf true H.weight?) (f u) else 0) -
    r.getD (defaultR G) * (weightsOf true H.weight? (f u) (f v)).getD 0 = _
  rw [w, o]; rfl

omit hL in
/-- **C111.** `google_matrix` of the whole graph, with `personalization` and `dangling` renamed along -/
theorem relabel_google_matrix [LinearOrder F] [IsStrictOrderedRing F] (hn : G.nodes ≠ [])
    {pers dangling : Option (List (K × F))} (ha : GMArgs G G.nodes pers dangling) (alpha : F) :
    ∃ M M', googleMatrix G alpha pers dangling = .ok M ∧
      googleMatrix H alpha (pers.map (renameDict f)) (dangling.map (renameDict f)) = .ok M' ∧
      ∀ u v i j i' j', G.At u i → G.At v j → H.At (f u) i' → H.At (f v) j' →
        (M' i' j').getD 0 = (M i j).getD 0 := by
  have hn' : H.nodes ≠ [] := by
    intro e
    have := Relabel.length h hG hH
    rw [e] at this
    exact hn (List.length_eq_zero_iff.1 this.symm)
  have ow : ∀ u, outWeight H.nodes H.weight? (f u) = outWeight G.nodes G.weight? u :=
    outWeight_chosen h hG hH none true
  have dg := fun u => dangling_relabel h hG hH u
  have ha' : GMArgs H H.nodes (pers.map (renameDict f)) (dangling.map (renameDict f)) := by
    refine ⟨fun x hx hnd => ?_, fun l hl => ?_, fun l hl => ?_⟩
    · obtain ⟨u, hu, rfl⟩ := (h.node x).1 hx
      rw [ow]
      exact ha.rows u hu (by rwa [dg] at hnd)
    · obtain ⟨l0, rfl, rfl⟩ := Option.map_eq_some_iff.1 hl
      rw [sum_rename h hG hH]
      exact ⟨validDict_rename h (ha.pers l0 rfl).1, (ha.pers l0 rfl).2⟩
    · obtain ⟨l0, rfl, rfl⟩ := Option.map_eq_some_iff.1 hl
      rw [sum_rename h hG hH]
      refine ⟨validDict_rename h (ha.dangling l0 rfl).1, ?_⟩
      rintro ⟨x, hx, hd⟩
      obtain ⟨u, hu, rfl⟩ := (h.node x).1 hx
      exact (ha.dangling l0 rfl).2 ⟨u, hu, by rwa [dg] at hd⟩
  obtain ⟨M, e, hM⟩ := google_matrix_correct hG hn ha alpha
  obtain ⟨M', e', hM'⟩ := google_matrix_correct hH hn' ha' alpha
  refine ⟨M, M', e, e', fun u v i j i' j' hi hj hi' hj' => ?_⟩
  have hv : G.Node v := hj.node
  rw [hM u v i j hi hj, hM' _ _ i' j' hi' hj']
  have cp := corr_dist h hG hH pers (corr_uniform h hG hH)
  have cd := corr_dist h hG hH dangling cp
  unfold googleEntry
  rw [cp v hv, cd v hv, ow, Relabel.weight h hG hH]
  simp only [dg]

end matrices

/-- the graph with the one edge `0 → 1`, built in the other order -/
def gmGRev : Graph Nat ℚ := relabelled id gmG (Fin.revPerm (n := 2))

/-- **C111 fails for `google_matrix` with a node list** as long as the graph: for one graph built in two orders and one
node list, row 0 sums to 1 or to 1/2. -/
theorem google_matrix_nodelist_depends_on_numbering : gmG.WF ∧ gmGRev.WF ∧ Relabels id gmG gmGRev ∧
    (match googleMatrixList gmG (1/2) none [1, 0] none with
      | .ok M => decide (∃ i : Fin M.1, i.val = 0 ∧ ∑ j, (M.2 i j).getD 0 = 1/2)
      | .error _ => false) = true ∧
    (match googleMatrixList gmGRev (1/2) none [1, 0] none with
      | .ok M => decide (∃ i : Fin M.1, i.val = 0 ∧ ∑ j, (M.2 i j).getD 0 = 1)
      | .error _ => false) = true := by
  have hw : gmG.WF := ⟨by decide, by decide⟩
  obtain ⟨hr, hw'⟩ := relabels_relabelled (f := id) Function.injective_id hw (Fin.revPerm (n := 2))
  exact ⟨hw, hw', hr, by decide +kernel, by decide +kernel⟩

/-! ### The hypotheses are met -/

/-- **C112.** 99 is no node of `ug`: a list with it is rejected whatever else is in it -/
example : ¬ _root_.Ex.ug.Node 99 ∧ _root_.Ex.ug.WF ∧ triangles _root_.Ex.ug (some [5, 99]) = .error .keyError :=
  ⟨by decide, _root_.Ex.ug_wf, (unknown_nodes_rejected (u := 99) _root_.Ex.ug_wf (by simp) (by decide)).1⟩

/-- **C111.** the matrices of the graph of the Laplacian examples, renumbered backwards; rows 0 and 3 belong together -/
example : Relabels (fun u : Nat => u + 10) laG (relabelled (fun u : Nat => u + 10) laG (Fin.revPerm (n := 4))) ∧
    SamePos (fun u : Nat => u + 10) laG (relabelled (fun u : Nat => u + 10) laG (Fin.revPerm (n := 4))) none 0 3 ∧
    totalWeight (chosen laG none) (weightsOf true laG.weight?) ≠ 0 :=
  ⟨(relabels_relabelled (fun a b h => by simpa using h) laG_wf _).1, ⟨4, by decide, by decide⟩, by decide +kernel⟩

/-- **C111.** the hypotheses of the google matrix -/
example : GMArgs prG prG.nodes (some [(1, 1), (3, 3)]) (some [(2, 2)]) := by
  refine ⟨by decide +kernel, fun l hl => ?_, fun l hl => ?_⟩
  · cases hl
    exact ⟨⟨by simp, by decide, fun k b hk => by
      rcases List.mem_cons.1 hk with e | hk
      · cases e; decide
      · rcases List.mem_cons.1 hk with e | hk
        · cases e; decide
        · cases hk⟩, by decide +kernel⟩
  · cases hl
    exact ⟨⟨by simp, by decide, fun k b hk => by
      rcases List.mem_cons.1 hk with e | hk
      · cases e; decide
      · cases hk⟩, fun _ => by decide +kernel⟩

end Props
