import Verif.Props.Dispatch
import Verif.Props.NodeMap
import Verif.Props.Bfs
import Verif.Props.BellmanFord
import Verif.Props.ClusterDir
import Verif.Props.Small2
import Verif.Props.Centrality
import Verif.Props.Cuts

/-! # C105 value-valued calls through the NetworkX backend

`nx.f(H, …, backend="graphblas")` for an `f` that returns numbers, sets or maps: `H` is converted
(interface.py:174-238), `f` runs, and its result is handed over as it is (interface.py:240-266).  The theorems speak
about `H`, of any NetworkX class and with any attributes, and about what the caller reads from the result. -/

open GB Spec Model Model.Graph Proofs

namespace Spec

variable {K S α : Type}

/-- `u v` is an edge of the NetworkX graph `H` (any number of parallel edges) -/
def NxEdge (H : NxFull K S α) (u v : K) : Prop := H.data u v ≠ []

instance (H : NxFull K S α) (u v : K) : Decidable (NxEdge H u v) := inferInstanceAs (Decidable (_ ≠ _))

/-- the weight of `u v` when the edge attribute `x` is the weight: the sum over the parallel edges, where an edge
without the attribute counts `one` -/
def nxWeight [DecidableEq S] [Add α] [Zero α] (one : α) (H : NxFull K S α) (x : Option S) (u v : K) : Option α :=
  if H.data u v = [] then none else some ((H.data u v).map fun d => (x.bind fun x => d.lookup x).getD one).sum

/-- a mapping, given by what reading an item does: item `u` is `d` exactly when `P u d`, `KeyError` otherwise -/
def IsMapping {β : Type} (item : K → Except Err β) (P : K → β → Prop) : Prop :=
  (∀ u d, item u = .ok d ↔ P u d) ∧ ∀ u e, item u = .error e → e = .keyError

/-- a set, given by its elements in some order -/
def IsSet (elems : Except Err (List K)) (P : K → Prop) : Prop :=
  ∃ l, elems = .ok l ∧ l.Nodup ∧ ∀ u, u ∈ l ↔ P u

end Spec

namespace Props

variable {K S α : Type} [DecidableEq K] [DecidableEq S] [DecidableEq α] [AddMonoid α]

/-- a call NetworkX makes: a graph and conversion arguments that are supported; `x` is the weight attribute -/
structure NxCall (one : α) (H : NxFull K S α) (a : NxArgs S α) (x : Option S) : Prop where
  wf : FullWF H
  symm : isDirectedClass H.cls = false → ∀ u v, H.data u v = H.data v u
  ok : Supported one H a x

/-- `nx.f(H, backend="graphblas")` -- interface.py:174-266: convert, then call; the result is not converted -/
def nxRun {β : Type} (one : α) (H : NxFull K S α) (a : NxArgs S α) (f : Graph K α → Except Err β) :
    Except Err β := do
  let r ← convertFromNx one H a
  f r.G

omit [DecidableEq S] [DecidableEq α] [AddMonoid α] in
/-- `v[u]` for the `NodeMap` of the vector `v` -- nodemap.py:42-50 -/
def item {β : Type} (G : Graph K α) (v : Vec G.n β) (u : K) : Except Err β := do
  match ← nmGetitem G .plain ⟨v, none⟩ u with
  | .val (some d) => .ok d
  | _ => .error .keyError

omit [DecidableEq S] [DecidableEq α] [AddMonoid α] in
/-- `f(G)[u]` -/
def itemOf {β : Type} (f : (G : Graph K α) → Except Err (Vec G.n β)) (u : K) (G : Graph K α) : Except Err β := do
  let v ← f G
  item G v u

omit [DecidableEq S] [DecidableEq α] [AddMonoid α] [DecidableEq K] in
/-- `list(result)` when the result is a `NodeSet` -- nodeset.py:48-52 -/
def elemsOf {β : Type} (f : (G : Graph K α) → Except Err (Vec G.n β)) (G : Graph K α) : Except Err (List K) := do
  let v ← f G
  vectorToSet G v

theorem item_eq {G : Graph K α} (h : G.WF) {β : Type} (v : Vec G.n β) (u : K) :
    item G v u = match G.view v u with
      | some d => .ok d
      | none => .error .keyError := by
  have hd : Decodable Codec.plain (⟨v, none⟩ : NMap G.n β β) := by
    intro i r _; exact ⟨r, rfl⟩
  unfold item
  rw [nm_getitem_cases h hd rfl]
  unfold stored
  cases G.view v u <;> rfl

theorem nxItem_eq {G : Graph K α} (h : G.WF) {β : Type} {f : (G : Graph K α) → Except Err (Vec G.n β)}
    {v : Vec G.n β} (hv : f G = .ok v) (u : K) :
    itemOf f u G = match G.view v u with
      | some d => .ok d
      | none => .error .keyError := by
  unfold itemOf
  rw [hv]
  exact item_eq h v u

theorem nxItem_mapping {G : Graph K α} (h : G.WF) {β : Type} {f : (G : Graph K α) → Except Err (Vec G.n β)}
    {v : Vec G.n β} (hv : f G = .ok v) {P : K → β → Prop} (hP : ∀ u d, G.view v u = some d ↔ P u d) :
    IsMapping (fun u => itemOf f u G) P := by
  constructor
  · intro u d
    beta_reduce
    rw [nxItem_eq h hv, ← hP]
    cases G.view v u <;> simp
  · intro u e
    beta_reduce
    rw [nxItem_eq h hv]
    cases G.view v u <;> simp [eq_comm]

theorem nxElems_set {G : Graph K α} (h : G.WF) {β : Type} {f : (G : Graph K α) → Except Err (Vec G.n β)}
    {v : Vec G.n β} (hv : f G = .ok v) {P : K → Prop} (hP : ∀ u, (G.view v u).isSome ↔ P u) :
    IsSet (elemsOf f G) P := by
  have hd : Decodable Codec.plain (⟨v, none⟩ : NMap G.n β β) := by
    intro i r _; exact ⟨r, rfl⟩
  obtain ⟨l, hl, -, hen⟩ := nm_enum h hd
  refine ⟨l, ?_, hen.1, fun u => ?_⟩
  · unfold elemsOf
    rw [hv]
    exact hl
  · rw [hen.2, ← hP]
    show ((G.view v u).bind fun r => (Codec.plain.dec r).toOption).isSome = true ↔ _
    cases G.view v u <;> simp [Codec.plain, Except.toOption]

theorem nx_symm_of_wedge' {R : Graph K α} (h : R.WF)
    (hs : ∀ u v w, R.WEdge u v w → R.WEdge v u w) : R.Symm := by
  have key : ∀ i j w, R.A i j = some w → R.A j i = some w := by
    intro i j w e
    obtain ⟨j', i', hj, hi, e'⟩ := hs _ _ w ⟨i, j, keyFn_at h i, keyFn_at h j, e⟩
    rw [At.id_unique h hj (keyFn_at h j), At.id_unique h hi (keyFn_at h i)] at e'
    exact e'
  intro i j
  cases e : R.A i j with
  | some w => exact (key i j w e).symm
  | none =>
    cases e' : R.A j i with
    | none => rfl
    | some w => rw [key j i w e'] at e; cases e

/-- the graph object a supported call hands to the algorithm -/
theorem nx_call {one : α} {H : NxFull K S α} {a : NxArgs S α} {x : Option S} (hc : NxCall one H a x) :
    ∃ G : Graph K α, (∀ (β : Type) (f : Graph K α → Except Err β), nxRun one H a f = f G) ∧ G.WF ∧
      G.nodes = H.nodes ∧ G.directed = isDirectedClass H.cls ∧ G.multi = isMultiClass H.cls ∧
      G.Edge = NxEdge H ∧ G.weight? = nxWeight one H x ∧
      (G.WEdge = fun u v w => nxWeight one H x u v = some w) ∧
      (G.directed = false → G.Symm) := by
  obtain ⟨r, hr, h1, h2, h3, h4, h5, -⟩ := convert_from_nx_correct hc.wf hc.ok
  have hW : ∀ u v w, r.G.WEdge u v w ↔ nxWeight one H x u v = some w := by
    intro u v w
    rw [h5]
    unfold nxWeight
    by_cases hd : H.data u v = []
    · simp [hd]
    · simp [hd, eq_comm]
  refine ⟨r.G, ?_, h1, h2, h3, h4, ?_, ?_, ?_, ?_⟩
  · intro β f
    unfold nxRun
    rw [hr]
    rfl
  · funext u v
    refine propext ?_
    rw [edge_iff_wedge]
    simp only [h5]
    unfold NxEdge
    exact ⟨fun ⟨_, e, _⟩ => e, fun e => ⟨_, e, rfl⟩⟩
  · funext u v
    refine Option.ext fun w => ?_
    rw [weight?_eq_some h1, hW]
  · funext u v w
    exact propext (hW u v w)
  · intro hf
    refine nx_symm_of_wedge' h1 fun u v w e => ?_
    rw [hW] at e ⊢
    unfold nxWeight at e ⊢
    rwa [← hc.symm (h3 ▸ hf)]

/-- moving a fact about the graph object to the NetworkX graph -/
theorem nx_move {G : Graph K α} {N : List K} {E : K → K → Prop} [inst : ∀ u v, Decidable (E u v)]
    (hN : G.nodes = N) (hE : G.Edge = E)
    (P : List K → (E : K → K → Prop) → (∀ u v, Decidable (E u v)) → Prop)
    (h : P G.nodes G.Edge fun u v => inferInstance) : P N E inst := by
  subst hN
  subst hE
  convert h

variable {one : α} {H : NxFull K S α} {a : NxArgs S α} {x : Option S}

/-- **C105.** `single_source_shortest_path_length`: item `u` is the number of edges of a shortest path. -/
theorem nx_single_source_shortest_path_length (hc : NxCall one H a x) (s : K) (c : Option Int)
    (hcut : ∀ x, c = some x → 0 ≤ x) :
    (s ∈ H.nodes → IsMapping (fun u => nxRun one H a (itemOf (fun G => singleSourceSPL G s c) u))
      fun u d => IsDist (NxEdge H) s d u ∧ Within c d) ∧
    (s ∉ H.nodes → ∀ u, nxRun one H a (itemOf (fun G => singleSourceSPL G s c) u) = .error .keyError) := by
  obtain ⟨G, hG, hwf, hN, hd, hm, hE, hw, hW, hs⟩ := nx_call hc
  simp only [hG, ← hN, ← hE]
  constructor
  · intro hs
    obtain ⟨r, hr, hv⟩ := single_source_shortest_path_length_correct hwf hs c hcut
    exact nxItem_mapping hwf (f := fun G => singleSourceSPL G s c) hr hv
  · intro hs u
    unfold itemOf
    beta_reduce
    rw [single_source_shortest_path_length_missing hwf hs]
    rfl

/-- **C105.** `has_path`, `shortest_path_length` between two nodes. -/
theorem nx_has_path (hc : NxCall one H a x) {s t : K} (hs : s ∈ H.nodes) (ht : t ∈ H.nodes) :
    (∃ b, nxRun one H a (fun G => hasPath G s t) = .ok b ∧ (b = true ↔ Reach (NxEdge H) s t)) ∧
    ((∃ d, IsDist (NxEdge H) s d t ∧ nxRun one H a (fun G => bidirectionalSPL G s t) = .ok d) ∨
      (¬ Reach (NxEdge H) s t ∧ nxRun one H a (fun G => bidirectionalSPL G s t) = .error .noPath)) := by
  obtain ⟨G, hG, hwf, hN, hd, hm, hE, hw, hW, hsy⟩ := nx_call hc
  simp only [hG, ← hE]
  rw [← hN] at hs ht
  exact ⟨has_path_correct hwf hs ht, bidirectional_shortest_path_length_correct hwf hs ht⟩

/-- **C105.** `descendants`, `ancestors`. -/
theorem nx_descendants_ancestors (hc : NxCall one H a x) {s : K} (hs : s ∈ H.nodes) :
    IsSet (nxRun one H a (elemsOf fun G => descendants G s)) (fun u => u ≠ s ∧ Reach (NxEdge H) s u) ∧
    IsSet (nxRun one H a (elemsOf fun G => ancestors G s))
      (fun u => u ≠ s ∧ u ∈ H.nodes ∧ Reach (NxEdge H) u s) := by
  obtain ⟨G, hG, hwf, hN, hd, hm, hE, hw, hW, hsy⟩ := nx_call hc
  simp only [hG, ← hE]
  rw [← hN] at hs ⊢
  obtain ⟨r, hr, hv⟩ := descendants_correct hwf hs
  obtain ⟨r', hr', hv'⟩ := ancestors_correct hwf hsy hs
  exact ⟨nxElems_set hwf (f := fun G => descendants G s) hr hv,
    nxElems_set hwf (f := fun G => ancestors G s) hr' hv'⟩

/-- **C105.** `is_connected` of an undirected graph: raised for the null graph, otherwise whether any two nodes are
joined by a path; `is_weakly_connected` the same with the directions ignored. -/
theorem nx_is_connected (hc : NxCall one H a x) :
    (H.nodes = [] → isDirectedClass H.cls = false → nxRun one H a isConnected = .error .pointless) ∧
    (H.nodes = [] → nxRun one H a isWeaklyConnected = .error .pointless) ∧
    (H.nodes ≠ [] → isDirectedClass H.cls = false → ∃ b, nxRun one H a isConnected = .ok b ∧
      (b = true ↔ ∀ u ∈ H.nodes, ∀ v ∈ H.nodes, Reach (NxEdge H) u v)) ∧
    (H.nodes ≠ [] → ∃ b, nxRun one H a isWeaklyConnected = .ok b ∧
      (b = true ↔ ∀ u ∈ H.nodes, ∀ v ∈ H.nodes, Reach (Spec.Sym (NxEdge H)) u v)) := by
  obtain ⟨G, hG, hwf, hN, hd, hm, hE, hw, hW, hsy⟩ := nx_call hc
  simp only [hG, ← hE, ← hd]
  rw [← hN]
  have hlen : G.len = 0 ↔ G.nodes = [] := by
    unfold Graph.len
    rw [← nodes_length hwf, List.length_eq_zero_iff]
  have hw := is_weakly_connected_correct hwf
  rw [hlen] at hw
  have hcn := fun hf => is_connected_correct hwf (hsy hf)
  rw [hlen] at hcn
  refine ⟨fun h0 hf => ?_, fun h0 => ?_, fun h0 hf => ?_, fun h0 => ?_⟩
  · rcases hcn hf with ⟨-, e⟩ | ⟨e, -⟩
    · exact e
    · exact absurd (hlen.2 h0) e
  · rcases hw with ⟨-, e⟩ | ⟨e, -⟩
    · exact e
    · exact absurd (hlen.2 h0) e
  · rcases hcn hf with ⟨e, -⟩ | ⟨-, b, e, he⟩
    · exact absurd e h0
    · exact ⟨b, e, he.trans ⟨fun h u hu v hv => h u v hu hv, fun h u v hu hv => h u hu v hv⟩⟩
  · rcases hw with ⟨e, -⟩ | ⟨-, b, e, he⟩
    · exact absurd e h0
    · exact ⟨b, e, he.trans ⟨fun h u hu v hv => h u v hu hv, fun h u v hu hv => h u hu v hv⟩⟩

/-- the nodes a call was asked about: all of them, or those of a list -/
def AskedFor (H : NxFull K S α) (nodes : Option (List K)) (u : K) : Prop := u ∈ H.nodes ∧ ∀ l, nodes = some l → u ∈ l

/-- **C105.** `triangles` of an undirected graph: the number of triangles through every node asked for. -/
theorem nx_triangles (hc : NxCall one H a x) (hu : isDirectedClass H.cls = false) {nodes : Option (List K)}
    (hn : ∀ l, nodes = some l → ∀ u ∈ l, u ∈ H.nodes) :
    IsMapping (fun u => nxRun one H a (itemOf (fun G => triangles G nodes) u))
      fun u t => AskedFor H nodes u ∧ 2 * t = triPairs H.nodes (NxEdge H) u := by
  obtain ⟨G, hG, hwf, hN, hd, hm, hE, hw, hW, hsy⟩ := nx_call hc
  simp only [hG, AskedFor]
  rw [← hN] at hn
  refine nx_move hN hE (fun N E _ => IsMapping _ fun u t => (u ∈ N ∧ ∀ l, nodes = some l → u ∈ l) ∧
    2 * t = triPairs N E u) ?_
  obtain ⟨r, hr, hv⟩ := triangles_correct hwf (hsy (hd.trans hu)) hn
  exact nxItem_mapping hwf (f := fun G => triangles G nodes) hr hv

/-- **C105.** `clustering` of an undirected graph: triangles through the node over pairs of neighbours. -/
theorem nx_clustering (hc : NxCall one H a x) (hu : isDirectedClass H.cls = false) {nodes : Option (List K)}
    (hn : ∀ l, nodes = some l → ∀ u ∈ l, u ∈ H.nodes) :
    IsMapping (fun u => nxRun one H a (itemOf (fun G => clustering G nodes) u))
      fun u c => AskedFor H nodes u ∧ c = (triPairs H.nodes (NxEdge H) u : ℚ) /
        ((degree H.nodes (NxEdge H) u * (degree H.nodes (NxEdge H) u - 1) : Nat) : ℚ) := by
  obtain ⟨G, hG, hwf, hN, hd, hm, hE, hw, hW, hsy⟩ := nx_call hc
  simp only [hG, AskedFor]
  rw [← hN] at hn
  refine nx_move hN hE (fun N E _ => IsMapping _ fun u c => (u ∈ N ∧ ∀ l, nodes = some l → u ∈ l) ∧
    c = (triPairs N E u : ℚ) / ((degree N E u * (degree N E u - 1) : Nat) : ℚ)) ?_
  obtain ⟨r, hr, hv⟩ := clustering_correct hwf (hsy (hd.trans hu)) hn
  exact nxItem_mapping hwf (f := fun G => clustering G nodes) hr hv

/-- **C105.** `transitivity` of an undirected graph: closed over all pairs of neighbours. -/
theorem nx_transitivity (hc : NxCall one H a x) (hu : isDirectedClass H.cls = false) :
    nxRun one H a (fun G => .ok (transitivity G)) =
      .ok (((sumOver H.nodes fun u => triPairs H.nodes (NxEdge H) u : Nat) : ℚ) /
        ((sumOver H.nodes fun u =>
          degree H.nodes (NxEdge H) u * (degree H.nodes (NxEdge H) u - 1) : Nat) : ℚ)) := by
  obtain ⟨G, hG, hwf, hN, hd, hm, hE, hw, hW, hsy⟩ := nx_call hc
  rw [hG]
  refine nx_move hN hE (fun N E _ => Except.ok (transitivity G) =
    Except.ok (((sumOver N fun u => triPairs N E u : Nat) : ℚ) /
        ((sumOver N fun u => degree N E u * (degree N E u - 1) : Nat) : ℚ))) ?_
  exact congrArg _ (transitivity_correct hwf (hsy (hd.trans hu))).1

/-- **C105.** `average_clustering` of an undirected graph: the mean over the nodes; `count_zeros=False` leaves out the
nodes whose coefficient is 0. -/
theorem nx_average_clustering (hc : NxCall one H a x) (hu : isDirectedClass H.cls = false) {z : Bool} :
    nxRun one H a (fun G => averageClustering G none z) =
      let c := fun u => (triPairs H.nodes (NxEdge H) u : ℚ) /
        ((degree H.nodes (NxEdge H) u * (degree H.nodes (NxEdge H) u - 1) : Nat) : ℚ)
      meanOf (if z then H.nodes else H.nodes.filter fun u => c u ≠ 0) c := by
  obtain ⟨G, hG, hwf, hN, hd, hm, hE, hw, hW, hsy⟩ := nx_call hc
  rw [hG]
  refine nx_move hN hE (fun N E _ => averageClustering G none z =
    let c := fun u => (triPairs N E u : ℚ) / ((degree N E u * (degree N E u - 1) : Nat) : ℚ)
    meanOf (if z then N else N.filter fun u => c u ≠ 0) c) ?_
  rw [average_clustering_correct hwf (hd.trans hu) (hsy (hd.trans hu)) (by simp)]
  split_ifs with h0 hz hz
  · have : G.nodes = [] := List.length_eq_zero_iff.1 ((nodes_length hwf).trans h0)
    simp [meanOf, this]
  · have : G.nodes = [] := List.length_eq_zero_iff.1 ((nodes_length hwf).trans h0)
    simp [meanOf, this]
  · rfl
  · rfl

/-- **C105.** `degree_centrality`, and for directed graphs `in_degree_centrality`, `out_degree_centrality`: the
number of edges at the node over the number of other nodes; 1 in a graph of one node. -/
theorem nx_degree_centrality {F : Type} [Field F] [DecidableEq F] {one : F} {H : NxFull K S F} {a : NxArgs S F}
    {x : Option S} (hc : NxCall one H a x) :
    let scale := fun d : Nat => if H.nodes.length ≤ 1 then (1 : F) else (d : F) / ((H.nodes.length : F) - 1)
    IsMapping (fun u => nxRun one H a (itemOf (fun G => .ok (degreeCentrality G : Vec G.n F)) u))
      (fun u c => u ∈ H.nodes ∧ c = scale (outDeg H.nodes (NxEdge H) u +
        if isDirectedClass H.cls then inDeg H.nodes (NxEdge H) u else 0)) ∧
    (isDirectedClass H.cls = true →
      IsMapping (fun u => nxRun one H a (itemOf (fun G => (inDegreeCentrality G : Except Err (Vec G.n F))) u))
        (fun u c => u ∈ H.nodes ∧ c = scale (inDeg H.nodes (NxEdge H) u)) ∧
      IsMapping (fun u => nxRun one H a (itemOf (fun G => (outDegreeCentrality G : Except Err (Vec G.n F))) u))
        (fun u c => u ∈ H.nodes ∧ c = scale (outDeg H.nodes (NxEdge H) u))) := by
  obtain ⟨G, hG, hwf, hN, hd, hm, hE, hw, hW, hsy⟩ := nx_call hc
  simp only [hG, ← hd]
  have hview : ∀ {v : Vec G.n F} {c : K → F}, (∀ u, G.Node u → G.view v u = some (c u)) →
      ∀ u y, G.view v u = some y ↔ u ∈ G.nodes ∧ y = c u := by
    intro v c hv u y
    by_cases hu : G.Node u
    · rw [hv u hu]
      exact ⟨fun e => ⟨hu, (Option.some.inj e).symm⟩, fun e => congrArg some e.2.symm⟩
    · constructor
      · intro e
        obtain ⟨i, hi, -⟩ := (view_eq_some hwf).1 e
        exact absurd hi.node hu
      · exact fun e => absurd e.1 hu
  obtain ⟨hd1, hd2⟩ : (G.directed = true → ∀ u, G.Node u → G.view (degreeCentrality G : Vec G.n F) u = some
      (if G.nodes.length ≤ 1 then 1 else
        ((outDeg G.nodes G.Edge u + if G.directed then inDeg G.nodes G.Edge u else 0 : Nat) : F) /
          ((G.nodes.length : F) - 1))) ∧
      (G.directed = false → ∀ u, G.Node u → G.view (degreeCentrality G : Vec G.n F) u = some
      (if G.nodes.length ≤ 1 then 1 else
        ((outDeg G.nodes G.Edge u + if G.directed then inDeg G.nodes G.Edge u else 0 : Nat) : F) /
          ((G.nodes.length : F) - 1))) := by
    constructor
    · intro ht u hu
      rw [degree_centrality_directed hwf ht hu, if_pos ht]
    · intro hf u hu
      rw [degree_centrality_undirected hwf hf hu, hf]
      simp only [Bool.false_eq_true, if_false, Nat.add_zero]
  have hdeg : ∀ u, G.Node u → G.view (degreeCentrality G : Vec G.n F) u = some
      (if G.nodes.length ≤ 1 then 1 else
        ((outDeg G.nodes G.Edge u + if G.directed then inDeg G.nodes G.Edge u else 0 : Nat) : F) /
          ((G.nodes.length : F) - 1)) := by
    cases hb : G.directed with
    | true => rw [hb] at hd1; exact hd1 rfl
    | false => rw [hb] at hd2; exact hd2 rfl
  refine ⟨?_, fun ht => ?_⟩
  · refine nx_move hN hE (fun N E _ => IsMapping _ fun u c => u ∈ N ∧ c =
      if N.length ≤ 1 then 1 else ((outDeg N E u + if G.directed then inDeg N E u else 0 : Nat) : F) /
        ((N.length : F) - 1)) ?_
    exact nxItem_mapping hwf (f := fun G => .ok (degreeCentrality G : Vec G.n F)) rfl (hview hdeg)
  · obtain ⟨vin, vout, h1, h2, h3⟩ := in_out_degree_centrality (F := F) hwf ht
    constructor
    · refine nx_move hN hE (fun N E _ => IsMapping _ fun u c => u ∈ N ∧ c =
        if N.length ≤ 1 then 1 else (inDeg N E u : F) / ((N.length : F) - 1)) ?_
      exact nxItem_mapping hwf (f := fun G => (inDegreeCentrality G : Except Err (Vec G.n F))) h1
        (hview fun u hu => (h3 u hu).1)
    · refine nx_move hN hE (fun N E _ => IsMapping _ fun u c => u ∈ N ∧ c =
        if N.length ≤ 1 then 1 else (outDeg N E u : F) / ((N.length : F) - 1)) ?_
      exact nxItem_mapping hwf (f := fun G => (outDegreeCentrality G : Except Err (Vec G.n F))) h2
        (hview fun u hu => (h3 u hu).2)

/-! ## weighted paths -/

section
variable {α : Type} [AddCommGroup α] [LinearOrder α] [IsOrderedAddMonoid α] {one : α} {H : NxFull K S α}
  {a : NxArgs S α}

/-- the weighted edges of the NetworkX graph -/
abbrev NxW (one : α) (H : NxFull K S α) (x : Option S) : K → K → α → Prop :=
  fun u v w => nxWeight one H x u v = some w

/-- **C105.** `single_source_bellman_ford_path_length`: the shortest weighted distances, or `Unbounded` exactly when a
negative cycle is reachable.  `iso`: what the `is_iso` lookup says, if it is right. -/
theorem nx_single_source_bellman_ford_path_length (hc : NxCall one H a x) {iso : Option α}
    (hiso : ∀ c, iso = some c → ∀ u v w, NxW one H x u v w → w = c) (fdiv : α → α → Int) {s : K} (hs : s ∈ H.nodes) :
    (NegCycleFrom (NxW one H x) s → ∀ u,
      nxRun one H a (itemOf (fun G => singleSourceBF G iso fdiv s none) u) = .error .unbounded) ∧
    (¬ NegCycleFrom (NxW one H x) s →
      IsMapping (fun u => nxRun one H a (itemOf (fun G => singleSourceBF G iso fdiv s none) u))
        fun u d => IsWDist (NxW one H x) s d u) := by
  obtain ⟨G, hG, hwf, hN, hd, hm, hE, hw, hW, hsy⟩ := nx_call hc
  simp only [hG, NxW]
  unfold NxW at hiso
  rw [← hN] at hs
  show (NegCycleFrom (fun u v w => nxWeight one H x u v = some w) s → _) ∧
    (¬ NegCycleFrom (fun u v w => nxWeight one H x u v = some w) s → IsMapping _ fun u d =>
      IsWDist (fun u v w => nxWeight one H x u v = some w) s d u)
  rw [← hW]
  have hiso' : IsoValid G iso := by
    intro c hc u v w e
    rw [hW] at e
    exact hiso c hc u v w e
  rcases single_source_bellman_ford_path_length_correct hwf hsy hiso' fdiv hs with ⟨hn, he⟩ | ⟨hn, r, hr, hv⟩
  · refine ⟨fun _ u => ?_, fun h => absurd hn h⟩
    unfold itemOf
    beta_reduce
    rw [he]
    rfl
  · exact ⟨fun h => absurd h hn, fun _ => nxItem_mapping hwf (f := fun G => singleSourceBF G iso fdiv s none) hr hv⟩

/-- **C105.** `negative_edge_cycle`. -/
theorem nx_negative_edge_cycle (hc : NxCall one H a x) :
    ∃ b, nxRun one H a (fun G => .ok (negativeEdgeCycle G)) = .ok b ∧
      (b = true ↔ ∃ u ∈ H.nodes, NegCycleAt (NxW one H x) u) := by
  obtain ⟨G, hG, hwf, hN, hd, hm, hE, hw, hW, hsy⟩ := nx_call hc
  rw [hG]
  refine ⟨_, rfl, ?_⟩
  rw [negative_edge_cycle_correct hwf hsy, hW, ← hN]
  exact ⟨fun ⟨u, h1, h2⟩ => ⟨u, h1, h2⟩, fun ⟨u, h1, h2⟩ => ⟨u, h1, h2⟩⟩

end

/-- **C105.** `single_target_shortest_path_length`, `node_connected_component`, `descendants_at_distance`. -/
theorem nx_bfs_sets (hc : NxCall one H a x) {s : K} (hs : s ∈ H.nodes) (c : Option Int)
    (hcut : ∀ x, c = some x → 0 ≤ x) (d : Nat) :
    IsMapping (fun u => nxRun one H a (itemOf (fun G => singleTargetSPL G s c) u))
      (fun u d => (u ∈ H.nodes ∧ IsDist (NxEdge H) u d s) ∧ Within c d) ∧
    IsSet (nxRun one H a (elemsOf fun G => nodeConnectedComponent G s)) (Reach (NxEdge H) s) ∧
    IsSet (nxRun one H a (elemsOf fun G => descendantsAtDistance G s d)) (IsDist (NxEdge H) s d) := by
  obtain ⟨G, hG, hwf, hN, hd, hm, hE, hw, hW, hsy⟩ := nx_call hc
  simp only [hG, ← hE]
  rw [← hN] at hs ⊢
  obtain ⟨r, hr, hv⟩ := single_target_shortest_path_length_correct hwf hsy hs c hcut
  obtain ⟨r1, hr1, hv1⟩ := node_connected_component_correct hwf hs
  obtain ⟨r2, hr2, hv2⟩ := descendants_at_distance_correct hwf hs d
  exact ⟨nxItem_mapping hwf (f := fun G => singleTargetSPL G s c) hr hv,
    nxElems_set hwf (f := fun G => nodeConnectedComponent G s) hr1 hv1,
    nxElems_set hwf (f := fun G => descendantsAtDistance G s d) hr2 hv2⟩

/-- **C105.** `isolates`, `is_isolate`. -/
theorem nx_isolates (hc : NxCall one H a x) :
    IsSet (nxRun one H a (elemsOf fun G => .ok (isolates G))) (fun u => u ∈ H.nodes ∧ Isolated (NxEdge H) u) ∧
    ∀ u, (u ∈ H.nodes → ∃ b, nxRun one H a (fun G => isIsolate G u) = .ok b ∧
        (b = true ↔ Isolated (NxEdge H) u)) ∧
      (u ∉ H.nodes → nxRun one H a (fun G => isIsolate G u) = .error .keyError) := by
  obtain ⟨G, hG, hwf, hN, hd, hm, hE, hw, hW, hsy⟩ := nx_call hc
  simp only [hG, ← hE, ← hN]
  classical
  exact ⟨nxElems_set hwf (f := fun G => .ok (isolates G)) rfl (isolates_correct hwf hsy).1,
    fun u => is_isolate_correct hwf hsy u⟩

/-- **C105.** `is_tournament` and `score_sequence` of a directed graph. -/
theorem nx_tournament (hc : NxCall one H a x) (hdir : isDirectedClass H.cls = true) :
    (∃ b, nxRun one H a isTournament = .ok b ∧ (b = true ↔ Tournament H.nodes (NxEdge H))) ∧
    ∃ l, nxRun one H a scoreSequence = .ok l ∧ l.Pairwise (· ≤ ·) ∧
      l.Perm (H.nodes.map (outDeg H.nodes (NxEdge H))) := by
  obtain ⟨G, hG, hwf, hN, hd, hm, hE, hw, hW, hsy⟩ := nx_call hc
  simp only [hG]
  refine nx_move hN hE (fun N E _ => (∃ b, isTournament G = .ok b ∧ (b = true ↔ Tournament N E)) ∧
    ∃ l, scoreSequence G = .ok l ∧ l.Pairwise (· ≤ ·) ∧ l.Perm (N.map (outDeg N E))) ?_
  exact ⟨is_tournament_correct hwf (hd.trans hdir), score_sequence_correct hwf (hd.trans hdir)⟩

/-- **C105.** `overall_reciprocity` of a directed graph. -/
theorem nx_overall_reciprocity (hc : NxCall one H a x) (hdir : isDirectedClass H.cls = true) :
    nxRun one H a overallReciprocity = if edgeCount H.nodes (NxEdge H) = 0 then .error .emptyGraph
      else .ok ((mutualEdges H.nodes (NxEdge H) : ℚ) / edgeCount H.nodes (NxEdge H)) := by
  obtain ⟨G, hG, hwf, hN, hd, hm, hE, hw, hW, hsy⟩ := nx_call hc
  rw [hG]
  refine nx_move hN hE (fun N E _ => overallReciprocity G = if edgeCount N E = 0 then .error .emptyGraph
      else .ok ((mutualEdges N E : ℚ) / edgeCount N E)) ?_
  exact overall_reciprocity_correct hwf (hd.trans hdir)

/-- **C105.** `cut_size` and `volume` without weights, `is_dominating_set`, `is_simple_path`. -/
theorem nx_cuts (hc : NxCall one H a x) (A B : List K) :
    nxRun one H a (fun G => cutSize G A (some B)) =
      .ok (edgesFromTo H.nodes (NxEdge H) (· ∈ A) (· ∈ B) +
        if isDirectedClass H.cls then edgesFromTo H.nodes (NxEdge H) (· ∈ B) (· ∈ A) else 0) ∧
    ((∀ u ∈ A, u ∈ H.nodes) →
      nxRun one H a (fun G => volume G A) = .ok (vol H.nodes (NxEdge H) (· ∈ A))) ∧
    (∃ b, nxRun one H a (fun G => isDominatingSet G A) = .ok b ∧
      (b = true ↔ ∀ v ∈ H.nodes, v ∉ A → ∃ u ∈ A, NxEdge H u v)) ∧
    (∃ b, nxRun one H a (fun G => isSimplePath G A) = .ok b ∧ (b = true ↔ SimplePath H.nodes (NxEdge H) A)) := by
  obtain ⟨G, hG, hwf, hN, hd, hm, hE, hw, hW, hsy⟩ := nx_call hc
  simp only [hG, ← hd]
  refine nx_move hN hE (fun N E _ =>
    cutSize G A (some B) = .ok (edgesFromTo N E (· ∈ A) (· ∈ B) +
        if G.directed then edgesFromTo N E (· ∈ B) (· ∈ A) else 0) ∧
    ((∀ u ∈ A, u ∈ N) → volume G A = .ok (vol N E (· ∈ A))) ∧
    (∃ b, isDominatingSet G A = .ok b ∧ (b = true ↔ ∀ v ∈ N, v ∉ A → ∃ u ∈ A, E u v)) ∧
    (∃ b, isSimplePath G A = .ok b ∧ (b = true ↔ SimplePath N E A))) ?_
  exact ⟨cut_size_correct hwf A B, fun h => volume_correct hwf h, is_dominating_set_correct hwf A,
    is_simple_path_correct hwf A⟩

/-! ## ranks -/

section
variable {F : Type} [Field F] [LinearOrder F] {one : F} {H : NxFull K S F} {a : NxArgs S F}

/-- a dict argument that describes a distribution over the nodes -/
def NxDist (H : NxFull K S F) (d : Option (List (K × F))) : Prop :=
  ∀ l, d = some l → l ≠ [] ∧ (l.map Prod.fst).Nodup ∧ (∀ k b, (k, b) ∈ l → k ∈ H.nodes) ∧
    sumOver H.nodes (valueIn l) ≠ 0

/-- `f(G)[u]` where `f` returns `{}` for the null graph -/
def itemOpt {β : Type} (f : (G : Graph K F) → Except Err (Option (Vec G.n β))) (u : K) (G : Graph K F) :
    Except Err β := do
  match ← f G with
  | none => .error .keyError
  | some v => item G v u

/-- **C105.** `pagerank` of a graph with edges whose nodes all have out-weight 0 only if they have no out-edge: the
first iterate `k + 1` of the PageRank map that moved less than `N * tol`, or `PowerIterationFailedConvergence` when
there is none among the first `max_iter`. -/
theorem nx_pagerank [IsStrictOrderedRing F] (hc : NxCall one H a x) (hedge : ∃ u v, NxEdge H u v) {iso : Option F}
    (hiso : ∀ c, iso = some c → ∀ u v w, nxWeight one H x u v = some w → w = c)
    (hrows : ∀ u ∈ H.nodes, ¬ Dangling H.nodes (nxWeight one H x) u → outWeight H.nodes (nxWeight one H x) u ≠ 0)
    {pers nstart dangling : Option (List (K × F))} (hp : NxDist H pers) (hn : NxDist H nstart)
    (hdg : NxDist H dangling) (alpha : F) (maxIter : Int) (tol : F) :
    let p := distOf H.nodes pers (uniform H.nodes)
    let T := prMap H.nodes (nxWeight one H x) alpha p (distOf H.nodes dangling p)
    let x0 := distOf H.nodes nstart (uniform H.nodes)
    let Small := fun k => l1 H.nodes (T^[k] x0) (T^[k + 1] x0) < H.nodes.length * tol
    let run := fun u => nxRun one H a
      (itemOpt (fun G => pagerank G iso alpha pers maxIter tol nstart dangling) u)
    (∀ k : Nat, (k : Int) < maxIter → Small k → (∀ j < k, ¬ Small j) →
      ∀ u ∈ H.nodes, run u = .ok (T^[k + 1] x0 u)) ∧
    ((∀ k : Nat, (k : Int) < maxIter → ¬ Small k) → ∀ u, run u = .error .convergence) := by
  obtain ⟨G, hG, hwf, hN, hd, hm, hE, hw, hW, hsy⟩ := nx_call hc
  simp only [hG]
  rw [← hN, ← hw]
  rw [← hN, ← hw] at hrows
  rw [← hE] at hedge
  have hdist : ∀ {d}, NxDist H d → ∀ l, d = some l → Proofs.Power.ValidDict G l ∧ sumOver G.nodes (valueIn l) ≠ 0 := by
    intro d hd l hl
    obtain ⟨h1, h2, h3, h4⟩ := hd l hl
    rw [← hN] at h3 h4
    exact ⟨⟨h1, h2, h3⟩, h4⟩
  have ha : PRArgs G iso pers nstart dangling := by
    refine ⟨?_, hrows, hdist hp, hdist hn, fun _ => hdist hdg⟩
    intro c hc u v w e
    rw [hW] at e
    exact hiso c hc u v w e
  obtain ⟨h1, h2⟩ := pagerank_correct hwf hedge ha alpha maxIter tol
  unfold prStart prT at h1 h2
  refine ⟨fun k hk hs hf u hu => ?_, fun hno u => ?_⟩
  · cases hR : pagerank G iso alpha pers maxIter tol nstart dangling with
    | error e => exact absurd hs (((h2 e).1 hR).2 k hk)
    | ok R =>
      obtain ⟨k', hk', ⟨r, rfl, hv⟩, hs', hf'⟩ := h1 R hR
      have : k' = k := by
        rcases Nat.lt_trichotomy k' k with e | e | e
        · exact absurd hs' (hf k' e)
        · exact e
        · exact absurd hs (hf' k e)
      subst this
      unfold itemOpt
      beta_reduce
      rw [hR]
      show item G r u = _
      rw [item_eq hwf, hv u hu]
  · unfold itemOpt
    beta_reduce
    rw [(h2 .convergence).2 ⟨rfl, hno⟩]
    rfl

end

/-- **C105.** A call whose conversion is not supported raises what the conversion raises; `f` never runs. -/
theorem nx_unsupported {α : Type} [DecidableEq α] [AddMonoid α] {one : α} {H : NxFull K S α} {a : NxArgs S α}
    (hg : FullWF H) (hs : ∀ x, ¬ Supported one H a x) {β : Type} (f : Graph K α → Except Err β) :
    nxRun one H a f = .error .notImplemented ∨ nxRun one H a f = .error .typeError := by
  unfold nxRun
  rcases convert_from_nx_unsupported hg hs with e | ⟨e, -⟩
  · rw [e]; exact .inl rfl
  · rw [e]; exact .inr rfl

end Props

namespace Ex

/-- an undirected multigraph with node names, attributes, parallel edges and a missing weight -/
def nxm : NxFull String String Int where
  cls := .multigraph
  nodes := ["d", "a", "c", "b"]
  data := fun u v =>
    if (u = "a" ∧ v = "b") ∨ (u = "b" ∧ v = "a") then [[("weight", 5)], []]
    else if (u = "b" ∧ v = "c") ∨ (u = "c" ∧ v = "b") then [[("weight", 2), ("color", 7)]]
    else if (u = "a" ∧ v = "c") ∨ (u = "c" ∧ v = "a") then [[]]
    else []
  nodeAttrs := fun _ => []
  graphAttrs := [("name", 0)]

/-- the conversion NetworkX asks for with `weight="weight"` -/
def nxa : NxArgs String Int := { edgeAttrs := some [("weight", some 1)] }

end Ex

namespace Props

theorem nxm_call : NxCall (1 : Int) _root_.Ex.nxm _root_.Ex.nxa (some "weight") where
  wf := ⟨by decide, by
    intro u v h
    unfold _root_.Ex.nxm at h ⊢
    dsimp only at h ⊢
    split_ifs at h with h1 h2 h3
    · rcases h1 with ⟨rfl, rfl⟩ | ⟨rfl, rfl⟩ <;> decide
    · rcases h2 with ⟨rfl, rfl⟩ | ⟨rfl, rfl⟩ <;> decide
    · rcases h3 with ⟨rfl, rfl⟩ | ⟨rfl, rfl⟩ <;> decide
    · exact absurd rfl h⟩
  symm := by
    intro _ u v
    unfold _root_.Ex.nxm
    dsimp only
    simp only [and_comm, or_comm]
  ok := ⟨by simp [_root_.Ex.nxa], rfl, by simp [_root_.Ex.nxa], by decide,
    [("weight", some 1)], .inr ⟨.inl rfl, rfl⟩, .inr ⟨"weight", some 1, rfl, rfl, .inr rfl, rfl⟩⟩

-- weights: 5 + 1, 2, 1; so b - c - a is shorter than b - a
example : nxWeight (1 : Int) _root_.Ex.nxm (some "weight") "a" "b" = some 6 ∧
    nxRun (1 : Int) _root_.Ex.nxm _root_.Ex.nxa (itemOf (fun G => singleSourceBF G none (· / ·) "b" none) "a") = .ok 3 ∧
    nxRun (1 : Int) _root_.Ex.nxm _root_.Ex.nxa (itemOf (fun G => singleSourceSPL G "b" none) "a") = .ok 1 ∧
    nxRun (1 : Int) _root_.Ex.nxm _root_.Ex.nxa (itemOf (fun G => singleSourceSPL G "b" none) "d") = .error .keyError ∧
    nxRun (1 : Int) _root_.Ex.nxm _root_.Ex.nxa (itemOf (fun G => triangles G none) "a") = .ok 1 ∧
    nxRun (1 : Int) _root_.Ex.nxm _root_.Ex.nxa (elemsOf fun G => descendants G "a") = .ok ["c", "b"] := by
  decide +kernel

-- what is not supported: two attributes, or a node attribute
example : nxRun (1 : Int) _root_.Ex.nxm { preserveEdge := true } (fun G => .ok G.n) = .error .notImplemented := by
  decide +kernel

end Props
