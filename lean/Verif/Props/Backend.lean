import Verif.Props.Convert
import Verif.Props.Operators
import Verif.Props.Ego
import Verif.Props.Truss

/-! # C103 graph-valued calls through the NetworkX backend

`nx.f(H, backend="graphblas")` converts `H`, runs `f` and converts the result back
(interface.py:174-265): `from_networkx`, `f`, `to_networkx`.  The theorems speak about the NetworkX graphs on both
sides only. -/

open GB Spec Model Model.Graph Proofs

namespace Spec

/-- the weight of the edge `u v` in a NetworkX graph: a missing attribute counts as `one`; `none`: no edge -/
def nxWt {K α : Type} (one : α) (H : NX K α) (u v : K) : Option α := (H.adj u v).map fun d => d.getD one

/-- `R` is a NetworkX graph with the nodes `N` and exactly the edges `E`, each with its weight stored -/
structure IsNx {K α : Type} (R : NX K α) (directed : Bool) (N : K → Prop) (E : K → K → α → Prop) : Prop where
  wf : R.WF
  kind : R.directed = directed
  nodes : ∀ u, u ∈ R.nodes ↔ N u
  edges : ∀ u v d, R.adj u v = some d ↔ ∃ w, d = some w ∧ E u v w

end Spec

namespace Props

variable {K α : Type} [DecidableEq K]

/-- `nx.f(H, backend="graphblas")` for a graph-valued `f` of one graph -- interface.py:174-249 -/
def backend1 {K' β : Type} [DecidableEq K'] (one : α) (f : Graph K α → Except Err (Graph K' β)) (H : NX K α) :
    Except Err (NX K' β) := do toNX (← f (fromNX one H))
/-- the same for a function of two graphs -- interface.py:174-249 -/
def backend2 {K' β : Type} [DecidableEq K'] (one : α) (f : Graph K α → Graph K α → Except Err (Graph K' β))
    (H I : NX K α) : Except Err (NX K' β) := do toNX (← f (fromNX one H) (fromNX one I))

theorem fromNX_node (one : α) {H : NX K α} (hH : H.WF) (u : K) : (fromNX one H).Node u ↔ u ∈ H.nodes := by
  have := (from_networkx_wf hH one).2.1
  show u ∈ (fromNX one H).nodes ↔ _
  rw [this]

theorem fromNX_wedge (one : α) {H : NX K α} (hH : H.WF) (u v : K) (w : α) :
    (fromNX one H).WEdge u v w ↔ nxWt one H u v = some w := by
  rw [from_networkx_edges hH]
  unfold nxWt
  cases H.adj u v <;> simp [eq_comm]

theorem fromNX_edge (one : α) {H : NX K α} (hH : H.WF) (u v : K) :
    (fromNX one H).Edge u v ↔ (H.adj u v).isSome := by
  rw [edge_iff_wedge]
  simp only [fromNX_wedge one hH, nxWt]
  cases H.adj u v <;> simp

theorem nx_symm_of_wedge {β : Type} {R : Graph K β} (h : R.WF)
    (hs : ∀ u v w, R.WEdge u v w → R.WEdge v u w) : R.Symm := by
  have key : ∀ i j w, R.A i j = some w → R.A j i = some w := by
    intro i j w e
    obtain ⟨j', i', hj, hi, e'⟩ := hs _ _ w ⟨i, j, keyFn_at h i, keyFn_at h j, e⟩
    rw [At.id_unique h hj (keyFn_at h j), At.id_unique h hi (keyFn_at h i)] at e'
    exact e'
  intro i j
  cases e : R.A i j with
  | some w => exact (key i j w e).symm
  | none =>
    cases e' : R.A j i with
    | none => rfl
    | some w => rw [key j i w e'] at e; cases e

/-- what the conversion back does, given what `f` returned -/
theorem toNX_isNx {β : Type} {R : Graph K β} (h : R.WF) {d : Bool} (hd : R.directed = d) {N : K → Prop}
    {E : K → K → β → Prop} (hN : ∀ u, R.Node u ↔ N u) (hE : ∀ u v w, R.WEdge u v w ↔ E u v w)
    (hs : d = false → ∀ u v w, E u v w → E v u w) :
    ∃ X, toNX R = .ok X ∧ IsNx X d N E := by
  have hsym : R.directed = false → R.Symm := by
    intro hf
    refine nx_symm_of_wedge h fun u v w e => ?_
    rw [hE] at e ⊢
    exact hs (hd ▸ hf) _ _ _ e
  obtain ⟨X, hX, hn, hdir, hadj⟩ := to_networkx_correct h hsym
  have hedges : ∀ u v d, X.adj u v = some d ↔ ∃ w, d = some w ∧ E u v w := by
    intro u v d
    rw [hadj]
    simp only [hE]
  refine ⟨X, hX, ⟨?_, ?_, ?_⟩, hdir.trans hd, ?_, hedges⟩
  · rw [hn]; exact h.keys_nodup
  · intro u v hs'
    obtain ⟨d', hd'⟩ := Option.isSome_iff_exists.1 hs'
    obtain ⟨w, -, e⟩ := (hadj u v d').1 hd'
    rw [hn]
    exact ⟨(edge_iff_wedge.2 ⟨w, e⟩).node_left, (edge_iff_wedge.2 ⟨w, e⟩).node_right⟩
  · intro hf u v
    have hf' : d = false := by rw [← hd, ← hdir]; exact hf
    have key : ∀ u v x, X.adj u v = some x → X.adj v u = some x := by
      intro u v x e
      rw [hedges] at e ⊢
      obtain ⟨w, rfl, e⟩ := e
      exact ⟨w, rfl, hs hf' _ _ _ e⟩
    cases e : X.adj u v with
    | some x => exact (key _ _ _ e).symm
    | none =>
      cases e' : X.adj v u with
      | none => rfl
      | some x => rw [key _ _ _ e'] at e; cases e
  · intro u
    rw [hn]
    exact hN u

variable {H I : NX K α}

omit [DecidableEq K] in
theorem nxWt_symm (one : α) (hH : H.WF) (hd : H.directed = false) (u v : K) : nxWt one H u v = nxWt one H v u := by
  unfold nxWt; rw [hH.symm hd]

theorem wedge_one {β : Type} {R : Graph K β} {one : β} {u v : K} {P : Prop} (he : R.Edge u v ↔ P)
    (hw : ∀ u v w, R.WEdge u v w → w = one) (w : β) : R.WEdge u v w ↔ w = one ∧ P := by
  rw [← he]
  constructor
  · intro e
    exact ⟨hw _ _ _ e, edge_iff_wedge.2 ⟨w, e⟩⟩
  · rintro ⟨hw1, e⟩
    obtain ⟨w', e'⟩ := edge_iff_wedge.1 e
    rw [hw1, ← hw _ _ _ e']
    exact e'

/-- **C103.** `complement`: the same nodes, an edge (weight 1) between different nodes exactly where there was none. -/
theorem backend_complement (hH : H.WF) (one : α) :
    ∃ R, backend1 one (fun G => .ok (complement one G)) H = .ok R ∧
      IsNx R H.directed (· ∈ H.nodes) fun u v w =>
        w = one ∧ u ∈ H.nodes ∧ v ∈ H.nodes ∧ u ≠ v ∧ H.adj u v = none := by
  obtain ⟨hwf, hn, hd⟩ := from_networkx_wf hH one
  obtain ⟨h1, h2, h3, h4, h5⟩ := complement_correct hwf one
  refine toNX_isNx h1 (h2.trans hd) (fun u => (h3 u).trans (fromNX_node one hH u)) ?_ ?_
  · intro u v w
    have he := h4 u v
    rw [fromNX_node one hH, fromNX_node one hH, fromNX_edge one hH] at he
    simp only [Bool.not_eq_true, Option.isSome_eq_false_iff, Option.isNone_iff_eq_none] at he
    exact wedge_one he h5 w
  · rintro hf u v w ⟨rfl, a, b, c, d⟩
    exact ⟨rfl, b, a, c.symm, by rw [← hH.symm hf]; exact d⟩

/-- **C103.** `reverse`: every edge turned round with its weight; undirected graphs are rejected. -/
theorem backend_reverse (hH : H.WF) (one : α) :
    (H.directed = true → ∃ R, backend1 one reverse H = .ok R ∧
      IsNx R true (· ∈ H.nodes) fun u v w => nxWt one H v u = some w) ∧
    (H.directed = false → backend1 one reverse H = .error .algorithm) := by
  obtain ⟨hwf, hn, hd⟩ := from_networkx_wf hH one
  obtain ⟨h1, h2⟩ := reverse_correct hwf
  constructor
  · intro ht
    obtain ⟨R, hR, h3, h4, h5, h6, -⟩ := h1 (hd.trans ht)
    unfold backend1
    rw [hR]
    refine toNX_isNx h3 h4 (fun u => (h5 u).trans (fromNX_node one hH u)) ?_ (by simp)
    intro u v w
    rw [h6, fromNX_wedge one hH]
  · intro hf
    unfold backend1
    rw [h2 (hd.trans hf)]
    rfl

/-- two NetworkX graphs of the same kind, as the binary operators get them -/
structure Pair (H I : NX K α) : Prop where
  left : H.WF
  right : I.WF
  kind : I.directed = H.directed

/-- **C103.** `intersection`: the common nodes and the common edges. -/
theorem backend_intersection (h : Pair H I) (one : α) :
    ∃ R, backend2 one (Model.intersection one) H I = .ok R ∧
      IsNx R H.directed (fun u => u ∈ H.nodes ∧ u ∈ I.nodes) fun u v w =>
        w = one ∧ (H.adj u v).isSome ∧ (I.adj u v).isSome := by
  obtain ⟨hwf, -, hd⟩ := from_networkx_wf h.left one
  obtain ⟨hwf', -, hd'⟩ := from_networkx_wf h.right one
  obtain ⟨R, hR, h3, h4, -, h5, h6, h7⟩ := intersection_correct hwf hwf' rfl rfl one
  unfold backend2
  rw [hR]
  refine toNX_isNx h3 (h4.trans hd) ?_ ?_ ?_
  · intro u; rw [h5, fromNX_node one h.left, fromNX_node one h.right]
  · intro u v w
    have he := h6 u v
    rw [fromNX_edge one h.left, fromNX_edge one h.right] at he
    exact wedge_one he h7 w
  · rintro hf u v w ⟨a, b, c⟩
    rw [h.left.symm hf] at b
    rw [h.right.symm (h.kind.trans hf)] at c
    exact ⟨a, b, c⟩

/-- **C103.** `difference`: for graphs on the same nodes, the edges of the first that the second lacks. -/
theorem backend_difference (h : Pair H I) (one : α) :
    ((∀ u, u ∈ H.nodes ↔ u ∈ I.nodes) → ∃ R, backend2 one (Model.difference one) H I = .ok R ∧
      IsNx R H.directed (· ∈ H.nodes) fun u v w => w = one ∧ (H.adj u v).isSome ∧ I.adj u v = none) ∧
    ((¬ ∀ u, u ∈ H.nodes ↔ u ∈ I.nodes) → backend2 one (Model.difference one) H I = .error .algorithm) := by
  obtain ⟨hwf, -, hd⟩ := from_networkx_wf h.left one
  obtain ⟨hwf', -, hd'⟩ := from_networkx_wf h.right one
  obtain ⟨h1, h2⟩ := difference_correct hwf hwf' rfl rfl one
  simp only [fromNX_node one h.left, fromNX_node one h.right] at h1 h2
  unfold backend2
  constructor
  · intro hN
    obtain ⟨R, hR, h3, h4, -, h5, h6, h7⟩ := h1 hN
    rw [hR]
    refine toNX_isNx h3 (h4.trans hd) h5 ?_ ?_
    · intro u v w
      have he := h6 u v
      rw [fromNX_edge one h.left, fromNX_edge one h.right] at he
      simp only [Bool.not_eq_true, Option.isSome_eq_false_iff, Option.isNone_iff_eq_none] at he
      exact wedge_one he h7 w
    · rintro hf u v w ⟨a, b, c⟩
      rw [h.left.symm hf] at b
      rw [h.right.symm (h.kind.trans hf)] at c
      exact ⟨a, b, c⟩
  · intro hN
    rw [h2 hN]; rfl

/-- **C103.** `symmetric_difference`: for graphs on the same nodes, the edges of exactly one of them. -/
theorem backend_symmetric_difference (h : Pair H I) (one : α) :
    ((∀ u, u ∈ H.nodes ↔ u ∈ I.nodes) → ∃ R, backend2 one (Model.symmetricDifference one) H I = .ok R ∧
      IsNx R H.directed (· ∈ H.nodes) fun u v w => w = one ∧
        ((H.adj u v).isSome ∧ I.adj u v = none ∨ (I.adj u v).isSome ∧ H.adj u v = none)) ∧
    ((¬ ∀ u, u ∈ H.nodes ↔ u ∈ I.nodes) → backend2 one (Model.symmetricDifference one) H I = .error .algorithm) := by
  obtain ⟨hwf, -, hd⟩ := from_networkx_wf h.left one
  obtain ⟨hwf', -, hd'⟩ := from_networkx_wf h.right one
  obtain ⟨h1, h2⟩ := symmetric_difference_correct hwf hwf' rfl rfl one
  simp only [fromNX_node one h.left, fromNX_node one h.right] at h1 h2
  unfold backend2
  constructor
  · intro hN
    obtain ⟨R, hR, h3, h4, -, h5, h6, h7⟩ := h1 hN
    rw [hR]
    refine toNX_isNx h3 (h4.trans hd) h5 ?_ ?_
    · intro u v w
      have he := h6 u v
      rw [fromNX_edge one h.left, fromNX_edge one h.right] at he
      simp only [Bool.not_eq_true, Option.isSome_eq_false_iff, Option.isNone_iff_eq_none] at he
      exact wedge_one he h7 w
    · rintro hf u v w ⟨a, b⟩
      rw [h.left.symm hf, h.right.symm (h.kind.trans hf)] at b
      exact ⟨a, b⟩
  · intro hN
    rw [h2 hN]; rfl

/-- **C103.** `union` of graphs without common nodes. -/
theorem backend_union (h : Pair H I) (one : α) :
    ((∀ u ∈ H.nodes, u ∉ I.nodes) → ∃ R, backend2 one Model.union H I = .ok R ∧
      IsNx R H.directed (fun u => u ∈ H.nodes ∨ u ∈ I.nodes) fun u v w =>
        nxWt one H u v = some w ∨ nxWt one I u v = some w) ∧
    ((∃ u ∈ H.nodes, u ∈ I.nodes) → backend2 one Model.union H I = .error .algorithm) := by
  obtain ⟨hwf, -, hd⟩ := from_networkx_wf h.left one
  obtain ⟨hwf', -, hd'⟩ := from_networkx_wf h.right one
  unfold backend2
  constructor
  · intro hN
    have hN' : ∀ u, (fromNX one H).Node u → ¬ (fromNX one I).Node u := by
      simpa only [fromNX_node one h.left, fromNX_node one h.right] using hN
    obtain ⟨R, hR, h3, h4, -, h5, h6⟩ := union_correct hwf hwf' rfl rfl hN'
    rw [hR]
    refine toNX_isNx h3 (h4.trans hd) ?_ ?_ ?_
    · intro u; rw [h5, fromNX_node one h.left, fromNX_node one h.right]
    · intro u v w
      rw [h6, fromNX_wedge one h.left, fromNX_wedge one h.right]
    · intro hf u v w e
      rwa [nxWt_symm one h.left hf, nxWt_symm one h.right (h.kind.trans hf)] at e
  · rintro ⟨u, hu, hv⟩
    rw [union_overlap rfl rfl ((fromNX_node one h.left u).2 hu) ((fromNX_node one h.right u).2 hv)]
    rfl

/-- **C103.** `full_join`: the union plus every edge between the two graphs. -/
theorem backend_full_join (h : Pair H I) (one : α) :
    ((∀ u ∈ H.nodes, u ∉ I.nodes) → ∃ R, backend2 one (fullJoin one) H I = .ok R ∧
      IsNx R H.directed (fun u => u ∈ H.nodes ∨ u ∈ I.nodes) fun u v w =>
        nxWt one H u v = some w ∨ nxWt one I u v = some w ∨
          w = one ∧ (u ∈ H.nodes ∧ v ∈ I.nodes ∨ u ∈ I.nodes ∧ v ∈ H.nodes)) ∧
    ((∃ u ∈ H.nodes, u ∈ I.nodes) → backend2 one (fullJoin one) H I = .error .algorithm) := by
  obtain ⟨hwf, -, hd⟩ := from_networkx_wf h.left one
  obtain ⟨hwf', -, hd'⟩ := from_networkx_wf h.right one
  unfold backend2
  constructor
  · intro hN
    have hN' : ∀ u, (fromNX one H).Node u → ¬ (fromNX one I).Node u := by
      simpa only [fromNX_node one h.left, fromNX_node one h.right] using hN
    obtain ⟨R, hR, h3, h4, h5, h6⟩ := full_join_correct hwf hwf' rfl rfl hN' one
    rw [hR]
    refine toNX_isNx h3 (h4.trans hd) ?_ ?_ ?_
    · intro u; rw [h5, fromNX_node one h.left, fromNX_node one h.right]
    · intro u v w
      rw [h6, fromNX_wedge one h.left, fromNX_wedge one h.right]
      simp only [fromNX_node one h.left, fromNX_node one h.right]
    · rintro hf u v w (e | e | ⟨rfl, e⟩)
      · exact .inl (by rwa [nxWt_symm one h.left hf] at e)
      · exact .inr (.inl (by rwa [nxWt_symm one h.right (h.kind.trans hf)] at e))
      · exact .inr (.inr ⟨rfl, e.symm.imp And.symm And.symm⟩)
  · rintro ⟨u, hu, hv⟩
    rw [full_join_overlap rfl rfl one ((fromNX_node one h.left u).2 hu) ((fromNX_node one h.right u).2 hv)]
    rfl

/-- **C103, partial.** `compose` of graphs on the same nodes: the weights of the second graph win.  Missing: graphs
on different nodes, where the code goes wrong (C45, `compose_correct_iff`). -/
theorem backend_compose_partial (h : Pair H I) (one : α) (hN : ∀ u, u ∈ H.nodes ↔ u ∈ I.nodes) :
    ∃ R, backend2 one compose H I = .ok R ∧
      IsNx R H.directed (· ∈ H.nodes) fun u v w =>
        nxWt one I u v = some w ∨ I.adj u v = none ∧ nxWt one H u v = some w := by
  obtain ⟨hwf, -, hd⟩ := from_networkx_wf h.left one
  obtain ⟨hwf', -, hd'⟩ := from_networkx_wf h.right one
  obtain ⟨R, hR, h3, h4, -, h5, h6⟩ := compose_same_nodes hwf hwf' rfl rfl
    (by simpa only [fromNX_node one h.left, fromNX_node one h.right] using hN)
  unfold backend2
  rw [hR]
  refine toNX_isNx h3 (h4.trans hd) ?_ ?_ ?_
  · intro u; rw [h5, fromNX_node one h.left]
  · intro u v w
    rw [h6, fromNX_wedge one h.left, fromNX_wedge one h.right, fromNX_edge one h.right]
    simp only [Bool.not_eq_true, Option.isSome_eq_false_iff, Option.isNone_iff_eq_none, and_comm]
  · intro hf u v w e
    rwa [nxWt_symm one h.left hf, nxWt_symm one h.right (h.kind.trans hf), h.right.symm (h.kind.trans hf)] at e

/-- **C103.** `ego_graph`: the subgraph induced by the nodes within the radius. -/
theorem backend_ego_graph (hH : H.WF) (one : α) {choose : α → α → α} {s : K} (hs : s ∈ H.nodes) {r : Int}
    (hr : 0 ≤ r) (center undirected : Bool) :
    ∃ R, backend1 one (fun G => egoGraph choose G s r center undirected) H = .ok R ∧
      let In := fun u => (∃ d : Nat, IsDist (if undirected && H.directed then
          Sym fun u v => (H.adj u v).isSome = true else fun u v => (H.adj u v).isSome = true) s d u ∧ (d : Int) ≤ r) ∧
        (center = false → u ≠ s)
      IsNx R H.directed In fun u v w => nxWt one H u v = some w ∧ In u ∧ In v := by
  obtain ⟨hwf, -, hd⟩ := from_networkx_wf hH one
  obtain ⟨S, hS, hI⟩ := ego_graph_correct hwf (choose := choose) ((fromNX_node one hH s).2 hs) hr center undirected
  have hE : (fromNX one H).Edge = fun u v => (H.adj u v).isSome = true := by
    funext u v; exact propext (fromNX_edge one hH u v)
  rw [hE, hd] at hI
  unfold backend1
  beta_reduce
  rw [hS]
  refine toNX_isNx hI.wf (hI.kind.1.trans hd) hI.nodes ?_ ?_
  · intro u v w
    rw [hI.edges, fromNX_wedge one hH]
  · rintro hf u v w ⟨a, b, c⟩
    exact ⟨by rwa [nxWt_symm one hH hf] at a, c, b⟩

theorem fromNX_at (one : α) (H : NX K α) (u : K) (i : Fin (fromNX one H).n) :
    (fromNX one H).At u i ↔ H.nodes[i.val]? = some u := by
  unfold Graph.At fromNX
  simp [List.mem_zipIdx_iff_getElem?]

/-- **C103.** `disjoint_union`: the nodes become `0, 1, …` in order, first graph first, with all edges and weights. -/
theorem backend_disjoint_union (h : Pair H I) (one : α) :
    ∃ R, backend2 one disjointUnion H I = .ok R ∧
      IsNx R H.directed (· < H.nodes.length + I.nodes.length) fun x y w =>
        (∃ u v, H.nodes[x]? = some u ∧ H.nodes[y]? = some v ∧ nxWt one H u v = some w) ∨
        (∃ u v i j, x = H.nodes.length + i ∧ y = H.nodes.length + j ∧ I.nodes[i]? = some u ∧ I.nodes[j]? = some v ∧
          nxWt one I u v = some w) := by
  obtain ⟨hwf, -, hd⟩ := from_networkx_wf h.left one
  obtain ⟨hwf', -, hd'⟩ := from_networkx_wf h.right one
  obtain ⟨R, f, g, hR, h3, h4, h5, -, -, hf, hg, h6⟩ := disjoint_union_correct hwf hwf' rfl rfl
  unfold backend2
  rw [hR]
  refine toNX_isNx h3 (h4.trans hd) h5 ?_ ?_
  · intro x y w
    rw [h6]
    constructor
    · rintro (⟨u, v, rfl, rfl, e⟩ | ⟨u, v, rfl, rfl, e⟩)
      · refine .inl ⟨u, v, ?_, ?_, (fromNX_wedge one h.left u v w).1 e⟩
        · obtain ⟨i, j, hi, hj, -⟩ := e
          rw [hf u i hi]; exact (fromNX_at one H u i).1 hi
        · obtain ⟨i, j, hi, hj, -⟩ := e
          rw [hf v j hj]; exact (fromNX_at one H v j).1 hj
      · have e2 := (fromNX_wedge one h.right u v w).1 e
        obtain ⟨i, j, hi, hj, -⟩ := e
        exact .inr ⟨u, v, i, j, hg u i hi, hg v j hj, (fromNX_at one I u i).1 hi, (fromNX_at one I v j).1 hj, e2⟩
    · have hlt : ∀ {L : List K} {x u}, L[x]? = some u → x < L.length := by
        intro L x u e
        exact (List.getElem?_eq_some_iff.1 e).1
      rintro (⟨u, v, hx, hy, e⟩ | ⟨u, v, i, j, rfl, rfl, hx, hy, e⟩)
      · exact .inl ⟨u, v, hf u ⟨x, hlt hx⟩ ((fromNX_at one H u ⟨x, hlt hx⟩).2 hx),
          hf v ⟨y, hlt hy⟩ ((fromNX_at one H v ⟨y, hlt hy⟩).2 hy), (fromNX_wedge one h.left u v w).2 e⟩
      · exact .inr ⟨u, v, hg u ⟨i, hlt hx⟩ ((fromNX_at one I u ⟨i, hlt hx⟩).2 hx),
          hg v ⟨j, hlt hy⟩ ((fromNX_at one I v ⟨j, hlt hy⟩).2 hy), (fromNX_wedge one h.right u v w).2 e⟩
  · rintro hf u v w (⟨a, b, p, q, e⟩ | ⟨a, b, i, j, p, q, p', q', e⟩)
    · exact .inl ⟨b, a, q, p, by rwa [nxWt_symm one h.left hf] at e⟩
    · exact .inr ⟨b, a, j, i, q, p, q', p', by rwa [nxWt_symm one h.right (h.kind.trans hf)] at e⟩

/-- **C103.** `k_truss`: the largest subgraph in which every edge lies in `k - 2` triangles, without the nodes that
lost all edges; for `k < 3` edges keep their weight, otherwise they carry their number of triangles. -/
theorem backend_k_truss (hH : H.WF) (hu : H.directed = false) (one : α) (k : Int) :
    ∃ R : NX K (α ⊕ Nat), backend1 one (fun G => kTruss G k) H = .ok R ∧ R.WF ∧ R.directed = false ∧
      let E := fun u v => (R.adj u v).isSome = true
      let E₀ := fun u v => (H.adj u v).isSome = true
      IsSubgraph E₀ E ∧ IsTruss H.nodes k E ∧
      (∀ T, IsSubgraph E₀ T → IsTruss H.nodes k T → ∀ u v, T u v → E u v) ∧
      (∀ u, u ∈ R.nodes ↔ ∃ v, E u v) ∧
      ∀ u v x, R.adj u v = some x →
        (k < 3 ∧ ∃ w, x = some (.inl w) ∧ nxWt one H u v = some w) ∨
        (3 ≤ k ∧ x = some (.inr (countOf H.nodes fun w => E u w ∧ E v w))) := by
  obtain ⟨hwf, hn, hd⟩ := from_networkx_wf hH one
  obtain ⟨T, hT, h1, h2, h3, h4, h5, h6, h7⟩ := k_truss_correct hwf (from_networkx_symm hH one hu) k
  have hsymm : ∀ u v w, T.WEdge u v w → T.WEdge v u w := by
    intro u v x e
    obtain ⟨y, e'⟩ := edge_iff_wedge.1 (h3.symm _ _ (edge_iff_wedge.2 ⟨x, e⟩))
    suffices hxy : y = x by rwa [← hxy]
    rcases h7 _ _ _ e with ⟨hk, w, rfl, hw⟩ | ⟨hk, rfl⟩ <;> rcases h7 _ _ _ e' with ⟨hk', w', rfl, hw'⟩ | ⟨hk', rfl⟩
    · rw [fromNX_wedge one hH] at hw hw'
      rw [nxWt_symm one hH hu, hw] at hw'
      cases hw'; rfl
    · omega
    · omega
    · congr 1
      exact countOf_congr fun w => and_comm
  obtain ⟨R, hR, hI⟩ := toNX_isNx h1 h2 (fun u => Iff.rfl) (fun u v w => Iff.rfl) (fun _ => hsymm)
  have hE : T.Edge = fun u v => (R.adj u v).isSome = true := by
    funext u v
    rw [edge_iff_wedge, eq_iff_iff, Option.isSome_iff_exists]
    simp only [hI.edges]
    exact ⟨fun ⟨w, e⟩ => ⟨some w, w, rfl, e⟩, fun ⟨_, w, _, e⟩ => ⟨w, e⟩⟩
  have hE₀ : (fromNX one H).Edge = fun u v => (H.adj u v).isSome = true := by
    funext u v; exact propext (fromNX_edge one hH u v)
  refine ⟨R, ?_, hI.wf, hI.kind, ?_⟩
  · unfold backend1; beta_reduce; rw [hT]; exact hR
  rw [hn] at h4 h5
  refine ⟨hE ▸ hE₀ ▸ h3, hE ▸ h4, ?_, ?_, ?_⟩
  · rw [hE₀] at h5
    intro T' a b u v e
    have := h5 T' a b u v e
    rwa [hE] at this
  · intro u
    rw [hI.nodes u, h6, hE]
  · intro u v x hx
    obtain ⟨w, rfl, e⟩ := (hI.edges u v x).1 hx
    rcases h7 _ _ _ e with ⟨hk, w', rfl, hw⟩ | ⟨hk, rfl⟩
    · exact .inl ⟨hk, w', rfl, (fromNX_wedge one hH _ _ _).1 hw⟩
    · refine .inr ⟨hk, ?_⟩
      rw [hn]
      congr 2
      refine countOf_congr fun w => ?_
      rw [hE]

/-! ### concrete cases, and a kind of input the promise excludes -/

/-- an undirected NetworkX graph: triangle 1-2-3 (one edge with weight 4), tail 3-7 -/
def Ex.nxa : NX Nat Int where
  nodes := [3, 1, 2, 7]
  directed := false
  adj := fun u v =>
    if (u, v) = (1, 2) ∨ (u, v) = (2, 1) then some none
    else if (u, v) = (2, 3) ∨ (u, v) = (3, 2) then some (some 4)
    else if (u, v) = (1, 3) ∨ (u, v) = (3, 1) then some none
    else if (u, v) = (7, 3) ∨ (u, v) = (3, 7) then some none else none

/-- a directed NetworkX graph with the edge 8 → 9 -/
def Ex.nxd : NX Nat Int where
  nodes := [8, 9]
  directed := true
  adj := fun u v => if (u, v) = (8, 9) then some none else none

theorem Ex.nxa_wf : Ex.nxa.WF := by
  refine ⟨by decide, ?_, ?_⟩
  · intro u v
    simp only [Ex.nxa, Prod.mk.injEq]
    split_ifs with h1 h2 h3 h4
    · intro _; rcases h1 with ⟨rfl, rfl⟩ | ⟨rfl, rfl⟩ <;> simp
    · intro _; rcases h2 with ⟨rfl, rfl⟩ | ⟨rfl, rfl⟩ <;> simp
    · intro _; rcases h3 with ⟨rfl, rfl⟩ | ⟨rfl, rfl⟩ <;> simp
    · intro _; rcases h4 with ⟨rfl, rfl⟩ | ⟨rfl, rfl⟩ <;> simp
    · intro h; cases h
  · intro _ u v
    simp only [Ex.nxa, Prod.mk.injEq]
    congr 1
    · simp only [eq_iff_iff]; omega
    · congr 1
      · simp only [eq_iff_iff]; omega
      · congr 1
        · simp only [eq_iff_iff]; omega
        · congr 1
          simp only [eq_iff_iff]; omega

/-- **C103, finding.** `union` of an undirected and a directed graph is not rejected (NetworkX raises), and the edge
8 → 9 of the directed one is silently lost. -/
theorem backend_union_mixed_loses_edges :
    (∀ u ∈ Ex.nxa.nodes, u ∉ Ex.nxd.nodes) ∧ Ex.nxd.adj 8 9 = some none ∧
    ∃ R, backend2 1 Model.union Ex.nxa Ex.nxd = .ok R ∧ R.directed = false ∧ R.adj 8 9 = none ∧ R.adj 9 8 = none ∧
      R.adj 2 3 = some (some 4) := by
  refine ⟨by decide, by decide, _, rfl, ?_⟩
  decide +kernel

example : Pair Ex.nxa { Ex.nxa with adj := fun _ _ => none } :=
  ⟨Ex.nxa_wf, ⟨Ex.nxa_wf.nodup, by simp, by simp⟩, rfl⟩
example : ∃ R, backend1 1 (fun G => kTruss G 3) Ex.nxa = .ok R ∧ R.nodes = [3, 1, 2] ∧
    R.adj 1 2 = some (some (.inr 1)) := by
  refine ⟨_, rfl, ?_⟩
  decide +kernel
example : ∃ R, backend1 1 (fun G => .ok (complement 1 G)) Ex.nxa = .ok R ∧ R.nodes = [3, 1, 2, 7] ∧
    R.adj 1 7 = some (some 1) ∧ R.adj 1 2 = none := by
  refine ⟨_, rfl, ?_⟩
  decide +kernel

end Props
