import Verif.Props.Local
import Verif.Props.OperatorsErr
import Verif.Props.ExactMisc
import Verif.Props.FloydWarshall
import Verif.Props.Lca

/-!
# C126: a union of separate graphs behaves like its parts

`IsPart P R`: the nodes of `P` are nodes of `R`, and at these nodes `R` has exactly the edges of `P`.
`union(G, H)` consists of the two parts `G` and `H` (`union_splits`).
-/

open GB Spec Model Model.Graph Proofs

namespace Props

section parts
variable {K α : Type} [DecidableEq K] {G H P R : Graph K α}

/-- `P` is a part of `R` that no edge of `R` leaves or enters -/
structure IsPart (P R : Graph K α) : Prop where
  nodes : ∀ u, P.Node u → R.Node u
  out : ∀ u, P.Node u → ∀ v w, R.WEdge u v w ↔ P.WEdge u v w
  into : ∀ v, P.Node v → ∀ u w, R.WEdge u v w ↔ P.WEdge u v w

/-- `R` consists of the separate parts `G` and `H` -/
structure Splits (G H R : Graph K α) : Prop where
  left : IsPart G R
  right : IsPart H R
  disjoint : ∀ u, G.Node u → ¬ H.Node u
  cover : ∀ u, R.Node u → G.Node u ∨ H.Node u

/-- **C126.** what `union(G, H)` returns consists of the parts `G` and `H` -/
theorem union_splits (hG : G.WF) (hH : H.WF) (h1 : G.multi = false) (h2 : H.multi = false)
    (hR : Model.union G H = .ok R) : R.WF ∧ R.directed = G.directed ∧ Splits G H R ∧ (G.Symm → H.Symm → R.Symm) := by
  have hd : ∀ u, G.Node u → ¬ H.Node u := by
    intro u hu hv
    rw [union_overlap h1 h2 hu hv] at hR
    cases hR
  obtain ⟨R', e, hw, hdir, -, hn, he⟩ := union_correct hG hH h1 h2 hd
  rw [hR] at e; cases e
  have nl : ∀ {X : Graph K α} {u v w}, X.WEdge u v w → X.Node u ∧ X.Node v := fun e =>
    have e' := edge_iff_wedge.2 ⟨_, e⟩
    ⟨e'.node_left, e'.node_right⟩
  refine ⟨hw, hdir, ⟨⟨fun u hu => (hn u).2 (.inl hu), fun u hu v w => ?_, fun v hv u w => ?_⟩,
    ⟨fun u hu => (hn u).2 (.inr hu), fun u hu v w => ?_, fun v hv u w => ?_⟩, hd, fun u hu => (hn u).1 hu⟩, ?_⟩
  · rw [he]; exact or_iff_left fun e => hd u hu (nl e).1
  · rw [he]; exact or_iff_left fun e => hd v hv (nl e).2
  · rw [he]; exact or_iff_right fun e => hd u (nl e).1 hu
  · rw [he]; exact or_iff_right fun e => hd v (nl e).2 hv
  · intro sG sH
    refine symm_of_wedge hw fun u v w e => ?_
    rw [he] at e ⊢
    exact e.imp (wedge_of_symm sG) (wedge_of_symm sH)

theorem Splits.swap (h : Splits G H R) : Splits H G R :=
  ⟨h.right, h.left, fun u hu hv => h.disjoint u hv hu, fun u hu => (h.cover u hu).symm⟩

theorem IsPart.edge_out (h : IsPart P R) {u : K} (hu : P.Node u) (v : K) : R.Edge u v ↔ P.Edge u v := by
  rw [edge_iff_wedge, edge_iff_wedge]; exact exists_congr fun w => h.out u hu v w

theorem IsPart.edge_into (h : IsPart P R) {v : K} (hv : P.Node v) (u : K) : R.Edge u v ↔ P.Edge u v := by
  rw [edge_iff_wedge, edge_iff_wedge]; exact exists_congr fun w => h.into v hv u w

theorem IsPart.reach_out (h : IsPart P R) {u v : K} (hu : P.Node u) (hr : Reach P.Edge u v) : P.Node v := by
  obtain ⟨k, hk⟩ := hr
  induction hk with
  | nil => exact hu
  | snoc _ e _ => exact e.node_right

theorem IsPart.sameOut (h : IsPart P R) {s : K} (hs : P.Node s) : SameOut P.Edge R.Edge s :=
  ⟨fun _ hu v => (h.edge_out (h.reach_out hs hu) v).symm⟩

theorem IsPart.sameOut_rev (h : IsPart P R) {s : K} (hs : P.Node s) : SameOut (Rev P.Edge) (Rev R.Edge) s :=
  ⟨fun _ hu v => (h.edge_into (reach_node hs (reach_rev.1 hu)) v).symm⟩

/-- no walk leaves the part -/
theorem IsPart.reach (h : IsPart P R) {s : K} (hs : P.Node s) {u : K} : Reach R.Edge s u ↔ Reach P.Edge s u :=
  ((h.sameOut hs).reach).symm

/-- nor any walk along edges in either direction -/
theorem IsPart.reach_sym (h : IsPart P R) {s : K} (hs : P.Node s) {u : K} (hr : Reach (Spec.Sym R.Edge) s u) :
    P.Node u := by
  obtain ⟨k, hk⟩ := hr
  induction hk with
  | nil => exact hs
  | snoc _ e ih =>
    rcases e with e | e
    · exact ((h.edge_out (ih hs) _).1 e).node_right
    · exact ((h.edge_into (ih hs) _).1 e).node_left

theorem IsPart.symm (h : IsPart P R) (hP : P.WF) (sR : R.Symm) : P.Symm := by
  refine symm_of_wedge hP fun u v w e => ?_
  have e' := edge_iff_wedge.2 ⟨_, e⟩
  exact (h.into u e'.node_left v w).1 (wedge_of_symm sR ((h.out u e'.node_left v w).2 e))

/-- **C126.** searches from, and towards, a node of a part give in the whole graph what they give in the part -/
theorem part_searches (hP : P.WF) (hR : R.WF) (h : IsPart P R) (sP : P.directed = false → P.Symm)
    (sR : R.directed = false → R.Symm) {s : K} (hs : P.Node s) :
    (∀ c, ∃ r q, singleSourceSPL P s c = .ok r ∧ singleSourceSPL R s c = .ok q ∧ ∀ u, P.view r u = R.view q u) ∧
    (∀ c, ∃ r q, singleTargetSPL P s c = .ok r ∧ singleTargetSPL R s c = .ok q ∧ ∀ u, P.view r u = R.view q u) ∧
    (∃ r q, descendants P s = .ok r ∧ descendants R s = .ok q ∧ ∀ u, (P.view r u).isSome = (R.view q u).isSome) ∧
    (∃ r q, ancestors P s = .ok r ∧ ancestors R s = .ok q ∧ ∀ u, (P.view r u).isSome = (R.view q u).isSome) ∧
    (∃ r q, nodeConnectedComponent P s = .ok r ∧ nodeConnectedComponent R s = .ok q ∧
      ∀ u, (P.view r u).isSome = (R.view q u).isSome) ∧
    (∀ d : Nat, ∃ r q, descendantsAtDistance P s d = .ok r ∧ descendantsAtDistance R s d = .ok q ∧
      ∀ u, (P.view r u).isSome = (R.view q u).isSome) ∧
    (∀ t, P.Node t → bidirectionalSPL R s t = bidirectionalSPL P s t ∧ hasPath R s t = hasPath P s t) ∧
    ∀ t, R.Node t → ¬ P.Node t → hasPath R s t = .ok false ∧ hasPath R t s = .ok false ∧
      bidirectionalSPL R s t = .error .noPath ∧ bidirectionalSPL R t s = .error .noPath := by
  obtain ⟨a1, a2, a3, a4, a5⟩ := searches_local hP hR hs (h.nodes s hs) (h.sameOut hs)
  obtain ⟨b1, b2⟩ := ancestors_local hP hR sP sR hs (h.nodes s hs) (h.sameOut_rev hs)
  refine ⟨a1, b2, a2, b1, a3, a4, fun t ht => ⟨((a5 t ht (h.nodes t ht)).1).symm, ((a5 t ht (h.nodes t ht)).2).symm⟩,
    fun t ht hn => ?_⟩
  have n1 : ¬ Reach R.Edge s t := fun hr => hn (h.reach_out hs ((h.reach hs).1 hr))
  have n2 : ¬ Reach R.Edge t s := by
    intro hr
    have := (h.sameOut_rev hs).reach.2 (reach_rev.2 hr)
    exact hn (reach_node hs (reach_rev.1 this))
  have hs' := h.nodes s hs
  refine ⟨?_, ?_, ?_, ?_⟩
  · obtain ⟨b, e, hb⟩ := has_path_correct hR hs' ht
    rw [e, Bool.eq_false_iff.2 fun hb' => n1 (hb.1 hb')]
  · obtain ⟨b, e, hb⟩ := has_path_correct hR ht hs'
    rw [e, Bool.eq_false_iff.2 fun hb' => n2 (hb.1 hb')]
  · rcases bidirectional_shortest_path_length_correct hR hs' ht with ⟨d, hd, -⟩ | ⟨-, e⟩
    · exact absurd ⟨d, hd.1⟩ n1
    · exact e
  · rcases bidirectional_shortest_path_length_correct hR ht hs' with ⟨d, hd, -⟩ | ⟨-, e⟩
    · exact absurd ⟨d, hd.1⟩ n2
    · exact e

/-- **C126.** `ego_graph` of a node of a part is its `ego_graph` in the part -/
theorem part_ego_graph (hP : P.WF) (hR : R.WF) (h : IsPart P R) {choose : α → α → α} {s : K} (hs : P.Node s)
    {r : Int} (hr : 0 ≤ r) (center : Bool) :
    ∃ S T, egoGraph choose P s r center false = .ok S ∧ egoGraph choose R s r center false = .ok T ∧
      (∀ u, S.Node u ↔ T.Node u) ∧ ∀ u v w, S.WEdge u v w ↔ T.WEdge u v w :=
  ego_graph_local hP hR hs (h.nodes s hs)
    (fun u hu v w => (h.out u (h.reach_out hs hu) v w).symm) hr center

theorem IsPart.around (h : IsPart P R) {u : K} (hu : P.Node u) : SameAround P.Edge R.Edge u :=
  ⟨fun v => (h.edge_out hu v).symm, fun v w e _ => (h.edge_out e.node_right w).symm⟩

theorem IsPart.outDeg (h : IsPart P R) (hP : P.WF) (hR : R.WF) {u : K} (hu : P.Node u) :
    Spec.outDeg R.nodes R.Edge u = Spec.outDeg P.nodes P.Edge u :=
  countOf_eq (nodes_nodup hR) (nodes_nodup hP) fun v =>
    ⟨fun x => ⟨((h.edge_out hu v).1 x.2).node_right, (h.edge_out hu v).1 x.2⟩,
     fun x => ⟨h.nodes v x.1, (h.edge_out hu v).2 x.2⟩⟩

theorem IsPart.inDeg (h : IsPart P R) (hP : P.WF) (hR : R.WF) {u : K} (hu : P.Node u) :
    Spec.inDeg R.nodes R.Edge u = Spec.inDeg P.nodes P.Edge u :=
  countOf_eq (nodes_nodup hR) (nodes_nodup hP) fun v =>
    ⟨fun x => ⟨((h.edge_into hu v).1 x.2).node_left, (h.edge_into hu v).1 x.2⟩,
     fun x => ⟨h.nodes v x.1, (h.edge_into hu v).2 x.2⟩⟩

theorem IsPart.mutualDeg (h : IsPart P R) (hP : P.WF) (hR : R.WF) {u : K} (hu : P.Node u) :
    Spec.mutualDeg R.nodes R.Edge u = Spec.mutualDeg P.nodes P.Edge u :=
  countOf_eq (nodes_nodup hR) (nodes_nodup hP) fun v =>
    ⟨fun x => ⟨((h.edge_out hu v).1 x.2.1).node_right, (h.edge_out hu v).1 x.2.1, (h.edge_into hu v).1 x.2.2⟩,
     fun x => ⟨h.nodes v x.1, (h.edge_out hu v).2 x.2.1, (h.edge_into hu v).2 x.2.2⟩⟩

/-- **C126.** so are its triangles, clustering coefficient, reciprocity and isolation -/
theorem part_node_values (hP : P.WF) (hR : R.WF) (h : IsPart P R) (hd : P.directed = R.directed) {u : K} (hu : P.Node u) :
    (R.Symm → singleTriangle R u = singleTriangle P u ∧ singleClustering R u = singleClustering P u) ∧
    (R.directed = true → reciprocityNode R u = reciprocityNode P u) ∧
    ((R.directed = false → R.Symm) → isIsolate R u = isIsolate P u) := by
  refine ⟨fun sR => ?_, fun hdir => ?_, fun sR => ?_⟩
  · have := triangles_local hP hR (h.symm hP sR) sR hu (h.nodes u hu) (h.around hu)
    exact ⟨this.1.symm, this.2.symm⟩
  · rw [reciprocity_node_correct hR hdir (h.nodes u hu), reciprocity_node_correct hP (hd.trans hdir) hu,
      h.outDeg hP hR hu, h.inDeg hP hR hu, h.mutualDeg hP hR hu]
  · have h1 := (is_isolate_correct hR sR u).1 (h.nodes u hu)
    have h2 := (is_isolate_correct hP (fun e => h.symm hP (sR (hd ▸ e))) u).1 hu
    obtain ⟨b, e, hb⟩ := h1
    obtain ⟨b', e', hb'⟩ := h2
    rw [e, e']
    refine congrArg _ (Bool.eq_iff_iff.2 (hb.trans (Iff.trans ?_ hb'.symm)))
    unfold Isolated
    exact forall_congr' fun v => by rw [h.edge_out hu, h.edge_into hu]

end parts

section weighted
variable {K α : Type} [DecidableEq K] [AddCommGroup α] [LinearOrder α] [IsOrderedAddMonoid α] {G H P R : Graph K α}

omit [DecidableEq K] [LinearOrder α] [IsOrderedAddMonoid α] in
theorem IsPart.wreach_out {u v : K} (hu : P.Node u) (hr : WReach P.WEdge u v) : P.Node v := by
  obtain ⟨k, c, hk⟩ := hr
  induction hk with
  | nil => exact hu
  | snoc _ e _ => exact (edge_iff_wedge.2 ⟨_, e⟩ : P.Edge _ _).node_right

omit [LinearOrder α] [IsOrderedAddMonoid α] in
theorem IsPart.wwalk (h : IsPart P R) {u v : K} (hu : P.Node u) {k : Nat} {c : α} :
    WWalk R.WEdge k c u v ↔ WWalk P.WEdge k c u v :=
  (wwalk_local (s := u) (fun x hx y w => (h.out x (IsPart.wreach_out hu hx) y w).symm) ⟨0, 0, .nil u⟩).symm

/-- **C126.** weighted distances from a node of a part, and whether they are defined, are those of the part -/
theorem part_bellman_ford (hP : P.WF) (hR : R.WF) (h : IsPart P R) (sP : P.directed = false → P.Symm)
    (sR : R.directed = false → R.Symm) {iso iso' : Option α} (hiso : IsoValid P iso) (hiso' : IsoValid R iso')
    (fdiv : α → α → Int) {s : K} (hs : P.Node s) :
    (singleSourceBF P iso fdiv s none = .error .unbounded ∧ singleSourceBF R iso' fdiv s none = .error .unbounded) ∨
    ∃ r q, singleSourceBF P iso fdiv s none = .ok r ∧ singleSourceBF R iso' fdiv s none = .ok q ∧
      ∀ u, P.view r u = R.view q u :=
  bellman_ford_local hP hR sP sR hiso hiso' fdiv hs (h.nodes s hs)
    fun u hu v w => (h.out u (IsPart.wreach_out hs hu) v w).symm

omit [IsOrderedAddMonoid α] in
theorem IsPart.negCycle (h : IsPart P R) {u : K} (hu : P.Node u) : NegCycleAt R.WEdge u ↔ NegCycleAt P.WEdge u := by
  unfold NegCycleAt
  exact exists_congr fun k => exists_congr fun c => by rw [h.wwalk hu]

/-- **C126.** a union has a negative cycle exactly when one of its parts has -/
theorem union_negative_edge_cycle (hG : G.WF) (hH : H.WF) (h1 : G.multi = false) (h2 : H.multi = false)
    (hd : G.directed = H.directed) (sG : G.directed = false → G.Symm) (sH : H.directed = false → H.Symm)
    (hR : Model.union G H = .ok R) :
    negativeEdgeCycle R = (negativeEdgeCycle G || negativeEdgeCycle H) := by
  obtain ⟨hw, hdir, hs, hsy⟩ := union_splits hG hH h1 h2 hR
  have sR : R.directed = false → R.Symm := fun e => hsy (sG (hdir ▸ e)) (sH (hd ▸ hdir ▸ e))
  rw [Bool.eq_iff_iff, Bool.or_eq_true, negative_edge_cycle_correct hw sR, negative_edge_cycle_correct hG sG,
    negative_edge_cycle_correct hH sH]
  constructor
  · rintro ⟨u, hu, hn⟩
    rcases hs.cover u hu with hu' | hu'
    · exact .inl ⟨u, hu', (hs.left.negCycle hu').1 hn⟩
    · exact .inr ⟨u, hu', (hs.right.negCycle hu').1 hn⟩
  · rintro (⟨u, hu, hn⟩ | ⟨u, hu, hn⟩)
    · exact ⟨u, hs.left.nodes u hu, (hs.left.negCycle hu).2 hn⟩
    · exact ⟨u, hs.right.nodes u hu, (hs.right.negCycle hu).2 hn⟩

/-- **C126.** `floyd_warshall` of a union without negative cycles: the distances of the parts, and no distance from
one part to the other -/
theorem union_floyd_warshall (hG : G.WF) (hH : H.WF) (h1 : G.multi = false) (h2 : H.multi = false)
    (hd : G.directed = H.directed) (sG : G.directed = false → G.Symm) (sH : H.directed = false → H.Symm)
    (nG : ∀ u, G.Node u → ¬ NegCycleAt G.WEdge u) (nH : ∀ u, H.Node u → ¬ NegCycleAt H.WEdge u)
    (hR : Model.union G H = .ok R) (choose : α → α → α) (u v : K) :
    (G.Node u → R.view2 (fwDist R.directed choose R.A) u v = G.view2 (fwDist G.directed choose G.A) u v) ∧
    (H.Node u → R.view2 (fwDist R.directed choose R.A) u v = H.view2 (fwDist H.directed choose H.A) u v) := by
  obtain ⟨hw, hdir, hs, hsy⟩ := union_splits hG hH h1 h2 hR
  have sR : R.directed = false → R.Symm := fun e => hsy (sG (hdir ▸ e)) (sH (hd ▸ hdir ▸ e))
  have nR : ∀ u, R.Node u → ¬ NegCycleAt R.WEdge u := by
    intro u hu
    rcases hs.cover u hu with hu' | hu'
    · rw [hs.left.negCycle hu']; exact nG u hu'
    · rw [hs.right.negCycle hu']; exact nH u hu'
  have key : ∀ {P : Graph K α}, P.WF → (P.directed = false → P.Symm) → (∀ u, P.Node u → ¬ NegCycleAt P.WEdge u) →
      IsPart P R → P.Node u → R.view2 (fwDist R.directed choose R.A) u v = P.view2 (fwDist P.directed choose P.A) u v := by
    intro P hP sP nP hp hu
    refine opt_ext' fun d => ?_
    rw [floyd_warshall_correct hw sR nR, floyd_warshall_correct hP sP nP]
    have hd : IsWDist R.WEdge u d v ↔ IsWDist P.WEdge u d v := by
      unfold IsWDist
      simp only [hp.wwalk hu]
    rw [hd]
    constructor
    · rintro ⟨-, -, x⟩
      obtain ⟨k, hk⟩ := x.1
      exact ⟨hu, IsPart.wreach_out hu ⟨k, d, hk⟩, x⟩
    · rintro ⟨-, hv, x⟩
      exact ⟨hp.nodes u hu, hp.nodes v hv, x⟩
  exact ⟨key hG sG nG hs.left, key hH sH nH hs.right⟩

end weighted

section wholes
variable {K α : Type} [DecidableEq K] {G H R : Graph K α}

theorem Splits.nodes_perm (h : Splits G H R) (hG : G.WF) (hH : H.WF) (hR : R.WF) :
    R.nodes.Perm (G.nodes ++ H.nodes) := by
  rw [List.perm_ext_iff_of_nodup (nodes_nodup hR) (List.nodup_append.2 ⟨nodes_nodup hG, nodes_nodup hH, ?_⟩)]
  · intro u
    rw [List.mem_append]
    exact ⟨h.cover u, fun x => x.elim (h.left.nodes u) (h.right.nodes u)⟩
  · intro a ha b hb e
    exact h.disjoint a ha (e ▸ hb)

theorem Splits.sum (h : Splits G H R) (hG : G.WF) (hH : H.WF) (hR : R.WF) {M : Type} [AddCommMonoid M] (f g g' : K → M)
    (h1 : ∀ u, G.Node u → f u = g u) (h2 : ∀ u, H.Node u → f u = g' u) :
    sumOver R.nodes f = sumOver G.nodes g + sumOver H.nodes g' := by
  unfold sumOver
  rw [((h.nodes_perm hG hH hR).map f).sum_eq, List.map_append, List.sum_append,
    List.map_congr_left (l := G.nodes) (g := g) (fun u hu => h1 u hu),
    List.map_congr_left (l := H.nodes) (g := g') (fun u hu => h2 u hu)]

/-- **C126.** a union of two non-empty graphs is not (weakly) connected -/
theorem union_not_connected (hG : G.WF) (hH : H.WF) (h1 : G.multi = false) (h2 : H.multi = false)
    (hR : Model.union G H = .ok R) {u v : K} (hu : G.Node u) (hv : H.Node v) :
    isWeaklyConnected R = .ok false ∧ (G.Symm → H.Symm → isConnected R = .ok false) := by
  obtain ⟨hw, hdir, hs, hsy⟩ := union_splits hG hH h1 h2 hR
  have hnv : ¬ G.Node v := fun x => hs.disjoint v x hv
  constructor
  · rcases is_weakly_connected_correct hw with ⟨h0, -⟩ | ⟨-, b, e, hb⟩
    · obtain ⟨i, hi⟩ := (hs.left.nodes u hu).exists_id hw
      exact absurd i.isLt (by have : R.n = 0 := h0; omega)
    · rw [e, Bool.eq_false_iff.2 fun hb' =>
        hnv (hs.left.reach_sym hu (hb.1 hb' u v (hs.left.nodes u hu) (hs.right.nodes v hv)))]
  · intro sG sH
    rcases is_connected_correct hw (hsy sG sH) with ⟨h0, -⟩ | ⟨-, b, e, hb⟩
    · obtain ⟨i, hi⟩ := (hs.left.nodes u hu).exists_id hw
      exact absurd i.isLt (by have : R.n = 0 := h0; omega)
    · rw [e, Bool.eq_false_iff.2 fun hb' =>
        hnv (hs.left.reach_out hu ((hs.left.reach hu).1 (hb.1 hb' u v (hs.left.nodes u hu) (hs.right.nodes v hv))))]

/-- **C126.** the number of isolated nodes and the number of triangles add up -/
theorem union_counts (hG : G.WF) (hH : H.WF) (h1 : G.multi = false) (h2 : H.multi = false)
    (hd : G.directed = H.directed) (sG : G.directed = false → G.Symm) (sH : H.directed = false → H.Symm)
    (hR : Model.union G H = .ok R) :
    numberOfIsolates R = numberOfIsolates G + numberOfIsolates H ∧
    (G.directed = false → totalTriangles R.A = totalTriangles G.A + totalTriangles H.A) := by
  classical
  obtain ⟨hw, hdir, hs, hsy⟩ := union_splits hG hH h1 h2 hR
  have sR : R.directed = false → R.Symm := fun e => hsy (sG (hdir ▸ e)) (sH (hd ▸ hdir ▸ e))
  constructor
  · rw [(isolates_correct hw sR).2, (isolates_correct hG sG).2, (isolates_correct hH sH).2]
    have iso : ∀ {P : Graph K α}, IsPart P R → ∀ u, P.Node u → (Isolated R.Edge u ↔ Isolated P.Edge u) :=
      fun hp u hu => forall_congr' fun v => by rw [hp.edge_out hu, hp.edge_into hu]
    unfold countOf
    rw [(hs.nodes_perm hG hH hw).countP_eq, List.countP_append]
    congr 1
    · exact List.countP_congr fun u hu => by simpa using iso hs.left u hu
    · exact List.countP_congr fun u hu => by simpa using iso hs.right u hu
  · intro hdG
    have a := total_triangles_correct hw (sR (hdir.trans hdG))
    have b := total_triangles_correct hG (sG hdG)
    have c := total_triangles_correct hH (sH (hd ▸ hdG))
    rw [hs.sum hG hH hw _ (fun u => triPairs G.nodes G.Edge u) (fun u => triPairs H.nodes H.Edge u)
      (fun u hu => (triPairs_local hG hw (hs.left.around hu)).symm)
      (fun u hu => (triPairs_local hH hw (hs.right.around hu)).symm)] at a
    omega

/-- **C126.** `is_k_regular` holds of a union exactly when it holds of both parts -/
theorem union_k_regular (hG : G.WF) (hH : H.WF) (h1 : G.multi = false) (h2 : H.multi = false)
    (dG : G.directed = false) (dH : H.directed = false) (hR : Model.union G H = .ok R) (k : Int) :
    ∃ a b c, isKRegular R k = .ok a ∧ isKRegular G k = .ok b ∧ isKRegular H k = .ok c ∧ a = (b && c) := by
  obtain ⟨hw, hdir, hs, -⟩ := union_splits hG hH h1 h2 hR
  obtain ⟨a, ea, ha⟩ := (is_k_regular_exact hw k).2 (hdir.trans dG)
  obtain ⟨b, eb, hb⟩ := (is_k_regular_exact hG k).2 dG
  obtain ⟨c, ec, hc⟩ := (is_k_regular_exact hH k).2 dH
  refine ⟨a, b, c, ea, eb, ec, ?_⟩
  rw [Bool.eq_iff_iff, Bool.and_eq_true, ha, hb, hc]
  have hnil : R.nodes = [] ↔ G.nodes = [] ∧ H.nodes = [] := by
    rw [← List.append_eq_nil_iff]
    exact ⟨fun e => List.Perm.eq_nil ((hs.nodes_perm hG hH hw).symm.trans (by rw [e])),
      fun e => List.Perm.eq_nil ((hs.nodes_perm hG hH hw).trans (by rw [e]))⟩
  rw [hnil]
  constructor
  · rintro ⟨x, y⟩
    exact ⟨⟨fun u hu => by rw [← hs.left.outDeg hG hw hu]; exact x u (hs.left.nodes u hu), fun e => (y e).1⟩,
      ⟨fun u hu => by rw [← hs.right.outDeg hH hw hu]; exact x u (hs.right.nodes u hu), fun e => (y e).2⟩⟩
  · rintro ⟨⟨x, y⟩, x', y'⟩
    refine ⟨fun u hu => ?_, fun e => ⟨y e, y' e⟩⟩
    rcases hs.cover u hu with hu' | hu'
    · rw [hs.left.outDeg hG hw hu']; exact x u hu'
    · rw [hs.right.outDeg hH hw hu']; exact x' u hu'

/-- **C126.** a set dominates a union exactly when it dominates both parts -/
theorem union_dominating (hG : G.WF) (hH : H.WF) (h1 : G.multi = false) (h2 : H.multi = false)
    (hR : Model.union G H = .ok R) (S : List K) :
    ∃ a b c, isDominatingSet R S = .ok a ∧ isDominatingSet G S = .ok b ∧ isDominatingSet H S = .ok c ∧ a = (b && c) := by
  obtain ⟨hw, hdir, hs, -⟩ := union_splits hG hH h1 h2 hR
  obtain ⟨a, ea, ha⟩ := is_dominating_set_correct hw S
  obtain ⟨b, eb, hb⟩ := is_dominating_set_correct hG S
  obtain ⟨c, ec, hc⟩ := is_dominating_set_correct hH S
  refine ⟨a, b, c, ea, eb, ec, ?_⟩
  rw [Bool.eq_iff_iff, Bool.and_eq_true, ha, hb, hc]
  constructor
  · intro x
    refine ⟨fun v hv hn => ?_, fun v hv hn => ?_⟩
    · obtain ⟨u, hu, e⟩ := x v (hs.left.nodes v hv) hn
      exact ⟨u, hu, (hs.left.edge_into hv u).1 e⟩
    · obtain ⟨u, hu, e⟩ := x v (hs.right.nodes v hv) hn
      exact ⟨u, hu, (hs.right.edge_into hv u).1 e⟩
  · rintro ⟨x, y⟩ v hv hn
    rcases hs.cover v hv with hv' | hv'
    · obtain ⟨u, hu, e⟩ := x v hv' hn
      exact ⟨u, hu, (hs.left.edge_into hv' u).2 e⟩
    · obtain ⟨u, hu, e⟩ := y v hv' hn
      exact ⟨u, hu, (hs.right.edge_into hv' u).2 e⟩

/-- **C126.** the volume of a set of nodes is the sum of the volumes of its shares in the two parts; no edge of a cut
joins the parts -/
theorem union_volume_cut (hG : G.WF) (hH : H.WF) (h1 : G.multi = false) (h2 : H.multi = false)
    (hR : Model.union G H = .ok R) {S T : List K} (hS : ∀ u ∈ S, G.Node u) (hT : ∀ u ∈ T, H.Node u) :
    ∃ a b, volume G S = .ok a ∧ volume H T = .ok b ∧ volume R (S ++ T) = .ok (a + b) ∧
      cutSize R S (some T) = .ok 0 := by
  obtain ⟨hw, hdir, hs, -⟩ := union_splits hG hH h1 h2 hR
  refine ⟨_, _, volume_correct hG hS, volume_correct hH hT, ?_, ?_⟩
  · rw [volume_correct hw fun u hu => (List.mem_append.1 hu).elim (fun x => hs.left.nodes u (hS u x))
      fun x => hs.right.nodes u (hT u x)]
    refine congrArg _ (hs.sum hG hH hw _ _ _ (fun u hu => ?_) fun u hu => ?_)
    · rw [hs.left.outDeg hG hw hu]
      refine if_congr ?_ rfl rfl
      show u ∈ S ++ T ↔ u ∈ S
      rw [List.mem_append]
      exact or_iff_left fun x => hs.disjoint u hu (hT u x)
    · rw [hs.right.outDeg hH hw hu]
      refine if_congr ?_ rfl rfl
      show u ∈ S ++ T ↔ u ∈ T
      rw [List.mem_append]
      exact or_iff_right fun x => hs.disjoint u (hS u x) hu
  · have z : ∀ (P Q : K → Prop) [DecidablePred P] [DecidablePred Q], (∀ u v, P u → Q v → ¬ R.Edge u v) →
        edgesFromTo R.nodes R.Edge P Q = 0 := by
      intro P Q _ _ hz
      unfold edgesFromTo sumOver countOf
      rw [List.sum_eq_zero_iff]
      intro x hx
      obtain ⟨u, -, rfl⟩ := List.mem_map.1 hx
      rw [List.countP_eq_zero]
      intro v _ hv
      obtain ⟨p, q, e⟩ := of_decide_eq_true hv
      exact hz u v p q e
    rw [cut_size_correct hw, z _ _ fun u v hu hv e => hs.disjoint v ((hs.left.edge_out (hS u hu) v).1 e).node_right (hT v hv),
      z _ _ fun u v hu hv e => hs.disjoint u ((hs.left.edge_into (hS v hv) u).1 e).node_left (hT u hu)]
    simp

theorem isTruss_part {V : Type} {N M : List V} (hN : N.Nodup) {k : Int} {E F : V → V → Prop}
    (hE : ∀ u v w, F u v → E u w → E v w → w ∈ M ∧ F u w ∧ F v w) (hF : ∀ u v, F u v → E u v) (h : IsTruss N k E) :
    IsTruss M k F := by
  classical
  intro u v huv
  refine (h u v (hF u v huv)).trans (Int.ofNat_le.2 ?_)
  exact countOf_le hN fun w _ hw => ⟨(hE u v w huv hw.1 hw.2).1, (hE u v w huv hw.1 hw.2).2⟩

/-- **C126.** the `k_truss` of a union is the union of the `k_truss`es of its parts -/
theorem union_k_truss (hG : G.WF) (hH : H.WF) (h1 : G.multi = false) (h2 : H.multi = false)
    (sG : G.Symm) (sH : H.Symm) (hR : Model.union G H = .ok R) (k : Int) :
    ∃ T A B, kTruss R k = .ok T ∧ kTruss G k = .ok A ∧ kTruss H k = .ok B ∧
      (∀ u, T.Node u ↔ A.Node u ∨ B.Node u) ∧ ∀ u v, T.Edge u v ↔ A.Edge u v ∨ B.Edge u v := by
  obtain ⟨hw, hdir, hs, hsy⟩ := union_splits hG hH h1 h2 hR
  obtain ⟨T, eT, -, -, hsub, htr, hmax, hnode, -⟩ := k_truss_correct hw (hsy sG sH) k
  obtain ⟨A, eA, -, -, hsubA, htrA, hmaxA, hnodeA, -⟩ := k_truss_correct hG sG k
  obtain ⟨B, eB, -, -, hsubB, htrB, hmaxB, hnodeB, -⟩ := k_truss_correct hH sH k
  have grow : ∀ {P : Graph K α}, IsPart P R → ∀ {E : K → K → Prop}, IsSubgraph P.Edge E → P.WF →
      IsTruss P.nodes k E → ∀ u v, E u v → T.Edge u v := by
    intro P hp E hE hP ht
    refine hmax E ⟨fun u v e => (hp.edge_out (hE.sub u v e).node_left v).2 (hE.sub u v e), hE.irrefl, hE.symm⟩ ?_
    exact isTruss_part (nodes_nodup hP) (fun u v w _ e1 e2 => ⟨hp.nodes w (hE.sub u w e1).node_right, e1, e2⟩)
      (fun _ _ e => e) ht
  have cut : ∀ {P : Graph K α}, IsPart P R →
      IsSubgraph P.Edge (fun u v => T.Edge u v ∧ P.Node u) ∧ IsTruss P.nodes k (fun u v => T.Edge u v ∧ P.Node u) := by
    intro P hp
    have hin : ∀ {u v}, T.Edge u v → P.Node u → P.Edge u v := fun e hu => (hp.edge_out hu _).1 (hsub.sub _ _ e)
    refine ⟨⟨fun u v e => hin e.1 e.2, fun u e => hsub.irrefl u e.1, fun u v e => ⟨hsub.symm u v e.1, (hin e.1 e.2).node_right⟩⟩,
      isTruss_part (nodes_nodup hw) (fun u v w e e1 e2 => ?_) (fun _ _ e => e.1) htr⟩
    exact ⟨(hin e1 e.2).node_right, ⟨e1, e.2⟩, ⟨e2, (hin e.1 e.2).node_right⟩⟩
  have he : ∀ u v, T.Edge u v ↔ A.Edge u v ∨ B.Edge u v := by
    intro u v
    constructor
    · intro e
      rcases hs.cover u (hsub.sub u v e).node_left with hu | hu
      · exact .inl (hmaxA _ (cut hs.left).1 (cut hs.left).2 u v ⟨e, hu⟩)
      · exact .inr (hmaxB _ (cut hs.right).1 (cut hs.right).2 u v ⟨e, hu⟩)
    · rintro (e | e)
      · exact grow hs.left hsubA hG htrA u v e
      · exact grow hs.right hsubB hH htrB u v e
  refine ⟨T, A, B, eT, eA, eB, fun u => ?_, he⟩
  rw [hnode, hnodeA, hnodeB, ← exists_or]
  exact exists_congr fun v => he u v

/-- **C126.** in a union of acyclic digraphs, nodes of different parts have no common ancestor, and
`lowest_common_ancestor` returns the default -/
theorem union_no_common_ancestor (hG : G.WF) (hH : H.WF) (h1 : G.multi = false) (h2 : H.multi = false)
    (dG : G.directed = true) (hR : Model.union G H = .ok R) (hac : ∀ x k, ¬ Walk R.Edge (k+1) x x) {u v : K}
    (hu : G.Node u) (hv : H.Node v) : lowestCommonAncestor R u v = .ok none := by
  obtain ⟨hw, hdir, hs, -⟩ := union_splits hG hH h1 h2 hR
  rcases lowest_common_ancestor_correct hw (hdir.trans dG) hac (hs.left.nodes u hu) (hs.right.nodes v hv) with
    ⟨a, -, ha, r1, r2, -⟩ | ⟨e, -⟩
  · rcases hs.cover a ha with h | h
    · exact absurd hv (hs.disjoint v (hs.left.reach_out h ((hs.left.reach h).1 r2)))
    · exact absurd (hs.right.reach_out h ((hs.right.reach h).1 r1)) (hs.disjoint u hu)
  · exact e

end wholes

/-! ### concrete graphs -/

/-- a triangle 1-2-3 -/
def Ex.partA : Graph Nat Int where
  n := 3
  A := Ex.ofTriples 3 [(0,1,1), (1,0,1), (0,2,4), (2,0,4), (1,2,1), (2,1,1)]
  keyToId := [(3,2),(1,0),(2,1)]
  directed := false

/-- a line 7-8 and an isolated node 9 -/
def Ex.partB : Graph Nat Int where
  n := 3
  A := Ex.ofTriples 3 [(0,2,5), (2,0,5)]
  keyToId := [(7,0),(9,1),(8,2)]
  directed := false

example : Ex.partA.WF ∧ Ex.partB.WF ∧ Ex.partA.multi = false ∧ Ex.partB.multi = false ∧
    (∀ i j, Ex.partA.A i j = Ex.partA.A j i) ∧ (∀ i j, Ex.partB.A i j = Ex.partB.A j i) ∧
    ∃ R, Model.union Ex.partA Ex.partB = .ok R ∧ numberOfIsolates R = 1 ∧ totalTriangles R.A = 1 ∧
      isConnected R = .ok false ∧ hasPath R 1 8 = .ok false ∧ hasPath R 7 8 = .ok true ∧
      singleTriangle R 2 = .ok 1 ∧ R.view2 (fwDist R.directed (fun a _ => a) R.A) 1 3 = some 2 ∧
      volume R ([1] ++ [8, 9]) = .ok 3 := by
  refine ⟨⟨by decide, by decide⟩, ⟨by decide, by decide⟩, rfl, rfl, by decide, by decide, _, rfl, ?_⟩
  refine ⟨?_, ?_, ?_, ?_, ?_, ?_, ?_, ?_⟩ <;> decide +kernel

end Props
