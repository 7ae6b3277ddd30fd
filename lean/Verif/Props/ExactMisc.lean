import Verif.Props.Small2

/-!
# C56 regular graphs, C61 s-metric, C62 community edges: the results on every graph

What the functions return, also where that is not what their names promise.
-/

open GB Spec Model Model.Graph Proofs Proofs.Small Proofs.Cluster

namespace Props

variable {K α : Type} [DecidableEq K] {G : Graph K α}

/-! ### C56 -/

/-- **C56, exact.** On a graph without nodes `is_regular` raises IndexError; on any other it is True exactly when
all nodes have the same *positive* number of successors, and of predecessors if the graph is directed. -/
theorem is_regular_exact (h : G.WF) :
    (G.n = 0 → isRegular G = .error .indexError) ∧
    (0 < G.n → ∃ b, isRegular G = .ok b ∧ (b = true ↔
      (∃ k, 0 < k ∧ Regular G.nodes G.Edge k) ∧ (G.directed = true → ∃ k, 0 < k ∧ InRegular G.nodes G.Edge k))) := by
  refine ⟨is_regular_empty, fun hn => ?_⟩
  by_cases he : ∃ u v, G.Edge u v
  · obtain ⟨b, hb, hb'⟩ := is_regular_correct_partial h he
    refine ⟨b, hb, hb'.trans ?_⟩
    obtain ⟨u, v, he⟩ := he
    have hpos : ∀ k, Regular G.nodes G.Edge k → 0 < k := by
      intro k hk
      rw [← hk u he.node_left]
      exact List.countP_pos_iff.2 ⟨v, he.node_right, by simpa using he⟩
    have hpos' : ∀ k, InRegular G.nodes G.Edge k → 0 < k := by
      intro k hk
      rw [← hk v he.node_right]
      exact List.countP_pos_iff.2 ⟨u, he.node_left, by simpa using he⟩
    have e1 : (∃ k, Regular G.nodes G.Edge k) ↔ ∃ k, 0 < k ∧ Regular G.nodes G.Edge k :=
      ⟨fun ⟨k, hk⟩ => ⟨k, hpos k hk, hk⟩, fun ⟨k, _, hk⟩ => ⟨k, hk⟩⟩
    have e2 : (∃ k, InRegular G.nodes G.Edge k) ↔ ∃ k, 0 < k ∧ InRegular G.nodes G.Edge k :=
      ⟨fun ⟨k, hk⟩ => ⟨k, hpos' k hk, hk⟩, fun ⟨k, _, hk⟩ => ⟨k, hk⟩⟩
    rw [e1, e2]
    cases G.directed <;> simp
  · have he' : ∀ u v, ¬ G.Edge u v := fun u v e => he ⟨u, v, e⟩
    obtain ⟨h1, h2, -⟩ := is_regular_edgeless h hn he'
    refine ⟨false, h1, ?_⟩
    simp only [Bool.false_eq_true, false_iff]
    rintro ⟨⟨k, hk, hr⟩, -⟩
    have hu := (keyFn_at h ⟨0, hn⟩).node
    have := (hr _ hu).symm.trans (h2 _ hu)
    omega

/-- **C56, exact.** `is_k_regular(G, k)` of an undirected graph is True exactly when every node has `k` neighbours
and `k` is not 0 (or there are no nodes); a digraph is refused. -/
theorem is_k_regular_exact (h : G.WF) (k : Int) :
    (G.directed = true → isKRegular G k = .error .notImplemented) ∧
    (G.directed = false → ∃ b, isKRegular G k = .ok b ∧
      (b = true ↔ (∀ u, G.Node u → (outDeg G.nodes G.Edge u : Int) = k) ∧ (k = 0 → G.nodes = []))) := by
  refine ⟨fun hd => by unfold isKRegular; rw [if_pos hd], fun hd => ?_⟩
  by_cases hk : k = 0
  · subst hk
    by_cases hn : 0 < G.n
    · refine ⟨false, is_k_regular_zero hd hn, ?_⟩
      simp only [Bool.false_eq_true, false_iff]
      rintro ⟨-, h2⟩
      have : keyFn h ⟨0, hn⟩ ∈ G.nodes := (keyFn_at h ⟨0, hn⟩).node
      rw [h2 trivial] at this
      simp at this
    · have hn0 : G.n = 0 := by omega
      have hnodes : G.nodes = [] := by
        cases hl : G.nodes with
        | nil => rfl
        | cons a l =>
          have : G.Node a := show a ∈ G.nodes by rw [hl]; simp
          obtain ⟨i, -⟩ := exists_keyFn h this
          exact absurd i.isLt (by omega)
      refine ⟨true, ?_, ?_⟩; swap
      · simp only [true_iff]
        exact ⟨fun u hu => absurd (show u ∈ G.nodes from hu) (by simp [hnodes]), fun _ => hnodes⟩
      unfold isKRegular
      rw [if_neg (by simp [hd])]
      have h1 : nvals (countRow G.A) = G.n := by have := nvals_le (countRow G.A); omega
      simp only
      rw [if_neg (by simpa using h1)]
      congr 1
      rw [reduce_land]
      exact fun i => absurd i.isLt (by omega)
  · obtain ⟨b, hb, hb'⟩ := is_k_regular_correct_partial h hd k hk
    exact ⟨b, hb, by rw [hb']; simp [hk]⟩

/-! ### edge lists of undirected graphs -/

/-- `EL` lists the edges of an undirected graph: each once, in one of its two directions -/
structure ListsEdges (E : K → K → Prop) (EL : List (K × K)) : Prop where
  nodup : EL.Nodup
  edge : ∀ p ∈ EL, E p.1 p.2
  once : ∀ p ∈ EL, p.1 ≠ p.2 → (p.2, p.1) ∉ EL
  all : ∀ u v, E u v → (u, v) ∈ EL ∨ (v, u) ∈ EL

/-- a sum over the entries of a symmetric matrix visits an edge between different nodes twice and a self-loop once -/
theorem sum_entries (h : G.WF) (hs : G.Symm) {EL : List (K × K)} (hE : ListsEdges G.Edge EL) (f : K → K → Nat)
    (hf : ∀ u v, f u v = f v u) :
    (sumOver G.nodes fun u => sumOver G.nodes fun v => if G.Edge u v then f u v else 0) =
      (EL.map fun p => if p.1 = p.2 then f p.1 p.2 else 2 * f p.1 p.2).sum := by
  set g : K × K → Nat := fun p => f p.1 p.2 with hg
  have hp : ((EL ++ (EL.filter fun p => decide (p.1 ≠ p.2)).map Prod.swap)).Perm
      ((G.nodes.product G.nodes).filter fun p => decide (G.Edge p.1 p.2)) := by
    refine (List.perm_ext_iff_of_nodup ?_ ?_).2 ?_
    · refine List.Nodup.append hE.nodup ((hE.nodup.filter _).map Prod.swap_injective) ?_
      intro p hp hp'
      obtain ⟨q, hq, rfl⟩ := List.mem_map.1 hp'
      obtain ⟨hq, hne⟩ := List.mem_filter.1 hq
      exact hE.once q hq (by simpa using hne) hp
    · exact (h.keys_nodup.product h.keys_nodup).filter _
    · rintro ⟨u, v⟩
      rw [List.mem_append, List.mem_map, List.mem_filter]
      have hsym : ∀ {a b}, G.Edge a b → G.Edge b a := fun he => (Bfs.edge_symm h hs).1 he
      constructor
      · intro hp
        have he : G.Edge u v := by
          rcases hp with hp | ⟨⟨a, b⟩, hp, e⟩
          · exact hE.edge _ hp
          · cases e; exact hsym (hE.edge _ (List.mem_filter.1 hp).1)
        exact ⟨List.mem_product.2 ⟨he.node_left, he.node_right⟩, by simpa using he⟩
      · rintro ⟨-, he⟩
        rcases hE.all u v (by simpa using he) with hp | hp
        · exact .inl hp
        · by_cases e : u = v
          · subst e; exact .inl hp
          · exact .inr ⟨(v, u), List.mem_filter.2 ⟨hp, by simpa using fun h => e h.symm⟩, rfl⟩
  have h1 : (sumOver G.nodes fun u => sumOver G.nodes fun v => if G.Edge u v then f u v else 0) =
      (((G.nodes.product G.nodes).filter fun p => decide (G.Edge p.1 p.2)).map g).sum := by
    have gen : ∀ N M : List K, (sumOver N fun u => sumOver M fun v =>
      if G.Edge u v then g (u, v) else 0) =
      (((N.product M).filter fun p => decide (G.Edge p.1 p.2)).map g).sum := by
      intro N M
      unfold sumOver
      induction N with
      | nil => rfl
      | cons a N ih =>
        rw [List.map_cons, List.sum_cons, ih, show (a :: N).product M = M.map (fun b => (a, b)) ++ N.product M from
          List.product_cons .., List.filter_append, List.map_append, List.sum_append]
        congr 1
        clear ih
        induction M with
        | nil => rfl
        | cons b M ih2 =>
          rw [List.map_cons, List.sum_cons, ih2]
          by_cases he : G.Edge a b <;> simp [he]
    exact gen _ _
  rw [h1, ← (hp.map g).sum_eq, List.map_append, List.sum_append, List.map_map]
  have h2 : g ∘ Prod.swap = g := by funext p; exact hf _ _
  rw [h2]
  clear hp hE h1
  induction EL with
  | nil => rfl
  | cons p EL ih =>
    rw [List.map_cons, List.sum_cons, List.map_cons, List.sum_cons, ← ih]
    by_cases e : p.1 = p.2
    · rw [if_pos e, List.filter_cons_of_neg (by simp [e])]; simp only [hg]; omega
    · rw [if_neg e, List.filter_cons_of_pos (by simp [e]), List.map_cons, List.sum_cons]; simp only [hg]; omega

/-! ### C61 -/

/-- **C61, exact for undirected graphs.** `s_metric(G)` is the sum over the edges of the product of the degrees of
their ends, but the contribution of a self-loop is halved (degrees count a self-loop once). -/
theorem s_metric_exact (h : G.WF) (hs : G.Symm) (hd : G.directed = false) {EL : List (K × K)}
    (hE : ListsEdges G.Edge EL) :
    2 * sMetric G = (((EL.map fun p => if p.1 = p.2 then outDeg G.nodes G.Edge p.1 * outDeg G.nodes G.Edge p.2
      else 2 * (outDeg G.nodes G.Edge p.1 * outDeg G.nodes G.Edge p.2)).sum : Nat) : ℚ) := by
  rw [sMetric_eq h]
  have hdeg : sDeg G = outDeg G.nodes G.Edge := by funext u; simp [sDeg, hd]
  rw [hdeg, ← sum_entries h hs hE (fun u v => outDeg G.nodes G.Edge u * outDeg G.nodes G.Edge v)
    fun u v => Nat.mul_comm _ _]
  ring

/-! ### C62 -/

/-- **C62, exact for undirected graphs.** With a partition of the nodes, `intra_community_edges` counts an edge
between two nodes of a block twice and a self-loop once; `inter_community_edges` counts every edge between two
blocks twice. -/
theorem community_edges_undirected_exact (h : G.WF) (hs : G.Symm) {EL : List (K × K)} (hE : ListsEdges G.Edge EL)
    {P : List (List K)} (hP : IsPartition G P) :
    intraCommunityEdges G P =
      .ok ((EL.map fun p => if SameBlock P p.1 p.2 then (if p.1 = p.2 then 1 else 2) else 0).sum) ∧
    interCommunityEdges G P = .ok (2 * (EL.map fun p => if SameBlock P p.1 p.2 then 0 else 1).sum) := by
  obtain ⟨a, b, ha, hb, ha', hb', -⟩ := community_edges_partition h hP
  have cnt : ∀ (q : K → K → Prop) [∀ u v, Decidable (q u v)], (∀ u v, q u v ↔ q v u) →
      (sumOver G.nodes fun u => countOf G.nodes fun v => G.Edge u v ∧ q u v) =
      (EL.map fun p => if p.1 = p.2 then (if q p.1 p.2 then 1 else 0) else 2 * (if q p.1 p.2 then 1 else 0)).sum := by
    intro q _ hq
    rw [← sum_entries h hs hE (fun u v => if q u v then 1 else 0) fun u v => by simp [hq u v]]
    rw [sumOver_nodes h, sumOver_nodes h]
    refine Finset.sum_congr rfl fun i _ => ?_
    rw [countOf_nodes h, sumOver_nodes h]
    refine Finset.sum_congr rfl fun j _ => ?_
    by_cases h1 : G.Edge (keyFn h i) (keyFn h j) <;> by_cases h2 : q (keyFn h i) (keyFn h j) <;> simp [h1, h2]
  have sym : ∀ u v, SameBlock P u v ↔ SameBlock P v u := fun u v =>
    ⟨fun ⟨b, hb, h1, h2⟩ => ⟨b, hb, h2, h1⟩, fun ⟨b, hb, h1, h2⟩ => ⟨b, hb, h2, h1⟩⟩
  have refl : ∀ u, G.Node u → SameBlock P u u := fun u hu => by
    have := hP u hu
    have h0 : 0 < P.countP fun b => decide (u ∈ b) := by omega
    obtain ⟨b, hb, hu⟩ := List.countP_pos_iff.1 h0
    exact ⟨b, hb, by simpa using hu, by simpa using hu⟩
  refine ⟨?_, ?_⟩
  · rw [ha, ha', cnt _ sym]
    congr 2
    refine List.map_congr_left fun p _ => ?_
    by_cases h1 : p.1 = p.2 <;> by_cases h2 : SameBlock P p.1 p.2 <;> simp [h1, h2]
  · rw [hb, hb', cnt (fun u v => ¬ SameBlock P u v) fun u v => not_congr (sym u v), ← List.sum_map_mul_left]
    congr 2
    refine List.map_congr_left fun p hp => ?_
    by_cases h1 : p.1 = p.2
    · simp [h1, refl _ (hE.edge p hp).node_right]
    · by_cases h2 : SameBlock P p.1 p.2 <;> simp [h1, h2]

/-! ### examples -/

/-- edges 7 - 8 and 8 - 9, self-loop at 8 -/
def exEL : Graph Nat Int where
  n := 3
  A := _root_.Ex.ofTriples 3 [(0,1,1),(1,0,1),(1,2,5),(2,1,5),(1,1,2)]
  keyToId := [(7,0),(8,1),(9,2)]

theorem exEL_lists : ListsEdges exEL.Edge [(7,8),(9,8),(8,8)] where
  nodup := by decide
  edge := by decide
  once := by decide
  all := by
    intro u v ⟨i, j, hi, hj, hE⟩
    revert hE
    unfold Graph.At at hi hj
    simp only [exEL, List.mem_cons, Prod.mk.injEq, List.not_mem_nil, or_false] at hi hj
    rcases hi with ⟨rfl, hi⟩ | ⟨rfl, hi⟩ | ⟨rfl, hi⟩ <;> rcases hj with ⟨rfl, hj⟩ | ⟨rfl, hj⟩ | ⟨rfl, hj⟩ <;>
      obtain ⟨i, hi'⟩ := i <;> obtain ⟨j, hj'⟩ := j <;> simp only at hi hj <;> subst hi hj <;> revert hi' hj' <;> decide

example : exEL.WF ∧ exEL.Symm ∧ sMetric exEL = 3 + 3 + 9 / 2 ∧
    intraCommunityEdges exEL [[7], [8, 9]] = .ok 3 ∧ interCommunityEdges exEL [[7], [8, 9]] = .ok 2 := by
  refine ⟨⟨by decide, by decide⟩, by unfold Graph.Symm; decide, by decide +kernel, by decide +kernel, by decide +kernel⟩

example : IsPartition exEL [[7], [8, 9]] := by
  intro u hu
  have : u = 7 ∨ u = 8 ∨ u = 9 := by simpa [Graph.Node, Graph.nodes, exEL] using hu
  rcases this with rfl | rfl | rfl <;> decide

end Props
