import Verif.Props.Small

/-!
# C60 reciprocity, C61 s-metric, C62 community edges, C63 mutual weight, C64 triads
-/

open GB Spec Model Model.Graph Proofs Proofs.Small Proofs.Cluster

namespace Props

variable {K α : Type} [DecidableEq K] {G : Graph K α}

/-! ### C60 -/

theorem recipDegreesP_getD (h : G.WF) (i : Fin G.n) :
    (recipDegreesP G.A i).getD 0 = mutualDeg G.nodes G.Edge (keyFn h i) := by
  unfold recipDegreesP mutualDeg
  rw [countRow_getD, countOf_nodes h]
  refine Finset.sum_congr rfl fun j _ => ?_
  simp only [edge_keyFn, mmul, transpose]
  cases G.A i j <;> cases G.A j i <;> simp

theorem totalDegreesP_getD (h : G.WF) (i : Fin G.n) : (totalDegreesP G.A i).getD 0 =
    outDeg G.nodes G.Edge (keyFn h i) + inDeg G.nodes G.Edge (keyFn h i) := by
  unfold totalDegreesP vadd
  rw [omerge_getD, countRow_getD, countRow_getD, outDeg_eq h, inDeg_eq h, nvals_eq_sum, nvals_eq_sum]

theorem totalDegreesP_none (h : G.WF) (i : Fin G.n) : totalDegreesP G.A i = none ↔
    outDeg G.nodes G.Edge (keyFn h i) + inDeg G.nodes G.Edge (keyFn h i) = 0 := by
  rw [← Option.not_isSome_iff_eq_none, totalDegreesP_some, outDeg_eq h, inDeg_eq h]
  rw [Nat.add_eq_zero_iff, nvals_eq_zero, nvals_eq_zero]
  simp only [not_exists, not_or, Option.not_isSome_iff_eq_none]
  exact forall_and

theorem reciprocityV_eq (h : G.WF) (mask : NodeMask G.n) (i : Fin G.n) :
    reciprocityV G.A mask i =
      if inMask mask i = true ∧ outDeg G.nodes G.Edge (keyFn h i) + inDeg G.nodes G.Edge (keyFn h i) ≠ 0
      then some (2 * (mutualDeg G.nodes G.Edge (keyFn h i) : ℚ) /
        ((outDeg G.nodes G.Edge (keyFn h i) : ℚ) + inDeg G.nodes G.Edge (keyFn h i)))
      else none := by
  have hsub : (recipDegreesP G.A i).isSome → (totalDegreesP G.A i).isSome := by
    unfold recipDegreesP
    rw [countRow_some, totalDegreesP_some]
    rintro ⟨j, hj⟩
    refine ⟨j, .inl ?_⟩
    simp only [mmul, isSome_ointer, Bool.and_eq_true] at hj
    exact hj.1
  have hm : ∀ v : Vec G.n Nat, maskNew mask v i = if inMask mask i then v i else none := by
    intro v
    cases mask with
    | none => simp [maskNew, inMask]
    | some p => rfl
  unfold reciprocityV vunion vapply
  rw [hm, hm]
  by_cases hi : inMask mask i = true
  · rw [if_pos hi, if_pos hi]
    by_cases h0 : outDeg G.nodes G.Edge (keyFn h i) + inDeg G.nodes G.Edge (keyFn h i) = 0
    · rw [if_neg (by simp [h0])]
      have ht := (totalDegreesP_none h i).2 h0
      have hr : recipDegreesP G.A i = none := by
        rw [← Option.not_isSome_iff_eq_none]; intro hs; have := hsub hs; simp [ht] at this
      simp [ht, hr, ounion]
    · rw [if_pos ⟨hi, h0⟩]
      have hg := totalDegreesP_getD h i
      have hr := recipDegreesP_getD h i
      cases ht : totalDegreesP G.A i with
      | none => exact absurd ((totalDegreesP_none h i).1 ht) h0
      | some t =>
        rw [ht, Option.getD_some] at hg
        cases hrr : recipDegreesP G.A i with
        | none =>
          rw [hrr, Option.getD_none] at hr
          simp [ounion, ← hr]
        | some r =>
          rw [hrr, Option.getD_some] at hr
          simp [ounion, hr, hg]
  · simp [hi, ounion]

/-- **C60.** `reciprocity(G, nodes)` gives each requested node that has an edge twice its number of
mutual neighbours over its total degree; requested nodes without edges and all other nodes are left out. -/
theorem reciprocity_nodes_correct (h : G.WF) (hd : G.directed = true) {l : List K}
    (hl : ∀ u ∈ l, G.Node u) :
    ∃ R, reciprocityNodes G l = .ok R ∧ ∀ u, G.Node u → G.view R u =
      if u ∈ l ∧ outDeg G.nodes G.Edge u + inDeg G.nodes G.Edge u ≠ 0 then
        some (2 * (mutualDeg G.nodes G.Edge u : ℚ) / ((outDeg G.nodes G.Edge u : ℚ) + inDeg G.nodes G.Edge u))
      else none := by
  obtain ⟨mask, e, -, hm⟩ := listToMask_ok h (nodes := some l) (by rintro l' hl'; cases hl'; exact hl)
  refine ⟨reciprocityV G.A mask, ?_, fun u hu => ?_⟩
  · unfold reciprocityNodes
    rw [if_neg (by simp [hd]), e]; rfl
  · obtain ⟨i, rfl⟩ := exists_keyFn h hu
    rw [view_keyFn h, reciprocityV_eq h]
    have : (inMask mask i = true) = (keyFn h i ∈ l) := by
      have := hm _ i (keyFn_at h i)
      simp only [Asked, Option.some.injEq, forall_eq'] at this
      exact propext this
    simp only [this]

/-- **C60.** `reciprocity(G, u)` for one node, and its error for a node without edges. -/
theorem reciprocity_node_correct (h : G.WF) (hd : G.directed = true) {u : K} (hu : G.Node u) :
    reciprocityNode G u =
      if outDeg G.nodes G.Edge u + inDeg G.nodes G.Edge u ≠ 0 then
        .ok (2 * (mutualDeg G.nodes G.Edge u : ℚ) / ((outDeg G.nodes G.Edge u : ℚ) + inDeg G.nodes G.Edge u))
      else .error .emptyGraph := by
  obtain ⟨mask, e, -, hm⟩ := listToMask_ok h (nodes := some [u]) (by rintro l' hl'; cases hl'; simpa using hu)
  obtain ⟨i, hi⟩ := hu.exists_id h
  have hk := keyFn_eq h hi
  have hin : inMask mask i = true := by
    rw [hm u i hi]; simp [Asked]
  unfold reciprocityNode
  rw [if_neg (by simp [hd]), e]
  show (G.getId u >>= fun i => _) = _
  rw [(getId_eq_ok h).2 hi]
  show (match reciprocityV G.A mask i with
    | none => (Except.error .emptyGraph : Except Err ℚ) | some x => .ok x) = _
  rw [reciprocityV_eq h, hk]
  by_cases h0 : outDeg G.nodes G.Edge u + inDeg G.nodes G.Edge u = 0
  · simp [h0]
  · simp only [hin, h0, ne_eq, not_false_eq_true, and_self, if_true]

omit [DecidableEq K] in
theorem mnvals_ind {n : Nat} {β : Type} (A : Mat n n β) : mnvals A = ∑ i, ∑ j, ind (A i j) := by
  rw [mnvals_eq_sum]; simp only [nvals_eq_sum]

/-- **C60.** `overall_reciprocity(G)` is the fraction of edges that are not self-loops and whose reverse
is an edge; it raises exactly on graphs without edges. -/
theorem overall_reciprocity_correct (h : G.WF) (hd : G.directed = true) :
    overallReciprocity G = if edgeCount G.nodes G.Edge = 0 then .error .emptyGraph
      else .ok ((mutualEdges G.nodes G.Edge : ℚ) / edgeCount G.nodes G.Edge) := by
  have hm : mnvals (mmul pairN G.A (transpose G.A)) = mutualEdges G.nodes G.Edge + nvals (diagVec G.A) := by
    unfold mutualEdges
    rw [mnvals_ind, sumOver_nodes h, nvals_eq_sum, ← Finset.sum_add_distrib]
    refine Finset.sum_congr rfl fun i _ => ?_
    rw [countOf_nodes h]
    have : ind (diagVec G.A i) = ∑ j, if i = j then ind (diagVec G.A i) else 0 := by simp
    rw [this, ← Finset.sum_add_distrib]
    refine Finset.sum_congr rfl fun j _ => ?_
    simp only [edge_keyFn, mmul, transpose, ne_eq, keyFn_eq_iff, diagVec]
    by_cases hij : i = j
    · subst hij; cases G.A i i <;> simp
    · cases G.A i j <;> cases G.A j i <;> simp [hij]
  unfold overallReciprocity
  rw [if_neg (by simp [hd]), edgeCount_eq h]
  by_cases h0 : mnvals G.A = 0
  · rw [if_pos h0, if_pos h0]
  · rw [if_neg h0, if_neg h0]
    simp only
    rw [hm]
    congr 2
    by_cases hs : ∃ i, (G.A i i).isSome
    · rw [if_pos hs]; push_cast; simp
    · rw [if_neg hs]
      have : nvals (diagVec G.A) = 0 := by
        rw [nvals_eq_zero]
        intro i
        rw [← Option.not_isSome_iff_eq_none]
        exact fun hi => hs ⟨i, hi⟩
      simp [this]

/-- **C60.** the overall reciprocity, when defined, lies between 0 and 1. -/
theorem overall_reciprocity_bounds (h : G.WF) (hd : G.directed = true) {x : ℚ}
    (hx : overallReciprocity G = .ok x) : 0 ≤ x ∧ x ≤ 1 := by
  rw [overall_reciprocity_correct h hd] at hx
  split at hx
  · cases hx
  · rename_i h0
    cases hx
    refine ⟨by positivity, ?_⟩
    rw [div_le_one (by exact_mod_cast Nat.pos_of_ne_zero h0)]
    have : mutualEdges G.nodes G.Edge ≤ edgeCount G.nodes G.Edge := by
      unfold mutualEdges edgeCount outDeg
      rw [sumOver_nodes h, sumOver_nodes h]
      refine Finset.sum_le_sum fun i _ => ?_
      rw [countOf_nodes h, countOf_nodes h]
      refine Finset.sum_le_sum fun j _ => ?_
      by_cases he : G.Edge (keyFn h i) (keyFn h j) <;> simp [he]
      split <;> simp
    exact_mod_cast this

/-! ### C61 -/

/-- the degree used by `s_metric` -/
def sDeg (G : Graph K α) (u : K) : Nat :=
  if G.directed then outDeg G.nodes G.Edge u + inDeg G.nodes G.Edge u else outDeg G.nodes G.Edge u

theorem degreesP_getD (h : G.WF) (i : Fin G.n) : (degreesP G i).getD 0 = sDeg G (keyFn h i) := by
  unfold degreesP sDeg
  split
  · exact totalDegreesP_getD h i
  · rw [countRow_getD, outDeg_eq h, nvals_eq_sum]

/-- the s-metric in ordered-pair form -/
theorem sMetric_eq (h : G.WF) : sMetric G =
    (((sumOver G.nodes fun u => sumOver G.nodes fun v =>
      if G.Edge u v then sDeg G u * sDeg G v else 0) : Nat) : ℚ) / 2 := by
  unfold sMetric
  simp only
  rw [reduce_add, sumOver_nodes h]
  congr 2
  refine Finset.sum_congr rfl fun i _ => ?_
  rw [mxv_times_getD, sumOver_nodes h]
  refine Finset.sum_congr rfl fun j _ => ?_
  rw [degreesP_getD h, ← degreesP_getD h i]
  simp only [edge_keyFn]
  cases hd : degreesP G i <;> cases G.A i j <;> simp [first]

/-- **C61 (partial).** On an undirected graph without self-loops `s_metric(G)` is the sum of
`degree(u) * degree(v)` over the edges, for any listing `EL` of the edges that names each edge once, in
one of its two directions.  Missing: digraphs and self-loops, where the code returns something else
(`s_metric_directed_half`, `s_metric_self_loop`). -/
theorem s_metric_correct_partial (h : G.WF) (hs : G.Symm) (hd : G.directed = false)
    (hl : ∀ u, ¬ G.Edge u u) (EL : List (K × K)) (hnd : EL.Nodup)
    (hE : ∀ p ∈ EL, G.Edge p.1 p.2 ∧ (p.2, p.1) ∉ EL)
    (hall : ∀ u v, G.Edge u v → (u, v) ∈ EL ∨ (v, u) ∈ EL) :
    sMetric G = (((EL.map fun p => outDeg G.nodes G.Edge p.1 * outDeg G.nodes G.Edge p.2).sum : Nat) : ℚ) := by
  rw [sMetric_eq h]
  have hdeg : sDeg G = outDeg G.nodes G.Edge := by funext u; simp [sDeg, hd]
  rw [hdeg]
  set f : K × K → Nat := fun p => outDeg G.nodes G.Edge p.1 * outDeg G.nodes G.Edge p.2 with hf
  -- all ordered edges
  have hp : ((EL ++ EL.map Prod.swap)).Perm
      ((G.nodes.product G.nodes).filter fun p => decide (G.Edge p.1 p.2)) := by
    refine (List.perm_ext_iff_of_nodup ?_ ?_).2 ?_
    · refine List.Nodup.append hnd (hnd.map Prod.swap_injective) ?_
      intro p hp hp'
      obtain ⟨q, hq, rfl⟩ := List.mem_map.1 hp'
      exact (hE q hq).2 hp
    · exact (h.keys_nodup.product h.keys_nodup).filter _
    · rintro ⟨u, v⟩
      rw [List.mem_append, List.mem_map, List.mem_filter]
      have hsym : ∀ {a b}, G.Edge a b → G.Edge b a := fun he => (Bfs.edge_symm h hs).1 he
      constructor
      · intro hp
        have he : G.Edge u v := by
          rcases hp with hp | ⟨⟨a, b⟩, hp, e⟩
          · exact (hE _ hp).1
          · cases e; exact hsym (hE _ hp).1
        exact ⟨List.mem_product.2 ⟨he.node_left, he.node_right⟩, by simpa using he⟩
      · rintro ⟨-, he⟩
        rcases hall u v (by simpa using he) with hp | hp
        · exact .inl hp
        · exact .inr ⟨(v, u), hp, rfl⟩
  have h1 : (sumOver G.nodes fun u => sumOver G.nodes fun v =>
      if G.Edge u v then outDeg G.nodes G.Edge u * outDeg G.nodes G.Edge v else 0) =
      (((G.nodes.product G.nodes).filter fun p => decide (G.Edge p.1 p.2)).map f).sum := by
    have gen : ∀ N M : List K, (sumOver N fun u => sumOver M fun v =>
      if G.Edge u v then f (u, v) else 0) =
      (((N.product M).filter fun p => decide (G.Edge p.1 p.2)).map f).sum := by
      intro N M
      unfold sumOver
      induction N with
      | nil => rfl
      | cons a N ih =>
        rw [List.map_cons, List.sum_cons, ih, show (a :: N).product M = M.map (fun b => (a, b)) ++ N.product M from
          List.product_cons .., List.filter_append, List.map_append, List.sum_append]
        congr 1
        clear ih
        induction M with
        | nil => rfl
        | cons b M ih2 =>
          rw [List.map_cons, List.sum_cons, ih2]
          by_cases he : G.Edge a b <;> simp [he]
    exact gen _ _
  rw [h1, ← (hp.map f).sum_eq, List.map_append, List.sum_append, List.map_map]
  have h2 : f ∘ Prod.swap = f := by
    funext p; simp [hf, Nat.mul_comm]
  rw [h2]
  push_cast
  ring

/-- **C61, false part.** On a digraph the value is half the sum over the edges. -/
theorem s_metric_directed_half (h : G.WF) (hd : G.directed = true) :
    2 * sMetric G = (((sumOver G.nodes fun u => sumOver G.nodes fun v =>
      if G.Edge u v then (outDeg G.nodes G.Edge u + inDeg G.nodes G.Edge u) *
        (outDeg G.nodes G.Edge v + inDeg G.nodes G.Edge v) else 0) : Nat) : ℚ) := by
  have : sDeg G = fun u => outDeg G.nodes G.Edge u + inDeg G.nodes G.Edge u := by
    funext u; simp [sDeg, hd]
  rw [sMetric_eq h, this]
  ring

/-- one undirected self-loop -/
def exLoop : Graph Nat Int where
  n := 1
  A := fun _ _ => some 1
  keyToId := [(5, 0)]

/-- **C61, false part.** With a self-loop the value need not be an integer: one node with a self-loop
(one edge, each end of degree at least 1) gives 1/2. -/
theorem s_metric_self_loop : exLoop.WF ∧ exLoop.Symm ∧ sMetric exLoop = 1 / 2 := by
  refine ⟨⟨by decide, by decide⟩, fun _ _ => rfl, ?_⟩
  decide +kernel

/-! ### C62 -/

omit [DecidableEq K] in
theorem foldl_count {β : Type} (f : β → Nat) (l : List β) (c : Nat) :
    l.foldl (fun count b => count + f b) c = c + (l.map f).sum := by
  induction l generalizing c with
  | nil => simp
  | cons a l ih => rw [List.foldl_cons, ih, List.map_cons, List.sum_cons]; omega

theorem block_count (h : G.WF) {b : List K} {v : Vec G.n Bool} (hv : ∀ i, (v i).isSome ↔ keyFn h i ∈ b) :
    (reduce (· + ·) (vassignR (vS v) (mxv (· + ·) pairN G.A v))).getD 0 =
      edgesFromTo G.nodes G.Edge (· ∈ b) (· ∈ b) ∧
    (reduce (· + ·) (vassignR (vnot (vS v)) (mxv (· + ·) pairN G.A v))).getD 0 =
      edgesFromTo G.nodes G.Edge (· ∉ b) (· ∈ b) := by
  have hrow : ∀ i, (mxv (· + ·) pairN G.A v i).getD 0 =
      ∑ j, if keyFn h j ∈ b ∧ (G.A i j).isSome then 1 else 0 := by
    intro i
    rw [mxv_pair_getD]
    refine Finset.sum_congr rfl fun j _ => ?_
    have := hv j
    cases hj : v j <;> cases G.A i j <;> simp_all
  constructor
  · rw [reduce_add, edgesFromTo_eq h]
    refine Finset.sum_congr rfl fun i _ => ?_
    unfold vassignR
    by_cases hi : keyFn h i ∈ b
    · rw [if_pos (show vS v i = true from (hv i).2 hi), hrow]
      simp [hi]
    · have h0 : vS v i = false := by
        have := (hv i).not.2 hi
        simpa [vS] using this
      simp [h0, hi]
  · rw [reduce_add, edgesFromTo_eq h]
    refine Finset.sum_congr rfl fun i _ => ?_
    unfold vassignR vnot
    by_cases hi : keyFn h i ∈ b
    · have h0 : vS v i = true := (hv i).2 hi
      simp [h0, hi]
    · have h0 : vS v i = false := by
        have := (hv i).not.2 hi
        simpa [vS] using this
      simp only [h0, Bool.not_false, if_true]
      rw [hrow]
      simp [hi]

theorem blocks_ok (h : G.WF) (P : List (List K)) :
    ∃ bs, (P.mapM fun b => setToVector G b true) = .ok bs ∧
      List.Forall₂ (fun b v => ∀ i, ((v : Vec G.n Bool) i).isSome ↔ keyFn h i ∈ b) P bs := by
  induction P with
  | nil => exact ⟨[], rfl, .nil⟩
  | cons b P ih =>
    obtain ⟨v, e, hv⟩ := setToVector_ok h b
    obtain ⟨bs, e2, hbs⟩ := ih
    refine ⟨v :: bs, ?_, .cons hv hbs⟩
    rw [List.mapM_cons, e, e2]; rfl

/-- **C62.** `intra_community_edges` adds up, over the blocks, the edges with both ends in the block;
`inter_community_edges` adds up the edges leading into a block from outside.  Edges are counted as ordered
pairs; keys that are not nodes are ignored. -/
theorem community_edges_correct (h : G.WF) (P : List (List K)) :
    intraCommunityEdges G P = .ok (P.map fun b => edgesFromTo G.nodes G.Edge (· ∈ b) (· ∈ b)).sum ∧
    interCommunityEdges G P = .ok (P.map fun b => edgesFromTo G.nodes G.Edge (· ∉ b) (· ∈ b)).sum := by
  obtain ⟨bs, e, hbs⟩ := blocks_ok h P
  have e1 : intraV G.A bs = (P.map fun b => edgesFromTo G.nodes G.Edge (· ∈ b) (· ∈ b)).sum := by
    unfold intraV
    rw [foldl_count, Nat.zero_add]
    congr 1
    clear e
    induction hbs with
    | nil => rfl
    | cons hv _ ih => rw [List.map_cons, List.map_cons, ih, (block_count h hv).1]
  have e2 : interV G.A bs = (P.map fun b => edgesFromTo G.nodes G.Edge (· ∉ b) (· ∈ b)).sum := by
    unfold interV
    rw [foldl_count, Nat.zero_add]
    congr 1
    clear e e1
    induction hbs with
    | nil => rfl
    | cons hv _ ih => rw [List.map_cons, List.map_cons, ih, (block_count h hv).2]
  constructor
  · unfold intraCommunityEdges; rw [e, ← e1]; rfl
  · unfold interCommunityEdges; rw [e, ← e2]; rfl

/-- the blocks contain every node exactly once -/
def IsPartition (G : Graph K α) (P : List (List K)) : Prop :=
  ∀ u, G.Node u → (P.countP fun b => decide (u ∈ b)) = 1

/-- `u` and `v` share a block -/
def SameBlock (P : List (List K)) (u v : K) : Prop := ∃ b ∈ P, u ∈ b ∧ v ∈ b

instance (P : List (List K)) (u v : K) : Decidable (SameBlock P u v) :=
  inferInstanceAs (Decidable (∃ b ∈ P, u ∈ b ∧ v ∈ b))

omit [DecidableEq K] in
theorem sum_map_sum {ι β : Type} [Fintype ι] (P : List β) (f : β → ι → Nat) :
    (P.map fun b => ∑ i, f b i).sum = ∑ i, (P.map fun b => f b i).sum := by
  induction P with
  | nil => simp
  | cons a P ih => simp [ih, Finset.sum_add_distrib]

/-- in a partition the number of blocks holding both ends is 1 or 0 -/
theorem share_count (P : List (List K)) {u v : K} (hv : (P.countP fun b => decide (v ∈ b)) = 1) :
    ((P.map fun b => if u ∈ b ∧ v ∈ b then 1 else 0).sum = if SameBlock P u v then 1 else 0) ∧
    ((P.map fun b => if u ∉ b ∧ v ∈ b then 1 else 0).sum = if SameBlock P u v then 0 else 1) := by
  have c : ∀ (q : List K → Prop) [DecidablePred q], (P.map fun b => if q b then 1 else 0).sum =
      P.countP fun b => decide (q b) := by
    intro q _
    clear hv
    induction P with
    | nil => rfl
    | cons a P ih =>
      rw [List.map_cons, List.sum_cons, ih, List.countP_cons]
      by_cases hq : q a <;> simp [hq]
      omega
  have tot : (P.countP fun b => decide (u ∈ b ∧ v ∈ b)) + (P.countP fun b => decide (u ∉ b ∧ v ∈ b)) =
      P.countP fun b => decide (v ∈ b) := by
    clear hv c
    induction P with
    | nil => rfl
    | cons a P ih =>
      simp only [List.countP_cons]
      rw [← ih]
      by_cases h1 : u ∈ a <;> by_cases h2 : v ∈ a <;> simp only [h1, h2, not_true, not_false_eq_true,
        and_true, and_false, and_self, decide_true, decide_false, Bool.false_eq_true, if_true, if_false] <;> omega
  rw [c, c]
  by_cases hs : SameBlock P u v
  · rw [if_pos hs, if_pos hs]
    obtain ⟨b, hb, hu, hv'⟩ := hs
    have : 0 < P.countP fun b => decide (u ∈ b ∧ v ∈ b) :=
      List.countP_pos_iff.2 ⟨b, hb, by simp [hu, hv']⟩
    omega
  · rw [if_neg hs, if_neg hs]
    have : (P.countP fun b => decide (u ∈ b ∧ v ∈ b)) = 0 := by
      rw [List.countP_eq_zero]
      intro b hb hq
      exact hs ⟨b, hb, by simpa using hq⟩
    omega

/-- **C62.** For a partition, `intra_community_edges` is the number of edges (ordered pairs) whose ends
share a block, `inter_community_edges` the number of those whose ends do not, and together they count
every edge. -/
theorem community_edges_partition (h : G.WF) {P : List (List K)} (hP : IsPartition G P) :
    ∃ a b, intraCommunityEdges G P = .ok a ∧ interCommunityEdges G P = .ok b ∧
      a = (sumOver G.nodes fun u => countOf G.nodes fun v => G.Edge u v ∧ SameBlock P u v) ∧
      b = (sumOver G.nodes fun u => countOf G.nodes fun v => G.Edge u v ∧ ¬ SameBlock P u v) ∧
      a + b = edgeCount G.nodes G.Edge := by
  obtain ⟨e1, e2⟩ := community_edges_correct h P
  have ha : (P.map fun b => edgesFromTo G.nodes G.Edge (· ∈ b) (· ∈ b)).sum =
      sumOver G.nodes fun u => countOf G.nodes fun v => G.Edge u v ∧ SameBlock P u v := by
    simp only [edgesFromTo_eq h]
    rw [sum_map_sum, sumOver_nodes h]
    refine Finset.sum_congr rfl fun i _ => ?_
    rw [sum_map_sum, countOf_nodes h]
    refine Finset.sum_congr rfl fun j _ => ?_
    have := (share_count P (u := keyFn h i) (hP _ (keyFn_at h j).node)).1
    simp only [edge_keyFn]
    by_cases hA : (G.A i j).isSome
    · simpa [hA] using this
    · simp [hA]
  have hb : (P.map fun b => edgesFromTo G.nodes G.Edge (· ∉ b) (· ∈ b)).sum =
      sumOver G.nodes fun u => countOf G.nodes fun v => G.Edge u v ∧ ¬ SameBlock P u v := by
    simp only [edgesFromTo_eq h]
    rw [sum_map_sum, sumOver_nodes h]
    refine Finset.sum_congr rfl fun i _ => ?_
    rw [sum_map_sum, countOf_nodes h]
    refine Finset.sum_congr rfl fun j _ => ?_
    have := (share_count P (u := keyFn h i) (hP _ (keyFn_at h j).node)).2
    simp only [edge_keyFn]
    by_cases hA : (G.A i j).isSome
    · by_cases hs : SameBlock P (keyFn h i) (keyFn h j) <;> simpa [hA, hs] using this
    · simp [hA]
  refine ⟨_, _, e1, e2, ha, hb, ?_⟩
  rw [ha, hb]
  unfold edgeCount outDeg
  rw [sumOver_nodes h, sumOver_nodes h, sumOver_nodes h, ← Finset.sum_add_distrib]
  refine Finset.sum_congr rfl fun i _ => ?_
  rw [countOf_nodes h, countOf_nodes h, countOf_nodes h, ← Finset.sum_add_distrib]
  refine Finset.sum_congr rfl fun j _ => ?_
  by_cases he : G.Edge (keyFn h i) (keyFn h j) <;>
    by_cases hs : SameBlock P (keyFn h i) (keyFn h j) <;> simp [he, hs]

/-- one undirected edge -/
def exEdge : Graph Nat Int where
  n := 2
  A := _root_.Ex.ofTriples 2 [(0,1,1),(1,0,1)]
  keyToId := [(0,0),(1,1)]

/-- **C62, false part.** In an undirected graph each edge is counted twice: one edge inside a block
gives 2. -/
theorem community_edges_undirected_doubled : exEdge.WF ∧ exEdge.Symm ∧
    intraCommunityEdges exEdge [[0, 1]] = .ok 2 ∧ interCommunityEdges exEdge [[0], [1]] = .ok 2 := by
  refine ⟨⟨by decide, by decide⟩, by unfold Graph.Symm; decide, by decide +kernel, by decide +kernel⟩

/-! ### C63 -/

/-- **C63.** `mutual_weight(G, u, v)` is the weight of `u → v` plus the weight of `v → u`, missing edges
and missing nodes counting 0; it never raises and is symmetric. -/
theorem mutual_weight_correct [AddCommMonoid α] (h : G.WF) (u v : K) :
    mutualWeight G u v = .ok ((G.weight? u v).getD 0 + (G.weight? v u).getD 0) ∧
    mutualWeight G u v = mutualWeight G v u := by
  have main : ∀ u v, mutualWeight G u v = .ok ((G.weight? u v).getD 0 + (G.weight? v u).getD 0) := by
    intro u v
    unfold mutualWeight
    by_cases hu : G.Node u
    · by_cases hv : G.Node v
      · obtain ⟨i, rfl⟩ := exists_keyFn h hu
        obtain ⟨j, rfl⟩ := exists_keyFn h hv
        rw [if_neg (by simp [contains_iff.2 hu, contains_iff.2 hv]),
          (getId_eq_ok h).2 (keyFn_at h i), (getId_eq_ok h).2 (keyFn_at h j), weight?_keyFn, weight?_keyFn]
        rfl
      · have hc : G.contains v = false := by rw [← Bool.not_eq_true, contains_iff]; exact hv
        have hw : ∀ w, G.weight? w v = none ∧ G.weight? v w = none := by
          intro w
          constructor <;> (rw [Option.eq_none_iff_forall_ne_some]; intro x hx)
          · obtain ⟨i, j, -, hj, -⟩ := (weight?_eq_some h).1 hx; exact hv hj.node
          · obtain ⟨i, j, hi, -, -⟩ := (weight?_eq_some h).1 hx; exact hv hi.node
        rw [if_pos (.inr hc)]
        simp [(hw u).1, (hw u).2]
    · have hc : G.contains u = false := by rw [← Bool.not_eq_true, contains_iff]; exact hu
      have hw : ∀ w, G.weight? w u = none ∧ G.weight? u w = none := by
        intro w
        constructor <;> (rw [Option.eq_none_iff_forall_ne_some]; intro x hx)
        · obtain ⟨i, j, -, hj, -⟩ := (weight?_eq_some h).1 hx; exact hu hj.node
        · obtain ⟨i, j, hi, -, -⟩ := (weight?_eq_some h).1 hx; exact hu hi.node
      rw [if_pos (.inl hc)]
      simp [(hw v).1, (hw v).2]
  refine ⟨main u v, ?_⟩
  rw [main, main, add_comm]

/-! ### C64 -/

omit [DecidableEq K] in
/-- **C64.** `is_triad(G)` is True exactly for digraphs with three nodes and no self-loop. -/
theorem is_triad_correct (h : G.WF) : isTriad G = true ↔
    G.directed = true ∧ G.nodes.length = 3 ∧ ∀ u, ¬ G.Edge u u := by
  unfold isTriad
  rw [nodes_length h]
  simp only [Bool.and_eq_true, decide_eq_true_eq, Bool.not_eq_true', decide_eq_false_iff_not, and_assoc]
  refine and_congr_right fun _ => and_congr_right fun _ => ?_
  constructor
  · intro hn u he
    obtain ⟨i, rfl⟩ := exists_keyFn h he.node_left
    exact hn ⟨i, (edge_keyFn h i i).1 he⟩
  · rintro hn ⟨i, hi⟩
    exact hn _ ((edge_keyFn h i i).2 hi)

/-! examples -/
section ex
open _root_.Ex

example : (match reciprocityNode dg 20 with | .ok x => decide (x = 2/3) | .error _ => false) = true := by
  decide +kernel
example : reciprocityNode dg 40 = .error .emptyGraph := by decide +kernel
example : (match overallReciprocity dg with | .ok x => decide (x = 1/2) | .error _ => false) = true := by
  decide +kernel
/-- triangle with a tail: degrees 1, 3, 2, 2; edges listed once -/
def exTail : Graph Nat Int where
  n := 4
  A := ofTriples 4 [(0,1,1),(1,0,1),(1,2,1),(2,1,1),(2,3,1),(3,2,1),(1,3,1),(3,1,1)]
  keyToId := [(10,0),(11,1),(12,2),(13,3)]
example : sMetric exTail = 3 + 6 + 6 + 4 := by decide +kernel
example : exTail.WF ∧ exTail.Symm ∧ ∀ u, ¬ exTail.Edge u u := by
  refine ⟨⟨by decide, by decide⟩, by unfold Graph.Symm; decide, ?_⟩
  rintro u ⟨i, j, hi, hj, e⟩
  have : i = j := by
    have := At.id_unique (G := exTail) ⟨by decide, by decide⟩ hi hj
    exact this
  subst this
  clear hi hj
  revert i
  decide +kernel
example : IsPartition dg [[10, 20], [30, 40]] := by
  intro u hu
  have : ∀ u ∈ dg.nodes, (([[10, 20], [30, 40]] : List (List Nat)).countP fun b => decide (u ∈ b)) = 1 := by
    decide +kernel
  exact this u hu
example : intraCommunityEdges dg [[10, 20], [30, 40]] = .ok 2 ∧
    interCommunityEdges dg [[10, 20], [30, 40]] = .ok 2 := by decide +kernel
example : mutualWeight dg 20 30 = .ok 9 ∧ mutualWeight dg 20 99 = .ok 0 := by decide +kernel
example : isTriad exTour = true ∧ isTriad dg = false := by decide +kernel

end ex

end Props
