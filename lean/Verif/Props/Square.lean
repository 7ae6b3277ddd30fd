import Verif.Proofs.Square
import Verif.Proofs.BfsApi
import Verif.Props.Utils
import Verif.Props.Examples
import Mathlib.Algebra.Order.Field.Rat

/-! # C40 square_clustering -/

open GB Spec Model Model.Graph Proofs Proofs.Square

namespace Spec
variable {V : Type*} [DecidableEq V] (N : List V) (E : V → V → Prop) [∀ u v, Decidable (E u v)]

/-- common neighbours of `u` and `w` other than `v`: the squares `v u x w` -/
def squaresAt (v u w : V) : Nat := countOf N fun x => x ≠ v ∧ E u x ∧ E w x

/-- squares through `v`, over *ordered* pairs of distinct neighbours of `v` -/
def squarePairs (v : V) : Nat :=
  sumOver N fun u => sumOver N fun w => if u ≠ w ∧ E v u ∧ E v w then squaresAt N E v u w else 0

/-- potential squares through `v` over the same ordered pairs (NetworkX's formula): with
`m = squares + 1 + [u and w adjacent]`, `(deg u - m) + (deg w - m) + squares` -/
def squarePotential (v : V) : Int :=
  sumOver N fun u => sumOver N fun w => if u ≠ w ∧ E v u ∧ E v w then
    (countOf N (E u) - (squaresAt N E v u w + 1 + if E u w then 1 else 0) : Int) +
    (countOf N (E w) - (squaresAt N E v u w + 1 + if E u w then 1 else 0) : Int) + squaresAt N E v u w
  else 0

/-- the square clustering coefficient (0 when there is nothing to count) -/
def squareCoeff (v : V) : ℚ := (squarePairs N E v : ℚ) / (squarePotential N E v : ℚ)

end Spec

namespace Props

variable {K : Type} [DecidableEq K] {G : Graph K Int}

/-- an undirected graph without self-loops, all weights 1: what an unweighted simple NetworkX graph
becomes -/
structure Simple (G : Graph K Int) : Prop where
  wf : G.WF
  symm : G.Symm
  noLoop : ∀ u, ¬ G.Edge u u
  unit : ∀ u v w, G.WEdge u v w → w = 1

theorem Simple.diag (h : Simple G) (i : Fin G.n) : G.A i i = none := by
  have := h.noLoop (keyFn h.wf i)
  rw [edge_keyFn] at this
  simpa using this
theorem Simple.one (h : Simple G) (i j w) (e : G.A i j = some w) : w = 1 :=
  h.unit _ _ w ⟨i, j, keyFn_at h.wf i, keyFn_at h.wf j, e⟩

theorem squaresAt_eq (h : G.WF) (v u w : Fin G.n) :
    (squaresAt G.nodes G.Edge (keyFn h v) (keyFn h u) (keyFn h w) : Int) = qq (az G.A) v u w := by
  unfold squaresAt qq
  rw [countOf_nodes h, Nat.cast_sum]
  refine Finset.sum_congr rfl fun x _ => ?_
  simp only [ne_eq, keyFn_eq_iff, edge_keyFn, az]
  by_cases hx : x = v
  · simp [hx]
  · cases G.A u x <;> cases G.A w x <;> simp [hx]

theorem deg_eq (h : G.WF) (u : Fin G.n) : (countOf G.nodes (G.Edge (keyFn h u)) : Int) = dg (az G.A) u := by
  unfold dg
  rw [countOf_nodes h, Nat.cast_sum]
  refine Finset.sum_congr rfl fun x _ => ?_
  simp only [edge_keyFn, az]
  cases G.A u x <;> simp

theorem squarePairs_eq (h : G.WF) (v : Fin G.n) :
    (squarePairs G.nodes G.Edge (keyFn h v) : Int) = sqF (az G.A) v := by
  unfold squarePairs sqF
  rw [sumOver_nodes h, Nat.cast_sum]
  refine Finset.sum_congr rfl fun u _ => ?_
  rw [sumOver_nodes h, Nat.cast_sum]
  refine Finset.sum_congr rfl fun w _ => ?_
  rw [← squaresAt_eq h]
  simp only [ne_eq, keyFn_eq_iff, edge_keyFn, az]
  by_cases huw : u = w
  · simp [huw]
  · cases G.A v u <;> cases G.A v w <;> simp [huw]

theorem squarePotential_eq (h : G.WF) (v : Fin G.n) :
    squarePotential G.nodes G.Edge (keyFn h v) = potF (az G.A) v := by
  unfold squarePotential potF
  rw [sumOver_nodes h]
  refine Finset.sum_congr rfl fun u _ => ?_
  rw [sumOver_nodes h]
  refine Finset.sum_congr rfl fun w _ => ?_
  rw [← squaresAt_eq h, ← deg_eq h, ← deg_eq h]
  have e : (if G.Edge (keyFn h u) (keyFn h w) then (1 : Int) else 0) = az G.A u w := by
    simp only [edge_keyFn, az]
    cases G.A u w <;> simp
  rw [e]
  simp only [ne_eq, keyFn_eq_iff, edge_keyFn]
  by_cases huw : u = w
  · simp [huw]
  · unfold az
    cases G.A v u <;> cases G.A v w <;> simp [huw]

theorem squareCoeff_eq (h : Simple G) (i : Fin G.n) :
    squareCoeff G.nodes G.Edge (keyFn h.wf i) =
      ((SS (az G.A) i / 2 : Int) : ℚ) / (den G.A i : ℚ) := by
  unfold squareCoeff
  rw [ratio_eq h.symm h.diag, squarePotential_eq, ← squarePairs_eq h.wf]
  simp

theorem SS_pairs (h : Simple G) (i : Fin G.n) :
    SS (az G.A) i = (squarePairs G.nodes G.Edge (keyFn h.wf i) : Int) := by
  rw [SS_eq az_id (az_symm h.symm), ← squarePairs_eq h.wf]

theorem squareVec_key (h : Simple G) (ids : Option (List (Fin G.n))) (i) :
    squareVec G.A ids i = if inIds ids i ∧ 0 < squarePairs G.nodes G.Edge (keyFn h.wf i) then
      some (squareCoeff G.nodes G.Edge (keyFn h.wf i)) else none := by
  rw [squareVec_eq h.symm h.one, squareCoeff_eq h, SS_pairs h]
  congr 1
  simp only [ne_eq, Nat.cast_eq_zero, eq_iff_iff, Nat.pos_iff_ne_zero]

/-- **C40.** squares never exceed potential squares: coefficients lie in `[0, 1]`, and a node with a
square never divides by zero. -/
theorem square_clustering_bounds (h : Simple G) {u : K} (hu : G.Node u) :
    (squarePairs G.nodes G.Edge u : Int) ≤ squarePotential G.nodes G.Edge u ∧
    0 ≤ squareCoeff G.nodes G.Edge u ∧ squareCoeff G.nodes G.Edge u ≤ 1 := by
  obtain ⟨i, rfl⟩ := exists_keyFn h.wf hu
  have hle : (squarePairs G.nodes G.Edge (keyFn h.wf i) : Int) ≤
      squarePotential G.nodes G.Edge (keyFn h.wf i) := by
    rw [squarePotential_eq, squarePairs_eq h.wf]
    exact sqF_le_potF az_01 (az_symm h.symm) (az_diag h.diag) i
  have h0 : (0 : ℚ) ≤ (squarePotential G.nodes G.Edge (keyFn h.wf i) : ℚ) := by
    exact_mod_cast le_trans (Int.natCast_nonneg _) hle
  have hle' : (squarePairs G.nodes G.Edge (keyFn h.wf i) : ℚ) ≤
      (squarePotential G.nodes G.Edge (keyFn h.wf i) : ℚ) := by exact_mod_cast hle
  refine ⟨hle, ?_, ?_⟩
  · unfold squareCoeff; exact div_nonneg (by positivity) h0
  · unfold squareCoeff; exact div_le_one_of_le₀ hle' h0

/-! ### chunking -/

theorem partition_flatten {β : Type} (c : Int) (L : List β) : (partition c L).flatMap pieceIds = L := by
  by_cases hc : c = 1
  · subst hc
    by_cases hL : 1 < L.length
    · rw [partition_one L true hL, List.flatMap_map]
      simp [pieceIds]
    · unfold partition
      simp only
      split
      · rename_i h0; simp [List.length_eq_zero_iff.1 h0]
      · rw [if_pos (by omega)]; simp [pieceIds]
  · obtain ⟨ps, hp, hfl, -⟩ := partition_correct c L true hc
    rw [hp, List.flatMap_map]
    exact (List.flatten_eq_flatMap ▸ hfl : _)

theorem splitLoop_some (h : Simple G) (ps : List (Piece (Fin G.n))) (l : List (Fin G.n)) :
    squareSplitLoop G.A ps (some (squareVec G.A (some l))) =
      some (squareVec G.A (some (l ++ ps.flatMap pieceIds))) := by
  induction ps generalizing l with
  | nil => simp [squareSplitLoop]
  | cons p ps ih =>
    unfold squareSplitLoop
    simp only
    have : vadd any' (squareVec G.A (some l)) (squareVec G.A (some (pieceIds p))) =
        squareVec G.A (some (l ++ pieceIds p)) := by
      funext i
      unfold vadd
      rw [squareVec_key h, squareVec_key h, squareVec_key h]
      simp only [inIds, Option.some.injEq, forall_eq', List.mem_append]
      by_cases h1 : i ∈ l <;> by_cases h2 : i ∈ pieceIds p <;>
        by_cases h3 : 0 < squarePairs G.nodes G.Edge (keyFn h.wf i) <;> simp [h1, h2, h3, any']
    rw [this, ih]
    simp

theorem squareSplit_eq (h : Simple G) (l : List (Fin G.n)) (c : Int) (hl : l ≠ []) :
    squareSplitLoop G.A (partition c l) none = some (squareVec G.A (some l)) := by
  have hf := partition_flatten c l
  cases hp : partition c l with
  | nil => rw [hp] at hf; simp at hf; exact absurd hf hl
  | cons p ps =>
    rw [hp] at hf
    unfold squareSplitLoop
    simp only
    rw [splitLoop_some h]
    simp only [List.flatMap_cons] at hf
    rw [hf]

theorem squareResult_all (h : Simple G) (c : Option Int) (hc : c = none ∨ ∃ u v, G.Edge u v) :
    squareResult G.A none c = .ok (squareVec G.A none) := by
  cases c with
  | none => rfl
  | some c =>
    have hc : ∃ u v, G.Edge u v := by simpa using hc
    obtain ⟨u, v, i, j, -, -, e⟩ := hc
    unfold squareResult squareSplit
    simp only
    have hmem : i ∈ indices (reduceRow any' G.A) := mem_indices.2 ((reduce_isSome _ _).2 ⟨j, e⟩)
    rw [squareSplit_eq h _ c (List.ne_nil_of_mem hmem)]
    simp only
    congr 1
    funext i
    rw [squareVec_eq h.symm h.one, squareVec_eq h.symm h.one]
    congr 1
    simp only [inIds, Option.some.injEq, forall_eq', reduceCtorEq, false_implies, implies_true,
      true_and, eq_iff_iff, and_iff_right_iff_imp]
    intro hne
    obtain ⟨j, hj⟩ := SS_ne_row hne
    exact mem_indices.2 ((reduce_isSome _ _).2 ⟨j, hj⟩)

/-- **C40.** `square_clustering(G)` on a simple unweighted undirected graph with at least one edge
(or without chunking) gives every node its square clustering coefficient, whatever the chunk size. -/
theorem square_clustering_correct (h : Simple G) (c : Option Int)
    (hc : c = none ∨ ∃ u v, G.Edge u v) :
    ∃ r, squareClustering G c = .ok r ∧ ∀ u x, G.view r u = some x ↔
      G.Node u ∧ x = squareCoeff G.nodes G.Edge u := by
  refine ⟨nodemapFill none (squareVec G.A none) 0, ?_, ?_⟩
  · unfold squareClustering; rw [squareResult_all h c hc]; rfl
  intro u x
  rw [view_eq_some h.wf]
  have hv : ∀ i, nodemapFill none (squareVec G.A none) 0 i =
      some (squareCoeff G.nodes G.Edge (keyFn h.wf i)) := by
    intro i
    unfold nodemapFill
    simp only
    rw [squareVec_key h]
    simp only [inIds, reduceCtorEq, false_implies, implies_true, true_and]
    split
    · rfl
    · rename_i h0
      have : squarePairs G.nodes G.Edge (keyFn h.wf i) = 0 := by omega
      simp [squareCoeff, this]
  simp only [hv, Option.some.injEq]
  constructor
  · rintro ⟨i, hi, e⟩
    exact ⟨hi.node, by rw [← e, keyFn_eq h.wf hi]⟩
  · rintro ⟨hu, rfl⟩
    obtain ⟨i, hi⟩ := hu.exists_id h.wf
    exact ⟨i, hi, by rw [keyFn_eq h.wf hi]⟩

/-- **C40.** the one-node call returns the same coefficient. -/
theorem square_clustering_single (h : Simple G) {u : K} (hu : G.Node u) :
    squareClusteringSingle G u = .ok (squareCoeff G.nodes G.Edge u) := by
  obtain ⟨i, hi⟩ := hu.exists_id h.wf
  unfold squareClusteringSingle
  rw [(getId_eq_ok h.wf).2 hi]
  show singleSquareAt G.A i = _
  have hcoef := squareCoeff_eq h i
  rw [keyFn_eq h.wf hi] at hcoef
  rw [hcoef]
  have hSSp := SS_pairs h i
  have hS0 : 0 ≤ SS (az G.A) i := by rw [hSSp]; exact Int.natCast_nonneg _
  have hdle : dg (az G.A) i ≤ 1 → SS (az G.A) i = 0 := SS_of_dg h.symm i
  unfold singleSquareAt
  simp only [degZ_getD]
  by_cases hd : dg (az G.A) i ≤ 1
  · rw [if_pos hd, hdle hd]; simp
  rw [if_neg hd]
  -- the vector p2
  have hp2 : ∀ j, (vdel (vxm (· + ·) pairZ (G.A i) G.A) i j).getD 0 =
      if j ≠ i then pp (az G.A) i j else 0 := by
    intro j
    unfold vdel
    by_cases hj : j = i
    · simp [hj]
    · rw [if_neg hj, if_pos hj, vxm, reduce_add]
      simp only [ointer_pairZ_getD]
      unfold pp az
      refine Finset.sum_congr rfl fun l _ => ?_
      rw [h.symm l j]
  have hsq : (reduce (· + ·) (vapply (fun p : Int => p * (p - 1)) (vdel (vxm (· + ·) pairZ (G.A i) G.A) i))).getD 0 =
      SS (az G.A) i := by
    rw [reduce_add]
    unfold SS
    refine Finset.sum_congr rfl fun j _ => ?_
    have e : (vapply (fun p : Int => p * (p - 1)) (vdel (vxm (· + ·) pairZ (G.A i) G.A) i) j).getD 0 =
        (vdel (vxm (· + ·) pairZ (G.A i) G.A) i j).getD 0 *
          ((vdel (vxm (· + ·) pairZ (G.A i) G.A) i j).getD 0 - 1) := by
      unfold vapply
      cases vdel (vxm (· + ·) pairZ (G.A i) G.A) i j <;> simp
    rw [e, hp2]
    split <;> simp
  have htri : (dot (· + ·) first (vdel (vxm (· + ·) pairZ (G.A i) G.A) i) (G.A i)).getD 0 =
      TT (az G.A) i := by
    rw [dot, reduce_add]
    unfold TT
    refine Finset.sum_congr rfl fun j _ => ?_
    have e : (ointer first (vdel (vxm (· + ·) pairZ (G.A i) G.A) i j) (G.A i j)).getD 0 =
        (vdel (vxm (· + ·) pairZ (G.A i) G.A) i j).getD 0 * az G.A i j := by
      unfold az
      cases vdel (vxm (· + ·) pairZ (G.A i) G.A) i j <;> cases G.A i j <;> simp [first]
    rw [e, hp2]
    split <;> simp
  rw [hsq, htri]
  have hfd : Int.fdiv (SS (az G.A) i) 2 = SS (az G.A) i / 2 := Int.fdiv_eq_ediv_of_nonneg _ (by omega)
  rw [hfd]
  obtain ⟨k, hk⟩ := SS_even (a := az G.A) i
  by_cases hz : SS (az G.A) i / 2 = 0
  · rw [if_pos hz, hz]; simp
  rw [if_neg hz]
  have hSne : SS (az G.A) i ≠ 0 := by omega
  obtain ⟨j, hj⟩ := SS_ne_row hSne
  have huw : dot (· + ·) (· * ·) (G.A i) (degZ G.A) = some (UU (az G.A) i) := by
    have hsome : (dot (· + ·) (· * ·) (G.A i) (degZ G.A)).isSome := by
      rw [dot_isSome]
      exact ⟨j, hj, (degZ_isSome j).2 ⟨i, by rw [h.symm]; exact hj⟩⟩
    obtain ⟨x, hx⟩ := Option.isSome_iff_exists.1 hsome
    have := uw_getD (A := G.A) none i
    rw [UW_unit h.one] at this
    simp only [inIds, reduceCtorEq, false_implies, implies_true, if_true] at this
    have e : mxv (· + ·) (· * ·) (sqSubset G.A none) (degZ G.A) i = dot (· + ·) (· * ·) (G.A i) (degZ G.A) := rfl
    rw [e, hx] at this
    rw [hx]; simp at this; rw [this]
  rw [huw]
  simp only
  have hden : -TT (az G.A) i - dg (az G.A) i * (dg (az G.A) i - 1) + UU (az G.A) i * (dg (az G.A) i - 1) -
      SS (az G.A) i / 2 = den G.A i := by unfold den; ring
  rw [hden, if_neg]
  intro h0
  have h2 := two_den h.symm h.diag i
  have h3 := sqF_le_potF az_01 (az_symm h.symm) (az_diag h.diag) i
  rw [← SS_eq az_id (az_symm h.symm)] at h3
  omega

/-- **C40, partial.** `square_clustering(G, nodes)` for a non-empty collection of nodes: the nodes
asked for that lie on a square get their coefficient, whatever the chunk size.  What is missing: the
other nodes asked for, whose coefficient is 0, are absent from the result
(`square_clustering_subset_drops_zeros`). -/
theorem square_clustering_subset_partial (h : Simple G) {nodes : List K} (hn : ∀ u ∈ nodes, G.Node u)
    (hne : nodes ≠ []) (c : Option Int) :
    ∃ r, squareClusteringOf G nodes c = .ok r ∧ ∀ u x, G.view r u = some x ↔
      u ∈ nodes ∧ 0 < squarePairs G.nodes G.Edge u ∧ x = squareCoeff G.nodes G.Edge u := by
  obtain ⟨ids, hids, hf⟩ := Bfs.listToIds_ok h.wf hn
  have hidne : ids ≠ [] := by
    rintro rfl
    cases hf
    exact hne rfl
  refine ⟨squareVec G.A (some ids), ?_, ?_⟩
  · unfold squareClusteringOf
    rw [hids]
    show squareResult G.A (some ids) c = _
    cases c with
    | none => rfl
    | some c =>
      unfold squareResult squareSplit
      simp only
      rw [squareSplit_eq h ids c hidne]
  intro u x
  rw [view_eq_some h.wf]
  constructor
  · rintro ⟨i, hi, e⟩
    rw [squareVec_key h] at e
    split at e
    · rename_i hc
      simp only [Option.some.injEq] at e
      rw [keyFn_eq h.wf hi] at hc e
      exact ⟨(Bfs.forall₂_mem hf h.wf hi).2 (hc.1 ids rfl), hc.2, e.symm⟩
    · cases e
  · rintro ⟨hu, h0, rfl⟩
    obtain ⟨i, hi⟩ := (hn u hu).exists_id h.wf
    refine ⟨i, hi, ?_⟩
    rw [squareVec_key h, keyFn_eq h.wf hi, if_pos]
    refine ⟨?_, h0⟩
    rintro l hl
    cases hl
    exact (Bfs.forall₂_mem hf h.wf hi).1 hu

end Props

namespace Ex
open Model GB
/-- the square 1-2-3-4 with the tail 4-5 and the chord 1-3 -/
def sq : Graph Nat Int where
  n := 5
  A := ofTriples 5 [(0,1,1),(1,0,1),(1,2,1),(2,1,1),(2,3,1),(3,2,1),(3,0,1),(0,3,1),(3,4,1),(4,3,1),
    (0,2,1),(2,0,1)]
  keyToId := [(1,0),(2,1),(3,2),(4,3),(5,4)]
/-- two nodes, no edge -/
def edgeless : Graph Nat Int where
  n := 2
  A := ofTriples 2 []
  keyToId := [(1,0),(2,1)]
/-- the same square with weight 2 everywhere -/
def sqw : Graph Nat Int := { sq with A := mapply (fun _ => 2) sq.A }
/-- the same square with weights 3 (1-2) and -1 (2-3) -/
def sqb : Graph Nat Int where
  n := 5
  A := ofTriples 5 [(0,1,3),(1,0,3),(1,2,-1),(2,1,-1),(2,3,1),(3,2,1),(3,0,1),(0,3,1),(3,4,1),(4,3,1),
    (0,2,1),(2,0,1)]
  keyToId := [(1,0),(2,1),(3,2),(4,3),(5,4)]
/-- the 4-cycle 1-2-3-4 with a loop at node 1 -/
def sql : Graph Nat Int where
  n := 4
  A := ofTriples 4 [(0,1,1),(1,0,1),(1,2,1),(2,1,1),(2,3,1),(3,2,1),(3,0,1),(0,3,1),(0,0,1)]
  keyToId := [(1,0),(2,1),(3,2),(4,3)]
end Ex

namespace Props

theorem sq_simple : Simple Ex.sq where
  wf := ⟨by decide, by decide⟩
  symm := by unfold Graph.Symm; decide
  noLoop := by
    rintro u ⟨i, j, hi, hj, e⟩
    have : i = j := At.id_unique ⟨by decide, by decide⟩ hi hj
    subst this
    have : ∀ i, Ex.sq.A i i = none := by decide
    rw [this] at e; cases e
  unit := by
    rintro u v w ⟨i, j, -, -, e⟩
    have : ∀ i j, ∀ w ∈ Ex.sq.A i j, w = 1 := by decide
    exact this i j w e

example : [1,2,3,4,5].map (squareCoeff Ex.sq.nodes Ex.sq.Edge) = [1/5, 1, 1/5, 1/5, 0] := by
  decide +kernel
example : ∃ r, squareClustering Ex.sq (some 2) = .ok r ∧
    [1,2,3,4,5].map (Ex.sq.view r) = [some (1/5), some 1, some (1/5), some (1/5), some 0] := by
  refine ⟨_, rfl, ?_⟩; decide +kernel

/-- **C40, finding.** asked for node 5 (coefficient 0) together with node 1, the result has no entry
for node 5. -/
theorem square_clustering_subset_drops_zeros :
    ∃ r, squareClusteringOf Ex.sq [1, 5] none = .ok r ∧ Ex.sq.view r 1 = some (1/5) ∧
      Ex.sq.view r 5 = none := by
  refine ⟨_, rfl, ?_, ?_⟩ <;> decide +kernel

/-- **C40, finding.** with a chunk size, a graph without edges has no result at all. -/
theorem square_clustering_chunked_edgeless : squareClustering Ex.edgeless (some 1) = .error .typeError ∧
    ∃ r, squareClustering Ex.edgeless none = .ok r := by
  refine ⟨by decide +kernel, _, rfl⟩

/-- **C40, finding.** edge weights leak into the denominator: the same graph with all weights 2 gives
another number (NetworkX ignores weights). -/
theorem square_clustering_uses_weights :
    (Ex.sqw.Edge = Ex.sq.Edge) ∧ squareClusteringSingle Ex.sqw 2 ≠ squareClusteringSingle Ex.sq 2 := by
  refine ⟨?_, by decide +kernel⟩
  funext u v
  simp only [Edge, eq_iff_iff]
  constructor
  · rintro ⟨i, j, hi, hj, e⟩; exact ⟨i, j, hi, hj, by simpa [Ex.sqw, mapply] using e⟩
  · rintro ⟨i, j, hi, hj, e⟩; exact ⟨i, j, hi, hj, by simpa [Ex.sqw, mapply] using e⟩

/-! ### graphs with weights, graphs with self-loops -/

variable {K : Type} [DecidableEq K] {G : Graph K Int}

/-- how far the weights at `u` are from 1, each weighted by the degree of the neighbour -/
def weightExcess (G : Graph K Int) (u : K) : Int :=
  sumOver G.nodes fun v => ((G.weight? u v).getD 1 - 1) * (countOf G.nodes (G.Edge v) : Int)

theorem weightExcess_eq (h : G.WF) (i : Fin G.n) :
    weightExcess G (keyFn h i) = UW G.A i - UU (az G.A) i := by
  unfold weightExcess UW UU
  rw [sumOver_nodes h, ← Finset.sum_sub_distrib]
  refine Finset.sum_congr rfl fun j _ => ?_
  rw [weight?_keyFn, deg_eq h]
  unfold az
  cases G.A i j with
  | none => simp
  | some w => simp; ring

/-- **C40.** what the code computes on *any* undirected graph without self-loops, whatever the integer
weights: the potential squares are shifted by `2 (deg u - 1)` times the weight excess at `u`. -/
theorem square_clustering_weighted_exact (h : G.WF) (hs : G.Symm) (hl : ∀ u, ¬ G.Edge u u) :
    ∃ r, squareClustering G none = .ok r ∧ ∀ u x, G.view r u = some x ↔
      G.Node u ∧ x = (squarePairs G.nodes G.Edge u : ℚ) /
        ((squarePotential G.nodes G.Edge u +
          2 * ((countOf G.nodes (G.Edge u) : Int) - 1) * weightExcess G u : Int) : ℚ) := by
  have hdiag : ∀ i, G.A i i = none := by
    intro i
    have := hl (keyFn h i)
    rw [edge_keyFn] at this
    simpa using this
  refine ⟨nodemapFill none (squareVec G.A none) 0, rfl, ?_⟩
  intro u x
  rw [view_eq_some h]
  have hv : ∀ i, nodemapFill none (squareVec G.A none) 0 i =
      some ((squarePairs G.nodes G.Edge (keyFn h i) : ℚ) /
        ((squarePotential G.nodes G.Edge (keyFn h i) +
          2 * ((countOf G.nodes (G.Edge (keyFn h i)) : Int) - 1) * weightExcess G (keyFn h i) : Int) : ℚ)) := by
    intro i
    have hp := squarePairs_eq h i
    rw [← SS_eq az_id (az_symm hs)] at hp
    unfold nodemapFill
    simp only
    rw [squareVec_eqW hs]
    simp only [inIds, reduceCtorEq, false_implies, implies_true, true_and]
    obtain ⟨k, hk⟩ := SS_even (a := az G.A) i
    split
    · rename_i h0
      simp only [Option.getD_some, Option.some.injEq]
      have hd : squarePotential G.nodes G.Edge (keyFn h i) +
          2 * ((countOf G.nodes (G.Edge (keyFn h i)) : Int) - 1) * weightExcess G (keyFn h i) =
          2 * denW G.A i := by
        rw [squarePotential_eq, ← two_den hs hdiag, weightExcess_eq, deg_eq h]
        unfold den denW
        ring
      rw [hd]
      have hk2 : SS (az G.A) i / 2 = k := by omega
      have hp2 : (squarePairs G.nodes G.Edge (keyFn h i) : ℚ) = 2 * (k : ℚ) := by
        have : (squarePairs G.nodes G.Edge (keyFn h i) : Int) = 2 * k := by omega
        exact_mod_cast this
      rw [hk2, hp2]
      push_cast
      rw [mul_div_mul_left _ _ (by norm_num)]
    · rename_i h0
      have : squarePairs G.nodes G.Edge (keyFn h i) = 0 := by
        push Not at h0
        omega
      simp [this]
  simp only [hv, Option.some.injEq]
  constructor
  · rintro ⟨i, hi, e⟩
    exact ⟨hi.node, by rw [← e, keyFn_eq h hi]⟩
  · rintro ⟨hu, rfl⟩
    obtain ⟨i, hi⟩ := hu.exists_id h
    exact ⟨i, hi, by rw [keyFn_eq h hi]⟩

/-- **C40.** hence the answer is right at a node on a square exactly when the weights at that node
balance out: `Σ (w - 1) deg = 0`. -/
theorem square_clustering_right_iff (h : G.WF) (hs : G.Symm) (hl : ∀ u, ¬ G.Edge u u)
    {r} (hr : squareClustering G none = .ok r) {u : K} (hu : G.Node u)
    (hq : 0 < squarePairs G.nodes G.Edge u) :
    G.view r u = some (squareCoeff G.nodes G.Edge u) ↔ weightExcess G u = 0 := by
  obtain ⟨r', hr', hv⟩ := square_clustering_weighted_exact h hs hl
  rw [hr] at hr'
  cases hr'
  rw [hv]
  have hdiag : ∀ i, G.A i i = none := by
    intro i
    have := hl (keyFn h i)
    rw [edge_keyFn] at this
    simpa using this
  have hpot : 0 < squarePotential G.nodes G.Edge u := by
    obtain ⟨i, rfl⟩ := exists_keyFn h hu
    have := sqF_le_potF az_01 (az_symm hs) (az_diag hdiag) i
    rw [squarePotential_eq]
    rw [← squarePairs_eq h] at this
    omega
  have hdeg : 1 < countOf G.nodes (G.Edge u) := by
    by_contra hcon
    obtain ⟨i, rfl⟩ := exists_keyFn h hu
    have h1 : (countOf G.nodes (G.Edge (keyFn h i)) : Int) ≤ 1 := by omega
    rw [deg_eq h] at h1
    have h2 := SS_of_dg hs i h1
    rw [SS_eq az_id (az_symm hs), ← squarePairs_eq h] at h2
    omega
  constructor
  · rintro ⟨-, e⟩
    unfold squareCoeff at e
    have hq' : (squarePairs G.nodes G.Edge u : ℚ) ≠ 0 := by exact_mod_cast hq.ne'
    have hp' : (squarePotential G.nodes G.Edge u : ℚ) ≠ 0 := by exact_mod_cast hpot.ne'
    have hd0 : ((squarePotential G.nodes G.Edge u +
          2 * ((countOf G.nodes (G.Edge u) : Int) - 1) * weightExcess G u : Int) : ℚ) ≠ 0 := by
      intro h0
      rw [h0, div_zero] at e
      exact div_ne_zero hq' hp' e
    rw [div_eq_div_iff hp' hd0] at e
    have e2 := mul_left_cancel₀ hq' e
    have e3 : squarePotential G.nodes G.Edge u +
          2 * ((countOf G.nodes (G.Edge u) : Int) - 1) * weightExcess G u =
        squarePotential G.nodes G.Edge u := by exact_mod_cast e2
    have e4 : ((countOf G.nodes (G.Edge u) : Int) - 1) * weightExcess G u = 0 := by linarith
    rcases mul_eq_zero.1 e4 with e5 | e5
    · omega
    · exact e5
  · intro e
    refine ⟨hu, ?_⟩
    rw [e]; simp [squareCoeff]

/-- **C40, finding.** a self-loop breaks the answer: on the 4-cycle 1-2-3-4 with a loop at node 1, node 1 gets
1/5 and nodes 2, 4 get 1.  With the loop counted as the formula says, the values are 1/3 and 1/2; with the loop ignored,
they are all 1. -/
theorem square_clustering_self_loop_wrong :
    [1,2,3,4].map (squareClusteringSingle Ex.sql) = [.ok (1/5), .ok 1, .ok 1, .ok 1] ∧
    [1,2,3,4].map (squareCoeff Ex.sql.nodes Ex.sql.Edge) = [1/3, 1/2, 1, 1/2] ∧
    [1,2,3,4].map (squareCoeff Ex.sql.nodes fun u v => u ≠ v ∧ Ex.sql.Edge u v) = [1, 1, 1, 1] := by
  refine ⟨?_, ?_, ?_⟩ <;> decide +kernel

/-- the hypotheses of `square_clustering_weighted_exact` are met by a graph with unequal weights; at node 2 the weights
balance (3 and -1, both neighbours of degree 3) and the answer is right there -/
example : Ex.sqb.WF ∧ Ex.sqb.Symm ∧ (∀ u, ¬ Ex.sqb.Edge u u) ∧
    [1,2,3,4,5].map (weightExcess Ex.sqb) = [4, 0, -4, 0, 0] ∧
    0 < squarePairs Ex.sqb.nodes Ex.sqb.Edge 2 := by
  refine ⟨⟨by decide, by decide⟩, by unfold Graph.Symm; decide, ?_, by decide +kernel, by decide +kernel⟩
  rintro u ⟨i, j, hi, hj, e⟩
  have : i = j := At.id_unique ⟨by decide, by decide⟩ hi hj
  subst this
  have : ∀ i, Ex.sqb.A i i = none := by decide
  rw [this] at e; cases e

end Props
