import Verif.Proofs.NodeMask
import Verif.Props.Examples
import Mathlib.Algebra.Order.Field.Rat
import Mathlib.Tactic.FieldSimp
import Mathlib.Tactic.Positivity
import Mathlib.Algebra.Order.BigOperators.Group.Finset

/-!
# C35 triangles, C36 transitivity, C37 – C39 clustering coefficients

`Spec.triPairs` counts ordered pairs of adjacent neighbours (twice the triangles at a node),
`Spec.degree` counts neighbours other than the node itself.
-/

open GB Spec Model Model.Graph Proofs Proofs.Cluster

namespace Props

variable {K α : Type} [DecidableEq K] {G : Graph K α}

theorem triPairs_eq (h : G.WF) (i : Fin G.n) :
    triPairs G.nodes G.Edge (keyFn h i) = full (adj G.A) i := by
  unfold triPairs full
  rw [sumOver_nodes h]
  refine Finset.sum_congr rfl fun a _ => ?_
  rw [countOf_nodes h]
  refine Finset.sum_congr rfl fun b _ => ?_
  simp only [ne_eq, keyFn_eq_iff, edge_keyFn, adj, ind]
  cases G.A i a <;> cases G.A i b <;> cases G.A a b <;> simp

theorem degree_eq (h : G.WF) (i : Fin G.n) :
    degree G.nodes G.Edge (keyFn h i) = (nbrs G.A i).card := by
  unfold degree
  rw [countOf_card h]
  simp only [ne_eq, keyFn_eq_iff, edge_keyFn, nbrs]

/-! ### C35 -/

/-- **C35.** `triangles(G)` (and `triangles(G, nodes)`) of an undirected graph: every node asked for
gets the number of its triangles, i.e. half the ordered pairs of adjacent neighbours; self-loops
play no role. -/
theorem triangles_correct (h : G.WF) (hs : G.Symm) {nodes : Option (List K)}
    (hn : ∀ l, nodes = some l → ∀ u ∈ l, G.Node u) :
    ∃ r, triangles G nodes = .ok r ∧ ∀ u t, G.view r u = some t ↔
      (G.Node u ∧ Asked nodes u) ∧ 2 * t = triPairs G.nodes G.Edge u := by
  obtain ⟨mask, hm, -, hask⟩ := listToMask_ok h hn
  refine ⟨nodemapFill mask (trianglesVec G.A mask) 0, by unfold triangles; rw [hm]; rfl, ?_⟩
  intro u t
  rw [view_eq_some h]
  have hval : ∀ i, nodemapFill mask (trianglesVec G.A mask) 0 i =
      if inMask mask i then some (half (adj G.A) i) else none := by
    intro i
    rw [nodemapFill_eq]
    · rw [trianglesVec_getD hs]
      split <;> simp_all
    · intro i hi
      simp [trianglesVec, triSum, vadd, maskNew_none hi]
  constructor
  · rintro ⟨i, hi, e⟩
    rw [hval] at e
    split at e
    · rename_i hmk
      refine ⟨⟨hi.node, (hask u i hi).1 hmk⟩, ?_⟩
      rw [← keyFn_eq h hi, triPairs_eq, ← two_half (adj_symm hs)]
      simp at e; rw [e]
    · simp at e
  · rintro ⟨⟨hu, ha⟩, e⟩
    obtain ⟨i, hi⟩ := hu.exists_id h
    refine ⟨i, hi, ?_⟩
    rw [hval, if_pos ((hask u i hi).2 ha)]
    rw [← keyFn_eq h hi, triPairs_eq, ← two_half (adj_symm hs)] at e
    congr 1; omega

/-- **C35.** the one-node call returns the same number. -/
theorem single_triangle_correct (h : G.WF) (hs : G.Symm) {u : K} (hu : G.Node u) :
    ∃ t, singleTriangle G u = .ok t ∧ 2 * t = triPairs G.nodes G.Edge u := by
  obtain ⟨i, hi⟩ := hu.exists_id h
  refine ⟨singleTriangleAt G.A i, by unfold singleTriangle; rw [(getId_eq_ok h).2 hi]; rfl, ?_⟩
  rw [← keyFn_eq h hi, triPairs_eq, singleTriangleAt_eq, two_half (adj_symm hs)]

/-- **C35.** the total is a third of the sum over nodes (so six times the total counts every
ordered pair at every node). -/
theorem total_triangles_correct (h : G.WF) (hs : G.Symm) :
    6 * totalTriangles G.A = sumOver G.nodes fun u => triPairs G.nodes G.Edge u := by
  rw [sumOver_nodes h]
  simp only [triPairs_eq, ← two_half (adj_symm hs)]
  rw [← Finset.mul_sum, ← totalTriangles_three hs]
  omega

/-- **C35.** a node list naming an unknown node raises KeyError. -/
theorem triangles_missing (h : G.WF) {l : List K} {u} (hu : u ∈ l) (hn : ¬ G.Node u) :
    triangles G (some l) = .error .keyError := by
  unfold triangles
  rw [listToMask_error h hu hn]; rfl

/-- **C35, weighted triangle sums** (used by weighted clustering): twice the value at a node is the
sum over ordered pairs of distinct other nodes of the product of the three normalised weights. -/
theorem weighted_triangles_correct {R : Type} [CommSemiring R] (f : α → R) (h : G.WF) (hs : G.Symm)
    (i : Fin G.n) :
    2 * (trianglesVecW f G.A none i).getD 0 =
      (sumOver G.nodes fun a => sumOver G.nodes fun b =>
        if a ≠ b ∧ a ≠ keyFn h i ∧ b ≠ keyFn h i then
          ((G.weight? (keyFn h i) a).map f).getD 0 * ((G.weight? (keyFn h i) b).map f).getD 0 *
            ((G.weight? a b).map f).getD 0 else 0) ∧
    singleTriangleAtW f G.A i = (trianglesVecW f G.A none i).getD 0 := by
  rw [trianglesVecW_getD f hs, singleTriangleAtW_eq]
  refine ⟨?_, by simp [inMask]⟩
  simp only [inMask, if_true, two_half (wt_symm f hs), sumOver_nodes h, weight?_keyFn, ne_eq,
    keyFn_eq_iff]
  rfl

example : ∃ r, triangles Ex.ug none = .ok r ∧
    [1,2,3,4,5].map (Ex.ug.view r) = [some 0, some 1, some 1, some 0, some 1] := by
  refine ⟨_, rfl, ?_⟩; decide +kernel
example : ∃ r, triangles Ex.ug (some [5,1]) = .ok r ∧
    [1,2,3,4,5].map (Ex.ug.view r) = [some 0, none, none, none, some 1] := by
  refine ⟨_, rfl, ?_⟩; decide +kernel
example : singleTriangle Ex.ug 5 = .ok 1 ∧ totalTriangles Ex.ug.A = 1 := by
  constructor <;> decide +kernel

/-! ### C36 -/

theorem sum_denom (h : G.WF) :
    ((reduce (· + ·) (degDenom (countRow (offdiag G.A)))).getD 0 : Int) =
      ((sumOver G.nodes fun u => degree G.nodes G.Edge u * (degree G.nodes G.Edge u - 1) : Nat) : Int) := by
  rw [reduce_add, sumOver_nodes h]
  push_cast
  refine Finset.sum_congr rfl fun i _ => ?_
  rw [degDenom_getD, countRow_offdiag_getD, degree_eq]
  rcases Nat.eq_zero_or_pos (nbrs G.A i).card with h0 | h0
  · simp [h0]
  · rw [Nat.cast_sub h0]; simp

theorem triPairs_le (h : G.WF) {u : K} (hu : G.Node u) : triPairs G.nodes G.Edge u ≤
    degree G.nodes G.Edge u * (degree G.nodes G.Edge u - 1) := by
  obtain ⟨i, rfl⟩ := exists_keyFn h hu
  rw [triPairs_eq, degree_eq]
  exact full_le _ _

/-- **C36.** `transitivity(G)` of an undirected graph is `3 * triangles / triads`: the numerator
below counts each triangle six times, the denominator each connected triple twice.  It lies in
`[0, 1]`, and the division is never by zero when there is a triangle. -/
theorem transitivity_correct (h : G.WF) (hs : G.Symm) :
    transitivity G = ((sumOver G.nodes fun u => triPairs G.nodes G.Edge u : Nat) : ℚ) /
      ((sumOver G.nodes fun u => degree G.nodes G.Edge u * (degree G.nodes G.Edge u - 1) : Nat) : ℚ) ∧
    0 ≤ transitivity G ∧ transitivity G ≤ 1 ∧
    (0 < totalTriangles G.A →
      0 < sumOver G.nodes fun u => degree G.nodes G.Edge u * (degree G.nodes G.Edge u - 1)) := by
  have hle : (sumOver G.nodes fun u => triPairs G.nodes G.Edge u : Nat) ≤
      sumOver G.nodes fun u => degree G.nodes G.Edge u * (degree G.nodes G.Edge u - 1) := by
    rw [sumOver_nodes h, sumOver_nodes h]
    exact Finset.sum_le_sum fun i _ => triPairs_le h (keyFn_at h i).node
  have htot := total_triangles_correct h hs
  have hden := sum_denom h
  generalize hD : (sumOver G.nodes fun u => degree G.nodes G.Edge u * (degree G.nodes G.Edge u - 1)) = D at *
  generalize hN : (sumOver G.nodes fun u => triPairs G.nodes G.Edge u) = N at *
  have heq : transitivity G = (N : ℚ) / (D : ℚ) := by
    unfold transitivity
    split
    · rename_i h0
      have : N = 0 := by
        rw [← hN, sumOver_nodes h]
        apply Finset.sum_eq_zero
        intro i; exact absurd i.isLt (by omega)
      simp [this]
    · simp only
      split
      · rename_i h0
        have : N = 0 := by omega
        simp [this]
      · rw [hden, ← htot]; push_cast; ring
  refine ⟨heq, ?_, ?_, ?_⟩
  · rw [heq]; positivity
  · rw [heq]
    exact div_le_one_of_le₀ (by exact_mod_cast hle) (by positivity)
  · intro hpos; omega

example : transitivity Ex.ug = 3 / 7 := by decide +kernel

/-! ### C37 -/

/-- the clustering coefficient of `u`: triangles at `u` over pairs of neighbours -/
def coeff (G : Graph K α) (u : K) : ℚ :=
  (triPairs G.nodes G.Edge u : ℚ) /
    ((degree G.nodes G.Edge u * (degree G.nodes G.Edge u - 1) : Nat) : ℚ)

omit [DecidableEq K] in
theorem denom_cast (d : Nat) : (((d : Int) * ((d : Int) - 1) : Int) : ℚ) = ((d * (d - 1) : Nat) : ℚ) := by
  rcases Nat.eq_zero_or_pos d with h0 | h0
  · simp [h0]
  · push_cast [Nat.cast_sub h0]; ring

theorem clusteringVec_getD (h : G.WF) (hs : G.Symm) (mask : NodeMask G.n) (i) :
    (clusteringVec G.A mask i).getD 0 = if inMask mask i then coeff G (keyFn h i) else 0 := by
  unfold clusteringVec vmul
  have e1 := trianglesVec_getD hs mask i
  have e2 : (degDenom (countRow (offdiag G.A)) i).getD 0 =
      ((nbrs G.A i).card : Int) * (((nbrs G.A i).card : Int) - 1) := by
    rw [degDenom_getD, countRow_offdiag_getD]
  have e3 : (ointer (fun (t : Nat) (d : Int) => 2 * (t : ℚ) / d) (trianglesVec G.A mask i)
      (degDenom (countRow (offdiag G.A)) i)).getD 0 =
      2 * (((trianglesVec G.A mask i).getD 0 : Nat) : ℚ) / (((degDenom (countRow (offdiag G.A)) i).getD 0 : Int) : ℚ) := by
    cases trianglesVec G.A mask i <;> cases degDenom (countRow (offdiag G.A)) i <;> simp
  rw [e3, e1, e2, denom_cast]
  unfold coeff
  rw [triPairs_eq, degree_eq, ← two_half (adj_symm hs)]
  split <;> push_cast <;> simp

/-- **C37.** `clustering(G)` (and `clustering(G, nodes)`) of an undirected graph gives every node
asked for its coefficient `2 T(u) / (d(u) (d(u) - 1))`, which lies in `[0, 1]` (0 without triangles). -/
theorem clustering_correct (h : G.WF) (hs : G.Symm) {nodes : Option (List K)}
    (hn : ∀ l, nodes = some l → ∀ u ∈ l, G.Node u) :
    ∃ r, clustering G nodes = .ok r ∧ ∀ u c, G.view r u = some c ↔
      (G.Node u ∧ Asked nodes u) ∧ c = coeff G u := by
  obtain ⟨mask, hm, -, hask⟩ := listToMask_ok h hn
  refine ⟨nodemapFill mask (clusteringVec G.A mask) 0, by unfold clustering; rw [hm]; rfl, ?_⟩
  intro u c
  rw [view_eq_some h]
  have hval : ∀ i, nodemapFill mask (clusteringVec G.A mask) 0 i =
      if inMask mask i then some (coeff G (keyFn h i)) else none := by
    intro i
    rw [nodemapFill_eq]
    · rw [clusteringVec_getD h hs]
      split <;> simp_all
    · intro i hi
      simp [clusteringVec, vmul, trianglesVec, triSum, vadd, maskNew_none hi]
  constructor
  · rintro ⟨i, hi, e⟩
    rw [hval] at e
    split at e
    · rename_i hmk
      refine ⟨⟨hi.node, (hask u i hi).1 hmk⟩, ?_⟩
      rw [← keyFn_eq h hi]
      simp at e; rw [e]
    · simp at e
  · rintro ⟨⟨hu, ha⟩, rfl⟩
    obtain ⟨i, hi⟩ := hu.exists_id h
    refine ⟨i, hi, ?_⟩
    rw [hval, if_pos ((hask u i hi).2 ha), keyFn_eq h hi]

/-- **C37.** coefficients are between 0 and 1, and a node with a triangle has a positive
denominator, so no division by zero happens. -/
theorem clustering_bounds (h : G.WF) {u : K} (hu : G.Node u) :
    0 ≤ coeff G u ∧ coeff G u ≤ 1 ∧ (0 < triPairs G.nodes G.Edge u →
      0 < degree G.nodes G.Edge u * (degree G.nodes G.Edge u - 1)) := by
  have := triPairs_le h hu
  unfold coeff
  refine ⟨by positivity, div_le_one_of_le₀ (by exact_mod_cast this) (by positivity), by omega⟩

/-- **C37.** the one-node call returns the same number. -/
theorem single_clustering_correct (h : G.WF) (hs : G.Symm) {u : K} (hu : G.Node u) :
    singleClustering G u = .ok (coeff G u) := by
  obtain ⟨i, hi⟩ := hu.exists_id h
  unfold singleClustering
  rw [(getId_eq_ok h).2 hi]
  show Except.ok (singleClusteringAt G.A i) = _
  congr 1
  rw [← keyFn_eq h hi]
  unfold singleClusteringAt coeff
  rw [triPairs_eq, degree_eq, ← two_half (adj_symm hs), singleTriangleAt_eq, singleDegree_eq]
  simp only [denom_cast]
  split
  · rename_i h0; rw [h0]; simp
  · push_cast; rfl

/-- **C37, weighted.** the weighted coefficient is the weighted triangle sum over `d(d-1)/2`. -/
theorem weighted_clustering_correct {R : Type} [Field R] (f : α → R) (hs : G.Symm)
    (i : Fin G.n) : (clusteringVecW f G.A none i).getD 0 =
      2 * (trianglesVecW f G.A none i).getD 0 /
        ((((nbrs G.A i).card : Int) * (((nbrs G.A i).card : Int) - 1) : Int) : R) := by
  unfold clusteringVecW vmul
  have e2 : (degDenom (countRow (offdiag G.A)) i).getD 0 =
      ((nbrs G.A i).card : Int) * (((nbrs G.A i).card : Int) - 1) := by
    rw [degDenom_getD, countRow_offdiag_getD]
  rw [← e2]
  cases trianglesVecW f G.A none i <;> cases degDenom (countRow (offdiag G.A)) i <;> simp

example : ∃ r, clustering Ex.ug none = .ok r ∧
    [1,2,3,4,5].map (Ex.ug.view r) = [some 0, some (1/3), some (1/3), some 0, some 1] := by
  refine ⟨_, rfl, ?_⟩; decide +kernel
example : singleClustering Ex.ug 3 = .ok (1/3) := by decide +kernel

end Props
