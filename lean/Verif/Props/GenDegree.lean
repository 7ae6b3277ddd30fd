import Verif.Model.GenDegree
import Verif.Props.Cluster

/-! # C41 generalized_degree -/

open GB Spec Model Model.Graph Proofs Proofs.Cluster

namespace Spec
variable {V : Type*} [DecidableEq V] (N : List V) (E : V → V → Prop) [∀ u v, Decidable (E u v)]

/-- number of triangles through the edge `u - v`: common neighbours other than the two ends -/
def edgeTriangles (u v : V) : Nat := countOf N fun w => w ≠ u ∧ w ≠ v ∧ E u w ∧ E v w

/-- number of edges at `u` (not the loop) that lie on exactly `t` triangles -/
def genDegree (u : V) (t : Nat) : Nat := countOf N fun v => v ≠ u ∧ E u v ∧ edgeTriangles N E u v = t

end Spec

namespace Props

variable {K α : Type} [DecidableEq K] {G : Graph K α} {n : Nat}

/-- common off-diagonal neighbours -/
def cnt (A : Mat n n α) (i j : Fin n) : Nat := ∑ l, ind (offdiag A i l) * ind (offdiag A j l)

theorem triZero_isSome (O : Mat n n α) (mask : NodeMask n) (i j) :
    (triZero O mask i j).isSome = (inMask mask i && (O i j).isSome) := by
  cases mask with
  | none => simp [triZero, mapply, inMask]
  | some p => simp [triZero, inMask]

theorem triZero_getD (O : Mat n n α) (mask : NodeMask n) (i j) : (triZero O mask i j).getD 0 = 0 := by
  cases mask with
  | none => simp only [triZero, mapply]; cases O i j <;> rfl
  | some p => simp only [triZero]; cases (ointer pairN (p i) (O i j)) <;> rfl

theorem triEdges_eq (A : Mat n n α) (mask : NodeMask n) (i j) :
    triEdges (offdiag A) mask i j =
      if inMask mask i && (offdiag A i j).isSome then some (cnt A i j) else none := by
  unfold triEdges
  simp only [triZero_isSome]
  split
  · rename_i h
    have hm : inMask mask i = true := by simp_all
    have hg := mxm_pair_getD (triZero (offdiag A) mask) (transpose (offdiag A)) i j
    have he : (∑ l, ind (triZero (offdiag A) mask i l) * ind (transpose (offdiag A) l j)) = cnt A i j := by
      unfold cnt
      refine Finset.sum_congr rfl fun l _ => ?_
      have e : ind (triZero (offdiag A) mask i l) = ind (offdiag A i l) := by
        unfold ind; rw [triZero_isSome, hm, Bool.true_and]
      rw [e]; rfl
    rw [he] at hg
    have hz := triZero_getD (offdiag A) mask i j
    have hsome := triZero_isSome (offdiag A) mask i j
    rw [h] at hsome
    obtain ⟨z, hz'⟩ := Option.isSome_iff_exists.1 hsome
    rw [hz'] at hz ⊢
    simp only [Option.getD_some] at hz
    subst hz
    cases hx : mxm (· + ·) pairN (triZero (offdiag A) mask) (transpose (offdiag A)) i j with
    | none => rw [hx] at hg; simp at hg; simp [← hg]
    | some c => rw [hx] at hg; simp at hg; simp [second, hg]
  · rename_i h
    have := triZero_isSome (offdiag A) mask i j
    rw [Bool.eq_false_iff.2 h] at this
    simpa using this

theorem cnt_lt (A : Mat n n α) {i j : Fin n} (hij : (offdiag A i j).isSome) : cnt A i j < n - 1 := by
  have hne : i ≠ j := by rintro rfl; simp [offdiag] at hij
  have hle : cnt A i j ≤ ∑ l : Fin n, if l ≠ i ∧ l ≠ j then 1 else 0 := by
    unfold cnt
    refine Finset.sum_le_sum fun l _ => ?_
    by_cases h1 : l = i
    · subst h1; simp [offdiag]
    by_cases h2 : l = j
    · subst h2; simp [offdiag]
    rw [if_pos ⟨h1, h2⟩]
    exact Nat.mul_le_mul (ind_le _) (ind_le _)
  rw [← Finset.card_filter] at hle
  have hc : (Finset.univ.filter fun l : Fin n => l ≠ i ∧ l ≠ j) = (Finset.univ.erase i).erase j := by
    ext l; simp [and_comm]
  rw [hc, Finset.card_erase_of_mem (by simp [hne.symm]), Finset.card_erase_of_mem (by simp)] at hle
  simp only [Finset.card_univ, Fintype.card_fin] at hle
  have h1 := i.isLt
  have h2 := j.isLt
  have : (i : Nat) ≠ j := fun e => hne (Fin.ext e)
  omega

theorem histogram_ok (A : Mat n n α) (mask : NodeMask n) :
    ∃ M, histogram (triEdges (offdiag A) mask) = .ok M ∧ ∀ i t c, M i t = some c ↔
      inMask mask i ∧ 0 < c ∧
      c = (Finset.univ.filter fun j => (offdiag A i j).isSome ∧ cnt A i j = t.val).card := by
  have hno : ¬ ∃ i j, ∃ t ∈ triEdges (offdiag A) mask i j, n - 1 ≤ t := by
    rintro ⟨i, j, t, ht, hle⟩
    rw [triEdges_eq] at ht
    split at ht
    · rename_i hc
      simp only [Option.mem_def, Option.some.injEq] at ht
      have := cnt_lt A (i := i) (j := j) (by simp_all)
      omega
    · simp at ht
  unfold histogram
  rw [if_neg hno]
  refine ⟨_, rfl, ?_⟩
  intro i t c
  have he : (Finset.univ.filter fun j => triEdges (offdiag A) mask i j = some t.val) =
      if inMask mask i then Finset.univ.filter fun j => (offdiag A i j).isSome ∧ cnt A i j = t.val else ∅ := by
    ext j
    rw [Finset.mem_filter, triEdges_eq]
    cases inMask mask i <;> cases hoo : offdiag A i j <;> simp [hoo]
  simp only [he]
  cases hm : inMask mask i
  · simp
  · simp only [if_true, true_and]
    constructor
    · intro hx
      split at hx
      · cases hx
      · simp only [Option.some.injEq] at hx; omega
    · rintro ⟨h0, rfl⟩
      rw [if_neg (by omega)]

theorem genDegree_eq (h : G.WF) (i : Fin G.n) (t : Nat) :
    genDegree G.nodes G.Edge (keyFn h i) t =
      (Finset.univ.filter fun j => (offdiag G.A i j).isSome ∧ cnt G.A i j = t).card := by
  unfold genDegree
  rw [countOf_card h]
  congr 1
  ext j
  simp only [Finset.mem_filter, Finset.mem_univ, true_and, ne_eq, keyFn_eq_iff, edge_keyFn]
  have he : edgeTriangles G.nodes G.Edge (keyFn h i) (keyFn h j) = cnt G.A i j := by
    unfold edgeTriangles cnt
    rw [countOf_nodes h]
    refine Finset.sum_congr rfl fun l _ => ?_
    simp only [ne_eq, keyFn_eq_iff, edge_keyFn, offdiag]
    by_cases h1 : l = i
    · subst h1; simp
    by_cases h2 : l = j
    · subst h2; simp
    rw [if_neg (Ne.symm h1), if_neg (Ne.symm h2)]
    cases G.A i l <;> cases G.A j l <;> simp [h1, h2]
  rw [he]
  unfold offdiag
  by_cases h1 : i = j
  · subst h1; simp
  · simp [h1, Ne.symm h1, and_assoc]

/-- **C41.** `generalized_degree(G)` / `generalized_degree(G, nodes)` never fails (triangle counts
always fit) and for every node asked for, the entry `t` is the number of the node's edges lying on
exactly `t` triangles, stored exactly when that number is positive. -/
theorem generalized_degree_correct (h : G.WF) {nodes : Option (List K)}
    (hn : ∀ l, nodes = some l → ∀ u ∈ l, G.Node u) :
    ∃ M, generalizedDegree G nodes = .ok M ∧ ∀ u t c, genDegAt G M u t = some c ↔
      (G.Node u ∧ Asked nodes u) ∧ 0 < c ∧ c = genDegree G.nodes G.Edge u t := by
  obtain ⟨mask, hm, -, hask⟩ := listToMask_ok h hn
  obtain ⟨M, hM, hspec⟩ := histogram_ok G.A mask
  refine ⟨M, by unfold generalizedDegree; rw [hm]; exact hM, ?_⟩
  intro u t c
  unfold genDegAt
  simp only [Option.bind_eq_some_iff, idOf_eq_some h]
  constructor
  · rintro ⟨i, hi, e⟩
    split at e
    · obtain ⟨h1, h2, h3⟩ := (hspec _ _ _).1 e
      refine ⟨⟨hi.node, (hask u i hi).1 h1⟩, h2, ?_⟩
      rw [← keyFn_eq h hi, genDegree_eq]; exact h3
    · cases e
  · rintro ⟨⟨hu, ha⟩, h0, rfl⟩
    obtain ⟨i, hi⟩ := hu.exists_id h
    refine ⟨i, hi, ?_⟩
    rw [← keyFn_eq h hi, genDegree_eq] at h0 ⊢
    have ht : t < G.n - 1 := by
      obtain ⟨j, hj⟩ := Finset.card_pos.1 h0
      simp only [Finset.mem_filter, Finset.mem_univ, true_and] at hj
      rw [← hj.2]
      exact cnt_lt _ hj.1
    rw [dif_pos ht]
    exact (hspec _ _ _).2 ⟨(hask u i hi).2 ha, h0, rfl⟩

/-- **C41.** the entries of a node add up to its degree (over any bound on triangle counts, e.g. the
number of nodes). -/
theorem generalized_degree_sum (h : G.WF) {u : K} (hu : G.Node u) :
    ∑ t ∈ Finset.range G.nodes.length, genDegree G.nodes G.Edge u t = degree G.nodes G.Edge u := by
  obtain ⟨i, rfl⟩ := exists_keyFn h hu
  simp only [genDegree_eq, degree_eq, nodes_length h]
  rw [Finset.card_eq_sum_card_fiberwise (f := fun j => cnt G.A i j) (t := Finset.range G.n)]
  · refine Finset.sum_congr rfl fun t _ => ?_
    congr 1
    ext j
    have e : (offdiag G.A i j).isSome ↔ j ≠ i ∧ (G.A i j).isSome := by
      unfold offdiag
      by_cases hij : i = j
      · subst hij; simp
      · simp [hij, Ne.symm hij]
    simp only [nbrs, Finset.mem_filter, Finset.mem_univ, true_and, e]
  · intro j hj
    simp only [nbrs, Finset.coe_filter, Finset.mem_univ, true_and, Set.mem_setOf_eq] at hj
    have := cnt_lt G.A (i := i) (j := j) (by simp [offdiag, Ne.symm hj.1, hj.2])
    simp only [Finset.coe_range, Set.mem_Iio]; omega

/-- **C41, partial.** the one-node call computes the same histogram, position `t` for triangle
count `t`.  What is missing: the returned mapping shows *node keys* instead of the triangle counts
(`generalized_degree_single_wrong_keys`), so this describes the call's result only when the key of
row `t` is `t` itself. -/
theorem single_generalized_degree_partial (h : G.WF) {u : K} (hu : G.Node u) :
    ∃ v, singleGeneralizedDegree G u = .ok v ∧ ∀ t c, v t = some c ↔
      0 < c ∧ c = genDegree G.nodes G.Edge u t.val := by
  obtain ⟨i, hi⟩ := hu.exists_id h
  obtain ⟨M, hM, hspec⟩ := histogram_ok G.A (some fun j => if j = i then some true else none)
  refine ⟨M i, ?_, ?_⟩
  · unfold singleGeneralizedDegree
    rw [(getId_eq_ok h).2 hi]
    show (histogram _ >>= fun M => _) = _
    rw [hM]; rfl
  · intro t c
    rw [hspec, ← keyFn_eq h hi, genDegree_eq]
    simp [inMask]

/-- **C41, finding.** node 5 of the example graph has two edges, each on one triangle; the API shows
`{2: 2}` (two edges on two triangles each): 2 is the key of row 1. -/
theorem generalized_degree_single_wrong_keys :
    genDegree Ex.ug.nodes Ex.ug.Edge 5 1 = 2 ∧ genDegree Ex.ug.nodes Ex.ug.Edge 5 2 = 0 ∧
    (do let v ← singleGeneralizedDegree Ex.ug 5; singleGenDegItems Ex.ug v) = .ok [(2, 2)] := by
  refine ⟨?_, ?_, ?_⟩ <;> decide +kernel

/-- **C41, finding.** a node without edges has no entry at all in the full result (NetworkX gives an
empty counter): `result[node]` raises KeyError. -/
theorem generalized_degree_isolated (h : G.WF) {u : K} (hu : G.Node u)
    (hiso : ∀ v, ¬ G.Edge u v) :
    ∃ M i, generalizedDegree G none = .ok M ∧ G.At u i ∧ nvals (M i) = 0 := by
  obtain ⟨M, hM, hspec⟩ := histogram_ok G.A none
  obtain ⟨i, hi⟩ := hu.exists_id h
  refine ⟨M, i, by unfold generalizedDegree listToMask; exact hM, hi, ?_⟩
  rw [nvals_eq_zero]
  intro t
  rw [Option.eq_none_iff_forall_not_mem]
  intro c hc
  obtain ⟨-, h0, rfl⟩ := (hspec _ _ _).1 hc
  obtain ⟨j, hj⟩ := Finset.card_pos.1 h0
  simp only [Finset.mem_filter, Finset.mem_univ, true_and] at hj
  refine hiso (keyFn h j) ⟨i, j, hi, keyFn_at h j, ?_⟩
  have := hj.1
  unfold offdiag at this
  split at this <;> simp_all

example : ∃ M, generalizedDegree Ex.ug none = .ok M ∧
    [0,1,2,3].map (genDegAt Ex.ug M 2) = [some 1, some 2, none, none] := by
  refine ⟨_, rfl, ?_⟩; decide +kernel

end Props
