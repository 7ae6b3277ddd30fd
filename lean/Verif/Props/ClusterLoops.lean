import Verif.Props.ClusterDir
import Verif.Props.Relabel2

/-!
# C38, C39, C82: what directed clustering returns when there are self-loops

`clustering_directed` removes the self-loops from `A` but not from `AT` (cluster.py:103).
-/

open GB Spec Model Model.Graph Proofs Proofs.Cluster

namespace Props

variable {K α : Type} [DecidableEq K] {G : Graph K α}

/-- what the code counts besides triangles: predecessors with a self-loop, and twice the two-way neighbours if the
node itself has a self-loop -/
def loopExtra (N : List K) (E : K → K → Prop) [∀ u v, Decidable (E u v)] (u : K) : Nat :=
  (countOf N fun a => a ≠ u ∧ E a u ∧ E a a) + if E u u then 2 * recipDegree N E u else 0

/-- `d (d - 1) - 2 r` -/
def dirDen (G : Graph K α) (u : K) : ℚ :=
  (totalDegree G.nodes G.Edge u : ℚ) * ((totalDegree G.nodes G.Edge u : ℚ) - 1) -
    2 * (recipDegree G.nodes G.Edge u : ℚ)

/-- the value that `clustering` returns for `u`, all nodes asked together -/
def dirCoeffCode (G : Graph K α) (u : K) : ℚ :=
  ((dirTriPairs G.nodes G.Edge u : ℚ) / 2 + (loopExtra G.nodes G.Edge u : ℚ)) / dirDen G u

/-- loops as 0/1 -/
def lp {n : Nat} (A : Mat n n α) (i : Fin n) : Nat := ind (A i i)

theorem ind_split {n : Nat} (A : Mat n n α) (i j : Fin n) : ind (A i j) = oadj A i j + if i = j then lp A i else 0 := by
  unfold oadj offdiag lp
  by_cases h : i = j
  · subst h; simp
  · simp [h]

theorem dirTri_loops {n : Nat} (A : Mat n n α) (mask : NodeMask n) (v) :
    (dirTri A mask v).getD 0 = if inMask mask v then
      dirHalf (oadj A) v + ((∑ i, oadj A i v * (lp A i * oadj A i v)) + 2 * (lp A v * ∑ i, oadj A v i * oadj A i v))
      else 0 := by
  unfold dirTri
  simp only [vadd]
  rw [omerge_getD, omerge_getD, omerge_getD, maskNew_getD, maskNew_getD, maskNew_getD, maskNew_getD,
    reduceRow_getD, reduceCol_getD, reduceRow_getD, reduceCol_getD, ← four_parts]
  simp only [massignR_pair_getD, mxm_pair_getD, transpose]
  have ho : ∀ i j, ind (offdiag A i j) = oadj A i j := fun _ _ => rfl
  simp only [ho]
  have hD : ∀ j, (∑ k, ind (A k v) * oadj A j k) = (∑ k, oadj A k v * oadj A j k) + lp A v * oadj A j v := by
    intro j
    simp only [ind_split A _ v, add_mul, Finset.sum_add_distrib, ite_mul, zero_mul, Finset.sum_ite_eq', Finset.mem_univ,
      if_true]
  have hE : ∀ i, oadj A i v * (∑ k, ind (A k i) * ind (A k v)) =
      oadj A i v * (∑ k, oadj A k i * oadj A k v) + (oadj A i v * (lp A i * oadj A i v) + lp A v * (oadj A v i * oadj A i v)) := by
    intro i
    by_cases hiv : i = v
    · subst hiv; simp [oadj_diag]
    have : (∑ k, ind (A k i) * ind (A k v)) = (∑ k, oadj A k i * oadj A k v) + (lp A i * oadj A i v + lp A v * oadj A v i) := by
      have e : ∀ k, ind (A k i) * ind (A k v) = oadj A k i * oadj A k v +
          ((if k = i then lp A i * oadj A i v else 0) + (if k = v then lp A v * oadj A v i else 0)) := by
        intro k
        rw [ind_split A k i, ind_split A k v]
        by_cases h1 : k = i
        · subst h1
          simp [hiv, oadj_diag]
        · by_cases h2 : k = v
          · subst h2
            simp [h1, oadj_diag, mul_comm]
          · simp [h1, h2]
      simp only [e, Finset.sum_add_distrib, Finset.sum_ite_eq', Finset.mem_univ, if_true]
    rw [this]; ring
  simp only [hD, hE, mul_add, Finset.sum_add_distrib]
  split
  · have e1 : (∑ x, oadj A v x * (lp A v * oadj A x v)) = lp A v * ∑ i, oadj A v i * oadj A i v := by
      rw [Finset.mul_sum]; exact Finset.sum_congr rfl fun x _ => by ring
    have e2 : (∑ x, lp A v * (oadj A v x * oadj A x v)) = lp A v * ∑ i, oadj A v i * oadj A i v := by
      rw [Finset.mul_sum]
    rw [e1, e2]; ring
  · rfl

theorem loopExtra_eq (h : G.WF) (i : Fin G.n) : loopExtra G.nodes G.Edge (keyFn h i) =
    (∑ a, oadj G.A a i * (lp G.A a * oadj G.A a i)) + 2 * (lp G.A i * ∑ a, oadj G.A i a * oadj G.A a i) := by
  unfold loopExtra
  congr 1
  · rw [countOf_nodes h]
    refine Finset.sum_congr rfl fun a _ => ?_
    simp only [ne_eq, keyFn_eq_iff, edge_keyFn, oadj, offdiag, lp, ind]
    by_cases h1 : a = i
    · simp [h1]
    · by_cases h2 : (G.A a i).isSome <;> by_cases h3 : (G.A a a).isSome <;> simp [h1, h2, h3]
  · rw [recipDegree_eq, ← sum_oadj_recip]
    have : ∀ j, ind (mmul pairN (offdiag G.A) (transpose (offdiag G.A)) i j) = oadj G.A i j * oadj G.A j i := by
      intro j
      unfold mmul transpose oadj ind
      rw [isSome_ointer]
      by_cases h1 : (offdiag G.A i j).isSome <;> by_cases h2 : (offdiag G.A j i).isSome <;> simp [h1, h2]
    rw [Finset.sum_congr rfl fun j _ => this j]
    simp only [edge_keyFn, lp, ind]
    by_cases h1 : (G.A i i).isSome <;> simp [h1]

theorem dirCoeffCode_eq (h : G.WF) (i : Fin G.n) : dirCoeffCode G (keyFn h i) =
    (((dirHalf (oadj G.A) i + ((∑ a, oadj G.A a i * (lp G.A a * oadj G.A a i)) +
      2 * (lp G.A i * ∑ a, oadj G.A i a * oadj G.A a i)) : Nat) : ℚ)) /
    (((((nbrs G.A i).card + (inn G.A i).card : Nat) : Int) *
      ((((nbrs G.A i).card + (inn G.A i).card : Nat) : Int) - 1) -
        2 * ((nbrs G.A i ∩ inn G.A i).card : Int) : Int) : ℚ) := by
  unfold dirCoeffCode dirDen
  rw [dirTriPairs_eq, totalDegree_eq, recipDegree_eq, ← two_dirHalf _ (oadj_diag G.A), loopExtra_eq h]
  push_cast
  congr 2
  ring

theorem clusteringDirVec_loops (h : G.WF) (mask : NodeMask G.n) (i) :
    (clusteringDirVec G.A mask i).getD 0 = if inMask mask i then dirCoeffCode G (keyFn h i) else 0 := by
  have e3 : (clusteringDirVec G.A mask i).getD 0 =
      (((dirTri G.A mask i).getD 0 : Nat) : ℚ) / (((dirDenom (maskNew mask (totalDegreesM G.A))
        (maskNew mask (recipDegreesM G.A)) i).getD 0 : Int) : ℚ) := by
    unfold clusteringDirVec vmul
    cases dirTri G.A mask i <;> cases dirDenom (maskNew mask (totalDegreesM G.A))
        (maskNew mask (recipDegreesM G.A)) i <;> simp
  rw [e3, dirTri_loops, dirDenom_getD, maskNew_getD, maskNew_getD, totalDegreesM_getD,
    recipDegreesM_getD, dirCoeffCode_eq h]
  split <;> simp

/-- **C38, all digraphs.** `clustering(G)` / `clustering(G, nodes)` of a digraph, self-loops or not, returns
`dirCoeffCode` (in exact arithmetic with `x / 0 = 0`; see `directed_clustering_right_iff` for the denominator). -/
theorem directed_clustering_value (h : G.WF)
    {nodes : Option (List K)} (hn : ∀ l, nodes = some l → ∀ u ∈ l, G.Node u) :
    ∃ r, clusteringDirected G nodes = .ok r ∧ ∀ u c, G.view r u = some c ↔
      (G.Node u ∧ Asked nodes u) ∧ c = dirCoeffCode G u := by
  obtain ⟨mask, hm, -, hask⟩ := listToMask_ok h hn
  refine ⟨nodemapFill mask (clusteringDirVec G.A mask) 0,
    by unfold clusteringDirected; rw [hm]; rfl, ?_⟩
  intro u c
  rw [view_eq_some h]
  have hval : ∀ i, nodemapFill mask (clusteringDirVec G.A mask) 0 i =
      if inMask mask i then some (dirCoeffCode G (keyFn h i)) else none := by
    intro i
    rw [nodemapFill_eq]
    · rw [clusteringDirVec_loops h]
      split <;> simp_all
    · intro i hi
      simp [clusteringDirVec, vmul, dirTri, vadd, maskNew_none hi]
  constructor
  · rintro ⟨i, hi, e⟩
    rw [hval] at e
    split at e
    · rename_i hmk
      refine ⟨⟨hi.node, (hask u i hi).1 hmk⟩, ?_⟩
      rw [← keyFn_eq h hi]
      simp at e; rw [e]
    · simp at e
  · rintro ⟨⟨hu, ha⟩, rfl⟩
    obtain ⟨i, hi⟩ := hu.exists_id h
    refine ⟨i, hi, ?_⟩
    rw [hval, if_pos ((hask u i hi).2 ha), keyFn_eq h hi]

/-- **C38, exactly when it is right.** For a node whose denominator is not 0, the all-nodes call returns the directed
clustering coefficient if and only if no predecessor has a self-loop and the node does not have both a self-loop and
a two-way neighbour; otherwise the value is too large.  `loopExtra` divided by the denominator is the excess. -/
theorem directed_clustering_right_iff (h : G.WF) {u : K} (hu : G.Node u) (hden : dirDen G u ≠ 0) :
    ∃ r, clusteringDirected G none = .ok r ∧
      (G.view r u = some (dirCoeff G u) ↔
        (∀ a, a ≠ u → G.Edge a u → ¬ G.Edge a a) ∧ (G.Edge u u → ∀ a, a ≠ u → G.Edge u a → ¬ G.Edge a u)) ∧
      G.view r u = some (dirCoeff G u + (loopExtra G.nodes G.Edge u : ℚ) / dirDen G u) := by
  obtain ⟨r, hr, hv⟩ := directed_clustering_value h (nodes := none) (by simp)
  have hval : G.view r u = some (dirCoeffCode G u) := (hv _ _).2 ⟨⟨hu, by simp [Asked]⟩, rfl⟩
  have hsum : dirCoeffCode G u = dirCoeff G u + (loopExtra G.nodes G.Edge u : ℚ) / dirDen G u := by
    have : dirCoeff G u = ((dirTriPairs G.nodes G.Edge u : ℚ) / 2) / dirDen G u := by
      unfold dirCoeff dirDen
      rw [div_div]
    rw [this, ← add_div]; rfl
  refine ⟨r, hr, ?_, by rw [hval, hsum]⟩
  rw [hval, hsum, Option.some.injEq, add_eq_left, div_eq_zero_iff]
  simp only [hden, or_false, Nat.cast_eq_zero]
  unfold loopExtra recipDegree countOf
  rw [Nat.add_eq_zero_iff, List.countP_eq_zero]
  constructor
  · rintro ⟨h1, h2⟩
    refine ⟨fun a hne hau haa => h1 a hau.node_left (by simp [hne, hau, haa]), fun huu a hne hua hau => ?_⟩
    rw [if_pos huu, Nat.mul_eq_zero, List.countP_eq_zero] at h2
    rcases h2 with h2 | h2
    · cases h2
    · exact h2 a hau.node_left (by simp [hne, hua, hau])
  · rintro ⟨h1, h2⟩
    refine ⟨fun a _ => ?_, ?_⟩
    · simp only [decide_eq_true_eq]
      rintro ⟨hne, hau, haa⟩
      exact h1 a hne hau haa
    · split
      · rename_i huu
        rw [Nat.mul_eq_zero, List.countP_eq_zero]
        refine .inr fun a _ => ?_
        simp only [decide_eq_true_eq]
        rintro ⟨hne, hua, hau⟩
        exact h2 huu a hne hua hau
      · rfl

/-- a node with one predecessor, which has a self-loop: a count of 1 is divided by 0 (`inf` in floating point) -/
def Ex.loopPred : Graph Nat Int where
  n := 2
  A := Ex.ofTriples 2 [(0,0,1), (0,1,1)]
  keyToId := [(0,0),(1,1)]
  directed := true

/-- **C38, finding.** The denominator may be 0 while the numerator is not: the floating-point result is infinite. -/
theorem directed_clustering_divides_by_zero :
    Ex.loopPred.WF ∧ dirDen Ex.loopPred 1 = 0 ∧ loopExtra Ex.loopPred.nodes Ex.loopPred.Edge 1 = 1 ∧
    dirTri Ex.loopPred.A none (1 : Fin 2) = some 1 ∧
    dirDenom (totalDegreesM Ex.loopPred.A) (recipDegreesM Ex.loopPred.A) (1 : Fin 2) = some 0 := by
  refine ⟨⟨by decide, by decide⟩, ?_, ?_, ?_, ?_⟩ <;> decide +kernel

/-- **C39, all digraphs** whose denominators are positive wherever something is counted: the mean of the values
`clustering` returns. -/
theorem average_clustering_directed_value (h : G.WF) (hd : G.directed = true)
    {nodes : Option (List K)} (hn : ∀ l, nodes = some l → ∀ u ∈ l, G.Node u) (z : Bool)
    (hz : z = false → ∀ u, G.Node u → Asked nodes u → dirDen G u = 0 →
      dirTriPairs G.nodes G.Edge u = 0 ∧ loopExtra G.nodes G.Edge u = 0) :
    averageClustering G nodes z =
      if G.n = 0 then .error .zeroDivision
      else meanOf (if z then averagedOver G nodes
        else (averagedOver G nodes).filter fun u => dirCoeffCode G u ≠ 0) (dirCoeffCode G) := by
  unfold averageClustering
  simp only [hd, if_true]
  split
  · rfl
  obtain ⟨mask, hm, -, hask⟩ := listToMask_ok h hn
  rw [hm]
  show averageOf (clusteringDirVec G.A mask) z mask = _
  refine averageOf_eq h hn hm (clusteringDirVec_loops h mask) z ?_
  intro hz' i
  have hg := clusteringDirVec_loops h mask i
  constructor
  · intro hi
    have hmk : inMask mask i = true := by
      by_contra hx
      have : clusteringDirVec G.A mask i = none := by
        simp [clusteringDirVec, vmul, dirTri, vadd, maskNew_none (by simpa using hx)]
      rw [this] at hi; simp at hi
    refine ⟨hmk, ?_⟩
    have ht : (dirTri G.A mask i).isSome := by
      unfold clusteringDirVec vmul at hi
      rw [isSome_ointer, Bool.and_eq_true] at hi
      exact hi.1
    obtain ⟨t, ht⟩ := Option.isSome_iff_exists.1 ht
    have hpos := dirTri_pos i t ht
    have hsum := dirTri_loops G.A mask i
    rw [ht, if_pos hmk] at hsum
    have hsum' : t = dirHalf (oadj G.A) i + loopExtra G.nodes G.Edge (keyFn h i) := by
      rw [loopExtra_eq h]; exact hsum
    have htp : dirTriPairs G.nodes G.Edge (keyFn h i) = 2 * dirHalf (oadj G.A) i := by
      rw [dirTriPairs_eq, ← two_dirHalf _ (oadj_diag G.A)]
    have hden : dirDen G (keyFn h i) ≠ 0 := by
      intro h0
      have := hz hz' _ (keyFn_at h i).node ((hask _ i (keyFn_at h i)).1 hmk) h0
      omega
    unfold dirCoeffCode
    refine div_ne_zero ?_ hden
    rw [htp]
    have : ((t : Nat) : ℚ) ≠ 0 := by exact_mod_cast hpos.ne'
    rw [hsum'] at this
    push_cast at this ⊢
    rwa [mul_div_cancel_left₀ _ (by norm_num)]
  · rintro ⟨hmk, hne⟩
    rw [if_pos hmk] at hg
    exact isSome_of_ne (by rw [hg]; exact hne)

/-! ### C82 -/

section
variable {K' : Type} [DecidableEq K'] {H : Graph K' α} {f : K → K'}

theorem loopExtra_relabel (h : Relabels f G H) (hG : G.WF) (hH : H.WF) (u : K) :
    loopExtra H.nodes H.Edge (f u) = loopExtra G.nodes G.Edge u := by
  unfold loopExtra
  rw [Relabel.recipDegree h hG hH]
  simp only [Relabel.edge h]
  congr 1
  exact Relabel.countOf_eq h hG hH _ _ fun x => by simp only [ne_eq, h.inj.eq_iff, Relabel.edge h]

theorem dirCoeffCode_relabel (h : Relabels f G H) (hG : G.WF) (hH : H.WF) (u : K) :
    dirCoeffCode H (f u) = dirCoeffCode G u := by
  have e1 := loopExtra_relabel h hG hH u
  unfold dirCoeffCode dirDen
  rw [e1, Relabel.dirTriPairs h hG hH, Relabel.totalDegree h hG hH, Relabel.recipDegree h hG hH]

/-- **C82.** `clustering` of any digraph, self-loops or not -/
theorem relabel_clustering_directed_loops (h : Relabels f G H) (hG : G.WF) (hH : H.WF)
    {nodes : Option (List K)} (hn : ∀ l, nodes = some l → ∀ u ∈ l, G.Node u) :
    Agree (SameMap f G H) (clusteringDirected G nodes) (clusteringDirected H (nodes.map (List.map f))) := by
  obtain ⟨r, e, hr⟩ := directed_clustering_value hG hn
  obtain ⟨r', e', hr'⟩ := directed_clustering_value hH (nodes_map_ok h hn)
  exact Agree.oks e e' (sameMap_of hr hr' fun u d => by
    rw [Relabel.node' h, asked_map h.inj, dirCoeffCode_relabel h hG hH])

/-- **C82.** `average_clustering` of a digraph; with `count_zeros=False`, wherever no count is divided by zero -/
theorem relabel_average_clustering_directed (h : Relabels f G H) (hG : G.WF) (hH : H.WF) (hd : G.directed = true)
    {nodes : Option (List K)} (hn : ∀ l, nodes = some l → ∀ u ∈ l, G.Node u) (z : Bool)
    (hz : z = false → ∀ u, G.Node u → Asked nodes u → dirDen G u = 0 →
      dirTriPairs G.nodes G.Edge u = 0 ∧ loopExtra G.nodes G.Edge u = 0) :
    averageClustering H (nodes.map (List.map f)) z = averageClustering G nodes z := by
  rw [average_clustering_directed_value hG hd hn z hz, average_clustering_directed_value hH (h.directed.trans hd)
    (nodes_map_ok h hn) z ?_, show H.n = G.n from relabel_len h hG hH]
  · congr 1
    have hp := averagedOver_perm h hG hH nodes
    refine meanOf_perm (f := f) ?_ (dirCoeffCode_relabel h hG hH)
    cases z with
    | true => exact hp
    | false =>
      simp only [Bool.false_eq_true, if_false]
      refine (hp.filter _).trans (List.Perm.of_eq ?_)
      rw [List.filter_map]
      congr 1
      refine List.filter_congr fun u _ => ?_
      simp only [Function.comp, dirCoeffCode_relabel h hG hH]
  · intro hz' x hx ha h0
    obtain ⟨u, -, rfl⟩ := (h.node x).1 hx
    have e2 : dirDen H (f u) = dirDen G u := by
      unfold dirDen
      rw [Relabel.totalDegree h hG hH, Relabel.recipDegree h hG hH]
    have := hz hz' u ((Relabel.node' h).1 hx) ((asked_map h.inj nodes u).1 ha) (e2 ▸ h0)
    rwa [Relabel.dirTriPairs h hG hH, loopExtra_relabel h hG hH]

end

end Props
