import Verif.Props.ClusterW
import Verif.Props.ClusterLoops

/-!
# C79: weighted directed clustering when there are self-loops, and graphs without edges between different nodes
-/

open GB Spec Model Model.Graph Proofs Proofs.Cluster

namespace Proofs.ClusterW

variable {α F : Type} {n : Nat} [Field F] (f : α → F) (A : Mat n n α)

/-- the normalised weight of a self-loop, 0 without one -/
def wlp (i : Fin n) : F := ((A i i).map f).getD 0

theorem wt_split (i j : Fin n) : ((A i j).map f).getD 0 = ow f A i j + if i = j then wlp f A i else 0 := by
  unfold ow offdiag wlp
  by_cases h : i = j
  · subst h; simp
  · simp [h]

theorem dirTriVecW_loops (mask : NodeMask n) (v) :
    (dirTriVecW f A mask v).getD 0 = if inMask mask v then
      dirHalf (ow f A) v + ((∑ i, ow f A i v * (wlp f A i * ow f A i v)) +
        2 * (wlp f A v * ∑ i, ow f A v i * ow f A i v)) else 0 := by
  unfold dirTriVecW
  simp only [vadd]
  rw [omerge_getD, omerge_getD, omerge_getD, maskNew_getD, maskNew_getD, maskNew_getD, maskNew_getD,
    reduceRow_getD, reduceCol_getD, reduceRow_getD, reduceCol_getD, ← four_parts]
  have ht : ∀ (X : Mat n n F) i j, transpose X i j = X j i := fun _ _ _ => rfl
  have hT : ∀ i j, (mapply f (transpose A) i j).getD 0 = ((A j i).map f).getD 0 := fun _ _ => rfl
  simp only [mmul_mask_getD, mxm_times_getD, ht, mapply_off, hT]
  have hD : ∀ j, (∑ k, ((A k v).map f).getD 0 * ow f A j k) =
      (∑ k, ow f A k v * ow f A j k) + wlp f A v * ow f A j v := by
    intro j
    simp only [wt_split f A _ v, add_mul, Finset.sum_add_distrib, ite_mul, zero_mul]
    simp
  have hE : ∀ i, ow f A i v * (∑ k, ((A k i).map f).getD 0 * ((A k v).map f).getD 0) =
      ow f A i v * (∑ k, ow f A k i * ow f A k v) +
        (ow f A i v * (wlp f A i * ow f A i v) + wlp f A v * (ow f A v i * ow f A i v)) := by
    intro i
    by_cases hiv : i = v
    · subst hiv; simp [ow_diag]
    have : (∑ k, ((A k i).map f).getD 0 * ((A k v).map f).getD 0) =
        (∑ k, ow f A k i * ow f A k v) + (wlp f A i * ow f A i v + wlp f A v * ow f A v i) := by
      have e : ∀ k, ((A k i).map f).getD 0 * ((A k v).map f).getD 0 = ow f A k i * ow f A k v +
          ((if k = i then wlp f A i * ow f A i v else 0) + (if k = v then wlp f A v * ow f A v i else 0)) := by
        intro k
        rw [wt_split f A k i, wt_split f A k v]
        by_cases h1 : k = i
        · subst h1
          simp [hiv, ow_diag]
        · by_cases h2 : k = v
          · subst h2
            simp [h1, ow_diag, mul_comm]
          · simp [h1, h2]
      simp only [e, Finset.sum_add_distrib, Finset.sum_ite_eq', Finset.mem_univ, if_true]
    rw [this]; ring
  simp only [hD, hE, mul_add, Finset.sum_add_distrib]
  split
  · have e1 : (∑ x, ow f A v x * (wlp f A v * ow f A x v)) = wlp f A v * ∑ i, ow f A v i * ow f A i v := by
      rw [Finset.mul_sum]; exact Finset.sum_congr rfl fun x _ => by ring
    have e2 : (∑ x, wlp f A v * (ow f A v x * ow f A x v)) = wlp f A v * ∑ i, ow f A v i * ow f A i v := by
      rw [Finset.mul_sum]
    rw [e1, e2]; ring
  · simp

end Proofs.ClusterW

namespace Props
open Proofs.ClusterW

variable {K F : Type} [DecidableEq K] [Field F] [LinearOrder F] {G : Graph K F}

/-- what the code adds to the triangles of `u`: for every predecessor `a` with a self-loop the product of the loop and
twice the edge, and, if `u` has a self-loop, twice the loop times the sum over its two-way neighbours; `x` is the
normalised weight, 0 where there is no edge -/
def wloopExtra (N : List K) (x : K → K → F) (u : K) : F :=
  (sumOver N fun a => if a ≠ u then x a u * (x a a * x a u) else 0) +
    2 * (x u u * sumOver N fun a => if a ≠ u then x u a * x a u else 0)

/-- `d (d - 1) - 2 r` -/
def wdirDen (G : Graph K F) (u : K) : F :=
  (totalDegree G.nodes G.Edge u : F) * ((totalDegree G.nodes G.Edge u : F) - 1) -
    2 * (recipDegree G.nodes G.Edge u : F)

/-- the value that `clustering(G, weight=...)` of a digraph returns for `u`, all nodes asked together -/
def wdirCoeffCode (cbrt : F → F) (G : Graph K F) (m : F) (u : K) : F :=
  wdirCoeff cbrt G m u + wloopExtra G.nodes (normWeight cbrt m G.weight?) u / wdirDen G u

omit [LinearOrder F] in
theorem wloopExtra_eq (h : G.WF) (cbrt : F → F) (m : F) (i : Fin G.n) :
    wloopExtra G.nodes (normWeight cbrt m G.weight?) (keyFn h i) =
      (∑ a, ow (fun w => cbrt (w / m)) G.A a i * (wlp (fun w => cbrt (w / m)) G.A a *
        ow (fun w => cbrt (w / m)) G.A a i)) +
      2 * (wlp (fun w => cbrt (w / m)) G.A i * ∑ a, ow (fun w => cbrt (w / m)) G.A i a *
        ow (fun w => cbrt (w / m)) G.A a i) := by
  unfold wloopExtra
  rw [sumOver_nodes h, sumOver_nodes h]
  have e : ∀ x y, x ≠ y → normWeight cbrt m G.weight? (keyFn h x) (keyFn h y) =
      ow (fun w => cbrt (w / m)) G.A x y := by
    intro x y hne; unfold normWeight ow offdiag; rw [weight?_keyFn, if_neg hne]; cases G.A x y <;> rfl
  have el : ∀ x, normWeight cbrt m G.weight? (keyFn h x) (keyFn h x) = wlp (fun w => cbrt (w / m)) G.A x := by
    intro x; unfold normWeight wlp; rw [weight?_keyFn]; cases G.A x x <;> rfl
  congr 1
  · refine Finset.sum_congr rfl fun a _ => ?_
    by_cases ha : a = i
    · subst ha; simp [ow_diag]
    · rw [if_pos (fun e => ha (keyFn_inj h e)), e a i ha, el]
  · rw [el]
    congr 2
    refine Finset.sum_congr rfl fun a _ => ?_
    by_cases ha : a = i
    · subst ha; simp [ow_diag]
    · rw [if_pos (fun e => ha (keyFn_inj h e)), e a i ha, e i a (Ne.symm ha)]

theorem clusteringDirVecW_loops [IsStrictOrderedRing F] (h : G.WF)
    (cbrt : F → F) (m : F) (mask : NodeMask G.n) (i) :
    (clusteringDirVecW (fun w => cbrt (w / m)) G.A mask i).getD 0 =
      if inMask mask i then wdirCoeffCode cbrt G m (keyFn h i) else 0 := by
  have e3 : (clusteringDirVecW (fun w => cbrt (w / m)) G.A mask i).getD 0 =
      (dirTriVecW (fun w => cbrt (w / m)) G.A mask i).getD 0 /
        (((dirDenom (maskNew mask (totalDegreesM G.A)) (maskNew mask (recipDegreesM G.A)) i).getD 0 : Int) : F) := by
    unfold clusteringDirVecW vmul
    cases dirTriVecW (fun w => cbrt (w / m)) G.A mask i <;>
      cases dirDenom (maskNew mask (totalDegreesM G.A)) (maskNew mask (recipDegreesM G.A)) i <;> simp
  rw [e3, dirTriVecW_loops, dirDenom_getD, maskNew_getD, maskNew_getD, totalDegreesM_getD,
    recipDegreesM_getD]
  unfold wdirCoeffCode
  rw [wdirCoeff_eq h, wloopExtra_eq h]
  unfold wdirDen
  rw [totalDegree_eq, recipDegree_eq]
  split
  · push_cast
    rw [← add_div]
  · simp

/-- **C79, all digraphs.** `clustering(G, weight=...)` / `clustering(G, nodes, weight=...)` of a digraph with an edge
between two different nodes, self-loops or not: every node asked for gets its weighted directed coefficient plus the
contribution `wloopExtra` of self-loops (which should not count) over the denominator. -/
theorem weighted_directed_clustering_value [IsStrictOrderedRing F] (cbrt : F → F) (h : G.WF)
    (hd : G.directed = true) {m : F} (hm : MaxWeight G m)
    {nodes : Option (List K)} (hn : ∀ l, nodes = some l → ∀ u ∈ l, G.Node u) :
    ∃ r, clusteringWeighted cbrt G nodes = .ok r ∧ ∀ u x, G.view r u = some x ↔
      (G.Node u ∧ Asked nodes u) ∧ x = wdirCoeffCode cbrt G m u := by
  obtain ⟨mask, hmask, -, hask⟩ := listToMask_ok h hn
  refine ⟨nodemapFill mask (clusteringDirVecW (fun w => cbrt (w / m)) G.A mask) 0, ?_, ?_⟩
  · unfold clusteringWeighted maxElemBranch
    rw [hmask, hd, if_pos rfl, maxElem_eq h hm]
    simp [clusteringBranchW, hd, bind, Except.bind, pure, Except.pure]
  · refine fun u x => fill_view h hask (clusteringDirVecW_loops h cbrt m mask) ?_ u x
    intro i hi
    simp [clusteringDirVecW, vmul, dirTriVecW, vadd, maskNew_none hi]

omit [LinearOrder F] in
/-- no self-loop at `u` or at a predecessor of `u`: nothing is added -/
theorem wloopExtra_zero (cbrt : F → F) (m : F) {u : K}
    (h1 : ∀ a, a ≠ u → G.Edge a u → ¬ G.Edge a a) (h2 : ¬ G.Edge u u) (h : G.WF) :
    wloopExtra G.nodes (normWeight cbrt m G.weight?) u = 0 := by
  have hz : ∀ a b, ¬ G.Edge a b → normWeight cbrt m G.weight? a b = 0 := by
    intro a b hab
    unfold normWeight
    cases hw : G.weight? a b with
    | none => rfl
    | some x =>
      obtain ⟨i, j, hi, hj, e⟩ := (weight?_eq_some h).1 hw
      exact absurd ⟨i, j, hi, hj, by rw [e]; rfl⟩ hab
  unfold wloopExtra
  rw [hz u u h2, zero_mul, mul_zero, add_zero]
  have : (fun a => if a ≠ u then normWeight cbrt m G.weight? a u *
      (normWeight cbrt m G.weight? a a * normWeight cbrt m G.weight? a u) else 0) = fun _ => 0 := by
    funext a
    by_cases ha : a = u
    · simp [ha]
    · rw [if_pos ha]
      by_cases hau : G.Edge a u
      · rw [hz a a (h1 a ha hau)]; simp
      · rw [hz a u hau]; simp
  rw [this, sumOver_nodes h]
  simp

/-- **C79, where it is right**: a node of a digraph without self-loops at itself and at its predecessors gets its
weighted coefficient. -/
theorem weighted_directed_clustering_right [IsStrictOrderedRing F] (cbrt : F → F) (h : G.WF)
    (hd : G.directed = true) {m : F} (hm : MaxWeight G m)
    {nodes : Option (List K)} (hn : ∀ l, nodes = some l → ∀ u ∈ l, G.Node u) :
    ∃ r, clusteringWeighted cbrt G nodes = .ok r ∧ ∀ u, G.Node u → Asked nodes u →
      (∀ a, a ≠ u → G.Edge a u → ¬ G.Edge a a) → ¬ G.Edge u u →
      G.view r u = some (wdirCoeff cbrt G m u) := by
  obtain ⟨r, hr, hv⟩ := weighted_directed_clustering_value cbrt h hd hm hn
  refine ⟨r, hr, fun u hu ha h1 h2 => (hv _ _).2 ⟨⟨hu, ha⟩, ?_⟩⟩
  unfold wdirCoeffCode
  rw [wloopExtra_zero cbrt m h1 h2 h]
  simp

/-- **C79, all digraphs**, `count_zeros=True`: the average is the mean of the returned values. -/
theorem weighted_average_directed_value [IsStrictOrderedRing F] (cbrt : F → F) (h : G.WF)
    (hd : G.directed = true) {m : F} (hm : MaxWeight G m) {nodes : Option (List K)}
    (hn : ∀ l, nodes = some l → ∀ u ∈ l, G.Node u) :
    averageClusteringWeighted cbrt G nodes true = meanOf (averagedOver G nodes) (wdirCoeffCode cbrt G m) := by
  have hn0 : G.n ≠ 0 := by
    obtain ⟨⟨u, v, -, i, -⟩, -⟩ := hm
    intro h0
    exact absurd i.isLt (by omega)
  unfold averageClusteringWeighted maxElemBranch
  obtain ⟨mask, hmask, -, hask⟩ := listToMask_ok h hn
  rw [if_neg hn0, hmask, hd, if_pos rfl, maxElem_eq h hm]
  show averageOf (clusteringBranchW _ G mask) true mask = _
  unfold clusteringBranchW
  rw [hd, if_pos rfl]
  have := averageOf_eq h hn hmask (clusteringDirVecW_loops h cbrt m mask) true (by simp)
  simpa using this

/-- **C79, finding.** Without an edge between two different nodes there is no largest weight, and every weighted call
raises (with the reading of division by an empty Scalar given at `Model.maxElem`), although all coefficients are 0. -/
theorem weighted_clustering_no_edges_raises (cbrt : F → F) (h : G.WF)
    (hno : ∀ u v, G.Edge u v → u = v) (hl : G.directed = false → ∀ u, ¬ G.Edge u u) {nodes : Option (List K)} (hn : ∀ l, nodes = some l → ∀ u ∈ l, G.Node u)
    (z : Bool) {u : K} (hu : G.Node u) :
    clusteringWeighted cbrt G nodes = .error .valueError ∧ singleClusteringWeighted cbrt G u = .error .valueError ∧
      averageClusteringWeighted cbrt G nodes z = .error .valueError := by
  have hA : ∀ i j, offdiag G.A i j = none := fun i j => by
    unfold offdiag
    split
    · rfl
    · rename_i hne
      by_contra hx
      exact hne (keyFn_inj h (hno _ _ ⟨i, j, keyFn_at h i, keyFn_at h j, Option.ne_none_iff_isSome.1 hx⟩))
  have hmax : maxElem G.A = .error .valueError := by
    unfold maxElem
    have : reduceScalar max (offdiag G.A) = none := by
      by_contra hx
      obtain ⟨i, hi⟩ := (reduce_isSome max _).1 (Option.ne_none_iff_isSome.1 hx)
      obtain ⟨j, hij⟩ := (reduce_isSome max (offdiag G.A i)).1 hi
      simp [hA] at hij
    rw [this]
  have hbr : maxElemBranch G = .error .valueError := by
    unfold maxElemBranch maxElemLU
    rw [hmax]
    cases hdir : G.directed with
    | true => rfl
    | false =>
      rw [if_neg (by simp), if_neg (by simpa using nvals_diag_zero.2 ((noLoop_iff h).1 (hl hdir)))]
  obtain ⟨mask, hmask, -, hask⟩ := listToMask_ok h hn
  obtain ⟨i, hi⟩ := hu.exists_id h
  have hn0 : G.n ≠ 0 := by
    intro h0
    exact absurd i.isLt (by omega)
  refine ⟨?_, ?_, ?_⟩
  · unfold clusteringWeighted; rw [hmask, hbr]; rfl
  · unfold singleClusteringWeighted; rw [(getId_eq_ok h).2 hi, hmax]; rfl
  · unfold averageClusteringWeighted; rw [if_neg hn0, hmask, hbr]; rfl

/-- a digraph with a self-loop at a predecessor -/
def Ex.wdloop : Graph Nat ℚ where
  n := 4
  A := Ex.ofTriples 4 [(0,1,1), (1,2,2), (2,0,4), (1,0,3), (2,3,8), (1,1,8)]
  keyToId := [(7,0),(8,1),(9,2),(6,3)]
  directed := true

theorem Ex.wdloop_max : MaxWeight Ex.wdloop 8 := by
  constructor
  · exact ⟨9, 6, by decide, (2 : Fin 4), (3 : Fin 4), by unfold Graph.At; decide, by unfold Graph.At; decide, by decide +kernel⟩
  · rintro x ⟨u, v, -, i, j, -, -, hw⟩
    have : ∀ i j : Fin 4, (Ex.wdloop.A i j).all (· ≤ 8) = true := by decide +kernel
    have := this i j
    rw [hw] at this
    simpa using this

/-- the loop at 8 counts for its successors 7 and 9, and twice for 8 itself -/
example : Ex.wdloop.WF ∧ MaxWeight Ex.wdloop 8 ∧ Ex.wdloop.directed = true ∧
    ([7, 8, 9, 6] : List Nat).map (wloopExtra Ex.wdloop.nodes (normWeight id 8 Ex.wdloop.weight?)) =
      [9/64, 3/32, 1/16, 0] ∧
    (∃ r, clusteringWeighted id Ex.wdloop none = .ok r ∧
      Ex.wdloop.view r 7 = some (wdirCoeffCode id Ex.wdloop 8 7) ∧
      wdirCoeffCode id Ex.wdloop 8 7 ≠ wdirCoeff id Ex.wdloop 8 7) := by
  refine ⟨⟨by decide, by decide⟩, Ex.wdloop_max, rfl, by decide +kernel, _, rfl, by decide +kernel, by decide +kernel⟩

/-- a digraph whose only edge is a self-loop -/
def Ex.onlyLoop : Graph Nat ℚ where
  n := 2
  A := Ex.ofTriples 2 [(0,0,1)]
  keyToId := [(7,0),(8,1)]
  directed := true

example : Ex.onlyLoop.WF ∧ (∀ i j : Fin 2, (Ex.onlyLoop.A i j).isSome → i = j) ∧
    singleClusteringWeighted id Ex.onlyLoop 8 = .error .valueError :=
  ⟨⟨by decide, by decide⟩, by decide +kernel, by decide +kernel⟩

end Props
