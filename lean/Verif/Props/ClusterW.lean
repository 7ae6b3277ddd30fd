import Verif.Model.ClusterW
import Verif.Spec.ClusterW
import Verif.Props.ClusterDir
import Mathlib.Algebra.Order.Field.Basic
import Mathlib.Order.Bounds.Basic

/-!
# C79 weighted clustering coefficients

`m` is the largest weight of an edge between two different nodes; `normWeight cbrt m G.weight?` is the
normalised weight of an edge and 0 where there is none (`Spec/ClusterW.lean`).  `cbrt` is any function.
-/

open GB Spec Model Model.Graph Proofs Proofs.Cluster

namespace Proofs.ClusterW

variable {α F : Type} {n : Nat}

section max
variable [LinearOrder F] {B : Mat n n F} {m : F}

theorem reduceScalar_max_of (hm : ∃ i j, B i j = some m) (hle : ∀ i j b, B i j = some b → b ≤ m) :
    reduceScalar max B = some m := by
  unfold reduceScalar
  obtain ⟨i, j, hij⟩ := hm
  rw [reduce_max]
  constructor
  · refine ⟨i, ?_⟩
    unfold reduceRow
    rw [reduce_max]
    exact ⟨⟨j, hij⟩, fun j' b hb => hle i j' b hb⟩
  · intro i' b hb
    unfold reduceRow at hb
    obtain ⟨⟨j', hj'⟩, -⟩ := reduce_max.1 hb
    exact hle i' j' b hj'

end max

section dir
variable [CommSemiring F] (f : α → F) (A : Mat n n α)

/-- off-diagonal normalised weights -/
def ow (i j : Fin n) : F := ((offdiag A i j).map f).getD 0

theorem ow_diag (i) : ow f A i i = 0 := by simp [ow, offdiag]

theorem mapply_off (i j) : (mapply f (offdiag A) i j).getD 0 = ow f A i j := rfl

theorem dirTriVecW_getD (hno : ∀ i, A i i = none) (mask : NodeMask n) (v) :
    (dirTriVecW f A mask v).getD 0 = if inMask mask v then dirHalf (ow f A) v else 0 := by
  have hA : A = offdiag A := by
    funext i j; unfold offdiag; split
    · rename_i e; rw [← e, hno]
    · rfl
  have ho : ∀ i j, (mapply f (transpose A) i j).getD 0 = ow f A j i := by
    intro i j; rw [← mapply_off, ← hA]; rfl
  unfold dirTriVecW
  simp only [vadd]
  rw [omerge_getD, omerge_getD, omerge_getD, maskNew_getD, maskNew_getD, maskNew_getD, maskNew_getD,
    reduceRow_getD, reduceCol_getD, reduceRow_getD, reduceCol_getD, ← four_parts]
  have ht : ∀ (X : Mat n n F) i j, transpose X i j = X j i := fun _ _ _ => rfl
  simp only [mmul_mask_getD, mxm_times_getD, ht, mapply_off, ho]
  split <;> simp

end dir

theorem oneW_eq [Field F] (O : Mat n n F) (x y : Vec n F) :
    oneW O x y = ∑ j, (y j).getD 0 * ∑ k, (O j k).getD 0 * (x k).getD 0 := by
  unfold oneW
  rw [reduce_add]
  refine Finset.sum_congr rfl fun a _ => ?_
  rw [← mxv_times_getD]
  unfold vmul vassignR
  rw [ointer_mul_getD]
  cases h : y a with
  | none => simp
  | some z => simp [vS, h, mul_comm]

/-! presence -/
section pos
variable [Field F] [LinearOrder F] [IsStrictOrderedRing F]

/-- every stored entry is positive -/
def VPos (v : Vec n F) : Prop := ∀ i x, v i = some x → 0 < x
def MPos (A : Mat n n F) : Prop := ∀ i j x, A i j = some x → 0 < x

theorem VPos.reduce {v : Vec n F} (hv : VPos v) {y} (h : GB.reduce (· + ·) v = some y) : 0 < y := by
  obtain ⟨i, hi⟩ := (reduce_isSome (· + ·) v).1 (by rw [h]; rfl)
  rw [reduce_add_of_isSome hi] at h
  obtain ⟨x, hx⟩ := Option.isSome_iff_exists.1 hi
  have := hv i x hx
  simp only [Option.some.injEq] at h
  rw [← h]
  refine lt_of_lt_of_le this ?_
  have := Finset.single_le_sum (f := fun i => (v i).getD 0) (fun j _ => ?_) (Finset.mem_univ i)
  · simpa [hx] using this
  · cases hj : v j with
    | none => simp
    | some z => simpa [hj] using (hv j z hj).le

theorem mxm_mpos {A B : Mat n n F} (hA : MPos A) (hB : MPos B) : MPos (mxm (· + ·) (· * ·) A B) := by
  intro i j y h
  refine VPos.reduce ?_ h
  intro l x hx
  obtain ⟨a, b, ha, hb, rfl⟩ := ointer_eq_some.1 hx
  exact mul_pos (hA _ _ _ ha) (hB _ _ _ hb)

theorem mask_mpos {M : MMask n n} {T O : Mat n n F} (hT : MPos T) (hO : MPos O) :
    MPos (mmul (· * ·) (massignR M T) O) := by
  intro i j y h
  obtain ⟨a, b, ha, hb, rfl⟩ := ointer_eq_some.1 h
  refine mul_pos ?_ (hO _ _ _ hb)
  unfold massignR at ha
  split at ha
  · exact hT _ _ _ ha
  · simp at ha

theorem trans_mpos {A : Mat n n F} (hA : MPos A) : MPos (transpose A) := fun i j x h => hA j i x h

theorem row_vpos {A : Mat n n F} (hA : MPos A) : VPos (reduceRow (· + ·) A) := fun i _ h =>
  VPos.reduce (v := A i) (fun j z hz => hA i j z hz) h

theorem col_vpos {A : Mat n n F} (hA : MPos A) : VPos (reduceCol (· + ·) A) := fun i _ h =>
  VPos.reduce (v := fun j => A j i) (fun j z hz => hA j i z hz) h

theorem new_vpos {mask : NodeMask n} {v : Vec n F} (hv : VPos v) : VPos (maskNew mask v) := by
  intro i x h
  cases mask with
  | none => exact hv i x h
  | some p =>
    unfold maskNew vassignR at h
    simp only at h
    split at h
    · exact hv i x h
    · simp at h

theorem add_vpos {u v : Vec n F} (hu : VPos u) (hv : VPos v) : VPos (vadd (· + ·) u v) := by
  intro i y h
  unfold vadd at h
  cases h1 : u i <;> cases h2 : v i <;> simp [h1, h2] at h
  · rw [← h]; exact hv i _ h2
  · rw [← h]; exact hu i _ h1
  · rw [← h]; exact add_pos (hu i _ h1) (hv i _ h2)

theorem map_mpos {f : α → F} {A : Mat n n α} (hf : ∀ i j a, A i j = some a → 0 < f a) : MPos (mapply f A) := by
  intro i j x h
  unfold mapply at h
  obtain ⟨a, ha, rfl⟩ := Option.map_eq_some_iff.1 h
  exact hf i j a ha

theorem trianglesVecW_vpos {f : α → F} {A : Mat n n α} {mask : NodeMask n}
    (hf : ∀ i j a, i ≠ j → A i j = some a → 0 < f a) : VPos (trianglesVecW f A mask) := by
  have hL : MPos (mapply f (tril1 A)) := map_mpos fun i j a h => by
    unfold tril1 at h
    split at h
    · rename_i hlt; exact hf i j a (by rintro rfl; simp at hlt) h
    · simp at h
  have hU : MPos (mapply f (triu1 A)) := map_mpos fun i j a h => by
    unfold triu1 at h
    split at h
    · rename_i hlt; exact hf i j a (by rintro rfl; simp at hlt) h
    · simp at h
  unfold trianglesVecW triSum
  exact add_vpos (add_vpos (new_vpos (row_vpos (mask_mpos (mxm_mpos hL (trans_mpos hL)) hL)))
    (new_vpos (col_vpos (mask_mpos (mxm_mpos hL (trans_mpos hL)) hL))))
    (new_vpos (row_vpos (mask_mpos (mxm_mpos hU (trans_mpos hL)) hU)))

theorem dirTriVecW_vpos {f : α → F} {A : Mat n n α} {mask : NodeMask n}
    (hno : ∀ i, A i i = none) (hf : ∀ i j a, i ≠ j → A i j = some a → 0 < f a) :
    VPos (dirTriVecW f A mask) := by
  have hO : MPos (mapply f (offdiag A)) := map_mpos fun i j a h => by
    unfold offdiag at h
    split at h
    · simp at h
    · rename_i hne; exact hf i j a hne h
  have hT : MPos (mapply f (transpose A)) := map_mpos fun i j a h =>
    hf j i a (by rintro rfl; unfold transpose at h; rw [hno] at h; cases h) h
  unfold dirTriVecW
  exact add_vpos (add_vpos (add_vpos
    (new_vpos (row_vpos (mask_mpos (mxm_mpos hO (trans_mpos hO)) hO)))
    (new_vpos (col_vpos (mask_mpos (mxm_mpos hO (trans_mpos hO)) hO))))
    (new_vpos (row_vpos (mask_mpos (mxm_mpos hT (trans_mpos hO)) hO))))
    (new_vpos (col_vpos (mask_mpos (mxm_mpos hT (trans_mpos hT)) hO)))

end pos

end Proofs.ClusterW

namespace Props
open Proofs.ClusterW

variable {K F : Type} [DecidableEq K] [Field F] [LinearOrder F] {G : Graph K F}

/-- `m` is the largest weight of an edge between two different nodes -/
def MaxWeight (G : Graph K F) (m : F) : Prop := IsGreatest {x | ∃ u v, u ≠ v ∧ G.WEdge u v x} m

theorem maxElem_eq (h : G.WF) {m : F} (hm : MaxWeight G m) : maxElem G.A = .ok m := by
  unfold maxElem
  rw [reduceScalar_max_of (m := m)]
  · obtain ⟨⟨u, v, hne, i, j, hi, hj, hw⟩, -⟩ := hm
    refine ⟨i, j, ?_⟩
    unfold offdiag
    rw [if_neg]
    · exact hw
    · rintro rfl; exact hne (At.key_unique h hi hj)
  · intro i j b hb
    unfold offdiag at hb
    split at hb
    · simp at hb
    · rename_i hne
      exact hm.2 ⟨keyFn h i, keyFn h j, fun e => hne (keyFn_inj h e), i, j, keyFn_at h i, keyFn_at h j, hb⟩

theorem nvals_diag_zero {n : Nat} {A : Mat n n F} : nvals (diagVec A) = 0 ↔ ∀ i, A i i = none := by
  rw [nvals, Finset.card_eq_zero, Finset.filter_eq_empty_iff]
  simp [diagVec]

omit [LinearOrder F] in
theorem wtri_eq (h : G.WF) (cbrt : F → F) (m : F) (i : Fin G.n) :
    triWeight G.nodes (normWeight cbrt m G.weight?) (keyFn h i) =
      full (wt (fun w => cbrt (w / m)) G.A) i := by
  unfold triWeight full
  rw [sumOver_nodes h]
  refine Finset.sum_congr rfl fun a _ => ?_
  rw [sumOver_nodes h]
  refine Finset.sum_congr rfl fun b _ => ?_
  have e : ∀ x y, normWeight cbrt m G.weight? (keyFn h x) (keyFn h y) =
      wt (fun w => cbrt (w / m)) G.A x y := by
    intro x y; unfold normWeight wt; rw [weight?_keyFn]; cases G.A x y <;> rfl
  simp only [ne_eq, keyFn_eq_iff, e]

omit [LinearOrder F] in
theorem wdirtri_eq (h : G.WF) (cbrt : F → F) (m : F) (i : Fin G.n) :
    triWeight G.nodes (fun a b => normWeight cbrt m G.weight? a b + normWeight cbrt m G.weight? b a)
      (keyFn h i) = full (sy (ow (fun w => cbrt (w / m)) G.A)) i := by
  unfold triWeight full
  rw [sumOver_nodes h]
  refine Finset.sum_congr rfl fun a _ => ?_
  rw [sumOver_nodes h]
  refine Finset.sum_congr rfl fun b _ => ?_
  have e : ∀ x y, x ≠ y → normWeight cbrt m G.weight? (keyFn h x) (keyFn h y) =
      ow (fun w => cbrt (w / m)) G.A x y := by
    intro x y hne; unfold normWeight ow offdiag; rw [weight?_keyFn, if_neg hne]; cases G.A x y <;> rfl
  simp only [ne_eq, keyFn_eq_iff]
  split
  · rename_i hh
    obtain ⟨h1, h2, h3⟩ := hh
    unfold sy
    rw [e _ _ (Ne.symm h2), e _ _ h2, e _ _ (Ne.symm h3), e _ _ h3, e _ _ h1, e _ _ (Ne.symm h1)]
  · rfl

/-- the weighted coefficient of a node of an undirected graph with largest weight `m` -/
def wcoeff (cbrt : F → F) (G : Graph K F) (m : F) (u : K) : F :=
  wCoeff G.nodes (normWeight cbrt m G.weight?) (degree G.nodes G.Edge u) u

/-- the weighted directed coefficient of a node of a digraph with largest weight `m` -/
def wdirCoeff (cbrt : F → F) (G : Graph K F) (m : F) (u : K) : F :=
  wDirCoeff G.nodes (normWeight cbrt m G.weight?) (totalDegree G.nodes G.Edge u)
    (recipDegree G.nodes G.Edge u) u

omit [LinearOrder F] in
theorem wcoeff_eq (h : G.WF) (hs : G.Symm) (cbrt : F → F) (m : F) (i : Fin G.n) :
    wcoeff cbrt G m (keyFn h i) = 2 * half (wt (fun w => cbrt (w / m)) G.A) i /
      ((((nbrs G.A i).card : Int) * (((nbrs G.A i).card : Int) - 1) : Int) : F) := by
  unfold wcoeff wCoeff
  rw [wtri_eq h, ← two_half (wt_symm _ hs), degree_eq]
  push_cast; rfl

theorem wdirCoeff_eq [IsStrictOrderedRing F] (h : G.WF) (cbrt : F → F) (m : F) (i : Fin G.n) :
    wdirCoeff cbrt G m (keyFn h i) = dirHalf (ow (fun w => cbrt (w / m)) G.A) i /
      (((((nbrs G.A i).card + (inn G.A i).card : Nat) : Int) *
      ((((nbrs G.A i).card + (inn G.A i).card : Nat) : Int) - 1) -
        2 * ((nbrs G.A i ∩ inn G.A i).card : Int) : Int) : F) := by
  unfold wdirCoeff wDirCoeff
  rw [wdirtri_eq h, ← two_dirHalf _ (ow_diag _ G.A), totalDegree_eq, recipDegree_eq]
  push_cast
  rw [mul_div_mul_left _ _ (by norm_num)]

omit [LinearOrder F] in
theorem clusteringVecW_getD (h : G.WF) (hs : G.Symm) (cbrt : F → F) (m : F) (mask : NodeMask G.n) (i) :
    (clusteringVecW (fun w => cbrt (w / m)) G.A mask i).getD 0 =
      if inMask mask i then wcoeff cbrt G m (keyFn h i) else 0 := by
  have e2 : (degDenom (countRow (offdiag G.A)) i).getD 0 =
      ((nbrs G.A i).card : Int) * (((nbrs G.A i).card : Int) - 1) := by
    rw [degDenom_getD, countRow_offdiag_getD]
  have e3 : (clusteringVecW (fun w => cbrt (w / m)) G.A mask i).getD 0 =
      2 * (trianglesVecW (fun w => cbrt (w / m)) G.A mask i).getD 0 /
        (((degDenom (countRow (offdiag G.A)) i).getD 0 : Int) : F) := by
    unfold clusteringVecW vmul
    cases trianglesVecW (fun w => cbrt (w / m)) G.A mask i <;>
      cases degDenom (countRow (offdiag G.A)) i <;> simp
  rw [e3, e2, trianglesVecW_getD _ hs, wcoeff_eq h hs]
  split <;> simp

theorem clusteringDirVecW_getD [IsStrictOrderedRing F] (h : G.WF) (hno : ∀ i, G.A i i = none)
    (cbrt : F → F) (m : F) (mask : NodeMask G.n) (i) :
    (clusteringDirVecW (fun w => cbrt (w / m)) G.A mask i).getD 0 =
      if inMask mask i then wdirCoeff cbrt G m (keyFn h i) else 0 := by
  have e3 : (clusteringDirVecW (fun w => cbrt (w / m)) G.A mask i).getD 0 =
      (dirTriVecW (fun w => cbrt (w / m)) G.A mask i).getD 0 /
        (((dirDenom (maskNew mask (totalDegreesM G.A)) (maskNew mask (recipDegreesM G.A)) i).getD 0 : Int) : F) := by
    unfold clusteringDirVecW vmul
    cases dirTriVecW (fun w => cbrt (w / m)) G.A mask i <;>
      cases dirDenom (maskNew mask (totalDegreesM G.A)) (maskNew mask (recipDegreesM G.A)) i <;> simp
  rw [e3, dirTriVecW_getD _ _ hno, dirDenom_getD, maskNew_getD, maskNew_getD, totalDegreesM_getD,
    recipDegreesM_getD, wdirCoeff_eq h]
  split <;> simp

/-- reading the result map of either branch -/
theorem fill_view (h : G.WF) {nodes : Option (List K)} {mask : NodeMask G.n}
    (hask : ∀ u i, G.At u i → (inMask mask i = true ↔ Asked nodes u)) {c : Vec G.n F} {f : K → F}
    (hc : ∀ i, (c i).getD 0 = if inMask mask i then f (keyFn h i) else 0)
    (hmk : ∀ i, inMask mask i = false → c i = none) (u : K) (x : F) :
    G.view (nodemapFill mask c 0) u = some x ↔ (G.Node u ∧ Asked nodes u) ∧ x = f u := by
  rw [view_eq_some h]
  have hval : ∀ i, nodemapFill mask c 0 i = if inMask mask i then some (f (keyFn h i)) else none := by
    intro i
    rw [nodemapFill_eq mask c 0 hmk, hc]
    split <;> simp_all
  constructor
  · rintro ⟨i, hi, e⟩
    rw [hval] at e
    split at e
    · rename_i hm
      refine ⟨⟨hi.node, (hask u i hi).1 hm⟩, ?_⟩
      rw [← keyFn_eq h hi]
      simp at e; rw [e]
    · simp at e
  · rintro ⟨⟨hu, ha⟩, rfl⟩
    obtain ⟨i, hi⟩ := hu.exists_id h
    refine ⟨i, hi, ?_⟩
    rw [hval, if_pos ((hask u i hi).2 ha), keyFn_eq h hi]

/-- **C79 (partial: no self-loops).** `clustering(G, weight=...)` / `clustering(G, nodes, weight=...)` of an
undirected graph: every node asked for gets the sum over its triangles of the product of the three
normalised weights, divided by its number of neighbour pairs.  With a self-loop the call raises, see
`weighted_clustering_self_loop_raises`. -/
theorem weighted_clustering_map_partial (cbrt : F → F) (h : G.WF) (hd : G.directed = false) (hs : G.Symm)
    (hno : ∀ u, ¬ G.Edge u u) {m : F} (hm : MaxWeight G m) {nodes : Option (List K)}
    (hn : ∀ l, nodes = some l → ∀ u ∈ l, G.Node u) :
    ∃ r, clusteringWeighted cbrt G nodes = .ok r ∧ ∀ u x, G.view r u = some x ↔
      (G.Node u ∧ Asked nodes u) ∧ x = wcoeff cbrt G m u := by
  obtain ⟨mask, hmask, -, hask⟩ := listToMask_ok h hn
  refine ⟨nodemapFill mask (clusteringVecW (fun w => cbrt (w / m)) G.A mask) 0, ?_, ?_⟩
  · unfold clusteringWeighted maxElemBranch maxElemLU
    rw [hmask, hd, if_neg (by simp), if_neg (by simpa using nvals_diag_zero.2 ((noLoop_iff h).1 hno)),
      maxElem_eq h hm]
    simp [clusteringBranchW, hd, bind, Except.bind, pure, Except.pure]
  · refine fun u x => fill_view h hask (clusteringVecW_getD h hs cbrt m mask) ?_ u x
    intro i hi
    simp [clusteringVecW, vmul, trianglesVecW, triSum, vadd, maskNew_none hi]

/-- **C79, finding.** On every undirected graph with a self-loop the weighted all-nodes call, made first on
the graph, raises AttributeError; so does the weighted average. -/
theorem weighted_clustering_self_loop_raises (cbrt : F → F) (h : G.WF) (hd : G.directed = false)
    {u : K} (hu : G.Edge u u) {nodes : Option (List K)} (hn : ∀ l, nodes = some l → ∀ u ∈ l, G.Node u)
    (z : Bool) : clusteringWeighted cbrt G nodes = .error .attributeError ∧
      averageClusteringWeighted cbrt G nodes z = .error .attributeError := by
  obtain ⟨mask, hmask, -, hask⟩ := listToMask_ok h hn
  have h1 : nvals (diagVec G.A) ≠ 0 := fun h0 => (noLoop_iff h).2 (nvals_diag_zero.1 h0) u hu
  have h2 : G.n ≠ 0 := by
    obtain ⟨i, -⟩ := hu
    intro h0
    exact absurd i.isLt (by omega)
  unfold clusteringWeighted averageClusteringWeighted maxElemBranch maxElemLU
  rw [hmask, hd, if_neg (by simp), if_pos h1, if_neg h2]
  exact ⟨rfl, rfl⟩

/-- **C79.** the one-node call on an undirected graph, self-loops or not. -/
theorem single_weighted_clustering (cbrt : F → F) (h : G.WF) (hd : G.directed = false) (hs : G.Symm)
    {m : F} (hm : MaxWeight G m) {u : K} (hu : G.Node u) :
    singleClusteringWeighted cbrt G u = .ok (wcoeff cbrt G m u) := by
  obtain ⟨i, hi⟩ := hu.exists_id h
  unfold singleClusteringWeighted
  rw [(getId_eq_ok h).2 hi, maxElem_eq h hm, hd]
  show Except.ok (singleClusteringAtW _ G.A i) = _
  congr 1
  rw [← keyFn_eq h hi, wcoeff_eq h hs]
  unfold singleClusteringAtW
  rw [singleTriangleAtW_eq, singleDegree_eq]
  simp only
  split
  · rename_i h0; rw [h0]; simp
  · rfl

/-- **C79 (partial: no self-loops).** the all-nodes call on a digraph; with self-loops the numerators are
wrong (as without weights, C38). -/
theorem weighted_directed_clustering_map_partial [IsStrictOrderedRing F] (cbrt : F → F) (h : G.WF)
    (hd : G.directed = true) (hno : ∀ u, ¬ G.Edge u u) {m : F} (hm : MaxWeight G m)
    {nodes : Option (List K)} (hn : ∀ l, nodes = some l → ∀ u ∈ l, G.Node u) :
    ∃ r, clusteringWeighted cbrt G nodes = .ok r ∧ ∀ u x, G.view r u = some x ↔
      (G.Node u ∧ Asked nodes u) ∧ x = wdirCoeff cbrt G m u := by
  obtain ⟨mask, hmask, -, hask⟩ := listToMask_ok h hn
  refine ⟨nodemapFill mask (clusteringDirVecW (fun w => cbrt (w / m)) G.A mask) 0, ?_, ?_⟩
  · unfold clusteringWeighted maxElemBranch
    rw [hmask, hd, if_pos rfl, maxElem_eq h hm]
    simp [clusteringBranchW, hd, bind, Except.bind, pure, Except.pure]
  · refine fun u x => fill_view h hask
      (clusteringDirVecW_getD h ((noLoop_iff h).1 hno) cbrt m mask) ?_ u x
    intro i hi
    simp [clusteringDirVecW, vmul, dirTriVecW, vadd, maskNew_none hi]

/-- **C79.** the one-node call on a digraph, self-loops or not. -/
theorem single_weighted_directed_clustering [IsStrictOrderedRing F] (cbrt : F → F) (h : G.WF)
    (hd : G.directed = true) {m : F} (hm : MaxWeight G m) {u : K} (hu : G.Node u) :
    singleClusteringWeighted cbrt G u = .ok (wdirCoeff cbrt G m u) := by
  obtain ⟨i, hi⟩ := hu.exists_id h
  unfold singleClusteringWeighted
  rw [(getId_eq_ok h).2 hi, maxElem_eq h hm, hd]
  show Except.ok (singleClusteringDirAtW _ G.A i) = _
  congr 1
  rw [← keyFn_eq h hi, wdirCoeff_eq h]
  unfold singleClusteringDirAtW
  simp only [oneW_eq, mapply_off]
  rw [four_single]
  have hr : (nvals (mapply (fun w => cbrt (w / m)) (offdiag G.A) i)) = (nbrs G.A i).card := by
    rw [nvals_eq_sum, ← sum_oadj_row]
    refine Finset.sum_congr rfl fun j _ => ?_
    simp [mapply, oadj, ind]
  have hc : (nvals fun j => mapply (fun w => cbrt (w / m)) (offdiag G.A) j i) = (inn G.A i).card := by
    rw [nvals_eq_sum, ← sum_oadj_col]
    refine Finset.sum_congr rfl fun j _ => ?_
    simp [mapply, oadj, ind]
  have hb : (nvals (vmul pairN (fun j => mapply (fun w => cbrt (w / m)) (offdiag G.A) j i)
      (mapply (fun w => cbrt (w / m)) (offdiag G.A) i))) = (nbrs G.A i ∩ inn G.A i).card := by
    rw [nvals_eq_sum, ← sum_oadj_recip]
    refine Finset.sum_congr rfl fun j _ => ?_
    simp only [vmul, mmul, transpose, ind, isSome_ointer, mapply, Option.isSome_map, Bool.and_comm]
  rw [hr, hc, hb]
  split
  · rename_i h0; rw [h0]; simp
  · congr 2
    push_cast; ring

/-- **C79 (partial: no self-loops).** `average_clustering(G, nodes, weight=..., count_zeros=)` of an undirected
graph: the mean of the weighted coefficients over the (distinct) nodes.  For `count_zeros=False`, weights
between different nodes and cube roots of positive numbers must be positive; zeros are then left out. -/
theorem weighted_average_partial [IsStrictOrderedRing F] (cbrt : F → F) (h : G.WF) (hd : G.directed = false)
    (hs : G.Symm) (hno : ∀ u, ¬ G.Edge u u) {m : F} (hm : MaxWeight G m) {nodes : Option (List K)}
    (hn : ∀ l, nodes = some l → ∀ u ∈ l, G.Node u) (z : Bool)
    (hpos : z = false → (∀ x, 0 < x → 0 < cbrt x) ∧ ∀ u v x, u ≠ v → G.WEdge u v x → 0 < x) :
    averageClusteringWeighted cbrt G nodes z =
      meanOf (if z then averagedOver G nodes
        else (averagedOver G nodes).filter fun u => wcoeff cbrt G m u ≠ 0) (wcoeff cbrt G m) := by
  have hno' := (noLoop_iff h).1 hno
  have hn0 : G.n ≠ 0 := by
    obtain ⟨⟨u, v, -, i, -⟩, -⟩ := hm
    intro h0
    exact absurd i.isLt (by omega)
  unfold averageClusteringWeighted maxElemBranch maxElemLU
  obtain ⟨mask, hmask, -, hask⟩ := listToMask_ok h hn
  rw [if_neg hn0, hmask, hd, if_neg (by simp), if_neg (by simpa using nvals_diag_zero.2 hno'), maxElem_eq h hm]
  show averageOf (clusteringBranchW _ G mask) z mask = _
  unfold clusteringBranchW
  rw [hd, if_neg (by simp)]
  refine averageOf_eq h hn hmask (clusteringVecW_getD h hs cbrt m mask) z ?_
  intro hz i
  obtain ⟨hcb, hwp⟩ := hpos hz
  have hg := clusteringVecW_getD h hs cbrt m mask i
  have hmpos : 0 < m := by
    obtain ⟨⟨u, v, hne, hw⟩, -⟩ := hm
    exact hwp u v m hne hw
  constructor
  · intro hi
    have hmk : inMask mask i = true := by
      by_contra hx
      have : clusteringVecW (fun w => cbrt (w / m)) G.A mask i = none := by
        simp [clusteringVecW, vmul, trianglesVecW, triSum, vadd, maskNew_none (by simpa using hx)]
      rw [this] at hi; simp at hi
    refine ⟨hmk, ?_⟩
    have ht : (trianglesVecW (fun w => cbrt (w / m)) G.A mask i).isSome := by
      unfold clusteringVecW vmul at hi
      rw [isSome_ointer, Bool.and_eq_true] at hi
      exact hi.1
    obtain ⟨t, ht⟩ := Option.isSome_iff_exists.1 ht
    have hp := trianglesVecW_vpos (f := fun w => cbrt (w / m)) (A := G.A) (mask := mask)
      (fun i j a hne ha => hcb _ (div_pos (hwp (keyFn h i) (keyFn h j) a
        (fun e => hne (keyFn_inj h e)) ⟨i, j, keyFn_at h i, keyFn_at h j, ha⟩) hmpos)) i t ht
    have hhalf : half (wt (fun w => cbrt (w / m)) G.A) i = t := by
      have := trianglesVecW_getD (fun w => cbrt (w / m)) hs mask i
      rw [ht, if_pos hmk] at this
      exact this.symm
    have hfull : full (wt (fun w => cbrt (w / m)) G.A) i ≠ 0 := by
      rw [← two_half (wt_symm _ hs), hhalf]; positivity
    -- a non-zero sum has a triangle, hence at least two neighbours
    have hcard : 2 ≤ (nbrs G.A i).card := by
      obtain ⟨a, -, ha⟩ := Finset.exists_ne_zero_of_sum_ne_zero hfull
      obtain ⟨b, -, hb⟩ := Finset.exists_ne_zero_of_sum_ne_zero ha
      split at hb
      · rename_i hh
        have hmem : ∀ a, a ≠ i → wt (fun w => cbrt (w / m)) G.A i a ≠ 0 → a ∈ nbrs G.A i := by
          intro a hai hne
          simp only [nbrs, Finset.mem_filter, Finset.mem_univ, true_and]
          refine ⟨hai, ?_⟩
          unfold wt at hne
          cases hx : G.A i a with
          | none => simp [hx] at hne
          | some _ => rfl
        have h1 := left_ne_zero_of_mul hb
        rw [← Finset.card_pair hh.1]
        apply Finset.card_le_card
        intro x hx
        simp only [Finset.mem_insert, Finset.mem_singleton] at hx
        rcases hx with rfl | rfl
        · exact hmem _ hh.2.1 (left_ne_zero_of_mul h1)
        · exact hmem _ hh.2.2 (right_ne_zero_of_mul h1)
      · simp at hb
    rw [wcoeff_eq h hs, hhalf]
    have : (0 : F) < ((((nbrs G.A i).card : Int) * (((nbrs G.A i).card : Int) - 1) : Int) : F) := by
      have : (0 : Int) < ((nbrs G.A i).card : Int) * (((nbrs G.A i).card : Int) - 1) := by
        have : (2 : Int) ≤ (nbrs G.A i).card := by exact_mod_cast hcard
        nlinarith
      exact_mod_cast this
    positivity
  · rintro ⟨hmk, hne⟩
    rw [if_pos hmk] at hg
    exact isSome_of_ne (by rw [hg]; exact hne)

/-- **C79 (partial: no self-loops).** the average over a digraph. -/
theorem weighted_average_directed_partial [IsStrictOrderedRing F] (cbrt : F → F) (h : G.WF)
    (hd : G.directed = true) (hno : ∀ u, ¬ G.Edge u u) {m : F} (hm : MaxWeight G m) {nodes : Option (List K)}
    (hn : ∀ l, nodes = some l → ∀ u ∈ l, G.Node u) (z : Bool)
    (hpos : z = false → (∀ x, 0 < x → 0 < cbrt x) ∧ ∀ u v x, u ≠ v → G.WEdge u v x → 0 < x) :
    averageClusteringWeighted cbrt G nodes z =
      meanOf (if z then averagedOver G nodes
        else (averagedOver G nodes).filter fun u => wdirCoeff cbrt G m u ≠ 0) (wdirCoeff cbrt G m) := by
  have hno' := (noLoop_iff h).1 hno
  have hn0 : G.n ≠ 0 := by
    obtain ⟨⟨u, v, -, i, -⟩, -⟩ := hm
    intro h0
    exact absurd i.isLt (by omega)
  unfold averageClusteringWeighted maxElemBranch
  obtain ⟨mask, hmask, -, hask⟩ := listToMask_ok h hn
  rw [if_neg hn0, hmask, hd, if_pos rfl, maxElem_eq h hm]
  show averageOf (clusteringBranchW _ G mask) z mask = _
  unfold clusteringBranchW
  rw [hd, if_pos rfl]
  refine averageOf_eq h hn hmask (clusteringDirVecW_getD h hno' cbrt m mask) z ?_
  intro hz i
  obtain ⟨hcb, hwp⟩ := hpos hz
  have hg := clusteringDirVecW_getD h hno' cbrt m mask i
  have hmpos : 0 < m := by
    obtain ⟨⟨u, v, hne, hw⟩, -⟩ := hm
    exact hwp u v m hne hw
  constructor
  · intro hi
    have hmk : inMask mask i = true := by
      by_contra hx
      have : clusteringDirVecW (fun w => cbrt (w / m)) G.A mask i = none := by
        simp [clusteringDirVecW, vmul, dirTriVecW, vadd, maskNew_none (by simpa using hx)]
      rw [this] at hi; simp at hi
    refine ⟨hmk, ?_⟩
    have ht : (dirTriVecW (fun w => cbrt (w / m)) G.A mask i).isSome := by
      unfold clusteringDirVecW vmul at hi
      rw [isSome_ointer, Bool.and_eq_true] at hi
      exact hi.1
    obtain ⟨t, ht⟩ := Option.isSome_iff_exists.1 ht
    have hp := dirTriVecW_vpos (f := fun w => cbrt (w / m)) (A := G.A) (mask := mask) hno'
      (fun i j a hne ha => hcb _ (div_pos (hwp (keyFn h i) (keyFn h j) a
        (fun e => hne (keyFn_inj h e)) ⟨i, j, keyFn_at h i, keyFn_at h j, ha⟩) hmpos)) i t ht
    have hhalf : dirHalf (ow (fun w => cbrt (w / m)) G.A) i = t := by
      have := dirTriVecW_getD (fun w => cbrt (w / m)) G.A hno' mask i
      rw [ht, if_pos hmk] at this
      exact this.symm
    -- the unweighted count is not zero either
    have hne : dirHalf (oadj G.A) i ≠ 0 := by
      have hz : ∀ x y, oadj G.A x y = 0 → ow (fun w => cbrt (w / m)) G.A x y = 0 := by
        intro x y hxy
        unfold oadj ind at hxy
        unfold ow
        cases hO : offdiag G.A x y with
        | none => rfl
        | some _ => simp [hO] at hxy
      intro h0
      apply hp.ne'
      rw [← hhalf]
      unfold dirHalf at h0 ⊢
      refine Finset.sum_eq_zero fun a _ => Finset.sum_eq_zero fun b _ => ?_
      have h1 := (Finset.sum_eq_zero_iff.1 ((Finset.sum_eq_zero_iff.1 h0) a (Finset.mem_univ _))) b
        (Finset.mem_univ _)
      rcases Nat.mul_eq_zero.1 h1 with h2 | h2
      · rw [hz _ _ h2, zero_mul]
      · rcases Nat.mul_eq_zero.1 h2 with h3 | h3
        · have h4 : oadj G.A i a = 0 ∧ oadj G.A a i = 0 := by unfold sy at h3; omega
          unfold sy
          rw [hz _ _ h4.1, hz _ _ h4.2]; ring
        · have h4 : oadj G.A i b = 0 ∧ oadj G.A b i = 0 := by unfold sy at h3; omega
          unfold sy
          rw [hz _ _ h4.1, hz _ _ h4.2]; ring
    have hden := dirDenom_pos G.A i hne
    rw [wdirCoeff_eq h, hhalf]
    exact (div_pos hp (by exact_mod_cast hden)).ne'
  · rintro ⟨hmk, hne⟩
    rw [if_pos hmk] at hg
    exact isSome_of_ne (by rw [hg]; exact hne)

/-! ### concrete graphs (`cbrt` taken as the identity to stay in ℚ) -/

/-- triangle 1-2-3 with weights 1, 2, 4 and a pendant edge 3-4 of weight 8 -/
def Ex.wtri : Graph Nat ℚ where
  n := 4
  A := Ex.ofTriples 4 [(0,1,1), (1,0,1), (1,2,2), (2,1,2), (0,2,4), (2,0,4), (2,3,8), (3,2,8)]
  keyToId := [(1,0),(2,1),(3,2),(4,3)]

/-- the same with one self-loop on node 4, heavier than every edge -/
def Ex.wloop : Graph Nat ℚ where
  n := 4
  A := Ex.ofTriples 4 [(0,1,1), (1,0,1), (1,2,2), (2,1,2), (0,2,4), (2,0,4), (2,3,8), (3,2,8), (3,3,16)]
  keyToId := [(1,0),(2,1),(3,2),(4,3)]

/-- a weighted directed 3-cycle with one reciprocated edge -/
def Ex.wdtri : Graph Nat ℚ where
  n := 4
  A := Ex.ofTriples 4 [(0,1,1), (1,2,2), (2,0,4), (1,0,3), (2,3,8)]
  keyToId := [(7,0),(8,1),(9,2),(6,3)]
  directed := true

theorem Ex.wtri_max : MaxWeight Ex.wtri 8 := by
  constructor
  · exact ⟨3, 4, by decide, (2 : Fin 4), (3 : Fin 4), by unfold At; decide, by unfold At; decide, rfl⟩
  · rintro x ⟨u, v, -, i, j, -, -, hw⟩
    have : ∀ i j : Fin 4, (Ex.wtri.A i j).all (· ≤ 8) = true := by decide +kernel
    have := this i j
    rw [hw] at this
    simpa using this

theorem Ex.wdtri_max : MaxWeight Ex.wdtri 8 := by
  constructor
  · exact ⟨9, 6, by decide, (2 : Fin 4), (3 : Fin 4), by unfold At; decide, by unfold At; decide, rfl⟩
  · rintro x ⟨u, v, -, i, j, -, -, hw⟩
    have : ∀ i j : Fin 4, (Ex.wdtri.A i j).all (· ≤ 8) = true := by decide +kernel
    have := this i j
    rw [hw] at this
    simpa using this

example : Ex.wtri.WF ∧ Ex.wtri.Symm ∧ (∀ i, Ex.wtri.A i i = none) ∧
    (∃ r, clusteringWeighted id Ex.wtri none = .ok r ∧
      [1,2,3,4].map (Ex.wtri.view r) = [some (1/64), some (1/64), some (1/192), some 0]) ∧
    singleClusteringWeighted id Ex.wtri 3 = .ok (1/192) ∧
    averageClusteringWeighted id Ex.wtri none true = .ok (7/768) ∧
    averageClusteringWeighted id Ex.wtri none false = .ok (7/576) := by
  refine ⟨⟨by decide, by decide⟩, by unfold Graph.Symm; decide +kernel, by decide +kernel,
    ⟨_, rfl, by decide +kernel⟩, by decide +kernel, by decide +kernel, by decide +kernel⟩

example : (∃ r, clusteringWeighted id Ex.wdtri (some [9, 7]) = .ok r ∧
      [7,8,9,6].map (Ex.wdtri.view r) = [some (1/64), none, some (1/96), none]) ∧
    singleClusteringWeighted id Ex.wdtri 9 = .ok (1/96) ∧
    averageClusteringWeighted id Ex.wdtri (some [9, 7, 9]) true = .ok (5/384) := by
  refine ⟨⟨_, rfl, by decide +kernel⟩, by decide +kernel, by decide +kernel⟩

example : clusteringWeighted id Ex.wloop none = .error .attributeError ∧
    singleClusteringWeighted id Ex.wloop 3 = .ok (1/192) := by
  constructor <;> decide +kernel

end Props
