import Verif.Proofs.ClusterDir
import Verif.Props.Cluster

/-!
# C38 directed clustering, C39 average clustering
-/

open GB Spec Model Model.Graph Proofs Proofs.Cluster

namespace Props

variable {K α : Type} [DecidableEq K] {G : Graph K α}

theorem between_eq (h : G.WF) {i j : Fin G.n} (hij : i ≠ j) :
    between G.Edge (keyFn h i) (keyFn h j) = sy (oadj G.A) i j := by
  unfold between sy oadj offdiag
  rw [if_neg hij, if_neg hij.symm]
  simp only [edge_keyFn, ind]

theorem dirTriPairs_eq (h : G.WF) (i : Fin G.n) :
    dirTriPairs G.nodes G.Edge (keyFn h i) = full (sy (oadj G.A)) i := by
  unfold dirTriPairs full
  rw [sumOver_nodes h]
  refine Finset.sum_congr rfl fun a _ => ?_
  rw [sumOver_nodes h]
  refine Finset.sum_congr rfl fun b _ => ?_
  simp only [ne_eq, keyFn_eq_iff]
  split
  · rename_i hh
    rw [between_eq h (Ne.symm hh.2.1), between_eq h (Ne.symm hh.2.2), between_eq h hh.1]
  · rfl

theorem totalDegree_eq (h : G.WF) (i : Fin G.n) :
    totalDegree G.nodes G.Edge (keyFn h i) = (nbrs G.A i).card + (inn G.A i).card := by
  unfold totalDegree
  rw [degree_eq, countOf_card h]
  simp only [ne_eq, keyFn_eq_iff, edge_keyFn, inn]

theorem recipDegree_eq (h : G.WF) (i : Fin G.n) :
    recipDegree G.nodes G.Edge (keyFn h i) = (nbrs G.A i ∩ inn G.A i).card := by
  unfold recipDegree
  rw [countOf_card h]
  congr 1
  ext a
  simp [keyFn_eq_iff, edge_keyFn, nbrs, inn]
  tauto

/-- the directed clustering coefficient of `u`, NetworkX's formula:
directed triangles `/ (d (d - 1) - 2 r)`. -/
def dirCoeff (G : Graph K α) (u : K) : ℚ :=
  (dirTriPairs G.nodes G.Edge u : ℚ) / (2 * ((totalDegree G.nodes G.Edge u : ℚ) *
    ((totalDegree G.nodes G.Edge u : ℚ) - 1) - 2 * (recipDegree G.nodes G.Edge u : ℚ)))

theorem dirCoeff_eq (h : G.WF) (i : Fin G.n) : dirCoeff G (keyFn h i) =
    ((dirHalf (oadj G.A) i : Nat) : ℚ) / (((((nbrs G.A i).card + (inn G.A i).card : Nat) : Int) *
      ((((nbrs G.A i).card + (inn G.A i).card : Nat) : Int) - 1) -
        2 * ((nbrs G.A i ∩ inn G.A i).card : Int) : Int) : ℚ) := by
  unfold dirCoeff
  rw [dirTriPairs_eq, totalDegree_eq, recipDegree_eq, ← two_dirHalf _ (oadj_diag G.A)]
  push_cast
  rw [mul_div_mul_left _ _ (by norm_num)]

theorem noLoop_iff (h : G.WF) : (∀ u, ¬ G.Edge u u) ↔ ∀ i, G.A i i = none := by
  constructor
  · intro hu i
    have := hu (keyFn h i)
    rw [edge_keyFn] at this
    simpa using this
  · rintro hi u ⟨i, j, h1, h2, h3⟩
    obtain rfl := At.id_unique h h1 h2
    rw [hi] at h3; simp at h3

theorem clusteringDirVec_getD (h : G.WF) (hno : ∀ i, G.A i i = none) (mask : NodeMask G.n) (i) :
    (clusteringDirVec G.A mask i).getD 0 = if inMask mask i then dirCoeff G (keyFn h i) else 0 := by
  have e3 : (clusteringDirVec G.A mask i).getD 0 =
      (((dirTri G.A mask i).getD 0 : Nat) : ℚ) / (((dirDenom (maskNew mask (totalDegreesM G.A))
        (maskNew mask (recipDegreesM G.A)) i).getD 0 : Int) : ℚ) := by
    unfold clusteringDirVec vmul
    cases dirTri G.A mask i <;> cases dirDenom (maskNew mask (totalDegreesM G.A))
        (maskNew mask (recipDegreesM G.A)) i <;> simp
  rw [e3, dirTri_getD _ hno, dirDenom_getD, maskNew_getD, maskNew_getD, totalDegreesM_getD,
    recipDegreesM_getD, dirCoeff_eq h]
  split <;> simp

/-- **C38 (partial: no self-loops).** `clustering(G)` / `clustering(G, nodes)` of a digraph without
self-loops gives every node asked for the directed clustering coefficient.  The full property drops
`hno`; it is false of the code, see `directed_clustering_self_loops_wrong`. -/
theorem directed_clustering_correct_partial (h : G.WF) (hno : ∀ u, ¬ G.Edge u u)
    {nodes : Option (List K)} (hn : ∀ l, nodes = some l → ∀ u ∈ l, G.Node u) :
    ∃ r, clusteringDirected G nodes = .ok r ∧ ∀ u c, G.view r u = some c ↔
      (G.Node u ∧ Asked nodes u) ∧ c = dirCoeff G u := by
  have hno' := (noLoop_iff h).1 hno
  obtain ⟨mask, hm, -, hask⟩ := listToMask_ok h hn
  refine ⟨nodemapFill mask (clusteringDirVec G.A mask) 0,
    by unfold clusteringDirected; rw [hm]; rfl, ?_⟩
  intro u c
  rw [view_eq_some h]
  have hval : ∀ i, nodemapFill mask (clusteringDirVec G.A mask) 0 i =
      if inMask mask i then some (dirCoeff G (keyFn h i)) else none := by
    intro i
    rw [nodemapFill_eq]
    · rw [clusteringDirVec_getD h hno']
      split <;> simp_all
    · intro i hi
      simp [clusteringDirVec, vmul, dirTri, vadd, maskNew_none hi]
  constructor
  · rintro ⟨i, hi, e⟩
    rw [hval] at e
    split at e
    · rename_i hmk
      refine ⟨⟨hi.node, (hask u i hi).1 hmk⟩, ?_⟩
      rw [← keyFn_eq h hi]
      simp at e; rw [e]
    · simp at e
  · rintro ⟨⟨hu, ha⟩, rfl⟩
    obtain ⟨i, hi⟩ := hu.exists_id h
    refine ⟨i, hi, ?_⟩
    rw [hval, if_pos ((hask u i hi).2 ha), keyFn_eq h hi]

/-- **C38.** the one-node call returns the coefficient for every digraph, self-loops or not. -/
theorem single_directed_clustering_correct (h : G.WF) {u : K} (hu : G.Node u) :
    singleClusteringDirected G u = .ok (dirCoeff G u) := by
  obtain ⟨i, hi⟩ := hu.exists_id h
  unfold singleClusteringDirected
  rw [(getId_eq_ok h).2 hi]
  show Except.ok (singleClusteringDirAt G.A i) = _
  congr 1
  rw [← keyFn_eq h hi, dirCoeff_eq h]
  unfold singleClusteringDirAt
  simp only [one_eq]
  have hr : (nvals (offdiag G.A i)) = (nbrs G.A i).card := by
    rw [nvals_eq_sum, ← sum_oadj_row]; rfl
  have hc : (nvals fun j => offdiag G.A j i) = (inn G.A i).card := by
    rw [nvals_eq_sum, ← sum_oadj_col]; rfl
  have hb : (nvals (vmul pairN (fun j => offdiag G.A j i) (offdiag G.A i))) =
      (nbrs G.A i ∩ inn G.A i).card := by
    rw [nvals_eq_sum, ← sum_oadj_recip]
    refine Finset.sum_congr rfl fun j _ => ?_
    simp only [vmul, mmul, transpose, ind, isSome_ointer, Bool.and_comm]
  have ht := four_single (oadj G.A) i
  simp only [oadj] at ht
  rw [ht, hr, hc, hb]
  split
  · rename_i h0
    have : dirHalf (oadj G.A) i = 0 := h0
    rw [this]; simp
  · congr 2
    push_cast; ring

/-- **C38.** no division by zero: a node with a directed triangle has a positive denominator. -/
theorem directed_clustering_denominator_pos (h : G.WF) {u : K} (hu : G.Node u)
    (ht : 0 < dirTriPairs G.nodes G.Edge u) :
    2 * recipDegree G.nodes G.Edge u <
      totalDegree G.nodes G.Edge u * (totalDegree G.nodes G.Edge u - 1) := by
  obtain ⟨i, rfl⟩ := exists_keyFn h hu
  rw [dirTriPairs_eq, ← two_dirHalf _ (oadj_diag G.A)] at ht
  have := dirDenom_pos G.A i (by omega)
  rw [totalDegree_eq, recipDegree_eq]
  generalize (nbrs G.A i).card + (inn G.A i).card = d at *
  generalize (nbrs G.A i ∩ inn G.A i).card = r at *
  rcases Nat.eq_zero_or_pos d with h0 | h0
  · subst h0; simp at this; omega
  · zify [h0]
    push_cast at this ⊢
    omega

/-- 0→0, 0→1, 2→1: no triangle at all -/
def Ex.loopy : Graph Nat Int where
  n := 3
  A := Ex.ofTriples 3 [(0,0,1), (0,1,1), (2,1,1)]
  keyToId := [(0,0),(1,1),(2,2)]
  directed := true

/-- **C38, finding.** With a self-loop in the graph the all-nodes call is wrong: node 1 has no
triangle (coefficient 0, which the one-node call returns), but `clustering(G)` says 1/2. -/
theorem directed_clustering_self_loops_wrong :
    Ex.loopy.WF ∧ dirCoeff Ex.loopy 1 = 0 ∧ singleClusteringDirected Ex.loopy 1 = .ok 0 ∧
    ∃ r, clusteringDirected Ex.loopy none = .ok r ∧ Ex.loopy.view r 1 = some (1/2) := by
  refine ⟨⟨by decide, by decide⟩, by decide +kernel, by decide +kernel, _, rfl, by decide +kernel⟩

/-- a directed 3-cycle with one reciprocated edge -/
def Ex.dtri : Graph Nat Int where
  n := 4
  A := Ex.ofTriples 4 [(0,1,1), (1,2,1), (2,0,1), (1,0,1), (2,3,1)]
  keyToId := [(7,0),(8,1),(9,2),(6,3)]
  directed := true

example : Ex.dtri.WF ∧ (∀ i, Ex.dtri.A i i = none) ∧ singleClusteringDirected Ex.dtri 9 = .ok (1/3) ∧
    ∃ r, clusteringDirected Ex.dtri none = .ok r ∧
      [7,8,9,6].map (Ex.dtri.view r) = [some (1/2), some (1/2), some (1/3), some 0] := by
  refine ⟨⟨by decide, by decide⟩, by decide +kernel, by decide +kernel, _, rfl, by decide +kernel⟩

/-! ### C39 -/

/-- the distinct nodes an average is taken over -/
def averagedOver (G : Graph K α) (nodes : Option (List K)) : List K :=
  match nodes with
  | none => G.nodes
  | some l => l.dedup

/-- the mean of `f` over `L`; Python raises ZeroDivisionError on no values -/
def meanOf {F : Type} [Field F] (L : List K) (f : K → F) : Except Err F :=
  if L.length = 0 then .error .zeroDivision else .ok (sumOver L f / L.length)

omit [DecidableEq K] in
theorem sumOver_sub {R : Type} [AddCommMonoid R] (h : G.WF) {L : List K} (hnd : L.Nodup) (hL : ∀ u ∈ L, G.Node u)
    (f : K → R) [∀ i : Fin G.n, Decidable (keyFn h i ∈ L)] :
    sumOver L f = ∑ i, if keyFn h i ∈ L then f (keyFn h i) else 0 := by
  classical
  unfold sumOver
  rw [← List.sum_toFinset _ hnd, ← Finset.sum_filter]
  refine (Finset.sum_bij (fun i _ => keyFn h i) ?_ ?_ ?_ ?_).symm
  · intro i hi; simpa using hi
  · intro i _ j _ e; exact keyFn_inj h e
  · intro u hu
    have hu' : u ∈ L := by simpa using hu
    obtain ⟨i, hi⟩ := exists_keyFn h (hL u hu')
    exact ⟨i, by simp [hi, hu'], hi⟩
  · intro i _; rfl

omit [DecidableEq K] in
theorem length_sub (h : G.WF) {L : List K} (hnd : L.Nodup) (hL : ∀ u ∈ L, G.Node u)
    [∀ i : Fin G.n, Decidable (keyFn h i ∈ L)] :
    L.length = ∑ i, if keyFn h i ∈ L then 1 else 0 := by
  rw [← sumOver_sub h hnd hL (fun _ => 1)]
  simp [sumOver]

theorem averageOf_eq (h : G.WF) {nodes : Option (List K)} (hn : ∀ l, nodes = some l → ∀ u ∈ l, G.Node u)
    {F : Type} [Field F] [DecidableEq F]
    {mask : NodeMask G.n} (hm : listToMask G nodes = .ok mask) {c : Vec G.n F} {f : K → F}
    (hc : ∀ i, (c i).getD 0 = if inMask mask i then f (keyFn h i) else 0)
    (z : Bool) (hp : z = false → ∀ i, (c i).isSome ↔ inMask mask i = true ∧ f (keyFn h i) ≠ 0) :
    averageOf c z mask =
      meanOf (if z then averagedOver G nodes else (averagedOver G nodes).filter fun u => f u ≠ 0) f := by
  obtain ⟨mask', hm', hnone, hask⟩ := listToMask_ok h hn
  obtain rfl : mask' = mask := by rw [hm] at hm'; cases hm'; rfl
  have hL : ∀ u ∈ averagedOver G nodes, G.Node u := by
    unfold averagedOver
    cases nodes with
    | none => exact fun u hu => hu
    | some l => exact fun u hu => hn l rfl u (by simpa using hu)
  have hnd : (averagedOver G nodes).Nodup := by
    unfold averagedOver
    cases nodes with
    | none => exact h.keys_nodup
    | some l => exact List.nodup_dedup l
  have hin : ∀ i, keyFn h i ∈ averagedOver G nodes ↔ inMask mask' i = true := by
    intro i
    rw [hask _ i (keyFn_at h i)]
    unfold averagedOver Asked
    cases nodes with
    | none =>
      have : keyFn h i ∈ G.nodes := (keyFn_at h i).node
      simpa using this
    | some l => simp
  have hval : (reduce (· + ·) c).getD 0 = sumOver (averagedOver G nodes) f := by
    rw [reduce_add, sumOver_sub h hnd hL]
    refine Finset.sum_congr rfl fun i _ => ?_
    rw [hc]
    by_cases hi : inMask mask' i = true
    · rw [if_pos hi, if_pos ((hin i).2 hi)]
    · rw [if_neg hi, if_neg (fun x => hi ((hin i).1 x))]
  unfold averageOf meanOf
  simp only [hval]
  cases z with
  | false =>
    have hlen : nvals c = ((averagedOver G nodes).filter fun u => f u ≠ 0).length := by
      rw [length_sub h (hnd.filter _) (fun u hu => hL u (List.mem_of_mem_filter hu)), nvals_eq_sum]
      refine Finset.sum_congr rfl fun i _ => ?_
      unfold ind
      by_cases hi : (c i).isSome = true
      · rw [if_pos hi, if_pos]
        have := (hp rfl i).1 hi
        simp [hin, this.1, this.2]
      · rw [if_neg hi, if_neg]
        intro hx
        apply hi
        rw [hp rfl]
        simpa [hin] using hx
    have hsum : sumOver (averagedOver G nodes) f =
        sumOver ((averagedOver G nodes).filter fun u => f u ≠ 0) f := by
      unfold sumOver
      generalize averagedOver G nodes = L
      induction L with
      | nil => rfl
      | cons a L ih =>
        by_cases ha : f a = 0
        · simpa [ha] using ih
        · simpa [ha] using ih
    simp only [Bool.not_false, if_true, Bool.false_eq_true, if_false]
    rw [hlen, hsum]
  | true =>
    simp only [Bool.not_true, Bool.false_eq_true, if_false, if_true]
    cases mask' with
    | none =>
      obtain rfl := hnone.2 rfl
      have : (averagedOver G none).length = G.n := nodes_length h
      simp only [this]
    | some p =>
      have hlen : nvals p = (averagedOver G nodes).length := by
        rw [length_sub h hnd hL, nvals_eq_sum]
        refine Finset.sum_congr rfl fun i _ => ?_
        unfold ind
        by_cases hi : (p i).isSome = true
        · rw [if_pos hi, if_pos ((hin i).2 hi)]
        · rw [if_neg hi, if_neg (fun x => hi ((hin i).1 x))]
      simp only [hlen]

/-! presence of results: an entry is stored exactly when it is non-zero -/

omit [DecidableEq K] in
theorem reduce_pos {n : Nat} {v : Vec n Nat} (hv : ∀ i x, v i = some x → 0 < x) {y}
    (h : reduce (· + ·) v = some y) : 0 < y := by
  obtain ⟨i, hi⟩ := (reduce_isSome (· + ·) v).1 (by rw [h]; rfl)
  rw [reduce_add_of_isSome hi] at h
  obtain ⟨x, hx⟩ := Option.isSome_iff_exists.1 hi
  have := hv i x hx
  simp only [Option.some.injEq] at h
  rw [← h]
  refine lt_of_lt_of_le this ?_
  have := Finset.single_le_sum (f := fun i => (v i).getD 0) (fun _ _ => Nat.zero_le _) (Finset.mem_univ i)
  simpa [hx] using this

omit [DecidableEq K] in
theorem mxm_pos {α β : Type} {m n k : Nat} {A : Mat m k α} {B : Mat k n β} {i j y}
    (h : mxm (· + ·) pairN A B i j = some y) : 0 < y := by
  refine reduce_pos ?_ h
  intro l x hx
  obtain ⟨_, _, _, _, rfl⟩ := ointer_eq_some.1 hx
  simp [pairN]

omit [DecidableEq K] in
theorem massignR_pos {α β : Type} {n : Nat} {M : MMask n n} {A : Mat n n α} {B : Mat n n β} (i j y)
    (h : massignR M (mxm (· + ·) pairN A B) i j = some y) : 0 < y := by
  unfold massignR at h
  split at h
  · exact mxm_pos h
  · simp at h

omit [DecidableEq K] in
theorem maskNew_pos {n : Nat} {mask : NodeMask n} {v : Vec n Nat} (hv : ∀ i x, v i = some x → 0 < x) (i x)
    (h : maskNew mask v i = some x) : 0 < x := by
  cases mask with
  | none => exact hv i x h
  | some p =>
    unfold maskNew vassignR at h
    simp only at h
    split at h
    · exact hv i x h
    · simp at h

omit [DecidableEq K] in
theorem omerge_pos {a b : Option Nat} (ha : ∀ x, a = some x → 0 < x) (hb : ∀ x, b = some x → 0 < x)
    (y) (h : omerge (· + ·) a b = some y) : 0 < y := by
  cases a <;> cases b <;> simp_all
  omega

omit [DecidableEq K] in
theorem trianglesVec_pos {n : Nat} {A : Mat n n α} {mask} (i x) (h : trianglesVec A mask i = some x) : 0 < x := by
  refine omerge_pos (fun x => omerge_pos (fun x => maskNew_pos ?_ i x) (fun x => maskNew_pos ?_ i x) x)
    (fun x => maskNew_pos ?_ i x) x h
  all_goals
    intro i x hx
    refine reduce_pos ?_ hx
    intro j y hy
    first | exact massignR_pos _ _ _ hy

omit [DecidableEq K] in
theorem dirTri_pos {n : Nat} {A : Mat n n α} {mask} (i x) (h : dirTri A mask i = some x) : 0 < x := by
  refine omerge_pos (fun x => omerge_pos (fun x => omerge_pos (fun x => maskNew_pos ?_ i x)
    (fun x => maskNew_pos ?_ i x) x) (fun x => maskNew_pos ?_ i x) x) (fun x => maskNew_pos ?_ i x) x h
  all_goals
    intro i x hx
    refine reduce_pos ?_ hx
    intro j y hy
    first | exact massignR_pos _ _ _ hy

omit [DecidableEq K] in
theorem isSome_of_pos {a : Option Nat} (ha : a.getD 0 ≠ 0) : a.isSome := by cases a <;> simp_all

omit [DecidableEq K] in
theorem isSome_of_ne {R : Type} [Zero R] {a : Option R} (ha : a.getD 0 ≠ 0) : a.isSome := by
  cases a <;> simp_all

/-- **C39.** `average_clustering(G, nodes, count_zeros)` of an undirected graph is the mean of the
coefficients over all nodes (or over the distinct nodes given); with `count_zeros=False` the mean of
the non-zero ones; ZeroDivisionError exactly when there is nothing to average. -/
theorem average_clustering_correct (h : G.WF) (hd : G.directed = false) (hs : G.Symm)
    {nodes : Option (List K)} (hn : ∀ l, nodes = some l → ∀ u ∈ l, G.Node u) (z : Bool) :
    averageClustering G nodes z =
      if G.n = 0 then .error .zeroDivision
      else meanOf (if z then averagedOver G nodes
        else (averagedOver G nodes).filter fun u => coeff G u ≠ 0) (coeff G) := by
  unfold averageClustering
  split
  · rfl
  obtain ⟨mask, hm, -, hask⟩ := listToMask_ok h hn
  rw [hm]
  show averageOf _ z mask = _
  rw [hd]
  refine averageOf_eq h hn hm (clusteringVec_getD h hs mask) z ?_
  intro _ i
  have hg := clusteringVec_getD h hs mask i
  constructor
  · intro hi
    have hmk : inMask mask i = true := by
      by_contra hx
      have : clusteringVec G.A mask i = none := by
        simp [clusteringVec, vmul, trianglesVec, triSum, vadd, maskNew_none (by simpa using hx)]
      rw [this] at hi; simp at hi
    refine ⟨hmk, ?_⟩
    have ht : (trianglesVec G.A mask i).isSome := by
      unfold clusteringVec vmul at hi
      rw [isSome_ointer, Bool.and_eq_true] at hi
      exact hi.1
    obtain ⟨t, ht⟩ := Option.isSome_iff_exists.1 ht
    have hpos := trianglesVec_pos i t ht
    have hhalf : half (adj G.A) i = t := by
      have := trianglesVec_getD hs mask i
      rw [ht, if_pos hmk] at this
      exact this.symm
    have htp : 0 < triPairs G.nodes G.Edge (keyFn h i) := by
      rw [triPairs_eq, ← two_half (adj_symm hs), hhalf]; omega
    have hden := (clustering_bounds h (keyFn_at h i).node).2.2 htp
    unfold coeff
    exact (div_pos (by exact_mod_cast htp) (by exact_mod_cast hden)).ne'
  · rintro ⟨hmk, hne⟩
    rw [if_pos hmk] at hg
    exact isSome_of_ne (by rw [hg]; exact hne)

/-- **C39 (partial: no self-loops).** the same for digraphs, with the directed coefficient; with
self-loops the all-nodes coefficients themselves are wrong (C38). -/
theorem average_clustering_directed_correct_partial (h : G.WF) (hd : G.directed = true)
    (hno : ∀ u, ¬ G.Edge u u)
    {nodes : Option (List K)} (hn : ∀ l, nodes = some l → ∀ u ∈ l, G.Node u) (z : Bool) :
    averageClustering G nodes z =
      if G.n = 0 then .error .zeroDivision
      else meanOf (if z then averagedOver G nodes
        else (averagedOver G nodes).filter fun u => dirCoeff G u ≠ 0) (dirCoeff G) := by
  have hno' := (noLoop_iff h).1 hno
  unfold averageClustering
  split
  · rfl
  obtain ⟨mask, hm, -, hask⟩ := listToMask_ok h hn
  rw [hm]
  show averageOf _ z mask = _
  refine averageOf_eq h hn hm (clusteringDirVec_getD h hno' mask) z ?_
  intro _ i
  have hg := clusteringDirVec_getD h hno' mask i
  constructor
  · intro hi
    have hmk : inMask mask i = true := by
      by_contra hx
      have : clusteringDirVec G.A mask i = none := by
        simp [clusteringDirVec, vmul, dirTri, vadd, maskNew_none (by simpa using hx)]
      rw [this] at hi; simp at hi
    refine ⟨hmk, ?_⟩
    have ht : (dirTri G.A mask i).isSome := by
      unfold clusteringDirVec vmul at hi
      rw [isSome_ointer, Bool.and_eq_true] at hi
      exact hi.1
    obtain ⟨t, ht⟩ := Option.isSome_iff_exists.1 ht
    have hpos := dirTri_pos i t ht
    have hhalf : dirHalf (oadj G.A) i = t := by
      have := dirTri_getD G.A hno' mask i
      rw [ht, if_pos hmk] at this
      exact this.symm
    have := dirDenom_pos G.A i (by omega)
    rw [dirCoeff_eq h]
    exact (div_pos (by rw [hhalf]; exact_mod_cast hpos) (by exact_mod_cast this)).ne'
  · rintro ⟨hmk, hne⟩
    rw [if_pos hmk] at hg
    exact isSome_of_ne (by rw [hg]; exact hne)

/-- **C39, finding.** with a self-loop the directed average is wrong: no node of `Ex.loopy` has a
triangle, yet the average is 1/6. -/
theorem average_clustering_self_loops_wrong :
    averageClustering Ex.loopy none true = .ok (1/6) ∧ ∀ u ∈ Ex.loopy.nodes, dirCoeff Ex.loopy u = 0 := by
  constructor <;> decide +kernel

example : averageClustering Ex.ug none true = .ok (1/3) ∧
    averageClustering Ex.ug none false = .ok (5/9) ∧
    averageClustering Ex.ug (some [5,1,5]) true = .ok (1/2) ∧
    averageClustering Ex.dtri none true = .ok (1/3) ∧
    averageClustering Ex.ug (some []) true = .error .zeroDivision := by
  refine ⟨?_, ?_, ?_, ?_, ?_⟩ <;> decide +kernel

/-! ### C36 for digraphs -/

/-- **C36.** `transitivity(G)` of a digraph: the same quotient as for undirected graphs, read on
out-neighbours (what NetworkX computes), in `[0, 1]`. -/
theorem transitivity_directed_correct {K α : Type} [DecidableEq K] {G : Graph K α} (h : G.WF) :
    transitivityDirected G = ((sumOver G.nodes fun u => triPairs G.nodes G.Edge u : Nat) : ℚ) /
      ((sumOver G.nodes fun u => degree G.nodes G.Edge u * (degree G.nodes G.Edge u - 1) : Nat) : ℚ) ∧
    0 ≤ transitivityDirected G ∧ transitivityDirected G ≤ 1 := by
  have hle : (sumOver G.nodes fun u => triPairs G.nodes G.Edge u : Nat) ≤
      sumOver G.nodes fun u => degree G.nodes G.Edge u * (degree G.nodes G.Edge u - 1) := by
    rw [sumOver_nodes h, sumOver_nodes h]
    exact Finset.sum_le_sum fun i _ => triPairs_le h (keyFn_at h i).node
  have hnum : (reduceScalar (· + ·) (massignR (mS (offdiag G.A))
      (mxm (· + ·) pairN (offdiag G.A) (transpose (offdiag G.A))))).getD 0 =
      sumOver G.nodes fun u => triPairs G.nodes G.Edge u := by
    rw [reduceScalar_getD, sumOver_nodes h]
    refine Finset.sum_congr rfl fun v _ => ?_
    rw [triPairs_eq]
    unfold full
    refine Finset.sum_congr rfl fun a _ => ?_
    rw [massignR_pair_getD, mxm_pair_getD, Finset.mul_sum]
    refine Finset.sum_congr rfl fun b _ => ?_
    unfold transpose offdiag adj
    by_cases h1 : a = v
    · subst h1; simp
    by_cases h2 : b = v
    · subst h2; simp
    by_cases h3 : a = b
    · subst h3; simp
    · simp only [Ne.symm h1, Ne.symm h2, h1, h2, h3, if_false, ne_eq, not_false_eq_true, and_self,
        if_true, mul_assoc]
  have hden := sum_denom h
  generalize hD : (sumOver G.nodes fun u => degree G.nodes G.Edge u * (degree G.nodes G.Edge u - 1)) = D at *
  generalize hN : (sumOver G.nodes fun u => triPairs G.nodes G.Edge u) = N at *
  have heq : transitivityDirected G = (N : ℚ) / (D : ℚ) := by
    unfold transitivityDirected
    split
    · rename_i h0
      have : N = 0 := by
        rw [← hN, sumOver_nodes h]
        apply Finset.sum_eq_zero
        intro i; exact absurd i.isLt (by omega)
      simp [this]
    · simp only [hnum, hden]
      split
      · rename_i h0; simp [h0]
      · push_cast; rfl
  refine ⟨heq, ?_, ?_⟩
  · rw [heq]; positivity
  · rw [heq]
    exact div_le_one_of_le₀ (by exact_mod_cast hle) (by positivity)

example : transitivityDirected Ex.dtri ≠ 0 := by decide +kernel

end Props
