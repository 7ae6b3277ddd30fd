import Verif.Props.PageRank
import Verif.Proofs.BfsApi
import Verif.Model.Linalg
import Verif.Spec.Linalg
import Mathlib.Algebra.BigOperators.Field

/-!
# C70-C73: adjacency, Laplacian, modularity and Bethe-Hessian matrices
-/

open GB Spec Model Model.Graph Proofs Proofs.Power

namespace Props

variable {K F : Type} {m n : Nat}

section
variable [CommRing F]

/-- the nodes of the matrix: the node list, or all nodes -/
def chosen (G : Graph K F) (nodelist : Option (List K)) : List K := nodelist.getD G.nodes

/-- row (and column) `i` of the matrix is that of node `u`: position in the node list, or row of the graph -/
def RowName (G : Graph K F) (nodelist : Option (List K)) (i : Nat) (u : K) : Prop :=
  match nodelist with
  | none => (u, i) ∈ G.keyToId
  | some L => L[i]? = some u

variable [DecidableEq K] {G : Graph K F}

/-- a matrix of the chosen nodes -/
private structure Sel (G : Graph K F) (nodelist : Option (List K)) (w : K → K → Option F) (m : Nat)
    (A : Mat m m F) (key : Fin m → K) : Prop where
  ent : ∀ i j, A i j = w (key i) (key j)
  sum : ∀ f : K → F, sumOver (chosen G nodelist) f = ∑ i, f (key i)
  rows : ∀ (i : Fin m) u, RowName G nodelist i u → key i = u
  mem : ∀ i, key i ∈ chosen G nodelist
  surj : ∀ u ∈ chosen G nodelist, ∃ i, key i = u
  len : m = (chosen G nodelist).length

private theorem forall₂_get' {L : List K} {ids : List (Fin G.n)}
    (hf : List.Forall₂ (fun u i => G.At u i) L ids) (i : Fin ids.length) :
    ∃ u, L[i.val]? = some u ∧ G.At u (ids.get i) := by
  have hl := hf.length_eq
  have hi : i.val < L.length := by rw [hl]; exact i.isLt
  exact ⟨L[i.val], List.getElem?_eq_getElem hi, hf.get hi i.isLt⟩

omit [DecidableEq K] in
private theorem sumOver_ids' (h : G.WF) {L : List K} {ids : List (Fin G.n)}
    (hf : List.Forall₂ (fun u i => G.At u i) L ids) (f : K → F) :
    sumOver L f = ∑ i : Fin ids.length, f (keyFn h (ids.get i)) := by
  have e : L = ids.map (keyFn h) := by
    induction hf with
    | nil => rfl
    | cons ha _ ih => rw [List.map_cons, keyFn_eq h ha, ← ih]
  unfold sumOver
  conv_lhs => rw [e, List.map_map]
  rw [← List.sum_ofFn]
  congr 1
  conv_lhs => rw [← List.ofFn_get (l := ids)]
  rw [List.map_ofFn]
  rfl

private theorem sel_none (h : G.WF) : Sel G none G.weight? G.n G.A (keyFn h) where
  ent i j := (weight?_keyFn h i j).symm
  sum f := sumOver_nodes h f
  rows i u hu := keyFn_eq h hu
  mem i := (keyFn_at h i).node
  surj u hu := exists_keyFn h hu
  len := (nodes_length h).symm

private theorem sel_some (h : G.WF) {L : List K} {ids : List (Fin G.n)}
    (hf : List.Forall₂ (fun u i => G.At u i) L ids) :
    Sel G (some L) G.weight? ids.length (extract G.A ids.get ids.get) fun i => keyFn h (ids.get i) where
  ent i j := (weight?_keyFn h _ _).symm
  sum f := sumOver_ids' h hf f
  rows i u hu := by
    obtain ⟨u', hu', hat⟩ := forall₂_get' hf i
    have : L[i.val]? = some u := hu
    rw [this] at hu'; cases hu'
    exact keyFn_eq h hat
  mem i := by
    obtain ⟨u', hu', hat⟩ := forall₂_get' hf i
    rw [keyFn_eq h hat]
    exact List.mem_of_getElem? hu'
  surj u hu := by
    obtain ⟨k, hk, rfl⟩ := List.getElem_of_mem hu
    have hl := hf.length_eq
    have hk' : k < L.length := hk
    refine ⟨⟨k, by omega⟩, ?_⟩
    obtain ⟨u', hu', hat⟩ := forall₂_get' hf ⟨k, by omega⟩
    rw [keyFn_eq h hat]
    have e : L[k]? = some (L[k]) := List.getElem?_eq_getElem hk'
    have hu'' : L[k]? = some u' := hu'
    rw [e] at hu''
    exact (Option.some.inj hu'').symm
  len := hf.length_eq.symm

private theorem sel_unit {nodelist : Option (List K)} {w : K → K → Option F} {A : Mat m m F} {key}
    (s : Sel G nodelist w m A key) : Sel G nodelist (unitWeights w) m (onesOf A) key where
  ent i j := by unfold onesOf unitWeights mapply; rw [s.ent]
  sum := s.sum
  rows := s.rows
  mem := s.mem
  surj := s.surj
  len := s.len

private theorem sel_one {nodelist : Option (List K)} {w : K → K → Option F} {A : Mat m m F} {key}
    (s : Sel G nodelist w m A key) (b : Bool) : Sel G nodelist (weightsOf b w) m (oneUnless b A) key := by
  cases b
  · exact sel_unit s
  · exact s

section
variable {nodelist : Option (List K)} {w : K → K → Option F} {A : Mat m m F} {key : Fin m → K}
  (s : Sel G nodelist w m A key)
include s

private theorem Sel.out (i) : outWeight (chosen G nodelist) w (key i) = ∑ j, (A i j).getD 0 := by
  unfold outWeight
  rw [s.sum]
  exact Finset.sum_congr rfl fun j _ => by rw [s.ent]

private theorem Sel.in' (j) : inWeight (chosen G nodelist) w (key j) = ∑ i, (A i j).getD 0 := by
  unfold inWeight
  rw [s.sum]
  exact Finset.sum_congr rfl fun i _ => by rw [s.ent]

private theorem Sel.total : totalWeight (chosen G nodelist) w = ∑ i, ∑ j, (A i j).getD 0 := by
  unfold totalWeight
  rw [s.sum]
  exact Finset.sum_congr rfl fun i _ => s.out i

private theorem Sel.dangling (i) : Dangling (chosen G nodelist) w (key i) ↔ ∀ j, A i j = none := by
  constructor
  · intro hd j
    rw [s.ent]; exact hd _ (s.mem j)
  · intro hd v hv
    obtain ⟨j, rfl⟩ := s.surj v hv
    rw [← s.ent]; exact hd j

end

/-! ### C73 -/

/-- **C73.** The matrix has an entry exactly for the edges among the chosen nodes, and it is the weight of the
edge (of a multigraph, or if `weight` is given), or 1. -/
theorem adjacency_matrix_correct (h : G.WF) {nodelist : Option (List K)}
    (hL : ∀ L, nodelist = some L → ∀ u ∈ L, G.Node u) (isWeighted : Bool) :
    ∃ M : Σ m, Mat m m F, adjacencyMatrix G nodelist isWeighted = .ok M ∧
      M.1 = (chosen G nodelist).length ∧
      ∀ i j u v, RowName G nodelist i.val u → RowName G nodelist j.val v →
        M.2 i j = weightsOf (G.multi || isWeighted) G.weight? u v := by
  cases nodelist with
  | none =>
    refine ⟨⟨G.n, oneUnless (G.multi || isWeighted) G.A⟩, rfl, (sel_none h).len, ?_⟩
    intro i j u v hu hv
    have s := sel_one (sel_none h) (G.multi || isWeighted)
    rw [← s.rows i u hu, ← s.rows j v hv, ← s.ent]
  | some L =>
    obtain ⟨ids, hids, hf⟩ := Proofs.listToIds_ok h (hL L rfl)
    have s := sel_one (sel_some h hf) (G.multi || isWeighted)
    refine ⟨⟨ids.length, oneUnless (G.multi || isWeighted) (extract G.A ids.get ids.get)⟩, ?_, s.len, ?_⟩
    · unfold adjacencyMatrix
      dsimp only
      rw [hids]; rfl
    · intro i j u v hu hv
      rw [← s.rows i u hu, ← s.rows j v hv, ← s.ent]

/-- **C73.** a node list naming a non-node raises -/
theorem adjacency_matrix_missing {L : List K} {u : K} (hu : u ∈ L)
    (hn : ¬ G.Node u) (h : G.WF) (isWeighted : Bool) :
    adjacencyMatrix G (some L) isWeighted = .error .keyError := by
  unfold adjacencyMatrix
  dsimp only
  rw [Proofs.Bfs.listToIds_error h hu hn]; rfl

private theorem vsum_eq' (v : Vec n F) : (reduce (· + ·) v).getD 0 = ∑ i, (v i).getD 0 :=
  reduce_add v

private theorem weightsOf_none (h : G.WF) {N : List K}
    (hz : ∀ u ∈ N, ∀ v ∈ N, ¬ G.Edge u v) (b : Bool) :
    ∀ u ∈ N, ∀ v ∈ N, weightsOf b G.weight? u v = none := by
  intro u hu v hv
  have e : G.weight? u v = none := by
    cases hc : G.weight? u v with
    | none => rfl
    | some a =>
      obtain ⟨i, j, h1, h2, h3⟩ := (weight?_eq_some h).1 hc
      exact absurd ⟨i, j, h1, h2, by rw [h3]; rfl⟩ (hz u hu v hv)
  unfold weightsOf unitWeights
  split <;> simp [e]

/-! ### C70 -/

private theorem degreesF_getD (A : Mat n n F) (i) : (degreesF A i).getD 0 = ∑ j, (onesOf A i j).getD 0 := by
  have h1 := countRow_getD A i
  have h2 : ∀ o : Option Nat, ((o.map fun (d : Nat) => (d : F)).getD 0) = ((o.getD 0 : Nat) : F) := by
    intro o; cases o <;> simp
  unfold degreesF vapply
  rw [h2, h1]
  push_cast
  refine Finset.sum_congr rfl fun j _ => ?_
  unfold onesOf mapply
  cases A i j <;> simp

private theorem degreesF_none (A : Mat n n F) (i) : degreesF A i = none ↔ ∀ j, onesOf A i j = none := by
  unfold degreesF vapply countRow onesOf mapply
  by_cases h : nvals (A i) = 0
  · rw [if_pos h]
    have := nvals_eq_zero.1 h
    simp [this]
  · rw [if_neg h]
    constructor
    · intro hc; cases hc
    · intro hc
      exact absurd (nvals_eq_zero.2 fun j => by have := hc j; simpa using this) h

private theorem reduceRow_none (A : Mat n n F) (i) :
    reduceRow (· + ·) A i = none ↔ ∀ j, A i j = none := by
  have : (reduceRow (· + ·) A i).isSome = true ↔ ¬ ∀ j, A i j = none := by
    unfold reduceRow
    rw [reduce_isSome]
    simp only [not_forall, ← Option.isSome_iff_ne_none, ne_eq]
  constructor
  · intro hc
    by_contra hx
    rw [hc] at this
    exact absurd (this.2 hx) (by simp)
  · intro hx
    cases hr : reduceRow (· + ·) A i with
    | none => rfl
    | some r => rw [hr] at this; exact absurd hx (this.1 rfl)

/-- what `_laplacian_helper` returns -/
private structure Helper (G : Graph K F) (nodelist : Option (List K)) (w : K → K → Option F) (m : Nat)
    (d : Vec m F) (A : Mat m m F) (key : Fin m → K) : Prop where
  sel : Sel G nodelist w m A key
  val : ∀ i, (d i).getD 0 = ∑ j, (A i j).getD 0
  none' : ∀ i, d i = none ↔ ∀ j, A i j = none

private theorem helper_ok (h : G.WF) {nodelist : Option (List K)}
    (hL : ∀ L, nodelist = some L → ∀ u ∈ L, G.Node u) (isWeighted : Bool)
    (hok : nodelist ≠ none ∨ G.directed = false ∨ G.multi = true ∨ isWeighted = true) :
    ∃ m d A key, laplacianHelper G nodelist isWeighted = .ok ⟨m, d, A⟩ ∧
      Helper G nodelist (weightsOf (G.multi || isWeighted) G.weight?) m d A key := by
  cases nodelist with
  | none =>
    by_cases hb : (G.multi || isWeighted) = true
    · refine ⟨G.n, reduceRow (· + ·) G.A, G.A, keyFn h, ?_, ?_, fun i => reduceRow_getD _ i,
        fun i => reduceRow_none _ i⟩
      · unfold laplacianHelper
        dsimp only
        rw [if_pos hb]
      · rw [hb]; exact sel_none h
    · have hd : G.directed = false := by
        simp only [Bool.or_eq_true, not_or] at hb
        rcases hok with hc | hc | hc | hc
        · exact absurd rfl hc
        · exact hc
        · exact absurd hc hb.1
        · exact absurd hc hb.2
      refine ⟨G.n, degreesF G.A, onesOf G.A, keyFn h, ?_, ?_, fun i => degreesF_getD _ i,
        fun i => degreesF_none _ i⟩
      · unfold laplacianHelper degreesProp
        dsimp only
        rw [if_neg hb, hd]; rfl
      · rw [Bool.not_eq_true] at hb
        rw [hb]; exact sel_unit (sel_none h)
  | some L =>
    obtain ⟨ids, hids, hf⟩ := Proofs.listToIds_ok h (hL L rfl)
    refine ⟨ids.length, reduceRow (· + ·) (oneUnless (G.multi || isWeighted) (extract G.A ids.get ids.get)),
      oneUnless (G.multi || isWeighted) (extract G.A ids.get ids.get), fun i => keyFn h (ids.get i), ?_,
      sel_one (sel_some h hf) _, fun i => reduceRow_getD _ i, fun i => reduceRow_none _ i⟩
    unfold laplacianHelper
    dsimp only
    rw [hids]; rfl

private theorem diagMat_getD (d : Vec n F) (i j) :
    (diagMat d i j).getD 0 = if i = j then (d i).getD 0 else 0 := by
  unfold diagMat; split <;> simp

private theorem msub_getD {m n : Nat} (A B : Mat m n F) (i j) :
    (msub A B i j).getD 0 = (A i j).getD 0 - (B i j).getD 0 := ounion_sub_getD _ _

/-- **C70.** `laplacian_matrix` is `D - A` on the chosen nodes, for every graph, weighted or not, except an
unweighted digraph without node list (next theorem). -/
theorem laplacian_matrix_correct_partial (h : G.WF) {nodelist : Option (List K)}
    (hL : ∀ L, nodelist = some L → ∀ u ∈ L, G.Node u) (isWeighted : Bool)
    (hok : nodelist ≠ none ∨ G.directed = false ∨ G.multi = true ∨ isWeighted = true) :
    ∃ M : Σ m, Mat m m F, laplacianMatrix G nodelist isWeighted = .ok M ∧
      M.1 = (chosen G nodelist).length ∧
      (∀ i j u v, RowName G nodelist i.val u → RowName G nodelist j.val v →
        (M.2 i j).getD 0 = lapEntry (chosen G nodelist) (weightsOf (G.multi || isWeighted) G.weight?)
          (decide (i = j)) u v) ∧
      ∀ i, ∑ j, (M.2 i j).getD 0 = 0 := by
  obtain ⟨m, d, A, key, e, H⟩ := helper_ok h hL isWeighted hok
  have hent : ∀ i j, (msub (diagMat d) A i j).getD 0 =
      (if i = j then ∑ j, (A i j).getD 0 else 0) - (A i j).getD 0 := by
    intro i j
    rw [msub_getD, diagMat_getD, H.val]
  refine ⟨⟨m, msub (diagMat d) A⟩, ?_, H.sel.len, ?_, ?_⟩
  · unfold laplacianMatrix
    rw [e]; rfl
  · intro i j u v hu hv
    rw [← H.sel.rows i u hu, ← H.sel.rows j v hv]
    dsimp only
    unfold lapEntry
    rw [hent, H.sel.out, ← H.sel.ent]
    by_cases hij : i = j <;> simp [hij]
  · intro i
    dsimp only at i ⊢
    simp only [hent]
    rw [Finset.sum_sub_distrib, Finset.sum_ite_eq]
    simp

private theorem weightsOf_symm (hs : G.Symm) (b : Bool) (u v : K) :
    weightsOf b G.weight? u v = weightsOf b G.weight? v u := by
  have : G.weight? u v = G.weight? v u := by
    unfold Graph.weight?
    cases hu : G.idOf u with
    | none => cases hv : G.idOf v <;> simp
    | some i =>
      cases hv : G.idOf v with
      | none => simp
      | some j => simpa using hs i j
  unfold weightsOf unitWeights
  split <;> simp [this]

/-- **C70.** the Laplacian of an undirected graph is symmetric -/
theorem laplacian_matrix_symmetric (h : G.WF) (hs : G.Symm) (hd : G.directed = false)
    {nodelist : Option (List K)} (hL : ∀ L, nodelist = some L → ∀ u ∈ L, G.Node u) (isWeighted : Bool)
    {M : Σ m, Mat m m F} (hM : laplacianMatrix G nodelist isWeighted = .ok M) (i j : Fin M.1) :
    (M.2 i j).getD 0 = (M.2 j i).getD 0 := by
  obtain ⟨m, d, A, key, e, H⟩ := helper_ok h hL isWeighted (.inr (.inl hd))
  have : M = ⟨m, msub (diagMat d) A⟩ := by
    have : laplacianMatrix G nodelist isWeighted = .ok ⟨m, msub (diagMat d) A⟩ := by
      unfold laplacianMatrix
      rw [e]; rfl
    rw [this] at hM
    cases hM; rfl
  subst this
  dsimp only at i j ⊢
  rw [msub_getD, msub_getD, diagMat_getD, diagMat_getD, H.sel.ent i j, H.sel.ent j i,
    weightsOf_symm hs]
  by_cases hij : i = j
  · subst hij; rfl
  · rw [if_neg hij, if_neg (Ne.symm hij)]

end

variable [Field F] [DecidableEq K] {G : Graph K F}

/-- **C70, finding.** `laplacian_matrix(G, weight=None)` of a digraph without node list always raises a
KeyError: the property `degrees+` does not exist for digraphs. -/
theorem laplacian_matrix_digraph_raises (G : Graph K F) (hd : G.directed = true) (hm : G.multi = false)
    (sqrt : F → F) : laplacianMatrix G none false = .error .keyError ∧
      normalizedLaplacianMatrix sqrt G none false = .error .keyError := by
  have e : laplacianHelper G none false = .error .keyError := by
    unfold laplacianHelper degreesProp
    rw [hm, hd]; rfl
  unfold laplacianMatrix normalizedLaplacianMatrix
  rw [e]
  exact ⟨rfl, rfl⟩

/-- **C70.** `normalized_laplacian_matrix` is `D^(-1/2) (D - A) D^(-1/2)` on the chosen nodes (the factor
of a node without out-edges is 0), for every graph whose other nodes have a positive total weight. -/
theorem normalized_laplacian_matrix_correct_partial [LinearOrder F] [IsStrictOrderedRing F] (h : G.WF)
    {nodelist : Option (List K)}
    (hL : ∀ L, nodelist = some L → ∀ u ∈ L, G.Node u) (isWeighted : Bool)
    (hok : nodelist ≠ none ∨ G.directed = false ∨ G.multi = true ∨ isWeighted = true)
    {sqrt : F → F} (hsqrt : ∀ x, 0 < x → sqrt x * sqrt x = x)
    (hpos : ∀ u ∈ chosen G nodelist,
      Dangling (chosen G nodelist) (weightsOf (G.multi || isWeighted) G.weight?) u ∨
      0 < outWeight (chosen G nodelist) (weightsOf (G.multi || isWeighted) G.weight?) u) :
    ∃ M : Σ m, Mat m m F, normalizedLaplacianMatrix sqrt G nodelist isWeighted = .ok M ∧
      M.1 = (chosen G nodelist).length ∧
      ∀ i j u v, RowName G nodelist i.val u → RowName G nodelist j.val v →
        (M.2 i j).getD 0 = normLapEntry sqrt (chosen G nodelist)
          (weightsOf (G.multi || isWeighted) G.weight?) (decide (i = j)) u v := by
  obtain ⟨m, d, A, key, e, H⟩ := helper_ok h hL isWeighted hok
  refine ⟨⟨m, normLap sqrt d A⟩, ?_, H.sel.len, ?_⟩
  · unfold normalizedLaplacianMatrix
    rw [e]; rfl
  · intro i j u v hu hv
    rw [← H.sel.rows i u hu, ← H.sel.rows j v hv]
    dsimp only at i j hu hv ⊢
    have hinv : ∀ k, invSqrtDeg sqrt (chosen G nodelist) (weightsOf (G.multi || isWeighted) G.weight?)
        (key k) = ((d k).map fun x => 1 / sqrt x).getD 0 := by
      intro k
      unfold invSqrtDeg
      by_cases hk : ∀ j, A k j = none
      · rw [if_pos ((H.sel.dangling k).2 hk), (H.none' k).2 hk]; rfl
      · rw [if_neg (fun hc => hk ((H.sel.dangling k).1 hc)), H.sel.out, ← H.val]
        cases hd : d k with
        | none => exact absurd ((H.none' k).1 hd) hk
        | some x => rfl
    have hd1 : ∀ k x, d k = some x → sqrt x ≠ 0 ∧ sqrt x * sqrt x = x := by
      intro k x hx
      have hp : 0 < x := by
        have := hpos _ (H.sel.mem k)
        rw [H.sel.dangling, H.sel.out, ← H.val, hx] at this
        rcases this with hc | hc
        · rw [(H.none' k).2 hc] at hx; cases hx
        · exact hc
      refine ⟨fun hc => ?_, hsqrt x hp⟩
      have := hsqrt x hp
      rw [hc] at this; simp at this; exact hp.ne this
    unfold normLapEntry lapEntry
    rw [hinv, hinv, H.sel.out, ← H.val, ← H.sel.ent]
    unfold normLap
    rw [msub_getD, diagMat_getD]
    unfold mmul massignR mS outer vapply
    cases hA : A i j with
    | none =>
      by_cases hij : i = j
      · subst hij
        cases hd : d i with
        | none => simp
        | some x =>
          obtain ⟨h0, h1⟩ := hd1 i x hd
          simp only [if_true, decide_true, Option.map_some, Option.getD_some, Option.isSome_none]
          simp only [Bool.false_eq_true, if_false, ointer, Option.getD_none, sub_zero]
          field_simp
          rw [pow_two]; exact h1
      · simp [hij, ointer]
    | some a =>
      have hdi : d i ≠ none := fun hc => by rw [(H.none' i).1 hc j] at hA; cases hA
      obtain ⟨x, hx⟩ := Option.ne_none_iff_exists'.1 hdi
      obtain ⟨h0, h1⟩ := hd1 i x hx
      by_cases hij : i = j
      · subst hij
        simp only [hx, ointer, if_true, decide_true, Option.map_some, Option.getD_some,
          Option.isSome_some]
        have h3 : x ≠ 0 := by rw [← h1]; exact mul_ne_zero h0 h0
        have h2 : 1 / sqrt x * (1 / sqrt x) = 1 / x := by rw [div_mul_div_comm, h1, one_mul]
        rw [h2, mul_right_comm, h2, mul_sub, one_div_mul_cancel h3]
      · cases hy : d j with
        | none => simp [hij, hx, ointer]
        | some y => simp [hij, hx, ointer]; ring

/-! ### C71 -/

private theorem outer_getD {m n : Nat} (u : Vec m F) (v : Vec n F) (i j) :
    (outer u v i j).getD 0 = (u i).getD 0 * (v j).getD 0 := ointer_mul_getD _ _

private theorem modBody_getD (kout kin : Vec n F) (A : Mat n n F) (i j) :
    (modBody kout kin A i j).getD 0 =
      (A i j).getD 0 - (kout i).getD 0 * (kin j).getD 0 / ∑ l, (kout l).getD 0 := by
  unfold modBody
  rw [msub_getD, ← outer_getD]
  have e : (reduce (· + ·) kout).getD 0 = ∑ l, (kout l).getD 0 := vsum_eq' kout
  rw [e]
  unfold mapply
  cases outer kout kin i j <;> simp

private theorem no_edges_getD {nodelist : Option (List K)} {w : K → K → Option F} {A : Mat m m F} {key}
    (s : Sel G nodelist w m A key)
    (hz : ∀ u ∈ chosen G nodelist, ∀ v ∈ chosen G nodelist, w u v = none) (i j) : A i j = none := by
  rw [s.ent]; exact hz _ (s.mem i) _ (s.mem j)

/-- **C71.** `modularity_matrix` of an undirected graph is `A - k kᵀ / m` on the chosen nodes, and every row
and column sums to 0.  The total weight must not be 0 unless there is no edge. -/
theorem modularity_matrix_correct (h : G.WF) (hs : G.Symm) (hd : G.directed = false) (hm : G.multi = false)
    {nodelist : Option (List K)} (hL : ∀ L, nodelist = some L → ∀ u ∈ L, G.Node u) (isWeighted : Bool)
    (ht : totalWeight (chosen G nodelist) (weightsOf isWeighted G.weight?) ≠ 0 ∨
      ∀ u ∈ chosen G nodelist, ∀ v ∈ chosen G nodelist, ¬ G.Edge u v) :
    ∃ M : Σ m, Mat m m F, modularityMatrix G nodelist isWeighted = .ok M ∧
      M.1 = (chosen G nodelist).length ∧
      (∀ i j u v, RowName G nodelist i.val u → RowName G nodelist j.val v →
        (M.2 i j).getD 0 = modEntry (chosen G nodelist) (weightsOf isWeighted G.weight?) u v) ∧
      (∀ i, ∑ j, (M.2 i j).getD 0 = 0) ∧ ∀ j, ∑ i, (M.2 i j).getD 0 = 0 := by
  obtain ⟨m, d, A, key, e, H⟩ := helper_ok h hL isWeighted (.inr (.inl hd))
  rw [hm, Bool.false_or] at H
  have hent : ∀ i j, (modBody d d A i j).getD 0 = (A i j).getD 0 -
      (∑ l, (A i l).getD 0) * (∑ l, (A j l).getD 0) / ∑ i, ∑ l, (A i l).getD 0 := by
    intro i j
    rw [modBody_getD]
    simp only [H.val]
  have hsym : ∀ i j, (A i j).getD 0 = (A j i).getD 0 := by
    intro i j
    rw [H.sel.ent i j, H.sel.ent j i, weightsOf_symm hs]
  have hrow : ∀ i, ∑ j, (modBody d d A i j).getD 0 = 0 := by
    intro i
    simp only [hent]
    rcases ht with ht | ht
    · rw [H.sel.total] at ht
      rw [Finset.sum_sub_distrib, ← Finset.sum_div, ← Finset.mul_sum, mul_div_cancel_right₀ _ ht, sub_self]
    · have hz := no_edges_getD H.sel (weightsOf_none h ht isWeighted)
      simp [hz]
  refine ⟨⟨m, modBody d d A⟩, ?_, H.sel.len, ?_, hrow, ?_⟩
  · unfold modularityMatrix
    rw [hd, hm, e]; rfl
  · intro i j u v hu hv
    rw [← H.sel.rows i u hu, ← H.sel.rows j v hv]
    unfold modEntry
    rw [H.sel.out, H.sel.out, H.sel.total, ← H.sel.ent]
    exact hent i j
  · intro j
    dsimp only at j ⊢
    refine Eq.trans ?_ (hrow j)
    refine Finset.sum_congr rfl fun i _ => ?_
    rw [hent, hent, hsym i j, mul_comm]

/-- **C71.** `directed_modularity_matrix` of a digraph is `A - kout kinᵀ / m` on the chosen nodes, and every
row and column sums to 0.  The total weight must not be 0 unless there is no edge. -/
theorem directed_modularity_matrix_correct (h : G.WF) (hd : G.directed = true) (hm : G.multi = false)
    {nodelist : Option (List K)} (hL : ∀ L, nodelist = some L → ∀ u ∈ L, G.Node u) (isWeighted : Bool)
    (ht : totalWeight (chosen G nodelist) (weightsOf isWeighted G.weight?) ≠ 0 ∨
      ∀ u ∈ chosen G nodelist, ∀ v ∈ chosen G nodelist, ¬ G.Edge u v) :
    ∃ M : Σ m, Mat m m F, directedModularityMatrix G nodelist isWeighted = .ok M ∧
      M.1 = (chosen G nodelist).length ∧
      (∀ i j u v, RowName G nodelist i.val u → RowName G nodelist j.val v →
        (M.2 i j).getD 0 = dirModEntry (chosen G nodelist) (weightsOf isWeighted G.weight?) u v) ∧
      (∀ i, ∑ j, (M.2 i j).getD 0 = 0) ∧ ∀ j, ∑ i, (M.2 i j).getD 0 = 0 := by
  obtain ⟨m, ko, ki, A, key, e, hS, hko, hki⟩ : ∃ (m : Nat) (ko ki : Vec m F) (A : Mat m m F) (key : Fin m → K),
      directedModularityMatrix G nodelist isWeighted = .ok ⟨m, modBody ko ki A⟩ ∧
      Sel G nodelist (weightsOf isWeighted G.weight?) m A key ∧
      (∀ i, (ko i).getD 0 = ∑ j, (A i j).getD 0) ∧ ∀ j, (ki j).getD 0 = ∑ i, (A i j).getD 0 := by
    unfold directedModularityMatrix
    rw [hd, hm]
    cases nodelist with
    | none =>
      cases isWeighted with
      | true =>
        exact ⟨G.n, reduceRow (· + ·) G.A, reduceCol (· + ·) G.A, G.A, keyFn h, rfl, sel_none h,
          fun i => reduceRow_getD _ i, fun j => reduceCol_getD _ j⟩
      | false =>
        exact ⟨G.n, degreesF G.A, degreesF (transpose G.A), onesOf G.A, keyFn h, rfl,
          sel_unit (sel_none h), fun i => degreesF_getD _ i, fun j => degreesF_getD (transpose G.A) j⟩
    | some L =>
      obtain ⟨ids, hids, hf⟩ := Proofs.listToIds_ok h (hL L rfl)
      have s := sel_one (sel_some h hf) isWeighted
      refine ⟨ids.length, reduceRow (· + ·) (oneUnless isWeighted (extract G.A ids.get ids.get)),
        reduceCol (· + ·) (oneUnless isWeighted (extract G.A ids.get ids.get)),
        oneUnless isWeighted (extract G.A ids.get ids.get), _, ?_, s, fun i => reduceRow_getD _ i,
        fun j => reduceCol_getD _ j⟩
      dsimp only
      rw [hids]; rfl
  have hent : ∀ i j, (modBody ko ki A i j).getD 0 = (A i j).getD 0 -
      (∑ l, (A i l).getD 0) * (∑ l, (A l j).getD 0) / ∑ i, ∑ l, (A i l).getD 0 := by
    intro i j
    rw [modBody_getD]
    simp only [hko, hki]
  refine ⟨⟨m, modBody ko ki A⟩, e, hS.len, ?_, ?_, ?_⟩
  · intro i j u v hu hv
    rw [← hS.rows i u hu, ← hS.rows j v hv]
    unfold dirModEntry
    rw [hS.out, hS.in', hS.total, ← hS.ent]
    exact hent i j
  · intro i
    dsimp only at i ⊢
    simp only [hent]
    rcases ht with ht | ht
    · rw [hS.total] at ht
      rw [Finset.sum_sub_distrib, ← Finset.sum_div, ← Finset.mul_sum,
        Finset.sum_comm (f := fun j l => (A l j).getD 0), mul_div_cancel_right₀ _ ht, sub_self]
    · have hz := no_edges_getD hS (weightsOf_none h ht isWeighted)
      simp [hz]
  · intro j
    dsimp only at j ⊢
    simp only [hent]
    rcases ht with ht | ht
    · rw [hS.total] at ht
      rw [Finset.sum_sub_distrib, ← Finset.sum_div, ← Finset.sum_mul, mul_div_cancel_left₀ _ ht, sub_self]
    · have hz := no_edges_getD hS (weightsOf_none h ht isWeighted)
      simp [hz]

omit [DecidableEq K] in
/-- **C71.** the wrong kind of graph is refused -/
theorem modularity_matrix_kinds [DecidableEq K] (G : Graph K F) (nodelist : Option (List K))
    (isWeighted : Bool) :
    ((G.directed = true ∨ G.multi = true) → modularityMatrix G nodelist isWeighted = .error .notImplemented) ∧
    ((G.directed = false ∨ G.multi = true) →
      directedModularityMatrix G nodelist isWeighted = .error .notImplemented) := by
  unfold modularityMatrix directedModularityMatrix
  constructor <;> rintro (h | h) <;> simp [h]

/-! ### C72 -/

/-- number of edges at `u`, a self-loop counted once -/
private theorem degSum_eq (h : G.WF) (f : F → F) (hf : f 0 = 0) :
    ∑ i, f ((degreesF G.A i).getD 0) =
      sumOver G.nodes fun u => f (outWeight G.nodes (unitWeights G.weight?) u) := by
  rw [sumOver_nodes h]
  refine Finset.sum_congr rfl fun i _ => ?_
  have := (sel_unit (sel_none h)).out i
  unfold chosen at this
  rw [degreesF_getD]
  exact congrArg f this.symm

/-- the default regulariser: `(Σ d²) / (Σ d) - 1` over all nodes of the graph, `d` the number of neighbours
(a node with a self-loop is its own neighbour) -/
def defaultR (G : Graph K F) : F :=
  sumOver G.nodes (fun u => outWeight G.nodes (unitWeights G.weight?) u ^ 2) /
    sumOver G.nodes (fun u => outWeight G.nodes (unitWeights G.weight?) u) - 1

private theorem betheR_ok [DecidableEq F] (h : G.WF) (hd : G.directed = false) (r : Option F)
    (hr : r = none → sumOver G.nodes (fun u => outWeight G.nodes (unitWeights G.weight?) u) ≠ 0) :
    betheR G r = .ok (r.getD (defaultR G)) := by
  cases r with
  | some r => rfl
  | none =>
    have e1 : (reduce (· + ·) (degreesF G.A)).getD 0 =
        sumOver G.nodes (fun u => outWeight G.nodes (unitWeights G.weight?) u) := by
      rw [vsum_eq']; exact degSum_eq h (fun x => x) rfl
    have e2 : (dot (· + ·) (· * ·) (degreesF G.A) (degreesF G.A)).getD 0 =
        sumOver G.nodes (fun u => outWeight G.nodes (unitWeights G.weight?) u ^ 2) := by
      unfold dot
      rw [vsum_eq', ← degSum_eq h (fun x => x ^ 2) (by simp)]
      exact Finset.sum_congr rfl fun i _ => by rw [ointer_mul_getD, pow_two]
    unfold betheR degreesProp defaultR
    rw [hd]
    show (if _ = _ then _ else _) = _
    rw [e1, e2, if_neg (hr rfl)]
    rfl

/-- **C72.** `bethe_hessian_matrix` of an undirected graph is `(r² - 1) I - r A + D` on the chosen nodes;
without `r`, `r` is `(Σ d²) / (Σ d) - 1` over the whole graph. -/
theorem bethe_hessian_matrix_correct [DecidableEq F] (h : G.WF) (hd : G.directed = false)
    (hm : G.multi = false) {nodelist : Option (List K)}
    (hL : ∀ L, nodelist = some L → ∀ u ∈ L, G.Node u) (r : Option F)
    (hr : r = none → sumOver G.nodes (fun u => outWeight G.nodes (unitWeights G.weight?) u) ≠ 0) :
    ∃ M : Σ m, Mat m m F, betheHessianMatrix G r nodelist = .ok M ∧
      M.1 = (chosen G nodelist).length ∧
      (∀ i j u v, RowName G nodelist i.val u → RowName G nodelist j.val v →
        (M.2 i j).getD 0 = betheEntry (chosen G nodelist) G.weight? (r.getD (defaultR G))
          (decide (i = j)) u v) ∧
      (G.Symm → ∀ i j, (M.2 i j).getD 0 = (M.2 j i).getD 0) := by
  have hR := betheR_ok h hd r hr
  generalize r.getD (defaultR G) = q at hR ⊢
  obtain ⟨m, A, key, e, hS⟩ : ∃ (m : Nat) (A : Mat m m F) (key : Fin m → K),
      betheHessianMatrix G r nodelist = .ok ⟨m, betheBody q (reduceRow (· + ·) A) A⟩ ∧
      Sel G nodelist G.weight? m A key := by
    unfold betheHessianMatrix
    rw [hd, hm]
    cases nodelist with
    | none =>
      refine ⟨G.n, G.A, keyFn h, ?_, sel_none h⟩
      dsimp only
      rw [hR]; rfl
    | some L =>
      obtain ⟨ids, hids, hf⟩ := Proofs.listToIds_ok h (hL L rfl)
      refine ⟨ids.length, extract G.A ids.get ids.get, _, ?_, sel_some h hf⟩
      dsimp only
      rw [hids]
      show (betheR G r >>= fun o => _) = _
      rw [hR]; rfl
  have hent : ∀ i j, (betheBody q (reduceRow (· + ·) A) A i j).getD 0 =
      (if i = j then q ^ 2 - 1 + ∑ l, (A i l).getD 0 else 0) - q * (A i j).getD 0 := by
    intro i j
    unfold betheBody madd
    rw [omerge_getD, diagMat_getD]
    unfold vadd
    rw [omerge_getD, reduceRow_getD]
    unfold mapply
    cases A i j <;> simp [sub_eq_add_neg]
  refine ⟨⟨m, betheBody q (reduceRow (· + ·) A) A⟩, e, hS.len, ?_, ?_⟩
  · intro i j u v hu hv
    rw [← hS.rows i u hu, ← hS.rows j v hv]
    unfold betheEntry
    rw [hS.out, ← hS.ent, hent]
    by_cases hij : i = j <;> simp [hij]
  · intro hs i j
    dsimp only at i j ⊢
    rw [hent, hent]
    have hsym : (A i j).getD 0 = (A j i).getD 0 := by
      have := weightsOf_symm hs true (key i) (key j)
      rw [hS.ent i j, hS.ent j i]
      exact congrArg (fun o => Option.getD o 0) this
    by_cases hij : i = j
    · subst hij; rfl
    · rw [if_neg hij, if_neg (Ne.symm hij), hsym]

/-- **C72.** without `r` a graph without edges raises a ZeroDivisionError -/
theorem bethe_hessian_matrix_no_edges [DecidableEq F] (h : G.WF) (hd : G.directed = false)
    (hm : G.multi = false) (hz : ∀ u v, ¬ G.Edge u v) :
    betheHessianMatrix G none none = .error .zeroDivision := by
  have hA : ∀ i j, G.A i j = none := by
    intro i j
    cases hc : G.A i j with
    | none => rfl
    | some a => exact absurd ⟨i, j, keyFn_at h i, keyFn_at h j, by rw [hc]; rfl⟩ (hz (keyFn h i) (keyFn h j))
  have e1 : (reduce (· + ·) (degreesF G.A)).getD 0 = 0 := by
    rw [vsum_eq']
    refine Finset.sum_eq_zero fun i _ => ?_
    rw [degreesF_getD]
    refine Finset.sum_eq_zero fun j _ => ?_
    unfold onesOf mapply
    rw [hA]; rfl
  unfold betheHessianMatrix betheR degreesProp
  rw [hd, hm]
  show ((if _ = _ then _ else _) >>= fun o => _) = _
  rw [if_pos e1]; rfl

/-! ### the hypotheses are met -/

/-- an undirected weighted graph with a self-loop at node 5, an isolated node 6 and rows not in node order -/
def laG : Graph Nat ℚ where
  n := 4
  A := Ex.ofTriples 4 [(0,1,2), (1,0,2), (1,2,3), (2,1,3), (2,2,1)]
  keyToId := [(7,1), (4,0), (5,2), (6,3)]

theorem laG_wf : laG.WF := ⟨by decide, by decide⟩

example : laG.WF ∧ laG.Symm ∧ (∀ u ∈ [5, 7, 6], laG.Node u) ∧
    totalWeight (chosen laG (some [5, 7, 6])) (weightsOf true laG.weight?) ≠ 0 ∧
    totalWeight (chosen laG none) (weightsOf false laG.weight?) ≠ 0 ∧
    RowName laG (some [5, 7, 6]) 1 7 ∧ RowName laG none 1 7 ∧
    lapEntry [5, 7, 6] laG.weight? false 5 7 = -3 ∧
    sumOver laG.nodes (fun u => outWeight laG.nodes (unitWeights laG.weight?) u) ≠ 0 ∧
    defaultR laG = 9/5 - 1 :=
  ⟨laG_wf, fun i j => by revert i j; decide +kernel, by decide, by decide +kernel, by decide +kernel, rfl, by unfold RowName; decide,
    by decide +kernel, by decide +kernel, by decide +kernel⟩

/-- every listed node without a positive total is isolated -/
example : ∀ u ∈ chosen laG none, Dangling (chosen laG none) (weightsOf (laG.multi || true) laG.weight?) u ∨
    0 < outWeight (chosen laG none) (weightsOf (laG.multi || true) laG.weight?) u := by
  decide +kernel

end Props
