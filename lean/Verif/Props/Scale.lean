import Verif.Proofs.Scale
import Verif.Model.Cuts
import Verif.Proofs.Except
import Verif.Proofs.SubGraph
import Verif.Props.Examples
import Mathlib.Algebra.Order.Ring.Rat
import Mathlib.Data.Rat.Cast.Order

/-!
# C117: multiplying every weight by the same constant

`Spec.mapWeights (fun x => c * x) G` is `G` with every weight multiplied by `c`; an iso value reported for the
matrix is multiplied too.
-/

open GB Model Spec Proofs.Un Proofs.Sc

namespace Props

variable {K F : Type} [DecidableEq K] [Field F]

/-- `G` with every weight multiplied by `c` -/
abbrev scaled (c : F) (G : Graph K F) : Graph K F := mapWeights (fun x => c * x) G

theorem mapM_ok_length {ι γ : Type} {f : ι → Except Err γ} {l : List ι} {r : List γ} (h : l.mapM f = .ok r) :
    r.length = l.length := by
  induction l generalizing r with
  | nil => simp only [List.mapM_nil, pure, Except.pure] at h; cases h; rfl
  | cons a l ih =>
    simp only [List.mapM_cons] at h
    cases ha : f a with
    | error _ => rw [ha] at h; cases h
    | ok x =>
      rw [ha] at h
      cases hl : l.mapM f with
      | error _ => rw [hl] at h; cases h
      | ok y => rw [hl] at h; cases h; simp [ih hl]

/-! ## PageRank, Google matrix, Katz, HITS -/

section
variable [LinearOrder F] {c : F} (hc : c ≠ 0) (G : Graph K F)
include hc

/-- **C117** -/
theorem pagerank_scale (iso : Option F) (alpha : F) (pers : Option (List (K × F))) (maxIter : Int) (tol : F)
    (nstart dangling : Option (List (K × F))) :
    pagerank (scaled c G) (iso.map (fun x => c * x)) alpha pers maxIter tol nstart dangling =
      pagerank G iso alpha pers maxIter tol nstart dangling := by
  obtain ⟨n, A, k2i, d, m⟩ := G
  simp only [scaled, mapW_mk]
  have hn : nvals (reduceRow (· + ·) (sm c A)) = nvals (reduceRow (· + ·) A) := by
    rw [reduceRow_sm, nvals_vapply]
  have hd : ∀ l : Option (List (K × F)), dictToVector? (⟨n, sm c A, k2i, d, m⟩ : Graph K F) l =
    dictToVector? (⟨n, A, k2i, d, m⟩ : Graph K F) l := fun _ => rfl
  simp only [pagerank]
  split
  · rfl
  · simp only [hn, hd, pagerankV_scale hc]

/-- **C117** -/
theorem google_matrix_scale (alpha : F) (pers dangling : Option (List (K × F))) :
    googleMatrix (scaled c G) alpha pers dangling = googleMatrix G alpha pers dangling := by
  obtain ⟨n, A, k2i, d, m⟩ := G
  simp only [scaled, mapW_mk]
  have hd : ∀ l : Option (List (K × F)), dictToVector? (⟨n, sm c A, k2i, d, m⟩ : Graph K F) l =
    dictToVector? (⟨n, A, k2i, d, m⟩ : Graph K F) l := fun _ => rfl
  simp only [googleMatrix, countRow_sm, hd]
  by_cases h0 : n = 0
  · subst h0
    have : sm c A = A := by funext i; exact i.elim0
    simp only [this]
  · simp only [h0, if_false, gmBody_scale hc alpha A _ _ _ (fun i hi j => countRow_none A i hi j)]

/-- **C117** for a node list.  (When the list is as long as the graph the empty rows are looked up in the order of
the graph instead of the list, see C67, and the result may depend on the unit.) -/
theorem google_matrix_nodelist_scale_partial (alpha : F) (pers : Option (List (K × F))) (nodelist : List K)
    (hl : nodelist.length ≠ G.n) (dangling : Option (List (K × F))) :
    googleMatrixList (scaled c G) alpha pers nodelist dangling =
      googleMatrixList G alpha pers nodelist dangling := by
  obtain ⟨n, A, k2i, d, m⟩ := G
  simp only [scaled, mapW_mk]
  have hd : ∀ l : Option (List (K × F)), dictToVector? (⟨n, sm c A, k2i, d, m⟩ : Graph K F) l =
    dictToVector? (⟨n, A, k2i, d, m⟩ : Graph K F) l := fun _ => rfl
  have hi : listToIds (⟨n, sm c A, k2i, d, m⟩ : Graph K F) nodelist =
    listToIds (⟨n, A, k2i, d, m⟩ : Graph K F) nodelist := rfl
  simp only [googleMatrixList, countRow_sm, hd, hi]
  cases dictToVector? (⟨n, A, k2i, d, m⟩ : Graph K F) pers with
  | error _ => rfl
  | ok p =>
    cases dictToVector? (⟨n, A, k2i, d, m⟩ : Graph K F) (if nvals (countRow A) < n then dangling else none) with
    | error _ => rfl
    | ok dd =>
      cases hids : listToIds (⟨n, A, k2i, d, m⟩ : Graph K F) nodelist with
      | error _ => rfl
      | ok ids =>
        have hlen : ids.length ≠ n := by
          have := mapM_ok_length hids
          rw [this]; exact hl
        simp only [bind, Except.bind]
        by_cases h0 : ids.length = 0
        · have : extract (sm c A) ids.get ids.get = extract A ids.get ids.get := by
            funext i; exact absurd i.isLt (by omega)
          simp only [h0, if_true]
          exact congrArg (fun M => Except.ok (⟨ids.length, M⟩ : Σ m, Mat m m F)) this
        · simp only [h0, if_false]
          have he : gmEmptyRows (sm c A) ids = gmEmptyRows A ids := by
            funext i
            simp only [gmEmptyRows, dif_neg hlen]
            rw [show extract (sm c A) ids.get ids.get = sm c (extract A ids.get ids.get) from rfl, countRow_sm]
          rw [he]
          rw [show extract (sm c A) ids.get ids.get = sm c (extract A ids.get ids.get) from rfl]
          rw [gmBody_scale hc]
          intro i hi j
          simp only [gmEmptyRows, dif_neg hlen] at hi
          exact countRow_none _ i hi j

/-- **C117** -/
theorem katz_centrality_scale (fill : Bool) (sqrt : F → F) (iso : Option F) (alpha : F) (beta : F ⊕ List (K × F))
    (maxIter : Int) (tol : F) (nstart : Option (List (K × F))) (normalized : Bool) :
    katzCentrality fill sqrt (scaled c G) (iso.map (fun x => c * x)) (alpha / c) beta maxIter tol nstart normalized =
      katzCentrality fill sqrt G iso alpha beta maxIter tol nstart normalized := by
  obtain ⟨n, A, k2i, d, m⟩ := G
  simp only [scaled, mapW_mk]
  have hd : ∀ l : Option (List (K × F)), dictToVector? (⟨n, sm c A, k2i, d, m⟩ : Graph K F) l =
    dictToVector? (⟨n, A, k2i, d, m⟩ : Graph K F) l := fun _ => rfl
  have hb : katzBeta (⟨n, sm c A, k2i, d, m⟩ : Graph K F) beta = katzBeta (⟨n, A, k2i, d, m⟩ : Graph K F) beta := by
    cases beta with
    | inl _ => rfl
    | inr l =>
      have : dictToVector (⟨n, sm c A, k2i, d, m⟩ : Graph K F) l = dictToVector (⟨n, A, k2i, d, m⟩ : Graph K F) l := rfl
      simp only [katzBeta, this]
      cases dictToVector (⟨n, A, k2i, d, m⟩ : Graph K F) l <;> rfl
  simp only [katzCentrality, hd, hb, katzV_scale hc]

end

theorem dictToVector_values {G : Graph K F} {l : List (K × F)} {v : Vec G.n F} (h : dictToVector G l = .ok v)
    {i : Fin G.n} {a : F} (hi : v i = some a) : ∃ k, (k, a) ∈ l := by
  simp only [dictToVector, bind, Except.bind] at h
  cases hp : l.mapM (fun p => (do let i ← G.getId p.1; .ok (i, p.2) : Except Err (Fin G.n × F))) with
  | error _ =>
    simp only [bind, Except.bind] at hp
    rw [hp] at h; cases h
  | ok ps =>
    have hf := Proofs.mapM_forall₂ hp
    simp only [bind, Except.bind] at hp
    rw [hp] at h
    dsimp only at h
    split at h
    · cases h
    · unfold fromCoo at h
      split at h
      · cases h
        have hm := List.lookup_eq_some_iff.1 hi
        obtain ⟨l1, l2, he, -⟩ := hm
        have hmem : (i, a) ∈ ps := by rw [he]; simp
        clear hp hi he
        rename_i hne hnd
        clear hne hnd
        induction hf with
        | nil => cases hmem
        | @cons x y xs ys hxy _ ih =>
          rcases List.mem_cons.1 hmem with h' | h'
          · cases hx : G.getId x.1 with
            | error _ => rw [hx] at hxy; cases hxy
            | ok j =>
              rw [hx] at hxy
              cases hxy
              cases h'
              exact ⟨x.1, by simp⟩
          · obtain ⟨k, hk⟩ := ih h'
            exact ⟨k, by simp [hk]⟩
      · cases h

section
variable [LinearOrder F] [IsStrictOrderedRing F] {c : F} (hc : 0 < c) (G : Graph K F)
include hc

omit hc in
theorem nonneg_rows {G : Graph K F} (h : G.WF) (hw : ∀ u v a, G.WEdge u v a → 0 ≤ a) (i) : NonNeg (G.A i) :=
  fun j a hA => hw (Proofs.keyFn h i) (Proofs.keyFn h j) a ⟨i, j, Proofs.keyFn_at h i, Proofs.keyFn_at h j, hA⟩

/-- the last step of `hits` -/
def hitsFin {n : Nat} (maxIter : Int) (r : Except Err (Vec n F × Vec n F)) :
    Except Err (Option (Vec n F × Vec n F)) :=
  match r with
  | .ok s => .ok (some (nodemapFill none s.1 0, nodemapFill none s.2 0))
  | .error e => .error (if e = .convergence ∧ maxIter < 1 then .valueError else e)

omit [IsStrictOrderedRing F] hc in
theorem hits_ok {G : Graph K F} (h0 : G.n ≠ 0) {maxIter : Int} {tol : F} {nstart : Option (List (K × F))}
    {normalized : Bool} {x} (hx : dictToVector? G nstart = .ok x) :
    hits G maxIter tol nstart normalized = hitsFin maxIter (hitsV G.A maxIter tol x normalized) := by
  unfold hits hitsFin
  rw [if_neg h0, hx]
  simp only [bind, Except.bind]
  cases hitsV G.A maxIter tol x normalized <;> rfl

omit [IsStrictOrderedRing F] hc in
theorem hits_error {G : Graph K F} (h0 : G.n ≠ 0) {maxIter : Int} {tol : F} {nstart : Option (List (K × F))}
    {normalized : Bool} {e} (hx : dictToVector? G nstart = .error e) :
    hits G maxIter tol nstart normalized = .error e := by
  unfold hits
  rw [if_neg h0, hx]; rfl

/-- **C117** non-negative weights and start values -/
theorem hits_scale (h : G.WF) (hw : ∀ u v a, G.WEdge u v a → 0 ≤ a) (maxIter : Int) (tol : F)
    {nstart : Option (List (K × F))} (hs : ∀ l, nstart = some l → ∀ k b, (k, b) ∈ l → 0 ≤ b) (normalized : Bool) :
    hits (scaled c G) maxIter tol nstart normalized = hits G maxIter tol nstart normalized := by
  have hA := nonneg_rows h hw
  obtain ⟨n, A, k2i, d, m⟩ := G
  have key : ∀ x, dictToVector? (⟨n, A, k2i, d, m⟩ : Graph K F) nstart = .ok x →
      hitsV (sm c A) maxIter tol x normalized = hitsV A maxIter tol x normalized := by
    intro x hx
    refine hitsV_scale hc hA maxIter tol ?_ normalized
    intro v hv i a hi
    subst hv
    cases hn : nstart with
    | none => rw [hn] at hx; cases hx
    | some l =>
      rw [hn] at hx
      simp only [dictToVector?] at hx
      cases hl : dictToVector (⟨n, A, k2i, d, m⟩ : Graph K F) l with
      | error _ => rw [hl] at hx; cases hx
      | ok w =>
        rw [hl] at hx
        cases hx
        obtain ⟨k, hk⟩ := dictToVector_values hl hi
        exact hs l hn k a hk
  by_cases h0 : n = 0
  · show hits (⟨n, sm c A, k2i, d, m⟩ : Graph K F) maxIter tol nstart normalized = _
    unfold hits
    rw [if_pos h0, if_pos h0]
  cases hx : dictToVector? (⟨n, A, k2i, d, m⟩ : Graph K F) nstart with
  | error e =>
    exact (hits_error (G := (⟨n, sm c A, k2i, d, m⟩ : Graph K F)) h0 hx).trans
      (hits_error (G := (⟨n, A, k2i, d, m⟩ : Graph K F)) h0 hx).symm
  | ok x =>
    refine (hits_ok (G := (⟨n, sm c A, k2i, d, m⟩ : Graph K F)) h0 hx).trans
      (Eq.trans ?_ (hits_ok (G := (⟨n, A, k2i, d, m⟩ : Graph K F)) h0 hx).symm)
    exact congrArg (hitsFin maxIter) (key x hx)

/-- **C117** -/
theorem hits_authority_scale (h : G.WF) (hw : ∀ u v a, G.WEdge u v a → 0 ≤ a) (maxIter : Int) (tol : F)
    {nstart : Option (List (K × F))} (hs : ∀ l, nstart = some l → ∀ k b, (k, b) ∈ l → 0 ≤ b) (normalized : Bool) :
    hitsAuthority (scaled c G) maxIter tol nstart normalized = hitsAuthority G maxIter tol nstart normalized := by
  have hA := nonneg_rows h hw
  obtain ⟨n, A, k2i, d, m⟩ := G
  simp only [mapW_mk]
  have hd : ∀ l : Option (List (K × F)), dictToVector? (⟨n, sm c A, k2i, d, m⟩ : Graph K F) l =
    dictToVector? (⟨n, A, k2i, d, m⟩ : Graph K F) l := fun _ => rfl
  simp only [hitsAuthority, hd]
  cases hx : dictToVector? (⟨n, A, k2i, d, m⟩ : Graph K F) nstart with
  | error _ => rfl
  | ok x =>
    have hv : ∀ v, x = some v → NonNeg v := by
      intro v hv i a hi
      subst hv
      cases hn : nstart with
      | none => rw [hn] at hx; cases hx
      | some l =>
        rw [hn] at hx
        simp only [dictToVector?] at hx
        cases hl : dictToVector (⟨n, A, k2i, d, m⟩ : Graph K F) l with
        | error _ => rw [hl] at hx; cases hx
        | ok w =>
          rw [hl] at hx
          cases hx
          obtain ⟨k, hk⟩ := dictToVector_values hl hi
          exact hs l hn k a hk
    simp only [bind, Except.bind, hitsAuthV_scale hc hA maxIter tol hv normalized]

/-! ## weighted clustering -/

theorem maxElem_scale {n : Nat} (A : Mat n n F) : maxElem (sm c A) = (maxElem A).map (fun x => c * x) := by
  have hr : reduceScalar max (offdiag (sm c A)) = (reduceScalar max (offdiag A)).map (fun x => c * x) := by
    rw [offdiag_mapply]
    have h : reduceRow max (sm c (offdiag A)) = sv c (reduceRow max (offdiag A)) := by
      funext i; exact Proofs.Sc.reduce_max hc _
    simp only [reduceScalar]
    rw [h, Proofs.Sc.reduce_max hc]
  unfold maxElem
  rw [hr]
  cases reduceScalar max (offdiag A) <;> rfl

theorem maxElemBranch_scale : maxElemBranch (scaled c G) = (maxElemBranch G).map (fun x => c * x) := by
  obtain ⟨n, A, k2i, d, m⟩ := G
  simp only [mapW_mk, maxElemBranch, maxElemLU, diagVec_mapply, nvals_vapply]
  rw [maxElem_scale hc]
  cases d with
  | true => rfl
  | false => simp only [Bool.false_eq_true, if_false]; split <;> rfl

omit hc in
theorem mapply_comp {α β γ : Type} {m n : Nat} {f : α → β} {g : β → γ} (A : Mat m n α) :
    mapply g (mapply f A) = mapply (fun x => g (f x)) A := by
  funext i j; simp [mapply]; rfl

omit hc [LinearOrder F] [IsStrictOrderedRing F] in
theorem clusteringBranchW_scale {f f' : F → F} (hf : ∀ x, f' (c * x) = f x) (mask : NodeMask G.n) :
    clusteringBranchW f' (scaled c G) mask = clusteringBranchW f G mask := by
  obtain ⟨n, A, k2i, d, m⟩ := G
  have e := sm_eq_mre (fun x => c * x) 0 A
  have ht : totalDegreesM (sm c A) = totalDegreesM A := by
    show totalDegreesM (mapply _ A) = _; rw [e, Proofs.Wt.totalDegreesM_mre]
  have hr : recipDegreesM (sm c A) = recipDegreesM A := by
    show recipDegreesM (mapply _ A) = _; rw [e, Proofs.Wt.recipDegreesM_mre]
  have tl : tril1 (sm c A) = sm c (tril1 A) := by funext i j; simp only [tril1, mapply]; split <;> rfl
  have hf' : (fun x => f' (c * x)) = f := funext hf
  have hO : mapply f' (offdiag (sm c A)) = mapply f (offdiag A) := by rw [offdiag_mapply, mapply_comp, hf']
  have hT : mapply f' (transpose (sm c A)) = mapply f (transpose A) := by rw [transpose_mapply, mapply_comp, hf']
  have hL : mapply f' (tril1 (sm c A)) = mapply f (tril1 A) := by rw [tl, mapply_comp, hf']
  have hU : mapply f' (triu1 (sm c A)) = mapply f (triu1 A) := by rw [triu1_mapply, mapply_comp, hf']
  have hD : dirTriVecW f' (sm c A) mask = dirTriVecW f A mask := by simp only [dirTriVecW, hO, hT]
  have hV : trianglesVecW f' (sm c A) mask = trianglesVecW f A mask := by simp only [trianglesVecW, hL, hU]
  have hn : countRow (offdiag (sm c A)) = countRow (offdiag A) := by rw [offdiag_mapply, countRow_sm]
  simp only [mapW_mk, clusteringBranchW, clusteringDirVecW, clusteringVecW, hD, hV, ht, hr, hn]

omit hc in
theorem div_scale (hc : 0 < c) (cbrt : F → F) (m x : F) : cbrt (c * x / (c * m)) = cbrt (x / m) := by
  rw [mul_div_mul_left _ _ hc.ne']

/-- **C117** -/
theorem clustering_weighted_scale (cbrt : F → F) (nodes : Option (List K)) :
    clusteringWeighted cbrt (scaled c G) nodes = clusteringWeighted cbrt G nodes := by
  have hm : listToMask (scaled c G) nodes = listToMask G nodes := by cases nodes <;> rfl
  simp only [clusteringWeighted]
  rw [maxElemBranch_scale hc]
  refine (congrArg (fun x => x >>= _) hm).trans ?_
  cases listToMask G nodes with
  | error _ => rfl
  | ok mask =>
    cases maxElemBranch G with
    | error _ => rfl
    | ok m =>
      exact congrArg (fun v => Except.ok (nodemapFill mask v 0))
        (clusteringBranchW_scale G (fun x => div_scale hc cbrt m x) mask)

/-- **C117** -/
theorem average_clustering_weighted_scale (cbrt : F → F) (nodes : Option (List K)) (countZeros : Bool) :
    averageClusteringWeighted cbrt (scaled c G) nodes countZeros =
      averageClusteringWeighted cbrt G nodes countZeros := by
  have hm : listToMask (scaled c G) nodes = listToMask G nodes := by cases nodes <;> rfl
  have hn : (scaled c G).n = G.n := rfl
  simp only [averageClusteringWeighted, hn]
  rw [maxElemBranch_scale hc]
  split
  · rfl
  · refine (congrArg (fun x => x >>= _) hm).trans ?_
    cases listToMask G nodes with
    | error _ => rfl
    | ok mask =>
      cases maxElemBranch G with
      | error _ => rfl
      | ok m =>
        exact congrArg (fun v => averageOf v countZeros mask)
          (clusteringBranchW_scale G (fun x => div_scale hc cbrt m x) mask)

/-- **C117** one node -/
theorem single_clustering_weighted_scale (cbrt : F → F) (node : K) :
    singleClusteringWeighted cbrt (scaled c G) node = singleClusteringWeighted cbrt G node := by
  obtain ⟨n, A, k2i, d, m⟩ := G
  simp only [mapW_mk, singleClusteringWeighted, getId_map]
  rw [maxElem_scale hc]
  cases Graph.getId ⟨n, A, k2i, d, m⟩ node with
  | error _ => rfl
  | ok i =>
    cases maxElem A with
    | error _ => rfl
    | ok mx =>
      have tl : tril1 (sm c A) = sm c (tril1 A) := by funext i j; simp only [tril1, mapply]; split <;> rfl
      have hro : rowOff (sm c A) i = sv c (rowOff A i) := by
        funext j; simp only [rowOff, vdel, mapply, vapply]; split <;> rfl
      have hsd : singleDegree (sm c A) i = singleDegree A i := by
        simp only [singleDegree, mapply_row, nvals_vapply, isSome_vapply]
      have hv : ∀ {p : Nat} (f : F → F) (v : Vec p F), vapply f (sv c v) = vapply (fun x => f (c * x)) v := by
        intro p f v; funext i; simp [vapply]; rfl
      have hf' : (fun x => cbrt (c * x / (c * mx))) = fun x => cbrt (x / mx) := funext fun x => div_scale hc cbrt mx x
      have hO : mapply (fun w => cbrt (w / (c * mx))) (offdiag (sm c A)) = mapply (fun w => cbrt (w / mx)) (offdiag A) := by
        rw [offdiag_mapply, mapply_comp, hf']
      have hL : mapply (fun w => cbrt (w / (c * mx))) (tril1 (sm c A)) = mapply (fun w => cbrt (w / mx)) (tril1 A) := by
        rw [tl, mapply_comp, hf']
      have hR : vapply (fun w => cbrt (w / (c * mx))) (rowOff (sm c A) i) = vapply (fun w => cbrt (w / mx)) (rowOff A i) := by
        rw [hro, hv, hf']
      have h1 : singleClusteringDirAtW (fun w => cbrt (w / (c * mx))) (sm c A) i =
          singleClusteringDirAtW (fun w => cbrt (w / mx)) A i := by
        simp only [singleClusteringDirAtW, hO]
      have h2 : singleClusteringAtW (fun w => cbrt (w / (c * mx))) (sm c A) i =
          singleClusteringAtW (fun w => cbrt (w / mx)) A i := by
        have h3 : singleTriangleAtW (fun w => cbrt (w / (c * mx))) (sm c A) i =
            singleTriangleAtW (fun w => cbrt (w / mx)) A i := by
          simp only [singleTriangleAtW, hL, hR]
        simp only [singleClusteringAtW, h3, hsd]
      simp only [bind, Except.bind, Except.map, pure, Except.pure, h1, h2]

end

/-! ## sums of weights: cuts and matrices -/

section
variable (c : F) (G : Graph K F)

theorem edgeBoundaryW_sm {n : Nat} (A : Mat n n F) (S : Vec n Bool) (T : Option (Vec n Bool)) :
    edgeBoundaryW (sm c A) S T = sm c (edgeBoundaryW A S T) := by
  have hb : boundaryCols (sm c A) S T = boundaryCols A S T := by
    show boundaryCols (mapply _ A) S T = _
    rw [sm_eq_mre (fun x => c * x) 0 A, Proofs.Wt.boundaryCols_mre]
  funext i j
  simp only [edgeBoundaryW, hb, mapply]
  cases S i <;> cases A i j <;> cases boundaryCols A S T j <;> rfl

/-- **C117** -/
theorem cut_size_weighted_scale (S : List K) (T : Option (List K)) :
    cutSizeWeighted (scaled c G) S T = (cutSizeWeighted G S T).map (fun x => c * x) := by
  obtain ⟨n, A, k2i, d, m⟩ := G
  simp only [mapW_mk]
  have hs : setToVector (⟨n, sm c A, k2i, d, m⟩ : Graph K F) S true =
    setToVector (⟨n, A, k2i, d, m⟩ : Graph K F) S true := rfl
  have ht : setToVector? (⟨n, sm c A, k2i, d, m⟩ : Graph K F) T =
    setToVector? (⟨n, A, k2i, d, m⟩ : Graph K F) T := rfl
  simp only [cutSizeWeighted, hs, ht]
  cases setToVector (⟨n, A, k2i, d, m⟩ : Graph K F) S true with
  | error _ => rfl
  | ok s =>
    cases setToVector? (⟨n, A, k2i, d, m⟩ : Graph K F) T with
    | error _ => rfl
    | ok t =>
      simp only [bind, Except.bind, cutSizeW, edgeBoundaryW_sm, reduceScalar_sm, Proofs.Sc.getD_map]
      cases d with
      | false => rfl
      | true =>
        cases t with
        | none => rfl
        | some t => simp only [if_true, Except.map, mul_add]

/-- **C117** -/
theorem volume_weighted_scale (S : List K) :
    volumeWeighted (scaled c G) S = (volumeWeighted G S).map (fun x => c * x) := by
  obtain ⟨n, A, k2i, d, m⟩ := G
  simp only [mapW_mk]
  have hs : listToVector (⟨n, sm c A, k2i, d, m⟩ : Graph K F) S =
    listToVector (⟨n, A, k2i, d, m⟩ : Graph K F) S := rfl
  simp only [volumeWeighted, hs]
  cases listToVector (⟨n, A, k2i, d, m⟩ : Graph K F) S with
  | error _ => rfl
  | ok s =>
    have h1 : mxv (· + ·) first (sm c A) s = sv c (mxv (· + ·) first A s) := by
      funext i
      simp only [mxv]
      rw [show (fun j => ointer first (sm c A i j) (s j)) = sv c (fun j => ointer first (A i j) (s j)) from
        funext fun j => by simp only [mapply, vapply]; cases A i j <;> cases s j <;> rfl]
      exact Proofs.Sc.reduce_add c _
    simp only [bind, Except.bind, pure, Except.pure, volumeW, h1, Proofs.Sc.reduce_add, Proofs.Sc.getD_map]
    rfl

/-- the matrix with every entry multiplied -/
def scaledMatrix (c : F) (M : Σ m, Mat m m F) : Σ m, Mat m m F := ⟨M.1, sm c M.2⟩

/-- **C117** -/
theorem adjacency_matrix_scale (nodelist : Option (List K)) :
    adjacencyMatrix (scaled c G) nodelist true = (adjacencyMatrix G nodelist true).map (scaledMatrix c) := by
  obtain ⟨n, A, k2i, d, m⟩ := G
  cases nodelist with
  | none => simp only [adjacencyMatrix, oneUnless, Bool.or_true, if_true]; rfl
  | some L =>
    have hs : listToIds (⟨n, sm c A, k2i, d, m⟩ : Graph K F) L = listToIds (⟨n, A, k2i, d, m⟩ : Graph K F) L := rfl
    simp only [mapW_mk, adjacencyMatrix, hs, oneUnless, Bool.or_true, if_true]
    cases listToIds (⟨n, A, k2i, d, m⟩ : Graph K F) L <;> rfl

theorem laplacianHelper_scale (nodelist : Option (List K)) :
    laplacianHelper (scaled c G) nodelist true =
      (laplacianHelper G nodelist true).map fun dA => ⟨dA.1, sv c dA.2.1, sm c dA.2.2⟩ := by
  obtain ⟨n, A, k2i, d, m⟩ := G
  cases nodelist with
  | none =>
    simp only [mapW_mk, laplacianHelper, Bool.or_true, if_true, reduceRow_sm]; rfl
  | some L =>
    have hs : listToIds (⟨n, sm c A, k2i, d, m⟩ : Graph K F) L = listToIds (⟨n, A, k2i, d, m⟩ : Graph K F) L := rfl
    simp only [mapW_mk, laplacianHelper, hs, oneUnless, Bool.or_true, if_true, extract_mapply]
    cases listToIds (⟨n, A, k2i, d, m⟩ : Graph K F) L with
    | error _ => rfl
    | ok ids => simp only [bind, Except.bind, reduceRow_sm]; rfl

theorem msub_sm {m n : Nat} (A B : Mat m n F) : msub (sm c A) (sm c B) = sm c (msub A B) := by
  funext i j
  simp only [msub, munion, mapply]
  cases A i j <;> cases B i j <;> simp [ounion, mul_sub]

/-- **C117** -/
theorem laplacian_matrix_scale (nodelist : Option (List K)) :
    laplacianMatrix (scaled c G) nodelist true = (laplacianMatrix G nodelist true).map (scaledMatrix c) := by
  simp only [laplacianMatrix]
  rw [laplacianHelper_scale]
  cases laplacianHelper G nodelist true with
  | error _ => rfl
  | ok dA =>
    have hd : diagMat (sv c dA.2.1) = sm c (diagMat dA.2.1) := by
      funext i j; simp only [diagMat, mapply]; split <;> rfl
    simp only [Except.map, bind, Except.bind, pure, Except.pure, hd, msub_sm, scaledMatrix]

theorem modBody_scale (hc : c ≠ 0) {n : Nat} (kout kin : Vec n F) (A : Mat n n F) :
    modBody (sv c kout) (sv c kin) (sm c A) = sm c (modBody kout kin A) := by
  have : mapply (fun x => x / (reduce (· + ·) (sv c kout)).getD 0) (outer (sv c kout) (sv c kin)) =
      sm c (mapply (fun x => x / (reduce (· + ·) kout).getD 0) (outer kout kin)) := by
    rw [Proofs.Sc.reduce_add, Proofs.Sc.getD_map]
    funext i j
    simp only [mapply, outer, vapply]
    cases kout i with
    | none => simp
    | some a =>
      cases kin j with
      | none => simp
      | some b =>
        simp only [Option.map_some, ointer]
        congr 1
        by_cases h : (reduce (· + ·) kout).getD 0 = 0
        · rw [h]; simp
        · field_simp
  simp only [modBody, this, msub_sm]

/-- **C117** -/
theorem modularity_matrix_scale (hc : c ≠ 0) (nodelist : Option (List K)) :
    modularityMatrix (scaled c G) nodelist true = (modularityMatrix G nodelist true).map (scaledMatrix c) := by
  have h1 : (scaled c G).directed = G.directed := rfl
  have h2 : (scaled c G).multi = G.multi := rfl
  simp only [modularityMatrix, h1, h2]
  rw [laplacianHelper_scale]
  split
  · rfl
  · cases laplacianHelper G nodelist true with
    | error _ => rfl
    | ok dA =>
      simp only [Except.map, bind, Except.bind, pure, Except.pure, modBody_scale c hc, scaledMatrix]

/-- **C117** -/
theorem directed_modularity_matrix_scale (hc : c ≠ 0) (nodelist : Option (List K)) :
    directedModularityMatrix (scaled c G) nodelist true =
      (directedModularityMatrix G nodelist true).map (scaledMatrix c) := by
  obtain ⟨n, A, k2i, d, m⟩ := G
  have hs : ∀ L, listToIds (⟨n, sm c A, k2i, d, m⟩ : Graph K F) L = listToIds (⟨n, A, k2i, d, m⟩ : Graph K F) L :=
    fun _ => rfl
  simp only [mapW_mk, directedModularityMatrix, hs, oneUnless, if_true, extract_mapply]
  split
  · rfl
  · cases nodelist with
    | none =>
      dsimp only
      rw [reduceRow_sm, reduceCol_sm, modBody_scale c hc]; rfl
    | some L =>
      dsimp only
      cases listToIds (⟨n, A, k2i, d, m⟩ : Graph K F) L with
      | error _ => rfl
      | ok ids =>
        simp only [bind, Except.bind, pure, Except.pure]
        rw [reduceRow_sm, reduceCol_sm, modBody_scale c hc]; rfl

/-- **C117** for a `sqrt` with `sqrt (c * x) = r * sqrt x`, `r * r = c` -/
theorem normalized_laplacian_matrix_scale (hc : c ≠ 0) (sqrt : F → F) (r : F) (hr : r * r = c)
    (hsq : ∀ x, sqrt (c * x) = r * sqrt x) (nodelist : Option (List K)) :
    normalizedLaplacianMatrix sqrt (scaled c G) nodelist true = normalizedLaplacianMatrix sqrt G nodelist true := by
  have hr0 : r ≠ 0 := by rintro rfl; exact hc (by simpa using hr.symm)
  simp only [normalizedLaplacianMatrix]
  rw [laplacianHelper_scale]
  cases laplacianHelper G nodelist true with
  | error _ => rfl
  | ok dA =>
    obtain ⟨m, d, A⟩ := dA
    simp only [Except.map, bind, Except.bind, pure, Except.pure]
    congr 2
    have hv : vapply (fun x => 1 / x) (vapply sqrt (sv c d)) = sv r⁻¹ (vapply (fun x => 1 / x) (vapply sqrt d)) := by
      funext i
      simp only [vapply, Option.map_map]
      congr 1; funext x
      simp only [Function.comp, hsq, one_div, mul_inv]
    have ho : ∀ v : Vec m F, mmul (· * ·) (massignR (mS (sm c A)) (outer (sv r⁻¹ v) (sv r⁻¹ v))) (sm c A) =
        mmul (· * ·) (massignR (mS A) (outer v v)) A := by
      intro v
      funext i j
      simp only [mmul, massignR, mS_mapply, outer, mapply, vapply]
      split
      · cases v i with
        | none => simp
        | some a =>
          cases v j with
          | none => simp
          | some b =>
            cases A i j with
            | none => simp
            | some w =>
              simp only [Option.map_some, ointer]
              congr 1
              rw [← hr]
              field_simp
      · simp
    simp only [normLap, hv, ho]
    congr 2
    funext i
    simp only [vapply]
    cases d i <;> rfl

end

/-! ## where the unit does matter -/

/-- one edge 1 → 2 of weight 1 -/
def Ex.unitG : Graph Nat ℚ where
  n := 2
  A := _root_.Ex.ofTriples 2 [(0, 1, 1)]
  keyToId := [(1, 0), (2, 1)]
  directed := true

/-- **C117 fails** for `google_matrix` with a node list that reorders all nodes: the row of node 1 is taken to be
empty (C67), and the dangling values are mixed with the unscaled weights. -/
theorem google_matrix_nodelist_depends_on_unit :
    ∃ M M', googleMatrixList Ex.unitG (1 / 2) none [2, 1] (some [(1, 1)]) = .ok ⟨2, M⟩ ∧
      googleMatrixList (scaled 2 Ex.unitG) (1 / 2) none [2, 1] (some [(1, 1)]) = .ok ⟨2, M'⟩ ∧ M 1 0 ≠ M' 1 0 := by
  refine ⟨_, _, rfl, rfl, ?_⟩
  decide +kernel

/-- the first iterate before scaling -/
def Ex.unitY (w : ℚ) : Vec 2 ℚ := fun i => if i = 0 then some (1 / 2) else some (1 / 2 + 1 / 2 * w)

theorem unit_eigenvector (sqrt : ℚ → ℚ) (w q r : ℚ) (h : sqrt r = q)
    (hr : (dot (· + ·) (· * ·) (Ex.unitY w) (Ex.unitY w)).getD 0 = r)
    (hc : isConverged 10 (fun _ => some (1 / 2)) (scaleBy q (Ex.unitY w)) = true) :
    eigenvectorCentrality sqrt (scaled w Ex.unitG) 100 10 none = .ok (scaleBy q (Ex.unitY w)) := by
  have key : ∀ M : Mat 2 2 ℚ, M 0 0 = none → M 0 1 = some (w * 1) → M 1 0 = none → M 1 1 = none →
      eigV sqrt M 100 10 none = .ok (scaleBy q (Ex.unitY w)) := by
    intro M h00 h01 h10 h11
    have hy : vadd (· + ·) (fun _ => some (1 / 2)) (vxm (· + ·) (· * ·) (fun _ => some (1 / 2)) M) = Ex.unitY w := by
      funext i
      have e : ∀ j, vxm (· + ·) (· * ·) (fun _ => some (1 / 2 : ℚ)) M j =
          omerge (· + ·) (omerge (· + ·) none (ointer (· * ·) (some (1 / 2)) (M 0 j)))
            (ointer (· * ·) (some (1 / 2)) (M 1 j)) := fun j => rfl
      simp only [vadd, e]
      match i with
      | ⟨0, _⟩ =>
        rw [show (⟨0, by decide⟩ : Fin 2) = 0 from rfl, h00, h10]; rfl
      | ⟨1, _⟩ =>
        rw [show (⟨1, by decide⟩ : Fin 2) = 1 from rfl, h01, h11, mul_one]; rfl
    have hs : eigStep sqrt M (fun _ => some (1 / 2)) = scaleBy q (Ex.unitY w) := by
      show scaleBy (sqrt ((dot (· + ·) (· * ·) _ _).getD 0)) _ = _
      rw [hy, hr, h]
    have h2 : (fun _ : Fin 2 => some (1 / ((2 : Nat) : ℚ))) = fun _ => some (1 / 2) := by
      funext i; norm_num
    show powerIter (eigStep sqrt M) (isConverged 10) 100 (fun _ => some (1 / ((2 : Nat) : ℚ))) = _
    rw [h2, powerIter, hs, hc]
    rfl
  exact key _ rfl rfl rfl rfl

/-- **C117 fails** for eigenvector centrality: the iteration is that of `A + I`, so its intermediate vectors depend on
the unit; here a generous tolerance accepts the first one.  `sqrt` is any function right at `25/36` and `169/100`. -/
theorem eigenvector_centrality_depends_on_unit (sqrt : ℚ → ℚ) (h1 : sqrt (25 / 36) = 5 / 6)
    (h2 : sqrt (169 / 100) = 13 / 10) :
    ∃ v v', eigenvectorCentrality sqrt (scaled (1 / 3) Ex.unitG) 100 10 none = .ok v ∧
      eigenvectorCentrality sqrt (scaled (7 / 5) Ex.unitG) 100 10 none = .ok v' ∧
      (scaled (1 / 3) Ex.unitG).view v 1 = some (3 / 5) ∧ (scaled (7 / 5) Ex.unitG).view v' 1 = some (5 / 13) :=
  ⟨_, _, unit_eigenvector sqrt (1 / 3) (5 / 6) (25 / 36) h1 (by decide +kernel) (by decide +kernel),
    unit_eigenvector sqrt (7 / 5) (13 / 10) (169 / 100) h2 (by decide +kernel) (by decide +kernel),
    by decide +kernel, by decide +kernel⟩

/-! ## non-trivial instances -/

/-- the example digraph with rational weights -/
def Ex.scaleG : Graph Nat ℚ := mapWeights (fun x : Int => (x : ℚ)) _root_.Ex.dg

example (alpha tol : ℚ) (k : Int) : pagerank (scaled (1 / 1000) Ex.scaleG) none alpha none k tol none none =
    pagerank Ex.scaleG none alpha none k tol none none :=
  pagerank_scale (by norm_num) Ex.scaleG none alpha none k tol none none

example : cutSizeWeighted (scaled 3 Ex.scaleG) [10, 20] (some [30]) =
    (cutSizeWeighted Ex.scaleG [10, 20] (some [30])).map (fun x => 3 * x) :=
  cut_size_weighted_scale 3 Ex.scaleG [10, 20] (some [30])

end Props
