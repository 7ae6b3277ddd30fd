import Verif.Model.Bfs
import Verif.Model.Cluster
import Verif.Model.GenDegree
import Verif.Model.Cuts
import Verif.Model.Small
import Verif.Model.Truss
import Verif.Model.Linalg

/-! # Naturality of the model in the stored values -/

open GB Model

namespace Spec

/-- the same graph object with the weight `w i j` on the edge from row `i` to row `j`: the same nodes, the same
edges, any weights of any type -/
def reweigh {K α β : Type} (G : Graph K α) (w : Fin G.n → Fin G.n → β) : Graph K β :=
  { n := G.n, A := fun i j => (G.A i j).map fun _ => w i j, keyToId := G.keyToId,
    directed := G.directed, multi := G.multi }

/-- the graph without its weights -/
def forget {K α : Type} (G : Graph K α) : Graph K Unit := reweigh G fun _ _ => ()

end Spec

namespace Proofs.Wt

variable {K α β γ δ : Type} {m n k : Nat}

/-- other values at the stored positions of a vector -/
def vre (w : Fin n → β) (v : Vec n α) : Vec n β := fun i => (v i).map fun _ => w i
/-- other values at the stored positions of a matrix -/
def mre (w : Fin m → Fin n → β) (A : Mat m n α) : Mat m n β := fun i j => (A i j).map fun _ => w i j

theorem mre_row (w : Fin m → Fin n → β) (A : Mat m n α) (i : Fin m) : mre w A i = vre (w i) (A i) := rfl

theorem mre_isSome (w : Fin m → Fin n → β) (A : Mat m n α) (i j) : (mre w A i j).isSome = (A i j).isSome := by
  simp [mre]
theorem vre_isSome (w : Fin n → β) (v : Vec n α) (i) : (vre w v i).isSome = (v i).isSome := by simp [vre]

theorem vS_vre (w : Fin n → β) (v : Vec n α) : vS (vre w v) = vS v := by
  funext i; exact vre_isSome w v i
theorem mS_mre (w : Fin m → Fin n → β) (A : Mat m n α) : mS (mre w A) = mS A := by
  funext i j; exact mre_isSome w A i j
theorem nvals_vre (w : Fin n → β) (v : Vec n α) : nvals (vre w v) = nvals v := by simp [nvals, vre_isSome]
theorem mnvals_mre (w : Fin m → Fin n → β) (A : Mat m n α) : mnvals (mre w A) = mnvals A := by
  simp [mnvals, mre_isSome]
theorem transpose_mre (w : Fin m → Fin n → β) (A : Mat m n α) :
    transpose (mre w A) = mre (fun i j => w j i) (transpose A) := rfl
theorem offdiag_mre (w : Fin n → Fin n → β) (A : Mat n n α) : offdiag (mre w A) = mre w (offdiag A) := by
  funext i j; simp only [offdiag, mre]; split <;> rfl
theorem tril1_mre (w : Fin n → Fin n → β) (A : Mat n n α) : tril1 (mre w A) = mre w (tril1 A) := by
  funext i j; simp only [tril1, mre]; split <;> rfl
theorem triu1_mre (w : Fin n → Fin n → β) (A : Mat n n α) : triu1 (mre w A) = mre w (triu1 A) := by
  funext i j; simp only [triu1, mre]; split <;> rfl
theorem massignR_mre (M : MMask m n) (w : Fin m → Fin n → β) (A : Mat m n α) :
    massignR M (mre w A) = mre w (massignR M A) := by
  funext i j; simp only [massignR, mre]; split <;> rfl
theorem countRow_mre (w : Fin m → Fin n → β) (A : Mat m n α) : countRow (mre w A) = countRow A := by
  funext i; simp only [countRow, mre_row, nvals_vre]
theorem diagVec_mre (w : Fin n → Fin n → β) (A : Mat n n α) :
    diagVec (mre w A) = vre (fun i => w i i) (diagVec A) := rfl
theorem vdel_vre (w : Fin n → β) (v : Vec n α) (i : Fin n) : vdel (vre w v) i = vre w (vdel v i) := by
  funext j; simp only [vdel, vre]; split <;> rfl
theorem rowOff_mre (w : Fin n → Fin n → β) (A : Mat n n α) (i) : rowOff (mre w A) i = vre (w i) (rowOff A i) := by
  simp only [rowOff, mre_row, vdel_vre]
theorem extract_mre {p q : Nat} (w : Fin m → Fin n → β) (A : Mat m n α) (I : Fin p → Fin m) (J : Fin q → Fin n) :
    extract (mre w A) I J = mre (fun i j => w (I i) (J j)) (extract A I J) := rfl

theorem ointer_const_right (c : γ) (x : Option α) (y : Option β) (f : β → δ) :
    ointer (fun _ _ => c) x (y.map f) = ointer (fun _ _ => c) x y := by cases x <;> cases y <;> rfl
theorem ointer_const_left (c : γ) (x : Option α) (y : Option β) (f : α → δ) :
    ointer (fun _ _ => c) (x.map f) y = ointer (fun _ _ => c) x y := by cases x <;> cases y <;> rfl

theorem pairN_map_right (x : Option α) (y : Option β) (f : β → δ) :
    ointer pairN x (y.map f) = ointer pairN x y := by cases x <;> cases y <;> rfl
theorem pairN_map_left (x : Option α) (y : Option β) (f : α → δ) :
    ointer pairN (x.map f) y = ointer pairN x y := by cases x <;> cases y <;> rfl
theorem pairB_map_right (x : Option α) (y : Option β) (f : β → δ) :
    ointer pairB x (y.map f) = ointer pairB x y := by cases x <;> cases y <;> rfl
theorem pairB_map_left (x : Option α) (y : Option β) (f : α → δ) :
    ointer pairB (x.map f) y = ointer pairB x y := by cases x <;> cases y <;> rfl
theorem first_map_right (x : Option α) (y : Option β) (f : β → δ) :
    ointer first x (y.map f) = ointer first x y := by cases x <;> cases y <;> rfl
theorem second_map_left (x : Option α) (y : Option β) (f : α → δ) :
    ointer second (x.map f) y = ointer second x y := by cases x <;> cases y <;> rfl

theorem vxm_pairB (add : Bool → Bool → Bool) (q : Vec m γ) (w : Fin m → Fin n → β) (A : Mat m n α) :
    vxm add pairB q (mre w A) = vxm add pairB q A := by
  funext j; simp only [vxm, mre, pairB_map_right]
theorem vxm_first (add : γ → γ → γ) (q : Vec m γ) (w : Fin m → Fin n → β) (A : Mat m n α) :
    vxm add first q (mre w A) = vxm add first q A := by
  funext j; simp only [vxm, mre, first_map_right]
theorem mxv_pairB (add : Bool → Bool → Bool) (v : Vec n γ) (w : Fin m → Fin n → β) (A : Mat m n α) :
    mxv add pairB (mre w A) v = mxv add pairB A v := by
  funext j; simp only [mxv, mre, pairB_map_left]
theorem mxv_pairN (add : Nat → Nat → Nat) (v : Vec n γ) (w : Fin m → Fin n → β) (A : Mat m n α) :
    mxv add pairN (mre w A) v = mxv add pairN A v := by
  funext j; simp only [mxv, mre, pairN_map_left]
theorem mxv_pairN_vre (add : Nat → Nat → Nat) (v : Vec n γ) (w : Fin n → β) (A : Mat m n α) :
    mxv add pairN A (vre w v) = mxv add pairN A v := by
  funext j; simp only [mxv, vre, pairN_map_right]
theorem mxm_pairB (add : Bool → Bool → Bool) (Q : Mat k m γ) (w : Fin m → Fin n → β) (A : Mat m n α) :
    mxm add pairB Q (mre w A) = mxm add pairB Q A := by
  funext i j; simp only [mxm, mre, pairB_map_right]
theorem mxm_pairN (add : Nat → Nat → Nat) (w : Fin k → Fin m → δ) (Q : Mat k m γ) (A : Mat m n α) :
    mxm add pairN (mre w Q) A = mxm add pairN Q A := by
  funext i j; simp only [mxm, mre, pairN_map_left]
theorem mxm_pairN' (add : Nat → Nat → Nat) (Q : Mat k m γ) (w : Fin m → Fin n → β) (A : Mat m n α) :
    mxm add pairN Q (mre w A) = mxm add pairN Q A := by
  funext i j; simp only [mxm, mre, pairN_map_right]
theorem mmul_pairN (w : Fin m → Fin n → β) (A : Mat m n α) (B : Mat m n γ) :
    mmul pairN (mre w A) B = mmul pairN A B := by
  funext i j; simp only [mmul, mre, pairN_map_left]
theorem mmul_pairN' (w : Fin m → Fin n → β) (A : Mat m n α) (B : Mat m n γ) :
    mmul pairN B (mre w A) = mmul pairN B A := by
  funext i j; simp only [mmul, mre, pairN_map_right]
theorem mmul_second (w : Fin m → Fin n → β) (A : Mat m n α) (B : Mat m n γ) :
    mmul second (mre w A) B = mmul second A B := by
  funext i j; simp only [mmul, mre, second_map_left]
theorem vmul_pairN (w : Fin n → β) (w' : Fin n → δ) (u : Vec n α) (v : Vec n γ) :
    vmul pairN (vre w u) (vre w' v) = vmul pairN u v := by
  funext i; simp only [vmul, vre, pairN_map_left, pairN_map_right]
theorem mapply_const (c : γ) (w : Fin m → Fin n → β) (A : Mat m n α) :
    mapply (fun _ => c) (mre w A) = mapply (fun _ => c) A := by
  funext i j; simp [mapply, mre]; rfl

/-! ## traversals -/

theorem bfsStep_mre (A : Mat n n α) (w : Fin n → Fin n → β) {γ : Type} (v : Vec n γ) (q : Vec n Bool) :
    bfsStep (mre w A) v q = bfsStep A v q := by simp only [bfsStep, vxm_pairB]

theorem bfsPlainLoop_mre (A : Mat n n α) (w : Fin n → Fin n → β) (dst : Option (Fin n)) (l : List Nat) (v q) :
    bfsPlainLoop (mre w A) dst l v q = bfsPlainLoop A dst l v q := by
  induction l generalizing v q with
  | nil => rfl
  | cons i is ih => simp only [bfsPlainLoop, bfsStep_mre, ih]

theorem bfsPlainFrom_mre (A : Mat n n α) (w : Fin n → Fin n → β) (s dst c) :
    bfsPlainFrom (mre w A) s dst c = bfsPlainFrom A s dst c := by simp only [bfsPlainFrom, bfsPlainLoop_mre]

theorem bfsLevelLoop_mre (A : Mat n n α) (w : Fin n → Fin n → β) (dst : Option (Fin n)) (l : List Nat) (v q) :
    bfsLevelLoop (mre w A) dst l v q = bfsLevelLoop A dst l v q := by
  induction l generalizing v q with
  | nil => rfl
  | cons i is ih => simp only [bfsLevelLoop, bfsStep_mre, ih]

theorem bfsLevelFrom_mre (A : Mat n n α) (w : Fin n → Fin n → β) (s dst c) :
    bfsLevelFrom (mre w A) s dst c = bfsLevelFrom A s dst c := by simp only [bfsLevelFrom, bfsLevelLoop_mre]

theorem bfsStepM_mre (A : Mat n n α) (w : Fin n → Fin n → β) (D : Mat k n Nat) (Q) :
    bfsStepM (mre w A) D Q = bfsStepM A D Q := by simp only [bfsStepM, mxm_pairB]

theorem bfsLevelsLoop_mre (A : Mat n n α) (w : Fin n → Fin n → β) (l : List Nat) (D : Mat k n Nat) (Q) :
    bfsLevelsLoop (mre w A) l D Q = bfsLevelsLoop A l D Q := by
  induction l generalizing D Q with
  | nil => rfl
  | cons i is ih => simp only [bfsLevelsLoop, bfsStepM_mre, ih]

theorem bfsLevelsFrom_mre (A : Mat n n α) (w : Fin n → Fin n → β) (ids : Fin k → Fin n) (c) :
    bfsLevelsFrom (mre w A) ids c = bfsLevelsFrom A ids c := by simp only [bfsLevelsFrom, bfsLevelsLoop_mre]

theorem bidirLoop_mre (A : Mat n n α) (w : Fin n → Fin n → β) (l : List Nat) (a b c d) :
    bidirLoop (mre w A) l a b c d = bidirLoop A l a b c d := by
  induction l generalizing a b c d with
  | nil => rfl
  | cons i is ih => simp only [bidirLoop, bfsStep_mre, mxv_pairB, ih]

theorem bfsLayersLoop_mre (A : Mat n n α) (w : Fin n → Fin n → β) (m : Nat) (v q) :
    bfsLayersLoop (mre w A) m v q = bfsLayersLoop A m v q := by
  induction m generalizing v q with
  | zero => rfl
  | succ m ih => simp only [bfsLayersLoop, bfsStep_mre, ih]

theorem dadLoop_mre (A : Mat n n α) (w : Fin n → Fin n → β) (m : Nat) (v q) :
    dadLoop (mre w A) m v q = dadLoop A m v q := by
  induction m generalizing v q with
  | zero => rfl
  | succ m ih => simp only [dadLoop, bfsStep_mre, ih]

theorem bfsParentLoop_mre (A : Mat n n α) (w : Fin n → Fin n → β) (dst : Option (Fin n)) (l : List Nat) (v q) :
    bfsParentLoop (mre w A) dst l v q = bfsParentLoop A dst l v q := by
  induction l generalizing v q with
  | nil => rfl
  | cons i is ih => simp only [bfsParentLoop, vxm_first, ih]

theorem bfsBiLoop_mre (A : Mat n n α) (w : Fin n → Fin n → β) (m : Nat) (v a b oe ie) :
    bfsBiLoop (mre w A) m v a b oe ie = bfsBiLoop A m v a b oe ie := by
  induction m generalizing v a b oe ie with
  | zero => rfl
  | succ m ih => simp only [bfsBiLoop, vxm_pairB, mxv_pairB, ih]

/-! ## clustering -/

theorem triC_mre (L : Mat n n α) (w : Fin n → Fin n → β) : triC (mre w L) = triC L := by
  simp only [triC, mS_mre, transpose_mre, mxm_pairN, mxm_pairN']
theorem triD_mre (U L : Mat n n α) (w w' : Fin n → Fin n → β) : triD (mre w U) (mre w' L) = triD U L := by
  simp only [triD, mS_mre, transpose_mre, mxm_pairN, mxm_pairN']
theorem trianglesVec_mre (A : Mat n n α) (w : Fin n → Fin n → β) (mask) :
    trianglesVec (mre w A) mask = trianglesVec A mask := by
  simp only [trianglesVec, tril1_mre, triu1_mre, triC_mre, triD_mre]
theorem singleTriangleAt_mre (A : Mat n n α) (w : Fin n → Fin n → β) (i) :
    singleTriangleAt (mre w A) i = singleTriangleAt A i := by
  simp only [singleTriangleAt, rowOff_mre, tril1_mre, vS_vre, mxv_pairN, mxv_pairN_vre]
theorem totalTriangles_mre (A : Mat n n α) (w : Fin n → Fin n → β) :
    totalTriangles (mre w A) = totalTriangles A := by
  simp only [totalTriangles, tril1_mre, triu1_mre, mS_mre, transpose_mre, mxm_pairN, mxm_pairN']
theorem clusteringVec_mre (A : Mat n n α) (w : Fin n → Fin n → β) (mask) :
    clusteringVec (mre w A) mask = clusteringVec A mask := by
  simp only [clusteringVec, trianglesVec_mre, offdiag_mre, countRow_mre]
theorem singleClusteringAt_mre (A : Mat n n α) (w : Fin n → Fin n → β) (i) :
    singleClusteringAt (mre w A) i = singleClusteringAt A i := by
  simp only [singleClusteringAt, singleTriangleAt_mre, singleDegree, mre_row, nvals_vre, vre_isSome]
theorem totalDegreesM_mre (A : Mat n n α) (w : Fin n → Fin n → β) : totalDegreesM (mre w A) = totalDegreesM A := by
  simp only [totalDegreesM, offdiag_mre, transpose_mre, countRow_mre]
theorem recipDegreesM_mre (A : Mat n n α) (w : Fin n → Fin n → β) : recipDegreesM (mre w A) = recipDegreesM A := by
  simp only [recipDegreesM, offdiag_mre, transpose_mre, mmul_pairN, mmul_pairN']
theorem dirTri_mre (A : Mat n n α) (w : Fin n → Fin n → β) (mask) : dirTri (mre w A) mask = dirTri A mask := by
  simp only [dirTri, offdiag_mre, transpose_mre, mS_mre, mxm_pairN, mxm_pairN']
theorem clusteringDirVec_mre (A : Mat n n α) (w : Fin n → Fin n → β) (mask) :
    clusteringDirVec (mre w A) mask = clusteringDirVec A mask := by
  simp only [clusteringDirVec, dirTri_mre, totalDegreesM_mre, recipDegreesM_mre]
theorem singleClusteringDirAt_mre (A : Mat n n α) (w : Fin n → Fin n → β) (i) :
    singleClusteringDirAt (mre w A) i = singleClusteringDirAt A i := by
  have hc : (fun j => offdiag (mre w A) j i) = vre (fun j => w j i) (fun j => offdiag A j i) := by
    rw [offdiag_mre]; rfl
  simp only [singleClusteringDirAt, hc]
  simp only [offdiag_mre, mre_row, vS_vre, mxv_pairN, mxv_pairN_vre, nvals_vre, vmul_pairN]
theorem triEdges_mre (A : Mat n n α) (w : Fin n → Fin n → β) (mask) :
    triEdges (mre w A) mask = triEdges A mask := by
  have hz : triZero (mre w A) mask = triZero A mask := by
    cases mask with
    | none => simp only [triZero, mapply_const]
    | some p => funext i j; simp only [triZero, mre, pairN_map_right]
  simp only [triEdges, hz, transpose_mre, mxm_pairN']

/-! ## cuts and small functions -/

theorem boundaryCols_mre (A : Mat n n α) (w : Fin n → Fin n → β) (S T) :
    boundaryCols (mre w A) S T = boundaryCols A S T := by
  cases T <;> simp only [boundaryCols, countRow_mre]
theorem edgeBoundaryU_mre (A : Mat n n α) (w : Fin n → Fin n → β) (S T) :
    edgeBoundaryU (mre w A) S T = edgeBoundaryU A S T := by
  funext i j
  simp only [edgeBoundaryU, boundaryCols_mre]
  simp only [mre, pairN_map_right]
theorem nodeBoundaryV_mre (A : Mat n n α) (w : Fin n → Fin n → β) (S T) :
    nodeBoundaryV (mre w A) S T = nodeBoundaryV A S T := by
  cases T <;> simp only [nodeBoundaryV, vxm_pairB]
theorem cutSizeU_mre (d : Bool) (A : Mat n n α) (w : Fin n → Fin n → β) (S T) :
    cutSizeU d (mre w A) S T = cutSizeU d A S T := by
  cases T <;> simp only [cutSizeU, edgeBoundaryU_mre]
theorem volumeU_mre (A : Mat n n α) (w : Fin n → Fin n → β) (S) : volumeU (mre w A) S = volumeU A S := by
  simp only [volumeU, countRow_mre]
theorem isDominatingV_mre (A : Mat n n α) (w : Fin n → Fin n → β) (S) :
    isDominatingV (mre w A) S = isDominatingV A S := by
  simp only [isDominatingV, vxm_pairB]
theorem totalDegreesP_mre (A : Mat n n α) (w : Fin n → Fin n → β) : totalDegreesP (mre w A) = totalDegreesP A := by
  simp only [totalDegreesP, transpose_mre, countRow_mre]
theorem recipDegreesP_mre (A : Mat n n α) (w : Fin n → Fin n → β) : recipDegreesP (mre w A) = recipDegreesP A := by
  simp only [recipDegreesP, transpose_mre, mmul_pairN, mmul_pairN']
theorem isRegularU_mre (A : Mat n n α) (w : Fin n → Fin n → β) : isRegularU (mre w A) = isRegularU A := by
  simp only [isRegularU, countRow_mre]
theorem isRegularD_mre (A : Mat n n α) (w : Fin n → Fin n → β) : isRegularD (mre w A) = isRegularD A := by
  simp only [isRegularD, transpose_mre, countRow_mre]
theorem simplePathIds_mre (A : Mat n n α) (w : Fin n → Fin n → β) (l ids) :
    simplePathIds (mre w A) l ids = simplePathIds A l ids := by
  simp only [simplePathIds, mmul_second]
theorem reciprocityV_mre (A : Mat n n α) (w : Fin n → Fin n → β) (mask) :
    reciprocityV (mre w A) mask = reciprocityV A mask := by
  simp only [reciprocityV, recipDegreesP_mre, totalDegreesP_mre]
theorem intraV_mre (A : Mat n n α) (w : Fin n → Fin n → β) (bs) : intraV (mre w A) bs = intraV A bs := by
  simp only [intraV, mxv_pairN]
theorem interV_mre (A : Mat n n α) (w : Fin n → Fin n → β) (bs) : interV (mre w A) bs = interV A bs := by
  simp only [interV, mxv_pairN]
theorem trussStep_mre (k : Int) (A : Mat n n α) (w : Fin n → Fin n → β) : trussStep k (mre w A) = trussStep k A := by
  simp only [trussStep, mS_mre, transpose_mre, mxm_pairN, mxm_pairN']

/-! ## graph objects -/

section
variable [DecidableEq K] (A : Mat n n α) (w : Fin n → Fin n → β) (k2i : List (K × Nat)) (d m : Bool)

theorem getId_mre (u : K) : Graph.getId ⟨n, mre w A, k2i, d, m⟩ u = Graph.getId ⟨n, A, k2i, d, m⟩ u := rfl
theorem contains_mre (u : K) : Graph.contains ⟨n, mre w A, k2i, d, m⟩ u = Graph.contains ⟨n, A, k2i, d, m⟩ u := rfl
theorem keyOf_mre (i : Nat) : Graph.keyOf ⟨n, mre w A, k2i, d, m⟩ i = Graph.keyOf ⟨n, A, k2i, d, m⟩ i := rfl
theorem firstNode_mre : Graph.firstNode ⟨n, mre w A, k2i, d, m⟩ = Graph.firstNode ⟨n, A, k2i, d, m⟩ := rfl
theorem listToIds_mre (l : List K) : listToIds ⟨n, mre w A, k2i, d, m⟩ l = listToIds ⟨n, A, k2i, d, m⟩ l := rfl
theorem listToMask_mre (l : Option (List K)) :
    listToMask ⟨n, mre w A, k2i, d, m⟩ l = listToMask ⟨n, A, k2i, d, m⟩ l := rfl
theorem setToVector_mre (l : List K) (b : Bool) :
    setToVector ⟨n, mre w A, k2i, d, m⟩ l b = setToVector ⟨n, A, k2i, d, m⟩ l b := rfl
theorem setToVector?_mre (l : Option (List K)) :
    setToVector? ⟨n, mre w A, k2i, d, m⟩ l = setToVector? ⟨n, A, k2i, d, m⟩ l := rfl
theorem listToVector_mre (l : List K) :
    listToVector ⟨n, mre w A, k2i, d, m⟩ l = listToVector ⟨n, A, k2i, d, m⟩ l := rfl
theorem otherSide_mre (s : Vec n Bool) (T : Option (List K)) :
    otherSide ⟨n, mre w A, k2i, d, m⟩ s T = otherSide ⟨n, A, k2i, d, m⟩ s T := rfl
theorem keyAt_mre (i : Nat) : keyAt ⟨n, mre w A, k2i, d, m⟩ i = keyAt ⟨n, A, k2i, d, m⟩ i := rfl
theorem bfsMatrix_mre (tr : Bool) : bfsMatrix ⟨n, mre w A, k2i, d, m⟩ tr =
    mre (if tr && d then fun i j => w j i else w) (bfsMatrix ⟨n, A, k2i, d, m⟩ tr) := by
  simp only [bfsMatrix]
  split
  · rw [offdiag_mre, transpose_mre]
  · rw [offdiag_mre]
theorem reweigh_mk : Spec.reweigh ⟨n, A, k2i, d, m⟩ w = ⟨n, mre w A, k2i, d, m⟩ := rfl
omit [DecidableEq K] in
theorem degreesP_mre : degreesP ⟨n, mre w A, k2i, d, m⟩ = degreesP ⟨n, A, k2i, d, m⟩ := by
  simp only [degreesP, totalDegreesP_mre, countRow_mre]

/-- two matrices with the same stored positions differ by their values only -/
theorem pat_eq {p q : Nat} {A : Mat p q α} {B : Mat p q β} (h : ∀ i j, (A i j).isSome = (B i j).isSome) :
    mre (fun _ _ => ()) A = mre (fun _ _ => ()) B := by
  funext i j
  have := h i j
  simp only [mre]
  cases hA : A i j <;> cases hB : B i j <;> simp_all

theorem bfsPlain_pat {A : Mat n n α} {B : Mat n n β} (h : ∀ i j, (A i j).isSome = (B i j).isSome)
    (k2i : List (K × Nat)) (d m : Bool) (u : K) (c : Option Int) (tr : Bool) :
    bfsPlain ⟨n, A, k2i, d, m⟩ u c tr = bfsPlain ⟨n, B, k2i, d, m⟩ u c tr := by
  have e : ∀ {γ : Type} (X : Mat n n γ), bfsPlain ⟨n, mre (fun _ _ => ()) X, k2i, d, m⟩ u c tr =
      bfsPlain ⟨n, X, k2i, d, m⟩ u c tr := by
    intro γ X
    simp only [bfsPlain, bfsMatrix_mre, bfsPlainFrom_mre, getId_mre]
  rw [← e A, ← e B, pat_eq h]

theorem subGraph_forget {A : Mat n n α} {B : Mat n n β} (h : ∀ i j, (A i j).isSome = (B i j).isSome)
    (k2i : List (K × Nat)) (d m : Bool) (ids : List (Fin n)) :
    (subGraph ⟨n, A, k2i, d, m⟩ ids).map Spec.forget = (subGraph ⟨n, B, k2i, d, m⟩ ids).map Spec.forget := by
  have e : renumberKeyToId ⟨n, A, k2i, d, m⟩ ids = renumberKeyToId ⟨n, B, k2i, d, m⟩ ids := rfl
  simp only [subGraph, e]
  cases renumberKeyToId ⟨n, B, k2i, d, m⟩ ids with
  | error _ => rfl
  | ok k =>
    simp only [Except.map, Spec.forget, Spec.reweigh, bind, Except.bind, pure, Except.pure]
    congr 2
    exact pat_eq (A := extract A ids.get ids.get) (B := extract B ids.get ids.get) fun i j => h _ _

omit [DecidableEq K] in
theorem indices_congr {u : Vec n α} {v : Vec n β} (h : ∀ i, (u i).isSome = (v i).isSome) :
    indices u = indices v := by simp only [indices, h]
end

end Proofs.Wt
