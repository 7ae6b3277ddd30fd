import Verif.Model.BellmanFord
import Verif.Model.BellmanFordPath
import Verif.Model.FloydWarshall

/-! # Naturality of the weighted shortest-path model in the weights -/

open GB Model

namespace Spec

/-- a change of unit or of number type: respects 0, sums, multiples and the order -/
structure Unit' {α β : Type} [Zero α] [Add α] [SMul Nat α] [LinearOrder α] [Zero β] [Add β] [SMul Nat β]
    [LinearOrder β] (φ : α → β) : Prop where
  zero : φ 0 = 0
  add : ∀ a b, φ (a + b) = φ a + φ b
  smul : ∀ (k : Nat) a, φ (k • a) = k • φ a
  mono : StrictMono φ

/-- the same graph with every weight converted -/
def mapWeights {K α β : Type} (φ : α → β) (G : Graph K α) : Graph K β :=
  { n := G.n, A := mapply φ G.A, keyToId := G.keyToId, directed := G.directed, multi := G.multi }

end Spec

namespace Proofs.Un

open Spec

section plain
variable {α β γ δ : Type} {m n k : Nat} (φ : α → β)

theorem map_omerge {op : α → α → α} {op' : β → β → β} (h : ∀ a b, φ (op a b) = op' (φ a) (φ b)) (x y : Option α) :
    omerge op' (x.map φ) (y.map φ) = (omerge op x y).map φ := by
  cases x <;> cases y <;> simp [omerge, h]

theorem reduce_vapply {op : α → α → α} {op' : β → β → β} (h : ∀ a b, φ (op a b) = op' (φ a) (φ b)) (v : Vec n α) :
    reduce op' (vapply φ v) = (reduce op v).map φ := by
  unfold reduce
  suffices ∀ (l : List (Fin n)) (acc : Option α),
      l.foldl (fun acc i => omerge op' acc (vapply φ v i)) (acc.map φ) =
        (l.foldl (fun acc i => omerge op acc (v i)) acc).map φ from this _ none
  intro l
  induction l with
  | nil => intro acc; rfl
  | cons i is ih =>
    intro acc
    simp only [List.foldl_cons]
    rw [← ih]
    congr 1
    exact map_omerge φ h _ _

theorem nvals_vapply (v : Vec n α) : nvals (vapply φ v) = nvals v := by simp [nvals, vapply]
theorem mnvals_mapply (A : Mat m n α) : mnvals (mapply φ A) = mnvals A := by simp [mnvals, mapply]
theorem vS_vapply (v : Vec n α) : vS (vapply φ v) = vS v := by funext i; simp [vS, vapply]
theorem mS_mapply (A : Mat m n α) : mS (mapply φ A) = mS A := by funext i j; simp [mS, mapply]
theorem mapply_row (A : Mat m n α) (i : Fin m) : mapply φ A i = vapply φ (A i) := rfl
theorem isSome_vapply (v : Vec n α) (i) : (vapply φ v i).isSome = (v i).isSome := by simp [vapply]
theorem offdiag_mapply (A : Mat n n α) : offdiag (mapply φ A) = mapply φ (offdiag A) := by
  funext i j; simp only [offdiag, mapply]; split <;> rfl
theorem triu1_mapply (A : Mat n n α) : triu1 (mapply φ A) = mapply φ (triu1 A) := by
  funext i j; simp only [triu1, mapply]; split <;> rfl
theorem transpose_mapply (A : Mat m n α) : transpose (mapply φ A) = mapply φ (transpose A) := rfl
theorem diagVec_mapply (A : Mat n n α) : diagVec (mapply φ A) = vapply φ (diagVec A) := rfl
theorem extract_mapply {p q : Nat} (A : Mat m n α) (I : Fin p → Fin m) (J : Fin q → Fin n) :
    extract (mapply φ A) I J = mapply φ (extract A I J) := rfl
theorem vassign_vapply (M : VMask n) (u v : Vec n α) :
    vassign M (vapply φ u) (vapply φ v) = vapply φ (vassign M u v) := by
  funext i; simp only [vassign, vapply]; split <;> rfl
theorem vassignR_vapply (M : VMask n) (v : Vec n α) : vassignR M (vapply φ v) = vapply φ (vassignR M v) := by
  funext i; simp only [vassignR, vapply]; split <;> rfl
theorem massign_mapply (M : MMask m n) (U V : Mat m n α) :
    massign M (mapply φ U) (mapply φ V) = mapply φ (massign M U V) := by
  funext i j; simp only [massign, mapply]; split <;> rfl
theorem vset_vapply (i : Fin n) (a : α) : vset vempty i (φ a) = vapply φ (vset vempty i a) := by
  funext j; simp only [vset, vempty, vapply]; split <;> rfl
theorem vempty_vapply : (vempty : Vec n β) = vapply φ vempty := rfl
theorem vassignC_vapply (M : VMask n) (u : Vec n α) (c : α) :
    vassignC M (vapply φ u) (φ c) = vapply φ (vassignC M u c) := by
  funext i; simp only [vassignC, vapply]; split <;> rfl
theorem madd_mapply {op : α → α → α} {op' : β → β → β} (h : ∀ a b, φ (op a b) = op' (φ a) (φ b)) (A B : Mat m n α) :
    madd op' (mapply φ A) (mapply φ B) = mapply φ (madd op A B) := by
  funext i j; exact map_omerge φ h _ _
theorem ointer_map {op : α → α → α} {op' : β → β → β} (h : ∀ a b, φ (op a b) = op' (φ a) (φ b)) (x y : Option α) :
    ointer op' (x.map φ) (y.map φ) = (ointer op x y).map φ := by
  cases x <;> cases y <;> simp [ointer, h]
theorem ointer_map_eq {op : α → α → γ} {op' : β → β → γ} (h : ∀ a b, op a b = op' (φ a) (φ b)) (x y : Option α) :
    ointer op' (x.map φ) (y.map φ) = ointer op x y := by
  cases x <;> cases y <;> simp [ointer, h]
theorem pairB_vapply (x : Option α) (y : Option γ) : ointer pairB (x.map φ) y = ointer pairB x y := by
  cases x <;> cases y <;> rfl
theorem pairB_vapply' (x : Option γ) (y : Option α) : ointer pairB x (y.map φ) = ointer pairB x y := by
  cases x <;> cases y <;> rfl

end plain

variable {K α β : Type} [Zero α] [Add α] [SMul Nat α] [LinearOrder α] [Zero β] [Add β] [SMul Nat β] [LinearOrder β]
  {φ : α → β} {n k : Nat}

section
variable (u : Unit' φ)
include u

theorem lt_iff (a b : α) : φ a < φ b ↔ a < b := u.mono.lt_iff_lt
theorem le_iff (a b : α) : φ a ≤ φ b ↔ a ≤ b := u.mono.le_iff_le
theorem neg_iff (a : α) : φ a < 0 ↔ a < 0 := by rw [← u.zero, lt_iff u]
theorem map_min' (a b : α) : φ (min a b) = min (φ a) (φ b) := u.mono.monotone.map_min
theorem zero_iff (a : α) : φ a = 0 ↔ a = 0 := by rw [← u.zero]; exact u.mono.injective.eq_iff
theorem eq_iff (a b : α) : φ a = φ b ↔ a = b := u.mono.injective.eq_iff

theorem getD_neg (x : Option α) : ((x.map φ).getD 0 < 0) ↔ (x.getD 0 < 0) := by
  cases x with
  | none => simp
  | some a => exact neg_iff u a

theorem reduceScalar_min {m : Nat} (A : Mat m n α) :
    reduceScalar min (mapply φ A) = (reduceScalar min A).map φ := by
  have h : reduceRow min (mapply φ A) = vapply φ (reduceRow min A) := by
    funext i; exact reduce_vapply φ (map_min' u) (A i)
  simp only [reduceScalar, h, reduce_vapply φ (map_min' u)]

theorem hasNegEdgesM_map (A : Mat n n α) : hasNegEdgesM (mapply φ A) = hasNegEdgesM A := by
  simp only [hasNegEdgesM, offdiag_mapply, reduceScalar_min u, getD_neg u]
theorem hasNegEdgesP_map (A : Mat n n α) : hasNegEdgesP (mapply φ A) = hasNegEdgesP A := by
  simp only [hasNegEdgesP, reduceScalar_min u, getD_neg u]
theorem hasNegDiag_map (A : Mat n n α) : hasNegDiag (mapply φ A) = hasNegDiag A := by
  simp only [hasNegDiag, diagVec_mapply, reduce_vapply φ (map_min' u), getD_neg u]

theorem vselect_le (x : α) (v : Vec n α) :
    vselect (fun a => decide (a ≤ φ x)) (vapply φ v) = vapply φ (vselect (fun a => decide (a ≤ x)) v) := by
  funext i
  simp only [vselect, vapply]
  cases v i with
  | none => rfl
  | some a => by_cases h : a ≤ x <;> simp [Option.filter, le_iff u, h]

theorem vselect_neg (v : Vec n α) :
    vselect (fun a => decide (a < 0)) (vapply φ v) = vapply φ (vselect (fun a => decide (a < 0)) v) := by
  funext i
  simp only [vselect, vapply]
  cases v i with
  | none => rfl
  | some a => by_cases h : a < 0 <;> simp [Option.filter, neg_iff u, h]

theorem vxm_map (v : Vec n α) (A : Mat n n α) :
    vxm min (· + ·) (vapply φ v) (mapply φ A) = vapply φ (vxm min (· + ·) v A) := by
  funext j
  simp only [vxm]
  rw [show (fun i => ointer (· + ·) (vapply φ v i) (mapply φ A i j)) =
    vapply φ (fun i => ointer (· + ·) (v i) (A i j)) from funext fun i => ointer_map φ u.add _ _]
  exact reduce_vapply φ (map_min' u) _

theorem bfRelax_map (A : Mat n n α) (cut : Option α) (cur : Vec n α) :
    bfRelax (mapply φ A) (cut.map φ) (vapply φ cur) = vapply φ (bfRelax A cut cur) := by
  cases cut with
  | none => exact vxm_map u _ _
  | some x => simp only [bfRelax, Option.map_some, vxm_map u, vselect_le u]

theorem ltmap (x y : Option α) : ointer (fun a b => decide (a < b)) (x.map φ) (y.map φ) =
    ointer (fun a b => decide (a < b)) x y :=
  ointer_map_eq φ (fun a b => by simp [lt_iff u]) x y

theorem bfMask_map (cur d : Vec n α) : bfMask (vapply φ cur) (vapply φ d) = bfMask cur d := by
  funext i
  simp only [bfMask, vaccum, vapply, vmul, ltmap u]
  cases cur i <;> rfl

theorem bfRound_map (A : Mat n n α) (cut : Option α) (d cur : Vec n α) :
    bfRound (mapply φ A) (cut.map φ) (vapply φ d) (vapply φ cur) = vapply φ (bfRound A cut d cur) := by
  simp only [bfRound, bfRelax_map u, bfMask_map u, vassignR_vapply]

omit u in
theorem bfNextCut_map (prune : Option (Fin n)) (cut : Option α) (cur : Vec n α) :
    bfNextCut prune (cut.map φ) (vapply φ cur) = (bfNextCut prune cut cur).map φ := by
  cases prune with
  | none => rfl
  | some t => simp only [bfNextCut, vapply]; cases cur t <;> rfl

/-- a converted loop state -/
def mapState (φ : α → β) (s : BFState n α) : BFState n β :=
  ⟨vapply φ s.d, vapply φ s.cur, s.cut.map φ, s.broke⟩

theorem bfLoop_map (A : Mat n n α) (prune : Option (Fin n)) (m : Nat) (cut : Option α) (d cur : Vec n α) :
    bfLoop (mapply φ A) prune m (cut.map φ) (vapply φ d) (vapply φ cur) =
      mapState φ (bfLoop A prune m cut d cur) := by
  induction m generalizing cut d cur with
  | zero => rfl
  | succ m ih =>
    simp only [bfLoop, bfRound_map u, nvals_vapply]
    split
    · rfl
    · rw [vS_vapply, vassign_vapply, bfNextCut_map, ih]

theorem bfImproved_map (A : Mat n n α) (cut : Option α) (d cur : Vec n α) :
    bfImproved (mapply φ A) (cut.map φ) (vapply φ d) (vapply φ cur) = bfImproved A cut d cur := by
  funext i
  simp only [bfImproved, bfRelax_map u, vmul]
  exact ltmap u _ _

omit u in
theorem dot_pairB (x y : Vec n α) : dot any' pairB (vapply φ x) (vapply φ y) = dot any' pairB x y := by
  simp only [dot, vapply, pairB_vapply, pairB_vapply']

theorem bfCore_map (A : Mat n n α) (src : Fin n) (dst : Option (Fin n)) (cutoff : Option α) :
    bfCore (mapply φ A) src dst (cutoff.map φ) = (bfCore A src dst cutoff).map (vapply φ) := by
  have h0 : (vset vempty src (0 : β) : Vec n β) = vapply φ (vset vempty src 0) := by
    rw [← vset_vapply, u.zero]
  simp only [bfCore, offdiag_mapply, hasNegEdgesM_map u, hasNegDiag_map u, diagVec_mapply, h0, bfLoop_map u]
  simp only [mapState, bfImproved_map u, vselect_neg u, dot_pairB, apply_ite (Except.map (vapply φ))]
  rfl

end

section graphs
variable {γ δ : Type} (ψ : γ → δ)

/-! BFS does not look at the weights -/

theorem vxm_pairB_map (q : Vec n Bool) (A : Mat n n γ) : vxm any' pairB q (mapply ψ A) = vxm any' pairB q A := by
  funext j; simp only [vxm, mapply, pairB_vapply']

theorem bfsStep_map (A : Mat n n γ) {ε : Type} (v : Vec n ε) (q : Vec n Bool) :
    bfsStep (mapply ψ A) v q = bfsStep A v q := by
  simp only [bfsStep, vxm_pairB_map]

theorem bfsLevelLoop_map (A : Mat n n γ) (dst : Option (Fin n)) (l : List Nat) (v q) :
    bfsLevelLoop (mapply ψ A) dst l v q = bfsLevelLoop A dst l v q := by
  induction l generalizing v q with
  | nil => rfl
  | cons i is ih => simp only [bfsLevelLoop, bfsStep_map, ih]

theorem bfsLevelFrom_map (A : Mat n n γ) (s dst c) : bfsLevelFrom (mapply ψ A) s dst c = bfsLevelFrom A s dst c := by
  simp only [bfsLevelFrom, bfsLevelLoop_map]

theorem bfsPlainLoop_map (A : Mat n n γ) (dst : Option (Fin n)) (l : List Nat) (v q) :
    bfsPlainLoop (mapply ψ A) dst l v q = bfsPlainLoop A dst l v q := by
  induction l generalizing v q with
  | nil => rfl
  | cons i is ih => simp only [bfsPlainLoop, bfsStep_map, ih]

theorem bfsPlainFrom_map (A : Mat n n γ) (s dst c) : bfsPlainFrom (mapply ψ A) s dst c = bfsPlainFrom A s dst c := by
  simp only [bfsPlainFrom, bfsPlainLoop_map]

theorem bfsStepM_map (A : Mat n n γ) (D : Mat k n Nat) (Q : Mat k n Bool) :
    bfsStepM (mapply ψ A) D Q = bfsStepM A D Q := by
  have : mxm any' pairB Q (mapply ψ A) = mxm any' pairB Q A := by
    funext i j; simp only [mxm, mapply, pairB_vapply']
  simp only [bfsStepM, this]

theorem bfsLevelsLoop_map (A : Mat n n γ) (l : List Nat) (D : Mat k n Nat) (Q) :
    bfsLevelsLoop (mapply ψ A) l D Q = bfsLevelsLoop A l D Q := by
  induction l generalizing D Q with
  | nil => rfl
  | cons i is ih => simp only [bfsLevelsLoop, bfsStepM_map, ih]

theorem bfsLevelsFrom_map (A : Mat n n γ) (ids : Fin k → Fin n) (c) :
    bfsLevelsFrom (mapply ψ A) ids c = bfsLevelsFrom A ids c := by simp only [bfsLevelsFrom, bfsLevelsLoop_map]

theorem bfsParentLoop_map (A : Mat n n γ) (dst : Option (Fin n)) (l : List Nat) (v q) :
    bfsParentLoop (mapply ψ A) dst l v q = bfsParentLoop A dst l v q := by
  have h : ∀ q : Vec n (Fin n), vxm min first q (mapply ψ A) = vxm min first q A := by
    intro q
    funext j
    simp only [vxm, mapply]
    congr 1
    funext i
    cases q i <;> cases A i j <;> rfl
  induction l generalizing v q with
  | nil => rfl
  | cons i is ih => simp only [bfsParentLoop, h, ih]

variable [DecidableEq K] (A : Mat n n γ) (k2i : List (K × Nat)) (d m : Bool)

omit [DecidableEq K] in
theorem mapW_mk : mapWeights ψ ⟨n, A, k2i, d, m⟩ = ⟨n, mapply ψ A, k2i, d, m⟩ := rfl
theorem getId_map (s : K) : Graph.getId ⟨n, mapply ψ A, k2i, d, m⟩ s = Graph.getId ⟨n, A, k2i, d, m⟩ s := rfl
omit [DecidableEq K] in
theorem keyOf_map (i : Nat) : Graph.keyOf ⟨n, mapply ψ A, k2i, d, m⟩ i = Graph.keyOf ⟨n, A, k2i, d, m⟩ i := rfl
theorem listToIds_map (l : List K) : listToIds ⟨n, mapply ψ A, k2i, d, m⟩ l = listToIds ⟨n, A, k2i, d, m⟩ l := rfl

omit [DecidableEq K] in
theorem bfsMatrix_map (tr : Bool) :
    bfsMatrix ⟨n, mapply ψ A, k2i, d, m⟩ tr = mapply ψ (bfsMatrix ⟨n, A, k2i, d, m⟩ tr) := by
  cases h : tr && d <;> simp [bfsMatrix, h, offdiag_mapply, transpose_mapply]

theorem bfsLevel_map (s : K) (t : Option K) (c : Option Int) (tr : Bool) :
    bfsLevel ⟨n, mapply ψ A, k2i, d, m⟩ s t c tr = bfsLevel ⟨n, A, k2i, d, m⟩ s t c tr := by
  simp only [bfsLevel, bfsMatrix_map, bfsLevelFrom_map, getId_map]

theorem bfsParent_map (s : K) (t : Option K) (c : Option Int) (tr : Bool) :
    bfsParent ⟨n, mapply ψ A, k2i, d, m⟩ s t c tr = bfsParent ⟨n, A, k2i, d, m⟩ s t c tr := by
  simp only [bfsParent, bfsMatrix_map, bfsParentLoop_map, getId_map]

end graphs

/-! ## graph level -/

section
variable (u : Unit' φ)
include u

theorem smul_map (l : Nat) (c : α) : l • φ c = φ (l • c) := (u.smul l c).symm

theorem vapply_smul (d : Vec n Nat) (c : α) :
    vapply (fun l => l • φ c) d = vapply φ (vapply (fun l => l • c) d) := by
  funext i; simp only [vapply, smul_map u, Option.map_map]; rfl

theorem mapply_smul {p : Nat} (d : Mat p n Nat) (c : α) :
    mapply (fun l => l • φ c) d = mapply φ (mapply (fun l => l • c) d) := by
  funext i j; simp only [mapply, smul_map u, Option.map_map]; rfl

theorem bfRoundM_map (A : Mat n n α) (D Cur : Mat k n α) :
    bfRoundM (mapply φ A) (mapply φ D) (mapply φ Cur) = mapply φ (bfRoundM A D Cur) := by
  funext r; exact bfRound_map u A none (D r) (Cur r)

theorem bfLoopM_map (A : Mat n n α) (m : Nat) (D Cur : Mat k n α) :
    bfLoopM (mapply φ A) m (mapply φ D) (mapply φ Cur) =
      (mapply φ (bfLoopM A m D Cur).1, mapply φ (bfLoopM A m D Cur).2.1, (bfLoopM A m D Cur).2.2) := by
  induction m generalizing D Cur with
  | zero => rfl
  | succ m ih =>
    simp only [bfLoopM, bfRoundM_map u, mnvals_mapply]
    split
    · rfl
    · rw [mS_mapply, massign_mapply, ih]

theorem bfCoreM_map (A : Mat n n α) (ids : Fin k → Fin n) :
    bfCoreM (mapply φ A) ids = (bfCoreM A ids).map (mapply φ) := by
  have h0 : (fun r j => if j = ids r then some (0 : β) else none) =
      mapply φ (fun r j => if j = ids r then some (0 : α) else none) := by
    funext r j; simp only [mapply]; split
    · rw [Option.map_some, u.zero]
    · rfl
  have hi : ∀ D Cur : Mat k n α, (fun r => bfImproved (mapply φ (offdiag A)) none (mapply φ D r) (mapply φ Cur r)) =
      fun r => bfImproved (offdiag A) none (D r) (Cur r) := by
    intro D Cur; funext r; exact bfImproved_map u _ none _ _
  have hm : ∀ (D : Mat k n α) (v : Vec n α), mxv any' pairB (mapply φ D) (vapply φ v) = mxv any' pairB D v := by
    intro D v; funext r; simp only [mxv, mapply, vapply, pairB_vapply, pairB_vapply']
  simp only [bfCoreM, offdiag_mapply, h0, bfLoopM_map u, hasNegDiag_map u, diagVec_mapply, vselect_neg u, hm, hi,
    apply_ite (Except.map (mapply φ))]
  rfl

theorem necLoop_map (A : Mat n n α) (m : Nat) (d cur : Vec n α) :
    necLoop (mapply φ A) m (vapply φ d) (vapply φ cur) =
      (necLoop A m d cur).map fun p => (vapply φ p.1, vapply φ p.2) := by
  induction m generalizing d cur with
  | zero => rfl
  | succ m ih =>
    have := bfRound_map u A none d cur
    simp only [Option.map_none] at this
    simp only [necLoop, this, nvals_vapply]
    split
    · rfl
    · rw [vS_vapply, vassign_vapply, ih]

theorem necBody_map (O : Mat n n α) (degS : VMask n) (a b : Bool) :
    necBody (mapply φ O) degS a b = necBody O degS a b := by
  have h0 : vassignC degS (vempty : Vec n β) 0 = vapply φ (vassignC degS vempty 0) := by
    rw [← vassignC_vapply, u.zero]; rfl
  simp only [necBody, h0, necLoop_map u]
  split
  · rfl
  · split
    · rfl
    · cases necLoop O (n - 1) (vassignC degS vempty 0) (vassignC degS vempty 0) with
      | none => rfl
      | some p =>
        have := bfImproved_map u O none p.1 p.2
        simp only [Option.map_none] at this
        simp only [Option.map_some, this]

/-! ## paths -/

theorem bfParents_map (A : Mat n n α) (prev cur : Vec n α) :
    bfParents (mapply φ A) (vapply φ prev) (vapply φ cur) = bfParents A prev cur := by
  simp only [bfParents]
  congr 1
  funext i j
  simp only [mselect, vapply, Option.isSome_map]
  congr 2
  rw [show (if ((prev i).isSome && (cur j).isSome) = true then mapply φ A i j else none) =
    (if ((prev i).isSome && (cur j).isSome) = true then A i j else none).map φ by split <;> rfl,
    ointer_map φ u.add]
  exact ointer_map_eq φ (fun a b => by simp [eq_iff u]) _ _

theorem bfPathLoop_map (A : Mat n n α) (prune : Option (Fin n)) (m : Nat) (cut : Option α) (d cur : Vec n α)
    (p : Vec n (Fin n)) :
    bfPathLoop (mapply φ A) prune m (cut.map φ) (vapply φ d) (vapply φ cur) p =
      (mapState φ (bfPathLoop A prune m cut d cur p).1, (bfPathLoop A prune m cut d cur p).2) := by
  induction m generalizing cut d cur p with
  | zero => rfl
  | succ m ih =>
    simp only [bfPathLoop, bfRound_map u, nvals_vapply]
    split
    · rfl
    · rw [vS_vapply, vassign_vapply, bfNextCut_map, bfParents_map u, ih]

omit u in
theorem bfPathDiag_map (A : Mat n n α) (dst : Fin n) (path : List (Fin n)) (cur : Vec n α) :
    bfPathDiag (mapply φ A) dst path (vapply φ cur) = bfPathDiag A dst path cur := by
  have h : ∀ m : Vec n Bool, vmul first m (vapply φ cur) = vmul first m cur := by
    intro m; funext i; simp only [vmul, vapply]; cases m i <;> cases cur i <;> rfl
  simp only [bfPathDiag, diagVec_mapply, vassignR_vapply, nvals_vapply, h, offdiag_mapply, bfsPlainFrom_map]

theorem bfPathCore_map (A : Mat n n α) (src dst : Fin n) :
    bfPathCore (mapply φ A) src dst = bfPathCore A src dst := by
  have h0 : (vset vempty src (0 : β) : Vec n β) = vapply φ (vset vempty src 0) := by
    rw [← vset_vapply, u.zero]
  have hl := bfPathLoop_map u (offdiag A) (if hasNegEdgesM A then none else some dst) (n - 1) none
    (vset vempty src 0) (vset vempty src 0) (vset vempty src src)
  simp only [Option.map_none] at hl
  simp only [bfPathCore, offdiag_mapply, hasNegEdgesM_map u, hasNegDiag_map u, h0, hl]
  simp only [mapState, bfImproved_map u, bfRelax_map u, ← apply_ite (vapply φ), bfPathDiag_map]

/-! ## Floyd-Warshall -/

variable {choose : α → α → α} {choose' : β → β → β} (hc : ∀ a b, φ (choose a b) = choose' (φ a) (φ b))
include hc

omit u hc in
theorem fwStart_map (d : Bool) (A : Mat n n α) : fwStart d (mapply φ A) = mapply φ (fwStart d A) := by
  cases d <;> simp [fwStart, offdiag_mapply, triu1_mapply]

omit u hc in
theorem fwNonempty_map (d : Bool) (A : Mat n n α) : fwNonempty d (mapply φ A) = fwNonempty d A := by
  funext i
  simp only [fwNonempty, offdiag_mapply, transpose_mapply, mapply_row, nvals_vapply]

omit hc in
theorem fwOuter_map (D : Mat n n α) (i : Fin n) : fwOuter (mapply φ D) i = mapply φ (fwOuter D i) := by
  funext a b; exact ointer_map φ u.add _ _

theorem fwOuterU_map (D : Mat n n α) (i : Fin n) :
    fwOuterU choose' (mapply φ D) i = mapply φ (fwOuterU choose D i) := by
  have h : ∀ a, fwRowU choose' (mapply φ D) i a = (fwRowU choose D i a).map φ := fun a => map_omerge φ hc _ _
  funext a b
  simp only [fwOuterU, h]
  exact ointer_map φ u.add _ _

theorem fwStep_map (d : Bool) (D : Mat n n α) (i : Fin n) :
    fwStep d choose' (mapply φ D) i = mapply φ (fwStep d choose D i) := by
  cases d
  · simp only [fwStep, fwOuterU_map u hc, triu1_mapply, madd_mapply φ (map_min' u), Bool.false_eq_true, if_false]
  · simp only [fwStep, fwOuter_map u, offdiag_mapply, madd_mapply φ (map_min' u), if_true]

theorem fwLoop_map (d : Bool) (ne : VMask n) (D : Mat n n α) :
    fwLoop d choose' ne (mapply φ D) = mapply φ (fwLoop d choose ne D) := by
  simp only [fwLoop]
  generalize (List.finRange n).filter ne = l
  induction l generalizing D with
  | nil => rfl
  | cons i is ih => simp only [List.foldl_cons, fwStep_map u hc, ih]

theorem fwFinish_map (d : Bool) (D : Mat n n α) :
    fwFinish d choose' (mapply φ D) = mapply φ (fwFinish d choose D) := by
  funext a b
  simp only [fwFinish, transpose_mapply, madd_mapply φ hc]
  cases d <;> by_cases h : a = b <;> simp [h, mapply, u.zero]

theorem fwDist_map (d : Bool) (A : Mat n n α) : fwDist d choose' (mapply φ A) = mapply φ (fwDist d choose A) := by
  simp only [fwDist, fwNonempty_map, fwStart_map, fwLoop_map u hc, fwFinish_map u hc]

theorem fwDistPerm_map (d : Bool) (A : Mat n n α) (perm : Fin n → Fin n) :
    fwDistPerm d choose' (mapply φ A) perm = mapply φ (fwDistPerm d choose A perm) := by
  simp only [fwDistPerm, fwNonempty_map, fwStart_map, extract_mapply, fwLoop_map u hc, fwFinish_map u hc]

omit hc in
theorem fwImprove_map (d : Bool) (O D : Mat n n α) :
    fwImprove d (mapply φ O) (mapply φ D) = mapply φ (fwImprove d O D) := by
  funext a b
  simp only [fwImprove, mapply, ltmap u, Option.map_map]
  rw [show ((fun x : β => if d = true then decide (a ≠ b) else decide (a < b)) ∘ φ) =
    fun _ => if d = true then decide (a ≠ b) else decide (a < b) from rfl]
  cases d <;> simp only [Bool.false_eq_true, if_false, if_true] <;> split <;> rfl

theorem fwStepP_map (d : Bool) (cp : Fin n → Fin n → Fin n) (D : Mat n n α) (P : Mat n n (Fin n)) (i : Fin n) :
    fwStepP d choose' cp (mapply φ D, P) i =
      (mapply φ (fwStepP d choose cp (D, P) i).1, (fwStepP d choose cp (D, P) i).2) := by
  have h2 : ∀ a b, ointer second (mapply φ D a i) (P i b) = ointer second (D a i) (P i b) := by
    intro a b; simp only [mapply]; cases D a i <;> cases P i b <;> rfl
  cases d
  · simp only [fwStepP, fwOuterU_map u hc, fwImprove_map u, mS_mapply, massign_mapply, Bool.false_eq_true, if_false]
  · simp only [fwStepP, fwOuter_map u, fwImprove_map u, mS_mapply, massign_mapply, if_true, h2]

theorem fwPred_map (d : Bool) (cp : Fin n → Fin n → Fin n) (A : Mat n n α) :
    fwPred d choose' cp (mapply φ A) =
      ((fwPred d choose cp A).1, mapply φ (fwPred d choose cp A).2) := by
  have hl : ∀ (l : List (Fin n)) (D : Mat n n α) (P : Mat n n (Fin n)),
      l.foldl (fwStepP d choose' cp) (mapply φ D, P) =
        (mapply φ (l.foldl (fwStepP d choose cp) (D, P)).1, (l.foldl (fwStepP d choose cp) (D, P)).2) := by
    intro l
    induction l with
    | nil => intro D P; rfl
    | cons i is ih =>
      intro D P
      simp only [List.foldl_cons]
      rw [fwStepP_map u hc, ih]
  have hP : (fun a b => (mapply φ (fwStart d A) a b).map fun _ => a) = fun a b => (fwStart d A a b).map fun _ => a := by
    funext a b; simp only [mapply, Option.map_map]; rfl
  simp only [fwPred, fwStart_map, fwNonempty_map, hP, hl, fwFinish_map u hc]

end

end Proofs.Un
