import Verif.Model.Cluster
import Verif.Proofs.Count
import Mathlib.Tactic.Ring
import Mathlib.Tactic.Linarith
import Mathlib.Data.Finset.Prod

open GB Spec Model Model.Graph Proofs

namespace Proofs.Cluster

variable {α R : Type} {n : Nat}

section core
variable [CommSemiring R] (w : Fin n → Fin n → R)

/-- strictly lower part -/
def lo (i j : Fin n) : R := if j < i then w i j else 0
/-- strictly upper part -/
def up (i j : Fin n) : R := if i < j then w i j else 0

/-- pairs `b < a` of other nodes -/
def half (v : Fin n) : R := ∑ a, ∑ b, if b < a ∧ a ≠ v ∧ b ≠ v then w v a * w v b * w a b else 0
/-- ordered pairs -/
def full (v : Fin n) : R :=
  ∑ a, ∑ b, if a ≠ b ∧ a ≠ v ∧ b ≠ v then w v a * w v b * w a b else 0

variable {w}

theorem two_half (hs : ∀ i j, w i j = w j i) (v : Fin n) : 2 * half w v = full w v := by
  have e : half w v = ∑ a, ∑ b, if a < b ∧ a ≠ v ∧ b ≠ v then w v a * w v b * w a b else 0 := by
    unfold half
    rw [Finset.sum_comm]
    refine Finset.sum_congr rfl fun a _ => Finset.sum_congr rfl fun b _ => ?_
    rw [hs b a, mul_comm (w v b)]
    by_cases h1 : a < b <;> by_cases h2 : a = v <;> by_cases h3 : b = v <;> simp [h1, h2, h3]
  rw [two_mul]
  nth_rw 2 [e]
  unfold half full
  simp only [← Finset.sum_add_distrib]
  refine Finset.sum_congr rfl fun a _ => Finset.sum_congr rfl fun b _ => ?_
  rcases lt_trichotomy a b with h | h | h
  · simp [h, h.ne, h.not_gt]
  · simp [h]
  · simp [h, h.ne', h.not_gt]

theorem crow (v : Fin n) : ∑ j, lo w v j * ∑ k, lo w v k * lo w j k =
    ∑ a, ∑ b, if b < a ∧ a < v then w v a * w v b * w a b else 0 := by
  refine Finset.sum_congr rfl fun a _ => ?_
  rw [Finset.mul_sum]
  refine Finset.sum_congr rfl fun b _ => ?_
  unfold lo
  by_cases h1 : a < v <;> by_cases h2 : b < a
  · simp [h1, h2, h2.trans h1, mul_assoc]
  all_goals simp [h1, h2]

theorem ccol (hs : ∀ i j, w i j = w j i) (v : Fin n) : ∑ i, lo w i v * ∑ k, lo w i k * lo w v k =
    ∑ a, ∑ b, if b < v ∧ v < a then w v a * w v b * w a b else 0 := by
  refine Finset.sum_congr rfl fun a _ => ?_
  rw [Finset.mul_sum]
  refine Finset.sum_congr rfl fun b _ => ?_
  unfold lo
  by_cases h1 : v < a <;> by_cases h2 : b < v
  · rw [hs a v]
    simp [h1, h2, h2.trans h1]
    ring
  all_goals simp [h1, h2]

theorem drow (v : Fin n) : ∑ j, up w v j * ∑ k, up w v k * lo w j k =
    ∑ a, ∑ b, if v < b ∧ b < a then w v a * w v b * w a b else 0 := by
  refine Finset.sum_congr rfl fun a _ => ?_
  rw [Finset.mul_sum]
  refine Finset.sum_congr rfl fun b _ => ?_
  unfold lo up
  by_cases h1 : v < b <;> by_cases h2 : b < a
  · simp [h1, h2, h1.trans h2, mul_assoc]
  all_goals simp [h1, h2]

theorem three_parts (hs : ∀ i j, w i j = w j i) (v : Fin n) :
    (∑ j, lo w v j * ∑ k, lo w v k * lo w j k) + (∑ i, lo w i v * ∑ k, lo w i k * lo w v k) +
      (∑ j, up w v j * ∑ k, up w v k * lo w j k) = half w v := by
  rw [crow, ccol hs, drow]
  unfold half
  simp only [← Finset.sum_add_distrib]
  refine Finset.sum_congr rfl fun a _ => Finset.sum_congr rfl fun b _ => ?_
  rcases lt_trichotomy a v with h | h | h
  · by_cases h2 : b < a
    · simp [h, h2, h.ne, (h2.trans h).ne, h.not_gt, (h2.trans h).not_gt]
    · simp [h, h2, h.not_gt]
  · subst h
    by_cases h2 : b < a
    · simp [h2, h2.not_gt]
    · simp [h2]
  · rcases lt_trichotomy b v with h3 | h3 | h3
    · simp [h, h3, h.ne', h3.ne, h.not_gt, h3.not_gt, h3.trans h]
    · simp [h, h3, h.not_gt]
    · by_cases h2 : b < a <;> simp [h, h3, h2, h.ne', h3.ne', h.not_gt, h3.not_gt]

/-- the single-node sum -/
theorem single_half (v : Fin n) :
    (∑ a, (if a = v then 0 else w v a) * ∑ b, lo w a b * (if b = v then 0 else w v b)) = half w v := by
  unfold half
  refine Finset.sum_congr rfl fun a _ => ?_
  rw [Finset.mul_sum]
  refine Finset.sum_congr rfl fun b _ => ?_
  unfold lo
  by_cases h1 : a = v <;> by_cases h2 : b = v <;> by_cases h3 : b < a <;> simp [h1, h2, h3]
  ring

theorem total_three (hs : ∀ i j, w i j = w j i) :
    3 * ∑ i, ∑ j, lo w i j * ∑ k, lo w i k * up w j k = ∑ v, half w v := by
  simp only [← three_parts hs, Finset.sum_add_distrib]
  have e1 : ∑ v, ∑ j, lo w v j * ∑ k, lo w v k * lo w j k =
      ∑ i, ∑ j, lo w i j * ∑ k, lo w i k * up w j k := by
    refine Finset.sum_congr rfl fun v _ => ?_
    simp only [Finset.mul_sum]
    rw [Finset.sum_comm]
    refine Finset.sum_congr rfl fun a _ => Finset.sum_congr rfl fun b _ => ?_
    unfold lo up
    rw [hs b a]
    ring
  have e2 : ∑ v, ∑ i, lo w i v * ∑ k, lo w i k * lo w v k =
      ∑ i, ∑ j, lo w i j * ∑ k, lo w i k * up w j k := by
    rw [← e1, Finset.sum_comm]
  have e3 : ∑ v, ∑ j, up w v j * ∑ k, up w v k * lo w j k =
      ∑ i, ∑ j, lo w i j * ∑ k, lo w i k * up w j k := by
    rw [Finset.sum_comm]
    refine Finset.sum_congr rfl fun a _ => Finset.sum_congr rfl fun b _ => ?_
    rw [Finset.mul_sum, Finset.mul_sum]
    refine Finset.sum_congr rfl fun c _ => ?_
    unfold lo up
    rw [hs b a]
    ring
  rw [e1, e2, e3]; ring

end core

/-! ### the model's products in this notation -/

section pair
variable {A : Mat n n α}

/-- adjacency as 0/1 -/
def adj (A : Mat n n α) (i j : Fin n) : Nat := ind (A i j)

theorem ind_tril1 (i j) : ind (tril1 A i j) = lo (adj A) i j := by
  unfold tril1 lo adj; split <;> simp
theorem ind_triu1 (i j) : ind (triu1 A i j) = up (adj A) i j := by
  unfold triu1 up adj; split <;> simp

theorem massignR_pair_getD {M : Mat n n α} {T : Mat n n Nat} (i j) :
    (massignR (mS M) T i j).getD 0 = ind (M i j) * (T i j).getD 0 := by
  unfold massignR mS
  cases M i j <;> simp

theorem triC_getD (i j) : (triC (tril1 A) i j).getD 0 =
    lo (adj A) i j * ∑ k, lo (adj A) i k * lo (adj A) j k := by
  unfold triC
  rw [massignR_pair_getD, mxm_pair_getD]
  simp only [transpose, ind_tril1]

theorem triD_getD (i j) : (triD (triu1 A) (tril1 A) i j).getD 0 =
    up (adj A) i j * ∑ k, up (adj A) i k * lo (adj A) j k := by
  unfold triD
  rw [massignR_pair_getD, mxm_pair_getD]
  simp only [transpose, ind_tril1, ind_triu1]

/-- does the mask let row `i` through -/
def inMask (mask : NodeMask n) (i : Fin n) : Bool :=
  match mask with
  | none => true
  | some p => (p i).isSome

theorem maskNew_getD [AddCommMonoid R] (mask : NodeMask n) (v : Vec n R) (i) :
    (maskNew mask v i).getD 0 = if inMask mask i then (v i).getD 0 else 0 := by
  cases mask with
  | none => simp [maskNew, inMask]
  | some p => simp only [maskNew, vassignR, vS, inMask]; exact ite_none_getD _

theorem triSum_getD [AddCommMonoid R] (mask : NodeMask n) (C D : Mat n n R) (i) :
    (triSum mask C D i).getD 0 = if inMask mask i then
      (∑ j, (C i j).getD 0) + (∑ j, (C j i).getD 0) + ∑ j, (D i j).getD 0 else 0 := by
  unfold triSum vadd
  rw [omerge_getD, omerge_getD, maskNew_getD, maskNew_getD, maskNew_getD, reduceRow_getD,
    reduceCol_getD, reduceRow_getD]
  split <;> simp

theorem adj_symm (hs : ∀ i j, A i j = A j i) (i j) : adj A i j = adj A j i := by
  unfold adj; rw [hs]

theorem trianglesVec_getD (hs : ∀ i j, A i j = A j i) (mask : NodeMask n) (v) :
    (trianglesVec A mask v).getD 0 =
      if inMask mask v then half (adj A) v else 0 := by
  unfold trianglesVec
  rw [triSum_getD]
  simp only [triC_getD, triD_getD, three_parts (adj_symm hs)]

theorem trianglesVec_mask (mask : NodeMask n) {v p} (hp : mask = some p) (hv : (p v).isSome = false) :
    trianglesVec A mask v = none := by
  subst hp
  simp [trianglesVec, triSum, vadd, maskNew, vassignR, vS, hv]

theorem ind_rowOff (v a) : ind (rowOff A v a) = if a = v then 0 else adj A v a := by
  unfold rowOff vdel adj; split <;> simp

theorem singleTriangleAt_eq (v) : singleTriangleAt A v = half (adj A) v := by
  rw [← single_half]
  unfold singleTriangleAt
  rw [reduce_add]
  refine Finset.sum_congr rfl fun a _ => ?_
  have : (vassignR (vS (rowOff A v)) (mxv (· + ·) pairN (tril1 A) (rowOff A v)) a).getD 0 =
      ind (rowOff A v a) * (mxv (· + ·) pairN (tril1 A) (rowOff A v) a).getD 0 := by
    unfold vassignR vS
    cases rowOff A v a <;> simp
  rw [this, mxv_pair_getD]
  simp only [ind_rowOff, ind_tril1]

theorem totalTriangles_three (hs : ∀ i j, A i j = A j i) :
    3 * totalTriangles A = ∑ v, half (adj A) v := by
  rw [← total_three (adj_symm hs)]
  congr 1
  unfold totalTriangles
  rw [reduceScalar_getD]
  refine Finset.sum_congr rfl fun i _ => Finset.sum_congr rfl fun j _ => ?_
  rw [massignR_pair_getD, mxm_pair_getD]
  simp only [transpose, ind_tril1, ind_triu1]

end pair

/-! ### weighted -/
section weighted
variable [CommSemiring R] {A : Mat n n α} (f : α → R)

/-- normalised weight, 0 when absent -/
def wt (A : Mat n n α) (i j : Fin n) : R := ((A i j).map f).getD 0

theorem wt_symm (hs : ∀ i j, A i j = A j i) (i j) : wt f A i j = wt f A j i := by
  unfold wt; rw [hs]

theorem mapply_tril1 (i j) : (mapply f (tril1 A) i j).getD 0 = lo (wt f A) i j := by
  unfold mapply tril1 lo wt; split <;> simp
theorem mapply_triu1 (i j) : (mapply f (triu1 A) i j).getD 0 = up (wt f A) i j := by
  unfold mapply triu1 up wt; split <;> simp

theorem mmul_mask_getD {M T : Mat n n R} (i j) :
    (mmul (· * ·) (massignR (mS M) T) M i j).getD 0 = (M i j).getD 0 * (T i j).getD 0 := by
  unfold mmul massignR mS
  rw [ointer_mul_getD]
  cases M i j <;> simp [mul_comm]

theorem trianglesVecW_getD (hs : ∀ i j, A i j = A j i) (mask : NodeMask n) (v) :
    (trianglesVecW f A mask v).getD 0 =
      if inMask mask v then half (wt f A) v else 0 := by
  unfold trianglesVecW
  rw [triSum_getD]
  simp only [mmul_mask_getD, mxm_times_getD, transpose, mapply_tril1, mapply_triu1,
    three_parts (wt_symm f hs)]

theorem singleTriangleAtW_eq (v) : singleTriangleAtW f A v = half (wt f A) v := by
  rw [← single_half]
  unfold singleTriangleAtW
  rw [reduce_add]
  refine Finset.sum_congr rfl fun a _ => ?_
  have hr : ∀ a, (vapply f (rowOff A v) a).getD 0 = if a = v then 0 else wt f A v a := by
    intro a; unfold vapply rowOff vdel wt; split <;> simp
  unfold vmul
  rw [ointer_mul_getD, hr]
  by_cases ha : (vapply f (rowOff A v) a).isSome
  · rw [show vassignR (vS (vapply f (rowOff A v)))
      (mxv (· + ·) (· * ·) (mapply f (tril1 A)) (vapply f (rowOff A v))) a =
      mxv (· + ·) (· * ·) (mapply f (tril1 A)) (vapply f (rowOff A v)) a from by
        unfold vassignR vS; rw [if_pos ha]]
    rw [mxv_times_getD]
    simp only [mapply_tril1, hr]
    rw [mul_comm]
  · have h0 : (if a = v then 0 else wt f A v a) = 0 := by
      rw [← hr]
      simp only [Bool.not_eq_true, Option.isSome_eq_false_iff, Option.isNone_iff_eq_none] at ha
      rw [ha]; rfl
    rw [h0]; simp

end weighted

/-! ### degrees and bounds -/
section deg
variable (A : Mat n n α)

/-- neighbours other than the node itself -/
def nbrs (v : Fin n) : Finset (Fin n) := Finset.univ.filter fun a => a ≠ v ∧ (A v a).isSome

theorem countRow_offdiag_getD (v) : (countRow (offdiag A) v).getD 0 = (nbrs A v).card := by
  rw [countRow_getD, nbrs, Finset.card_filter]
  refine Finset.sum_congr rfl fun a _ => ?_
  unfold offdiag
  by_cases h : v = a
  · simp [h]
  · simp [h, Ne.symm h, ind]

theorem full_eq_card (v) : full (adj A) v =
    ((nbrs A v).offDiag.filter fun p => (A p.1 p.2).isSome).card := by
  unfold full
  rw [← Finset.sum_product', Finset.card_eq_sum_ones, Finset.sum_filter, Finset.univ_product_univ]
  have : (nbrs A v).offDiag = Finset.univ.filter fun p : Fin n × Fin n =>
      p.1 ∈ nbrs A v ∧ p.2 ∈ nbrs A v ∧ p.1 ≠ p.2 := by ext p; simp
  rw [this, Finset.sum_filter]
  refine Finset.sum_congr rfl fun p _ => ?_
  obtain ⟨a, b⟩ := p
  simp only [nbrs, Finset.mem_filter, Finset.mem_univ, true_and, adj, ind]
  by_cases h1 : a = b <;> by_cases h2 : a = v <;> by_cases h3 : b = v <;>
    cases A v a <;> cases A v b <;> cases A a b <;> simp_all

theorem full_le (v) : full (adj A) v ≤ (nbrs A v).card * ((nbrs A v).card - 1) := by
  rw [full_eq_card, Nat.mul_sub_one, ← Finset.offDiag_card]
  exact Finset.card_filter_le _ _

theorem degDenom_getD (deg : Vec n Nat) (v) :
    (degDenom deg v).getD 0 = ((deg v).getD 0 : Int) * (((deg v).getD 0 : Int) - 1) := by
  unfold degDenom vapply
  cases deg v <;> simp

theorem singleDegree_eq (v) : singleDegree A v = (nbrs A v).card := by
  unfold singleDegree nvals
  have e : (Finset.univ.filter fun a => (A v a).isSome) =
      nbrs A v ∪ (if (A v v).isSome then {v} else ∅) := by
    ext a
    unfold nbrs
    by_cases h : a = v
    · subst h; cases h : A a a <;> simp [h]
    · cases h2 : A v v <;> simp [h]
  have hd : Disjoint (nbrs A v) (if (A v v).isSome then {v} else ∅) := by
    split
    · simp [nbrs]
    · simp
  rw [e, Finset.card_union_of_disjoint hd]
  split <;> simp

end deg

end Proofs.Cluster
