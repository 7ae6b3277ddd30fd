import Verif.Proofs.NodeMask

open GB Spec Model Model.Graph Proofs

namespace Proofs.Cluster

variable {α R : Type} {n : Nat}

section core
variable [CommSemiring R] (o : Fin n → Fin n → R)

/-- both directions -/
def sy (i j : Fin n) : R := o i j + o j i

theorem sy_symm (i j) : sy o i j = sy o j i := add_comm _ _

/-- what the code sums, for `o` with zero diagonal -/
def dirHalf (v : Fin n) : R := ∑ a, ∑ b, o a b * (sy o v a * sy o v b)

theorem two_dirHalf (ho : ∀ i, o i i = 0) (v) : 2 * dirHalf o v = full (sy o) v := by
  have e : dirHalf o v = ∑ a, ∑ b, o b a * (sy o v a * sy o v b) := by
    unfold dirHalf
    rw [Finset.sum_comm]
    refine Finset.sum_congr rfl fun a _ => Finset.sum_congr rfl fun b _ => ?_
    ring
  rw [two_mul]
  nth_rw 2 [e]
  unfold dirHalf full
  simp only [← Finset.sum_add_distrib]
  refine Finset.sum_congr rfl fun a _ => Finset.sum_congr rfl fun b _ => ?_
  have hv : sy o v v = 0 := by simp [sy, ho]
  by_cases h1 : a = b
  · subst h1; simp [ho]
  by_cases h2 : a = v
  · subst h2; simp [hv]
  by_cases h3 : b = v
  · subst h3; simp [hv]
  rw [if_pos ⟨h1, h2, h3⟩]
  unfold sy; ring

theorem four_parts (v : Fin n) :
    (∑ j, o v j * ∑ k, o v k * o j k) + (∑ i, o i v * ∑ k, o i k * o v k) +
      (∑ j, o v j * ∑ k, o k v * o j k) + (∑ i, o i v * ∑ k, o k i * o k v) = dirHalf o v := by
  have e4 : (∑ i, o i v * ∑ k, o k i * o k v) = ∑ i, ∑ k, o i k * (o i v * o k v) := by
    simp only [Finset.mul_sum]
    rw [Finset.sum_comm]
    refine Finset.sum_congr rfl fun a _ => Finset.sum_congr rfl fun b _ => ?_
    ring
  rw [e4]
  unfold dirHalf
  simp only [Finset.mul_sum, ← Finset.sum_add_distrib]
  refine Finset.sum_congr rfl fun a _ => Finset.sum_congr rfl fun b _ => ?_
  unfold sy; ring

theorem four_single (v : Fin n) :
    (∑ j, o j v * ∑ k, o j k * o k v) + (∑ j, o v j * ∑ k, o j k * o k v) +
      (∑ j, o j v * ∑ k, o j k * o v k) + (∑ j, o v j * ∑ k, o j k * o v k) = dirHalf o v := by
  unfold dirHalf
  simp only [Finset.mul_sum, ← Finset.sum_add_distrib]
  refine Finset.sum_congr rfl fun a _ => Finset.sum_congr rfl fun b _ => ?_
  unfold sy; ring

end core

variable (A : Mat n n α)

/-- off-diagonal 0/1 matrix -/
def oadj (i j : Fin n) : Nat := ind (offdiag A i j)

theorem oadj_diag (i) : oadj A i i = 0 := by simp [oadj, offdiag]

theorem dirTri_getD (hno : ∀ i, A i i = none) (mask : NodeMask n) (v) :
    (dirTri A mask v).getD 0 = if inMask mask v then dirHalf (oadj A) v else 0 := by
  have hA : offdiag A = A := by
    funext i j; unfold offdiag; split
    · rename_i e; rw [← e, hno]
    · rfl
  have ho : ∀ i j, ind (A i j) = oadj A i j := by intro i j; unfold oadj; rw [hA]
  unfold dirTri
  simp only [vadd]
  rw [omerge_getD, omerge_getD, omerge_getD, maskNew_getD, maskNew_getD, maskNew_getD, maskNew_getD,
    reduceRow_getD, reduceCol_getD, reduceRow_getD, reduceCol_getD, ← four_parts]
  rw [hA]
  simp only [massignR_pair_getD, mxm_pair_getD, transpose, ho]
  split <;> simp

theorem one_eq (O : Mat n n α) (x y : Vec n α) :
    (reduce (· + ·) (vassignR (vS y) (mxv (· + ·) pairN O x))).getD 0 =
      ∑ j, ind (y j) * ∑ k, ind (O j k) * ind (x k) := by
  rw [reduce_add]
  refine Finset.sum_congr rfl fun a _ => ?_
  rw [← mxv_pair_getD]
  unfold vassignR
  by_cases h : vS y a
  · rw [if_pos h]
    have : ind (y a) = 1 := by unfold ind; exact if_pos h
    rw [this, one_mul]
  · rw [if_neg h]
    have : ind (y a) = 0 := by unfold ind; exact if_neg h
    rw [this]; simp

/-- out-neighbours and in-neighbours -/
def inn (v : Fin n) : Finset (Fin n) := Finset.univ.filter fun a => a ≠ v ∧ (A a v).isSome

theorem sum_oadj_row (v) : ∑ j, oadj A v j = (nbrs A v).card := by
  rw [nbrs, Finset.card_filter]
  refine Finset.sum_congr rfl fun a _ => ?_
  unfold oadj offdiag
  by_cases h : v = a
  · simp [h]
  · simp [h, Ne.symm h, ind]

theorem sum_oadj_col (v) : ∑ j, oadj A j v = (inn A v).card := by
  rw [inn, Finset.card_filter]
  refine Finset.sum_congr rfl fun a _ => ?_
  unfold oadj offdiag
  by_cases h : a = v
  · simp [h]
  · simp [h, ind]

theorem totalDegreesM_getD (v) :
    (totalDegreesM A v).getD 0 = (nbrs A v).card + (inn A v).card := by
  unfold totalDegreesM vadd
  rw [omerge_getD, countRow_getD, countRow_getD, ← sum_oadj_row, ← sum_oadj_col]
  rfl

theorem sum_oadj_recip (v) : ∑ j, ind (mmul pairN (offdiag A) (transpose (offdiag A)) v j) =
    (nbrs A v ∩ inn A v).card := by
  have : nbrs A v ∩ inn A v = Finset.univ.filter fun a => a ≠ v ∧ (A v a).isSome ∧ (A a v).isSome := by
    ext a; simp [nbrs, inn]; tauto
  rw [this, Finset.card_filter]
  refine Finset.sum_congr rfl fun a _ => ?_
  unfold mmul transpose offdiag
  by_cases h : v = a
  · simp [h]
  · rw [if_neg h, if_neg (Ne.symm h)]
    cases A v a <;> cases A a v <;> simp [Ne.symm h]

theorem recipDegreesM_getD (v) : (recipDegreesM A v).getD 0 = (nbrs A v ∩ inn A v).card := by
  unfold recipDegreesM
  rw [countRow_getD, sum_oadj_recip]

theorem dirDenom_getD (td rd : Vec n Nat) (v) : (dirDenom td rd v).getD 0 =
    ((td v).getD 0 : Int) * (((td v).getD 0 : Int) - 1) - 2 * ((rd v).getD 0 : Int) := by
  unfold dirDenom vunion degDenom vapply
  cases td v <;> cases rd v <;> simp [ounion]

theorem dirDenom_pos (v) (h : dirHalf (oadj A) v ≠ 0) :
    0 < (((nbrs A v).card + (inn A v).card : Nat) : Int) *
      ((((nbrs A v).card + (inn A v).card : Nat) : Int) - 1) - 2 * ((nbrs A v ∩ inn A v).card : Int) := by
  -- two distinct neighbours
  have hmem : ∀ a, sy (oadj A) v a ≠ 0 → a ∈ nbrs A v ∪ inn A v := by
    intro a ha
    unfold sy oadj offdiag at ha
    by_cases e : v = a
    · simp [e] at ha
    · rw [if_neg e, if_neg (Ne.symm e)] at ha
      simp only [nbrs, inn, Finset.mem_union, Finset.mem_filter, Finset.mem_univ, true_and]
      cases h1 : A v a <;> cases h2 : A a v <;> simp_all
      all_goals exact Ne.symm e
  obtain ⟨a, -, ha⟩ := Finset.exists_ne_zero_of_sum_ne_zero h
  obtain ⟨b, -, hb⟩ := Finset.exists_ne_zero_of_sum_ne_zero ha
  have h1 : oadj A a b ≠ 0 := left_ne_zero_of_mul hb
  have h2 : sy (oadj A) v a ≠ 0 := left_ne_zero_of_mul (right_ne_zero_of_mul hb)
  have h3 : sy (oadj A) v b ≠ 0 := right_ne_zero_of_mul (right_ne_zero_of_mul hb)
  have hab : a ≠ b := by rintro rfl; exact h1 (oadj_diag A a)
  have hm : 2 ≤ (nbrs A v ∪ inn A v).card := by
    rw [← Finset.card_pair hab]
    apply Finset.card_le_card
    intro x hx
    simp only [Finset.mem_insert, Finset.mem_singleton] at hx
    rcases hx with rfl | rfl
    · exact hmem _ h2
    · exact hmem _ h3
  have hc := Finset.card_union_add_card_inter (nbrs A v) (inn A v)
  generalize (nbrs A v ∪ inn A v).card = m at *
  generalize (nbrs A v ∩ inn A v).card = r at *
  rw [← hc]
  push_cast
  have hm' : (2 : Int) ≤ m := by exact_mod_cast hm
  have hr' : (0 : Int) ≤ r := by positivity
  nlinarith

end Proofs.Cluster
