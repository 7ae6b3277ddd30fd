import Verif.Spec.Cache
import Verif.Proofs.Count

/-! Facts about the defined property values (no caching code here). -/

open GB Spec.Prop

namespace Proofs.CacheMath

variable {ι α : Type} {n : Nat} {A : Mat n n α}

/-- no node has an edge to itself -/
def NoSelf (A : Mat n n α) : Prop := ∀ i, A i i = none

theorem not_noSelf : ¬ NoSelf A ↔ ∃ i, (A i i).isSome := by
  simp only [NoSelf, not_forall, Option.isSome_iff_ne_none, ne_eq]

theorem noSelf_iff : NoSelf A ↔ ¬ ∃ i, (A i i).isSome := by
  rw [← not_noSelf, not_not]

theorem offdiag_of (h : NoSelf A) : offdiag A = A := by
  funext i j; unfold offdiag; split
  · next e => subst e; exact (h i).symm
  · rfl
theorem part_of (h : NoSelf A) (s t : Sign) : part s A = part t A := by
  cases s <;> cases t <;> simp [part, offdiag_of h]
theorem triu_of (h : NoSelf A) : triu A = triu1 A := by
  funext i j; unfold triu triu1
  rcases lt_trichotomy i j with e | e | e
  · simp [e, e.le]
  · subst e; simp [h i]
  · simp [not_le.2 e, not_lt.2 e.le]
theorem tril_of (h : NoSelf A) : tril A = tril1 A := by
  funext i j; unfold tril tril1
  rcases lt_trichotomy i j with e | e | e
  · simp [not_le.2 e, not_lt.2 e.le]
  · subst e; simp [h i]
  · simp [e, e.le]
theorem diag_of (h : NoSelf A) : diagVec A = vempty := funext h
theorem triu1_triu : triu1 (triu A) = triu1 A := by
  funext i j; unfold triu triu1; split
  · next e => simp [e.le]
  · rfl
theorem tril1_tril : tril1 (tril A) = tril1 A := by
  funext i j; unfold tril tril1; split
  · next e => simp [e.le]
  · rfl
theorem triu1_offdiag : triu1 (offdiag A) = triu1 A := by
  funext i j; unfold offdiag triu1; split
  · next e => simp [e.ne]
  · rfl
theorem tril1_offdiag : tril1 (offdiag A) = tril1 A := by
  funext i j; unfold offdiag tril1; split
  · next e => simp [e.ne']
  · rfl
theorem diag_triu : diagVec (triu A) = diagVec A := by funext i; simp [diagVec, triu]
theorem diag_tril : diagVec (tril A) = diagVec A := by funext i; simp [diagVec, tril]

/-! ## counting -/

theorem mnvals_sum (A : Mat n n α) : mnvals A = ∑ i, ∑ j, ind (A i j) := by
  rw [mnvals_eq_sum]; simp only [nvals_eq_sum]

theorem nvals_diag (A : Mat n n α) : nvals (diagVec A) = ∑ i, ∑ j, if i = j then ind (A i j) else 0 := by
  rw [nvals_eq_sum]; simp [diagVec]

theorem nvals_diag_pos : 0 < nvals (diagVec A) ↔ ¬ NoSelf A := by
  rw [nvals_pos, not_noSelf]; rfl

theorem cnt_offdiag (A : Mat n n α) : mnvals A = mnvals (offdiag A) + nvals (diagVec A) := by
  rw [mnvals_sum, mnvals_sum, nvals_diag, ← Finset.sum_add_distrib]
  refine Finset.sum_congr rfl fun i _ => ?_
  rw [← Finset.sum_add_distrib]
  refine Finset.sum_congr rfl fun j _ => ?_
  unfold offdiag; split <;> simp

theorem cnt_triu (A : Mat n n α) : mnvals (triu A) = mnvals (triu1 A) + nvals (diagVec A) := by
  rw [mnvals_sum, mnvals_sum, nvals_diag, ← Finset.sum_add_distrib]
  refine Finset.sum_congr rfl fun i _ => ?_
  rw [← Finset.sum_add_distrib]
  refine Finset.sum_congr rfl fun j _ => ?_
  unfold triu triu1
  rcases lt_trichotomy i j with e | e | e
  · simp [e, e.le, e.ne]
  · subst e; simp
  · simp [not_le.2 e, not_lt.2 e.le, e.ne']

theorem cnt_tril (A : Mat n n α) : mnvals (tril A) = mnvals (tril1 A) + nvals (diagVec A) := by
  rw [mnvals_sum, mnvals_sum, nvals_diag, ← Finset.sum_add_distrib]
  refine Finset.sum_congr rfl fun i _ => ?_
  rw [← Finset.sum_add_distrib]
  refine Finset.sum_congr rfl fun j _ => ?_
  unfold tril tril1
  rcases lt_trichotomy i j with e | e | e
  · simp [not_le.2 e, not_lt.2 e.le, e.ne]
  · subst e; simp
  · simp [e, e.le, e.ne']

theorem cnt_lu (A : Mat n n α) :
    mnvals (offdiag A) = mnvals (triu1 A) + mnvals (tril1 A) := by
  rw [mnvals_sum, mnvals_sum, mnvals_sum, ← Finset.sum_add_distrib]
  refine Finset.sum_congr rfl fun i _ => ?_
  rw [← Finset.sum_add_distrib]
  refine Finset.sum_congr rfl fun j _ => ?_
  unfold offdiag triu1 tril1
  rcases lt_trichotomy i j with e | e | e
  · simp [not_lt.2 e.le, e.ne, e]
  · subst e; simp
  · simp [not_lt.2 e.le, e.ne', e]

theorem cnt_symm (h : ∀ i j, A i j = A j i) : mnvals (triu1 A) = mnvals (tril1 A) := by
  rw [mnvals_sum, mnvals_sum, Finset.sum_comm]
  refine Finset.sum_congr rfl fun i _ => Finset.sum_congr rfl fun j _ => ?_
  unfold triu1 tril1
  rw [h j i]

/-! ## reductions form a commutative monoid -/

variable {op : α → α → α}

theorem omerge_comm (hc : ∀ a b, op a b = op b a) (x y : Option α) :
    omerge op x y = omerge op y x := by
  cases x <;> cases y <;> simp [hc]
theorem omerge_assoc (ha : ∀ a b c, op (op a b) c = op a (op b c)) (x y z : Option α) :
    omerge op (omerge op x y) z = omerge op x (omerge op y z) := by
  cases x <;> cases y <;> cases z <;> simp [ha]

/-- `Option α` with `omerge` -/
@[reducible] def omergeMonoid (op : α → α → α) (ha : ∀ a b c, op (op a b) c = op a (op b c))
    (hc : ∀ a b, op a b = op b a) : AddCommMonoid (Option α) where
  add := omerge op
  zero := none
  add_assoc := omerge_assoc ha
  add_comm := omerge_comm hc
  zero_add := omerge_none_left op
  add_zero := omerge_none_right op
  nsmul := @nsmulRec (Option α) ⟨none⟩ ⟨omerge op⟩

theorem foldl_eq_sum (ha : ∀ a b c, op (op a b) c = op a (op b c)) (hc : ∀ a b, op a b = op b a)
    {κ : Type} (g : κ → Option α) (l : List κ) (x : Option α) :
    letI := omergeMonoid op ha hc
    l.foldl (fun acc i => omerge op acc (g i)) x = x + (l.map g).sum := by
  letI := omergeMonoid op ha hc
  induction l generalizing x with
  | nil => exact (add_zero x).symm
  | cons a l ih =>
    simp only [List.foldl_cons, ih, List.map_cons, List.sum_cons, ← add_assoc]
    rfl

theorem reduce_eq_sum (ha : ∀ a b c, op (op a b) c = op a (op b c)) (hc : ∀ a b, op a b = op b a)
    (v : Vec n α) :
    letI := omergeMonoid op ha hc
    reduce op v = ∑ i, v i := by
  letI := omergeMonoid op ha hc
  rw [reduce, foldl_eq_sum ha hc, show (none : Option α) = 0 from rfl, zero_add]
  rw [← List.sum_toFinset v (List.nodup_finRange n), List.toFinset_finRange]

theorem reduce_omerge (ha : ∀ a b c, op (op a b) c = op a (op b c)) (hc : ∀ a b, op a b = op b a)
    (u v : Vec n α) : reduce op (vadd op u v) = omerge op (reduce op u) (reduce op v) := by
  letI := omergeMonoid op ha hc
  rw [reduce_eq_sum ha hc, reduce_eq_sum ha hc, reduce_eq_sum ha hc]
  exact Finset.sum_add_distrib

theorem reduce_col (ha : ∀ a b c, op (op a b) c = op a (op b c)) (hc : ∀ a b, op a b = op b a)
    (B : Mat n n α) : reduce op (reduceRow op (transpose B)) = reduceScalar op B := by
  letI := omergeMonoid op ha hc
  simp only [reduceScalar, reduceRow, reduce_eq_sum ha hc, transpose]
  exact Finset.sum_comm

theorem lu_merge (A : Mat n n α) (i j) : omerge op (tril1 A i j) (triu1 A i j) = offdiag A i j := by
  unfold tril1 triu1 offdiag
  rcases lt_trichotomy i j with e | e | e
  · simp [not_lt.2 e.le, e.ne, e]
  · subst e; simp
  · simp [not_lt.2 e.le, e.ne', e]

theorem lu_red (f : ι → α → α → α) (o : ι)
    (ha : ∀ a b c, f o (f o a b) c = f o a (f o b c)) (hc : ∀ a b, f o a b = f o b a)
    (ax : Axis) (A : Mat n n α) :
    vadd (f o) (red f (.mon o) ax (tril1 A)) (red f (.mon o) ax (triu1 A))
      = red f (.mon o) ax (offdiag A) := by
  cases ax
  · funext i
    have := reduce_omerge ha hc (tril1 A i) (triu1 A i)
    simp only [red, redRow, vadd, reduceRow]
    rw [← this]
    congr 1
    funext j; exact lu_merge A i j
  · funext i
    have := reduce_omerge ha hc (fun j => tril1 A j i) (fun j => triu1 A j i)
    simp only [red, redRow, vadd, reduceRow]
    refine this.symm.trans ?_
    congr 1
    funext j; exact lu_merge A j i

/-! ## counts -/

theorem countRow_eq_reduce (B : Mat n n Nat) (h : ∀ i j x, B i j = some x → x = 1) :
    reduceRow (· + ·) B = countRow B := by
  funext i
  have hind : ∀ j, (B i j).getD 0 = ind (B i j) := by
    intro j
    cases hb : B i j with
    | none => rfl
    | some x => simp [h i j x hb]
  unfold countRow reduceRow
  split
  · next e =>
    rw [nvals_eq_zero] at e
    rw [reduce_eq_none]; exact e
  · next e =>
    obtain ⟨j, hj⟩ := nvals_pos.1 (Nat.pos_of_ne_zero e)
    rw [reduce_add_of_isSome hj, nvals_eq_sum]
    simp only [hind]

theorem pair_one (B : Mat n n α) (C : Mat n n α) (i j x) (h : mmul pairN B C i j = some x) :
    x = 1 := by
  unfold mmul at h
  rw [ointer_eq_some] at h
  obtain ⟨_, _, _, _, rfl⟩ := h
  rfl

theorem pairRow_eq (B C : Mat n n α) :
    reduceRow (· + ·) (mmul pairN B C) = countRow (mmul pairN B C) :=
  countRow_eq_reduce _ (pair_one B C)

theorem pair_offdiag (C : Mat n n α) :
    mmul pairN (offdiag C) (transpose C) = recipMat (offdiag C) := by
  funext i j
  unfold recipMat mmul transpose offdiag
  by_cases e : i = j
  · simp [e]
  · simp [e, Ne.symm e]

/-- two vectors of natural numbers without stored zeros are equal when their numeric readings
are -/
theorem vec_ext_getD {u v : Vec n Nat} (hu : ∀ i, u i ≠ some 0) (hv : ∀ i, v i ≠ some 0)
    (h : ∀ i, (u i).getD 0 = (v i).getD 0) : u = v := by
  funext i
  have h1 := hu i; have h2 := hv i; have h3 := h i
  revert h1 h2 h3
  cases u i <;> cases v i <;> simp <;> omega

theorem countRow_ne_zero {β : Type} (B : Mat n n β) (i) : countRow B i ≠ some 0 := by
  unfold countRow; split
  · simp
  · next e => simpa using e

theorem vadd_ne_zero {u v : Vec n Nat} (hu : ∀ i, u i ≠ some 0) (hv : ∀ i, v i ≠ some 0) (i) :
    vadd (· + ·) u v i ≠ some 0 := by
  have h1 := hu i; have h2 := hv i
  unfold vadd
  revert h1 h2
  cases u i <;> cases v i <;> simp <;> omega

/-- reciprocal degrees with self-edges = without + one for a self-edge -/
theorem recip_split (A : Mat n n α) (i) :
    (countRow (recipMat A) i).getD 0 = (countRow (recipMat (offdiag A)) i).getD 0 + ind (A i i) := by
  rw [countRow_getD, countRow_getD]
  have : ind (A i i) = ∑ j, if i = j then ind (A i j) else 0 := by simp
  rw [this, ← Finset.sum_add_distrib]
  refine Finset.sum_congr rfl fun j _ => ?_
  unfold recipMat mmul transpose offdiag
  by_cases e : i = j
  · subst e; simp; cases A i i <;> rfl
  · simp [e, Ne.symm e]

theorem oneDiag_getD (A : Mat n n α) (i) :
    (vapply (fun _ => 1) (diagVec A) i : Option Nat).getD 0 = ind (A i i) := by
  unfold vapply diagVec; cases A i i <;> rfl

theorem oneDiag_ne_zero (A : Mat n n α) (i) :
    (vapply (fun _ => 1) (diagVec A) i : Option Nat) ≠ some 0 := by
  unfold vapply diagVec; cases A i i <;> simp

theorem recip_plus (A : Mat n n α) :
    vadd (· + ·) (vapply (fun _ => 1) (diagVec A)) (countRow (recipMat (offdiag A)))
      = countRow (recipMat A) := by
  refine vec_ext_getD (vadd_ne_zero (oneDiag_ne_zero A) (countRow_ne_zero _)) (countRow_ne_zero _)
    fun i => ?_
  rw [recip_split]
  unfold vadd
  rw [omerge_getD, oneDiag_getD, add_comm]

theorem recip_minus_at (A : Mat n n α) (i) :
    (vadd (fun a b => a - b) (countRow (recipMat A)) (vapply (fun _ => 1) (diagVec A)) i).filter
      (· ≠ 0) = countRow (recipMat (offdiag A)) i := by
  have h := recip_split A i
  have h1 := countRow_ne_zero (recipMat A) i
  have h2 := countRow_ne_zero (recipMat (offdiag A)) i
  revert h h1 h2
  unfold vadd vapply diagVec
  generalize countRow (recipMat A) i = x
  generalize countRow (recipMat (offdiag A)) i = y
  rcases A i i with _ | a <;> rcases x with _ | x <;> rcases y with _ | y <;>
    simp [Option.filter] <;> omega

/-- the mask may be applied before or after the subtraction -/
theorem recip_minus_mask (A : Mat n n α) (m : VMask n) (i) :
    (vassignR m (vadd (fun a b => a - b) (countRow (recipMat A))
      (vapply (fun _ => 1) (diagVec A))) i).filter (· ≠ 0)
      = vassignR m (countRow (recipMat (offdiag A))) i := by
  unfold vassignR
  split
  · exact recip_minus_at A i
  · rfl

theorem recip_lu (A : Mat n n α) :
    vadd (· + ·) (countRow (mmul pairN (tril1 A) (transpose A)))
      (countRow (mmul pairN (triu1 A) (transpose A))) = countRow (recipMat (offdiag A)) := by
  refine vec_ext_getD (vadd_ne_zero (countRow_ne_zero _) (countRow_ne_zero _)) (countRow_ne_zero _)
    fun i => ?_
  unfold vadd
  rw [omerge_getD, countRow_getD, countRow_getD, countRow_getD, ← Finset.sum_add_distrib]
  refine Finset.sum_congr rfl fun j _ => ?_
  unfold recipMat mmul transpose tril1 triu1 offdiag
  rcases lt_trichotomy i j with e | e | e
  · simp [not_lt.2 e.le, e.ne, e, e.ne']
  · subst e; simp
  · simp [not_lt.2 e.le, e.ne', e, e.ne]

theorem mnvals_recip (B : Mat n n α) :
    (reduce (· + ·) (countRow (recipMat B))).getD 0 = mnvals (recipMat B) := by
  rw [reduce_add, mnvals_sum]
  simp only [countRow_getD]

theorem totrecip_split (A : Mat n n α) :
    mnvals (recipMat A) = mnvals (recipMat (offdiag A)) + nvals (diagVec A) := by
  rw [← mnvals_recip, ← mnvals_recip, reduce_add, reduce_add, nvals_eq_sum,
    ← Finset.sum_add_distrib]
  exact Finset.sum_congr rfl fun i _ => recip_split A i

theorem recip_ne : countRow (recipMat (offdiag A)) ≠ countRow (recipMat A) ↔ ¬ NoSelf A := by
  refine not_congr ⟨fun h i => ?_, fun h => by rw [offdiag_of h]⟩
  have := recip_split A i
  rw [h] at this
  cases hA : A i i
  · rfl
  · simp [hA] at this

/-- `row_degrees + column_degrees` -/
def totd (B : Mat n n α) : Vec n Nat := vadd (· + ·) (countRow B) (countRow (transpose B))

theorem totd_getD (B : Mat n n α) (i) :
    (totd B i).getD 0 = ∑ j, ind (B i j) + ∑ j, ind (B j i) := by
  unfold totd vadd
  rw [omerge_getD, countRow_getD, countRow_getD]
  rfl

theorem ind_offdiag (A : Mat n n α) (i j) :
    ind (A i j) = ind (offdiag A i j) + if i = j then ind (A i j) else 0 := by
  unfold offdiag; split <;> simp

theorem totd_split (A : Mat n n α) (i) :
    (totd A i).getD 0 = (totd (offdiag A) i).getD 0 + 2 * ind (A i i) := by
  rw [totd_getD, totd_getD]
  have h1 : ∑ j, ind (A i j) = ∑ j, ind (offdiag A i j) + ind (A i i) := by
    rw [Finset.sum_congr rfl fun j _ => ind_offdiag A i j, Finset.sum_add_distrib]; simp
  have h2 : ∑ j, ind (A j i) = ∑ j, ind (offdiag A j i) + ind (A i i) := by
    rw [Finset.sum_congr rfl fun j _ => ind_offdiag A j i, Finset.sum_add_distrib]; simp
  rw [h1, h2]; ring

theorem totd_sum (B : Mat n n α) : (reduce (· + ·) (totd B)).getD 0 = 2 * mnvals B := by
  rw [reduce_add, mnvals_sum]
  simp only [totd_getD]
  rw [Finset.sum_add_distrib, Finset.sum_comm (f := fun i j => ind (B j i))]
  ring

theorem totd_ne : totd (offdiag A) ≠ totd A ↔ ¬ NoSelf A := by
  refine not_congr ⟨fun h i => ?_, fun h => by rw [offdiag_of h]⟩
  have := totd_split A i
  rw [h] at this
  cases hA : A i i
  · rfl
  · simp [hA] at this

/-! ## masks -/

theorem vassignR_vadd {β : Type} (m : VMask n) (g : β → β → β) (u v : Vec n β) :
    vadd g (vassignR m u) (vassignR m v) = vassignR m (vadd g u v) := by
  funext i; unfold vadd vassignR; split <;> simp

/-! ## negativity -/

variable [LinearOrder α] [Zero α]

theorem reduce_neg {op : α → α → α} (hmin : ∀ a b, op a b = min a b) (v : Vec n α) :
    ((reduce op v).getD 0 < 0) ↔ ∃ i, (v i).any (· < 0) = true := by
  have : op = min := by funext a b; exact hmin a b
  subst this
  cases h : reduce min v with
  | none =>
    rw [reduce_eq_none] at h
    simp [h]
  | some x =>
    obtain ⟨⟨i, hi⟩, hm⟩ := reduce_min.1 h
    constructor
    · intro hx; exact ⟨i, by simpa [hi] using hx⟩
    · rintro ⟨j, hj⟩
      cases hv : v j with
      | none => simp [hv] at hj
      | some y =>
        rw [hv] at hj
        simp only [Option.any_some, decide_eq_true_eq] at hj
        exact lt_of_le_of_lt (hm j y hv) hj

end Proofs.CacheMath
