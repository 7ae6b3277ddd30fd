import Verif.GB.Lemmas
import Verif.Spec.Count
import Verif.Proofs.SubGraph
import Mathlib.Algebra.BigOperators.Ring.Finset
import Mathlib.Algebra.BigOperators.Ring.List
import Mathlib.Algebra.BigOperators.GroupWithZero.Finset

/-! Arithmetic reading of sparse objects (`absent = 0`) and sums over nodes. -/

open GB Spec Model Model.Graph

namespace Proofs

section num
variable {α β R : Type*} {m n k : Nat}

/-- 1 where something is stored -/
def ind (o : Option α) : Nat := if o.isSome then 1 else 0

@[simp] theorem ind_none : ind (none : Option α) = 0 := rfl
@[simp] theorem ind_some (a : α) : ind (some a) = 1 := rfl
theorem ind_le (o : Option α) : ind o ≤ 1 := by cases o <;> simp
theorem ind_eq_ite (o : Option α) : ind o = if o.isSome then 1 else 0 := rfl
theorem ind_mul_self (o : Option α) : ind o * ind o = ind o := by cases o <;> rfl

theorem omerge_getD [AddCommMonoid R] (a b : Option R) :
    (omerge (· + ·) a b).getD 0 = a.getD 0 + b.getD 0 := by
  cases a <;> cases b <;> simp

theorem ointer_mul_getD [MulZeroClass R] (a b : Option R) :
    (ointer (· * ·) a b).getD 0 = a.getD 0 * b.getD 0 := by
  cases a <;> cases b <;> simp

theorem ointer_pairN_getD (a : Option α) (b : Option β) :
    (ointer pairN a b).getD 0 = ind a * ind b := by
  cases a <;> cases b <;> simp [pairN]

theorem ointer_div_getD [DivisionRing R] (a b : Option R) :
    (ointer (· / ·) a b).getD 0 = a.getD 0 / b.getD 0 := by
  cases a <;> cases b <;> simp

theorem ounion_sub_getD [AddGroup R] (a b : Option R) :
    (ounion (· - ·) 0 0 a b).getD 0 = a.getD 0 - b.getD 0 := by
  cases a <;> cases b <;> simp [ounion]

theorem mxm_times_getD [NonUnitalNonAssocSemiring R] (A : Mat m k R) (B : Mat k n R) (i j) :
    (mxm (· + ·) (· * ·) A B i j).getD 0 = ∑ l, (A i l).getD 0 * (B l j).getD 0 := by
  rw [mxm, reduce_add]; simp [ointer_mul_getD]

theorem mxm_pair_getD (A : Mat m k α) (B : Mat k n β) (i j) :
    (mxm (· + ·) pairN A B i j).getD 0 = ∑ l, ind (A i l) * ind (B l j) := by
  rw [mxm, reduce_add]; simp [ointer_pairN_getD]

theorem mxv_times_getD [NonUnitalNonAssocSemiring R] (A : Mat m k R) (v : Vec k R) (i) :
    (mxv (· + ·) (· * ·) A v i).getD 0 = ∑ l, (A i l).getD 0 * (v l).getD 0 := by
  rw [mxv, reduce_add]; simp [ointer_mul_getD]

theorem mxv_pair_getD (A : Mat m k α) (v : Vec k β) (i) :
    (mxv (· + ·) pairN A v i).getD 0 = ∑ l, ind (A i l) * ind (v l) := by
  rw [mxv, reduce_add]; simp [ointer_pairN_getD]

theorem vxm_times_getD [NonUnitalNonAssocSemiring R] (v : Vec k R) (A : Mat k n R) (j) :
    (vxm (· + ·) (· * ·) v A j).getD 0 = ∑ l, (v l).getD 0 * (A l j).getD 0 := by
  rw [vxm, reduce_add]; simp [ointer_mul_getD]

theorem vxm_pair_getD (v : Vec k α) (A : Mat k n β) (j) :
    (vxm (· + ·) pairN v A j).getD 0 = ∑ l, ind (v l) * ind (A l j) := by
  rw [vxm, reduce_add]; simp [ointer_pairN_getD]

theorem reduceRow_getD [AddCommMonoid R] (A : Mat m n R) (i) :
    (reduceRow (· + ·) A i).getD 0 = ∑ j, (A i j).getD 0 := reduce_add _

theorem reduceCol_getD [AddCommMonoid R] (A : Mat m n R) (j) :
    (reduceCol (· + ·) A j).getD 0 = ∑ i, (A i j).getD 0 := reduce_add _

theorem reduceScalar_getD [AddCommMonoid R] (A : Mat m n R) :
    (reduceScalar (· + ·) A).getD 0 = ∑ i, ∑ j, (A i j).getD 0 := by
  rw [reduceScalar, reduce_add]; simp only [reduceRow_getD]

theorem ite_none_getD {c : Prop} [Decidable c] [Zero R] (x : Option R) :
    (if c then x else none).getD 0 = if c then x.getD 0 else 0 := by split <;> rfl

theorem nvals_eq_sum (v : Vec n α) : nvals v = ∑ i, ind (v i) := by
  simp only [nvals, ind, Finset.card_filter]

theorem countRow_getD (A : Mat m n α) (i) : (countRow A i).getD 0 = ∑ j, ind (A i j) := by
  unfold countRow
  rw [← nvals_eq_sum]
  split
  · simp_all
  · rfl

end num

section nodes
variable {K α R : Type} {G : Graph K α}

theorem nodes_perm (h : G.WF) : G.nodes.Perm ((List.finRange G.n).map (keyFn h)) := by
  have hnd : ((List.finRange G.n).map (keyFn h)).Nodup :=
    (List.nodup_finRange _).map fun _ _ => keyFn_inj h
  refine (List.perm_ext_iff_of_nodup h.keys_nodup hnd).2 fun u => ?_
  constructor
  · intro hu
    obtain ⟨i, hi⟩ := Node.exists_id h (u := u) hu
    exact List.mem_map.2 ⟨i, List.mem_finRange i, keyFn_eq h hi⟩
  · intro hu
    obtain ⟨i, -, rfl⟩ := List.mem_map.1 hu
    exact (keyFn_at h i).node

theorem sumOver_nodes [AddCommMonoid R] (h : G.WF) (f : K → R) :
    sumOver G.nodes f = ∑ i, f (keyFn h i) := by
  unfold sumOver
  rw [((nodes_perm h).map f).sum_eq, List.map_map, Fin.sum_univ_def]
  rfl

theorem countOf_eq_sum (N : List K) (p : K → Prop) [DecidablePred p] :
    countOf N p = sumOver N fun u => if p u then 1 else 0 := by
  unfold countOf sumOver
  induction N with
  | nil => rfl
  | cons a N ih =>
    simp only [List.countP_cons, List.map_cons, List.sum_cons, ih, decide_eq_true_eq]
    omega

theorem countOf_congr {N : List K} {p q : K → Prop} [DecidablePred p] [DecidablePred q]
    (h : ∀ u, p u ↔ q u) : countOf N p = countOf N q := by
  unfold countOf
  congr 1
  funext u
  simp [h u]

theorem countOf_nodes (h : G.WF) (p : K → Prop) [DecidablePred p] :
    countOf G.nodes p = ∑ i, if p (keyFn h i) then 1 else 0 := by
  rw [countOf_eq_sum, sumOver_nodes h]

theorem countOf_card (h : G.WF) (p : K → Prop) [DecidablePred p] :
    countOf G.nodes p = (Finset.univ.filter fun i => p (keyFn h i)).card := by
  rw [countOf_nodes h, Finset.card_filter]

theorem edge_keyFn (h : G.WF) (i j : Fin G.n) :
    G.Edge (keyFn h i) (keyFn h j) ↔ (G.A i j).isSome := edge_iff h (keyFn_at h i) (keyFn_at h j)

theorem keyFn_eq_iff (h : G.WF) {i j : Fin G.n} : keyFn h i = keyFn h j ↔ i = j :=
  ⟨keyFn_inj h, fun e => e ▸ rfl⟩

theorem nodes_length (h : G.WF) : G.nodes.length = G.n := by
  simp [nodes, h.length]

theorem exists_keyFn (h : G.WF) {u : K} (hu : G.Node u) : ∃ i, keyFn h i = u := by
  obtain ⟨i, hi⟩ := hu.exists_id h
  exact ⟨i, keyFn_eq h hi⟩

variable [DecidableEq K]

theorem weight?_keyFn (h : G.WF) (i j : Fin G.n) :
    G.weight? (keyFn h i) (keyFn h j) = G.A i j := by
  simp [weight?, (idOf_eq_some h).2 (keyFn_at h i), (idOf_eq_some h).2 (keyFn_at h j)]

theorem weight?_eq_some (h : G.WF) {u v : K} {w : α} : G.weight? u v = some w ↔ G.WEdge u v w := by
  unfold weight? WEdge
  simp only [Option.bind_eq_some_iff, idOf_eq_some h]
  constructor
  · rintro ⟨i, hi, j, hj, e⟩; exact ⟨i, j, hi, hj, e⟩
  · rintro ⟨i, j, hi, hj, e⟩; exact ⟨i, hi, j, hj, e⟩

theorem view_keyFn {β : Type} (h : G.WF) (v : Vec G.n β) (i : Fin G.n) :
    G.view v (keyFn h i) = v i := view_at h (keyFn_at h i)

end nodes
end Proofs
