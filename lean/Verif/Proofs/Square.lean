import Verif.Model.Square
import Verif.Proofs.Count
import Mathlib.Tactic.Ring
import Mathlib.Tactic.Linarith
import Mathlib.Algebra.Ring.Int.Parity
import Mathlib.Algebra.Order.BigOperators.Group.Finset
import Mathlib.Algebra.BigOperators.Ring.Finset

open GB Spec Model Model.Graph Proofs

namespace Proofs.Square

variable {n : Nat}

/-! ### the counting identity -/
section core
variable (a : Fin n → Fin n → Int)

/-- degree -/
def dg (i : Fin n) : Int := ∑ j, a i j
/-- common neighbours -/
def pp (i j : Fin n) : Int := ∑ l, a i l * a j l
/-- `Σ p (p - 1)` over the other nodes -/
def SS (i : Fin n) : Int := ∑ j, if j ≠ i then pp a i j * (pp a i j - 1) else 0
/-- triangles -/
def TT (i : Fin n) : Int := ∑ j, if j ≠ i then pp a i j * a i j else 0
/-- `Σ a d` -/
def UU (i : Fin n) : Int := ∑ j, a i j * dg a j
/-- common neighbours of `u`, `w` other than `v` -/
def qq (v u w : Fin n) : Int := ∑ x, if x ≠ v then a u x * a w x else 0
def sqF (v : Fin n) : Int := ∑ u, ∑ w, if u ≠ w then a v u * a v w * qq a v u w else 0
def potF (v : Fin n) : Int := ∑ u, ∑ w, if u ≠ w then
  a v u * a v w * ((dg a u - (qq a v u w + 1 + a u w)) + (dg a w - (qq a v u w + 1 + a u w)) + qq a v u w)
  else 0

variable {a}

theorem sum_ne (f : Fin n → Fin n → Int) :
    (∑ u, ∑ w, if u ≠ w then f u w else 0) = (∑ u, ∑ w, f u w) - ∑ u, f u u := by
  rw [← Finset.sum_sub_distrib]
  refine Finset.sum_congr rfl fun u _ => ?_
  have : (∑ w, if u ≠ w then f u w else 0) + f u u = ∑ w, f u w := by
    have e : f u u = ∑ w, if u = w then f u w else 0 := by simp
    rw [e, ← Finset.sum_add_distrib]
    refine Finset.sum_congr rfl fun w _ => ?_
    by_cases h : u = w <;> simp [h]
  omega

theorem sq_pairs (b : Fin n → Int) (hb : ∀ i, b i * b i = b i) :
    (∑ i, b i) * ((∑ i, b i) - 1) = ∑ u, ∑ w, if u ≠ w then b u * b w else 0 := by
  rw [sum_ne]
  simp only [hb]
  rw [mul_sub, mul_one, Finset.sum_mul_sum]

theorem SS_eq (hid : ∀ i j, a i j * a i j = a i j) (hs : ∀ i j, a i j = a j i) (v : Fin n) :
    SS a v = sqF a v := by
  unfold SS sqF qq pp
  have h1 : ∀ j, (if j ≠ v then (∑ l, a v l * a j l) * ((∑ l, a v l * a j l) - 1) else 0) =
      ∑ u, ∑ w, if u ≠ w then a v u * a v w * (if j ≠ v then a u j * a w j else 0) else 0 := by
    intro j
    rw [sq_pairs _ (fun i => by rw [show a v i * a j i * (a v i * a j i) =
      (a v i * a v i) * (a j i * a j i) by ring, hid, hid])]
    by_cases hj : j = v
    · simp [hj]
    · simp only [hj, ne_eq, not_false_eq_true, if_true]
      refine Finset.sum_congr rfl fun u _ => Finset.sum_congr rfl fun w _ => ?_
      rw [hs u j, hs w j]
      split <;> ring
  simp only [h1]
  rw [Finset.sum_comm]
  refine Finset.sum_congr rfl fun u _ => ?_
  rw [Finset.sum_comm]
  refine Finset.sum_congr rfl fun w _ => ?_
  by_cases h : u = w
  · simp [h]
  · simp only [h, ne_eq, not_false_eq_true, if_true]
    rw [Finset.mul_sum]

theorem potF_eq (hid : ∀ i j, a i j * a i j = a i j) (hs : ∀ i j, a i j = a j i)
    (h0 : ∀ i, a i i = 0) (v : Fin n) :
    potF a v = 2 * ((dg a v - 1) * UU a v - TT a v - dg a v * (dg a v - 1)) - SS a v := by
  have e : potF a v = 2 * (∑ u, ∑ w, if u ≠ w then a v u * dg a u * a v w else 0)
      - 2 * (∑ u, ∑ w, if u ≠ w then a v u * a v w else 0)
      - 2 * (∑ u, ∑ w, if u ≠ w then a v u * a v w * a u w else 0) - sqF a v := by
    have hsw : (∑ u, ∑ w, if u ≠ w then a v u * dg a u * a v w else 0) =
        ∑ u, ∑ w, if u ≠ w then a v w * dg a w * a v u else 0 := by
      rw [Finset.sum_comm]
      refine Finset.sum_congr rfl fun u _ => Finset.sum_congr rfl fun w _ => ?_
      by_cases h : u = w
      · simp [h]
      · simp [h, Ne.symm h]
    rw [two_mul]
    nth_rw 2 [hsw]
    unfold potF sqF
    simp only [Finset.mul_sum, ← Finset.sum_sub_distrib, ← Finset.sum_add_distrib]
    refine Finset.sum_congr rfl fun u _ => Finset.sum_congr rfl fun w _ => ?_
    split <;> ring
  rw [e, ← SS_eq hid hs]
  have e1 : (∑ u, ∑ w, if u ≠ w then a v u * dg a u * a v w else 0) = (dg a v - 1) * UU a v := by
    rw [sum_ne]
    have : ∀ u, a v u * dg a u * a v u = a v u * dg a u := by
      intro u; rw [mul_right_comm, hid]
    simp only [this]
    rw [← Finset.sum_mul_sum, sub_mul, one_mul, mul_comm]
    rfl
  have e2 : (∑ u, ∑ w, if u ≠ w then a v u * a v w else 0) = dg a v * (dg a v - 1) := by
    rw [dg, sq_pairs _ (fun i => hid v i)]
  have e3 : (∑ u, ∑ w, if u ≠ w then a v u * a v w * a u w else 0) = TT a v := by
    rw [sum_ne]
    simp only [h0, mul_zero, Finset.sum_const_zero, sub_zero]
    unfold TT pp
    rw [Finset.sum_comm]
    refine Finset.sum_congr rfl fun w _ => ?_
    by_cases h : w = v
    · subst h; simp [h0]
    · simp only [ne_eq, h, not_false_eq_true, if_true, Finset.sum_mul]
      refine Finset.sum_congr rfl fun u _ => ?_
      rw [hs w u]; ring
  rw [e1, e2, e3]; ring

theorem SS_even (v : Fin n) : Even (SS a v) := by
  unfold SS
  refine Finset.sum_induction _ Even (fun _ _ => Even.add) ⟨0, rfl⟩ fun j _ => ?_
  split
  · exact Int.even_mul_pred_self _
  · exact ⟨0, rfl⟩

theorem sqF_le_potF (hid : ∀ i j, a i j = 0 ∨ a i j = 1) (hs : ∀ i j, a i j = a j i)
    (h0 : ∀ i, a i i = 0) (v : Fin n) : sqF a v ≤ potF a v := by
  unfold sqF potF
  refine Finset.sum_le_sum fun u _ => Finset.sum_le_sum fun w _ => ?_
  by_cases huw : u = w
  · simp [huw]
  simp only [ne_eq, huw, not_false_eq_true, if_true]
  rcases hid v u with hu | hu
  · simp [hu]
  rcases hid v w with hw | hw
  · simp [hw]
  rw [hu, hw]
  have key : ∀ u w, u ≠ w → a v u = 1 → a v w = 1 → qq a v u w + 1 + a u w ≤ dg a u := by
    intro u w huw hu hw
    have e1 : (1 : Int) = ∑ x, if x = v then 1 else 0 := by simp
    have e2 : a u w = ∑ x, if x = w then a u w else 0 := by simp
    rw [e1, e2, qq, dg, ← Finset.sum_add_distrib, ← Finset.sum_add_distrib]
    refine Finset.sum_le_sum fun x _ => ?_
    have hvw : v ≠ w := by rintro rfl; rw [h0] at hw; omega
    by_cases hx : x = v
    · subst hx; simp [hvw, hs u, hu]
    · by_cases hxw : x = w
      · subst hxw; simp [hx, h0]
      · simp only [ne_eq, hx, not_false_eq_true, if_true, if_false, hxw, add_zero]
        rcases hid u x with h1 | h1 <;> rcases hid w x with h2 | h2 <;> simp [h1, h2]
  have k1 := key u w huw hu hw
  have k2 := key w u (Ne.symm huw) hw hu
  have e : qq a v w u = qq a v u w := by unfold qq; simp only [mul_comm]
  rw [e, hs w u] at k2
  linarith

end core

/-! ### the model in this notation -/
section model
variable {A : Mat n n Int}

/-- adjacency as an integer -/
def az (A : Mat n n Int) (i j : Fin n) : Int := (ind (A i j) : Int)

theorem az_id (i j) : az A i j * az A i j = az A i j := by
  unfold az; cases A i j <;> rfl
theorem az_01 (i j) : az A i j = 0 ∨ az A i j = 1 := by
  unfold az; cases A i j <;> simp
theorem az_symm (hs : ∀ i j, A i j = A j i) (i j) : az A i j = az A j i := by
  unfold az; rw [hs]
theorem az_diag (h : ∀ i, A i i = none) (i) : az A i i = 0 := by
  unfold az; rw [h]; rfl

theorem degZ_getD (i) : (degZ A i).getD 0 = dg (az A) i := by
  have := countRow_getD A i
  unfold degZ vapply dg az
  rw [← Nat.cast_sum, ← this]
  cases countRow A i <;> rfl

theorem degZ_isSome (i) : (degZ A i).isSome ↔ ∃ j, (A i j).isSome := by
  unfold degZ vapply countRow
  rw [Option.isSome_map, ← nvals_pos]
  split <;> simp <;> omega

theorem ointer_pairZ_getD {α β : Type} (x : Option α) (y : Option β) :
    (ointer pairZ x y).getD 0 = (ind x : Int) * (ind y : Int) := by
  cases x <;> cases y <;> simp [pairZ]

/-- is row `i` computed -/
def inIds (ids : Option (List (Fin n))) (i : Fin n) : Prop := ∀ l, ids = some l → i ∈ l

instance (ids : Option (List (Fin n))) (i : Fin n) : Decidable (inIds ids i) :=
  match ids with
  | none => .isTrue (by simp [inIds])
  | some l => if h : i ∈ l then .isTrue (by simp [inIds, h]) else .isFalse (by simp [inIds, h])

theorem sqSubset_eq (ids : Option (List (Fin n))) (i j) :
    sqSubset A ids i j = if inIds ids i then A i j else none := by
  cases ids with
  | none => simp [sqSubset, inIds]
  | some l =>
    simp only [sqSubset, vofIds, inIds, Option.some.injEq, forall_eq']
    split
    · cases A i j <;> rfl
    · simp

theorem sqRight_eq (hs : ∀ i j, A i j = A j i) (ids : Option (List (Fin n))) (i j) :
    sqRight A ids i j = A j i := by
  cases ids with
  | none => rfl
  | some l => exact hs i j

theorem sqP2_getD (hs : ∀ i j, A i j = A j i) (ids : Option (List (Fin n))) (i j) :
    (sqP2 A ids i j).getD 0 = if inIds ids i ∧ j ≠ i then pp (az A) i j else 0 := by
  have hm : (mxm (· + ·) pairZ (sqSubset A ids) (sqRight A ids) i j).getD 0 =
      if inIds ids i then pp (az A) i j else 0 := by
    rw [mxm, reduce_add]
    simp only [ointer_pairZ_getD, sqSubset_eq, sqRight_eq hs]
    split
    · rfl
    · simp
  unfold sqP2 massignR
  by_cases hij : j = i
  · subst hij
    simp only [ne_eq, not_true_eq_false, and_false, if_false]
    by_cases hd : (degZ A j).isSome
    · rw [if_neg]
      · rfl
      · simp [mnot, mS, diagMat, hd]
    · have : ∀ l, A j l = none := by
        intro l
        by_contra hne
        exact hd ((degZ_isSome j).2 ⟨l, Option.isSome_iff_ne_none.2 hne⟩)
      rw [ite_none_getD, hm]
      simp [pp, az, this]
  · rw [if_pos, hm]
    · simp [hij]
    · simp [mnot, mS, diagMat, Ne.symm hij]

theorem sqSquares_eq (hs : ∀ i j, A i j = A j i) (ids : Option (List (Fin n))) (i) :
    sqSquares (sqP2 A ids) i =
      if inIds ids i ∧ SS (az A) i ≠ 0 then some (SS (az A) i / 2) else none := by
  unfold sqSquares
  generalize hsv : reduceRow (· + ·) (mapply (fun p : Int => p * (p - 1)) (sqP2 A ids)) = s
  have hg : (s i).getD 0 = if inIds ids i then SS (az A) i else 0 := by
    rw [← hsv, reduceRow_getD]
    have : ∀ j, (mapply (fun p : Int => p * (p - 1)) (sqP2 A ids) i j).getD 0 =
        (sqP2 A ids i j).getD 0 * ((sqP2 A ids i j).getD 0 - 1) := by
      intro j; unfold mapply; cases sqP2 A ids i j <;> simp
    simp only [this, sqP2_getD hs]
    unfold SS
    by_cases h : inIds ids i
    · simp only [h, true_and, if_true]
      refine Finset.sum_congr rfl fun j _ => ?_
      split <;> simp
    · simp [h]
  unfold vassignR
  obtain ⟨k, hk⟩ := SS_even (a := az A) i
  cases hsi : s i with
  | none =>
    rw [hsi] at hg
    rw [if_neg (by simp [hsi]), if_neg]
    rintro ⟨h1, h2⟩
    rw [if_pos h1] at hg
    exact h2 hg.symm
  | some x =>
    rw [hsi] at hg
    simp only [Option.getD_some] at hg
    by_cases h1 : inIds ids i
    · rw [if_pos h1] at hg
      subst hg
      by_cases h2 : SS (az A) i = 0
      · rw [if_neg (by simp [hsi, h2]), if_neg (by simp [h2])]
      · rw [if_pos (by simp [hsi, h2]), if_pos ⟨h1, h2⟩]
        simp only [vapply, hsi, Option.map_some]
        rw [hk, show k + k = k * 2 by ring, Int.mul_tdiv_cancel _ (by omega), Int.mul_ediv_cancel _ (by omega)]
    · rw [if_neg h1] at hg
      subst hg
      rw [if_neg (by simp [hsi]), if_neg (by simp [h1])]

theorem sqNeg_getD (hs : ∀ i j, A i j = A j i) (ids : Option (List (Fin n))) (i) :
    (sqNeg (sqP2 A ids) (sqSubset A ids) i).getD 0 = if inIds ids i then TT (az A) i else 0 := by
  unfold sqNeg
  rw [reduceRow_getD]
  have : ∀ j, (mmul first (sqP2 A ids) (sqSubset A ids) i j).getD 0 =
      (sqP2 A ids i j).getD 0 * (ind (sqSubset A ids i j) : Int) := by
    intro j; unfold mmul; cases sqP2 A ids i j <;> cases sqSubset A ids i j <;> simp [first]
  simp only [this, sqP2_getD hs, sqSubset_eq]
  unfold TT
  by_cases h : inIds ids i
  · simp only [h, true_and, if_true]
    refine Finset.sum_congr rfl fun j _ => ?_
    split <;> simp [az]
  · simp [h]

/-- `Σ w d`: what `Asubset @ deg` sums, weights included -/
def UW (A : Mat n n Int) (i : Fin n) : Int := ∑ j, (A i j).getD 0 * dg (az A) j

theorem UW_unit (h1 : ∀ i j w, A i j = some w → w = 1) (i) : UW A i = UU (az A) i := by
  unfold UW UU
  refine Finset.sum_congr rfl fun j _ => ?_
  congr 1
  unfold az
  cases hA : A i j with
  | none => rfl
  | some w => rw [h1 i j w hA]; rfl

theorem uw_getD (ids : Option (List (Fin n))) (i) :
    (mxv (· + ·) (· * ·) (sqSubset A ids) (degZ A) i).getD 0 = if inIds ids i then UW A i else 0 := by
  rw [mxv_times_getD]
  simp only [sqSubset_eq, degZ_getD]
  by_cases h : inIds ids i
  · simp only [h, if_true, UW]
  · simp [h]

/-- the denominator for node `i` -/
def den (A : Mat n n Int) (i : Fin n) : Int :=
  (dg (az A) i - 1) * UU (az A) i - (TT (az A) i + dg (az A) i * (dg (az A) i - 1) + SS (az A) i / 2)

/-- the denominator the code computes for node `i`, any weights -/
def denW (A : Mat n n Int) (i : Fin n) : Int :=
  (dg (az A) i - 1) * UW A i - (TT (az A) i + dg (az A) i * (dg (az A) i - 1) + SS (az A) i / 2)

theorem denW_unit (h1 : ∀ i j w, A i j = some w → w = 1) (i) : denW A i = den A i := by
  unfold denW den; rw [UW_unit h1]

theorem SS_ne_row {i : Fin n} (hne : SS (az A) i ≠ 0) : ∃ j, (A i j).isSome := by
  by_contra h
  push Not at h
  apply hne
  unfold SS
  apply Finset.sum_eq_zero
  intro j _
  have : pp (az A) i j = 0 := by
    unfold pp
    apply Finset.sum_eq_zero
    intro l _
    have := h l
    unfold az
    rw [show A i l = none by simpa using this]; simp
  rw [this]; simp

/-- numerator and denominator, whatever is done with them -/
theorem squareParts_eq (hs : ∀ i j, A i j = A j i) (f : Int → Int → ℚ)
    (ids : Option (List (Fin n))) (i) :
    vmul f (sqSquares (sqP2 A ids)) (sqDenom (degZ A) (sqSquares (sqP2 A ids)) (sqNeg (sqP2 A ids) (sqSubset A ids))
      (mxv (· + ·) (· * ·) (sqSubset A ids) (degZ A))) i = if inIds ids i ∧ SS (az A) i ≠ 0 then
      some (f (SS (az A) i / 2) (denW A i)) else none := by
  unfold sqDenom
  simp only [vmul]
  rw [sqSquares_eq hs]
  by_cases hc : inIds ids i ∧ SS (az A) i ≠ 0
  · rw [if_pos hc, if_pos hc]
    have hS : vS (sqSquares (sqP2 A ids)) i = true := by
      unfold vS; rw [sqSquares_eq hs, if_pos hc]; rfl
    obtain ⟨j, hj⟩ := SS_ne_row hc.2
    have hdi : degZ A i = some (dg (az A) i) := by
      obtain ⟨d, hd⟩ := Option.isSome_iff_exists.1 ((degZ_isSome i).2 ⟨j, hj⟩)
      have := degZ_getD (A := A) i
      rw [hd] at this ⊢; simp at this; rw [this]
    have hden1 : vassignR (vS (sqSquares (sqP2 A ids))) (vapply (fun d : Int => d - 1) (degZ A)) i =
        some (dg (az A) i - 1) := by
      unfold vassignR; rw [if_pos hS]; simp [vapply, hdi]
    have huw : mxv (· + ·) (· * ·) (sqSubset A ids) (degZ A) i = some (UW A i) := by
      have hsome : (mxv (· + ·) (· * ·) (sqSubset A ids) (degZ A) i).isSome := by
        rw [mxv_isSome]
        refine ⟨j, ?_, (degZ_isSome j).2 ⟨i, by rw [hs]; exact hj⟩⟩
        rw [sqSubset_eq, if_pos hc.1]; exact hj
      obtain ⟨x, hx⟩ := Option.isSome_iff_exists.1 hsome
      have := uw_getD (A := A) ids i
      rw [hx, if_pos hc.1] at this
      rw [hx]; simp at this; rw [this]
    have hneg : ∀ y : Int, omerge (· + ·) (sqNeg (sqP2 A ids) (sqSubset A ids) i) (some y) =
        some (TT (az A) i + y) := by
      intro y
      have := sqNeg_getD hs ids i
      rw [if_pos hc.1] at this
      cases hx : sqNeg (sqP2 A ids) (sqSubset A ids) i with
      | none => rw [hx] at this; simp at this; simp [← this]
      | some z => rw [hx] at this; simp at this; simp [this]
    unfold vaccum
    simp only [if_true]
    have hm : vS (vassignR (vS (sqSquares (sqP2 A ids))) (vapply (fun d : Int => d - 1) (degZ A))) i = true := by
      unfold vS; unfold vS at hden1; rw [hden1]; rfl
    rw [if_pos hm, hden1, huw]
    simp only [vmul, hdi, hden1, ointer_some, hneg, sqSquares_eq hs, if_pos hc, omerge_some]
    rfl
  · rw [if_neg hc, if_neg hc]
    simp

theorem squareVec_eqW (hs : ∀ i j, A i j = A j i)
    (ids : Option (List (Fin n))) (i) :
    squareVec A ids i = if inIds ids i ∧ SS (az A) i ≠ 0 then
      some (((SS (az A) i / 2 : Int) : ℚ) / (denW A i : ℚ)) else none :=
  squareParts_eq hs _ ids i

theorem squareVec_eq (hs : ∀ i j, A i j = A j i) (h1 : ∀ i j w, A i j = some w → w = 1)
    (ids : Option (List (Fin n))) (i) :
    squareVec A ids i = if inIds ids i ∧ SS (az A) i ≠ 0 then
      some (((SS (az A) i / 2 : Int) : ℚ) / (den A i : ℚ)) else none := by
  rw [squareVec_eqW hs, denW_unit h1]

theorem two_den (hs : ∀ i j, A i j = A j i) (h0 : ∀ i, A i i = none) (i : Fin n) :
    2 * den A i = potF (az A) i := by
  rw [potF_eq az_id (az_symm hs) (az_diag h0)]
  obtain ⟨k, hk⟩ := SS_even (a := az A) i
  unfold den
  have : SS (az A) i / 2 = k := by omega
  rw [this, hk]; ring

theorem ratio_eq (hs : ∀ i j, A i j = A j i) (h0 : ∀ i, A i i = none) (i : Fin n) :
    ((SS (az A) i / 2 : Int) : ℚ) / (den A i : ℚ) = (sqF (az A) i : ℚ) / (potF (az A) i : ℚ) := by
  rw [← two_den hs h0, ← SS_eq az_id (az_symm hs)]
  obtain ⟨k, hk⟩ := SS_even (a := az A) i
  have : SS (az A) i / 2 = k := by omega
  rw [this, hk, show k + k = 2 * k by ring]
  push_cast
  rw [mul_div_mul_left _ _ (by norm_num)]

theorem SS_of_dg (hs : ∀ i j, A i j = A j i) (i : Fin n) : dg (az A) i ≤ 1 → SS (az A) i = 0 := by
  intro hd
  rw [SS_eq az_id (az_symm hs)]
  unfold sqF
  have hz : (∑ u, ∑ w, if u ≠ w then az A i u * az A i w else 0) = dg (az A) i * (dg (az A) i - 1) := by
    rw [dg, sq_pairs _ (fun j => az_id i j)]
  have hdnn : 0 ≤ dg (az A) i := Finset.sum_nonneg fun j _ => by
    rcases az_01 (A := A) i j with e | e <;> rw [e] <;> omega
  have hprod : dg (az A) i * (dg (az A) i - 1) = 0 := by
    rcases (show dg (az A) i = 0 ∨ dg (az A) i = 1 by omega) with e | e <;> rw [e] <;> rfl
  rw [hprod] at hz
  have hnn : ∀ u w, 0 ≤ if u ≠ w then az A i u * az A i w else 0 := by
    intro u w
    split
    · rcases az_01 (A := A) i u with e | e <;> rcases az_01 (A := A) i w with e' | e' <;>
        rw [e, e'] <;> decide
    · exact le_refl _
  have h2 := (Finset.sum_eq_zero_iff_of_nonneg
    (fun u _ => Finset.sum_nonneg fun w _ => hnn u w)).1 hz
  apply Finset.sum_eq_zero
  intro u hu
  apply Finset.sum_eq_zero
  intro w hw
  have h3 := (Finset.sum_eq_zero_iff_of_nonneg (fun w _ => hnn u w)).1 (h2 u hu) w hw
  split
  · rename_i hne
    rw [if_pos hne] at h3
    rw [h3, zero_mul]
  · rfl

end model
end Proofs.Square
