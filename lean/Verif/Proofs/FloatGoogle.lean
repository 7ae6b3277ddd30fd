import Verif.Proofs.FloatRank
import Verif.Model.FloatGoogle
import Verif.GB.Lemmas
import Mathlib.Algebra.BigOperators.Field

/-! # Rounding errors of `google_matrix` -/

open GB Spec Model

namespace Proofs.Fr

variable {F : Type} [Field F] [LinearOrder F] [IsStrictOrderedRing F] {n : Nat} {o : Arith F} {Rep : F → Prop} {u η : F}
  (R : Rounded o Rep u η)

include R

/-- `scale * A` on one position -/
theorem scaled_near {v : Vec n F} (hv : Good Rep v) {alpha : F} (hal : Rep alpha ∧ 0 ≤ alpha)
    (hs : 0 < ∑ l, (v l).getD 0) (j : Fin n) :
    (∀ b, ointer o.mul ((Model.Fr.fsum o v).map fun s => o.div alpha s) (v j) = some b → Rep b ∧ 0 ≤ b) ∧
    Near (growth u) (n + 2) (η + growth u * (η * (v j).getD 0))
      ((ointer o.mul ((Model.Fr.fsum o v).map fun s => o.div alpha s) (v j)).getD 0)
      (alpha * ((v j).getD 0 / ∑ l, (v l).getD 0)) := by
  have hg := one_le_growth R
  have he := R.eta0
  obtain ⟨f1, f2⟩ := fsum_near R hv
  cases hj : v j with
  | none =>
    have e : ointer o.mul ((Model.Fr.fsum o v).map fun s => o.div alpha s) (none : Option F) = none := by
      cases Model.Fr.fsum o v <;> rfl
    rw [e]
    refine ⟨by simp, ?_⟩
    simp only [Option.getD_none, zero_div, mul_zero, add_zero]
    exact near_weaken hg (Nat.zero_le _) he le_rfl le_rfl le_rfl (near_refl 0)
  | some a =>
    cases hf : Model.Fr.fsum o v with
    | none =>
      exfalso
      rw [hf, Option.getD_none] at f2
      have := pos_of_near R f2 hs
      exact lt_irrefl _ this
    | some s =>
      rw [hf, Option.getD_some] at f2
      have hs' := pos_of_near R f2 hs
      obtain ⟨d1, d2⟩ := odiv_near R f2 hal (f1 s hf).1 hs' hs
      obtain ⟨m1, m2⟩ := omul_near R d2 (near_refl a) d1 (hv j a hj) (div_nonneg hal.2 hs.le) (hv j a hj).2 he
      refine ⟨fun b hb => ?_, ?_⟩
      · simp [ointer] at hb
        subst hb; exact m1
      · have e : alpha * (a / ∑ l, (v l).getD 0) = alpha / (∑ l, (v l).getD 0) * a := by ring
        simp only [ointer, Option.map_some, Option.getD_some]
        rw [e]
        have : n + 2 = 1 + (1 + n + 0) := by omega
        rw [this]
        exact m2

/-- the last steps of `google_matrix` -/
theorem gmScale_near {A : Mat n n F} {i : Fin n} (hA : Good Rep (A i)) {alpha : F} (hal : Rep alpha ∧ 0 ≤ alpha)
    (h1 : alpha ≤ 1) (hs : 0 < ∑ l, (A i l).getD 0) {p : F ⊕ Vec n F} {px : Fin n → F} (hpx : ∀ i, 0 ≤ px i)
    (hp : PNear Rep u η (n + 1) p px) (j : Fin n) :
    (∀ b, Model.Fg.gmScale o alpha A p i j = some b → Rep b ∧ 0 ≤ b) ∧
    Near (growth u) (n + 4) (growth u * (η + growth u * (η * (A i j).getD 0) + 2 * growth u ^ 2 * η))
      ((Model.Fg.gmScale o alpha A p i j).getD 0)
      (alpha * ((A i j).getD 0 / ∑ l, (A i l).getD 0) + (1 - alpha) * px j) := by
  have hg := one_le_growth R
  have he := R.eta0
  have hg0 : 0 ≤ growth u := by linarith
  obtain ⟨s1, s2⟩ := scaled_near R hA hal hs j
  obtain ⟨b1, b2⟩ := base_near R hal h1 hpx hp j
  have e : Model.Fg.gmScale o alpha A p i j =
      omerge o.add (ointer o.mul ((Model.Fr.fsum o (A i)).map fun s => o.div alpha s) (A i j))
        (Model.Fr.base (Model.Fr.scaleP o alpha p) j) := by
    unfold Model.Fg.gmScale
    cases p with
    | inl c =>
      show some ((ointer o.mul ((Model.Fr.fsum o (A i)).map fun s => o.div alpha s) (A i j)).elim _ _) = _
      cases ointer o.mul ((Model.Fr.fsum o (A i)).map fun s => o.div alpha s) (A i j) <;> rfl
    | inr v => rfl
  rw [e]
  obtain ⟨m1, m2⟩ := omerge_near R s1 b1
  refine ⟨m1, ?_⟩
  have z1 : 0 ≤ alpha * ((A i j).getD 0 / ∑ l, (A i l).getD 0) := mul_nonneg hal.2 (div_nonneg (hA.val j) hs.le)
  have t1 : 0 ≤ η + growth u * (η * (A i j).getD 0) := by
    have := mul_nonneg hg0 (mul_nonneg he (hA.val j)); linarith
  have t2 : 0 ≤ 2 * growth u ^ 2 * η := by positivity
  have y1 : 0 ≤ (ointer o.mul ((Model.Fr.fsum o (A i)).map fun s => o.div alpha s) (A i j)).getD 0 := by
    cases hc : ointer o.mul ((Model.Fr.fsum o (A i)).map fun s => o.div alpha s) (A i j) with
    | none => exact le_rfl
    | some b => exact (s1 b hc).2
  have s2' := near_weaken (l := n + 3) hg (by omega) le_rfl z1 y1 t1 s2
  have := near_trans hg (add_nonneg t1 t2) m2 (near_add s2' b2)
  rw [pow_one, zero_add, add_comm 1 (n + 3)] at this
  exact this

/-- `1.0 / N`, as an argument of the last steps -/
theorem uniform_pnear (hn : n ≠ 0) : PNear Rep u η (n + 1) (.inl (o.div (o.nat 1) (o.nat n)) : F ⊕ Vec n F)
    fun _ => 1 / n := by
  obtain ⟨a, b⟩ := uniform_near R hn
  exact ⟨a, fun _ => b⟩

/-- `personalization / denom` -/
theorem normPers_near {v : Vec n F} (hv : Good Rep v) (hs : 0 < ∑ i, (v i).getD 0) :
    ¬ o.isZero (Model.Fr.vsum o v) = true ∧ Good Rep (Model.Fg.normPers o v) ∧
    ∀ i, Near (growth u) (n + 1) η ((Model.Fg.normPers o v i).getD 0) ((v i).getD 0 / ∑ i, (v i).getD 0) := by
  have hg := one_le_growth R
  have he := R.eta0
  obtain ⟨q1, q2, q3⟩ := quotient_near R hv hs
  have zero : Near (growth u) (n + 1) η 0 0 := near_weaken hg (Nat.zero_le _) he le_rfl le_rfl le_rfl (near_refl 0)
  have key : ∀ i, (∀ a, v i = some a → a ≠ 0 →
      Model.Fg.normPers o v i = vapply (fun a => o.div a (Model.Fr.vsum o v)) v i) ∧
      ((v i).getD 0 = 0 → Model.Fg.normPers o v i = none) := by
    intro i
    unfold Model.Fg.normPers Model.Fg.nonzero vapply
    refine ⟨fun a ha h0 => ?_, fun h0 => ?_⟩
    · have : ¬ o.isZero a = true := by rw [R.isZero]; exact h0
      simp [ha, this]
    · cases hi : v i with
      | none => rfl
      | some a =>
        rw [hi, Option.getD_some] at h0
        have : o.isZero a = true := (R.isZero a).2 h0
        simp [this]
  refine ⟨q1, ?_, ?_⟩
  · intro i b hb
    by_cases h0 : (v i).getD 0 = 0
    · rw [(key i).2 h0] at hb; cases hb
    · cases hi : v i with
      | none => rw [hi] at h0; exact absurd rfl h0
      | some a =>
        rw [hi, Option.getD_some] at h0
        rw [(key i).1 a hi h0] at hb
        exact q2 i b hb
  · intro i
    by_cases h0 : (v i).getD 0 = 0
    · rw [(key i).2 h0, h0, zero_div]; exact zero
    · cases hi : v i with
      | none => rw [hi] at h0; exact absurd rfl h0
      | some a =>
        rw [hi, Option.getD_some] at h0
        rw [(key i).1 a hi h0, ← hi]
        exact q3 i

/-- `1.0 / denom * dangling` -/
theorem normDang_near {v : Vec n F} (hv : Good Rep v) (hs : 0 < ∑ i, (v i).getD 0) :
    ¬ o.isZero (Model.Fr.vsum o v) = true ∧ Good Rep (Model.Fg.normDang o v) ∧
    ∀ i, Near (growth u) (n + 2) (η + growth u * (η * (v i).getD 0)) ((Model.Fg.normDang o v i).getD 0)
      ((v i).getD 0 / ∑ i, (v i).getD 0) := by
  have hg := one_le_growth R
  have he := R.eta0
  have hg0 : 0 ≤ growth u := by linarith
  obtain ⟨s1, s2, s3⟩ := vsum_near R hv
  have s4 := pos_of_near R s3 hs
  have hone : Rep (o.nat 1) ∧ 0 ≤ o.nat 1 := ⟨(R.nat 1).1, (R.nat 1).2.1⟩
  obtain ⟨d1, d2⟩ := odiv_near R s3 hone s1 s4 hs
  have d2' : Near (growth u) (1 + n) η (o.div (o.nat 1) (Model.Fr.vsum o v)) (1 / ∑ i, (v i).getD 0) := by
    rw [R.one] at d2 ⊢; exact d2
  have key : ∀ a, Rep a ∧ 0 ≤ a → (Rep (o.mul (o.div (o.nat 1) (Model.Fr.vsum o v)) a) ∧
      0 ≤ o.mul (o.div (o.nat 1) (Model.Fr.vsum o v)) a) ∧
      Near (growth u) (n + 2) (η + growth u * (η * a)) (o.mul (o.div (o.nat 1) (Model.Fr.vsum o v)) a)
        (a / ∑ i, (v i).getD 0) := by
    intro a ha
    obtain ⟨m1, m2⟩ := omul_near R d2' (near_refl a) d1 ha (by positivity) ha.2 he
    refine ⟨m1, ?_⟩
    have e : a / (∑ i, (v i).getD 0) = 1 / (∑ i, (v i).getD 0) * a := by ring
    have e2 : n + 2 = 1 + (1 + n + 0) := by omega
    rw [e, e2]
    exact m2
  have ez : ∀ i, (v i).getD 0 = 0 → Model.Fg.normDang o v i = none := by
    intro i h0
    unfold Model.Fg.normDang Model.Fg.nonzero
    cases hi : v i with
    | none => rfl
    | some a =>
      rw [hi, Option.getD_some] at h0
      have : o.isZero a = true := (R.isZero a).2 h0
      simp [this]
  have en : ∀ i a, v i = some a → a ≠ 0 →
      Model.Fg.normDang o v i = some (o.mul (o.div (o.nat 1) (Model.Fr.vsum o v)) a) := by
    intro i a ha h0
    have : ¬ o.isZero a = true := by rw [R.isZero]; exact h0
    unfold Model.Fg.normDang Model.Fg.nonzero
    simp [ha, this]
  refine ⟨by rw [R.isZero]; exact ne_of_gt s4, ?_, ?_⟩
  · intro i b hb
    by_cases h0 : (v i).getD 0 = 0
    · rw [ez i h0] at hb; cases hb
    · cases hi : v i with
      | none => rw [hi] at h0; exact absurd rfl h0
      | some a =>
        rw [hi, Option.getD_some] at h0
        rw [en i a hi h0] at hb
        cases hb
        exact (key a (hv i a hi)).1
  · intro i
    by_cases h0 : (v i).getD 0 = 0
    · rw [ez i h0, h0, zero_div, mul_zero, mul_zero, add_zero]
      exact near_weaken hg (Nat.zero_le _) he le_rfl le_rfl le_rfl (near_refl 0)
    · cases hi : v i with
      | none => rw [hi] at h0; exact absurd rfl h0
      | some a =>
        rw [hi, Option.getD_some] at h0
        rw [en i a hi h0]
        exact (key a (hv i a hi)).2

omit R in
/-- quotients by the sum, of numbers that were near numbers of sum 1 -/
theorem fill_quot {g : F} (hg : 1 ≤ g) {f q t : Fin n → F} (hf : ∀ j, 0 ≤ f j) (hq : ∀ j, 0 ≤ q j) (hq1 : ∑ j, q j = 1)
    (ht : ∀ j, 0 ≤ t j) (h : ∀ j, Near g (n + 2) (t j) (f j) (q j)) (hG : g ^ (n + 2) ≤ 2) (hT : ∑ j, t j ≤ 1 / 4) :
    0 < ∑ j, f j ∧ ∑ j, f j ≤ 3 ∧ ∀ j, Near g (2 * n + 4) (20 * ∑ j, t j) (f j / ∑ j, f j) (q j) := by
  have hs := near_sum Finset.univ fun j _ => h j
  rw [hq1] at hs
  obtain ⟨a1, a2⟩ := hs
  rw [mul_one] at a1
  have hG1 : 1 ≤ g ^ (n + 2) := one_le_pow₀ hg
  have hT0 : 0 ≤ ∑ j, t j := Finset.sum_nonneg fun j _ => ht j
  have hr0 : 0 ≤ ∑ j, f j := Finset.sum_nonneg fun j _ => hf j
  have hr : 1 / 4 ≤ ∑ j, f j := by
    have : g ^ (n + 2) * (∑ j, f j + ∑ j, t j) ≤ 2 * (∑ j, f j + ∑ j, t j) :=
      mul_le_mul_of_nonneg_right hG (by linarith)
    linarith
  have hrp : 0 < ∑ j, f j := by linarith
  refine ⟨hrp, by linarith, fun j => ?_⟩
  obtain ⟨b1, b2⟩ := h j
  have htj : t j ≤ ∑ j, t j := Finset.single_le_sum (f := t) (fun j _ => ht j) (Finset.mem_univ j)
  have hfj : f j ≤ ∑ j, f j := Finset.single_le_sum (f := f) (fun j _ => hf j) (Finset.mem_univ j)
  have hqj : q j ≤ 1 := by
    rw [← hq1]; exact Finset.single_le_sum (f := q) (fun j _ => hq j) (Finset.mem_univ j)
  have hqj0 := hq j
  have htj0 := ht j
  have e : g ^ (2 * n + 4) = g ^ (n + 2) * g ^ (n + 2) := by rw [← pow_add]; congr 1; omega
  generalize hGe : g ^ (n + 2) = G at *
  generalize hre : ∑ j, f j = r at *
  generalize hTe : ∑ j, t j = T at *
  unfold Near
  rw [e]
  constructor
  · rw [div_le_iff₀ hrp]
    have c1 : G * q j * (1 - G * T) ≤ G * q j * (G * r) :=
      mul_le_mul_of_nonneg_left (by linarith [mul_add G r T]) (mul_nonneg (by linarith) hqj0)
    have c2 : G * q j * (G * T) ≤ 2 * 1 * (2 * T) :=
      mul_le_mul (mul_le_mul hG hqj hqj0 (by norm_num)) (mul_le_mul_of_nonneg_right hG hT0)
        (mul_nonneg (by linarith) hT0) (by norm_num)
    have c3 : T * (1 / 4) ≤ T * r := mul_le_mul_of_nonneg_left hr hT0
    have e1 : (G * G * q j + 20 * T) * r = G * q j * (G * r) + 20 * (T * r) := by ring
    have e2 : G * q j * (1 - G * T) = G * q j - G * q j * (G * T) := by ring
    rw [e1]
    linarith
  · have hy : f j / r * r = f j := div_mul_cancel₀ _ hrp.ne'
    have hy0 : 0 ≤ f j / r := div_nonneg (hf j) hr0
    have hy1 : f j / r ≤ 1 := by rw [div_le_one hrp]; exact hfj
    generalize f j / r = y at *
    have c1 : y * r ≤ y * (G + T) := mul_le_mul_of_nonneg_left a1 hy0
    have c2 : y * T ≤ 1 * T := mul_le_mul_of_nonneg_right hy1 hT0
    have c3 : f j + t j ≤ G * y + 2 * T := by linarith [mul_add y G T, mul_comm y G]
    have c4 : G * (f j + t j) ≤ G * (G * y + 2 * T) := mul_le_mul_of_nonneg_left c3 (by linarith)
    have c5 : G * (2 * T) ≤ G * (G * (20 * T)) := by
      refine mul_le_mul_of_nonneg_left ?_ (by linarith)
      have : 1 * (20 * T) ≤ G * (20 * T) := mul_le_mul_of_nonneg_right hG1 (by linarith)
      linarith
    have e1 : G * G * (y + 20 * T) = G * (G * y) + G * (G * (20 * T)) := by ring
    have e2 : G * (G * y + 2 * T) = G * (G * y) + G * (2 * T) := by ring
    rw [e1]
    linarith

omit R in
/-- what the size of the graph and of the weights may be -/
structure GmSize (u η D : F) (n : Nat) : Prop where
  D0 : 0 ≤ D
  small : growth u ^ (n + 4) ≤ 2
  tiny : (n + 2 * D) * η ≤ 1 / 4

omit R in
/-- the error of a row sum of `google_matrix` -/
def gmRowError (u η D : F) (n : Nat) : F := (growth u ^ (n + 4) - 1) + η * (25 * n + 8 * D)

omit R in
/-- the error of an entry of `google_matrix` -/
def gmEntryError (u η D : F) (n : Nat) : F := (growth u ^ (3 * n + 8) - 1) + η * (40 * n + 100 * D + 40)

/-- one row of the result -/
theorem gm_row {A : Mat n n F} {D alpha : F} (hs : GmSize u η D n) (hn : n ≠ 0) (hal : Rep alpha ∧ 0 ≤ alpha)
    (h1 : alpha ≤ 1) {i : Fin n} (hA : Good Rep (A i)) (hpos : 0 < ∑ l, (A i l).getD 0) (hle : ∑ l, (A i l).getD 0 ≤ D + 3)
    {E : Fin n → F} (hE0 : ∀ j, 0 ≤ E j) (hE1 : ∀ j, E j ≤ 1) {τ : F} (hτ0 : 0 ≤ τ) (hτ : τ ≤ 20 * (η * (n + 2 * D)))
    (hE : ∀ j, Near (growth u) (2 * n + 4) τ ((A i j).getD 0 / ∑ l, (A i l).getD 0) (E j))
    {p : F ⊕ Vec n F} {px : Fin n → F} (hpx : ∀ i, 0 ≤ px i) (hpx1 : ∑ i, px i = 1) (hp : PNear Rep u η (n + 1) p px) :
    (∀ j b, Model.Fg.gmScale o alpha A p i j = some b → Rep b ∧ 0 ≤ b) ∧
    |∑ j, (Model.Fg.gmScale o alpha A p i j).getD 0 - 1| ≤ gmRowError u η D n ∧
    ∀ j, |(Model.Fg.gmScale o alpha A p i j).getD 0 - (alpha * E j + (1 - alpha) * px j)| ≤ gmEntryError u η D n := by
  have hg := one_le_growth R
  have he := R.eta0
  have hD := hs.D0
  have hg2 : growth u ≤ 2 := by
    have : growth u ^ 1 ≤ growth u ^ (n + 4) := pow_le_pow_right₀ hg (by omega)
    rw [pow_one] at this
    exact this.trans hs.small
  have hgg : growth u * growth u ^ 2 ≤ 2 := by
    have : growth u ^ 3 ≤ growth u ^ (n + 4) := pow_le_pow_right₀ hg (by omega)
    have e : growth u * growth u ^ 2 = growth u ^ 3 := by ring
    rw [e]; exact this.trans hs.small
  have hg22 : growth u * growth u ≤ 2 := by
    have : growth u ^ 2 ≤ growth u ^ (n + 4) := pow_le_pow_right₀ hg (by omega)
    have e : growth u * growth u = growth u ^ 2 := by ring
    rw [e]; exact this.trans hs.small
  have hn1 : (1 : F) ≤ n := by exact_mod_cast Nat.pos_of_ne_zero hn
  have key := fun j => gmScale_near R hA hal h1 hpos hpx hp j
  -- the absolute error of an entry
  have hterm : ∀ j, growth u * (η + growth u * (η * (A i j).getD 0) + 2 * growth u ^ 2 * η) ≤
      η * (6 + 2 * (A i j).getD 0) := by
    intro j
    have a0 := hA.val j
    have x1 : growth u * η ≤ 2 * η := mul_le_mul_of_nonneg_right hg2 he
    have x2 : growth u * growth u * (η * (A i j).getD 0) ≤ 2 * (η * (A i j).getD 0) :=
      mul_le_mul_of_nonneg_right hg22 (mul_nonneg he a0)
    have x3 : growth u * growth u ^ 2 * η ≤ 2 * η := mul_le_mul_of_nonneg_right hgg he
    have e : growth u * (η + growth u * (η * (A i j).getD 0) + 2 * growth u ^ 2 * η) =
      growth u * η + growth u * growth u * (η * (A i j).getD 0) + 2 * (growth u * growth u ^ 2 * η) := by ring
    rw [e]
    linarith
  have hterm0 : ∀ j, 0 ≤ growth u * (η + growth u * (η * (A i j).getD 0) + 2 * growth u ^ 2 * η) := by
    intro j
    have a0 := hA.val j
    have : 0 ≤ growth u := by linarith
    positivity
  refine ⟨fun j => (key j).1, ?_, ?_⟩
  · have hsum := near_sum Finset.univ fun j _ => (key j).2
    have e1 : ∑ j, (alpha * ((A i j).getD 0 / ∑ l, (A i l).getD 0) + (1 - alpha) * px j) = 1 := by
      rw [Finset.sum_add_distrib, ← Finset.mul_sum, ← Finset.mul_sum, ← Finset.sum_div, div_self hpos.ne', hpx1]
      ring
    rw [e1] at hsum
    have := near_dist hg zero_le_one hsum
    rw [mul_one] at this
    refine this.trans ?_
    have e2 : ∑ j, growth u * (η + growth u * (η * (A i j).getD 0) + 2 * growth u ^ 2 * η) ≤
        ∑ j, η * (6 + 2 * (A i j).getD 0) := Finset.sum_le_sum fun j _ => hterm j
    have e3 : ∑ j, η * (6 + 2 * (A i j).getD 0) = η * (6 * n + 2 * ∑ j, (A i j).getD 0) := by
      rw [← Finset.mul_sum, Finset.sum_add_distrib, ← Finset.mul_sum]
      simp only [Finset.sum_const, Finset.card_univ, Fintype.card_fin, nsmul_eq_mul]
      ring
    have e4 : η * (6 * n + 2 * ∑ j, (A i j).getD 0) ≤ η * (25 * n + 8 * D) :=
      mul_le_mul_of_nonneg_left (by linarith) he
    unfold gmRowError
    linarith
  · intro j
    have hz : 0 ≤ alpha * E j + (1 - alpha) * px j :=
      add_nonneg (mul_nonneg hal.2 (hE0 j)) (mul_nonneg (by linarith) (hpx j))
    have hpj : px j ≤ 1 := by
      rw [← hpx1]; exact Finset.single_le_sum (f := px) (fun j _ => hpx j) (Finset.mem_univ j)
    have hz1 : alpha * E j + (1 - alpha) * px j ≤ 1 := by
      have a1 := mul_le_mul_of_nonneg_left (hE1 j) hal.2
      have a2 := mul_le_mul_of_nonneg_left hpj (by linarith : 0 ≤ 1 - alpha)
      linarith
    have hin : Near (growth u) (2 * n + 4) τ (alpha * ((A i j).getD 0 / ∑ l, (A i l).getD 0) + (1 - alpha) * px j)
        (alpha * E j + (1 - alpha) * px j) := by
      obtain ⟨b1, b2⟩ := hE j
      have hk : 1 ≤ growth u ^ (2 * n + 4) := one_le_pow₀ hg
      have hpp : 0 ≤ (1 - alpha) * px j := mul_nonneg (by linarith) (hpx j)
      have hpk : (1 - alpha) * px j ≤ growth u ^ (2 * n + 4) * ((1 - alpha) * px j) := le_mul_of_one_le_left hpp hk
      have ατ : alpha * τ ≤ τ := by
        have := mul_le_mul_of_nonneg_right h1 hτ0
        rwa [one_mul] at this
      constructor
      · have := mul_le_mul_of_nonneg_left b1 hal.2
        have e : growth u ^ (2 * n + 4) * (alpha * E j + (1 - alpha) * px j) =
          alpha * (growth u ^ (2 * n + 4) * E j) + growth u ^ (2 * n + 4) * ((1 - alpha) * px j) := by ring
        rw [e]
        linarith
      · have := mul_le_mul_of_nonneg_left b2 hal.2
        have e : growth u ^ (2 * n + 4) * (alpha * ((A i j).getD 0 / ∑ l, (A i l).getD 0) + (1 - alpha) * px j + τ) =
          alpha * (growth u ^ (2 * n + 4) * ((A i j).getD 0 / ∑ l, (A i l).getD 0 + τ)) +
            growth u ^ (2 * n + 4) * ((1 - alpha) * px j) + growth u ^ (2 * n + 4) * (τ - alpha * τ) := by ring
        have h0 : 0 ≤ growth u ^ (2 * n + 4) * (τ - alpha * τ) := mul_nonneg (by linarith) (by linarith)
        rw [e]
        linarith
    have := near_dist hg hz (near_trans hg hτ0 (key j).2 hin)
    refine this.trans ?_
    have e0 : n + 4 + (2 * n + 4) = 3 * n + 8 := by omega
    rw [e0]
    have k0 : 0 ≤ growth u ^ (3 * n + 8) - 1 := by have := one_le_pow₀ (n := 3 * n + 8) hg; linarith
    have e1 := mul_le_mul_of_nonneg_left hz1 k0
    have e2 : growth u ^ (n + 4) * τ ≤ 2 * (20 * (η * (n + 2 * D))) := mul_le_mul hs.small hτ hτ0 (by norm_num)
    have e3 : η * (6 + 2 * (A i j).getD 0) ≤ η * (12 + 2 * D) := by
      have := Finset.single_le_sum (f := fun j => (A i j).getD 0) (fun j _ => hA.val j) (Finset.mem_univ j)
      exact mul_le_mul_of_nonneg_left (by linarith) he
    have e4 := hterm j
    have e5 : 2 * (20 * (η * (n + 2 * D))) + η * (12 + 2 * D) ≤ η * (40 * n + 100 * D + 40) := by
      have x1 := mul_nonneg he hD
      have e : η * (40 * n + 100 * D + 40) - (2 * (20 * (η * (n + 2 * D))) + η * (12 + 2 * D)) =
        18 * (η * D) + 28 * η := by ring
      linarith
    unfold gmEntryError
    linarith

omit R in
/-- the distribution behind an optional vector -/
def gmDist (v : Option (Vec n F)) (dflt : Fin n → F) (j : Fin n) : F :=
  match v with
  | none => dflt j
  | some v => (v j).getD 0 / ∑ l, (v l).getD 0

/-- the last steps, after the empty rows have been filled -/
theorem gm_core {A : Mat n n F} {D alpha : F} (hs : GmSize u η D n) (hn : n ≠ 0) (hal : Rep alpha ∧ 0 ≤ alpha)
    (h1 : alpha ≤ 1) (hA : ∀ i, Good Rep (A i)) {empty : Fin n → Bool} (hem : ∀ i, empty i = true ↔ ∀ j, A i j = none)
    (hpos : ∀ i, ¬ empty i = true → 0 < ∑ l, (A i l).getD 0) (hle : ∀ i, ∑ l, (A i l).getD 0 ≤ D)
    {fill : Fin n → Option F} {q t : Fin n → F}
    (hfill : (∃ i, empty i = true) → Good Rep fill ∧ (∀ j, 0 ≤ q j) ∧ ∑ j, q j = 1 ∧ (∀ j, 0 ≤ t j) ∧
      ∑ j, t j ≤ η * (n + 2 * D) ∧ ∀ j, Near (growth u) (n + 2) (t j) ((fill j).getD 0) (q j))
    {p : F ⊕ Vec n F} {px : Fin n → F} (hpx : ∀ i, 0 ≤ px i) (hpx1 : ∑ i, px i = 1) (hp : PNear Rep u η (n + 1) p px)
    (i : Fin n) :
    (∀ j b, Model.Fg.gmScale o alpha (gmFill empty fill A) p i j = some b → Rep b ∧ 0 ≤ b) ∧
    |∑ j, (Model.Fg.gmScale o alpha (gmFill empty fill A) p i j).getD 0 - 1| ≤ gmRowError u η D n ∧
    ∀ j, |(Model.Fg.gmScale o alpha (gmFill empty fill A) p i j).getD 0 -
      (alpha * (if empty i = true then q j else (A i j).getD 0 / ∑ l, (A i l).getD 0) + (1 - alpha) * px j)| ≤
        gmEntryError u η D n := by
  have hg := one_le_growth R
  have he := R.eta0
  have hD := hs.D0
  by_cases hi : empty i = true
  · have e : gmFill empty fill A i = fill := by
      funext j
      unfold gmFill
      rw [if_pos hi, (hem i).1 hi j]
      cases fill j <;> rfl
    obtain ⟨f1, q0, q1, t0, tT, fn⟩ := hfill ⟨i, hi⟩
    have hG : growth u ^ (n + 2) ≤ 2 := (pow_le_pow_right₀ hg (by omega)).trans hs.small
    have hT : ∑ j, t j ≤ 1 / 4 := tT.trans (by rw [mul_comm]; exact hs.tiny)
    obtain ⟨a, b, c⟩ := fill_quot hg (fun j => f1.val j) q0 q1 t0 fn hG hT
    have hq1 : ∀ j, q j ≤ 1 := fun j => by
      rw [← q1]; exact Finset.single_le_sum (f := q) (fun j _ => q0 j) (Finset.mem_univ j)
    have hT0 : 0 ≤ ∑ j, t j := Finset.sum_nonneg fun j _ => t0 j
    have := gm_row R hs hn hal h1 (A := gmFill empty fill A) (i := i) (E := q) (τ := 20 * ∑ j, t j)
      (by rw [e]; exact f1) (by rw [e]; exact a) (by rw [e]; linarith) q0 hq1 (by linarith) (by linarith)
      (by rw [e]; exact c) hpx hpx1 hp
    simpa only [hi, if_true] using this
  · have e : gmFill empty fill A i = A i := by
      funext j
      unfold gmFill
      rw [if_neg hi]
      cases A i j <;> rfl
    have hp0 := hpos i hi
    have z0 : ∀ j, 0 ≤ (A i j).getD 0 / ∑ l, (A i l).getD 0 := fun j => div_nonneg ((hA i).val j) hp0.le
    have := gm_row R hs hn hal h1 (A := gmFill empty fill A) (i := i)
      (E := fun j => (A i j).getD 0 / ∑ l, (A i l).getD 0) (τ := 0)
      (by rw [e]; exact hA i) (by rw [e]; exact hp0) (by rw [e]; have := hle i; linarith) z0
      (fun j => by
        rw [div_le_one hp0]
        exact Finset.single_le_sum (f := fun j => (A i j).getD 0) (fun j _ => (hA i).val j) (Finset.mem_univ j))
      le_rfl (by have := mul_nonneg he (by positivity : (0 : F) ≤ n + 2 * D); linarith)
      (by
        rw [e]
        exact fun j => near_weaken hg (Nat.zero_le _) le_rfl (z0 j) (z0 j) le_rfl (near_refl _)) hpx hpx1 hp
    simpa only [if_neg hi] using this

/-- `google_matrix` on the matrix -/
theorem gmBody_near {A : Mat n n F} {D alpha : F} (hs : GmSize u η D n) (hn : n ≠ 0) (hal : Rep alpha ∧ 0 ≤ alpha)
    (h1 : alpha ≤ 1) (hA : ∀ i, Good Rep (A i)) {empty : Fin n → Bool} (hem : ∀ i, empty i = true ↔ ∀ j, A i j = none)
    (hpos : ∀ i, ¬ empty i = true → 0 < ∑ l, (A i l).getD 0) (hle : ∀ i, ∑ l, (A i l).getD 0 ≤ D)
    {pers dang : Option (Vec n F)} (hp : ∀ v, pers = some v → Good Rep v ∧ 0 < ∑ i, (v i).getD 0)
    (hd : (∃ i, empty i = true) → ∀ v, dang = some v → Good Rep v ∧ 0 < ∑ i, (v i).getD 0 ∧ ∑ i, (v i).getD 0 ≤ D) :
    ∃ M, Model.Fg.gmBody o alpha A pers dang empty = .ok M ∧ ∀ i,
      (∀ j b, M i j = some b → Rep b ∧ 0 ≤ b) ∧ |∑ j, (M i j).getD 0 - 1| ≤ gmRowError u η D n ∧
      ∀ j, |(M i j).getD 0 - (alpha * (if empty i = true then gmDist dang (gmDist pers fun _ => 1 / n) j
          else (A i j).getD 0 / ∑ l, (A i l).getD 0) + (1 - alpha) * gmDist pers (fun _ => 1 / n) j)| ≤
        gmEntryError u η D n := by
  have hg := one_le_growth R
  have he := R.eta0
  have hD := hs.D0
  have hnF : (n : F) ≠ 0 := by exact_mod_cast hn
  have hg2 : growth u ≤ 2 := by
    have : growth u ^ 1 ≤ growth u ^ (n + 4) := pow_le_pow_right₀ hg (by omega)
    rw [pow_one] at this
    exact this.trans hs.small
  have one_sum : ∑ _j : Fin n, (1 : F) / n = 1 := by simp [mul_inv_cancel₀ hnF]
  have one_nonneg : ∀ _j : Fin n, (0 : F) ≤ 1 / n := fun _ => by positivity
  have norm_sum : ∀ v : Vec n F, 0 < ∑ i, (v i).getD 0 → ∑ j, (v j).getD 0 / ∑ i, (v i).getD 0 = 1 := by
    intro v hv
    rw [← Finset.sum_div, div_self hv.ne']
  have up := uniform_pnear R hn
  have ηsum : ∑ _j : Fin n, η ≤ η * (n + 2 * D) := by
    simp only [Finset.sum_const, Finset.card_univ, Fintype.card_fin, nsmul_eq_mul]
    have := mul_nonneg he hD
    have e : η * (n + 2 * D) = n * η + 2 * (η * D) := by ring
    linarith
  have wk : ∀ {y z : F}, 0 ≤ z → 0 ≤ y → Near (growth u) (n + 1) η y z → Near (growth u) (n + 2) η y z :=
    fun hz hy h => near_weaken hg (by omega) le_rfl hz hy he h
  have dfill : ∀ v : Vec n F, dang = some v → (∃ i, empty i = true) →
      Good Rep (Model.Fg.normDang o v) ∧ (∀ j, 0 ≤ (v j).getD 0 / ∑ i, (v i).getD 0) ∧
      ∑ j, (v j).getD 0 / ∑ i, (v i).getD 0 = 1 ∧ (∀ j, 0 ≤ η + growth u * (η * (v j).getD 0)) ∧
      ∑ j, (η + growth u * (η * (v j).getD 0)) ≤ η * (n + 2 * D) ∧
      ∀ j, Near (growth u) (n + 2) (η + growth u * (η * (v j).getD 0)) ((Model.Fg.normDang o v j).getD 0)
        ((v j).getD 0 / ∑ i, (v i).getD 0) := by
    intro v hv hx
    obtain ⟨v1, v2, v3⟩ := hd hx v hv
    obtain ⟨-, d2, d3⟩ := normDang_near R v1 v2
    refine ⟨d2, fun j => div_nonneg (v1.val j) v2.le, norm_sum v v2, fun j => ?_, ?_, d3⟩
    · have := mul_nonneg (by linarith : 0 ≤ growth u) (mul_nonneg he (v1.val j)); linarith
    · rw [Finset.sum_add_distrib, ← Finset.mul_sum, ← Finset.mul_sum]
      simp only [Finset.sum_const, Finset.card_univ, Fintype.card_fin, nsmul_eq_mul]
      have x1 : growth u * (η * ∑ i, (v i).getD 0) ≤ 2 * (η * ∑ i, (v i).getD 0) :=
        mul_le_mul_of_nonneg_right hg2 (mul_nonneg he v2.le)
      have x2 : η * ∑ i, (v i).getD 0 ≤ η * D := mul_le_mul_of_nonneg_left v3 he
      have e : η * (n + 2 * D) = n * η + 2 * (η * D) := by ring
      linarith
  unfold Model.Fg.gmBody
  cases hpers : pers with
  | none =>
    cases hdang : dang with
    | none =>
      refine ⟨_, rfl, fun i => ?_⟩
      exact gm_core R hs hn hal h1 hA hem hpos hle (q := fun _ => 1 / n) (t := fun _ => η) (fun _ =>
        ⟨fun j b hb => by cases hb; exact up.1, one_nonneg, one_sum, fun _ => he, ηsum,
          fun j => by
            simp only [Option.getD_some]
            exact wk (one_nonneg j) up.1.2 (up.2 j)⟩) one_nonneg one_sum up i
    | some d =>
      have hc : ¬ ((∃ i, empty i = true) ∧ o.isZero (Model.Fr.vsum o d) = true) := by
        rintro ⟨hx, hz⟩
        obtain ⟨v1, v2, -⟩ := hd hx d hdang
        exact (normDang_near R v1 v2).1 hz
      dsimp only
      rw [if_neg hc]
      exact ⟨_, rfl, fun i => gm_core R hs hn hal h1 hA hem hpos hle (dfill d hdang) one_nonneg one_sum up i⟩
  | some s =>
    obtain ⟨s1, s2⟩ := hp s hpers
    obtain ⟨n1, n2, n3⟩ := normPers_near R s1 s2
    have sp : PNear Rep u η (n + 1) (.inr (Model.Fg.normPers o s)) fun j => (s j).getD 0 / ∑ i, (s i).getD 0 := ⟨n2, n3⟩
    have s0 : ∀ j, 0 ≤ (s j).getD 0 / ∑ i, (s i).getD 0 := fun j => div_nonneg (s1.val j) s2.le
    cases hdang : dang with
    | none =>
      dsimp only
      rw [if_neg n1]
      refine ⟨_, rfl, fun i => ?_⟩
      exact gm_core R hs hn hal h1 hA hem hpos hle (q := fun j => (s j).getD 0 / ∑ i, (s i).getD 0) (t := fun _ => η)
        (fun _ => ⟨n2, s0, norm_sum s s2, fun _ => he, ηsum, fun j => wk (s0 j) (n2.val j) (n3 j)⟩) s0 (norm_sum s s2) sp i
    | some d =>
      have hc : ¬ ((∃ i, empty i = true) ∧ o.isZero (Model.Fr.vsum o d) = true) := by
        rintro ⟨hx, hz⟩
        obtain ⟨v1, v2, -⟩ := hd hx d hdang
        exact (normDang_near R v1 v2).1 hz
      dsimp only
      rw [if_neg n1, if_neg hc]
      exact ⟨_, rfl, fun i => gm_core R hs hn hal h1 hA hem hpos hle (dfill d hdang) s0 (norm_sum s s2) sp i⟩

end Proofs.Fr
