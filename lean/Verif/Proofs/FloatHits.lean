import Verif.Proofs.FloatRank
import Verif.Model.FloatHits
import Verif.GB.Lemmas
import Mathlib.Algebra.BigOperators.Field

/-! # Rounding errors of one pass of `hits` -/

open GB Spec Model

namespace Proofs.Fr

variable {F : Type} [Field F] [LinearOrder F] [IsStrictOrderedRing F] {n : Nat} {o : Arith F} {Rep : F → Prop} {u η : F}
  (R : Rounded o Rep u η)

include R

/-- an inner product -/
theorem inner_near {v w : Vec n F} (hv : Good Rep v) (hw : Good Rep w) :
    (∀ b, Model.Fr.fsum o (fun i => ointer o.mul (v i) (w i)) = some b → Rep b ∧ 0 ≤ b) ∧
    Near (growth u) (n + 1) (growth u ^ n * (n * η)) ((Model.Fr.fsum o fun i => ointer o.mul (v i) (w i)).getD 0)
      (∑ i, (v i).getD 0 * (w i).getD 0) := by
  have hg := one_le_growth R
  have he := R.eta0
  have key : ∀ i, (∀ b, ointer o.mul (v i) (w i) = some b → Rep b ∧ 0 ≤ b) ∧
      Near (growth u) 1 η ((ointer o.mul (v i) (w i)).getD 0) ((v i).getD 0 * (w i).getD 0) := by
    intro i
    have zero : Near (growth u) 1 η 0 0 := near_weaken hg (Nat.zero_le _) he le_rfl le_rfl le_rfl (near_refl 0)
    cases hxx : v i with
    | none => simpa [ointer] using zero
    | some b =>
      cases hij : w i with
      | none => simpa [ointer] using zero
      | some a =>
        obtain ⟨m1, m2, m3⟩ := mul_near R (hv i b hxx).1 (hw i a hij).1 (hv i b hxx).2 (hw i a hij).2
        exact ⟨fun c hc => by simp [ointer] at hc; subst hc; exact ⟨m1, m2⟩, by simpa [ointer] using m3⟩
  obtain ⟨f1, f2⟩ := fsum_near (n := n) R (v := fun i => ointer o.mul (v i) (w i)) (fun i b hb => (key i).1 b hb)
  have hsum := near_sum Finset.univ (fun i _ => (key i).2)
  have f3 := near_trans hg (Finset.sum_nonneg fun _ _ => he) f2 hsum
  simp only [Finset.sum_const, Finset.card_univ, Fintype.card_fin, nsmul_eq_mul, zero_add] at f3
  exact ⟨f1, f3⟩

/-- `x *= 1.0 / denom` -/
theorem scale_near {v : Vec n F} (hv : Good Rep v) {d : F} (hd : Rep d) (hd0 : 0 < d) :
    Good Rep (Model.Fh.scaleBy o d v) ∧
    ∀ i, Near (growth u) 2 (η + growth u * (η * (v i).getD 0)) ((Model.Fh.scaleBy o d v i).getD 0) ((v i).getD 0 / d) := by
  have hg := one_le_growth R
  have he := R.eta0
  have hz : ¬ o.isZero d = true := by rw [R.isZero]; exact hd0.ne'
  unfold Model.Fh.scaleBy
  rw [if_neg hz]
  have hone : Rep (o.nat 1) ∧ 0 ≤ o.nat 1 := ⟨(R.nat 1).1, (R.nat 1).2.1⟩
  obtain ⟨r1, r2⟩ := odiv_near R (near_refl d) hone hd hd0 hd0
  rw [R.one] at r1 r2
  have key : ∀ a, Rep a ∧ 0 ≤ a → (Rep (o.mul a (o.div (o.nat 1) d)) ∧ 0 ≤ o.mul a (o.div (o.nat 1) d)) ∧
      Near (growth u) 2 (η + growth u * (η * a)) (o.mul a (o.div (o.nat 1) d)) (a / d) := by
    intro a ha
    rw [R.one]
    obtain ⟨m1, m2⟩ := omul_near' R (near_refl a) r2 ha r1 ha.2 (div_nonneg zero_le_one hd0.le) he
    rw [mul_one_div] at m2
    exact ⟨m1, m2⟩
  constructor
  · intro i b hb
    obtain ⟨a, ha, rfl⟩ := Option.map_eq_some_iff.1 hb
    exact (key a (hv i a ha)).1
  · intro i
    show Near _ _ _ (((v i).map _).getD 0) _
    cases hvi : v i with
    | none =>
      simp only [Option.map_none, Option.getD_none, mul_zero, add_zero, zero_div]
      exact near_weaken hg (Nat.zero_le _) he le_rfl le_rfl le_rfl (near_refl 0)
    | some a => simpa using (key a (hv i a hvi)).2

/-- `normalize(x, "L1")` -/
theorem normalizeL1_near {v : Vec n F} (hv : Good Rep v) :
    Good Rep (Model.Fh.normalizeL1 o v) ∧
    ((∀ i, (Model.Fh.normalizeL1 o v i).getD 0 = 0) ∨
      |∑ i, (Model.Fh.normalizeL1 o v i).getD 0 - 1| ≤
        (growth u ^ (n + 2) - 1) + n * η + growth u * (η * ∑ i, (v i).getD 0)) := by
  have hg := one_le_growth R
  have he := R.eta0
  obtain ⟨d1, d2, d3⟩ := vsum_near R hv
  unfold Model.Fh.normalizeL1
  rcases d2.eq_or_lt with h0 | h0
  · have hz : o.isZero (Model.Fr.vsum o v) = true := by rw [R.isZero]; exact h0.symm
    have e : Model.Fh.scaleBy o (Model.Fr.vsum o v) v = v := by
      unfold Model.Fh.scaleBy; rw [if_pos hz]
    rw [e]
    refine ⟨hv, .inl fun i => ?_⟩
    have h2 := d3.2
    rw [← h0, zero_add, mul_zero] at h2
    exact le_antisymm ((Finset.single_le_sum (f := fun i => (v i).getD 0) (fun i _ => hv.val i) (Finset.mem_univ i)).trans h2)
      (hv.val i)
  · obtain ⟨s1, s2⟩ := scale_near R hv d1 h0
    refine ⟨s1, .inr ?_⟩
    have hS : 0 < ∑ i, (v i).getD 0 := by
      have h1 := d3.1
      rw [add_zero] at h1
      by_contra hc
      have : growth u ^ n * ∑ i, (v i).getD 0 ≤ 0 :=
        mul_nonpos_of_nonneg_of_nonpos (pow_nonneg (by linarith) _) (not_lt.1 hc)
      linarith
    have e := near_sum Finset.univ fun i _ => s2 i
    rw [← Finset.sum_div, Finset.sum_add_distrib, ← Finset.mul_sum, ← Finset.mul_sum] at e
    simp only [Finset.sum_const, Finset.card_univ, Fintype.card_fin, nsmul_eq_mul] at e
    have q : Near (growth u) n 0 ((∑ i, (v i).getD 0) / Model.Fr.vsum o v) 1 := by
      have := near_div d3 hS.le h0 hS
      rwa [div_self hS.ne'] at this
    have t := near_trans hg le_rfl e q
    rw [mul_zero, add_zero, add_comm 2 n] at t
    have := near_dist hg zero_le_one t
    rw [mul_one] at this
    linarith

/-- `normalize(x, "Linf")` -/
theorem normalizeLinf_near {v : Vec n F} (hv : Good Rep v) {Y : F} (hY : ∀ i, (v i).getD 0 ≤ Y) (hY0 : 0 ≤ Y) :
    Good Rep (Model.Fh.normalizeLinf o v) ∧
    (∀ i, (Model.Fh.normalizeLinf o v i).getD 0 ≤ growth u ^ 2 + (η + growth u * (η * Y))) ∧
    ((∀ i, (Model.Fh.normalizeLinf o v i).getD 0 = 0) ∨
      ∃ i, |(Model.Fh.normalizeLinf o v i).getD 0 - 1| ≤ (growth u ^ 2 - 1) + (η + growth u * (η * Y))) := by
  have hg := one_le_growth R
  have he := R.eta0
  have hT : 0 ≤ η + growth u * (η * Y) := by positivity
  unfold Model.Fh.normalizeLinf
  cases hr : reduce max v with
  | none =>
    have hv0 : ∀ i, v i = none := by
      intro i
      cases hvi : v i with
      | none => rfl
      | some a =>
        exfalso
        have := (reduce_eq_none _ _).1 hr i
        rw [hvi] at this; cases this
    have hz : o.isZero ((none : Option F).getD (o.nat 0)) = true := by
      rw [R.isZero, Option.getD_none, R.zero]
    unfold Model.Fh.scaleBy
    rw [if_pos hz]
    refine ⟨hv, fun i => ?_, .inl fun i => ?_⟩
    · rw [hv0 i]
      have := one_le_pow₀ (n := 2) hg
      simp only [Option.getD_none]
      linarith
    · rw [hv0 i]; rfl
  | some m =>
    obtain ⟨⟨i0, hi0⟩, hle⟩ := reduce_max.1 hr
    have hm := hv i0 m hi0
    rw [Option.getD_some]
    have hle' : ∀ i, (v i).getD 0 ≤ m := by
      intro i
      cases hvi : v i with
      | none => simpa using hm.2
      | some a => simpa using hle i a hvi
    rcases hm.2.eq_or_lt with h0 | h0
    · have hz : o.isZero m = true := by rw [R.isZero]; exact h0.symm
      unfold Model.Fh.scaleBy
      rw [if_pos hz]
      have hz' : ∀ i, (v i).getD 0 = 0 := fun i => le_antisymm ((hle' i).trans h0.symm.le) (hv.val i)
      refine ⟨hv, fun i => ?_, .inl hz'⟩
      rw [hz']
      have := one_le_pow₀ (n := 2) hg
      linarith
    · obtain ⟨s1, s2⟩ := scale_near R hv hm.1 h0
      have ht : ∀ i, η + growth u * (η * (v i).getD 0) ≤ η + growth u * (η * Y) := by
        intro i
        have := mul_le_mul_of_nonneg_left (mul_le_mul_of_nonneg_left (hY i) he) (show 0 ≤ growth u by linarith)
        linarith
      refine ⟨s1, fun i => ?_, .inr ⟨i0, ?_⟩⟩
      · have h1 := (s2 i).1
        have h2 : (v i).getD 0 / m ≤ 1 := (div_le_one h0).2 (hle' i)
        have h3 := mul_le_mul_of_nonneg_left h2 (show 0 ≤ growth u ^ 2 by positivity)
        have := ht i
        linarith
      · have h1 := s2 i0
        have e : (v i0).getD 0 / m = 1 := by rw [hi0]; simp [h0.ne']
        rw [e] at h1
        have := near_dist hg zero_le_one h1
        rw [mul_one] at this
        have := ht i0
        linarith

omit R in
/-- how small the rounding errors have to be: `D` bounds the total weight into and out of every node, `B` the total of
`nstart` -/
structure HitsSize (u η D B : F) (n : Nat) : Prop where
  D0 : 0 ≤ D
  B0 : 0 ≤ B
  growth : growth u ^ (n + 2) ≤ 3 / 2
  tiny : (n + 1) * (η * (16 * (D + 1) ^ 2)) ≤ 1 / 4
  start : η * B ≤ 1 / 8

omit R in
theorem HitsSize.eta {D B : F} (s : HitsSize u η D B n) (he : 0 ≤ η) :
    (n : F) * η ≤ 1 / 64 ∧ η ≤ 1 / 64 ∧ η * (8 * (D + 1) ^ 2) ≤ 1 / 8 := by
  have h1 : 1 ≤ (D + 1) ^ 2 := one_le_pow₀ (by linarith [s.D0])
  have hn : (0 : F) ≤ n := Nat.cast_nonneg n
  have h2 : η * 16 ≤ η * (16 * (D + 1) ^ 2) := mul_le_mul_of_nonneg_left (by linarith) he
  have h3 : η * (16 * (D + 1) ^ 2) ≤ (n + 1) * (η * (16 * (D + 1) ^ 2)) :=
    le_mul_of_one_le_left (by positivity) (by linarith)
  have h4 : (n + 1) * (η * 16) ≤ (n + 1) * (η * (16 * (D + 1) ^ 2)) := mul_le_mul_of_nonneg_left h2 (by linarith)
  have h5 := s.tiny
  have e : ((n : F) + 1) * (η * 16) = 16 * (n * η) + 16 * η := by ring
  have e2 : η * (16 * (D + 1) ^ 2) = 2 * (η * (8 * (D + 1) ^ 2)) := by ring
  have := mul_nonneg hn he
  refine ⟨by linarith, by linarith, by linarith⟩

/-- `hprev @ A`, `A @ a` -/
theorem product_bound {D B X : F} (s : HitsSize u η D B n) {v : Vec n F} (hv : Good Rep v) {w : Vec n F} (hw : Good Rep w)
    (hX0 : 0 ≤ X) (hX : ∀ i, (v i).getD 0 ≤ X) (hD : ∑ i, (w i).getD 0 ≤ D) :
    (Model.Fr.fsum o fun i => ointer o.mul (v i) (w i)).getD 0 ≤ 2 * (X * D) + 1 := by
  have hg := one_le_growth R
  have he := R.eta0
  obtain ⟨hnη, -, -⟩ := s.eta he
  have h1 := (inner_near R hv hw).2.1
  have hs : ∑ i, (v i).getD 0 * (w i).getD 0 ≤ X * D := by
    refine le_trans ?_ (mul_le_mul_of_nonneg_left hD hX0)
    rw [Finset.mul_sum]
    exact Finset.sum_le_sum fun i _ => mul_le_mul_of_nonneg_right (hX i) (hw.val i)
  have g1 : growth u ^ (n + 1) ≤ 3 / 2 := (pow_le_pow_right₀ hg (by omega)).trans s.growth
  have g2 : growth u ^ n ≤ 3 / 2 := (pow_le_pow_right₀ hg (by omega)).trans s.growth
  have hXD : 0 ≤ X * D := mul_nonneg hX0 s.D0
  have p1 : growth u ^ (n + 1) * ∑ i, (v i).getD 0 * (w i).getD 0 ≤ 3 / 2 * (X * D) :=
    mul_le_mul g1 hs (Finset.sum_nonneg fun i _ => mul_nonneg (hv.val i) (hw.val i)) (by norm_num)
  have p2 : growth u ^ n * (n * η) ≤ 3 / 2 * (1 / 64) :=
    mul_le_mul g2 hnη (mul_nonneg (Nat.cast_nonneg n) he) (by norm_num)
  linarith

/-- one pass on a vector of values at most 2 -/
theorem hits_step {D B : F} (s : HitsSize u η D B n) {A : Mat n n F} (hA : ∀ i j a, A i j = some a → Rep a ∧ 0 ≤ a)
    (hout : ∀ i, ∑ j, (A i j).getD 0 ≤ D) (hin : ∀ j, ∑ i, (A i j).getD 0 ≤ D) {x : Vec n F} (hx : Good Rep x)
    (hx2 : ∀ i, (x i).getD 0 ≤ 2) :
    let a := Model.Fh.hitsA o A x
    let h := Model.Fh.normalizeLinf o (Model.Fh.mxv o A a)
    (Good Rep a ∧ ∀ i, (a i).getD 0 ≤ 4 * D + 1) ∧ Good Rep h ∧ (∀ i, (h i).getD 0 ≤ 2) ∧
    (∀ i, (h i).getD 0 ≤ growth u ^ 2 + (η + growth u * (η * (8 * (D + 1) ^ 2)))) ∧
    ((∀ i, (h i).getD 0 = 0) ∨
      ∃ i, |(h i).getD 0 - 1| ≤ (growth u ^ 2 - 1) + (η + growth u * (η * (8 * (D + 1) ^ 2)))) := by
  intro a h
  have hg := one_le_growth R
  have he := R.eta0
  have hD := s.D0
  obtain ⟨-, hη, hηY⟩ := s.eta he
  have ha : Good Rep a := by
    intro j b hb
    exact (inner_near R hx (w := fun i => A i j) (fun i b hb => hA i j b hb)).1 b hb
  have haD : ∀ j, (a j).getD 0 ≤ 4 * D + 1 := by
    intro j
    have := product_bound R s hx (w := fun i => A i j) (fun i b hb => hA i j b hb) (by norm_num) hx2 (hin j)
    have e : 2 * ((2 : F) * D) + 1 = 4 * D + 1 := by ring
    rw [e] at this
    exact this
  have hrow : ∀ i, Good Rep (A i) := fun i j b hb => hA i j b hb
  have hcomm : ∀ i, (∀ b, Model.Fh.mxv o A a i = some b → Rep b ∧ 0 ≤ b) ∧ (Model.Fh.mxv o A a i).getD 0 ≤ 8 * (D + 1) ^ 2 := by
    intro i
    refine ⟨fun b hb => (inner_near R (hrow i) ha).1 b hb, ?_⟩
    have h1 := (inner_near R (hrow i) ha).2.1
    have hs : ∑ j, (A i j).getD 0 * (a j).getD 0 ≤ D * (4 * D + 1) := by
      refine le_trans ?_ (mul_le_mul_of_nonneg_right (hout i) (show 0 ≤ 4 * D + 1 by linarith))
      rw [Finset.sum_mul]
      exact Finset.sum_le_sum fun j _ => mul_le_mul_of_nonneg_left (haD j) ((hrow i).val j)
    obtain ⟨hnη, -, -⟩ := s.eta he
    have g1 : growth u ^ (n + 1) ≤ 3 / 2 := (pow_le_pow_right₀ hg (by omega)).trans s.growth
    have g2 : growth u ^ n ≤ 3 / 2 := (pow_le_pow_right₀ hg (by omega)).trans s.growth
    have p1 : growth u ^ (n + 1) * ∑ j, (A i j).getD 0 * (a j).getD 0 ≤ 3 / 2 * (D * (4 * D + 1)) :=
      mul_le_mul g1 hs (Finset.sum_nonneg fun j _ => mul_nonneg ((hrow i).val j) (ha.val j)) (by norm_num)
    have p2 : growth u ^ n * (n * η) ≤ 3 / 2 * (1 / 64) :=
      mul_le_mul g2 hnη (mul_nonneg (Nat.cast_nonneg n) he) (by norm_num)
    have e : 8 * (D + 1) ^ 2 = 3 / 2 * (D * (4 * D + 1)) + 2 * D ^ 2 + 29 / 2 * D + 8 := by ring
    have : 0 ≤ D ^ 2 := sq_nonneg D
    show (Model.Fr.fsum o fun j => ointer o.mul (A i j) (a j)).getD 0 ≤ _
    rw [e]
    linarith
  have hY0 : 0 ≤ 8 * (D + 1) ^ 2 := by positivity
  obtain ⟨n1, n2, n3⟩ := normalizeLinf_near R (v := Model.Fh.mxv o A a) (fun i b hb => (hcomm i).1 b hb)
    (fun i => (hcomm i).2) hY0
  refine ⟨⟨ha, haD⟩, n1, fun i => (n2 i).trans ?_, n2, n3⟩
  have g1 : growth u ^ 2 ≤ 3 / 2 := (pow_le_pow_right₀ hg (by omega)).trans s.growth
  have g2 : growth u ≤ 3 / 2 := (le_self_pow₀ hg (by norm_num)).trans g1
  have p2 : growth u * (η * (8 * (D + 1) ^ 2)) ≤ 3 / 2 * (1 / 8) :=
    mul_le_mul g2 hηY (by positivity) (by norm_num)
  linarith

/-- the start vector -/
theorem hits_init {D B : F} (s : HitsSize u η D B n) (hn : n ≠ 0) {x : Option (Vec n F)}
    (hx : ∀ v, x = some v → Good Rep v ∧ 0 < ∑ i, (v i).getD 0 ∧ ∑ i, (v i).getD 0 ≤ B) :
    ∃ h, Model.Fh.hitsInit o x = .ok h ∧ Good Rep h ∧ ∀ i, (h i).getD 0 ≤ 2 := by
  have hg := one_le_growth R
  have he := R.eta0
  obtain ⟨-, hη, -⟩ := s.eta he
  have g0 : growth u ^ (n + 1) ≤ 3 / 2 := (pow_le_pow_right₀ hg (by omega)).trans s.growth
  cases x with
  | none =>
    obtain ⟨⟨a1, a2⟩, a3⟩ := uniform_near R hn
    refine ⟨_, rfl, ?_, fun i => ?_⟩
    · intro i a hia
      cases hia
      exact ⟨a1, a2⟩
    · have h1 := a3.1
      have hn1 : (1 : F) ≤ n := by exact_mod_cast Nat.one_le_iff_ne_zero.2 hn
      have h2 : (1 : F) / n ≤ 1 := (div_le_one (by linarith)).2 hn1
      have h3 : growth u ^ (n + 1) * (1 / n) ≤ 3 / 2 * 1 :=
        mul_le_mul g0 h2 (div_nonneg zero_le_one (by linarith)) (by norm_num)
      show o.div (o.nat 1) (o.nat n) ≤ 2
      linarith
  | some v =>
    obtain ⟨hv, hS, hB⟩ := hx v rfl
    obtain ⟨d1, d2, d3⟩ := vsum_near R hv
    have hd : 0 < Model.Fr.vsum o v := pos_of_near R d3 hS
    have hz : ¬ o.isZero (Model.Fr.vsum o v) = true := by rw [R.isZero]; exact hd.ne'
    obtain ⟨s1, s2⟩ := scale_near R hv d1 hd
    have e : Model.Fh.scaleBy o (Model.Fr.vsum o v) v =
        vapply (fun a => o.mul a (o.div (o.nat 1) (Model.Fr.vsum o v))) v := by
      unfold Model.Fh.scaleBy; rw [if_neg hz]
    rw [e] at s1 s2
    refine ⟨_, by unfold Model.Fh.hitsInit; dsimp only; rw [if_neg hz], s1, fun i => ?_⟩
    have hi : (v i).getD 0 ≤ ∑ i, (v i).getD 0 :=
      Finset.single_le_sum (f := fun i => (v i).getD 0) (fun i _ => hv.val i) (Finset.mem_univ i)
    have t := near_trans hg le_rfl (s2 i) (near_div d3 (hv.val i) hd hS)
    rw [mul_zero, add_zero] at t
    have h1 := t.1
    have h2 : (v i).getD 0 / ∑ i, (v i).getD 0 ≤ 1 := (div_le_one hS).2 hi
    have g1 : growth u ^ (2 + n) ≤ 3 / 2 := by rw [add_comm]; exact s.growth
    have g2 : growth u ≤ 3 / 2 := (le_self_pow₀ hg (by omega)).trans s.growth
    have h3 : growth u ^ (2 + n) * ((v i).getD 0 / ∑ i, (v i).getD 0) ≤ 3 / 2 * 1 :=
      mul_le_mul g1 h2 (div_nonneg (hv.val i) hS.le) (by norm_num)
    have h4 : η * (v i).getD 0 ≤ 1 / 8 := (mul_le_mul_of_nonneg_left (hi.trans hB) he).trans s.start
    have h5 : growth u * (η * (v i).getD 0) ≤ 3 / 2 * (1 / 8) :=
      mul_le_mul g2 h4 (mul_nonneg he (hv.val i)) (by norm_num)
    linarith

end Proofs.Fr
