import Verif.Proofs.FloatHits
import Verif.Model.FloatEigen
import Mathlib.Algebra.Order.Chebyshev

/-! # Rounding errors of the L2 normalisation and of one pass of `eigenvector_centrality` -/

open GB Spec Model

namespace Proofs.Fr

variable {F : Type} [Field F] [LinearOrder F] [IsStrictOrderedRing F] {n : Nat} {o : Arith F} {Rep : F → Prop} {u η : F}
  {sqrt : F → F} (R : Rounded o Rep u η) (Q : SqrtAcc Rep u sqrt)

/-- squares of numbers that carry a relative and an absolute error -/
theorem near_squares {g t W : F} (hg : 1 ≤ g) (hg2 : g ^ 2 ≤ 2) (ht0 : 0 ≤ t) (ht : t * (5 * n + 18) ≤ 1 / 8) {y w : Fin n → F}
    (hy : ∀ i, 0 ≤ y i) (hw : ∀ i, 0 ≤ w i) (h : ∀ i, Near g 2 t (y i) (w i)) (hW : ∑ i, w i ^ 2 = W) (hW4 : W ≤ 2) :
    Near g 4 (t * (5 * n + 18)) (∑ i, y i ^ 2) W := by
  have hn0 : (0 : F) ≤ n := Nat.cast_nonneg n
  have hg0 : 0 ≤ g := by linarith
  have htn : 0 ≤ t * n := mul_nonneg ht0 hn0
  have ht1 : t ≤ 1 := by
    have : t * (5 * n + 18) = 5 * (t * n) + 18 * t := by ring
    linarith
  have tt : t ^ 2 ≤ t := by
    have := mul_le_mul_of_nonneg_left ht1 ht0
    rw [mul_one] at this
    rw [pow_two]; exact this
  have e4 : g ^ 4 = g ^ 2 * g ^ 2 := by ring
  have hg4 : g ^ 4 ≤ 4 := by
    rw [e4]
    have := mul_le_mul hg2 hg2 (by positivity) (by norm_num : (0 : F) ≤ 2)
    linarith
  have lin : ∀ a : F, 0 ≤ a → a ≤ 1 + a ^ 2 := by
    intro a _
    have := sq_nonneg (a - 1)
    have e : (a - 1) ^ 2 = a ^ 2 - 2 * a + 1 := by ring
    have := sq_nonneg a
    linarith
  have up : ∀ i, y i ^ 2 ≤ g ^ 4 * w i ^ 2 + (4 * t * (1 + w i ^ 2) + t) := by
    intro i
    have h1 := (h i).1
    have := pow_le_pow_left₀ (hy i) h1 2
    have e : (g ^ 2 * w i + t) ^ 2 = g ^ 4 * w i ^ 2 + 2 * t * (g ^ 2 * w i) + t ^ 2 := by ring
    have l1 : g ^ 2 * w i ≤ 2 * (1 + w i ^ 2) := mul_le_mul hg2 (lin _ (hw i)) (hw i) (by norm_num)
    have l2 := mul_le_mul_of_nonneg_left l1 (by linarith : 0 ≤ 2 * t)
    have e2 : 2 * t * (2 * (1 + w i ^ 2)) = 4 * t * (1 + w i ^ 2) := by ring
    linarith
  have Y1 : ∑ i, y i ^ 2 ≤ g ^ 4 * W + t * (5 * n + 8) := by
    have := Finset.sum_le_sum fun i (_ : i ∈ Finset.univ) => up i
    have e : ∑ i : Fin n, (g ^ 4 * w i ^ 2 + (4 * t * (1 + w i ^ 2) + t)) = g ^ 4 * W + (4 * t * (n + W) + n * t) := by
      rw [Finset.sum_add_distrib, Finset.sum_add_distrib, ← Finset.mul_sum, ← Finset.mul_sum, Finset.sum_add_distrib, hW]
      simp
    rw [e] at this
    have := mul_le_mul_of_nonneg_left hW4 (by linarith : 0 ≤ 4 * t)
    have e2 : t * (5 * n + 8) = 4 * (t * n) + 4 * t * 2 + n * t := by ring
    have e3 : 4 * t * (n + W) = 4 * (t * n) + 4 * t * W := by ring
    linarith
  have Y0 : 0 ≤ ∑ i, y i ^ 2 := Finset.sum_nonneg fun i _ => sq_nonneg _
  have Y9 : ∑ i, y i ^ 2 ≤ 8 + 1 := by
    have a := mul_le_mul hg4 hW4 (by rw [← hW]; exact Finset.sum_nonneg fun i _ => sq_nonneg _) (by norm_num : (0 : F) ≤ 4)
    have b : t * (5 * n + 8) ≤ t * (5 * n + 18) := mul_le_mul_of_nonneg_left (by linarith) ht0
    linarith
  refine ⟨Y1.trans (by linarith [mul_le_mul_of_nonneg_left (by linarith : (5 * n + 8 : F) ≤ 5 * n + 18) ht0]), ?_⟩
  have down : ∀ i, w i ^ 2 ≤ g ^ 4 * (y i ^ 2 + (2 * t * (1 + y i ^ 2) + t)) := by
    intro i
    have := pow_le_pow_left₀ (hw i) (h i).2 2
    have e : (g ^ 2 * (y i + t)) ^ 2 = g ^ 4 * (y i ^ 2 + (2 * t * y i + t ^ 2)) := by ring
    rw [e] at this
    refine this.trans (mul_le_mul_of_nonneg_left ?_ (by positivity))
    have := mul_le_mul_of_nonneg_left (lin _ (hy i)) (by linarith : 0 ≤ 2 * t)
    linarith
  have := Finset.sum_le_sum fun i (_ : i ∈ Finset.univ) => down i
  rw [hW, ← Finset.mul_sum, Finset.sum_add_distrib, Finset.sum_add_distrib, ← Finset.mul_sum, Finset.sum_add_distrib] at this
  simp only [Finset.sum_const, Finset.card_univ, Fintype.card_fin, nsmul_eq_mul, mul_one] at this
  refine this.trans (mul_le_mul_of_nonneg_left ?_ (by positivity))
  have := mul_le_mul_of_nonneg_left Y9 (by linarith : 0 ≤ 2 * t)
  have e : t * (5 * n + 18) = 2 * t * n + n * t + 2 * t * (8 + 1) + 2 * (t * n) := by ring
  have e2 : 2 * t * (n + ∑ i, y i ^ 2) = 2 * t * n + 2 * t * ∑ i, y i ^ 2 := by ring
  linarith

include R Q

/-- `normalize(x, "L2")` of a vector whose squares sum to at least `c` and whose entries are at most `Z` -/
theorem normalizeL2_near {v : Vec n F} (hv : Good Rep v) {Z c : F} (hZ0 : 0 ≤ Z) (hZ : ∀ i, (v i).getD 0 ≤ Z) (hc : 0 < c)
    (hS : c ≤ ∑ i, (v i).getD 0 ^ 2) (hg9 : growth u ^ (n + 9) ≤ 3 / 2) {ε : F} (hε0 : 0 ≤ ε) (hε : 2 * (n * η) ≤ ε * c)
    (hε1 : ε ≤ 1 / 64) (ht : η * (1 + 2 * Z) * (5 * n + 18) ≤ 1 / 8) :
    Good Rep (Model.Fk.normalizeL2 o sqrt v) ∧
    |∑ i, (Model.Fk.normalizeL2 o sqrt v i).getD 0 ^ 2 - 1| ≤
      (growth u ^ (n + 9) - 1) + (η * (1 + 2 * Z) * (5 * n + 18) + 12 * ε) := by
  have hg := one_le_growth R
  have he := R.eta0
  have pw : ∀ k ≤ n + 9, growth u ^ k ≤ 3 / 2 := fun k hk => (pow_le_pow_right₀ hg hk).trans hg9
  obtain ⟨i1, i2⟩ := inner_near R hv hv
  have sq : ∑ i, (v i).getD 0 * (v i).getD 0 = ∑ i, (v i).getD 0 ^ 2 := by simp only [pow_two]
  rw [sq] at i2
  set S := ∑ i, (v i).getD 0 ^ 2 with hSdef
  have hS0 : 0 < S := lt_of_lt_of_le hc hS
  set s := Model.Fr.dot o o.mul v v with hs
  have es : (Model.Fr.fsum o fun i => ointer o.mul (v i) (v i)).getD 0 = s := by
    rw [hs]; unfold Model.Fr.dot; rw [R.zero]
  rw [es] at i2
  have rs : Rep s ∧ 0 ≤ s := by
    rw [← es]
    cases hf : Model.Fr.fsum o fun i => ointer o.mul (v i) (v i) with
    | none => exact ⟨by have := (R.nat 0).1; rw [R.zero] at this; exact this, le_rfl⟩
    | some b => exact i1 b hf
  have hn0 : (0 : F) ≤ n := Nat.cast_nonneg n
  have eabs : growth u ^ n * (n * η) ≤ ε * S := by
    have a := mul_le_mul_of_nonneg_right ((pw n (by omega)).trans (by norm_num : (3 / 2 : F) ≤ 2)) (mul_nonneg hn0 he)
    have b := mul_le_mul_of_nonneg_left hS hε0
    linarith
  have e0 : 0 ≤ growth u ^ n * (n * η) := mul_nonneg (pow_nonneg (by linarith) _) (mul_nonneg hn0 he)
  obtain ⟨j1, j2⟩ := i2
  have G1 := pw (n + 1) (by omega)
  have G1' : 1 ≤ growth u ^ (n + 1) := one_le_pow₀ hg
  have g4 := pw 4 (by omega)
  have g4' : 1 ≤ growth u ^ 4 := one_le_pow₀ hg
  have eP : growth u ^ (n + 5) = growth u ^ 4 * growth u ^ (n + 1) := by rw [← pow_add]; congr 1; omega
  have hP := pw (n + 5) (by omega)
  have hεS : ε * S ≤ 1 / 64 * S := mul_le_mul_of_nonneg_right hε1 hS0.le
  have k2 : S ≤ growth u ^ (n + 1) * s + 3 / 2 * (ε * S) := by
    have a : growth u ^ (n + 1) * (growth u ^ n * (n * η)) ≤ 3 / 2 * (ε * S) := mul_le_mul G1 eabs e0 (by norm_num)
    rw [mul_add] at j2
    linarith
  have hspos : 0 < s := by
    by_contra hc
    have : growth u ^ (n + 1) * s ≤ 0 := mul_nonpos_of_nonneg_of_nonpos (by linarith) (not_lt.1 hc)
    linarith
  obtain ⟨q1, q2⟩ := Q.rep s rs.1 rs.2
  obtain ⟨q3, q4⟩ := Q.err s rs.1 rs.2
  set d := sqrt s with hd
  have hdpos : 0 < d := by
    rcases q2.eq_or_lt with h | h
    · rw [← h] at q3; simp at q3; linarith
    · exact h
  have hd2 : 0 < d ^ 2 := by positivity
  have eN : Model.Fk.normalizeL2 o sqrt v = Model.Fh.scaleBy o d v := rfl
  rw [eN]
  obtain ⟨s1, s2⟩ := scale_near R hv q1 hdpos
  refine ⟨s1, ?_⟩
  -- the exact sum of squares after dividing by `d`
  have W1 : Near (growth u) (n + 5) (8 * ε) (S / d ^ 2) 1 := by
    constructor
    · rw [div_le_iff₀ hd2, mul_one]
      have a : growth u ^ (n + 1) * s ≤ growth u ^ (n + 1) * (growth u ^ 4 * d ^ 2) :=
        mul_le_mul_of_nonneg_left q3 (by linarith)
      have b : growth u ^ (n + 1) * (growth u ^ 4 * d ^ 2) = growth u ^ (n + 5) * d ^ 2 := by rw [eP]; ring
      have c1 : growth u ^ (n + 5) * d ^ 2 ≤ 3 / 2 * d ^ 2 := mul_le_mul_of_nonneg_right hP hd2.le
      have c2 : S ≤ 2 * d ^ 2 := by linarith
      have c3 := mul_le_mul_of_nonneg_left c2 hε0
      have c4 := mul_nonneg hε0 hd2.le
      have e : (growth u ^ (n + 5) + 8 * ε) * d ^ 2 = growth u ^ (n + 5) * d ^ 2 + 8 * (ε * d ^ 2) := by ring
      rw [e]
      linarith
    · have a : d ^ 2 ≤ growth u ^ 4 * (growth u ^ (n + 1) * S + ε * S) :=
        q4.trans (mul_le_mul_of_nonneg_left (by linarith) (by linarith))
      have b : growth u ^ 4 * (growth u ^ (n + 1) * S + ε * S) ≤ growth u ^ (n + 5) * S + 2 * (ε * S) := by
        have e : growth u ^ 4 * (growth u ^ (n + 1) * S + ε * S) = growth u ^ (n + 5) * S + growth u ^ 4 * (ε * S) := by
          rw [eP]; ring
        have := mul_le_mul_of_nonneg_right g4 (mul_nonneg hε0 hS0.le)
        have := mul_nonneg hε0 hS0.le
        rw [e]; linarith
      have c0 : 1 ≤ growth u ^ (n + 5) * (S / d ^ 2) + 2 * (ε * (S / d ^ 2)) := by
        have e : growth u ^ (n + 5) * (S / d ^ 2) + 2 * (ε * (S / d ^ 2)) =
          (growth u ^ (n + 5) * S + 2 * (ε * S)) / d ^ 2 := by ring
        rw [e, le_div_iff₀ hd2]; linarith
      have c1 : S / d ^ 2 ≤ 2 := by
        rw [div_le_iff₀ hd2]
        have a : growth u ^ (n + 1) * s ≤ growth u ^ (n + 1) * (growth u ^ 4 * d ^ 2) :=
          mul_le_mul_of_nonneg_left q3 (by linarith)
        have b : growth u ^ (n + 1) * (growth u ^ 4 * d ^ 2) = growth u ^ (n + 5) * d ^ 2 := by rw [eP]; ring
        have c1 : growth u ^ (n + 5) * d ^ 2 ≤ 3 / 2 * d ^ 2 := mul_le_mul_of_nonneg_right hP hd2.le
        linarith
      have c2 := mul_le_mul_of_nonneg_left c1 hε0
      have c3 : 1 * (8 * ε) ≤ growth u ^ (n + 5) * (8 * ε) :=
        mul_le_mul_of_nonneg_right (one_le_pow₀ hg) (by linarith)
      rw [mul_add]
      linarith
  have hW : ∑ i, ((v i).getD 0 / d) ^ 2 = S / d ^ 2 := by
    rw [hSdef, Finset.sum_div]
    exact Finset.sum_congr rfl fun i _ => div_pow _ _ _
  have hW2 : S / d ^ 2 ≤ 2 := by
    have := W1.1
    rw [mul_one] at this
    linarith
  have ht0 : 0 ≤ η * (1 + 2 * Z) := mul_nonneg he (by linarith)
  have g2 := pw 2 (by omega)
  have gg : growth u ≤ 2 := by have := pw 1 (by omega); rw [pow_one] at this; linarith
  have near : ∀ i, Near (growth u) 2 (η * (1 + 2 * Z)) ((Model.Fh.scaleBy o d v i).getD 0) ((v i).getD 0 / d) := by
    intro i
    have a : η * (v i).getD 0 ≤ η * Z := mul_le_mul_of_nonneg_left (hZ i) he
    have a0 : 0 ≤ η * (v i).getD 0 := mul_nonneg he (hv.val i)
    have b : growth u * (η * (v i).getD 0) ≤ 2 * (η * Z) := mul_le_mul gg a a0 (by norm_num)
    have b0 : 0 ≤ growth u * (η * (v i).getD 0) := mul_nonneg (by linarith) a0
    exact near_weaken (k := 2) (s := η + growth u * (η * (v i).getD 0)) hg le_rfl (by linarith) (div_nonneg (hv.val i) q2)
      (s1.val i) (by linarith) (s2 i)
  have sqn := near_squares hg (by linarith) ht0 ht (fun i => s1.val i) (fun i => div_nonneg (hv.val i) q2) near hW hW2
  have := near_dist hg zero_le_one (near_trans hg (by linarith) sqn W1)
  rw [mul_one] at this
  have e : 4 + (n + 5) = n + 9 := by omega
  rw [e] at this
  have := mul_le_mul_of_nonneg_right g4 (by linarith : 0 ≤ 8 * ε)
  linarith

omit R Q in
/-- what the size of the graph, of the weights and of `nstart` may be -/
structure EigSize (u η D B : F) (n : Nat) : Prop where
  D0 : 0 ≤ D
  B0 : 0 ≤ B
  growth : growth u ^ (n + 9) ≤ 3 / 2
  start : (n + 2 * B) * η ≤ 1 / 8
  squares : 256 * (n ^ 2 * η) ≤ 1 / 16
  weights : η * (16 * D + 11) * (5 * n + 18) ≤ 1 / 8

omit R Q in
/-- the error of the sum of the squares -/
def eigError (u η D : F) (n : Nat) : F :=
  (growth u ^ (n + 9) - 1) + (η * (16 * D + 11) * (5 * n + 18) + 256 * (n ^ 2 * η))

/-- one pass of the loop: the squares of an iterate sum to at least `1 / (4n)` and no entry is above 2; after the pass the
squares sum to 1 up to rounding -/
theorem eigStep_near {A : Mat n n F} {D B : F} (hs : EigSize u η D B n) (hn : n ≠ 0)
    (hA : ∀ i j a, A i j = some a → Rep a ∧ 0 ≤ a) (hin : ∀ j, ∑ i, (A i j).getD 0 ≤ D) {x : Vec n F} (hx : Good Rep x)
    (hx2 : ∀ i, (x i).getD 0 ≤ 2) (hxs : 1 ≤ 4 * n * ∑ i, (x i).getD 0 ^ 2) :
    let y := Model.Fe.eigStep o sqrt A x
    Good Rep y ∧ |∑ i, (y i).getD 0 ^ 2 - 1| ≤ eigError u η D n ∧ (∀ i, (y i).getD 0 ≤ 2) ∧
      1 ≤ 4 * n * ∑ i, (y i).getD 0 ^ 2 := by
  intro y
  have hg := one_le_growth R
  have he := R.eta0
  have hD := hs.D0
  have hg0 : 0 ≤ growth u := by linarith
  have pw : ∀ k ≤ n + 9, growth u ^ k ≤ 3 / 2 := fun k hk => (pow_le_pow_right₀ hg hk).trans hs.growth
  have hn1 : (1 : F) ≤ n := by exact_mod_cast Nat.pos_of_ne_zero hn
  have hn0 : (0 : F) ≤ n := by linarith
  have hηn : n * η ≤ 1 / 8 := by
    have := mul_nonneg hs.B0 he
    have := hs.start
    have e : (n + 2 * B) * η = n * η + 2 * (B * η) := by ring
    linarith
  have gg : growth u ≤ 3 / 2 := by have := pw 1 (by omega); rwa [pow_one] at this
  -- the sum `x + x @ A`
  set z : Vec n F := vadd o.add x (Model.Fr.vxm o o.mul x A) with hz
  have col : ∀ j, Good Rep fun i => A i j := fun j i a h => hA i j a h
  have key : ∀ j, (∀ b, z j = some b → Rep b ∧ 0 ≤ b) ∧ (x j).getD 0 ≤ growth u * (z j).getD 0 ∧
      (z j).getD 0 ≤ 8 * D + 5 := by
    intro j
    obtain ⟨i1, i2⟩ := inner_near R hx (col j)
    obtain ⟨m1, m2⟩ := omerge_near R (hx j) i1
    have zx : z j = omerge o.add (x j) (Model.Fr.fsum o fun i => ointer o.mul (x i) (A i j)) := rfl
    rw [zx]
    have f0 : 0 ≤ (Model.Fr.fsum o fun i => ointer o.mul (x i) (A i j)).getD 0 := by
      cases hf : Model.Fr.fsum o fun i => ointer o.mul (x i) (A i j) with
      | none => exact le_rfl
      | some b => exact (i1 b hf).2
    refine ⟨m1, ?_, ?_⟩
    · have := m2.2
      rw [pow_one, add_zero] at this
      linarith
    · have a1 := m2.1
      rw [pow_one, add_zero] at a1
      have a2 := i2.1
      have a3 : ∑ i, (x i).getD 0 * (A i j).getD 0 ≤ 2 * D := by
        calc ∑ i, (x i).getD 0 * (A i j).getD 0 ≤ ∑ i, 2 * (A i j).getD 0 :=
              Finset.sum_le_sum fun i _ => mul_le_mul_of_nonneg_right (hx2 i) ((col j).val i)
          _ = 2 * ∑ i, (A i j).getD 0 := by rw [Finset.mul_sum]
          _ ≤ 2 * D := by linarith [hin j]
      have a30 : 0 ≤ ∑ i, (x i).getD 0 * (A i j).getD 0 :=
        Finset.sum_nonneg fun i _ => mul_nonneg (hx.val i) ((col j).val i)
      have a4 : growth u ^ (n + 1) * ∑ i, (x i).getD 0 * (A i j).getD 0 ≤ 3 / 2 * (2 * D) :=
        mul_le_mul (pw _ (by omega)) a3 a30 (by norm_num)
      have a5 : growth u ^ n * (n * η) ≤ 3 / 2 * (1 / 8) :=
        mul_le_mul (pw _ (by omega)) hηn (mul_nonneg hn0 he) (by norm_num)
      have a6 : (x j).getD 0 + (Model.Fr.fsum o fun i => ointer o.mul (x i) (A i j)).getD 0 ≤ 2 + (3 * D + 3 / 16) := by
        have := hx2 j
        linarith
      have a7 : growth u * ((x j).getD 0 + (Model.Fr.fsum o fun i => ointer o.mul (x i) (A i j)).getD 0) ≤
          3 / 2 * (2 + (3 * D + 3 / 16)) := mul_le_mul gg a6 (by linarith [hx.val j]) (by norm_num)
      linarith
  have hzG : Good Rep z := fun j => (key j).1
  have hS : 1 / (9 * n : F) ≤ ∑ i, (z i).getD 0 ^ 2 := by
    have a : ∀ i, (x i).getD 0 ^ 2 ≤ growth u ^ 2 * (z i).getD 0 ^ 2 := by
      intro i
      rw [← mul_pow]
      exact pow_le_pow_left₀ (hx.val i) (key i).2.1 2
    have b := Finset.sum_le_sum fun i (_ : i ∈ Finset.univ) => a i
    rw [← Finset.mul_sum] at b
    have z0 : 0 ≤ ∑ i, (z i).getD 0 ^ 2 := Finset.sum_nonneg fun i _ => sq_nonneg _
    have c := mul_le_mul_of_nonneg_right (pw 2 (by omega)) z0
    rw [div_le_iff₀ (by linarith)]
    have d := mul_le_mul_of_nonneg_left (b.trans c) (by linarith : (0 : F) ≤ 4 * n)
    have e : (∑ i, (z i).getD 0 ^ 2) * (9 * n) = 4 * n * (3 / 2 * ∑ i, (z i).getD 0 ^ 2) + 3 * (n * ∑ i, (z i).getD 0 ^ 2) := by
      ring
    have := mul_nonneg hn0 z0
    linarith
  have hn2 : 0 ≤ n ^ 2 * η := mul_nonneg (by positivity) he
  have nrm := normalizeL2_near R Q hzG (Z := 8 * D + 5) (c := 1 / (9 * n)) (ε := 18 * (n ^ 2 * η)) (by linarith)
    (fun j => (key j).2.2) (by positivity) hS hs.growth (by linarith)
    (by
      have : (18 * (n ^ 2 * η)) * (1 / (9 * n)) = 2 * (n * η) := by field_simp; ring
      rw [this])
    (by have := hs.squares; linarith)
    (by
      have e : η * (1 + 2 * (8 * D + 5)) = η * (16 * D + 11) := by ring
      rw [e]; exact hs.weights)
  obtain ⟨y1, y2⟩ := nrm
  have e : η * (1 + 2 * (8 * D + 5)) = η * (16 * D + 11) := by ring
  rw [e] at y2
  have yE : |∑ i, (y i).getD 0 ^ 2 - 1| ≤ eigError u η D n := by
    refine y2.trans ?_
    unfold eigError
    linarith
  have hE : eigError u η D n ≤ 3 / 4 := by
    unfold eigError
    have := hs.growth
    have := hs.weights
    have := hs.squares
    linarith
  obtain ⟨l, r⟩ := abs_le.1 (yE.trans hE)
  refine ⟨y1, yE, fun i => ?_, ?_⟩
  · have a := Finset.single_le_sum (f := fun i => (y i).getD 0 ^ 2) (fun i _ => sq_nonneg _) (Finset.mem_univ i)
    have : (y i).getD 0 ^ 2 ≤ 2 ^ 2 := by
      have : (y i).getD 0 ^ 2 ≤ ∑ i, (y i).getD 0 ^ 2 := a
      linarith
    exact le_of_sq_le_sq this (by norm_num)
  · have : (1 : F) / 4 ≤ ∑ i, (y i).getD 0 ^ 2 := by linarith
    have := mul_le_mul hn1 this (by norm_num) hn0
    linarith

omit Q in
/-- the start vector -/
theorem eigInit_near {D B : F} (hs : EigSize u η D B n) (hn : n ≠ 0) {x : Option (Vec n F)}
    (hx : ∀ v, x = some v → Good Rep v ∧ 0 < ∑ i, (v i).getD 0 ∧ ∑ i, (v i).getD 0 ≤ B) :
    ∃ h, Model.Fe.eigInit o x = .ok h ∧ Good Rep h ∧ (∀ i, (h i).getD 0 ≤ 2) ∧
      1 ≤ 4 * n * ∑ i, (h i).getD 0 ^ 2 := by
  have hg := one_le_growth R
  have he := R.eta0
  have hg0 : 0 ≤ growth u := by linarith
  have pw : ∀ k ≤ n + 9, growth u ^ k ≤ 3 / 2 := fun k hk => (pow_le_pow_right₀ hg hk).trans hs.growth
  have hn1 : (1 : F) ≤ n := by exact_mod_cast Nat.pos_of_ne_zero hn
  have hB := hs.B0
  have start := hs.start
  have eB : (n + 2 * B) * η = n * η + 2 * (η * B) := by ring
  have h0 := mul_nonneg he hB
  have h00 : 0 ≤ n * η := mul_nonneg (by linarith) he
  -- it is enough that the entries sum to 1 up to a small error
  have fin : ∀ h : Vec n F, Good Rep h → ∀ k ≤ n + 9, ∀ T, T ≤ 1 / 8 → Near (growth u) k T (∑ i, (h i).getD 0) 1 →
      (∀ i, (h i).getD 0 ≤ 2) ∧ 1 ≤ 4 * n * ∑ i, (h i).getD 0 ^ 2 := by
    intro h hh k hk T hT hN
    obtain ⟨a, b⟩ := hN
    have s0 : 0 ≤ ∑ i, (h i).getD 0 := Finset.sum_nonneg fun i _ => hh.val i
    have p := pw k hk
    have p1 : 1 ≤ growth u ^ k := one_le_pow₀ hg
    have half : 1 / 2 ≤ ∑ i, (h i).getD 0 := by
      have : growth u ^ k * (∑ i, (h i).getD 0 + T) ≤ growth u ^ k * (∑ i, (h i).getD 0 + 1 / 8) :=
        mul_le_mul_of_nonneg_left (by linarith) (by linarith)
      have := mul_le_mul_of_nonneg_right p (by linarith : 0 ≤ ∑ i, (h i).getD 0 + 1 / 8)
      linarith
    refine ⟨fun i => ?_, ?_⟩
    · have := Finset.single_le_sum (f := fun i => (h i).getD 0) (fun i _ => hh.val i) (Finset.mem_univ i)
      have : (h i).getD 0 ≤ ∑ i, (h i).getD 0 := this
      linarith
    · have cs := sq_sum_le_card_mul_sum_sq (s := Finset.univ) (f := fun i => (h i).getD 0)
      simp only [Finset.card_univ, Fintype.card_fin] at cs
      have : (1 / 2 : F) ^ 2 ≤ (∑ i, (h i).getD 0) ^ 2 := pow_le_pow_left₀ (by norm_num) half 2
      linarith
  cases x with
  | none =>
    obtain ⟨⟨a1, a2⟩, a3⟩ := uniform_near R hn
    have good : Good Rep (fun _ : Fin n => some (o.div (o.nat 1) (o.nat n))) := fun i a h => by cases h; exact ⟨a1, a2⟩
    refine ⟨_, rfl, good, fin _ good (n + 1) (by omega) (n * η) (by linarith) ?_⟩
    have := near_sum (Finset.univ : Finset (Fin n)) fun i _ => a3
    simp only [Finset.sum_const, Finset.card_univ, Fintype.card_fin, nsmul_eq_mul] at this
    rw [mul_one_div_cancel (by linarith : (n : F) ≠ 0)] at this
    simp only [Option.getD_some, Finset.sum_const, Finset.card_univ, Fintype.card_fin, nsmul_eq_mul]
    exact this
  | some v =>
    obtain ⟨hv, hS, hSB⟩ := hx v rfl
    obtain ⟨d1, d2, d3⟩ := vsum_near R hv
    have hd : 0 < Model.Fr.vsum o v := pos_of_near R d3 hS
    have hz : ¬ o.isZero (Model.Fr.vsum o v) = true := by rw [R.isZero]; exact hd.ne'
    obtain ⟨s1, s2⟩ := scale_near R hv d1 hd
    have e : Model.Fh.scaleBy o (Model.Fr.vsum o v) v =
        vapply (fun a => o.mul a (o.div (o.nat 1) (Model.Fr.vsum o v))) v := by
      unfold Model.Fh.scaleBy; rw [if_neg hz]
    rw [e] at s1 s2
    refine ⟨_, by unfold Model.Fe.eigInit; dsimp only; rw [if_neg hz], s1, ?_⟩
    have q := near_sum Finset.univ fun i _ => s2 i
    rw [← Finset.sum_div, Finset.sum_add_distrib, ← Finset.mul_sum, ← Finset.mul_sum] at q
    simp only [Finset.sum_const, Finset.card_univ, Fintype.card_fin, nsmul_eq_mul] at q
    have r : Near (growth u) n 0 ((∑ i, (v i).getD 0) / Model.Fr.vsum o v) 1 := by
      have := near_div d3 hS.le hd hS
      rwa [div_self hS.ne'] at this
    have t := near_trans hg le_rfl q r
    rw [mul_zero, add_zero] at t
    refine fin _ s1 (2 + n) (by omega) _ ?_ t
    have gg : growth u ≤ 2 := by have := pw 1 (by omega); rw [pow_one] at this; linarith
    have a : η * ∑ i, (v i).getD 0 ≤ η * B := mul_le_mul_of_nonneg_left hSB he
    have b := mul_le_mul gg a (mul_nonneg he hS.le) (by norm_num : (0 : F) ≤ 2)
    linarith

end Proofs.Fr
