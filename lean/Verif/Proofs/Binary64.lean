import Verif.Model.Binary64
import Verif.Spec.FloatRank
import Mathlib.Tactic.Linarith
import Mathlib.Tactic.FieldSimp
import Mathlib.Tactic.NormNum
import Mathlib.Tactic.Positivity
import Mathlib.Tactic.Ring
import Mathlib.Algebra.Order.Field.Power
import Mathlib.Algebra.Order.Ring.Abs

/-! binary64 is an arithmetic with unit roundoff `2⁻⁵³` and underflow error `2⁻¹⁰⁷⁵`. -/

open Model Spec

namespace Proofs.B64

theorem rne_err (q : ℚ) : |(rne q : ℚ) - q| ≤ 1 / 2 := by
  have h0 := Int.fract_nonneg q
  have h1 := Int.fract_lt_one q
  have e : q = ⌊q⌋ + Int.fract q := (Int.floor_add_fract q).symm
  unfold rne
  split
  · rw [abs_le]; constructor <;> linarith
  · split
    · push_cast; rw [abs_le]; constructor <;> linarith
    · split
      · rw [abs_le]; constructor <;> linarith
      · push_cast; rw [abs_le]; constructor <;> linarith

theorem rne_int (k : ℤ) : rne k = k := by
  unfold rne
  simp

theorem rne_nonneg {q : ℚ} (h : 0 ≤ q) : 0 ≤ rne q := by
  have : 0 ≤ ⌊q⌋ := Int.floor_nonneg.2 h
  unfold rne
  split
  · exact this
  · split
    · omega
    · split <;> omega

/-- an integer multiple of the least positive number -/
def Mult (x : ℚ) : Prop := ∃ k : ℤ, x = k * 2 ^ (-1074 : ℤ)

theorem two_pow_nat {e : ℤ} (he : -1074 ≤ e) : ∃ k : ℤ, (2 : ℚ) ^ e = k * 2 ^ (-1074 : ℤ) := by
  refine ⟨2 ^ (e + 1074).toNat, ?_⟩
  push_cast
  rw [← zpow_natCast, ← zpow_add₀ (by norm_num)]
  congr 1
  omega

theorem rnd_mult (q : ℚ) : Mult (rnd64 q) := by
  obtain ⟨k, hk⟩ := two_pow_nat (e := ulpExp q) (le_max_right _ _)
  refine ⟨rne (q / 2 ^ ulpExp q) * k, ?_⟩
  unfold rnd64
  rw [hk]; push_cast; ring

theorem rnd_nonneg {q : ℚ} (h : 0 ≤ q) : 0 ≤ rnd64 q := by
  unfold rnd64
  have := rne_nonneg (q := q / 2 ^ ulpExp q) (by positivity)
  have : (0 : ℚ) ≤ rne (q / 2 ^ ulpExp q) := by exact_mod_cast this
  positivity

theorem rnd_err_ulp (q : ℚ) : |rnd64 q - q| ≤ 1 / 2 * 2 ^ ulpExp q := by
  have hp : (0 : ℚ) < 2 ^ ulpExp q := by positivity
  have e : rnd64 q - q = (rne (q / 2 ^ ulpExp q) - q / 2 ^ ulpExp q) * 2 ^ ulpExp q := by
    unfold rnd64
    rw [sub_mul, div_mul_cancel₀ _ hp.ne']
  rw [e, abs_mul, abs_of_pos hp]
  exact mul_le_mul_of_nonneg_right (rne_err _) hp.le

/-- above the subnormal range the error is relative -/
theorem rnd_err_rel {q : ℚ} (hq : q ≠ 0) (he : -1074 ≤ Int.log 2 |q| - 52) : |rnd64 q - q| ≤ 2 ^ (-53 : ℤ) * |q| := by
  have h := rnd_err_ulp q
  have e : ulpExp q = Int.log 2 |q| - 52 := max_eq_left he
  have l : ((2 : ℕ) : ℚ) ^ Int.log 2 |q| ≤ |q| := Int.zpow_log_le_self (by norm_num) (abs_pos.2 hq)
  refine h.trans ?_
  rw [e]
  have : (1 : ℚ) / 2 * 2 ^ (Int.log 2 |q| - 52) = 2 ^ (-53 : ℤ) * 2 ^ Int.log 2 |q| := by
    rw [show (1 : ℚ) / 2 = 2 ^ (-1 : ℤ) by norm_num, ← zpow_add₀ (by norm_num), ← zpow_add₀ (by norm_num)]
    congr 1; ring
  rw [this]
  refine mul_le_mul_of_nonneg_left ?_ (by positivity)
  exact_mod_cast l

/-- in general it is at most half the least positive number more -/
theorem rnd_err (q : ℚ) : |rnd64 q - q| ≤ 2 ^ (-53 : ℤ) * |q| + 2 ^ (-1075 : ℤ) := by
  have p2 : (0 : ℚ) ≤ 2 ^ (-1075 : ℤ) := by positivity
  have p1 : 0 ≤ (2 : ℚ) ^ (-53 : ℤ) * |q| := by positivity
  by_cases he : -1074 ≤ Int.log 2 |q| - 52 ∧ q ≠ 0
  · have := rnd_err_rel he.2 he.1
    linarith
  · have h := rnd_err_ulp q
    have e : ulpExp q = -1074 ∨ q = 0 := by
      by_cases h0 : q = 0
      · exact .inr h0
      · left
        unfold ulpExp
        exact max_eq_right (by
          by_contra hc
          exact he ⟨by omega, h0⟩)
    rcases e with e | rfl
    · rw [e] at h
      have : (1 : ℚ) / 2 * 2 ^ (-1074 : ℤ) = 2 ^ (-1075 : ℤ) := by
        rw [show (1 : ℚ) / 2 = 2 ^ (-1 : ℤ) by norm_num, ← zpow_add₀ (by norm_num)]
        norm_num
      linarith
    · have : rnd64 0 = 0 := by
        unfold rnd64
        rw [zero_div]
        have := rne_int 0
        push_cast at this
        rw [this]; simp
      rw [this]; simpa using p2

/-- multiples of the least positive number are rounded with a relative error only -/
theorem rnd_err_mult {q : ℚ} (hq : Mult q) : |rnd64 q - q| ≤ 2 ^ (-53 : ℤ) * |q| := by
  by_cases h0 : q = 0
  · have := rnd_err_ulp q
    subst h0
    have : rnd64 0 = 0 := by
      unfold rnd64
      rw [zero_div]
      have := rne_int 0
      push_cast at this
      rw [this]; simp
    rw [this]; simp
  · by_cases he : -1074 ≤ Int.log 2 |q| - 52
    · exact rnd_err_rel h0 he
    · have e : ulpExp q = -1074 := max_eq_right (by omega)
      obtain ⟨k, hk⟩ := hq
      have : rnd64 q = q := by
        unfold rnd64
        rw [e]
        have : q / 2 ^ (-1074 : ℤ) = k := by
          rw [hk, mul_div_assoc, div_self (by positivity), mul_one]
        rw [this, rne_int, ← hk]
      rw [this, sub_self, abs_zero]
      positivity

theorem Mult.add {x y : ℚ} : Mult x → Mult y → Mult (x + y) := by
  rintro ⟨a, rfl⟩ ⟨b, rfl⟩; exact ⟨a + b, by push_cast; ring⟩

theorem Mult.sub {x y : ℚ} : Mult x → Mult y → Mult (x - y) := by
  rintro ⟨a, rfl⟩ ⟨b, rfl⟩; exact ⟨a - b, by push_cast; ring⟩

theorem Mult.abs {x : ℚ} : Mult x → Mult |x| := by
  rintro ⟨a, rfl⟩
  refine ⟨|a|, ?_⟩
  rw [abs_mul, abs_of_nonneg (by positivity : (0 : ℚ) ≤ 2 ^ (-1074 : ℤ))]
  push_cast; rfl

theorem Mult.nat (k : Nat) : Mult (k : ℚ) := by
  refine ⟨k * 2 ^ 1074, ?_⟩
  push_cast
  rw [mul_assoc, ← zpow_natCast, ← zpow_add₀ (by norm_num)]
  norm_num

theorem rnd_one : rnd64 1 = 1 := by
  unfold rnd64 ulpExp
  rw [abs_one, Int.log_one_right]
  have e : max ((0 : ℤ) - 52) (-1074) = -52 := by norm_num
  rw [e]
  have h : (1 : ℚ) / 2 ^ (-52 : ℤ) = ((2 ^ 52 : ℤ) : ℚ) := by
    rw [zpow_neg]; norm_num
  rw [h, rne_int]
  rw [← h]
  rw [div_mul_cancel₀]
  positivity

theorem rounded (sum : List ℚ → ℚ)
    (hs : ∀ l, l ≠ [] → (∀ x ∈ l, Mult x) → TreeSum (fun x y => rnd64 (x + y)) l (sum l)) :
    Rounded (binary64 sum) Mult (2 ^ (-53 : ℤ)) (2 ^ (-1075 : ℤ)) where
  u0 := by positivity
  u1 := by norm_num
  eta0 := by positivity
  zero := by
    show rnd64 ((0 : Nat) : ℚ) = 0
    have := rnd_err_mult (Mult.nat 0)
    simp only [Nat.cast_zero, abs_zero, mul_zero, sub_zero] at this ⊢
    exact abs_nonpos_iff.1 this
  one := by
    show rnd64 ((1 : Nat) : ℚ) = 1
    rw [Nat.cast_one]; exact rnd_one
  nat k := by
    refine ⟨rnd_mult _, rnd_nonneg (Nat.cast_nonneg k), ?_⟩
    have := rnd_err_mult (Mult.nat k)
    rwa [abs_of_nonneg (Nat.cast_nonneg k : (0 : ℚ) ≤ k)] at this
  add x y hx hy hx0 hy0 := by
    refine ⟨rnd_mult _, ?_⟩
    have := rnd_err_mult (hx.add hy)
    rwa [abs_of_nonneg (add_nonneg hx0 hy0)] at this
  sub x y hx hy _ _ := ⟨(rnd_mult _).abs, rnd_mult _, rnd_err_mult (hx.sub hy)⟩
  mul x y _ _ hx0 hy0 := by
    refine ⟨rnd_mult _, rnd_nonneg (mul_nonneg hx0 hy0), ?_⟩
    have := rnd_err (x * y)
    rwa [abs_of_nonneg (mul_nonneg hx0 hy0)] at this
  div x y _ _ hx0 hy0 := by
    refine ⟨rnd_mult _, rnd_nonneg (div_nonneg hx0 hy0.le), ?_⟩
    have := rnd_err (x / y)
    rwa [abs_of_nonneg (div_nonneg hx0 hy0.le)] at this
  abs x := rfl
  lt x y := by simp [binary64]
  isZero x := by simp [binary64]
  sum l hl hr := hs l hl hr

/-! ### the rounding is correct: the result is a nearest binary64 number -/

theorem IsDouble.mult {q : ℚ} : IsDouble q → Mult q := by
  rintro ⟨m, e, -, he, rfl⟩
  obtain ⟨k, hk⟩ := two_pow_nat he
  exact ⟨m * k, by rw [hk]; push_cast; ring⟩

theorem abs_lt_ulp (q : ℚ) : |q| < 2 ^ (53 : ℤ) * 2 ^ ulpExp q := by
  have l : |q| < ((2 : ℕ) : ℚ) ^ (Int.log 2 |q| + 1) := Int.lt_zpow_succ_log_self (by norm_num) _
  refine l.trans_le ?_
  rw [← zpow_add₀ (by norm_num)]
  push_cast
  refine zpow_le_zpow_right₀ (by norm_num) ?_
  have : Int.log 2 |q| - 52 ≤ ulpExp q := le_max_left _ _
  omega

theorem rnd_double (q : ℚ) : IsDouble (rnd64 q) := by
  have hp : (0 : ℚ) < 2 ^ ulpExp q := by positivity
  have hb : |q / 2 ^ ulpExp q| < 2 ^ 53 := by
    rw [abs_div, abs_of_pos hp, div_lt_iff₀ hp]
    exact_mod_cast abs_lt_ulp q
  have hr := rne_err (q / 2 ^ ulpExp q)
  have hle : |rne (q / 2 ^ ulpExp q)| ≤ 2 ^ 53 := by
    by_contra hc
    push Not at hc
    have h1 : (2 : ℤ) ^ 53 + 1 ≤ |rne (q / 2 ^ ulpExp q)| := hc
    have h2 : ((2 : ℚ) ^ 53 + 1) ≤ |(rne (q / 2 ^ ulpExp q) : ℚ)| := by exact_mod_cast h1
    have h3 := abs_sub_abs_le_abs_sub (rne (q / 2 ^ ulpExp q) : ℚ) (q / 2 ^ ulpExp q)
    linarith
  rcases lt_or_eq_of_le hle with hlt | heq
  · exact ⟨_, _, hlt, le_max_right _ _, rfl⟩
  · rcases abs_eq (by norm_num : (0 : ℤ) ≤ 2 ^ 53) |>.1 heq with h1 | h1
    · refine ⟨2 ^ 52, ulpExp q + 1, by norm_num, ?_, ?_⟩
      · have : -1074 ≤ ulpExp q := le_max_right _ _
        omega
      · unfold rnd64
        rw [h1, zpow_add₀ (by norm_num)]
        push_cast; ring
    · refine ⟨-2 ^ 52, ulpExp q + 1, by norm_num, ?_, ?_⟩
      · have : -1074 ≤ ulpExp q := le_max_right _ _
        omega
      · unfold rnd64
        rw [h1, zpow_add₀ (by norm_num)]
        push_cast; ring

theorem rne_nearest (q : ℚ) (k : ℤ) : |(rne q : ℚ) - q| ≤ |(k : ℚ) - q| := by
  by_cases hk : rne q = k
  · rw [hk]
  · have h1 := rne_err q
    have h2 : (1 : ℚ) ≤ |(k : ℚ) - rne q| := by
      have : 1 ≤ |k - rne q| := Int.one_le_abs (sub_ne_zero.2 (Ne.symm hk))
      exact_mod_cast this
    have h3 : |(k : ℚ) - rne q| ≤ |(k : ℚ) - q| + |(rne q : ℚ) - q| := by
      rw [abs_sub_comm (rne q : ℚ) q]
      exact abs_sub_le _ _ _
    linarith

/-- nearest among the multiples of the last place -/
theorem rnd_nearest_mult (q : ℚ) (k : ℤ) : |rnd64 q - q| ≤ |k * 2 ^ ulpExp q - q| := by
  have hp : (0 : ℚ) < 2 ^ ulpExp q := by positivity
  have e : ∀ z : ℤ, (z : ℚ) * 2 ^ ulpExp q - q = (z - q / 2 ^ ulpExp q) * 2 ^ ulpExp q := by
    intro z
    rw [sub_mul, div_mul_cancel₀ _ hp.ne']
  unfold rnd64
  rw [e, e, abs_mul, abs_mul]
  exact mul_le_mul_of_nonneg_right (rne_nearest _ _) (abs_nonneg _)

theorem rnd_nearest (q d : ℚ) (hd : IsDouble d) : |rnd64 q - q| ≤ |d - q| := by
  by_cases hq : q = 0
  · subst hq
    have h0 := rnd_nearest_mult 0 0
    simp only [Int.cast_zero, zero_mul, sub_zero, abs_zero] at h0
    simp only [sub_zero]
    exact h0.trans (abs_nonneg _)
  obtain ⟨m, e, hm, he, rfl⟩ := hd
  by_cases hc : ulpExp q ≤ e
  · have := rnd_nearest_mult q (m * 2 ^ (e - ulpExp q).toNat)
    push_cast at this
    rw [mul_assoc, ← zpow_natCast, ← zpow_add₀ (by norm_num)] at this
    have e2 : (((e - ulpExp q).toNat : ℕ) : ℤ) + ulpExp q = e := by omega
    rwa [e2] at this
  · push Not at hc
    have hu : ulpExp q = Int.log 2 |q| - 52 := by
      unfold ulpExp at hc ⊢
      rcases le_total (Int.log 2 |q| - 52) (-1074) with h | h
      · rw [max_eq_right h] at hc; omega
      · exact max_eq_left h
    have l : ((2 : ℕ) : ℚ) ^ Int.log 2 |q| ≤ |q| := Int.zpow_log_le_self (by norm_num) (abs_pos.2 hq)
    have hB : (2 : ℚ) ^ 52 * 2 ^ ulpExp q ≤ |q| := by
      refine le_trans (le_of_eq ?_) l
      rw [hu, ← zpow_natCast, ← zpow_add₀ (by norm_num)]
      push_cast
      congr 1
      ring
    have hd : |(m : ℚ) * 2 ^ e| ≤ 2 ^ 52 * 2 ^ ulpExp q := by
      rw [abs_mul, abs_of_nonneg (by positivity : (0 : ℚ) ≤ 2 ^ e)]
      have h1 : |(m : ℚ)| ≤ 2 ^ 53 := by exact_mod_cast hm.le
      calc |(m : ℚ)| * 2 ^ e ≤ 2 ^ 53 * 2 ^ (ulpExp q - 1) := by
            refine mul_le_mul h1 (zpow_le_zpow_right₀ (by norm_num) (by omega)) (by positivity) (by positivity)
        _ = _ := by
            rw [zpow_sub₀ (by norm_num), zpow_one]; ring
    have hd' := abs_le.1 hd
    rcases lt_or_gt_of_ne hq with hneg | hpos
    · rw [abs_of_neg hneg] at hB
      have := rnd_nearest_mult q (-2 ^ 52)
      push_cast at this
      refine this.trans ?_
      rw [abs_of_nonneg (by linarith), abs_of_nonneg (by linarith)]
      linarith
    · rw [abs_of_pos hpos] at hB
      have := rnd_nearest_mult q (2 ^ 52)
      push_cast at this
      refine this.trans ?_
      rw [abs_of_nonpos (by linarith), abs_of_nonpos (by linarith)]
      linarith

end Proofs.B64
