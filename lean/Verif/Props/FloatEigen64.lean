import Verif.Props.FloatEigen

/-!
# C132 `eigenvector_centrality` in IEEE 754 double precision

The theorem of Props/FloatEigen.lean for binary64, with all error terms worked out, and a square root that is accurate
enough.
-/

open GB Spec Model Model.Graph Proofs Proofs.Power Proofs.Fr

namespace Props

variable {K : Type} [DecidableEq K] {G : Graph K ℚ}

theorem FeInput.mono {Rp Rq : ℚ → Prop} (hpq : ∀ q, Rp q → Rq q) {D B : ℚ} {nstart : Option (List (K × ℚ))}
    (hi : FeInput G Rp D B nstart) : FeInput G Rq D B nstart where
  weights u v a h := ⟨hpq _ (hi.weights u v a h).1, (hi.weights u v a h).2⟩
  into := hi.into
  valid := hi.valid
  values l hl k b hm := ⟨hpq _ (hi.values l hl k b hm).1, (hi.values l hl k b hm).2⟩
  total := hi.total

theorem eigen64 {n : Nat} (hn : n ≤ 2 ^ 40) {D B : ℚ} (hD0 : 0 ≤ D) (hD : D ≤ maxWeight64) (hB0 : 0 ≤ B)
    (hB : B ≤ maxWeight64) :
    EigSize u64 eta64 D B n ∧ eigError u64 eta64 D n ≤ (n + 10) / 2 ^ 52 := by
  have hn' : (n : ℚ) ≤ 2 ^ 40 := by exact_mod_cast hn
  have hn0 : (0 : ℚ) ≤ n := Nat.cast_nonneg n
  have he := eta64_nonneg
  have g : growth u64 ^ (n + 9) ≤ 1 + (n + 9) / 2 ^ 52 := by
    have := growth_pow_le (u := u64) (by rw [u64_eq]; norm_num) (by rw [u64_eq]; norm_num) (n + 9) (by
      rw [u64_eq]; push_cast; linarith)
    refine this.trans (le_of_eq ?_)
    rw [u64_eq]; push_cast; ring
  have e1 := eta64_le hD
  have e2 := eta64_le hB
  rw [add_mul, one_mul] at e1 e2
  have d0 : 0 ≤ D * eta64 := mul_nonneg hD0 he
  have b0 : 0 ≤ B * eta64 := mul_nonneg hB0 he
  have he1 : eta64 ≤ 1 / 2 ^ 174 := by linarith
  have nη : n * eta64 ≤ 1 / 2 ^ 134 := (mul_le_mul hn' he1 he (by norm_num)).trans (by norm_num)
  have nnη : n ^ 2 * eta64 ≤ 1 / 2 ^ 94 := by
    have e : (n : ℚ) ^ 2 * eta64 = n * (n * eta64) := by ring
    rw [e]
    exact (mul_le_mul hn' nη (mul_nonneg hn0 he) (by norm_num)).trans (by norm_num)
  have w : eta64 * (16 * D + 11) * (5 * n + 18) ≤ 1 / 2 ^ 124 := by
    have e : eta64 * (16 * D + 11) = 16 * (D * eta64) + 11 * eta64 := by ring
    rw [e]
    have a : 16 * (D * eta64) + 11 * eta64 ≤ 16 * (1 / 2 ^ 174) := by linarith
    exact (mul_le_mul a (by linarith : 5 * (n : ℚ) + 18 ≤ 2 ^ 43) (by linarith) (by norm_num)).trans (by norm_num)
  refine ⟨⟨hD0, hB0, by linarith, ?_, by linarith, by linarith⟩, ?_⟩
  · have e : (n + 2 * B) * eta64 = n * eta64 + 2 * (B * eta64) := by ring
    rw [e]
    linarith
  · unfold eigError
    linarith

/-- **C132.** `eigenvector_centrality` in IEEE 754 double precision with any order of summation and any square root
accurate to one unit in the last place, on a nonempty graph with at most `2^40` nodes, total weights into a node up to
`2^900` and an `nstart` of total up to `2^900` but not 0: whatever the number of passes, what is returned is nonnegative
and its squares sum to 1 within `(N + 10) * 2^-52`; the only error is "not converged". -/
theorem double_eigenvector (h : G.WF) (hm : G.multi = false) (hne : G.nodes ≠ []) {sum : List ℚ → ℚ}
    (hsum : RoundsSums sum) {sqrt : ℚ → ℚ} (Q : SqrtAcc B64.Mult u64 sqrt) {D B : ℚ} {nstart : Option (List (K × ℚ))}
    (hi : FeInput G IsDouble D B nstart) (hD0 : 0 ≤ D) (hD : D ≤ maxWeight64) (hB0 : 0 ≤ B) (hB : B ≤ maxWeight64)
    (hN : G.nodes.length ≤ 2 ^ 40) (maxIter : Int) (tol : ℚ) :
    (∀ r, Model.Fe.eigenvectorCentrality (binary64 sum) sqrt G maxIter tol nstart = .ok r →
      (∀ v x, G.view r v = some x → 0 ≤ x) ∧
      |sumOver G.nodes (fun v => atNode G r v ^ 2) - 1| ≤ (G.nodes.length + 10) / 2 ^ 52) ∧
    ∀ e, Model.Fe.eigenvectorCentrality (binary64 sum) sqrt G maxIter tol nstart = .error e → e = .convergence := by
  have R : Rounded (binary64 sum) B64.Mult u64 eta64 := B64.rounded sum fun l hl _ => hsum l hl
  obtain ⟨hs, e1⟩ := eigen64 hN hD0 hD hB0 hB
  obtain ⟨a, b⟩ := float_eigenvector h hm hne R Q (hi.mono fun q hq => B64.IsDouble.mult hq) hs maxIter tol
  exact ⟨fun r hr => ⟨(a r hr).1, (a r hr).2.trans e1⟩, b⟩

/-! ### there is such a square root -/

/-- the integer square root on the grid of the least positive number `1 / P`, then rounded -/
def gridSqrt (P : ℕ) (q : ℚ) : ℚ := rnd64 (Nat.sqrt ⌊q * P ^ 2⌋₊ / P)

theorem gridSqrt_near {P : ℕ} (hP : 2 ^ 110 ≤ P) (k : ℕ) :
    let r : ℚ := Nat.sqrt ⌊(k : ℚ) / P * P ^ 2⌋₊ / P
    r ^ 2 ≤ k / P ∧ (k : ℚ) / P ≤ r ^ 2 * (1 + 1 / 2 ^ 53) ^ 2 := by
  intro r
  have hP0 : 0 < P := lt_of_lt_of_le (by norm_num) hP
  have hPq : (0 : ℚ) < P := by exact_mod_cast hP0
  have e : (k : ℚ) / P * P ^ 2 = ((k * P : ℕ) : ℚ) := by
    push_cast
    rw [sq, ← mul_assoc, div_mul_cancel₀ _ hPq.ne']
  have er : r = Nat.sqrt (k * P) / P := by
    show ((Nat.sqrt ⌊(k : ℚ) / P * P ^ 2⌋₊ : ℕ) : ℚ) / P = _
    rw [e, Nat.floor_natCast]
  have e2 : (k : ℚ) / P = ((k * P : ℕ) : ℚ) / P ^ 2 := by
    push_cast
    rw [sq, mul_div_mul_right _ _ hPq.ne']
  rw [er, e2, div_pow]
  have h1 : Nat.sqrt (k * P) ^ 2 ≤ k * P := Nat.sqrt_le' _
  have h2 : k * P < (Nat.sqrt (k * P) + 1) ^ 2 := Nat.lt_succ_sqrt' _
  refine ⟨div_le_div_of_nonneg_right (by exact_mod_cast h1) (by positivity), ?_⟩
  rw [div_mul_eq_mul_div]
  refine div_le_div_of_nonneg_right ?_ (by positivity)
  rcases Nat.eq_zero_or_pos k with rfl | hk
  · simp
  · have h3 : 2 ^ 55 ≤ Nat.sqrt (k * P) := by
      rw [Nat.le_sqrt']
      calc (2 ^ 55) ^ 2 ≤ 2 ^ 110 := by norm_num
        _ ≤ P := hP
        _ ≤ k * P := Nat.le_mul_of_pos_left P hk
    rw [← mul_pow]
    have h2' : ((k * P : ℕ) : ℚ) ≤ ((Nat.sqrt (k * P) : ℚ) + 1) ^ 2 := by exact_mod_cast h2.le
    refine h2'.trans ?_
    have h3' : (2 : ℚ) ^ 55 ≤ Nat.sqrt (k * P) := by exact_mod_cast h3
    refine pow_le_pow_left₀ (by positivity) ?_ 2
    have : (Nat.sqrt (k * P) : ℚ) * (1 + 1 / 2 ^ 53) = Nat.sqrt (k * P) + Nat.sqrt (k * P) / 2 ^ 53 := by ring
    rw [this]
    have : (1 : ℚ) ≤ Nat.sqrt (k * P) / 2 ^ 53 := by
      rw [le_div_iff₀ (by norm_num)]
      linarith
    linarith

/-- a square root of the accuracy that C132 asks for -/
def sqrt64 : ℚ → ℚ := gridSqrt (2 ^ 1074)

theorem gridSqrt_acc {P : ℕ} (hP : 2 ^ 110 ≤ P) (hM : ∀ x, B64.Mult x ↔ ∃ k : ℤ, x = k / P) :
    SqrtAcc B64.Mult u64 (gridSqrt P) := by
  have hP0 : 0 < P := lt_of_lt_of_le (by norm_num) hP
  have hPq : (0 : ℚ) < P := by exact_mod_cast hP0
  refine ⟨fun x _ h0 => ⟨B64.rnd_mult _, B64.rnd_nonneg (by positivity)⟩, fun x hx h0 => ?_⟩
  obtain ⟨k, rfl⟩ := (hM x).1 hx
  have hk : 0 ≤ k := by
    by_contra hk
    have : (k : ℚ) < 0 := by exact_mod_cast not_le.1 hk
    exact absurd h0 (not_le.2 (div_neg_of_neg_of_pos this hPq))
  obtain ⟨m, rfl⟩ := Int.eq_ofNat_of_zero_le hk
  rw [Int.cast_natCast]
  obtain ⟨a, b⟩ := gridSqrt_near hP m
  have hr0 : (0 : ℚ) ≤ Nat.sqrt ⌊(m : ℚ) / P * P ^ 2⌋₊ / P := by positivity
  have hrM : B64.Mult (Nat.sqrt ⌊(m : ℚ) / P * P ^ 2⌋₊ / P : ℚ) := (hM _).2 ⟨Nat.sqrt ⌊(m : ℚ) / P * P ^ 2⌋₊, by simp⟩
  unfold gridSqrt
  generalize (Nat.sqrt ⌊(m : ℚ) / P * P ^ 2⌋₊ / P : ℚ) = r at *
  have hx0 : (0 : ℚ) ≤ m / P := by positivity
  have c := B64.rnd_err_mult hrM
  have hu : (2 : ℚ) ^ (-53 : ℤ) = 1 / 2 ^ 53 := by norm_num
  rw [abs_of_nonneg hr0, hu] at c
  obtain ⟨c1, c2⟩ := abs_le.1 c
  have t0 := B64.rnd_nonneg hr0
  generalize rnd64 r = t at *
  generalize (m : ℚ) / P = x at *
  have hg : growth u64 = 1 / (1 - 1 / 2 ^ 53) := by unfold growth; rw [u64_eq]
  have g1 : 1 + 1 / 2 ^ 53 ≤ growth u64 := by rw [hg]; norm_num
  have g0 : 1 ≤ growth u64 := le_trans (by norm_num) g1
  have tr : t ≤ growth u64 * r := by
    have : (1 + 1 / 2 ^ 53) * r ≤ growth u64 * r := mul_le_mul_of_nonneg_right g1 hr0
    linarith
  have rt : r ≤ growth u64 * t := by
    rw [hg, one_div, inv_mul_eq_div, le_div_iff₀ (by norm_num)]
    linarith
  constructor
  · calc x ≤ r ^ 2 * (1 + 1 / 2 ^ 53) ^ 2 := b
      _ ≤ (growth u64 * t) ^ 2 * growth u64 ^ 2 :=
        mul_le_mul (pow_le_pow_left₀ hr0 rt 2) (pow_le_pow_left₀ (by norm_num) g1 2) (by positivity) (by positivity)
      _ = growth u64 ^ 4 * t ^ 2 := by ring
  · calc t ^ 2 ≤ (growth u64 * r) ^ 2 := pow_le_pow_left₀ t0 tr 2
      _ = growth u64 ^ 2 * r ^ 2 := by ring
      _ ≤ growth u64 ^ 4 * x := mul_le_mul (pow_le_pow_right₀ g0 (by norm_num)) a (by positivity) (by positivity)

theorem two_pow_neg (m : ℕ) : (2 : ℚ) ^ (-(m : ℤ)) = 1 / ((2 ^ m : ℕ) : ℚ) := by
  rw [zpow_neg, zpow_natCast, one_div, Nat.cast_pow, Nat.cast_ofNat]

/-- **C132.** a square root meets the accuracy that the theorem asks for -/
theorem sqrt64_acc : SqrtAcc B64.Mult u64 sqrt64 := by
  refine gridSqrt_acc (Nat.pow_le_pow_right (by norm_num) (by norm_num)) fun x => ?_
  have e : (2 : ℚ) ^ (-1074 : ℤ) = 1 / ((2 ^ 1074 : ℕ) : ℚ) := two_pow_neg 1074
  unfold B64.Mult
  rw [e]
  simp only [mul_one_div]

/-! ### the hypotheses are met: 0→1 with weight 3, 0→2, 1→2 -/

theorem hitsG_eigen_input : FeInput hitsG IsDouble 4 2 (some [(0, 2)]) :=
  ⟨hitsG_input.weights, hitsG_input.into, hitsG_input.valid, hitsG_input.values, hitsG_input.total⟩

example (sum : List ℚ → ℚ) (hsum : RoundsSums sum) (maxIter : Int) (tol : ℚ) :
    ∀ r, Model.Fe.eigenvectorCentrality (binary64 sum) sqrt64 hitsG maxIter tol (some [(0, 2)]) = .ok r →
      |sumOver [0, 1, 2] (fun v => atNode hitsG r v ^ 2) - 1| ≤ 13 / 2 ^ 52 := by
  intro r hr
  have h4 : (4 : ℚ) ≤ maxWeight64 := by
    unfold maxWeight64
    calc (4 : ℚ) = 2 ^ (2 : ℤ) := by norm_num
      _ ≤ 2 ^ (900 : ℤ) := zpow_le_zpow_right₀ (by norm_num) (by norm_num)
  have hN : hitsG.nodes = [0, 1, 2] := by decide
  obtain ⟨a, -⟩ := double_eigenvector hitsG_wf rfl (by rw [hN]; simp) hsum sqrt64_acc hitsG_eigen_input (by norm_num) h4
    (by norm_num) (by linarith) (by rw [hN]; norm_num) maxIter tol
  have := (a r hr).2
  rw [hN] at this
  refine this.trans (le_of_eq ?_)
  norm_num

/-- a run: every bit as computed with CPython floats and `math.sqrt` by the same sequence of operations -/
example : (match Model.Fe.eigenvectorCentrality (binary64 prSum) sqrt64 hitsG 100 (rnd64 (1 / 10)) (some [(0, 2)]) with
    | .ok r => decide (
        hitsG.view r 0 = some (5746248853724813 / 144115188075855872) ∧
        hitsG.view r 1 = some (8619373280587219 / 18014398509481984) ∧
        hitsG.view r 2 = some (7901092173871617 / 9007199254740992))
    | _ => false) = true := by decide +kernel

end Props
