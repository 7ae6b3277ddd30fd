import Verif.Props.FloatRank
import Verif.Proofs.Binary64

/-!
# C127 pagerank in IEEE 754 double precision

The theorems of Props/FloatRank.lean for binary64, with all error terms worked out.
-/

open GB Spec Model Model.Graph Proofs Proofs.Power Proofs.Fr

namespace Props

/-- **C127.** The model of binary64 rounds correctly: the result is a binary64 number, and none is nearer. -/
theorem rnd64_correct (q : ℚ) : IsDouble (rnd64 q) ∧ ∀ d, IsDouble d → |rnd64 q - q| ≤ |d - q| :=
  ⟨B64.rnd_double q, fun d hd => B64.rnd_nearest q d hd⟩

theorem growth_pow_le {F : Type} [Field F] [LinearOrder F] [IsStrictOrderedRing F] {u : F} (h0 : 0 ≤ u) (h1 : u < 1)
    (m : Nat) (hm : m * u ≤ 1 / 2) : growth u ^ m ≤ 1 + 2 * (m * u) := by
  have b := one_add_mul_le_pow (a := -u) (by linarith) m
  have hp : 0 < 1 + (m : F) * -u := by linarith
  have e : 1 - u = 1 + -u := by ring
  unfold growth
  rw [one_div, inv_pow, inv_le_comm₀ (pow_pos (by linarith) _) (by have := mul_nonneg (Nat.cast_nonneg (α := F) m) h0; linarith),
    e]
  refine le_trans ?_ b
  have hmu : 0 ≤ (m : F) * u := mul_nonneg (Nat.cast_nonneg m) h0
  rw [inv_le_iff_one_le_mul₀ (by linarith)]
  nlinarith

/-- unit roundoff of binary64 -/
def u64 : ℚ := 2 ^ (-53 : ℤ)
/-- underflow error of binary64 -/
def eta64 : ℚ := 2 ^ (-1075 : ℤ)

/-- the largest weight the theorems allow -/
def maxWeight64 : ℚ := 2 ^ (900 : ℤ)

theorem u64_eq : u64 = 1 / 2 ^ 53 := by norm_num [u64]
theorem eta64_nonneg : 0 ≤ eta64 := by unfold eta64; positivity

theorem eta64_small : (2 * maxWeight64) * eta64 = 1 / 2 ^ 174 := by
  have h : (2 : ℚ) * maxWeight64 * eta64 = 2 ^ (1 : ℤ) * 2 ^ (900 : ℤ) * 2 ^ (-1075 : ℤ) := by
    unfold maxWeight64 eta64; rw [zpow_one]
  rw [h, ← zpow_add₀ (by norm_num), ← zpow_add₀ (by norm_num)]
  have : (1 : ℤ) + 900 + -1075 = -174 := by norm_num
  rw [this, zpow_neg]
  norm_num

theorem one_le_maxWeight64 : 1 ≤ maxWeight64 := one_le_zpow₀ (by norm_num) (by norm_num)

theorem growth64 {n : Nat} (hn : n ≤ 2 ^ 40) (m : Nat) (hm : m ≤ 2 * n + 5) : growth u64 ^ m ≤ 1 + m / 2 ^ 52 := by
  have hm' : (m : ℚ) ≤ 2 ^ 42 := by
    have : m ≤ 2 ^ 42 := by omega
    exact_mod_cast this
  have := growth_pow_le (u := u64) (by rw [u64_eq]; norm_num) (by rw [u64_eq]; norm_num) m (by
    rw [u64_eq]; linarith)
  refine this.trans (le_of_eq ?_)
  rw [u64_eq]; ring

theorem eta64_le {D : ℚ} (hD : D ≤ maxWeight64) : (D + 1) * eta64 ≤ 1 / 2 ^ 174 := by
  rw [← eta64_small]
  refine mul_le_mul_of_nonneg_right ?_ eta64_nonneg
  have := one_le_maxWeight64
  linarith

theorem passError64 {n : Nat} (hn : n ≤ 2 ^ 40) {D : ℚ} (h1 : 1 ≤ D) (hD : D ≤ maxWeight64) :
    passError u64 eta64 D n ≤ (n + 11 / 4) / 2 ^ 50 := by
  have g := growth64 hn (2 * n + 5) le_rfl
  have e := eta64_le hD
  have hn' : (n : ℚ) ≤ 2 ^ 40 := by exact_mod_cast hn
  have hn0 : (0 : ℚ) ≤ n := Nat.cast_nonneg n
  push_cast at g
  have g2 : growth u64 ^ (2 * n + 5) ≤ 2 := by refine g.trans ?_; linarith
  have he0 : 0 ≤ (D + 1) * eta64 := mul_nonneg (by linarith) eta64_nonneg
  have a1 : 9 * (n : ℚ) ^ 2 ≤ 9 * 2 ^ 80 := by nlinarith
  have hg0 : 0 ≤ growth u64 ^ (2 * n + 5) := pow_nonneg (by rw [growth, u64_eq]; norm_num) _
  have a2 : growth u64 ^ (2 * n + 5) * ((D + 1) * eta64) ≤ 2 * (1 / 2 ^ 174) :=
    mul_le_mul g2 e he0 (by norm_num)
  have a3 : 9 * (n : ℚ) ^ 2 * (growth u64 ^ (2 * n + 5) * ((D + 1) * eta64)) ≤ 9 * 2 ^ 80 * (2 * (1 / 2 ^ 174)) :=
    mul_le_mul a1 a2 (mul_nonneg hg0 he0) (by norm_num)
  have e2 : passError u64 eta64 D n =
      2 * (growth u64 ^ (2 * n + 5) - 1) + 9 * (n : ℚ) ^ 2 * (growth u64 ^ (2 * n + 5) * ((D + 1) * eta64)) := by
    unfold passError; ring
  rw [e2]
  have a4 : (9 : ℚ) * 2 ^ 80 * (2 * (1 / 2 ^ 174)) ≤ 1 / 4 / 2 ^ 50 := by norm_num
  linarith

variable {K : Type} [DecidableEq K] {G : Graph K ℚ}

/-- `sum` adds rounding after each addition, in an order and bracketing of its own -/
def RoundsSums (sum : List ℚ → ℚ) : Prop :=
  ∀ l, l ≠ [] → TreeSum (fun x y => rnd64 (x + y)) l (sum l)

theorem roundsSums_exist : RoundsSums fun l => match l with | [] => 0 | a :: l => l.foldl (fun x y => rnd64 (x + y)) a := by
  have key : ∀ (l m : List ℚ) (a : ℚ), TreeSum (fun x y => rnd64 (x + y)) m a →
      TreeSum (fun x y => rnd64 (x + y)) (m ++ l) (l.foldl (fun x y => rnd64 (x + y)) a) := by
    intro l
    induction l with
    | nil => intro m a h; simpa using h
    | cons b l ih =>
      intro m a h
      have := ih (m ++ [b]) _ (TreeSum.add h (TreeSum.one b))
      simpa using this
  intro l hl
  cases l with
  | nil => exact absurd rfl hl
  | cons a l => exact key l [a] a (TreeSum.one a)

omit [DecidableEq K] in
theorem FrInput.mono {Rp Rq : ℚ → Prop} (hpq : ∀ q, Rp q → Rq q) {D alpha tol : ℚ}
    {pers nstart dangling : Option (List (K × ℚ))} (hi : FrInput G Rp D alpha tol pers nstart dangling) :
    FrInput G Rq D alpha tol pers nstart dangling where
  alpha := hpq _ hi.alpha
  tol := ⟨hpq _ hi.tol.1, hi.tol.2⟩
  bound := hi.bound
  weights u v a h := ⟨hpq _ (hi.weights u v a h).1, (hi.weights u v a h).2⟩
  pers l hl k b hm := hpq _ (hi.pers l hl k b hm)
  nstart l hl k b hm := hpq _ (hi.nstart l hl k b hm)
  dangling l hl k b hm := ⟨hpq _ (hi.dangling l hl k b hm).1, (hi.dangling l hl k b hm).2⟩

/-- **C127.** In IEEE 754 double precision with any order of summation, on a graph with at most `2^40` nodes and weights
up to `2^900`: the values of `pagerank` are nonnegative, sum to 1 within `(N + 3) * 2^-50 / (1 - alpha)`, and are within
`(alpha * (1 + (N + 3) * 2^-52) * N * tol + (N + 3) * 2^-50) / (1 - alpha)` in L1 norm of the exact PageRank vector. -/
theorem double_pagerank (h : G.WF) (hE : ∃ u v, G.Edge u v) {iso : Option ℚ}
    {pers nstart dangling : Option (List (K × ℚ))} (ha : PRArgs G iso pers nstart dangling)
    {alpha : ℚ} (hs : PRNonneg G alpha pers nstart dangling) {sum : List ℚ → ℚ} (hsum : RoundsSums sum)
    {tol D : ℚ} (hi : FrInput G IsDouble D alpha tol pers nstart dangling) (hD : D ≤ maxWeight64)
    (hn : G.nodes.length ≤ 2 ^ 40) (he : (G.nodes.length + 3) / 2 ^ 50 ≤ 1 - alpha) (maxIter : Int) :
    ∃ x, IsPageRank G alpha pers dangling x ∧
      ∀ r, Model.Fr.pagerank (binary64 sum) G iso alpha pers maxIter tol nstart dangling = .ok (some r) →
        (∀ v, G.Node v → ∃ y, G.view r v = some y ∧ 0 ≤ y) ∧
        |sumOver G.nodes (fun v => (G.view r v).getD 0) - 1| ≤ (G.nodes.length + 3) / 2 ^ 50 / (1 - alpha) ∧
        l1 G.nodes (fun v => (G.view r v).getD 0) x ≤
          (alpha * (1 + (G.nodes.length + 3) / 2 ^ 52) * (G.nodes.length * tol) + (G.nodes.length + 3) / 2 ^ 50) /
            (1 - alpha) := by
  have R : Rounded (binary64 sum) B64.Mult u64 eta64 := B64.rounded sum fun l hl _ => hsum l hl
  have hi' := hi.mono fun q hq => B64.IsDouble.mult hq
  have pe := passError64 hn hi.bound hD
  have hN0 : (0 : ℚ) ≤ G.nodes.length := Nat.cast_nonneg _
  have h1 : alpha < 1 := by
    have : (0 : ℚ) < (G.nodes.length + 3) / 2 ^ 50 := div_pos (by linarith) (by norm_num)
    linarith
  have h1' : 0 < 1 - alpha := sub_pos.2 h1
  have he' : passError u64 eta64 D G.nodes.length ≤ 1 - alpha := by linarith
  obtain ⟨x, hx, hacc⟩ := float_pagerank_accuracy h hE ha hs h1 R hi' he' maxIter
  refine ⟨x, hx, fun r hr => ?_⟩
  obtain ⟨r', hr', hnn, hm⟩ := (float_pagerank_distribution h hE ha hs h1 R hi' he' maxIter).1 _ hr
  cases hr'
  refine ⟨hnn, hm.trans (div_le_div_of_nonneg_right (by linarith) h1'.le), (hacc r hr).trans ?_⟩
  refine div_le_div_of_nonneg_right ?_ h1'.le
  have g1 := growth64 hn (G.nodes.length + 3) (by omega)
  have g2 := growth64 hn (G.nodes.length + 1) (by omega)
  push_cast at g1 g2
  have hN : (G.nodes.length : ℚ) ≤ 2 ^ 40 := by exact_mod_cast hn
  have g3 : growth u64 ^ (G.nodes.length + 1) ≤ 2 := by refine g2.trans ?_; linarith
  have hg0 : 0 ≤ growth u64 := by rw [growth, u64_eq]; norm_num
  have e1 := eta64_le hD
  have heta0 : 0 ≤ eta64 := eta64_nonneg
  have e2 : eta64 ≤ 1 / 2 ^ 174 := by
    refine le_trans (le_mul_of_one_le_left heta0 ?_) e1
    have := hi.bound
    linarith
  have htol : 0 ≤ (G.nodes.length : ℚ) * tol := mul_nonneg hN0 hi.tol.2
  have b1 : alpha * (growth u64 ^ (G.nodes.length + 1) * (growth u64 ^ 2 * (G.nodes.length * tol) + eta64)) =
      alpha * (growth u64 ^ (G.nodes.length + 3) * (G.nodes.length * tol)) +
      alpha * (growth u64 ^ (G.nodes.length + 1) * eta64) := by ring
  rw [b1]
  have b2 : alpha * (growth u64 ^ (G.nodes.length + 3) * (G.nodes.length * tol)) ≤
      alpha * (1 + (G.nodes.length + 3) / 2 ^ 52) * (G.nodes.length * tol) := by
    rw [mul_assoc]
    exact mul_le_mul_of_nonneg_left (mul_le_mul_of_nonneg_right g1 htol) hs.alpha0
  have b3 : growth u64 ^ (G.nodes.length + 1) * eta64 ≤ 2 * (1 / 2 ^ 174) :=
    mul_le_mul g3 e2 heta0 (by norm_num)
  have b4 : alpha * (growth u64 ^ (G.nodes.length + 1) * eta64) ≤ 1 * (2 * (1 / 2 ^ 174)) :=
    mul_le_mul hs.alpha1 b3 (mul_nonneg (pow_nonneg hg0 _) heta0) (by norm_num)
  have b5 : (1 : ℚ) * (2 * (1 / 2 ^ 174)) ≤ 1 / 4 / 2 ^ 50 := by norm_num
  linarith

/-- **C127.** With the default `alpha=0.85`, `tol=1e-6`, `max_iter=100`, `pagerank` in double precision never raises
PowerIterationFailedConvergence: on every graph with an edge and at most `2^40` nodes, nonnegative weights up to `2^900`
with positive row sums, it returns a result, whatever the dicts. -/
theorem double_pagerank_defaults (h : G.WF) (hE : ∃ u v, G.Edge u v) {iso : Option ℚ}
    {pers nstart dangling : Option (List (K × ℚ))} (ha : PRArgs G iso pers nstart dangling)
    (hs : PRNonneg G (rnd64 (85 / 100)) pers nstart dangling) {sum : List ℚ → ℚ} (hsum : RoundsSums sum)
    {D : ℚ} (hi : FrInput G IsDouble D (rnd64 (85 / 100)) (rnd64 (1 / 10 ^ 6)) pers nstart dangling)
    (hD : D ≤ maxWeight64) (hn : G.nodes.length ≤ 2 ^ 40) :
    ∃ r, Model.Fr.pagerank (binary64 sum) G iso (rnd64 (85 / 100)) pers 100 (rnd64 (1 / 10 ^ 6)) nstart dangling =
      .ok (some r) := by
  have R : Rounded (binary64 sum) B64.Mult u64 eta64 := B64.rounded sum fun l hl _ => hsum l hl
  have hi' := hi.mono fun q hq => B64.IsDouble.mult hq
  have pe := passError64 hn hi.bound hD
  have hN1 : (1 : ℚ) ≤ G.nodes.length := by
    obtain ⟨u, v, i, j, hu, -⟩ := hE
    have : 0 < G.nodes.length := List.length_pos_iff.2 (List.ne_nil_of_mem (show u ∈ G.nodes from hu.node))
    exact_mod_cast this
  have hN : (G.nodes.length : ℚ) ≤ 2 ^ 40 := by exact_mod_cast hn
  have heta : eta64 ≤ 1 / 2 ^ 174 := by
    refine le_trans (le_mul_of_one_le_left eta64_nonneg ?_) (eta64_le hD)
    have := hi.bound
    linarith
  have heta0 : 0 ≤ eta64 := eta64_nonneg
  have er : ∀ q, |rnd64 q - q| ≤ u64 * |q| + eta64 := B64.rnd_err
  have ea := abs_le.1 (er (85 / 100))
  have et := abs_le.1 (er (1 / 10 ^ 6))
  rw [u64_eq, abs_of_nonneg (by norm_num)] at ea et
  have ha1 : rnd64 (85 / 100) ≤ 8500001 / 10 ^ 7 := by
    have : (1 : ℚ) / 2 ^ 174 ≤ 1 / 10 ^ 9 := by norm_num
    linarith [ea.2]
  have ht1 : 99 / 10 ^ 8 ≤ rnd64 (1 / 10 ^ 6) := by
    have : (1 : ℚ) / 2 ^ 174 ≤ 1 / 10 ^ 12 := by norm_num
    linarith [et.1]
  generalize rnd64 (85 / 100) = alpha at *
  generalize rnd64 (1 / 10 ^ 6) = tol at *
  have h1 : alpha < 1 := by linarith
  have h1' : 0 < 1 - alpha := sub_pos.2 h1
  have he' : passError u64 eta64 D G.nodes.length ≤ 1 - alpha := by linarith
  refine float_pagerank_converges h hE ha hs h1 R hi' he' (k := 99) (by norm_num) ?_
  have g1 := growth64 hn (G.nodes.length + 3) (by omega)
  push_cast at g1
  have g2 := growth64 hn 2 (by omega)
  push_cast at g2
  have g3 : growth u64 ^ (G.nodes.length + 3) ≤ 1 + 1 / 2 ^ 10 := by refine g1.trans ?_; linarith
  have g4 : growth u64 ^ 2 ≤ 2 := by refine g2.trans ?_; norm_num
  have hp : alpha ^ 99 ≤ 11 / 10 ^ 8 := by
    refine (pow_le_pow_left₀ hs.alpha0 ha1 99).trans ?_
    norm_num
  have hq : passError u64 eta64 D G.nodes.length / (1 - alpha) ≤ G.nodes.length / 10 ^ 9 := by
    rw [div_le_iff₀ h1']
    have : (G.nodes.length : ℚ) / 10 ^ 9 * (1 / 10) ≤ G.nodes.length / 10 ^ 9 * (1 - alpha) :=
      mul_le_mul_of_nonneg_left (by linarith) (div_nonneg (by linarith) (by norm_num))
    linarith
  have hg0 : 0 ≤ growth u64 := by rw [growth, u64_eq]; norm_num
  have hX : 6 * alpha ^ 99 + 2 * (passError u64 eta64 D G.nodes.length / (1 - alpha)) ≤
      7 / 10 ^ 7 * G.nodes.length := by linarith
  have hX0 : 0 ≤ 6 * alpha ^ 99 + 2 * (passError u64 eta64 D G.nodes.length / (1 - alpha)) := by
    have := passError_nonneg R hi.bound G.nodes.length
    have := pow_nonneg hs.alpha0 99
    have := div_nonneg ‹0 ≤ passError u64 eta64 D G.nodes.length› h1'.le
    linarith
  have m1 := mul_le_mul g3 hX hX0 (by norm_num)
  have m2 := mul_le_mul g4 heta heta0 (by norm_num)
  have m3 : (G.nodes.length : ℚ) * (99 / 10 ^ 8) ≤ G.nodes.length * tol :=
    mul_le_mul_of_nonneg_left ht1 (by linarith)
  have m4 : growth u64 ^ 2 * (growth u64 ^ (G.nodes.length + 1) *
        (6 * alpha ^ 99 + 2 * (passError u64 eta64 D G.nodes.length / (1 - alpha))) + eta64)
      = growth u64 ^ (G.nodes.length + 3) *
          (6 * alpha ^ 99 + 2 * (passError u64 eta64 D G.nodes.length / (1 - alpha))) + growth u64 ^ 2 * eta64 := by ring
  rw [m4]
  have m5 : (2 : ℚ) * (1 / 2 ^ 174) ≤ 1 / 10 ^ 12 := by norm_num
  linarith

/-! ### the model of binary64 agrees with what doubles do: 1/3, 0.1 + 0.2, ties, the subnormal range -/

example : rnd64 (1 / 3) = 6004799503160661 / 18014398509481984 := by decide +kernel
example : rnd64 (rnd64 (1 / 10) + rnd64 (2 / 10)) = 1351079888211149 / 4503599627370496 ∧
    rnd64 (3 / 10) ≠ rnd64 (rnd64 (1 / 10) + rnd64 (2 / 10)) := by decide +kernel
example : rnd64 (2 ^ 53 + 1) = 2 ^ 53 ∧ rnd64 (2 ^ 53 + 3) = 2 ^ 53 + 4 ∧ rnd64 (-(2 ^ 53 + 3)) = -(2 ^ 53 + 4) := by
  decide +kernel
set_option exponentiation.threshold 2000 in
example : rnd64 (1 / 2 ^ 1075) = 0 ∧ rnd64 (3 / 2 ^ 1075) = 2 / 2 ^ 1074 := by decide +kernel

/-- a run in double precision -/
def prSum : List ℚ → ℚ
  | [] => 0
  | a :: l => l.foldl (fun x y => rnd64 (x + y)) a

theorem prG_double_nonneg : PRNonneg prG (rnd64 (85 / 100)) (some [(1, 1), (3, 3)]) none (some [(2, 2)]) where
  alpha0 := B64.rnd_nonneg (by norm_num)
  alpha1 := by decide +kernel
  weights := prG_nonneg.weights
  pers := prG_nonneg.pers
  nstart := prG_nonneg.nstart
  dangling := prG_nonneg.dangling

theorem prG_double_input : FrInput prG IsDouble 3 (rnd64 (85 / 100)) (rnd64 (1 / 10 ^ 6)) (some [(1, 1), (3, 3)]) none
    (some [(2, 2)]) where
  alpha := B64.rnd_double _
  tol := ⟨B64.rnd_double _, B64.rnd_nonneg (by norm_num)⟩
  bound := by norm_num
  weights := by
    rintro u v a ⟨i, j, -, -, hA⟩
    have key : ∀ i j, (prG.A i j = none ∨ prG.A i j = some 1 ∨ prG.A i j = some 3) := by decide +kernel
    rcases key i j with h | h | h <;> rw [h] at hA <;> cases hA
    · exact ⟨⟨1, 0, by norm_num, by norm_num, by norm_num⟩, by norm_num⟩
    · exact ⟨⟨3, 0, by norm_num, by norm_num, by norm_num⟩, by norm_num⟩
  pers := by
    rintro l hl k b hm
    cases hl
    simp only [List.mem_cons, Prod.mk.injEq, List.not_mem_nil, or_false] at hm
    rcases hm with ⟨-, rfl⟩ | ⟨-, rfl⟩
    · exact ⟨1, 0, by norm_num, by norm_num, by norm_num⟩
    · exact ⟨3, 0, by norm_num, by norm_num, by norm_num⟩
  nstart := by rintro l hl; cases hl
  dangling := by
    rintro l hl k b hm
    cases hl
    simp only [List.mem_cons, Prod.mk.injEq, List.not_mem_nil, or_false] at hm
    obtain ⟨-, rfl⟩ := hm
    exact ⟨⟨2, 0, by norm_num, by norm_num, by norm_num⟩, by norm_num⟩

example : ∃ r, Model.Fr.pagerank (binary64 prSum) prG none (rnd64 (85 / 100)) (some [(1, 1), (3, 3)]) 100
      (rnd64 (1 / 10 ^ 6)) none (some [(2, 2)]) = .ok (some r) :=
  double_pagerank_defaults prG_wf ⟨1, 2, by decide⟩ prG_args prG_double_nonneg (sum := prSum) (by
    intro l hl
    have := roundsSums_exist l hl
    cases l <;> exact this) prG_double_input (by
      unfold maxWeight64
      calc (3 : ℚ) ≤ 2 ^ (2 : ℤ) := by norm_num
        _ ≤ 2 ^ (900 : ℤ) := zpow_le_zpow_right₀ (by norm_num) (by norm_num)) (by decide)

/-- and the hypothesis of `double_pagerank` on the size of the rounding errors -/
example : ((prG.nodes.length : ℚ) + 3) / 2 ^ 50 ≤ 1 - rnd64 (85 / 100) := by decide +kernel

example : (match Model.Fr.pagerank (binary64 prSum) prG none (rnd64 (85 / 100)) (some [(1, 1), (3, 3)]) 100
      (rnd64 (1 / 10)) none (some [(2, 2)]) with
    | .ok (some r) => decide ((prG.view r 1).isSome ∧ prG.view r 1 ≠ prG.view r 2)
    | _ => false) = true := by decide +kernel

/-- the default tolerance: 75 passes, every bit as computed with CPython floats by the same sequence of operations -/
example : (match Model.Fr.pagerank (binary64 prSum) prG none (rnd64 (85 / 100)) (some [(1, 1), (3, 3)]) 100
      (rnd64 (1 / 10 ^ 6)) none (some [(2, 2)]) with
    | .ok (some r) => decide (prG.view r 2 = some (8276897358630947 / 18014398509481984) ∧
        prG.view r 3 = some (2772145259765547 / 9007199254740992) ∧
        prG.view r 1 = some (8386421262639889 / 36028797018963968))
    | _ => false) = true := by decide +kernel

end Props
