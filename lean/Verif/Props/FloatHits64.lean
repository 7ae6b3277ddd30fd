import Verif.Props.FloatHits

/-!
# C130 `hits` in IEEE 754 double precision

The theorem of Props/FloatHits.lean for binary64, with all error terms worked out.
-/

open GB Spec Model Model.Graph Proofs Proofs.Power Proofs.Fr

namespace Props

variable {K : Type} [DecidableEq K] {G : Graph K ℚ}

omit [DecidableEq K] in
theorem Scores.mono [DecidableEq K] {normalized : Bool} {e₁ e₂ f₁ f₂ : ℚ} {r : Vec G.n ℚ} (h1 : e₁ ≤ f₁) (h2 : e₂ ≤ f₂)
    (h : Scores G normalized e₁ e₂ r) : Scores G normalized f₁ f₂ r := by
  refine ⟨h.1, h.2.imp_right fun e => ?_⟩
  cases normalized with
  | true =>
    rw [if_pos rfl] at e ⊢
    exact e.trans h1
  | false =>
    rw [if_neg (by simp)] at e ⊢
    obtain ⟨a, v, hv, b⟩ := e
    exact ⟨fun v hv => (a v hv).trans (by linarith), v, hv, b.trans h2⟩

omit [DecidableEq K] in
theorem FhInput.mono [DecidableEq K] {Rp Rq : ℚ → Prop} (hpq : ∀ q, Rp q → Rq q) {D B : ℚ}
    {nstart : Option (List (K × ℚ))} (hi : FhInput G Rp D B nstart) : FhInput G Rq D B nstart where
  weights u v a h := ⟨hpq _ (hi.weights u v a h).1, (hi.weights u v a h).2⟩
  out := hi.out
  into := hi.into
  valid := hi.valid
  values l hl k b hm := ⟨hpq _ (hi.values l hl k b hm).1, (hi.values l hl k b hm).2⟩
  total := hi.total

/-- the largest total weight at a node that the theorem allows -/
def maxTotal64 : ℚ := 2 ^ (449 : ℤ)

theorem maxTotal64_sq {D : ℚ} (h0 : 0 ≤ D) (hD : D ≤ maxTotal64) : (D + 1) ^ 2 ≤ maxWeight64 := by
  have h1 : (1 : ℚ) ≤ maxTotal64 := one_le_zpow₀ (by norm_num) (by norm_num)
  have e : maxWeight64 = (maxTotal64 + maxTotal64) ^ 2 := by
    have h : maxTotal64 + maxTotal64 = 2 ^ (450 : ℤ) := by
      have : maxTotal64 + maxTotal64 = 2 ^ (1 : ℤ) * maxTotal64 := by rw [zpow_one]; ring
      rw [this]
      unfold maxTotal64
      rw [← zpow_add₀ (by norm_num)]
      norm_num
    rw [h]
    unfold maxWeight64
    rw [← zpow_natCast, ← zpow_mul]
    norm_num
  rw [e]
  exact pow_le_pow_left₀ (by linarith) (by linarith) 2

theorem hits64 {n : Nat} (hn : n ≤ 2 ^ 40) {D B : ℚ} (hD0 : 0 ≤ D) (hD : D ≤ maxTotal64) (hB0 : 0 ≤ B)
    (hB : B ≤ maxWeight64) :
    HitsSize u64 eta64 D B n ∧ hitsError u64 eta64 D n ≤ (n + 3) / 2 ^ 52 ∧ hitsPeak u64 eta64 D ≤ 3 / 2 ^ 52 := by
  have hn' : (n : ℚ) ≤ 2 ^ 40 := by exact_mod_cast hn
  have hn0 : (0 : ℚ) ≤ n := Nat.cast_nonneg n
  have he := eta64_nonneg
  have g := growth64 hn (n + 2) (by omega)
  have g2 := growth64 hn 2 (by omega)
  have gg := growth64 hn 1 (by omega)
  push_cast at g g2 gg
  rw [pow_one] at gg
  have e1 := eta64_le (maxTotal64_sq hD0 hD)
  have e2 := eta64_le hB
  rw [add_mul, one_mul] at e1 e2
  have x0 : (D + 1) ^ 2 * eta64 ≤ 1 / 2 ^ 174 := by linarith
  have y0 : 0 ≤ (D + 1) ^ 2 * eta64 := mul_nonneg (sq_nonneg _) he
  have he1 : eta64 ≤ 1 / 2 ^ 174 := by linarith
  have b0 : B * eta64 ≤ 1 / 2 ^ 174 := by linarith
  have dd : 8 * D + 4 ≤ 8 * (D + 1) ^ 2 := by
    have : 0 ≤ D ^ 2 := sq_nonneg D
    have e : 8 * (D + 1) ^ 2 = 8 * D ^ 2 + 16 * D + 8 := by ring
    linarith
  refine ⟨⟨hD0, hB0, by linarith, ?_, ?_⟩, ?_, ?_⟩
  · have e : ((n : ℚ) + 1) * (eta64 * (16 * (D + 1) ^ 2)) = (n + 1) * (16 * ((D + 1) ^ 2 * eta64)) := by ring
    rw [e]
    calc ((n : ℚ) + 1) * (16 * ((D + 1) ^ 2 * eta64)) ≤ (2 ^ 40 + 1) * (16 * (1 / 2 ^ 174)) :=
          mul_le_mul (by linarith) (by linarith) (by linarith) (by norm_num)
      _ ≤ 1 / 4 := by norm_num
  · rw [mul_comm]
    refine b0.trans ?_
    norm_num
  · unfold hitsError
    have t : n * (eta64 * (8 * D + 4)) ≤ 2 ^ 40 * (8 * (1 / 2 ^ 174)) := by
      refine mul_le_mul hn' ?_ (mul_nonneg he (by linarith)) (by norm_num)
      have := mul_le_mul_of_nonneg_left dd he
      have e : eta64 * (8 * (D + 1) ^ 2) = 8 * ((D + 1) ^ 2 * eta64) := by ring
      linarith
    have : (2 : ℚ) ^ 40 * (8 * (1 / 2 ^ 174)) ≤ 1 / 2 ^ 52 := by norm_num
    linarith
  · unfold hitsPeak
    have gg2 : growth u64 ≤ 2 := by refine gg.trans ?_; norm_num
    have e : eta64 * (8 * (D + 1) ^ 2) = 8 * ((D + 1) ^ 2 * eta64) := by ring
    have t : growth u64 * (eta64 * (8 * (D + 1) ^ 2)) ≤ 2 * (8 * (1 / 2 ^ 174)) := by
      rw [e]
      exact mul_le_mul gg2 (by linarith) (by linarith) (by norm_num)
    have : (1 : ℚ) / 2 ^ 174 + 2 * (8 * (1 / 2 ^ 174)) ≤ 1 / 2 ^ 52 := by norm_num
    linarith

/-- **C130.** `hits` in IEEE 754 double precision with any order of summation, on a graph with at most `2^40` nodes,
total weights into and out of a node up to `2^449` and an `nstart` of total up to `2^900` but not 0: hub and authority
scores exist for every node and are nonnegative, and the hubs (authorities) are all 0, or sum to 1 within
`(N + 3) * 2^-52` (`normalized`), or have maximum 1 within `3 * 2^-52`, however many passes were made. -/
theorem double_hits (h : G.WF) {sum : List ℚ → ℚ} (hsum : RoundsSums sum) {D B : ℚ} {nstart : Option (List (K × ℚ))}
    (hi : FhInput G IsDouble D B nstart) (hD0 : 0 ≤ D) (hD : D ≤ maxTotal64) (hB0 : 0 ≤ B) (hB : B ≤ maxWeight64)
    (hn : G.nodes.length ≤ 2 ^ 40) (maxIter : Int) (tol : ℚ) (normalized : Bool) :
    (∀ hub auth, Model.Fh.hits (binary64 sum) G maxIter tol nstart normalized = .ok (some (hub, auth)) →
      Scores G normalized ((G.nodes.length + 3) / 2 ^ 52) (3 / 2 ^ 52) hub ∧
      Scores G normalized ((G.nodes.length + 3) / 2 ^ 52) (3 / 2 ^ 52) auth) ∧
    ∀ e, Model.Fh.hits (binary64 sum) G maxIter tol nstart normalized = .error e →
      e = if maxIter < 1 then .valueError else .convergence := by
  have R : Rounded (binary64 sum) B64.Mult u64 eta64 := B64.rounded sum fun l hl _ => hsum l hl
  have hi' := hi.mono fun q hq => B64.IsDouble.mult hq
  obtain ⟨hs, e1, e2⟩ := hits64 hn hD0 hD hB0 hB
  obtain ⟨a, b⟩ := float_hits h R hi' hs maxIter tol normalized
  refine ⟨fun hub auth hr => ?_, b⟩
  obtain ⟨c, d⟩ := a hub auth hr
  exact ⟨c.mono e1 e2, d.mono e1 e2⟩

/-! ### a reciprocal that overflows -/

/-- 0↔1 with weight `2^-520` (about 3e-157) -/
def tinyHits : Graph Nat ℚ where
  n := 2
  A := Ex.ofTriples 2 [(0, 1, 1 / 2 ^ 520), (1, 0, 1 / 2 ^ 520)]
  keyToId := [(0, 0), (1, 1)]
  directed := true

/-- **C130, finding.**  The proviso that nothing overflows matters: on two nodes with edges of weight `2^-520` both ways,
in the first pass of `hits` the largest entry of `A @ (hprev @ A)` is the positive double `2^-1041`, and `1.0 / denom` in
`normalize` is `2^1041`, above every finite double: CPython makes it `inf`, and with it both hub values of that pass. -/
theorem hits_reciprocal_overflows :
    (match Model.Fh.hitsInit (binary64 prSum) (n := 2) none with
      | .ok x =>
        decide (reduce max (Model.Fh.mxv (binary64 prSum) tinyHits.A (Model.Fh.hitsA (binary64 prSum) tinyHits.A x)) =
          some (1 / 2 ^ 1041) ∧ (binary64 prSum).div 1 (1 / 2 ^ 1041) = 2 ^ 1041)
      | _ => false) = true ∧ ((2 : ℚ) ^ 53 - 1) * 2 ^ 971 < 2 ^ 1041 := by
  set_option exponentiation.threshold 2000 in
  decide +kernel

/-! ### the hypotheses are met: 0→1 with weight 3, 0→2, 1→2 -/

def hitsG : Graph Nat ℚ where
  n := 3
  A := Ex.ofTriples 3 [(0, 1, 3), (0, 2, 1), (1, 2, 1)]
  keyToId := [(0, 0), (1, 1), (2, 2)]
  directed := true

theorem hitsG_wf : hitsG.WF := ⟨by decide, by decide⟩

theorem hitsG_input : FhInput hitsG IsDouble 4 2 (some [(0, 2)]) where
  weights := by
    rintro u v a ⟨i, j, -, -, hA⟩
    have key : ∀ i j, (hitsG.A i j = none ∨ hitsG.A i j = some 1 ∨ hitsG.A i j = some 3) := by decide +kernel
    rcases key i j with h | h | h <;> rw [h] at hA <;> cases hA
    · exact ⟨⟨1, 0, by norm_num, by norm_num, by norm_num⟩, by norm_num⟩
    · exact ⟨⟨3, 0, by norm_num, by norm_num, by norm_num⟩, by norm_num⟩
  out := by
    have : ∀ u ∈ [0, 1, 2], sumOver hitsG.nodes (fun v => (hitsG.weight? u v).getD 0) ≤ 4 := by decide +kernel
    exact this
  into := by
    have : ∀ v ∈ [0, 1, 2], sumOver hitsG.nodes (fun u => (hitsG.weight? u v).getD 0) ≤ 4 := by decide +kernel
    exact this
  valid := by
    rintro l hl
    cases hl
    refine ⟨by decide, by decide, ?_⟩
    intro k b hm
    simp only [List.mem_cons, Prod.mk.injEq, List.not_mem_nil, or_false] at hm
    obtain ⟨rfl, -⟩ := hm
    decide
  values := by
    rintro l hl k b hm
    cases hl
    simp only [List.mem_cons, Prod.mk.injEq, List.not_mem_nil, or_false] at hm
    obtain ⟨-, rfl⟩ := hm
    exact ⟨⟨2, 0, by norm_num, by norm_num, by norm_num⟩, by norm_num⟩
  total := by
    rintro l hl
    cases hl
    exact ⟨by decide +kernel, by decide +kernel⟩

example : (4 : ℚ) ≤ maxTotal64 ∧ (2 : ℚ) ≤ maxWeight64 := by
  unfold maxTotal64 maxWeight64
  constructor
  · calc (4 : ℚ) ≤ 2 ^ (2 : ℤ) := by norm_num
      _ ≤ 2 ^ (449 : ℤ) := zpow_le_zpow_right₀ (by norm_num) (by norm_num)
  · calc (2 : ℚ) ≤ 2 ^ (1 : ℤ) := by norm_num
      _ ≤ 2 ^ (900 : ℤ) := zpow_le_zpow_right₀ (by norm_num) (by norm_num)

/-- a run: every bit as computed with CPython floats by the same sequence of operations -/
example : (match Model.Fh.hits (binary64 prSum) hitsG 100 (rnd64 (1 / 10 ^ 3)) (some [(0, 2)]) true with
    | .ok (some (hub, auth)) => decide (
        hitsG.view hub 0 = some (8116814156302341 / 9007199254740992) ∧
        hitsG.view hub 1 = some (1780770196877301 / 18014398509481984) ∧ hitsG.view hub 2 = some 0 ∧
        hitsG.view auth 0 = some 0 ∧ hitsG.view auth 1 = some (6576340660690411 / 9007199254740992) ∧
        hitsG.view auth 2 = some (2430858594050581 / 9007199254740992))
    | _ => false) = true := by decide +kernel

end Props
