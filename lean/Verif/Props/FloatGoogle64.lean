import Verif.Props.FloatGoogle
import Verif.Props.FloatHits64

/-!
# C131 `google_matrix` in IEEE 754 double precision

The theorem of Props/FloatGoogle.lean for binary64, with all error terms worked out.
-/

open GB Spec Model Model.Graph Proofs Proofs.Power Proofs.Fr

namespace Props

variable {K : Type} [DecidableEq K] {G : Graph K ℚ}

theorem FgInput.mono {Rp Rq : ℚ → Prop} (hpq : ∀ q, Rp q → Rq q) {D alpha : ℚ} {pers dangling : Option (List (K × ℚ))}
    (hi : FgInput G Rp D alpha pers dangling) : FgInput G Rq D alpha pers dangling where
  alpha := ⟨hpq _ hi.alpha.1, hi.alpha.2⟩
  weights u v a h := ⟨hpq _ (hi.weights u v a h).1, (hi.weights u v a h).2⟩
  total := hi.total
  pers l hl k b hm := ⟨hpq _ (hi.pers l hl k b hm).1, (hi.pers l hl k b hm).2⟩
  dangling l hl := ⟨fun k b hm => ⟨hpq _ ((hi.dangling l hl).1 k b hm).1, ((hi.dangling l hl).1 k b hm).2⟩,
    (hi.dangling l hl).2⟩

theorem google64 {n : Nat} (hn : n ≤ 2 ^ 40) {D : ℚ} (hD0 : 0 ≤ D) (hD : D ≤ maxWeight64) :
    GmSize u64 eta64 D n ∧ gmRowError u64 eta64 D n ≤ (n + 5) / 2 ^ 52 ∧
      gmEntryError u64 eta64 D n ≤ (3 * n + 9) / 2 ^ 52 := by
  have hn' : (n : ℚ) ≤ 2 ^ 40 := by exact_mod_cast hn
  have hn0 : (0 : ℚ) ≤ n := Nat.cast_nonneg n
  have he := eta64_nonneg
  have g : ∀ m : ℕ, m ≤ 2 ^ 42 → growth u64 ^ m ≤ 1 + m / 2 ^ 52 := by
    intro m hm
    have hm' : (m : ℚ) ≤ 2 ^ 42 := by exact_mod_cast hm
    have := growth_pow_le (u := u64) (by rw [u64_eq]; norm_num) (by rw [u64_eq]; norm_num) m (by
      rw [u64_eq]; linarith)
    refine this.trans (le_of_eq ?_)
    rw [u64_eq]; ring
  have g1 := g (n + 4) (by omega)
  have g2 := g (3 * n + 8) (by omega)
  push_cast at g1 g2
  have e1 := eta64_le hD
  rw [add_mul, one_mul] at e1
  have d0 : 0 ≤ D * eta64 := mul_nonneg hD0 he
  have he1 : eta64 ≤ 1 / 2 ^ 174 := by linarith
  have d1 : D * eta64 ≤ 1 / 2 ^ 174 := by linarith
  have nη : n * eta64 ≤ 2 ^ 40 * (1 / 2 ^ 174) := mul_le_mul hn' he1 he (by norm_num)
  have nη' : n * eta64 ≤ 1 / 2 ^ 134 := nη.trans (by norm_num)
  refine ⟨⟨hD0, by linarith, ?_⟩, ?_, ?_⟩
  · have e : (n + 2 * D) * eta64 = n * eta64 + 2 * (D * eta64) := by ring
    rw [e]
    linarith
  · unfold gmRowError
    have e : eta64 * (25 * n + 8 * D) = 25 * (n * eta64) + 8 * (D * eta64) := by ring
    rw [e]
    linarith
  · unfold gmEntryError
    have e : eta64 * (40 * n + 100 * D + 40) = 40 * (n * eta64) + 100 * (D * eta64) + 40 * eta64 := by ring
    rw [e]
    linarith

/-- **C131.** `google_matrix(G)` in IEEE 754 double precision with any order of summation, on a graph with at most `2^40`
nodes, no `nodelist`, nonnegative weights with totals up to `2^900`: whenever the arguments are valid in exact arithmetic,
the call succeeds, no entry is negative, each entry is within `(3N + 9) * 2^-52` of the transition probability and every
row, also that of a dangling node, sums to 1 within `(N + 5) * 2^-52`. -/
theorem double_google (h : G.WF) (hn : G.nodes ≠ []) {sum : List ℚ → ℚ} (hsum : RoundsSums sum) {D alpha : ℚ}
    {pers dangling : Option (List (K × ℚ))} (ha : GMArgs G G.nodes pers dangling)
    (hi : FgInput G IsDouble D alpha pers dangling) (hD0 : 0 ≤ D) (hD : D ≤ maxWeight64)
    (hN : G.nodes.length ≤ 2 ^ 40) :
    ∃ M, Model.Fg.googleMatrix (binary64 sum) G alpha pers dangling = .ok M ∧
      (∀ i j b, M i j = some b → 0 ≤ b) ∧
      (∀ i, |∑ j, (M i j).getD 0 - 1| ≤ (G.nodes.length + 5) / 2 ^ 52) ∧
      ∀ u v i j, G.At u i → G.At v j →
        |(M i j).getD 0 - googleEntry G.nodes G.weight? alpha (distOf G.nodes pers (uniform G.nodes))
          (distOf G.nodes dangling (distOf G.nodes pers (uniform G.nodes))) u v| ≤ (3 * G.nodes.length + 9) / 2 ^ 52 := by
  have R : Rounded (binary64 sum) B64.Mult u64 eta64 := B64.rounded sum fun l hl _ => hsum l hl
  obtain ⟨hs, e1, e2⟩ := google64 hN hD0 hD
  obtain ⟨M, hM, a, b, c⟩ := float_google h hn R ha (hi.mono fun q hq => B64.IsDouble.mult hq) hs
  exact ⟨M, hM, fun i j x hx => (a i j x hx).2, fun i => (b i).trans e1,
    fun u v i j hu hv => (c u v i j hu hv).trans e2⟩

/-! ### the hypotheses are met: 0→1 with weight 3, 0→2, 1→2, and 2 dangling -/

theorem googleG_input : FgInput hitsG IsDouble 4 (1 / 2) (some [(0, 2), (1, 0)]) (some [(1, 3)]) where
  alpha := ⟨⟨1, -1, by norm_num, by norm_num, by norm_num⟩, by norm_num, by norm_num⟩
  weights := hitsG_input.weights
  total := hitsG_input.out
  pers := by
    rintro l hl k b hm
    cases hl
    simp only [List.mem_cons, Prod.mk.injEq, List.not_mem_nil, or_false] at hm
    rcases hm with ⟨-, rfl⟩ | ⟨-, rfl⟩
    · exact ⟨⟨2, 0, by norm_num, by norm_num, by norm_num⟩, by norm_num⟩
    · exact ⟨⟨0, 0, by norm_num, by norm_num, by norm_num⟩, by norm_num⟩
  dangling := by
    rintro l hl
    cases hl
    refine ⟨?_, by decide +kernel⟩
    intro k b hm
    simp only [List.mem_cons, Prod.mk.injEq, List.not_mem_nil, or_false] at hm
    obtain ⟨-, rfl⟩ := hm
    exact ⟨⟨3, 0, by norm_num, by norm_num, by norm_num⟩, by norm_num⟩

example : GMArgs hitsG hitsG.nodes (some [(0, 2), (1, 0)]) (some [(1, 3)]) where
  rows := by
    intro u hu _
    have : ∀ u ∈ [0, 1], outWeight hitsG.nodes hitsG.weight? u ≠ 0 := by decide +kernel
    have e : hitsG.nodes = [0, 1, 2] := rfl
    rw [e] at hu
    fin_cases hu
    · exact this 0 (by simp)
    · exact this 1 (by simp)
    · rename_i hd
      exact absurd (show Dangling hitsG.nodes hitsG.weight? 2 by unfold Dangling; decide +kernel) hd
  pers := by
    rintro l hl; cases hl
    refine ⟨⟨by decide, by decide, fun k b hm => ?_⟩, by decide +kernel⟩
    simp only [List.mem_cons, Prod.mk.injEq, List.not_mem_nil, or_false] at hm
    rcases hm with ⟨rfl, -⟩ | ⟨rfl, -⟩ <;> decide
  dangling := by
    rintro l hl; cases hl
    refine ⟨⟨by decide, by decide, fun k b hm => ?_⟩, fun _ => by decide +kernel⟩
    simp only [List.mem_cons, Prod.mk.injEq, List.not_mem_nil, or_false] at hm
    obtain ⟨rfl, -⟩ := hm
    decide

/-- a run: every bit as computed with CPython floats by the same sequence of operations -/
example : (match Model.Fg.googleMatrix (binary64 prSum) hitsG (rnd64 (17 / 20)) none (some [(1, 3), (2, 5)]) with
    | .ok M => decide ((List.finRange 3).map (fun i => (List.finRange 3).map fun j => (M i j).getD 0) =
        [[3602879701896397 / 72057594037927936, 11 / 16, 4728779608739021 / 18014398509481984],
         [3602879701896397 / 72057594037927936, 3602879701896397 / 72057594037927936, 8106479329266893 / 9007199254740992],
         [3602879701896397 / 72057594037927936, 6642809450371481 / 18014398509481984,
          2617717283409101 / 4503599627370496]])
    | _ => false) = true := by decide +kernel

end Props
