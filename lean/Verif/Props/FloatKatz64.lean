import Verif.Props.FloatKatz

/-!
# C129 `katz_centrality` in IEEE 754 double precision

The theorems of Props/FloatKatz.lean for binary64, with all error terms worked out.
-/

open GB Spec Model Model.Graph Proofs Proofs.Power Proofs.Fr

namespace Props

variable {K : Type} [DecidableEq K] {G : Graph K ℚ}

omit [DecidableEq K] in
theorem FkInput.mono {Rp Rq : ℚ → Prop} (hpq : ∀ q, Rp q → Rq q) {alpha tol : ℚ} {iso : Option ℚ}
    {beta : ℚ ⊕ List (K × ℚ)} {nstart : Option (List (K × ℚ))} (hi : FkInput G Rp alpha tol iso beta nstart) :
    FkInput G Rq alpha tol iso beta nstart where
  alpha := ⟨hpq _ hi.alpha.1, hi.alpha.2⟩
  tol := ⟨hpq _ hi.tol.1, hi.tol.2⟩
  weights u v a h := ⟨hpq _ (hi.weights u v a h).1, (hi.weights u v a h).2⟩
  iso c h := ⟨hpq _ (hi.iso c h).1, (hi.iso c h).2⟩
  number c h := ⟨hpq _ (hi.number c h).1, (hi.number c h).2⟩
  dict l hl k b hm := ⟨hpq _ (hi.dict l hl k b hm).1, (hi.dict l hl k b hm).2⟩
  nstart l hl k b hm := ⟨hpq _ (hi.nstart l hl k b hm).1, (hi.nstart l hl k b hm).2⟩

/-- the total that no iterate exceeds -/
def katzTotal (G : Graph K ℚ) (q : ℚ) (beta : ℚ ⊕ List (K × ℚ)) (nstart : Option (List (K × ℚ))) : ℚ :=
  2 * (sumOver G.nodes (betaOf beta) + sumOver G.nodes (katzStart nstart)) / (1 - q) + 1

theorem katzTiny64 {n : Nat} (hn : n ≤ 2 ^ 40) {alpha B : ℚ} (ha0 : 0 ≤ alpha) (ha : alpha ≤ maxWeight64) (hB0 : 0 ≤ B)
    (hB : B ≤ maxWeight64) : n * katzTiny u64 eta64 alpha B n ≤ 1 / 2 ^ 88 := by
  have hn' : (n : ℚ) ≤ 2 ^ 40 := by exact_mod_cast hn
  have hn0 : (0 : ℚ) ≤ n := Nat.cast_nonneg n
  have e1 := eta64_le ha
  have e2 := eta64_le hB
  have he := eta64_nonneg
  have g := growth64 hn (n + 2) (by omega)
  push_cast at g
  have g2 : growth u64 ^ (n + 2) ≤ 2 := by refine g.trans ?_; linarith
  have hg0 : 0 ≤ growth u64 ^ (n + 2) := pow_nonneg (by rw [growth, u64_eq]; norm_num) _
  have m0 : eta64 * (1 + n * alpha + B) ≤ (2 ^ 40 + 1) * (1 / 2 ^ 174) := by
    have a1 : n * (alpha * eta64) ≤ 2 ^ 40 * (1 / 2 ^ 174) := by
      refine mul_le_mul hn' ?_ (mul_nonneg ha0 he) (by norm_num)
      rw [add_mul, one_mul] at e1
      linarith
    rw [add_mul, one_mul] at e2
    have e : eta64 * (1 + n * alpha + B) = eta64 + n * (alpha * eta64) + B * eta64 := by ring
    rw [e]
    linarith
  have m1 : 0 ≤ eta64 * (1 + n * alpha + B) := mul_nonneg he (by
    have := mul_nonneg hn0 ha0
    linarith)
  have m2 : growth u64 ^ (n + 2) * (eta64 * (1 + n * alpha + B)) ≤ 2 * ((2 ^ 40 + 1) * (1 / 2 ^ 174)) :=
    mul_le_mul g2 m0 m1 (by norm_num)
  unfold katzTiny
  calc _ ≤ (2 : ℚ) ^ 40 * (2 * ((2 ^ 40 + 1) * (1 / 2 ^ 174))) := mul_le_mul hn' m2 (mul_nonneg hg0 m1) (by norm_num)
    _ ≤ 1 / 2 ^ 88 := by norm_num

/-- the bound on the totals and the error of a pass, in double precision -/
theorem katz64 (h : G.WF) {fill : Bool} {iso : Option ℚ} {beta : ℚ ⊕ List (K × ℚ)}
    {nstart : Option (List (K × ℚ))} (ha : KatzArgs G fill iso beta nstart) {alpha q tol : ℚ}
    (hq : KatzDamped G alpha q) {Rp : ℚ → Prop} (hi : FkInput G Rp alpha tol iso beta nstart)
    (hA : alpha ≤ maxWeight64) (hT : katzTotal G q beta nstart ≤ maxWeight64)
    (hn : G.nodes.length ≤ 2 ^ 40) (he : (G.nodes.length + 3) / 2 ^ 50 ≤ 1 - q) :
    0 ≤ q ∧ q < 1 ∧ 1 ≤ katzTotal G q beta nstart ∧
    KatzBound G u64 eta64 alpha q (katzTotal G q beta nstart) beta nstart ∧
    katzError u64 eta64 alpha q (sumOver G.nodes (betaOf beta)) (katzTotal G q beta nstart) G.nodes.length ≤
      (G.nodes.length + 4) / 2 ^ 52 * katzTotal G q beta nstart := by
  have hN0 : (0 : ℚ) ≤ G.nodes.length := Nat.cast_nonneg _
  have hN : (G.nodes.length : ℚ) ≤ 2 ^ 40 := by exact_mod_cast hn
  have h1' : 0 < 1 - q := lt_of_lt_of_le (div_pos (by linarith) (by norm_num)) he
  have hq0 : 0 ≤ q := by
    obtain ⟨w, hw⟩ := List.exists_mem_of_ne_nil _ ha.nonempty
    exact (mul_nonneg (abs_nonneg _) (sumOver_nonneg fun _ _ => abs_nonneg _)).trans (hq w hw)
  have hb0 : 0 ≤ sumOver G.nodes (betaOf beta) := sumOver_nonneg fun z _ => betaOf_nonneg hi z
  have hs0 : 0 ≤ sumOver G.nodes (katzStart nstart) := sumOver_nonneg fun z _ => katzStart_nonneg hi z
  have g := growth64 hn (G.nodes.length + 3) (by omega)
  push_cast at g
  have hg1 : 1 ≤ growth u64 ^ (G.nodes.length + 3) := one_le_pow₀ (by rw [growth, u64_eq]; norm_num)
  have hBeq : (1 - q) * katzTotal G q beta nstart =
      2 * (sumOver G.nodes (betaOf beta) + sumOver G.nodes (katzStart nstart)) + (1 - q) := by
    unfold katzTotal
    field_simp
  have hB1 : 1 ≤ katzTotal G q beta nstart := by
    have : 0 ≤ 2 * (sumOver G.nodes (betaOf beta) + sumOver G.nodes (katzStart nstart)) / (1 - q) :=
      div_nonneg (by linarith) h1'.le
    unfold katzTotal
    linarith
  have t := katzTiny64 hn hi.alpha.2 hA (by linarith) hT
  generalize katzTotal G q beta nstart = B at *
  generalize hbv : sumOver G.nodes (betaOf beta) = b at *
  generalize hsv : sumOver G.nodes (katzStart nstart) = s at *
  have hbB : q * B + b ≤ B := by
    have e : (1 - q) * B = B - q * B := by ring
    linarith
  have hsB : s ≤ B := by
    have e : (1 - q) * B = B - q * B := by ring
    have := mul_nonneg hq0 (show (0 : ℚ) ≤ B by linarith)
    linarith
  have hqb0 : 0 ≤ q * B + b := add_nonneg (mul_nonneg hq0 (by linarith)) hb0
  have k1 : (growth u64 ^ (G.nodes.length + 3) - 1) * (q * B + b) ≤ (G.nodes.length + 3) / 2 ^ 52 * B :=
    mul_le_mul (by linarith) hbB hqb0 (div_nonneg (by linarith) (by norm_num))
  have kerr : (growth u64 ^ (G.nodes.length + 3) - 1) * (q * B + b) + G.nodes.length * katzTiny u64 eta64 alpha B G.nodes.length ≤
      (G.nodes.length + 4) / 2 ^ 52 * B := by
    have e : ((G.nodes.length : ℚ) + 4) / 2 ^ 52 * B = (G.nodes.length + 3) / 2 ^ 52 * B + 1 / 2 ^ 52 * B := by ring
    have : (1 : ℚ) / 2 ^ 52 * 1 ≤ 1 / 2 ^ 52 * B := mul_le_mul_of_nonneg_left hB1 (by norm_num)
    have : (1 : ℚ) / 2 ^ 88 ≤ 1 / 2 ^ 52 := by norm_num
    linarith
  refine ⟨hq0, by linarith, hB1, ⟨hsv ▸ hsB, ?_⟩, kerr⟩
  rw [hbv]
  show b + ((growth u64 ^ (G.nodes.length + 3) - 1) * (q * B + b) +
    G.nodes.length * katzTiny u64 eta64 alpha B G.nodes.length) ≤ (1 - q) * B
  have d : (growth u64 ^ (G.nodes.length + 3) - 1) * (q * B + b) ≤ (1 - q) / 4 * B :=
    mul_le_mul (by linarith) hbB hqb0 (by linarith)
  have e : (1 - q) / 4 * B = 1 / 4 * ((1 - q) * B) := by ring
  have : (1 : ℚ) / 2 ^ 88 ≤ (G.nodes.length + 3) / 2 ^ 50 := by
    refine le_trans (b := (3 : ℚ) / 2 ^ 50) (by norm_num) (div_le_div_of_nonneg_right (by linarith) (by norm_num))
  linarith

/-- **C129.** `katz_centrality` in IEEE 754 double precision with any order of summation, on a graph with at most `2^40`
nodes whose attenuated weights out of a node total at most `q < 1` (not by less than `(N + 3) * 2^-50`): every node gets
a nonnegative number, and the values (not normalized) are within
`(q * (1 + (N + 3) * 2^-52) * N * tol + (N + 5) * 2^-52 * T) / (1 - q)` in L1 norm of the solution of the Katz
equation, where `T = 2 * (total of beta and nstart) / (1 - q) + 1`.  No error but PowerIterationFailedConvergence is
raised. -/
theorem double_katz (h : G.WF) {fill : Bool} {iso : Option ℚ} {beta : ℚ ⊕ List (K × ℚ)}
    {nstart : Option (List (K × ℚ))} (ha : KatzArgs G fill iso beta nstart) {alpha q tol : ℚ}
    (hq : KatzDamped G alpha q) {sum : List ℚ → ℚ} (hsum : RoundsSums sum)
    (hi : FkInput G IsDouble alpha tol iso beta nstart)
    (hA : alpha ≤ maxWeight64) (hT : katzTotal G q beta nstart ≤ maxWeight64)
    (hn : G.nodes.length ≤ 2 ^ 40) (he : (G.nodes.length + 3) / 2 ^ 50 ≤ 1 - q) (sqrt : ℚ → ℚ) (maxIter : Int) :
    (∃ x, KatzSolution G alpha (betaOf beta) x ∧
      ∀ r, Model.Fk.katzCentrality (binary64 sum) fill sqrt G iso alpha beta maxIter tol nstart false = .ok r →
        ∃ r', r = some r' ∧ (∀ z, G.Node z → ∃ y, G.view r' z = some y ∧ 0 ≤ y) ∧
        l1 G.nodes (fun z => (G.view r' z).getD 0) x ≤
          (q * (1 + (G.nodes.length + 3) / 2 ^ 52) * (G.nodes.length * tol) +
            (G.nodes.length + 5) / 2 ^ 52 * katzTotal G q beta nstart) / (1 - q)) ∧
    ∀ normalized e,
      Model.Fk.katzCentrality (binary64 sum) fill sqrt G iso alpha beta maxIter tol nstart normalized = .error e →
      e = .convergence := by
  have R : Rounded (binary64 sum) B64.Mult u64 eta64 := B64.rounded sum fun l hl _ => hsum l hl
  have hi' := hi.mono fun q hq => B64.IsDouble.mult hq
  obtain ⟨hq0, h1, hB1, hB, hE⟩ := katz64 h ha hq hi' hA hT hn he
  obtain ⟨⟨x, hx, hacc⟩, herr⟩ := float_katz_accuracy h ha hq h1 R hi' hB sqrt maxIter
  refine ⟨⟨x, hx, fun r hr => ?_⟩, herr⟩
  obtain ⟨r', hr', hnn, hl⟩ := hacc r hr
  refine ⟨r', hr', hnn, hl.trans ?_⟩
  refine div_le_div_of_nonneg_right ?_ (sub_pos.2 h1).le
  have hN0 : (0 : ℚ) ≤ G.nodes.length := Nat.cast_nonneg _
  have hN : (G.nodes.length : ℚ) ≤ 2 ^ 40 := by exact_mod_cast hn
  have g1 := growth64 hn (G.nodes.length + 3) (by omega)
  have g2 := growth64 hn (G.nodes.length + 1) (by omega)
  push_cast at g1 g2
  have g3 : growth u64 ^ (G.nodes.length + 1) ≤ 2 := by refine g2.trans ?_; linarith
  have hg0 : 0 ≤ growth u64 := by rw [growth, u64_eq]; norm_num
  have heta0 : 0 ≤ eta64 := eta64_nonneg
  have e2 : eta64 ≤ 1 / 2 ^ 174 := by
    have e1 := eta64_le hT
    refine le_trans (le_mul_of_one_le_left heta0 ?_) e1
    linarith
  have htol : 0 ≤ (G.nodes.length : ℚ) * tol := mul_nonneg hN0 hi.tol.2
  have b1 : q * (growth u64 ^ (G.nodes.length + 1) * (growth u64 ^ 2 * (G.nodes.length * tol) + eta64)) =
      q * (growth u64 ^ (G.nodes.length + 3) * (G.nodes.length * tol)) +
      q * (growth u64 ^ (G.nodes.length + 1) * eta64) := by ring
  rw [b1]
  have b2 : q * (growth u64 ^ (G.nodes.length + 3) * (G.nodes.length * tol)) ≤
      q * (1 + (G.nodes.length + 3) / 2 ^ 52) * (G.nodes.length * tol) := by
    rw [mul_assoc]
    exact mul_le_mul_of_nonneg_left (mul_le_mul_of_nonneg_right g1 htol) hq0
  have b3 : growth u64 ^ (G.nodes.length + 1) * eta64 ≤ 2 * (1 / 2 ^ 174) :=
    mul_le_mul g3 e2 heta0 (by norm_num)
  have b4 : q * (growth u64 ^ (G.nodes.length + 1) * eta64) ≤ 1 * (2 * (1 / 2 ^ 174)) :=
    mul_le_mul h1.le b3 (mul_nonneg (pow_nonneg hg0 _) heta0) (by norm_num)
  have b5 : (1 : ℚ) * (2 * (1 / 2 ^ 174)) ≤ 1 / 2 ^ 52 := by norm_num
  have b6 : (1 : ℚ) / 2 ^ 52 * 1 ≤ 1 / 2 ^ 52 * katzTotal G q beta nstart := mul_le_mul_of_nonneg_left hB1 (by norm_num)
  have b7 : ((G.nodes.length : ℚ) + 5) / 2 ^ 52 * katzTotal G q beta nstart =
    (G.nodes.length + 4) / 2 ^ 52 * katzTotal G q beta nstart + 1 / 2 ^ 52 * katzTotal G q beta nstart := by ring
  linarith

/-- **C129.** In double precision, `katz_centrality` returns a result when `N * tol` exceeds what rounding errors and
`k < max_iter` passes can leave. -/
theorem double_katz_converges (h : G.WF) {fill : Bool} {iso : Option ℚ} {beta : ℚ ⊕ List (K × ℚ)}
    {nstart : Option (List (K × ℚ))} (ha : KatzArgs G fill iso beta nstart) {alpha q tol : ℚ}
    (hq : KatzDamped G alpha q) {sum : List ℚ → ℚ} (hsum : RoundsSums sum)
    (hi : FkInput G IsDouble alpha tol iso beta nstart)
    (hA : alpha ≤ maxWeight64) (hT : katzTotal G q beta nstart ≤ maxWeight64)
    (hn : G.nodes.length ≤ 2 ^ 40) (he : (G.nodes.length + 3) / 2 ^ 50 ≤ 1 - q) (sqrt : ℚ → ℚ) {maxIter : Int}
    (normalized : Bool) {k : Nat} (hk : (k : Int) < maxIter)
    (ht : (1 + ((G.nodes.length : ℚ) + 3) / 2 ^ 52) *
      (2 * (q ^ k * l1 G.nodes (katzStart nstart)
          (katzMap G.nodes G.weight? alpha (betaOf beta) (katzStart nstart)) +
        (G.nodes.length + 5) / 2 ^ 52 * katzTotal G q beta nstart) / (1 - q)) < G.nodes.length * tol) :
    ∃ r, Model.Fk.katzCentrality (binary64 sum) fill sqrt G iso alpha beta maxIter tol nstart normalized =
      .ok (some r) := by
  have R : Rounded (binary64 sum) B64.Mult u64 eta64 := B64.rounded sum fun l hl _ => hsum l hl
  have hi' := hi.mono fun q hq => B64.IsDouble.mult hq
  obtain ⟨hq0, h1, hB1, hB, hE⟩ := katz64 h ha hq hi' hA hT hn he
  refine float_katz_converges h ha hq h1 R hi' hB sqrt normalized hk (lt_of_le_of_lt ?_ ht)
  clear ht
  have h1' : 0 < 1 - q := sub_pos.2 h1
  have hN0 : (0 : ℚ) ≤ G.nodes.length := Nat.cast_nonneg _
  have hN : (G.nodes.length : ℚ) ≤ 2 ^ 40 := by exact_mod_cast hn
  have hD : 0 ≤ l1 G.nodes (katzStart nstart) (katzMap G.nodes G.weight? alpha (betaOf beta) (katzStart nstart)) :=
    l1_nonneg _ _ _
  generalize l1 G.nodes (katzStart nstart) (katzMap G.nodes G.weight? alpha (betaOf beta) (katzStart nstart)) = Δ at *
  have he0 := katzError_nonneg R hi.alpha.2 hq0 (b := sumOver G.nodes (betaOf beta))
    (sumOver_nonneg fun z _ => betaOf_nonneg hi z) (show (0 : ℚ) ≤ katzTotal G q beta nstart by linarith) G.nodes.length
  generalize katzError u64 eta64 alpha q (sumOver G.nodes (betaOf beta)) (katzTotal G q beta nstart)
    G.nodes.length = ε at *
  have e2 : eta64 ≤ 1 / 2 ^ 174 := by
    have e1 := eta64_le hT
    refine le_trans (le_mul_of_one_le_left eta64_nonneg ?_) e1
    linarith
  generalize katzTotal G q beta nstart = B at *
  have g1 := growth64 hn (G.nodes.length + 3) (by omega)
  have g2 := growth64 hn 2 (by omega)
  push_cast at g1 g2
  have hX0 : 0 ≤ 2 * (q ^ k * Δ + ε) / (1 - q) :=
    div_nonneg (mul_nonneg (by norm_num) (add_nonneg (mul_nonneg (pow_nonneg hq0 _) hD) he0)) h1'.le
  have e1 : growth u64 ^ 2 * (growth u64 ^ (G.nodes.length + 1) * (2 * (q ^ k * Δ + ε) / (1 - q)) + eta64) =
      growth u64 ^ (G.nodes.length + 3) * (2 * (q ^ k * Δ + ε) / (1 - q)) + growth u64 ^ 2 * eta64 := by ring
  rw [e1]
  have m1 := mul_le_mul_of_nonneg_right g1 hX0
  have m2 : growth u64 ^ 2 * eta64 ≤ 2 * (1 / 2 ^ 174) :=
    mul_le_mul (by linarith) e2 eta64_nonneg (by norm_num)
  have m3 : (2 : ℚ) * (1 / 2 ^ 174) ≤ 1 / 2 ^ 52 := by norm_num
  have m4 : 2 * (q ^ k * Δ + ε) / (1 - q) + 1 / 2 ^ 52 ≤
      2 * (q ^ k * Δ + (G.nodes.length + 5) / 2 ^ 52 * B) / (1 - q) := by
    rw [le_div_iff₀ h1', add_mul, div_mul_cancel₀ _ h1'.ne']
    have : (1 : ℚ) / 2 ^ 52 * (1 - q) ≤ 1 / 2 ^ 52 * 1 := mul_le_mul_of_nonneg_left (by linarith) (by norm_num)
    have : (1 : ℚ) / 2 ^ 52 * 1 ≤ 1 / 2 ^ 52 * B := mul_le_mul_of_nonneg_left hB1 (by norm_num)
    have e : ((G.nodes.length : ℚ) + 5) / 2 ^ 52 * B = (G.nodes.length + 4) / 2 ^ 52 * B + 1 / 2 ^ 52 * B := by ring
    linarith
  have hc : (1 : ℚ) ≤ 1 + (G.nodes.length + 3) / 2 ^ 52 := by
    have : (0 : ℚ) ≤ (G.nodes.length + 3) / 2 ^ 52 := div_nonneg (by linarith) (by norm_num)
    linarith
  have m5 := mul_le_mul_of_nonneg_left m4 (show (0 : ℚ) ≤ 1 + (G.nodes.length + 3) / 2 ^ 52 by linarith)
  rw [mul_add] at m5
  have m6 : (1 : ℚ) / 2 ^ 52 ≤ (1 + (G.nodes.length + 3) / 2 ^ 52) * (1 / 2 ^ 52) :=
    le_mul_of_one_le_left (by norm_num) hc
  linarith

/-- **C129.** With the default `alpha=0.1`, `beta=1.0`, `max_iter=1000`, `tol=1e-6` and no `nstart`,
`katz_centrality` in double precision never raises PowerIterationFailedConvergence on a graph with at most `2^22` nodes
whose nonnegative weights total at most 9 out of any node (say, at most 9 unweighted out-edges). -/
theorem double_katz_defaults (h : G.WF) {fill : Bool} {iso : Option ℚ}
    (ha : KatzArgs G fill iso (.inl 1) none) {sum : List ℚ → ℚ} (hsum : RoundsSums sum)
    (hi : FkInput G IsDouble (rnd64 (1 / 10)) (rnd64 (1 / 10 ^ 6)) iso (.inl 1) none)
    (hw : ∀ u, G.Node u → sumOver G.nodes (fun v => (G.weight? u v).getD 0) ≤ 9)
    (hn : G.nodes.length ≤ 2 ^ 22) (sqrt : ℚ → ℚ) (normalized : Bool) :
    ∃ r, Model.Fk.katzCentrality (binary64 sum) fill sqrt G iso (rnd64 (1 / 10)) (.inl 1) 1000 (rnd64 (1 / 10 ^ 6)) none
      normalized = .ok (some r) := by
  have hN : (G.nodes.length : ℚ) ≤ 2 ^ 22 := by exact_mod_cast hn
  have hN1 : (1 : ℚ) ≤ G.nodes.length := by exact_mod_cast List.length_pos_iff.2 ha.nonempty
  have heta : eta64 ≤ 1 / 2 ^ 174 := by
    refine le_trans (le_mul_of_one_le_left eta64_nonneg ?_) (eta64_le le_rfl)
    have := one_le_maxWeight64
    linarith
  have er : ∀ q, |rnd64 q - q| ≤ u64 * |q| + eta64 := B64.rnd_err
  have ea := abs_le.1 (er (1 / 10))
  have et := abs_le.1 (er (1 / 10 ^ 6))
  rw [u64_eq, abs_of_nonneg (by norm_num)] at ea et
  have hal : 0 ≤ rnd64 (1 / 10) := hi.alpha.2
  have ha1 : rnd64 (1 / 10) ≤ 101 / 1000 := by
    have : (1 : ℚ) / 2 ^ 174 ≤ 1 / 10 ^ 9 := by norm_num
    linarith [ea.2]
  have ht1 : 99 / 10 ^ 8 ≤ rnd64 (1 / 10 ^ 6) := by
    have : (1 : ℚ) / 2 ^ 174 ≤ 1 / 10 ^ 12 := by norm_num
    linarith [et.1]
  clear ea et er
  have hbs : sumOver G.nodes (betaOf (.inl (1 : ℚ)) : K → ℚ) = G.nodes.length := by
    simp [sumOver, betaOf]
  have hss : sumOver G.nodes (katzStart (none : Option (List (K × ℚ)))) = 0 := by
    simp [sumOver, katzStart]
  have hT : katzTotal G (91 / 100) (.inl 1) none = 200 / 9 * G.nodes.length + 1 := by
    unfold katzTotal
    rw [hbs, hss]; ring
  have hM : (2 : ℚ) ^ 28 ≤ maxWeight64 := by
    unfold maxWeight64
    calc (2 : ℚ) ^ 28 = 2 ^ (28 : ℤ) := by norm_num
      _ ≤ 2 ^ (900 : ℤ) := zpow_le_zpow_right₀ (by norm_num) (by norm_num)
  have hΔ : l1 G.nodes (katzStart (none : Option (List (K × ℚ))))
      (katzMap G.nodes G.weight? (rnd64 (1 / 10)) (betaOf (.inl (1 : ℚ))) (katzStart none)) = G.nodes.length := by
    simp [l1, katzMap, inSum, katzStart, betaOf, sumOver]
  have hA : rnd64 (1 / 10) ≤ maxWeight64 := by
    refine le_trans ha1 (le_trans ?_ one_le_maxWeight64)
    norm_num
  have hT' : katzTotal G (91 / 100) (.inl 1) none ≤ maxWeight64 := by
    rw [hT]
    refine le_trans ?_ hM
    linarith
  have hq1 : ((G.nodes.length : ℚ) + 3) / 2 ^ 50 ≤ 1 - 91 / 100 := by linarith
  have hn' : G.nodes.length ≤ 2 ^ 40 := le_trans hn (by norm_num)
  refine double_katz_converges h ha (q := 91 / 100) ?_ hsum hi hA hT' hn' hq1 sqrt normalized (k := 300)
    (by norm_num) ?_
  · intro u hu
    have e : sumOver G.nodes (fun v => |(G.weight? u v).getD 0|) = sumOver G.nodes (fun v => (G.weight? u v).getD 0) := by
      unfold sumOver
      refine congrArg List.sum (List.map_congr_left fun v _ => abs_of_nonneg ?_)
      cases hwv : G.weight? u v with
      | none => simp
      | some a =>
        have := (hi.weights u v a ((weight?_eq_some h).1 hwv)).2
        simpa using this
    rw [e, abs_of_nonneg hal]
    calc _ ≤ (101 / 1000 : ℚ) * 9 := mul_le_mul ha1 (hw u hu) (e ▸ sumOver_nonneg fun _ _ => abs_nonneg _) (by norm_num)
      _ ≤ 91 / 100 := by norm_num
  · rw [hΔ, hT]
    generalize rnd64 (1 / 10 ^ 6) = tol at *
    generalize (G.nodes.length : ℚ) = N at *
    have m1 : N * (99 / 10 ^ 8) ≤ N * tol := mul_le_mul_of_nonneg_left ht1 (by linarith)
    have p : (91 / 100 : ℚ) ^ 300 ≤ 1 / 10 ^ 12 := by
      have p0 : (91 / 100 : ℚ) ^ 100 ≤ 1 / 10 ^ 4 := by norm_num
      calc (91 / 100 : ℚ) ^ 300 = ((91 / 100) ^ 100) ^ 3 := by rw [← pow_mul]
        _ ≤ (1 / 10 ^ 4) ^ 3 := pow_le_pow_left₀ (by norm_num) p0 3
        _ = 1 / 10 ^ 12 := by norm_num
    have p1 : (91 / 100 : ℚ) ^ 300 * N ≤ 1 / 10 ^ 12 * N := mul_le_mul_of_nonneg_right p (by linarith)
    generalize (91 / 100 : ℚ) ^ 300 * N = P at *
    have c1 : 1 + (N + 3) / 2 ^ 52 ≤ 101 / 100 := by linarith
    have c2 : (N + 5) / 2 ^ 52 * (200 / 9 * N + 1) ≤ 1 / 2 ^ 29 * (210 / 9 * N) := by
      refine mul_le_mul (by linarith) (by linarith) (by linarith) (by norm_num)
    have c3 : 2 * (P + (N + 5) / 2 ^ 52 * (200 / 9 * N + 1)) / (1 - 91 / 100) ≤
        98 / 10 ^ 8 / (101 / 100) * N := by
      generalize (N + 5) / 2 ^ 52 * (200 / 9 * N + 1) = Q at *
      rw [div_le_iff₀ (by norm_num)]
      linarith
    have c0 : 0 ≤ 98 / 10 ^ 8 / (101 / 100) * N := mul_nonneg (by norm_num) (by linarith)
    have c4 := mul_le_mul_of_nonneg_right c1 c0
    have c5 := mul_le_mul_of_nonneg_left c3 (show 0 ≤ 1 + (N + 3) / 2 ^ 52 from by
      have : 0 ≤ (N + 3) / 2 ^ 52 := div_nonneg (by linarith) (by norm_num)
      linarith)
    linarith

/-! ### the hypotheses are met -/

theorem katzG_double : FkInput katzG IsDouble (rnd64 (1 / 10)) (rnd64 (1 / 10 ^ 6)) none (.inl 1) none where
  alpha := ⟨B64.rnd_double _, B64.rnd_nonneg (by norm_num)⟩
  tol := ⟨B64.rnd_double _, B64.rnd_nonneg (by norm_num)⟩
  weights := by
    rintro u v a ⟨i, j, -, -, hA⟩
    have key : ∀ i j, (katzG.A i j = none ∨ katzG.A i j = some 1) := by decide +kernel
    rcases key i j with h | h <;> rw [h] at hA <;> cases hA
    exact ⟨⟨1, 0, by norm_num, by norm_num, by norm_num⟩, by norm_num⟩
  iso := by rintro c hc; cases hc
  number := by
    rintro c hc
    cases hc
    exact ⟨⟨1, 0, by norm_num, by norm_num, by norm_num⟩, by norm_num⟩
  dict := by rintro l hl; cases hl
  nstart := by rintro l hl; cases hl

theorem prSum_rounds : RoundsSums prSum := by
  intro l hl
  have := roundsSums_exist l hl
  cases l <;> exact this

theorem katzG_wf : katzG.WF := ⟨by decide, by decide⟩

theorem katzG_args : KatzArgs katzG true none (.inl 1) none := ⟨rfl, by decide, by simp, by simp, by simp, .inl rfl⟩

example : ∃ r, Model.Fk.katzCentrality (binary64 prSum) true id katzG none (rnd64 (1 / 10)) (.inl 1) 1000
      (rnd64 (1 / 10 ^ 6)) none true = .ok (some r) :=
  double_katz_defaults katzG_wf katzG_args prSum_rounds katzG_double (by
    have : ∀ u ∈ [0, 1], sumOver katzG.nodes (fun v => (katzG.weight? u v).getD 0) ≤ 9 := by decide +kernel
    exact this) (by decide) id true

/-- and the remaining hypotheses of `double_katz`, with `q = 1/5` -/
example : KatzDamped katzG (rnd64 (1 / 10)) (1 / 5) ∧ katzTotal katzG (1 / 5) (.inl 1) none ≤ 2 ^ 3 ∧
    ((katzG.nodes.length : ℚ) + 3) / 2 ^ 50 ≤ 1 - 1 / 5 := by
  have key : ∀ u ∈ [0, 1], |rnd64 (1 / 10)| * sumOver katzG.nodes (fun v => |(katzG.weight? u v).getD 0|) ≤ 1 / 5 := by
    decide +kernel
  exact ⟨key, by decide +kernel, by decide +kernel⟩

/-- a run with the default tolerance: the values are those of CPython floats, `1.0` and `1.1` (`1.0 * 0.1 + 1.0`) -/
example : (match Model.Fk.katzCentrality (binary64 prSum) true id katzG none (rnd64 (1 / 10)) (.inl 1) 1000
      (rnd64 (1 / 10 ^ 6)) none false with
    | .ok (some r) => decide (katzG.view r 0 = some 1 ∧ katzG.view r 1 = some (rnd64 (11 / 10)))
    | _ => false) = true := by decide +kernel

end Props
