import Verif.Props.FloatKatz64
import Verif.Props.FloatEigen64

/-!
# C129 `katz_centrality(normalized=True)` with rounding: a unit vector
-/

open GB Spec Model Model.Graph Proofs Proofs.Power Proofs.Fr

namespace Props

section
variable {K F : Type} [Field F] [LinearOrder F] [IsStrictOrderedRing F] [DecidableEq K] {G : Graph K F}

/-- **C129.** In rounded arithmetic, with a square root accurate to one unit in the last place, `katz_centrality`
(normalized) gives every node a nonnegative number, and the squares of the values sum to 1 up to rounding, however many
passes were made, if the total of `beta` is at least twice the rounding error of a pass. -/
theorem float_katz_unit (h : G.WF) {fill : Bool} {iso : Option F} {beta : F ⊕ List (K × F)}
    {nstart : Option (List (K × F))} (ha : KatzArgs G fill iso beta nstart) {alpha q B : F}
    (hq : KatzDamped G alpha q) {o : Arith F} {Rp : F → Prop} {u η tol : F} (R : Rounded o Rp u η)
    (hi : FkInput G Rp alpha tol iso beta nstart) (hB : KatzBound G u η alpha q B beta nstart)
    {sqrt : F → F} (Q : SqrtAcc Rp u sqrt) (maxIter : Int) (hb0 : 0 < sumOver G.nodes (betaOf beta))
    (hb : 2 * katzError u η alpha q (sumOver G.nodes (betaOf beta)) B G.nodes.length ≤ sumOver G.nodes (betaOf beta))
    (hη : 512 * (G.nodes.length ^ 2 * η) ≤ sumOver G.nodes (betaOf beta) ^ 2)
    (hg9 : growth u ^ (G.nodes.length + 9) ≤ 3 / 2) (ht : η * (1 + 2 * B) * (5 * G.nodes.length + 18) ≤ 1 / 8) :
    ∀ r, Model.Fk.katzCentrality o fill sqrt G iso alpha beta maxIter tol nstart true = .ok r → ∃ r', r = some r' ∧
      (∀ z, G.Node z → ∃ y, G.view r' z = some y ∧ 0 ≤ y) ∧
      |sumOver G.nodes (fun v => atNode G r' v ^ 2) - 1| ≤ (growth u ^ (G.nodes.length + 9) - 1) +
        (η * (1 + 2 * B) * (5 * G.nodes.length + 18) +
          96 * (G.nodes.length ^ 2 * η) / sumOver G.nodes (betaOf beta) ^ 2) := by
  intro r hr
  obtain ⟨v, hok, -, -, hv⟩ := fk_iterates h ha hq R hi hB sqrt maxIter true
  obtain ⟨k, -, rfl, -⟩ := hok _ hr
  rw [if_pos rfl]
  have hlen : G.nodes.length = G.n := nodes_length h
  have hn0 : 0 < G.n := by rw [← hlen]; exact List.length_pos_iff.2 ha.nonempty
  have hnF : (0 : F) < G.n := by exact_mod_cast hn0
  have hl := (hv k).2.2.2
  have hgood := (hv (k + 1)).1
  have hBk := (hv (k + 1)).2.1
  have hdense := (hv k).2.2.1
  rw [atNode_sum h] at hBk
  have hbm : sumOver G.nodes (betaOf beta) ≤
      sumOver G.nodes (katzMap G.nodes G.weight? alpha (betaOf beta) (atNode G (v k))) := by
    rw [sumOver_nodes h, sumOver_nodes h]
    refine Finset.sum_le_sum fun i _ => ?_
    unfold katzMap inSum
    refine le_add_of_nonneg_left (mul_nonneg hi.alpha.2 (sumOver_nonneg fun w _ => mul_nonneg (good_atNode (hv k).1 w) ?_))
    cases hw : G.weight? w (keyFn h i) with
    | none => simp
    | some a => simpa using (hi.weights _ _ a ((weight?_eq_some h).1 hw)).2
  have hS1 : sumOver G.nodes (betaOf beta) / 2 ≤ ∑ i, (v (k + 1) i).getD 0 := by
    have e1 : |sumOver G.nodes (atNode G (v (k + 1))) -
        sumOver G.nodes (katzMap G.nodes G.weight? alpha (betaOf beta) (atNode G (v k)))| ≤
        katzError u η alpha q (sumOver G.nodes (betaOf beta)) B G.nodes.length := by
      refine le_trans ?_ hl
      unfold l1
      rw [sumOver_nodes h, sumOver_nodes h, sumOver_nodes h, ← Finset.sum_sub_distrib]
      exact Finset.abs_sum_le_sum_abs _ _
    have e2 := (abs_le.1 e1).1
    rw [atNode_sum h] at e2
    linarith
  rw [hlen] at hb hη hg9 ht ⊢
  clear hl hbm
  set b := sumOver G.nodes (betaOf beta) with hbdef
  clear hbdef
  generalize v (k + 1) = x at hgood hBk hdense hS1 ⊢
  have hx0 : ∀ i, 0 ≤ (x i).getD 0 := fun i => by
    cases hi' : x i with
    | none => simp
    | some a => simpa using (hgood i a hi').2
  have hxB : ∀ i, (x i).getD 0 ≤ B := fun i =>
    (Finset.single_le_sum (fun j _ => hx0 j) (Finset.mem_univ i)).trans hBk
  have hB0 : 0 ≤ B := (hx0 ⟨0, hn0⟩).trans (hxB ⟨0, hn0⟩)
  have hcs : (∑ i, (x i).getD 0) ^ 2 ≤ G.n * ∑ i, (x i).getD 0 ^ 2 := by
    have := sq_sum_le_card_mul_sum_sq (s := (Finset.univ : Finset (Fin G.n))) (f := fun i => (x i).getD 0)
    simpa using this
  have hc : b ^ 2 / (4 * G.n) ≤ ∑ i, (x i).getD 0 ^ 2 := by
    rw [div_le_iff₀ (by positivity)]
    have : (b / 2) ^ 2 ≤ (∑ i, (x i).getD 0) ^ 2 := pow_le_pow_left₀ (by linarith) hS1 2
    have e : (b / 2) ^ 2 = b ^ 2 / 4 := by ring
    rw [e] at this
    linarith
  have he := R.eta0
  have hb2 : 0 < b ^ 2 := by positivity
  obtain ⟨y1, y2⟩ := normalizeL2_near R Q hgood (Z := B) hB0 hxB (c := b ^ 2 / (4 * G.n)) (by positivity) hc hg9
    (ε := 8 * (G.n ^ 2 * η) / b ^ 2) (by positivity)
    (by
      have : 8 * (G.n ^ 2 * η) / b ^ 2 * (b ^ 2 / (4 * G.n)) = 2 * (G.n * η) := by field_simp; ring
      rw [this])
    (by
      rw [div_le_iff₀ hb2]
      linarith)
    ht
  refine ⟨_, rfl, fun z hz => ?_, ?_⟩
  · obtain ⟨i, rfl⟩ := exists_keyFn h hz
    rw [view_keyFn]
    obtain ⟨a, hxa⟩ := Option.isSome_iff_exists.1 (hdense i)
    have hs : ∃ y, Model.Fk.normalizeL2 o sqrt x i = some y := by
      unfold Model.Fk.normalizeL2
      split
      · exact ⟨a, hxa⟩
      · exact ⟨_, by rw [vapply, hxa]; rfl⟩
    obtain ⟨y, hy⟩ := hs
    exact ⟨y, hy, (y1 i y hy).2⟩
  · rw [sumOver_nodes h]
    simp only [atNode_keyFn h]
    refine y2.trans (le_of_eq ?_)
    ring

end

variable {K : Type} [DecidableEq K] {G : Graph K ℚ}

/-- **C129.** `katz_centrality` (normalized) in IEEE 754 double precision with any order of summation and any square root
accurate to one unit in the last place: every node gets a nonnegative number and the squares of the values sum to 1
within `(N + 10) * 2^-52`, if the total of `beta` is at least `(N + 4) * 2^-51` of the bound `T` on the totals. -/
theorem double_katz_unit (h : G.WF) {fill : Bool} {iso : Option ℚ} {beta : ℚ ⊕ List (K × ℚ)}
    {nstart : Option (List (K × ℚ))} (ha : KatzArgs G fill iso beta nstart) {alpha q tol : ℚ}
    (hq : KatzDamped G alpha q) {sum : List ℚ → ℚ} (hsum : RoundsSums sum)
    (hi : FkInput G IsDouble alpha tol iso beta nstart)
    (hA : alpha ≤ maxWeight64) (hT : katzTotal G q beta nstart ≤ maxWeight64)
    (hn : G.nodes.length ≤ 2 ^ 40) (he : (G.nodes.length + 3) / 2 ^ 50 ≤ 1 - q)
    (hb : (G.nodes.length + 4) / 2 ^ 51 * katzTotal G q beta nstart ≤ sumOver G.nodes (betaOf beta))
    {sqrt : ℚ → ℚ} (Q : SqrtAcc B64.Mult u64 sqrt) (maxIter : Int) :
    ∀ r, Model.Fk.katzCentrality (binary64 sum) fill sqrt G iso alpha beta maxIter tol nstart true = .ok r →
      ∃ r', r = some r' ∧ (∀ z, G.Node z → ∃ y, G.view r' z = some y ∧ 0 ≤ y) ∧
      |sumOver G.nodes (fun v => atNode G r' v ^ 2) - 1| ≤ (G.nodes.length + 10) / 2 ^ 52 := by
  have R : Rounded (binary64 sum) B64.Mult u64 eta64 := B64.rounded sum fun l hl _ => hsum l hl
  have hi' := hi.mono fun q hq => B64.IsDouble.mult hq
  obtain ⟨hq0, h1, hB1, hB, hE⟩ := katz64 h ha hq hi' hA hT hn he
  have hN0 : (0 : ℚ) ≤ G.nodes.length := Nat.cast_nonneg _
  have hN : (G.nodes.length : ℚ) ≤ 2 ^ 40 := by exact_mod_cast hn
  have hη := eta64_nonneg
  have e1 := eta64_le hT
  rw [add_mul, one_mul] at e1
  have w0 : 0 ≤ katzTotal G q beta nstart * eta64 := mul_nonneg (by linarith) hη
  have hη1 : eta64 ≤ 1 / 2 ^ 174 := by linarith
  have b0 : (G.nodes.length + 4) / 2 ^ 51 ≤ sumOver G.nodes (betaOf beta) := by
    refine le_trans ?_ hb
    exact le_mul_of_one_le_right (div_nonneg (by linarith) (by norm_num)) hB1
  have bpos : 0 < sumOver G.nodes (betaOf beta) := lt_of_lt_of_le (div_pos (by linarith) (by norm_num)) b0
  have g : growth u64 ^ (G.nodes.length + 9) ≤ 1 + (G.nodes.length + 9) / 2 ^ 52 := by
    have := growth_pow_le (u := u64) (by rw [u64_eq]; norm_num) (by rw [u64_eq]; norm_num) (G.nodes.length + 9) (by
      rw [u64_eq]; push_cast; linarith)
    refine this.trans (le_of_eq ?_)
    rw [u64_eq]; push_cast; ring
  have bsq : (G.nodes.length : ℚ) ^ 2 / 2 ^ 102 ≤ sumOver G.nodes (betaOf beta) ^ 2 := by
    calc (G.nodes.length : ℚ) ^ 2 / 2 ^ 102 = (G.nodes.length / 2 ^ 51) ^ 2 := by ring
      _ ≤ _ := pow_le_pow_left₀ (div_nonneg hN0 (by norm_num)) (le_trans (div_le_div_of_nonneg_right (by linarith) (by norm_num)) b0) 2
  have sq0 : (0 : ℚ) ≤ G.nodes.length ^ 2 := sq_nonneg _
  have nn : (G.nodes.length : ℚ) ^ 2 * eta64 ≤ G.nodes.length ^ 2 * (1 / 2 ^ 174) := mul_le_mul_of_nonneg_left hη1 sq0
  have w : eta64 * (1 + 2 * katzTotal G q beta nstart) * (5 * G.nodes.length + 18) ≤ 1 / 2 ^ 124 := by
    have e : eta64 * (1 + 2 * katzTotal G q beta nstart) = eta64 + 2 * (katzTotal G q beta nstart * eta64) := by ring
    rw [e]
    exact (mul_le_mul (by linarith : eta64 + 2 * (katzTotal G q beta nstart * eta64) ≤ 2 * (1 / 2 ^ 174))
      (by linarith : 5 * (G.nodes.length : ℚ) + 18 ≤ 2 ^ 43) (by linarith) (by norm_num)).trans (by norm_num)
  intro r hr
  obtain ⟨r', h2, h3, h4⟩ := float_katz_unit h ha hq R hi' hB Q maxIter bpos
    (by
      have : 2 * ((G.nodes.length + 4) / 2 ^ 52 * katzTotal G q beta nstart) =
        (G.nodes.length + 4) / 2 ^ 51 * katzTotal G q beta nstart := by ring
      linarith)
    (by linarith) (by linarith) (w.trans (by norm_num)) r hr
  refine ⟨r', h2, h3, h4.trans ?_⟩
  have t : 96 * ((G.nodes.length : ℚ) ^ 2 * eta64) / sumOver G.nodes (betaOf beta) ^ 2 ≤ 1 / 2 ^ 60 := by
    rw [div_le_iff₀ (pow_pos bpos 2)]
    linarith
  linarith

/-- **C129.** With the default `alpha=0.1`, `beta=1.0`, `max_iter=1000`, `tol=1e-6`, `normalized=True` and no `nstart`,
`katz_centrality` in double precision returns, on a graph with at most `2^22` nodes whose nonnegative weights total at
most 9 out of any node, a nonnegative number for every node, whose squares sum to 1 within `(N + 10) * 2^-52`. -/
theorem double_katz_unit_defaults (h : G.WF) {fill : Bool} {iso : Option ℚ}
    (ha : KatzArgs G fill iso (.inl 1) none) {sum : List ℚ → ℚ} (hsum : RoundsSums sum)
    (hi : FkInput G IsDouble (rnd64 (1 / 10)) (rnd64 (1 / 10 ^ 6)) iso (.inl 1) none)
    (hw : ∀ u, G.Node u → sumOver G.nodes (fun v => (G.weight? u v).getD 0) ≤ 9)
    (hn : G.nodes.length ≤ 2 ^ 22) {sqrt : ℚ → ℚ} (Q : SqrtAcc B64.Mult u64 sqrt) :
    ∃ r, Model.Fk.katzCentrality (binary64 sum) fill sqrt G iso (rnd64 (1 / 10)) (.inl 1) 1000 (rnd64 (1 / 10 ^ 6)) none
        true = .ok (some r) ∧
      (∀ z, G.Node z → ∃ y, G.view r z = some y ∧ 0 ≤ y) ∧
      |sumOver G.nodes (fun v => atNode G r v ^ 2) - 1| ≤ (G.nodes.length + 10) / 2 ^ 52 := by
  obtain ⟨r, hr⟩ := double_katz_defaults h ha hsum hi hw hn sqrt true
  have hN : (G.nodes.length : ℚ) ≤ 2 ^ 22 := by exact_mod_cast hn
  have hN1 : (1 : ℚ) ≤ G.nodes.length := by exact_mod_cast List.length_pos_iff.2 ha.nonempty
  have hal : 0 ≤ rnd64 (1 / 10) := hi.alpha.2
  have ha1 : rnd64 (1 / 10) ≤ 101 / 1000 := by decide +kernel
  have hbs : sumOver G.nodes (betaOf (.inl (1 : ℚ)) : K → ℚ) = G.nodes.length := by
    simp [sumOver, betaOf]
  have hss : sumOver G.nodes (katzStart (none : Option (List (K × ℚ)))) = 0 := by
    simp [sumOver, katzStart]
  have hT : katzTotal G (91 / 100) (.inl 1) none = 200 / 9 * G.nodes.length + 1 := by
    unfold katzTotal
    rw [hbs, hss]; ring
  have hM : (2 : ℚ) ^ 28 ≤ maxWeight64 := by
    unfold maxWeight64
    calc (2 : ℚ) ^ 28 = 2 ^ (28 : ℤ) := by norm_num
      _ ≤ 2 ^ (900 : ℤ) := zpow_le_zpow_right₀ (by norm_num) (by norm_num)
  have hd : KatzDamped G (rnd64 (1 / 10)) (91 / 100) := by
    intro u hu
    have e : sumOver G.nodes (fun v => |(G.weight? u v).getD 0|) = sumOver G.nodes (fun v => (G.weight? u v).getD 0) := by
      unfold sumOver
      refine congrArg List.sum (List.map_congr_left fun v _ => abs_of_nonneg ?_)
      cases hwv : G.weight? u v with
      | none => simp
      | some a =>
        have := (hi.weights u v a ((weight?_eq_some h).1 hwv)).2
        simpa using this
    rw [e, abs_of_nonneg hal]
    calc _ ≤ (101 / 1000 : ℚ) * 9 := mul_le_mul ha1 (hw u hu) (e ▸ sumOver_nonneg fun _ _ => abs_nonneg _) (by norm_num)
      _ ≤ 91 / 100 := by norm_num
  obtain ⟨r', e, a, b⟩ := double_katz_unit h ha hd hsum hi (by linarith) (by rw [hT]; linarith)
    (le_trans hn (by norm_num)) (by linarith)
    (by
      rw [hT, hbs]
      calc ((G.nodes.length : ℚ) + 4) / 2 ^ 51 * (200 / 9 * G.nodes.length + 1) ≤
          1 / 2 ^ 28 * (200 / 9 * G.nodes.length + 1) := mul_le_mul_of_nonneg_right (by linarith) (by linarith)
        _ ≤ _ := by linarith)
    Q 1000 r hr
  cases e
  exact ⟨_, hr, a, b⟩

/-- the hypotheses are met -/
example : ∃ r, Model.Fk.katzCentrality (binary64 prSum) true sqrt64 katzG none (rnd64 (1 / 10)) (.inl 1) 1000
    (rnd64 (1 / 10 ^ 6)) none true = .ok (some r) ∧ |sumOver [0, 1] (fun v => atNode katzG r v ^ 2) - 1| ≤ 12 / 2 ^ 52 := by
  obtain ⟨r, e, -, d⟩ := double_katz_unit_defaults katzG_wf katzG_args prSum_rounds katzG_double (by
    have : ∀ u ∈ [0, 1], sumOver katzG.nodes (fun v => (katzG.weight? u v).getD 0) ≤ 9 := by decide +kernel
    exact this) (by decide) sqrt64_acc
  refine ⟨r, e, ?_⟩
  have hN : katzG.nodes = [0, 1] := by decide
  rw [hN] at d
  refine d.trans (le_of_eq ?_)
  norm_num

end Props
