import Verif.Props.FloatRank64
import Verif.Props.Fixpoint
import Verif.Props.Katz
import Verif.Proofs.FloatKatz

/-!
# C129: `katz_centrality` with rounding

The Katz iteration is a contraction when `alpha` times the weight out of any node is at most `q < 1`; then rounding
errors do not add up over the passes either.
-/

open GB Spec Model Model.Graph Proofs Proofs.Power Proofs.Fr

namespace Props

variable {K F : Type} [Field F] [LinearOrder F] [IsStrictOrderedRing F] [DecidableEq K] {G : Graph K F}

/-- all numbers passed in are nonnegative numbers of the format -/
structure FkInput (G : Graph K F) (Rp : F → Prop) (alpha tol : F) (iso : Option F) (beta : F ⊕ List (K × F))
    (nstart : Option (List (K × F))) : Prop where
  alpha : Rp alpha ∧ 0 ≤ alpha
  tol : Rp tol ∧ 0 ≤ tol
  weights : ∀ u v a, G.WEdge u v a → Rp a ∧ 0 ≤ a
  iso : ∀ c, iso = some c → Rp c ∧ 0 ≤ c
  number : ∀ c, beta = .inl c → Rp c ∧ 0 ≤ c
  dict : ∀ l, beta = .inr l → ∀ k b, (k, b) ∈ l → Rp b ∧ 0 ≤ b
  nstart : ∀ l, nstart = some l → ∀ k b, (k, b) ∈ l → Rp b ∧ 0 ≤ b

/-- the rounding error of one pass (L1) over vectors of total at most `B`, when the total of `beta` is `b` -/
def katzError (u η alpha q b B : F) (n : Nat) : F :=
  (growth u ^ (n + 3) - 1) * (q * B + b) + n * katzTiny u η alpha B n

/-- `B` bounds the total of the start vector and is not exceeded by a pass with its rounding error -/
structure KatzBound (G : Graph K F) (u η alpha q B : F) (beta : F ⊕ List (K × F)) (nstart : Option (List (K × F))) :
    Prop where
  start : sumOver G.nodes (katzStart nstart) ≤ B
  pass : sumOver G.nodes (betaOf beta) + katzError u η alpha q (sumOver G.nodes (betaOf beta)) B G.nodes.length ≤
    (1 - q) * B

omit [LinearOrder F] [IsStrictOrderedRing F] in
theorem atNode_sum (h : G.WF) (v : Vec G.n F) : sumOver G.nodes (atNode G v) = ∑ i, (v i).getD 0 := by
  rw [sumOver_nodes h]; exact Finset.sum_congr rfl fun i _ => atNode_keyFn h v i

omit [DecidableEq K] in
theorem good_atNode [DecidableEq K] {Rp : F → Prop} {v : Vec G.n F} (hv : Good Rp v) (z : K) : 0 ≤ atNode G v z := by
  unfold atNode
  cases hz : G.view v z with
  | none => simp
  | some c =>
    obtain ⟨i, -, hi⟩ := Option.bind_eq_some_iff.1 hz
    simpa using (hv i c hi).2

/-- the weights out of a node, attenuated: the sum of one exact pass -/
theorem katz_sum_le (h : G.WF) {alpha q : F} (ha : 0 ≤ alpha) (hw : ∀ u v a, G.WEdge u v a → 0 ≤ a)
    (hq : KatzDamped G alpha q) (beta : K → F) {x : K → F} (hx : ∀ z, 0 ≤ x z) :
    sumOver G.nodes (katzMap G.nodes G.weight? alpha beta x) ≤ q * sumOver G.nodes x + sumOver G.nodes beta := by
  have hA : ∀ i j, 0 ≤ (G.A i j).getD 0 := by
    intro i j
    cases hij : G.A i j with
    | none => simp
    | some a => simpa using hw _ _ a ⟨i, j, keyFn_at h i, keyFn_at h j, hij⟩
  rw [sumOver_nodes h, sumOver_nodes h, sumOver_nodes h]
  unfold katzMap inSum
  simp only [sumOver_nodes h, weight?_keyFn]
  rw [Finset.sum_add_distrib]
  refine add_le_add ?_ le_rfl
  rw [← Finset.mul_sum, Finset.sum_comm, Finset.mul_sum, Finset.mul_sum]
  refine Finset.sum_le_sum fun i _ => ?_
  rw [← Finset.mul_sum]
  have := hq (keyFn h i) (keyFn_at h i).node
  rw [sumOver_nodes h, abs_of_nonneg ha] at this
  simp only [weight?_keyFn, abs_of_nonneg (hA i _)] at this
  calc alpha * (x (keyFn h i) * ∑ j, (G.A i j).getD 0) = (alpha * ∑ j, (G.A i j).getD 0) * x (keyFn h i) := by ring
    _ ≤ q * x (keyFn h i) := mul_le_mul_of_nonneg_right this (hx _)

theorem betaOf_nonneg {Rp : F → Prop} {alpha tol : F} {iso : Option F} {beta : F ⊕ List (K × F)}
    {nstart : Option (List (K × F))} (hi : FkInput G Rp alpha tol iso beta nstart) (z : K) : 0 ≤ betaOf beta z := by
  cases hb : beta with
  | inl c => exact (hi.number c hb).2
  | inr l => exact valueIn_nonneg (fun k b hm => (hi.dict l hb k b hm).2) z

theorem katzStart_nonneg {Rp : F → Prop} {alpha tol : F} {iso : Option F} {beta : F ⊕ List (K × F)}
    {nstart : Option (List (K × F))} (hi : FkInput G Rp alpha tol iso beta nstart) (z : K) : 0 ≤ katzStart nstart z := by
  cases hb : nstart with
  | none => exact le_rfl
  | some l => exact valueIn_nonneg (fun k b hm => (hi.nstart l hb k b hm).2) z

theorem katzError_nonneg {o : Arith F} {Rp : F → Prop} {u η : F} (R : Rounded o Rp u η) {alpha q b B : F}
    (ha : 0 ≤ alpha) (hq : 0 ≤ q) (hb : 0 ≤ b) (hB : 0 ≤ B) (n : Nat) : 0 ≤ katzError u η alpha q b B n := by
  have hg := one_le_growth R
  have h1 : 1 ≤ growth u ^ (n + 3) := one_le_pow₀ hg
  have h2 : 0 ≤ growth u ^ (n + 2) := pow_nonneg (by linarith) _
  have := R.eta0
  unfold katzError katzTiny
  have a : 0 ≤ (growth u ^ (n + 3) - 1) * (q * B + b) := mul_nonneg (by linarith) (by positivity)
  have c : 0 ≤ (n : F) * (growth u ^ (n + 2) * (η * (1 + n * alpha + B))) := by positivity
  linarith

/-- the loop of `katz_centrality` and its meaning -/
theorem fk_loop (h : G.WF) {fill : Bool} {iso : Option F} {beta : F ⊕ List (K × F)}
    {nstart : Option (List (K × F))} (ha : KatzArgs G fill iso beta nstart) {alpha q B : F}
    (hq : KatzDamped G alpha q) {o : Arith F} {Rp : F → Prop} {u η tol : F} (R : Rounded o Rp u η)
    (hi : FkInput G Rp alpha tol iso beta nstart) (sqrt : F → F) (maxIter : Int) (normalized : Bool) :
    ∃ (step : Vec G.n F → Vec G.n F) (x : Vec G.n F) (Dense : Vec G.n F → Prop),
      Model.Fk.katzCentrality o fill sqrt G iso alpha beta maxIter tol nstart normalized =
        (powerIter step (Model.Fr.converged o tol) maxIter.toNat x).map
          (fun v => some (if normalized then Model.Fk.normalizeL2 o sqrt v else v)) ∧
      Good Rp x ∧ Dense x ∧ (∀ z, G.Node z → atNode G x z = katzStart nstart z) ∧
      ∀ v, Good Rp v → Dense v → sumOver G.nodes (atNode G v) ≤ B → Good Rp (step v) ∧ Dense (step v) ∧
        (∀ i, (step v i).isSome) ∧
        l1 G.nodes (atNode G (step v)) (katzMap G.nodes G.weight? alpha (betaOf beta) (atNode G v)) ≤
          katzError u η alpha q (sumOver G.nodes (betaOf beta)) B G.nodes.length := by
  have hlen : G.nodes.length = G.n := nodes_length h
  have hnn : G.n ≠ 0 := by
    rw [← hlen]; exact fun e => ha.nonempty (List.length_eq_zero_iff.1 e)
  have hg := one_le_growth R
  obtain ⟨xv, hx1, hx2, hx3⟩ := fr_dict h (d := nstart) (Rp := Rp) ha.nstart_ok
    (fun l hl k b hm => (hi.nstart l hl k b hm).2) (fun l hl k b hm => (hi.nstart l hl k b hm).1)
  have hWE : ∀ i j a, G.A i j = some a → G.WEdge (keyFn h i) (keyFn h j) a := fun i j a hA =>
    ⟨i, j, keyFn_at h i, keyFn_at h j, hA⟩
  have hiso : ∀ c, iso = some c → ∀ i j a, G.A i j = some a → a = c :=
    fun c hc i j a hA => ha.iso_ok c hc _ _ a (hWE i j a hA)
  have hAg : ∀ i j a, G.A i j = some a → Rp a ∧ 0 ≤ a := fun i j a hA => hi.weights _ _ a (hWE i j a hA)
  have hstart : Good Rp (Model.Fk.katzInit o xv) ∧
      (∀ i, ((Model.Fk.katzInit o xv) i).getD 0 = katzStart nstart (keyFn h i)) ∧
      (nstart = none → ∀ i, ((Model.Fk.katzInit o xv) i).isSome = true) := by
    cases hc : nstart with
    | none =>
      rw [hx2 hc]
      refine ⟨?_, fun i => ?_, fun _ i => rfl⟩
      · intro i a hia
        simp only [Model.Fk.katzInit, Option.some.injEq] at hia
        rw [← hia]
        exact ⟨(R.nat 0).1, (R.nat 0).2.1⟩
      · simp [Model.Fk.katzInit, R.zero, katzStart]
    | some l =>
      obtain ⟨v', rfl, hr, hgd, -⟩ := hx3 l hc
      exact ⟨hgd, hr, by simp⟩
  -- `beta`
  obtain ⟨b, hb1, hb2, hb3, hb4⟩ : ∃ b, katzBeta G beta = .ok b ∧ katzCheck b = .ok () ∧
      ((∃ c, b = .inl c ∧ ∀ j, betaOf beta (keyFn h j) = c) ∨
        ∃ v, b = .inr v ∧ ∀ j, v j = some (betaOf beta (keyFn h j))) ∧
      ((∃ l, beta = .inr l) → ∃ v, b = .inr v) := by
    cases hbc : beta with
    | inl c => exact ⟨.inl c, rfl, rfl, .inl ⟨c, rfl, fun _ => rfl⟩, by simp⟩
    | inr l =>
      obtain ⟨hvalid, htot⟩ := ha.beta_ok l hbc
      obtain ⟨v, hv, hm⟩ := dictToVector_ok h hvalid.1 hvalid.2.1 hvalid.2.2
      obtain ⟨v', hv', hr⟩ := dict_rep h hvalid
      rw [hv] at hv'; cases hv'
      have hsome : ∀ i, (v i).isSome := by
        intro i
        obtain ⟨b, hb⟩ := htot _ (keyFn_at h i).node
        rw [(hm _ i b (keyFn_at h i)).2 hb]; rfl
      refine ⟨.inr v, ?_, ?_, .inr ⟨v, rfl, fun j => ?_⟩, fun _ => ⟨v, rfl⟩⟩
      · show (match dictToVector G l with
          | .ok v => .ok (.inr v)
          | .error e => .error (if e = .valueError then .algorithm else e) :
          Except Err (F ⊕ Vec G.n F)) = _
        rw [hv]
      · unfold katzCheck
        dsimp only
        rw [if_neg]
        rw [not_not]
        have : ¬ nvals v < G.n := by
          rw [nvals_lt]; rintro ⟨i, hi⟩
          have := hsome i; rw [hi] at this; cases this
        have := nvals_le v
        omega
      · have e : (v j).getD 0 = valueIn l (keyFn h j) := hr j
        obtain ⟨a, ha'⟩ := Option.isSome_iff_exists.1 (hsome j)
        rw [ha'] at e ⊢
        exact congrArg some e
  have hbv : ∀ j, Rp (betaOf beta (keyFn h j)) ∧ 0 ≤ betaOf beta (keyFn h j) := by
    intro j
    refine ⟨?_, betaOf_nonneg hi _⟩
    cases hbc : beta with
    | inl c => exact (hi.number c hbc).1
    | inr l =>
      obtain ⟨hvalid, htot⟩ := ha.beta_ok l hbc
      obtain ⟨b', hb'⟩ := htot _ (keyFn_at h j).node
      have : valueIn l (keyFn h j) = b' := by
        obtain ⟨v, hv, hm⟩ := dictToVector_ok h hvalid.1 hvalid.2.1 hvalid.2.2
        obtain ⟨v', hv', hr⟩ := dict_rep h hvalid
        rw [hv] at hv'; cases hv'
        have e : (v j).getD 0 = valueIn l (keyFn h j) := hr j
        rw [← e, (hm _ j b' (keyFn_at h j)).2 hb']
        rfl
      show Rp (valueIn l (keyFn h j))
      rw [this]
      exact (hi.dict l hbc _ _ hb').1
  let Dense : Vec G.n F → Prop := fun v => fill = true ∨ (∃ l, beta = .inr l) ∨
    ((∀ i, (v i).isSome = true) ∧ ∀ j, ∃ i, (G.A i j).isSome = true)
  have hdense0 : Dense (Model.Fk.katzInit o xv) := by
    rcases ha.fill_ok with hf | hl | ⟨hns, hin⟩
    · exact .inl hf
    · exact .inr (.inl hl)
    · refine .inr (.inr ⟨hstart.2.2 hns, fun j => ?_⟩)
      obtain ⟨w, hw, hedge⟩ := hin _ (keyFn_at h j).node
      obtain ⟨i, rfl⟩ := exists_keyFn h hw
      exact ⟨i, (edge_keyFn h i j).1 hedge⟩
  refine ⟨Model.Fk.katzStep o fill G.A iso alpha b, Model.Fk.katzInit o xv, Dense, ?_, hstart.1, hdense0, ?_, ?_⟩
  · unfold Model.Fk.katzCentrality
    rw [ha.simple, if_neg (by simp), if_neg hnn, hx1]
    show (katzBeta G beta >>= fun b => _) = _
    rw [hb1]
    show (Model.Fk.katzV o fill sqrt G.A iso alpha b maxIter tol xv normalized).map some = _
    unfold Model.Fk.katzV
    rw [hb2]
    show (Except.bind (powerIter (Model.Fk.katzStep o fill G.A iso alpha b) (Model.Fr.converged o tol) maxIter.toNat
      (Model.Fk.katzInit o xv)) fun x => .ok (if normalized then Model.Fk.normalizeL2 o sqrt x else x)).map some = _
    cases powerIter (Model.Fk.katzStep o fill G.A iso alpha b) (Model.Fr.converged o tol) maxIter.toNat
      (Model.Fk.katzInit o xv) <;> rfl
  · intro z hz
    obtain ⟨i, rfl⟩ := exists_keyFn h hz
    rw [atNode_keyFn h]; exact hstart.2.1 i
  · intro v hv hd hvB
    have hvB' : ∑ i, (v i).getD 0 ≤ B := atNode_sum h v ▸ hvB
    obtain ⟨s1, s2, s3⟩ := katz_step_near R (b := b) hbv hb3 (by
      rcases hd with hf | hl | ⟨d1, d2⟩
      · exact .inl hf
      · exact .inr (.inl (hb4 hl))
      · refine .inr (.inr fun j => ?_)
        obtain ⟨i, hij⟩ := d2 j
        exact ⟨i, d1 i, hij⟩) hAg hiso hi.iso hi.alpha hv hvB'
    refine ⟨s1, ?_, s2, ?_⟩
    · rcases hd with hf | hl | ⟨-, d2⟩
      · exact .inl hf
      · exact .inr (.inl hl)
      · exact .inr (.inr ⟨s2, d2⟩)
    have hv0 := good_atNode (G := G) hv
    have hmap : ∀ j, alpha * (∑ i, (v i).getD 0 * (G.A i j).getD 0) + betaOf beta (keyFn h j) =
        katzMap G.nodes G.weight? alpha (betaOf beta) (atNode G v) (keyFn h j) := by
      intro j
      unfold katzMap inSum
      rw [sumOver_nodes h]
      simp only [atNode_keyFn h, weight?_keyFn]
    have hT0 : ∀ j, 0 ≤ katzMap G.nodes G.weight? alpha (betaOf beta) (atNode G v) (keyFn h j) := by
      intro j
      rw [← hmap]
      refine add_nonneg (mul_nonneg hi.alpha.2 (Finset.sum_nonneg fun i _ => mul_nonneg (hv.val i) ?_)) (hbv j).2
      cases hij : G.A i j with
      | none => simp
      | some a => simpa using (hAg i j a hij).2
    have hTs := katz_sum_le h hi.alpha.2 (fun u v a hw => (hi.weights u v a hw).2) hq (betaOf beta) hv0
    have hq0 : 0 ≤ q := by
      obtain ⟨w, hw⟩ := List.exists_mem_of_ne_nil _ ha.nonempty
      exact (mul_nonneg (abs_nonneg _) (sumOver_nonneg fun _ _ => abs_nonneg _)).trans (hq w hw)
    have hTs' : ∑ j, katzMap G.nodes G.weight? alpha (betaOf beta) (atNode G v) (keyFn h j) ≤
        q * B + sumOver G.nodes (betaOf beta) := by
      rw [← sumOver_nodes h]
      have := mul_le_mul_of_nonneg_left hvB hq0
      linarith
    unfold l1
    rw [sumOver_nodes h]
    have g2 : 1 ≤ growth u ^ (G.n + 3) := one_le_pow₀ hg
    calc _ ≤ ∑ j : Fin G.n, ((growth u ^ (G.n + 3) - 1) *
            katzMap G.nodes G.weight? alpha (betaOf beta) (atNode G v) (keyFn h j) + katzTiny u η alpha B G.n) := by
          refine Finset.sum_le_sum fun j _ => ?_
          rw [atNode_keyFn h, ← hmap]
          exact near_dist hg (by rw [hmap]; exact hT0 j) (s3 j)
      _ = (growth u ^ (G.n + 3) - 1) * ∑ j : Fin G.n, katzMap G.nodes G.weight? alpha (betaOf beta) (atNode G v)
            (keyFn h j) + G.n * katzTiny u η alpha B G.n := by
          rw [Finset.sum_add_distrib, ← Finset.mul_sum]
          simp only [Finset.sum_const, Finset.card_univ, Fintype.card_fin, nsmul_eq_mul]
      _ ≤ katzError u η alpha q (sumOver G.nodes (betaOf beta)) B G.nodes.length := by
          rw [hlen]
          unfold katzError
          have := mul_le_mul_of_nonneg_left hTs' (sub_nonneg.2 g2)
          linarith

/-- the iterates -/
theorem fk_iterates (h : G.WF) {fill : Bool} {iso : Option F} {beta : F ⊕ List (K × F)}
    {nstart : Option (List (K × F))} (ha : KatzArgs G fill iso beta nstart) {alpha q B : F}
    (hq : KatzDamped G alpha q) {o : Arith F} {Rp : F → Prop} {u η tol : F} (R : Rounded o Rp u η)
    (hi : FkInput G Rp alpha tol iso beta nstart) (hB : KatzBound G u η alpha q B beta nstart)
    (sqrt : F → F) (maxIter : Int) (normalized : Bool) :
    ∃ (v : Nat → Vec G.n F),
      (∀ r, Model.Fk.katzCentrality o fill sqrt G iso alpha beta maxIter tol nstart normalized = .ok r →
        ∃ k : Nat, (k : Int) < maxIter ∧
          r = some (if normalized then Model.Fk.normalizeL2 o sqrt (v (k + 1)) else v (k + 1)) ∧
          Model.Fr.converged o tol (v k) (v (k + 1)) = true) ∧
      (∀ e, Model.Fk.katzCentrality o fill sqrt G iso alpha beta maxIter tol nstart normalized = .error e →
        e = .convergence ∧ ∀ k : Nat, (k : Int) < maxIter → Model.Fr.converged o tol (v k) (v (k + 1)) = false) ∧
      (∀ z, G.Node z → atNode G (v 0) z = katzStart nstart z) ∧
      ∀ k, Good Rp (v k) ∧ sumOver G.nodes (atNode G (v k)) ≤ B ∧ (∀ i, (v (k + 1) i).isSome = true) ∧
        l1 G.nodes (atNode G (v (k + 1))) (katzMap G.nodes G.weight? alpha (betaOf beta) (atNode G (v k))) ≤
          katzError u η alpha q (sumOver G.nodes (betaOf beta)) B G.nodes.length := by
  obtain ⟨step, x, Dense, heq, hx, hxd, hxs, hstep⟩ := fk_loop (B := B) h ha hq R hi sqrt maxIter normalized
  set ε := katzError u η alpha q (sumOver G.nodes (betaOf beta)) B G.nodes.length with hε
  have hq0 : 0 ≤ q := by
    obtain ⟨w, hw⟩ := List.exists_mem_of_ne_nil _ ha.nonempty
    exact (mul_nonneg (abs_nonneg _) (sumOver_nonneg fun _ _ => abs_nonneg _)).trans (hq w hw)
  have inv : ∀ k, Good Rp (step^[k] x) ∧ Dense (step^[k] x) ∧ sumOver G.nodes (atNode G (step^[k] x)) ≤ B := by
    intro k
    induction k with
    | zero =>
      refine ⟨hx, hxd, le_trans (le_of_eq ?_) hB.start⟩
      unfold sumOver
      congr 1
      exact List.map_congr_left fun z hz => hxs z hz
    | succ k ih =>
      obtain ⟨i1, i2, i3⟩ := ih
      obtain ⟨s1, s2, -, s3⟩ := hstep _ i1 i2 i3
      rw [Function.iterate_succ_apply']
      refine ⟨s1, s2, ?_⟩
      have e1 : |sumOver G.nodes (atNode G (step (step^[k] x))) -
          sumOver G.nodes (katzMap G.nodes G.weight? alpha (betaOf beta) (atNode G (step^[k] x)))| ≤ ε := by
        refine le_trans ?_ s3
        unfold l1
        rw [sumOver_nodes h, sumOver_nodes h, sumOver_nodes h, ← Finset.sum_sub_distrib]
        exact Finset.abs_sum_le_sum_abs _ _
      have e2 := (abs_le.1 e1).2
      have e3 := katz_sum_le h hi.alpha.2 (fun u v a hw => (hi.weights u v a hw).2) hq (betaOf beta)
        (good_atNode (G := G) i1)
      have e4 := mul_le_mul_of_nonneg_left i3 hq0
      have e5 := hB.pass
      have e6 : (1 - q) * B = B - q * B := by ring
      rw [e6] at e5
      linarith
  refine ⟨fun k => step^[k] x, ?_, ?_, hxs, ?_⟩
  · intro r hr
    rw [heq] at hr
    cases hpi : powerIter step (Model.Fr.converged o tol) maxIter.toNat x with
    | error e => rw [hpi] at hr; cases hr
    | ok w =>
      rw [hpi] at hr; cases hr
      obtain ⟨k, hk, rfl, c1, -⟩ := powerIter_ok.1 hpi
      exact ⟨k, by omega, rfl, c1⟩
  · intro e hr
    rw [heq] at hr
    cases hpi : powerIter step (Model.Fr.converged o tol) maxIter.toNat x with
    | ok w => rw [hpi] at hr; cases hr
    | error e' =>
      rw [hpi] at hr; cases hr
      obtain ⟨a, b⟩ := powerIter_error.1 hpi
      exact ⟨a, fun k hk => b k (by omega)⟩
  · intro k
    obtain ⟨i1, i2, i3⟩ := inv k
    obtain ⟨-, -, s2, s3⟩ := hstep _ i1 i2 i3
    refine ⟨i1, i3, fun i => ?_, ?_⟩
    · show (step^[k + 1] x i).isSome = true
      rw [Function.iterate_succ_apply']; exact s2 i
    · show l1 G.nodes (atNode G (step^[k + 1] x)) _ ≤ ε
      rw [Function.iterate_succ_apply']; exact s3

/-- a pass brings any vector closer to the solution, up to its rounding error -/
theorem fk_pass (h : G.WF) {alpha q : F} (hq : KatzDamped G alpha q) {beta : K → F} {ε : F} {x y z : K → F}
    (hx : KatzSolution G alpha beta x) (hz : l1 G.nodes z (katzMap G.nodes G.weight? alpha beta y) ≤ ε) :
    l1 G.nodes z x ≤ ε + q * l1 G.nodes y x := by
  have t := l1_triangle G.nodes z (katzMap G.nodes G.weight? alpha beta y) x
  have e : l1 G.nodes (katzMap G.nodes G.weight? alpha beta y) x =
      l1 G.nodes (katzMap G.nodes G.weight? alpha beta y) (katzMap G.nodes G.weight? alpha beta x) :=
    l1_congr (fun _ _ => rfl) fun v hv => hx v hv
  have c := katz_contract h hq beta y x
  rw [e] at t
  linarith

/-- **C129.** In rounded arithmetic, `katz_centrality` (not normalized) gives every node a nonnegative number, and the
values are within the tolerance and the rounding error of one pass, over `1 - q`, of the solution of the Katz equation,
however many passes were made.  The only error it raises is PowerIterationFailedConvergence. -/
theorem float_katz_accuracy (h : G.WF) {fill : Bool} {iso : Option F} {beta : F ⊕ List (K × F)}
    {nstart : Option (List (K × F))} (ha : KatzArgs G fill iso beta nstart) {alpha q B : F}
    (hq : KatzDamped G alpha q) (h1 : q < 1) {o : Arith F} {Rp : F → Prop} {u η tol : F} (R : Rounded o Rp u η)
    (hi : FkInput G Rp alpha tol iso beta nstart) (hB : KatzBound G u η alpha q B beta nstart)
    (sqrt : F → F) (maxIter : Int) :
    (∃ x, KatzSolution G alpha (betaOf beta) x ∧
      ∀ r, Model.Fk.katzCentrality o fill sqrt G iso alpha beta maxIter tol nstart false = .ok r → ∃ r', r = some r' ∧
        (∀ z, G.Node z → ∃ y, G.view r' z = some y ∧ 0 ≤ y) ∧
        l1 G.nodes (fun z => (G.view r' z).getD 0) x ≤
          (q * (growth u ^ (G.nodes.length + 1) * (growth u ^ 2 * (G.nodes.length * tol) + η)) +
            katzError u η alpha q (sumOver G.nodes (betaOf beta)) B G.nodes.length) / (1 - q)) ∧
    ∀ normalized e, Model.Fk.katzCentrality o fill sqrt G iso alpha beta maxIter tol nstart normalized = .error e →
      e = .convergence := by
  refine ⟨?_, fun normalized e he => by
    obtain ⟨v, -, herr, -⟩ := fk_iterates h ha hq R hi hB sqrt maxIter normalized
    exact (herr e he).1⟩
  obtain ⟨x, hx, -, -⟩ := katz_solution_exists h hq h1 beta
  refine ⟨x, hx, fun r hr => ?_⟩
  obtain ⟨v, hok, -, -, hv⟩ := fk_iterates h ha hq R hi hB sqrt maxIter false
  obtain ⟨k, -, rfl, hc⟩ := hok _ hr
  rw [if_neg (by simp)]
  refine ⟨_, rfl, fun z hz => ?_, ?_⟩
  · obtain ⟨i, rfl⟩ := exists_keyFn h hz
    obtain ⟨y, hy⟩ := Option.isSome_iff_exists.1 ((hv k).2.2.1 i)
    rw [view_keyFn]
    exact ⟨y, hy, ((hv (k + 1)).1 i y hy).2⟩
  have e : (fun z => (G.view (v (k + 1)) z).getD 0) = atNode G (v (k + 1)) := rfl
  rw [e]
  have hlen : G.nodes.length = G.n := nodes_length h
  have hg := one_le_growth R
  have hg0 : 0 ≤ growth u ^ (G.n + 1) := pow_nonneg (by linarith) _
  have hq0 : 0 ≤ q := by
    obtain ⟨w, hw⟩ := List.exists_mem_of_ne_nil _ ha.nonempty
    exact (mul_nonneg (abs_nonneg _) (sumOver_nonneg fun _ _ => abs_nonneg _)).trans (hq w hw)
  unfold Model.Fr.converged at hc
  rw [R.lt] at hc
  have c1 := (change_near R (hv k).1 (hv (k + 1)).1).2
  rw [add_zero, l1_change h] at c1
  have c2 := (bound_near R (n := G.n) hi.tol).1
  have c3 : l1 G.nodes (atNode G (v k)) (atNode G (v (k + 1))) ≤
      growth u ^ (G.n + 1) * (growth u ^ 2 * (G.n * tol) + η) :=
    c1.trans (mul_le_mul_of_nonneg_left (hc.le.trans c2) hg0)
  have p := fk_pass h hq hx (hv k).2.2.2
  have t := l1_triangle G.nodes (atNode G (v k)) (atNode G (v (k + 1))) x
  have h1' : 0 < 1 - q := sub_pos.2 h1
  rw [le_div_iff₀ h1', hlen]
  rw [hlen] at p
  have m1 := mul_le_mul_of_nonneg_left t hq0
  have m2 := mul_le_mul_of_nonneg_left c3 hq0
  rw [mul_add] at m1
  have m3 : l1 G.nodes (atNode G (v (k + 1))) x * (1 - q) =
      l1 G.nodes (atNode G (v (k + 1))) x - q * l1 G.nodes (atNode G (v (k + 1))) x := by ring
  rw [m3]
  linarith

/-- **C129.** In rounded arithmetic, `katz_centrality` returns a result when the tolerance exceeds what rounding errors
and `k < max_iter` passes can leave (`Δ`: the exact first update). -/
theorem float_katz_converges (h : G.WF) {fill : Bool} {iso : Option F} {beta : F ⊕ List (K × F)}
    {nstart : Option (List (K × F))} (ha : KatzArgs G fill iso beta nstart) {alpha q B : F}
    (hq : KatzDamped G alpha q) (h1 : q < 1) {o : Arith F} {Rp : F → Prop} {u η tol : F} (R : Rounded o Rp u η)
    (hi : FkInput G Rp alpha tol iso beta nstart) (hB : KatzBound G u η alpha q B beta nstart)
    (sqrt : F → F) {maxIter : Int} (normalized : Bool) {k : Nat} (hk : (k : Int) < maxIter)
    (ht : growth u ^ 2 * (growth u ^ (G.nodes.length + 1) *
      (2 * (q ^ k * l1 G.nodes (katzStart nstart)
          (katzMap G.nodes G.weight? alpha (betaOf beta) (katzStart nstart)) +
        katzError u η alpha q (sumOver G.nodes (betaOf beta)) B G.nodes.length) / (1 - q)) + η) <
      G.nodes.length * tol) :
    ∃ r, Model.Fk.katzCentrality o fill sqrt G iso alpha beta maxIter tol nstart normalized = .ok (some r) := by
  obtain ⟨x, hx, -, -⟩ := katz_solution_exists h hq h1 beta
  obtain ⟨v, hok, herr, hv0, hv⟩ := fk_iterates h ha hq R hi hB sqrt maxIter normalized
  cases hr : Model.Fk.katzCentrality o fill sqrt G iso alpha beta maxIter tol nstart normalized with
  | ok r =>
    obtain ⟨k, -, rfl, -⟩ := hok r hr
    exact ⟨_, rfl⟩
  | error e =>
    exfalso
    have hf := (herr e hr).2 k hk
    have hlen : G.nodes.length = G.n := nodes_length h
    have hg := one_le_growth R
    have hq0 : 0 ≤ q := by
      obtain ⟨w, hw⟩ := List.exists_mem_of_ne_nil _ ha.nonempty
      exact (mul_nonneg (abs_nonneg _) (sumOver_nonneg fun _ _ => abs_nonneg _)).trans (hq w hw)
    have h1' : 0 < 1 - q := sub_pos.2 h1
    set ε := katzError u η alpha q (sumOver G.nodes (betaOf beta)) B G.nodes.length
    set Δ := l1 G.nodes (katzStart nstart) (katzMap G.nodes G.weight? alpha (betaOf beta) (katzStart nstart))
    have d0 : l1 G.nodes (atNode G (v 0)) x ≤ Δ / (1 - q) := by
      have e0 : l1 G.nodes (atNode G (v 0)) x = l1 G.nodes (katzStart nstart) x :=
        l1_congr (N := G.nodes) (fun z hz => hv0 z hz) (fun _ _ => rfl)
      rw [e0]
      have t := l1_triangle G.nodes (katzStart nstart)
        (katzMap G.nodes G.weight? alpha (betaOf beta) (katzStart nstart)) x
      have p := fk_pass h hq hx (ε := 0) (y := katzStart nstart)
        (z := katzMap G.nodes G.weight? alpha (betaOf beta) (katzStart nstart)) (by
          unfold l1 sumOver; simp)
      rw [le_div_iff₀ h1']
      have e : l1 G.nodes (katzStart nstart) x * (1 - q) =
        l1 G.nodes (katzStart nstart) x - q * l1 G.nodes (katzStart nstart) x := by ring
      rw [e]
      linarith
    have dist : ∀ m, l1 G.nodes (atNode G (v m)) x ≤ q ^ m * (Δ / (1 - q)) + ε / (1 - q) := by
      intro m
      induction m with
      | zero =>
        have hB0 : 0 ≤ B := le_trans (sumOver_nonneg fun z _ => katzStart_nonneg hi z) hB.start
        have : 0 ≤ ε / (1 - q) := div_nonneg (katzError_nonneg R hi.alpha.2 hq0
          (sumOver_nonneg fun z _ => betaOf_nonneg hi z) hB0 _) h1'.le
        rw [pow_zero, one_mul]
        linarith
      | succ m ih =>
        have p := fk_pass h hq hx (hv m).2.2.2
        have c := mul_le_mul_of_nonneg_left ih hq0
        have e3 : ε + q * (ε / (1 - q)) = ε / (1 - q) := by
          field_simp; ring
        rw [mul_add] at c
        rw [pow_succ]
        linarith
    have d1 := dist k
    have d2 := dist (k + 1)
    have hΔ : 0 ≤ Δ / (1 - q) := div_nonneg (l1_nonneg _ _ _) h1'.le
    have hpk : q ^ (k + 1) * (Δ / (1 - q)) ≤ q ^ k * (Δ / (1 - q)) :=
      mul_le_mul_of_nonneg_right (pow_le_pow_of_le_one hq0 h1.le (Nat.le_succ k)) hΔ
    have t := l1_triangle G.nodes (atNode G (v k)) x (atNode G (v (k + 1)))
    rw [l1_comm G.nodes x] at t
    have L : l1 G.nodes (atNode G (v k)) (atNode G (v (k + 1))) ≤ 2 * (q ^ k * Δ + ε) / (1 - q) := by
      have e : 2 * (q ^ k * Δ + ε) / (1 - q) = 2 * (q ^ k * (Δ / (1 - q))) + 2 * (ε / (1 - q)) := by
        field_simp
      rw [e]
      linarith
    have c1 := (change_near R (hv k).1 (hv (k + 1)).1).1
    rw [add_zero, l1_change h] at c1
    have c2 := (bound_near R (n := G.n) hi.tol).2
    have hg0 : 0 ≤ growth u ^ (G.n + 1) := pow_nonneg (by linarith) _
    have c3 := c1.trans (mul_le_mul_of_nonneg_left L hg0)
    have hg2 : 0 < growth u ^ 2 := pow_pos (by linarith) _
    rw [hlen] at ht
    have c4 := lt_of_lt_of_le ht c2
    have c5 := lt_of_mul_lt_mul_left c4 hg2.le
    have c6 : Model.Fr.vsum o (vapply o.abs (vadd o.sub (v k) (v (k + 1)))) < o.mul (o.nat G.n) tol := by
      linarith
    unfold Model.Fr.converged at hf
    rw [(R.lt _ _).2 c6] at hf
    cases hf

/-! ### the exact model is the instance with exact arithmetic -/

omit [IsStrictOrderedRing F] in
/-- **C129.** with exact arithmetic this is the model that C65 and C80 are about -/
theorem float_katz_exact (fill : Bool) (sqrt : F → F) (G : Graph K F) (iso : Option F) (alpha : F)
    (beta : F ⊕ List (K × F)) (maxIter : Int) (tol : F) (nstart : Option (List (K × F))) (normalized : Bool) :
    Model.Fk.katzCentrality (Arith.exact F) fill sqrt G iso alpha beta maxIter tol nstart normalized =
      katzCentrality fill sqrt G iso alpha beta maxIter tol nstart normalized := by
  have ec : ∀ {n : Nat}, Model.Fr.converged (n := n) (Arith.exact F) tol = isConverged tol := by
    intro n
    funext x y
    unfold Model.Fr.converged isConverged Model.Fr.vsum vsum
    rw [fsum_exact]
    simp [Arith.exact]
  have em : Model.Fr.semiringMul (Arith.exact F) iso = prMul iso := by
    unfold Model.Fr.semiringMul prMul
    cases iso <;> rfl
  have ea : Model.Fk.katzAlpha (Arith.exact F) iso alpha = katzAlpha iso alpha := by
    cases iso <;> rfl
  have ei : ∀ {n : Nat} (x : Option (Vec n F)), Model.Fk.katzInit (Arith.exact F) x = katzInit x := by
    intro n x
    cases x <;> simp [Model.Fk.katzInit, katzInit, Arith.exact]
  have eb : ∀ {n : Nat} (b : F ⊕ Vec n F) (x : Vec n F),
      Model.Fk.katzAdd (Arith.exact F) fill b x = katzAdd fill b x := by
    intro n b x
    cases b <;> rfl
  have es : ∀ {n : Nat} (A : Mat n n F) (b : F ⊕ Vec n F),
      Model.Fk.katzStep (Arith.exact F) fill A iso alpha b = katzStep fill A iso alpha b := by
    intro n A b
    funext x
    unfold Model.Fk.katzStep katzStep
    rw [em, ea, eb]
    have ev : Model.Fr.vxm (Arith.exact F) (prMul iso) x A = GB.vxm (· + ·) (prMul iso) x A := by
      funext j
      exact fsum_exact _
    rw [ev]
    rfl
  have en : ∀ {n : Nat} (x : Vec n F), Model.Fk.normalizeL2 (Arith.exact F) sqrt x = normalizeL2 sqrt x := by
    intro n x
    have edot : Model.Fr.dot (Arith.exact F) (· * ·) x x = (GB.dot (· + ·) (· * ·) x x).getD 0 := by
      unfold Model.Fr.dot GB.dot
      rw [fsum_exact]; simp [Arith.exact]
    have e2 : Model.Fr.dot (Arith.exact F) (Arith.exact F).mul x x = (GB.dot (· + ·) (· * ·) x x).getD 0 := edot
    unfold Model.Fk.normalizeL2 normalizeL2 scaleBy
    simp only [e2]
    simp [Arith.exact]
  unfold Model.Fk.katzCentrality katzCentrality Model.Fk.katzV katzV
  simp only [ec, ei, es, en]

end Props
