import Verif.Proofs.FloatRank
import Verif.Props.PageRank
import Verif.Props.Fixpoint

/-!
# C127 pagerank in rounded arithmetic

`Model.Fr.pagerank o` is `pagerank` with all arithmetic done by `o`; `Rounded o Rp u η` says that `o` rounds
with relative error `u` and underflow error `η` (Spec/FloatRank.lean).
-/

open GB Spec Model Model.Graph Proofs Proofs.Power Proofs.Fr

namespace Props

variable {K F : Type} [Field F] [LinearOrder F] [IsStrictOrderedRing F] [DecidableEq K] {G : Graph K F}

/-- all numbers the caller supplies are numbers of the format, edge weights and dangling weights are at most `D` -/
structure FrInput (G : Graph K F) (Rp : F → Prop) (D alpha tol : F) (pers nstart dangling : Option (List (K × F))) :
    Prop where
  alpha : Rp alpha
  tol : Rp tol ∧ 0 ≤ tol
  bound : 1 ≤ D
  weights : ∀ u v a, G.WEdge u v a → Rp a ∧ a ≤ D
  pers : ∀ l, pers = some l → ∀ k b, (k, b) ∈ l → Rp b
  nstart : ∀ l, nstart = some l → ∀ k b, (k, b) ∈ l → Rp b
  dangling : ∀ l, dangling = some l → ∀ k b, (k, b) ∈ l → Rp b ∧ b ≤ D

/-- what a vector holds, by node -/
def atNode (G : Graph K F) (v : Vec G.n F) (u : K) : F := (G.view v u).getD 0

omit [LinearOrder F] [IsStrictOrderedRing F] in
theorem atNode_keyFn (h : G.WF) (v : Vec G.n F) (i : Fin G.n) : atNode G v (keyFn h i) = (v i).getD 0 := by
  unfold atNode; rw [view_keyFn]

omit [IsStrictOrderedRing F] in
/-- a dict of format numbers becomes a vector of format numbers -/
theorem fr_dict (h : G.WF) {Rp : F → Prop} {d : Option (List (K × F))} (hd : ∀ l, d = some l → ValidDict G l)
    (h0 : ∀ l, d = some l → ∀ k b, (k, b) ∈ l → 0 ≤ b) (hr : ∀ l, d = some l → ∀ k b, (k, b) ∈ l → Rp b) :
    ∃ v, dictToVector? G d = .ok v ∧ (d = none → v = none) ∧
      ∀ l, d = some l → ∃ v', v = some v' ∧ Proofs.Power.Rep h v' (valueIn l) ∧ Good Rp v' ∧
        ∀ i a, v' i = some a → (keyFn h i, a) ∈ l := by
  cases d with
  | none => exact ⟨none, rfl, fun _ => rfl, by simp⟩
  | some l =>
    obtain ⟨v, hv, hm⟩ := Props.dictToVector_ok h (hd l rfl).1 (hd l rfl).2.1 (hd l rfl).2.2
    obtain ⟨v', hv', hrep⟩ := dict_rep h (hd l rfl)
    rw [hv] at hv'; cases hv'
    refine ⟨some v, ?_, by simp, ?_⟩
    · show (dictToVector G l).map some = _
      rw [hv]; rfl
    · rintro l' hl; cases hl
      have hmem : ∀ i a, v i = some a → (keyFn h i, a) ∈ l := fun i a ha => (hm _ i a (keyFn_at h i)).1 ha
      exact ⟨v, rfl, hrep, fun i a ha => ⟨hr l rfl _ _ (hmem i a ha), h0 l rfl _ _ (hmem i a ha)⟩, hmem⟩

theorem fr_pos (h : G.WF) {l : List (K × F)} {v : Vec G.n F} (hr : Proofs.Power.Rep h v (valueIn l))
    (h0 : ∀ k b, (k, b) ∈ l → 0 ≤ b) (hs : sumOver G.nodes (valueIn l) ≠ 0) :
    0 < ∑ i, (v i).getD 0 ∧ sumOver G.nodes (valueIn l) = ∑ i, (v i).getD 0 := by
  have e : sumOver G.nodes (valueIn l) = ∑ i, (v i).getD 0 := by
    rw [sumOver_nodes h]
    exact Finset.sum_congr rfl fun i _ => (hr i).symm
  refine ⟨?_, e⟩
  rw [← e]
  exact lt_of_le_of_ne (sumOver_nonneg fun u _ => valueIn_nonneg h0 u) (Ne.symm hs)

theorem passError_nonneg {o : Arith F} {Rp : F → Prop} {u η D : F} (R : Rounded o Rp u η) (hD : 1 ≤ D) (n : Nat) :
    0 ≤ passError u η D n := by
  have hg := one_le_growth R
  have h1 : 1 ≤ growth u ^ (2 * n + 5) := one_le_pow₀ hg
  have h2 : 0 ≤ 9 * (n : F) ^ 2 * (D + 1) * growth u ^ (2 * n + 5) * η := by
    have := R.eta0
    have : 0 ≤ D + 1 := by linarith
    have : 0 ≤ growth u ^ (2 * n + 5) := by linarith
    positivity
  unfold passError
  linarith

/-- the loop of `pagerank` and its meaning -/
theorem fr_loop (h : G.WF) (hE : ∃ u v, G.Edge u v) {iso : Option F}
    {pers nstart dangling : Option (List (K × F))} (ha : PRArgs G iso pers nstart dangling)
    {alpha : F} (hs : PRNonneg G alpha pers nstart dangling) {o : Arith F} {Rp : F → Prop} {u η D : F}
    (R : Rounded o Rp u η) {tol : F} (hi : FrInput G Rp D alpha tol pers nstart dangling)
    (maxIter : Int) :
    ∃ (step : Vec G.n F → Vec G.n F) (x : Vec G.n F),
      Model.Fr.pagerank o G iso alpha pers maxIter tol nstart dangling =
        (powerIter step (Model.Fr.converged o tol) maxIter.toNat x).map
          (fun v => some (nodemapFill none v (o.nat 0))) ∧
      Good Rp x ∧ |sumOver G.nodes (atNode G x) - 1| ≤ passError u η D G.nodes.length ∧
      ∀ v, Good Rp v → sumOver G.nodes (atNode G v) ≤ 2 → Good Rp (step v) ∧
        l1 G.nodes (atNode G (step v)) (prT G alpha pers dangling (atNode G v)) ≤ passError u η D G.nodes.length := by
  have hE' := hE
  obtain ⟨u0, v0, i0, j0, hu0, hv0, hA0⟩ := hE
  have hn : G.n ≠ 0 := fun e => by have := i0.isLt; omega
  have hlen : G.nodes.length = G.n := nodes_length h
  have hnv : mnvals G.A ≠ 0 := by
    rw [Ne, mnvals_eq_zero]
    intro hc; rw [hc i0 j0] at hA0; cases hA0
  have hg := one_le_growth R
  have heta := R.eta0
  obtain ⟨xv, hx1, hx2, hx3⟩ := fr_dict h (d := nstart) (fun l hl => (ha.nstart l hl).1) hs.nstart hi.nstart
  obtain ⟨pv, hp1, hp2, hp3⟩ := fr_dict h (d := pers) (fun l hl => (ha.pers l hl).1) hs.pers hi.pers
  have hrs : nvals (Model.Fr.rowSums o G.A) < G.n ↔ ∃ u, G.Node u ∧ Dangling G.nodes G.weight? u := by
    rw [nvals_lt]
    constructor
    · rintro ⟨i, hi⟩
      refine ⟨keyFn h i, (keyFn_at h i).node, (dangling_iff h i).2 ?_⟩
      by_contra hc
      push Not at hc
      have : (Model.Fr.rowSums o G.A i).isSome = true := by
        unfold Model.Fr.rowSums
        rw [fsum_isSome]
        simpa [Option.isSome_iff_ne_none] using hc
      rw [hi] at this; cases this
    · rintro ⟨u, hu, hd⟩
      obtain ⟨i, rfl⟩ := exists_keyFn h hu
      refine ⟨i, ?_⟩
      rw [← Option.not_isSome_iff_eq_none]
      unfold Model.Fr.rowSums
      rw [fsum_isSome]
      have := (dangling_iff h i).1 hd
      simp [this]
  obtain ⟨dv, hd1, hd2, hd3⟩ := fr_dict h (Rp := Rp)
    (d := if nvals (Model.Fr.rowSums o G.A) < G.n then dangling else none) (by
      intro l hl
      by_cases hc : nvals (Model.Fr.rowSums o G.A) < G.n
      · rw [if_pos hc] at hl
        exact (ha.dangling (hrs.1 hc) l hl).1
      · rw [if_neg hc] at hl; cases hl) (by
      intro l hl
      split at hl
      · exact hs.dangling l hl
      · cases hl) (by
      intro l hl
      split at hl
      · exact fun k b hm => (hi.dangling l hl k b hm).1
      · cases hl)
  -- the start vector
  have hinit : ∃ x, Model.Fr.init o xv = .ok x ∧ Good Rp x ∧
      ∀ i, Near (growth u) (G.n + 1) η ((x i).getD 0) (prStart G nstart (keyFn h i)) := by
    cases hns : nstart with
    | none =>
      rw [hx2 hns]
      obtain ⟨a, b⟩ := uniform_near R hn
      refine ⟨_, rfl, fun i c hc => by cases hc; exact a, fun i => ?_⟩
      show Near _ _ _ _ (1 / (G.nodes.length : F))
      rw [hlen]; exact b
    | some l =>
      obtain ⟨v, rfl, hr, hgd, -⟩ := hx3 l hns
      obtain ⟨hpos, hsum⟩ := fr_pos h hr (hs.nstart l hns) (ha.nstart l hns).2
      obtain ⟨q1, q2, q3⟩ := quotient_near R hgd hpos
      refine ⟨vapply (fun a => o.div a (Model.Fr.vsum o v)) v, ?_, q2, fun i => ?_⟩
      · show (if _ then _ else _) = _
        rw [if_neg q1]
      · show Near _ _ _ _ (valueIn l (keyFn h i) / sumOver G.nodes (valueIn l))
        rw [hsum, ← hr i]
        exact q3 i
  obtain ⟨x, hx, hxg, hxn⟩ := hinit
  -- the personalization
  have hpers : ∃ p, Model.Fr.pers o pv = .ok p ∧
      PNear Rp u η (G.n + 1) p (fun i => distOf G.nodes pers (uniform G.nodes) (keyFn h i)) := by
    cases hps : pers with
    | none =>
      rw [hp2 hps]
      obtain ⟨a, b⟩ := uniform_near R hn
      refine ⟨_, rfl, a, fun i => ?_⟩
      show Near _ _ _ _ (1 / (G.nodes.length : F))
      rw [hlen]; exact b
    | some l =>
      obtain ⟨v, rfl, hr, hgd, -⟩ := hp3 l hps
      obtain ⟨hpos, hsum⟩ := fr_pos h hr (hs.pers l hps) (ha.pers l hps).2
      obtain ⟨q1, q2, q3⟩ := quotient_near R hgd hpos
      refine ⟨.inr (vapply (fun a => o.div a (Model.Fr.vsum o v)) v), ?_, q2, fun i => ?_⟩
      · show (if _ then _ else _) = _
        rw [if_neg q1]
      · show Near _ _ _ _ (valueIn l (keyFn h i) / sumOver G.nodes (valueIn l))
        rw [hsum, ← hr i]
        exact q3 i
  obtain ⟨p, hp, hpn⟩ := hpers
  have hpx := fun v => distOf_nonneg (N := G.nodes) hs.pers (uniform_nonneg G.nodes) v
  have hdx := fun v => distOf_nonneg (N := G.nodes) hs.dangling hpx v
  have hWE : ∀ i j a, G.A i j = some a → G.WEdge (keyFn h i) (keyFn h j) a := fun i j a hA =>
    ⟨i, j, keyFn_at h i, keyFn_at h j, hA⟩
  have hAg : ∀ i j a, G.A i j = some a → (Rp a ∧ 0 ≤ a) ∧ a ≤ D := fun i j a hA =>
    ⟨⟨(hi.weights _ _ a (hWE i j a hA)).1, hs.weights _ _ a (hWE i j a hA)⟩, (hi.weights _ _ a (hWE i j a hA)).2⟩
  have hA0' : ∀ i j, 0 ≤ (G.A i j).getD 0 := by
    intro i j
    cases hij : G.A i j with
    | none => simp
    | some a => simpa using (hAg i j a hij).1.2
  have hrow : ∀ i, (∃ j, (G.A i j).isSome = true) → 0 < ∑ j, (G.A i j).getD 0 := by
    rintro i ⟨j, hj⟩
    rw [← outWeight_eq h]
    refine lt_of_le_of_ne ?_ (Ne.symm (ha.rows _ (keyFn_at h i).node ?_))
    · rw [outWeight_eq h]; exact Finset.sum_nonneg fun j _ => hA0' i j
    · rw [dangling_iff]
      intro hc; rw [hc j] at hj; cases hj
  have hiso : ∀ c, iso = some c → ∀ i j a, G.A i j = some a → a = c := fun c hc i j a hA =>
    ha.iso c hc _ _ a (hWE i j a hA)
  -- one pass
  have key : ∃ md, Model.Fr.dangling o alpha (Model.Fr.prS o alpha (Model.Fr.rowSums o G.A) iso) p dv = .ok md ∧
      ∀ x : Vec G.n F, Good Rp x → ∑ i, (x i).getD 0 ≤ 2 →
        let y := Model.Fr.step o G.A (Model.Fr.prS o alpha (Model.Fr.rowSums o G.A) iso) (Model.Fr.semiringMul o iso) md
          (Model.Fr.scaleP o alpha p) x
        Good Rp y ∧ ∀ j, Near (growth u) (2 * G.n + 5) (9 * G.n * (D + 1) * growth u ^ (2 * G.n + 5) * η)
          ((y j).getD 0) (prT G alpha pers dangling (atNode G x) (keyFn h j)) := by
    have hz : ∀ (dx : K → F) (x : Vec G.n F) (j : Fin G.n),
        (1 - alpha) * distOf G.nodes pers (uniform G.nodes) (keyFn h j) +
          (∑ i, if ∀ l, G.A i l = none then alpha * ((x i).getD 0 * dx (keyFn h j)) else 0) +
          (∑ i, if ∀ l, G.A i l = none then 0
              else alpha * ((x i).getD 0 * ((G.A i j).getD 0 / ∑ l, (G.A i l).getD 0))) =
        prMap G.nodes G.weight? alpha (distOf G.nodes pers (uniform G.nodes)) dx (atNode G x) (keyFn h j) := by
      intro dx x j
      unfold prMap
      rw [sumOver_nodes h, add_assoc, ← Finset.sum_add_distrib, Finset.mul_sum, add_comm]
      congr 1
      refine Finset.sum_congr rfl fun i _ => ?_
      rw [atNode_keyFn h, outWeight_eq h, weight?_keyFn]
      by_cases hc : ∀ l, G.A i l = none
      · rw [if_pos hc, if_pos hc, if_pos ((dangling_iff h i).2 hc), add_zero]
      · rw [if_neg hc, if_neg hc, if_neg (mt (dangling_iff h i).1 hc), zero_add]
    by_cases hc : nvals (Model.Fr.rowSums o G.A) < G.n
    · rw [if_pos hc] at hd2 hd3
      obtain ⟨md, hmd, hst⟩ := step_near R hn hi.bound ⟨hi.alpha, hs.alpha0⟩ hs.alpha1 hAg hrow hiso
        (fun i => hpx (keyFn h i)) hpn (d := dv)
        (dx := fun i => distOf G.nodes dangling (distOf G.nodes pers (uniform G.nodes)) (keyFn h i))
        (fun i => hdx (keyFn h i)) (by
          intro v hv
          cases hdd : dangling with
          | none => rw [hd2 hdd] at hv; cases hv
          | some l =>
            obtain ⟨v', hv', hr, hgd, hmem⟩ := hd3 l hdd
            rw [hv] at hv'; cases hv'
            obtain ⟨hpos, hsum⟩ := fr_pos h hr (hs.dangling l hdd) (ha.dangling (hrs.1 hc) l hdd).2
            refine ⟨hgd, fun i a hia => (hi.dangling l hdd _ _ (hmem i a hia)).2, hpos, fun i => ?_⟩
            show valueIn l (keyFn h i) / sumOver G.nodes (valueIn l) = _
            rw [hsum, ← hr i]) (by
          intro hv
          cases hdd : dangling with
          | none => rfl
          | some l =>
            obtain ⟨v', hv', -⟩ := hd3 l hdd
            rw [hv] at hv'; cases hv')
      refine ⟨md, hmd, fun x hx hx2 => ?_⟩
      obtain ⟨a, b⟩ := hst x hx hx2
      refine ⟨a, fun j => ?_⟩
      have := b j
      rw [hz (distOf G.nodes dangling (distOf G.nodes pers (uniform G.nodes)))] at this
      exact this
    · rw [if_neg hc] at hd2 hd3
      obtain ⟨md, hmd, hst⟩ := step_near R hn hi.bound ⟨hi.alpha, hs.alpha0⟩ hs.alpha1 hAg hrow hiso
        (fun i => hpx (keyFn h i)) hpn (d := dv)
        (dx := fun i => distOf G.nodes pers (uniform G.nodes) (keyFn h i))
        (fun i => hpx (keyFn h i)) (by intro v hv; rw [hd2 rfl] at hv; cases hv) (fun _ => rfl)
      refine ⟨md, hmd, fun x hx hx2 => ?_⟩
      obtain ⟨a, b⟩ := hst x hx hx2
      refine ⟨a, fun j => ?_⟩
      have := b j
      rw [hz (distOf G.nodes pers (uniform G.nodes))] at this
      have hnd : ∀ i, ¬ Dangling G.nodes G.weight? (keyFn h i) := fun i hd =>
        hc (hrs.2 ⟨_, (keyFn_at h i).node, hd⟩)
      have e : prMap G.nodes G.weight? alpha (distOf G.nodes pers (uniform G.nodes))
          (distOf G.nodes pers (uniform G.nodes)) (atNode G x) (keyFn h j) =
          prT G alpha pers dangling (atNode G x) (keyFn h j) := by
        unfold prT prMap
        rw [sumOver_nodes h, sumOver_nodes h]
        simp only [hnd, if_false]
      rw [e] at this
      exact this
  obtain ⟨md, hmd, hstep⟩ := key
  refine ⟨Model.Fr.step o G.A (Model.Fr.prS o alpha (Model.Fr.rowSums o G.A) iso) (Model.Fr.semiringMul o iso) md
    (Model.Fr.scaleP o alpha p), x, ?_, hxg, ?_, ?_⟩
  rotate_left
  · -- mass of the start vector
    have hz0 : ∀ v, 0 ≤ prStart G nstart v := fun v => distOf_nonneg hs.nstart (uniform_nonneg _) v
    have hz1 : ∑ i, prStart G nstart (keyFn h i) = 1 := by
      rw [← sumOver_nodes h]; exact prStart_sum hE' ha
    have e : sumOver G.nodes (atNode G x) = ∑ i, (x i).getD 0 := by
      rw [sumOver_nodes h]; exact Finset.sum_congr rfl fun i _ => atNode_keyFn h x i
    have e1 : |∑ i, (x i).getD 0 - 1| ≤ ∑ i, ((growth u ^ (G.n + 1) - 1) * prStart G nstart (keyFn h i) + η) := by
      conv_lhs => rw [← hz1, ← Finset.sum_sub_distrib]
      exact (Finset.abs_sum_le_sum_abs _ _).trans (Finset.sum_le_sum fun i _ => near_dist hg (hz0 _) (hxn i))
    rw [Finset.sum_add_distrib, ← Finset.mul_sum, hz1, mul_one] at e1
    simp only [Finset.sum_const, Finset.card_univ, Fintype.card_fin, nsmul_eq_mul] at e1
    rw [e, hlen]
    refine e1.trans ?_
    unfold passError
    have g1 : growth u ^ (G.n + 1) ≤ growth u ^ (2 * G.n + 5) := pow_le_pow_right₀ hg (by omega)
    have g2 : 1 ≤ growth u ^ (2 * G.n + 5) := one_le_pow₀ hg
    have hn1 : (1 : F) ≤ G.n := by exact_mod_cast Nat.one_le_iff_ne_zero.2 hn
    have hDb := hi.bound
    have g3 : (G.n : F) * η ≤ 9 * G.n ^ 2 * (D + 1) * growth u ^ (2 * G.n + 5) * η := by
      refine mul_le_mul_of_nonneg_right ?_ heta
      have a1 : (G.n : F) ≤ 9 * G.n ^ 2 * (D + 1) := by nlinarith
      exact a1.trans (le_mul_of_one_le_right (by linarith) g2)
    linarith
  · intro v hv hv2
    have e : sumOver G.nodes (atNode G v) = ∑ i, (v i).getD 0 := by
      rw [sumOver_nodes h]; exact Finset.sum_congr rfl fun i _ => atNode_keyFn h v i
    obtain ⟨a, b⟩ := hstep v hv (e ▸ hv2)
    refine ⟨a, ?_⟩
    have hv0 : ∀ z, 0 ≤ atNode G v z := by
      intro z
      unfold atNode
      cases hz : G.view v z with
      | none => simp
      | some c =>
        obtain ⟨i, -, hi⟩ := Option.bind_eq_some_iff.1 hz
        simpa using (hv i c hi).2
    have hT0 : ∀ z, 0 ≤ prT G alpha pers dangling (atNode G v) z := by
      intro z
      unfold prT
      rw [prMap_tr]
      have h1 : 0 ≤ 1 - alpha := sub_nonneg.2 hs.alpha1
      exact add_nonneg (mul_nonneg hs.alpha0 (sumOver_nonneg fun w _ =>
        mul_nonneg (hv0 w) (tr_nonneg h hs.weights hdx w z))) (mul_nonneg h1 (hpx z))
    have hTs : ∑ i, prT G alpha pers dangling (atNode G v) (keyFn h i) ≤ 2 := by
      rw [← sumOver_nodes h, prT_sum h hE' ha]
      have := mul_le_mul_of_nonneg_left hv2 hs.alpha0
      have := hs.alpha1
      linarith
    unfold l1
    rw [sumOver_nodes h]
    have g2 : 1 ≤ growth u ^ (2 * G.n + 5) := one_le_pow₀ hg
    calc _ ≤ ∑ j : Fin G.n, ((growth u ^ (2 * G.n + 5) - 1) * prT G alpha pers dangling (atNode G v) (keyFn h j) +
            9 * G.n * (D + 1) * growth u ^ (2 * G.n + 5) * η) := by
          refine Finset.sum_le_sum fun j _ => ?_
          rw [atNode_keyFn h]
          exact near_dist hg (hT0 _) (b j)
      _ = (growth u ^ (2 * G.n + 5) - 1) * ∑ j : Fin G.n, prT G alpha pers dangling (atNode G v) (keyFn h j) +
            G.n * (9 * G.n * (D + 1) * growth u ^ (2 * G.n + 5) * η) := by
          rw [Finset.sum_add_distrib, ← Finset.mul_sum]
          simp only [Finset.sum_const, Finset.card_univ, Fintype.card_fin, nsmul_eq_mul]
      _ ≤ (growth u ^ (2 * G.n + 5) - 1) * 2 + G.n * (9 * G.n * (D + 1) * growth u ^ (2 * G.n + 5) * η) := by
          have := mul_le_mul_of_nonneg_left hTs (sub_nonneg.2 g2)
          linarith
      _ = passError u η D G.nodes.length := by
          rw [hlen]; unfold passError; ring
  · unfold Model.Fr.pagerank
    rw [if_neg hn, hx1]
    show (dictToVector? G pers >>= fun o => _) = _
    rw [hp1]
    show (dictToVector? G (if nvals (Model.Fr.rowSums o G.A) < G.n then dangling else none) >>= fun o => _) = _
    rw [hd1]
    show (Model.Fr.pagerankV o G.A iso alpha pv maxIter tol xv dv).map _ = _
    unfold Model.Fr.pagerankV
    rw [if_neg hnv, hx]
    show ((Model.Fr.pers o pv >>= fun o => _) : Except Err (Vec G.n F)).map _ = _
    rw [hp]
    show ((Model.Fr.dangling o alpha (Model.Fr.prS o alpha (Model.Fr.rowSums o G.A) iso) p dv >>= fun o => _) :
      Except Err (Vec G.n F)).map _ = _
    rw [hmd]
    rfl

omit [LinearOrder F] [IsStrictOrderedRing F] in
theorem atNode_fill (v : Vec G.n F) (u : K) (hu : G.Node u) (h : G.WF) :
    G.view (nodemapFill none v 0) u = some (atNode G v u) := by
  obtain ⟨i, rfl⟩ := exists_keyFn h hu
  rw [view_keyFn, atNode_keyFn h]
  simp [nodemapFill]

/-- the iterates -/
theorem fr_iterates (h : G.WF) (hE : ∃ u v, G.Edge u v) {iso : Option F}
    {pers nstart dangling : Option (List (K × F))} (ha : PRArgs G iso pers nstart dangling)
    {alpha : F} (hs : PRNonneg G alpha pers nstart dangling) (h1 : alpha < 1) {o : Arith F} {Rp : F → Prop}
    {u η D : F} (R : Rounded o Rp u η) {tol : F} (hi : FrInput G Rp D alpha tol pers nstart dangling)
    (he : passError u η D G.nodes.length ≤ 1 - alpha) (maxIter : Int) :
    ∃ (v : Nat → Vec G.n F),
      (∀ r, Model.Fr.pagerank o G iso alpha pers maxIter tol nstart dangling = .ok r → ∃ k : Nat, (k : Int) < maxIter ∧
        r = some (nodemapFill none (v (k + 1)) 0) ∧ Model.Fr.converged o tol (v k) (v (k + 1)) = true) ∧
      (∀ e, Model.Fr.pagerank o G iso alpha pers maxIter tol nstart dangling = .error e → e = .convergence ∧
        ∀ k : Nat, (k : Int) < maxIter → Model.Fr.converged o tol (v k) (v (k + 1)) = false) ∧
      ∀ k, Good Rp (v k) ∧ (∀ z, 0 ≤ atNode G (v k) z) ∧
        |sumOver G.nodes (atNode G (v k)) - 1| ≤ passError u η D G.nodes.length / (1 - alpha) ∧
        l1 G.nodes (atNode G (v (k + 1))) (prT G alpha pers dangling (atNode G (v k))) ≤
          passError u η D G.nodes.length := by
  obtain ⟨step, x, heq, hx, hxm, hstep⟩ := fr_loop h hE ha hs R hi maxIter
  set ε := passError u η D G.nodes.length with hε
  have hε0 : 0 ≤ ε := passError_nonneg R hi.bound _
  have h1' : 0 < 1 - alpha := sub_pos.2 h1
  have hle : ε / (1 - alpha) ≤ 1 := (div_le_one h1').2 he
  have hge : ε ≤ ε / (1 - alpha) := by
    rw [le_div_iff₀ h1']
    have := mul_nonneg hε0 hs.alpha0
    linarith
  have inv : ∀ k, Good Rp (step^[k] x) ∧ |sumOver G.nodes (atNode G (step^[k] x)) - 1| ≤ ε / (1 - alpha) := by
    intro k
    induction k with
    | zero => exact ⟨hx, hxm.trans hge⟩
    | succ k ih =>
      obtain ⟨i1, i2⟩ := ih
      have b2 : sumOver G.nodes (atNode G (step^[k] x)) ≤ 2 := by
        have := (abs_le.1 i2).2
        linarith
      obtain ⟨s1, s2⟩ := hstep _ i1 b2
      rw [Function.iterate_succ_apply']
      refine ⟨s1, ?_⟩
      have e1 : |sumOver G.nodes (atNode G (step (step^[k] x))) -
          sumOver G.nodes (prT G alpha pers dangling (atNode G (step^[k] x)))| ≤ ε := by
        refine le_trans ?_ s2
        unfold l1
        rw [sumOver_nodes h, sumOver_nodes h, sumOver_nodes h, ← Finset.sum_sub_distrib]
        exact Finset.abs_sum_le_sum_abs _ _
      rw [prT_sum h hE ha] at e1
      have e2 : sumOver G.nodes (atNode G (step (step^[k] x))) - 1 =
          (sumOver G.nodes (atNode G (step (step^[k] x))) -
            (alpha * sumOver G.nodes (atNode G (step^[k] x)) + (1 - alpha))) +
          alpha * (sumOver G.nodes (atNode G (step^[k] x)) - 1) := by ring
      rw [e2]
      refine (abs_add_le _ _).trans ?_
      rw [abs_mul, abs_of_nonneg hs.alpha0]
      have := mul_le_mul_of_nonneg_left i2 hs.alpha0
      have e3 : ε + alpha * (ε / (1 - alpha)) = ε / (1 - alpha) := by
        field_simp; ring
      linarith
  refine ⟨fun k => step^[k] x, ?_, ?_, ?_⟩
  · intro r hr
    rw [heq] at hr
    cases hpi : powerIter step (Model.Fr.converged o tol) maxIter.toNat x with
    | error e => rw [hpi] at hr; cases hr
    | ok w =>
      rw [hpi] at hr; cases hr
      obtain ⟨k, hk, rfl, c1, -⟩ := powerIter_ok.1 hpi
      refine ⟨k, by omega, ?_, c1⟩
      rw [R.zero]
  · intro e hr
    rw [heq] at hr
    cases hpi : powerIter step (Model.Fr.converged o tol) maxIter.toNat x with
    | ok w => rw [hpi] at hr; cases hr
    | error e' =>
      rw [hpi] at hr; cases hr
      obtain ⟨a, b⟩ := powerIter_error.1 hpi
      exact ⟨a, fun k hk => b k (by omega)⟩
  · intro k
    obtain ⟨i1, i2⟩ := inv k
    refine ⟨i1, fun z => ?_, i2, ?_⟩
    · unfold atNode
      cases hz : G.view (step^[k] x) z with
      | none => simp
      | some c =>
        obtain ⟨i, -, hi⟩ := Option.bind_eq_some_iff.1 hz
        simpa using (i1 i c hi).2
    · have b2 : sumOver G.nodes (atNode G (step^[k] x)) ≤ 2 := by
        have := (abs_le.1 i2).2
        linarith
      show l1 G.nodes (atNode G (step^[k + 1] x)) _ ≤ ε
      rw [Function.iterate_succ_apply']
      exact (hstep _ i1 b2).2

/-- the distance of the iterates from the PageRank vector shrinks by `alpha` per pass, up to `ε` -/
theorem fr_pass (h : G.WF) (hE : ∃ u v, G.Edge u v) {iso : Option F}
    {pers nstart dangling : Option (List (K × F))} (ha : PRArgs G iso pers nstart dangling)
    {alpha : F} (hs : PRNonneg G alpha pers nstart dangling) {ε : F} {x y z : K → F}
    (hx : ∀ u, G.Node u → prT G alpha pers dangling x u = x u)
    (hz : l1 G.nodes z (prT G alpha pers dangling y) ≤ ε) :
    l1 G.nodes z x ≤ ε + alpha * l1 G.nodes y x := by
  have t := l1_triangle G.nodes z (prT G alpha pers dangling y) x
  have e : l1 G.nodes (prT G alpha pers dangling y) x =
      l1 G.nodes (prT G alpha pers dangling y) (prT G alpha pers dangling x) := by
    unfold l1 sumOver
    congr 1
    exact List.map_congr_left fun u hu => by rw [hx u hu]
  have c := prT_contract h hE ha hs y x
  rw [e] at t
  linarith

omit [IsStrictOrderedRing F] [DecidableEq K] in
theorem l1_comm (N : List K) (x y : K → F) : l1 N x y = l1 N y x := by
  unfold l1
  congr 1
  funext v
  exact abs_sub_comm _ _

omit [IsStrictOrderedRing F] in
theorem l1_change (h : G.WF) (v w : Vec G.n F) :
    ∑ i, |(v i).getD 0 - (w i).getD 0| = l1 G.nodes (atNode G v) (atNode G w) := by
  unfold l1
  rw [sumOver_nodes h]
  exact Finset.sum_congr rfl fun i _ => by rw [atNode_keyFn h, atNode_keyFn h]

/-- **C127.** In rounded arithmetic, `pagerank` assigns every node a nonnegative number, and these sum to 1 up to the
rounding error of one pass divided by `1 - alpha`, however many passes were made.  The only error it raises is
PowerIterationFailedConvergence. -/
theorem float_pagerank_distribution (h : G.WF) (hE : ∃ u v, G.Edge u v) {iso : Option F}
    {pers nstart dangling : Option (List (K × F))} (ha : PRArgs G iso pers nstart dangling)
    {alpha : F} (hs : PRNonneg G alpha pers nstart dangling) (h1 : alpha < 1) {o : Arith F} {Rp : F → Prop}
    {u η D : F} (R : Rounded o Rp u η) {tol : F} (hi : FrInput G Rp D alpha tol pers nstart dangling)
    (he : passError u η D G.nodes.length ≤ 1 - alpha) (maxIter : Int) :
    (∀ r, Model.Fr.pagerank o G iso alpha pers maxIter tol nstart dangling = .ok r → ∃ r', r = some r' ∧
      (∀ v, G.Node v → ∃ x, G.view r' v = some x ∧ 0 ≤ x) ∧
      |sumOver G.nodes (fun v => (G.view r' v).getD 0) - 1| ≤ passError u η D G.nodes.length / (1 - alpha)) ∧
    ∀ e, Model.Fr.pagerank o G iso alpha pers maxIter tol nstart dangling = .error e → e = .convergence := by
  obtain ⟨v, hok, herr, hv⟩ := fr_iterates h hE ha hs h1 R hi he maxIter
  refine ⟨fun r hr => ?_, fun e h' => (herr e h').1⟩
  obtain ⟨k, -, rfl, -⟩ := hok r hr
  refine ⟨_, rfl, fun w hw => ⟨_, atNode_fill _ w hw h, (hv (k + 1)).2.1 w⟩, ?_⟩
  have e : sumOver G.nodes (fun w => (G.view (nodemapFill none (v (k + 1)) 0) w).getD 0) =
      sumOver G.nodes (atNode G (v (k + 1))) := by
    unfold sumOver
    congr 1
    exact List.map_congr_left fun w hw => by rw [atNode_fill _ w hw h]; rfl
  rw [e]
  exact (hv (k + 1)).2.2.1

/-- **C127.** In rounded arithmetic, the result of `pagerank` is as close to the exact PageRank vector as the tolerance
and the rounding error of one pass allow. -/
theorem float_pagerank_accuracy (h : G.WF) (hE : ∃ u v, G.Edge u v) {iso : Option F}
    {pers nstart dangling : Option (List (K × F))} (ha : PRArgs G iso pers nstart dangling)
    {alpha : F} (hs : PRNonneg G alpha pers nstart dangling) (h1 : alpha < 1) {o : Arith F} {Rp : F → Prop}
    {u η D : F} (R : Rounded o Rp u η) {tol : F} (hi : FrInput G Rp D alpha tol pers nstart dangling)
    (he : passError u η D G.nodes.length ≤ 1 - alpha) (maxIter : Int) :
    ∃ x, IsPageRank G alpha pers dangling x ∧
      ∀ r, Model.Fr.pagerank o G iso alpha pers maxIter tol nstart dangling = .ok (some r) →
        l1 G.nodes (fun v => (G.view r v).getD 0) x ≤
          (alpha * (growth u ^ (G.nodes.length + 1) * (growth u ^ 2 * (G.nodes.length * tol) + η)) +
            passError u η D G.nodes.length) / (1 - alpha) := by
  obtain ⟨x, hx, -, -⟩ := pagerank_vector h hE ha hs h1
  refine ⟨x, hx, fun r hr => ?_⟩
  obtain ⟨v, hok, -, hv⟩ := fr_iterates h hE ha hs h1 R hi he maxIter
  obtain ⟨k, -, hrr, hc⟩ := hok _ hr
  cases hrr
  have e : l1 G.nodes (fun w => (G.view (nodemapFill none (v (k + 1)) 0) w).getD 0) x =
      l1 G.nodes (atNode G (v (k + 1))) x := by
    unfold l1 sumOver
    congr 1
    refine List.map_congr_left fun w hw => ?_
    show |(G.view (nodemapFill none (v (k + 1)) 0) w).getD 0 - x w| = _
    rw [atNode_fill _ w hw h]; rfl
  rw [e]
  have hlen : G.nodes.length = G.n := nodes_length h
  have hg := one_le_growth R
  have hg0 : 0 ≤ growth u ^ (G.n + 1) := pow_nonneg (by linarith) _
  unfold Model.Fr.converged at hc
  rw [R.lt] at hc
  have c1 := (change_near R (hv k).1 (hv (k + 1)).1).2
  rw [add_zero, l1_change h] at c1
  have c2 := (bound_near R (n := G.n) hi.tol).1
  have c3 : l1 G.nodes (atNode G (v k)) (atNode G (v (k + 1))) ≤
      growth u ^ (G.n + 1) * (growth u ^ 2 * (G.n * tol) + η) :=
    c1.trans (mul_le_mul_of_nonneg_left (hc.le.trans c2) hg0)
  have p := fr_pass h hE ha hs hx.fixed (hv k).2.2.2
  have t := l1_triangle G.nodes (atNode G (v k)) (atNode G (v (k + 1))) x
  have h1' : 0 < 1 - alpha := sub_pos.2 h1
  rw [le_div_iff₀ h1', hlen]
  rw [hlen] at p
  have m1 := mul_le_mul_of_nonneg_left t hs.alpha0
  have m2 := mul_le_mul_of_nonneg_left c3 hs.alpha0
  rw [mul_add] at m1
  have m3 : l1 G.nodes (atNode G (v (k + 1))) x * (1 - alpha) =
      l1 G.nodes (atNode G (v (k + 1))) x - alpha * l1 G.nodes (atNode G (v (k + 1))) x := by ring
  rw [m3]
  linarith

/-- **C127.** In rounded arithmetic, `pagerank` returns a result when the tolerance exceeds what rounding errors and
`k < max_iter` passes can leave. -/
theorem float_pagerank_converges (h : G.WF) (hE : ∃ u v, G.Edge u v) {iso : Option F}
    {pers nstart dangling : Option (List (K × F))} (ha : PRArgs G iso pers nstart dangling)
    {alpha : F} (hs : PRNonneg G alpha pers nstart dangling) (h1 : alpha < 1) {o : Arith F} {Rp : F → Prop}
    {u η D : F} (R : Rounded o Rp u η) {tol : F} (hi : FrInput G Rp D alpha tol pers nstart dangling)
    (he : passError u η D G.nodes.length ≤ 1 - alpha) {maxIter : Int} {k : Nat} (hk : (k : Int) < maxIter)
    (ht : growth u ^ 2 * (growth u ^ (G.nodes.length + 1) *
      (6 * alpha ^ k + 2 * (passError u η D G.nodes.length / (1 - alpha))) + η) < G.nodes.length * tol) :
    ∃ r, Model.Fr.pagerank o G iso alpha pers maxIter tol nstart dangling = .ok (some r) := by
  obtain ⟨x, hx, -, -⟩ := pagerank_vector h hE ha hs h1
  obtain ⟨v, hok, herr, hv⟩ := fr_iterates h hE ha hs h1 R hi he maxIter
  cases hr : Model.Fr.pagerank o G iso alpha pers maxIter tol nstart dangling with
  | ok r =>
    obtain ⟨k, -, rfl, -⟩ := hok r hr
    exact ⟨_, rfl⟩
  | error e =>
    exfalso
    have hf := (herr e hr).2 k hk
    have hlen : G.nodes.length = G.n := nodes_length h
    have hg := one_le_growth R
    have hε0 : 0 ≤ passError u η D G.nodes.length := passError_nonneg R hi.bound _
    have h1' : 0 < 1 - alpha := sub_pos.2 h1
    set ε := passError u η D G.nodes.length
    have hle : ε / (1 - alpha) ≤ 1 := (div_le_one h1').2 he
    have dist : ∀ m, l1 G.nodes (atNode G (v m)) x ≤ 3 * alpha ^ m + ε / (1 - alpha) := by
      intro m
      induction m with
      | zero =>
        have t := l1_triangle G.nodes (atNode G (v 0)) (fun _ => 0) x
        have e1 : l1 G.nodes (atNode G (v 0)) (fun _ => 0) = sumOver G.nodes (atNode G (v 0)) := by
          unfold l1
          congr 1
          funext w
          rw [sub_zero, abs_of_nonneg ((hv 0).2.1 w)]
        have e2 : l1 G.nodes (fun _ => 0) x = sumOver G.nodes x := by
          unfold l1 sumOver
          congr 1
          exact List.map_congr_left fun w hw => by rw [zero_sub, abs_neg, abs_of_nonneg (hx.nonneg w hw)]
        rw [e1, e2, hx.sum] at t
        have b := (abs_le.1 (hv 0).2.2.1).2
        have : 0 ≤ ε / (1 - alpha) := div_nonneg hε0 h1'.le
        rw [pow_zero]
        linarith
      | succ m ih =>
        have p := fr_pass h hE ha hs hx.fixed (hv m).2.2.2
        have c := mul_le_mul_of_nonneg_left ih hs.alpha0
        have e3 : ε + alpha * (ε / (1 - alpha)) = ε / (1 - alpha) := by
          field_simp; ring
        rw [mul_add] at c
        rw [pow_succ]
        linarith
    have d1 := dist k
    have d2 := dist (k + 1)
    have hpk : alpha ^ (k + 1) ≤ alpha ^ k := pow_le_pow_of_le_one hs.alpha0 hs.alpha1 (Nat.le_succ k)
    have t := l1_triangle G.nodes (atNode G (v k)) x (atNode G (v (k + 1)))
    rw [l1_comm G.nodes x] at t
    have L : l1 G.nodes (atNode G (v k)) (atNode G (v (k + 1))) ≤ 6 * alpha ^ k + 2 * (ε / (1 - alpha)) := by
      linarith
    have c1 := (change_near R (hv k).1 (hv (k + 1)).1).1
    rw [add_zero, l1_change h] at c1
    have c2 := (bound_near R (n := G.n) hi.tol).2
    have hg0 : 0 ≤ growth u ^ (G.n + 1) := pow_nonneg (by linarith) _
    have c3 := c1.trans (mul_le_mul_of_nonneg_left L hg0)
    have hg2 : 0 < growth u ^ 2 := pow_pos (by linarith) _
    rw [hlen] at ht
    have c4 := lt_of_lt_of_le ht c2
    have c5 := lt_of_mul_lt_mul_left c4 hg2.le
    have c6 : Model.Fr.vsum o (vapply o.abs (vadd o.sub (v k) (v (k + 1)))) < o.mul (o.nat G.n) tol := by
      linarith
    unfold Model.Fr.converged at hf
    rw [(R.lt _ _).2 c6] at hf
    cases hf

/-! ### the exact model is the instance with exact arithmetic -/

omit [IsStrictOrderedRing F] in
theorem fsum_exact {n : Nat} (v : Vec n F) : Model.Fr.fsum (Arith.exact F) v = reduce (· + ·) v := by
  have key : ∀ (l : List (Fin n)) (acc : Option F), l.foldl (fun acc i => omerge (· + ·) acc (v i)) acc =
      if l.filterMap v = [] then acc else some (acc.getD 0 + (l.filterMap v).sum) := by
    intro l
    induction l with
    | nil => intro acc; simp
    | cons i l ih =>
      intro acc
      rw [List.foldl_cons, ih]
      cases hi : v i with
      | none => simp [hi, omerge]; cases acc <;> rfl
      | some a =>
        simp only [List.filterMap_cons, hi]
        by_cases hl : l.filterMap v = []
        · cases acc <;> simp [hl, omerge]
        · cases acc <;> simp [hl, omerge, add_assoc]
  unfold Model.Fr.fsum Model.Fr.entries reduce
  rw [key]
  by_cases hl : (List.finRange n).filterMap v = []
  · rw [if_pos hl, if_pos hl]
  · rw [if_neg hl, if_neg hl]; simp [Arith.exact]

omit [IsStrictOrderedRing F] in
/-- **C127.** with exact arithmetic this is the model that C66 is about -/
theorem float_pagerank_exact (G : Graph K F) (iso : Option F) (alpha : F) (pers : Option (List (K × F)))
    (maxIter : Int) (tol : F) (nstart dangling : Option (List (K × F))) :
    Model.Fr.pagerank (Arith.exact F) G iso alpha pers maxIter tol nstart dangling =
      pagerank G iso alpha pers maxIter tol nstart dangling := by
  have es : ∀ {n : Nat} (v : Vec n F), Model.Fr.vsum (Arith.exact F) v = vsum v := by
    intro n v
    unfold Model.Fr.vsum vsum
    rw [fsum_exact]; simp [Arith.exact]
  have er : ∀ {n : Nat} (A : Mat n n F), Model.Fr.rowSums (Arith.exact F) A = reduceRow (· + ·) A := by
    intro n A
    funext i
    exact fsum_exact _
  have ec : ∀ {n : Nat}, Model.Fr.converged (n := n) (Arith.exact F) tol = isConverged tol := by
    intro n
    funext x y
    unfold Model.Fr.converged isConverged
    rw [es]; rfl
  have ei : ∀ {n : Nat} (x : Option (Vec n F)), Model.Fr.init (Arith.exact F) x = prInit x := by
    intro n x
    cases x with
    | none => simp [Model.Fr.init, prInit, Arith.exact]
    | some s =>
      unfold Model.Fr.init prInit
      simp only [es]
      simp [Arith.exact]
  have ep : ∀ {n : Nat} (x : Option (Vec n F)), Model.Fr.pers (Arith.exact F) x = prP x := by
    intro n x
    cases x with
    | none => simp [Model.Fr.pers, prP, Arith.exact]
    | some s =>
      unfold Model.Fr.pers prP
      simp only [es]
      simp [Arith.exact]
  have eS : ∀ {n : Nat} (d : Vec n F), Model.Fr.prS (Arith.exact F) alpha d iso = prS alpha d iso := by
    intro n d
    unfold Model.Fr.prS prS
    cases iso <;> simp [Arith.exact]
  have em : Model.Fr.semiringMul (Arith.exact F) iso = prMul iso := by
    unfold Model.Fr.semiringMul prMul
    cases iso <;> rfl
  have ek : ∀ {n : Nat} (S : Vec n F), Model.Fr.mask (Arith.exact F) S = prMask S := by
    intro n S
    simp [Model.Fr.mask, prMask, Arith.exact]
  have ed : ∀ {n : Nat} (S : Vec n F) (p : F ⊕ Vec n F) (d : Option (Vec n F)),
      Model.Fr.dangling (Arith.exact F) alpha S p d = prDangling alpha S p d := by
    intro n S p d
    unfold Model.Fr.dangling prDangling
    rw [ek]
    cases d <;> cases p <;> simp only [es] <;> simp [Arith.exact]
  have eP : ∀ {n : Nat} (p : F ⊕ Vec n F), Model.Fr.scaleP (Arith.exact F) alpha p = prScaleP alpha p := by
    intro n p
    cases p <;> simp [Model.Fr.scaleP, prScaleP, Arith.exact]
  have edot : ∀ {n : Nat} (mul : F → F → F) (x y : Vec n F), Model.Fr.dot (Arith.exact F) mul x y =
      (GB.dot (· + ·) mul x y).getD 0 := by
    intro n mul x y
    unfold Model.Fr.dot GB.dot
    rw [fsum_exact]; simp [Arith.exact]
  have est : ∀ {n : Nat} (A : Mat n n F) (S : Vec n F) (mul : F → F → F) (md : Option (Vec n F) × Option (Vec n F))
      (p : F ⊕ Vec n F), Model.Fr.step (Arith.exact F) A S mul md p =
        prStep A { S := S, mul := mul, mask := md.1, dw := md.2, p := p } := by
    intro n A S mul md p
    funext x
    obtain ⟨m, d⟩ := md
    have ev : ∀ (w : Vec n F), Model.Fr.vxm (Arith.exact F) mul w A = GB.vxm (· + ·) mul w A := by
      intro w
      funext j
      exact fsum_exact _
    have eb : Model.Fr.base p = prBase p := by cases p <;> rfl
    unfold Model.Fr.step prStep Model.Fr.addDangling prAddDangling
    rw [eb]
    dsimp only
    rw [ev]
    cases m with
    | none => rfl
    | some m =>
      cases d with
      | none => simp only [edot]; rfl
      | some d => simp only [edot]; rfl
  unfold Model.Fr.pagerank pagerank Model.Fr.pagerankV pagerankV
  simp only [er, ec, ei, ep, eS, em, ed, eP, est]
  simp [Arith.exact]

end Props
