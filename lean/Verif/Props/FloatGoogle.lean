import Verif.Proofs.FloatGoogle
import Verif.Props.FloatKatz
import Verif.Props.Google

/-!
# C131 `google_matrix` with rounding
-/

open GB Spec Model Model.Graph Proofs Proofs.Power Proofs.Fr

namespace Props

variable {K F : Type} [Field F] [LinearOrder F] [IsStrictOrderedRing F] [DecidableEq K] {G : Graph K F}

/-- all numbers passed in are nonnegative numbers of the format; the total weight out of a node, and of `dangling`, is at
most `D` -/
structure FgInput (G : Graph K F) (Rp : F → Prop) (D alpha : F) (pers dangling : Option (List (K × F))) : Prop where
  alpha : Rp alpha ∧ 0 ≤ alpha ∧ alpha ≤ 1
  weights : ∀ u v a, G.WEdge u v a → Rp a ∧ 0 ≤ a
  total : ∀ u, G.Node u → outWeight G.nodes G.weight? u ≤ D
  pers : ∀ l, pers = some l → ∀ k b, (k, b) ∈ l → Rp b ∧ 0 ≤ b
  dangling : ∀ l, dangling = some l → (∀ k b, (k, b) ∈ l → Rp b ∧ 0 ≤ b) ∧ sumOver G.nodes (valueIn l) ≤ D

omit [IsStrictOrderedRing F] [DecidableEq K] [LinearOrder F] [Field F] in
theorem rowEmpty_iff {n : Nat} (A : Mat n n F) (i) : (!(countRow A i).isSome) = true ↔ ∀ j, A i j = none := by
  unfold countRow
  by_cases h : nvals (A i) = 0
  · rw [if_pos h]; simpa using nvals_eq_zero.1 h
  · rw [if_neg h]
    simp only [Option.isSome_some, Bool.not_true, Bool.false_eq_true, false_iff]
    exact fun hc => h (nvals_eq_zero.2 hc)

omit [IsStrictOrderedRing F] [LinearOrder F] in
theorem countRow_lt (h : G.WF) (hx : ∃ i, (!(countRow G.A i).isSome) = true) : nvals (countRow G.A) < G.n := by
  obtain ⟨i, hi⟩ := hx
  have : nvals (countRow G.A) = nvals (reduceRow (· + ·) G.A) := by
    unfold nvals
    congr 1
    ext i
    simp only [Finset.mem_filter, Finset.mem_univ, true_and]
    rw [reduceRow_isSome]
    have := rowEmpty_iff G.A i
    cases hc : (countRow G.A i).isSome with
    | true =>
      simp only [hc, Bool.not_true, Bool.false_eq_true, false_iff] at this
      exact ⟨fun _ => this, fun _ => rfl⟩
    | false =>
      simp only [hc, Bool.not_false, true_iff] at this
      exact ⟨fun hf => by simp at hf, fun hf => absurd this hf⟩
  rw [this]
  refine (nvals_lt _).2 ⟨i, ?_⟩
  have he := (rowEmpty_iff G.A i).1 hi
  have hr := reduceRow_isSome G.A i
  cases hc : reduceRow (· + ·) G.A i with
  | none => rfl
  | some a =>
    rw [hc] at hr
    exact absurd he (hr.1 rfl)

/-- **C131.** In rounded arithmetic `google_matrix(G)` succeeds on the same arguments; every entry is a nonnegative number
of the format and within `gmEntryError` of the transition probability, and every row sums to 1 within `gmRowError`. -/
theorem float_google (h : G.WF) (hn : G.nodes ≠ []) {o : Arith F} {Rp : F → Prop} {u η D alpha : F}
    (R : Rounded o Rp u η) {pers dangling : Option (List (K × F))} (ha : GMArgs G G.nodes pers dangling)
    (hi : FgInput G Rp D alpha pers dangling) (hs : GmSize u η D G.nodes.length) :
    ∃ M, Model.Fg.googleMatrix o G alpha pers dangling = .ok M ∧
      (∀ i j b, M i j = some b → Rp b ∧ 0 ≤ b) ∧
      (∀ i, |∑ j, (M i j).getD 0 - 1| ≤ gmRowError u η D G.nodes.length) ∧
      ∀ u' v i j, G.At u' i → G.At v j →
        |(M i j).getD 0 - googleEntry G.nodes G.weight? alpha (distOf G.nodes pers (uniform G.nodes))
          (distOf G.nodes dangling (distOf G.nodes pers (uniform G.nodes))) u' v| ≤ gmEntryError u η D G.nodes.length := by
  have hlen : G.nodes.length = G.n := nodes_length h
  have hnn : G.n ≠ 0 := by rw [← hlen]; exact fun e => hn (List.length_eq_zero_iff.1 e)
  rw [hlen] at hs ⊢
  have he := rowEmpty_iff G.A
  obtain ⟨pv, hp1, hp2, hp3⟩ := fr_dict h (d := pers) (Rp := Rp) (fun l hl => (ha.pers l hl).1)
    (fun l hl k b hm => (hi.pers l hl k b hm).2) (fun l hl k b hm => (hi.pers l hl k b hm).1)
  have hdsub : ∀ l, (if nvals (countRow G.A) < G.n then dangling else none) = some l → dangling = some l := by
    intro l hl
    split at hl
    · exact hl
    · cases hl
  obtain ⟨dv, hd1, hd2, hd3⟩ := fr_dict h (d := if nvals (countRow G.A) < G.n then dangling else none) (Rp := Rp)
    (fun l hl => (ha.dangling l (hdsub l hl)).1)
    (fun l hl k b hm => ((hi.dangling l (hdsub l hl)).1 k b hm).2)
    (fun l hl k b hm => ((hi.dangling l (hdsub l hl)).1 k b hm).1)
  have hA : ∀ i, Good Rp (G.A i) := fun i j a hA =>
    hi.weights _ _ a ⟨i, j, keyFn_at h i, keyFn_at h j, hA⟩
  have hle : ∀ i, ∑ l, (G.A i l).getD 0 ≤ D := by
    intro i
    have := hi.total _ (keyFn_at h i).node
    rwa [outWeight_eq] at this
  have hpos : ∀ i, ¬ (!(countRow G.A i).isSome) = true → 0 < ∑ l, (G.A i l).getD 0 := by
    intro i hne
    have hnd : ¬ Dangling G.nodes G.weight? (keyFn h i) := fun hc => hne ((he i).2 ((dangling_iff h i).1 hc))
    have := ha.rows _ (keyFn_at h i).node hnd
    rw [outWeight_eq] at this
    exact lt_of_le_of_ne (Finset.sum_nonneg fun j _ => (hA i).val j) (Ne.symm this)
  obtain ⟨M, hM, hspec⟩ := gmBody_near R (A := G.A) (pers := pv) (dang := dv) hs hnn ⟨hi.alpha.1, hi.alpha.2.1⟩
    hi.alpha.2.2 hA he hpos hle (by
      intro v hv
      cases hc : pers with
      | none => rw [hp2 hc] at hv; cases hv
      | some l =>
        obtain ⟨v', e, hr, hg, -⟩ := hp3 l hc
        rw [e] at hv; cases hv
        exact ⟨hg, (fr_pos h hr (fun k b hm => (hi.pers l hc k b hm).2) (ha.pers l hc).2).1⟩) (by
      intro hx v hv
      rw [if_pos (countRow_lt h hx)] at hd2 hd3
      cases hc : dangling with
      | none => rw [hd2 hc] at hv; cases hv
      | some l =>
        obtain ⟨v', e, hr, hg, -⟩ := hd3 l hc
        rw [e] at hv; cases hv
        obtain ⟨i, hii⟩ := hx
        have hdi : ∃ u, G.Node u ∧ Dangling G.nodes G.weight? u :=
          ⟨_, (keyFn_at h i).node, (dangling_iff h i).2 ((he i).1 hii)⟩
        obtain ⟨f1, f2⟩ := fr_pos h hr (fun k b hm => ((hi.dangling l hc).1 k b hm).2) ((ha.dangling l hc).2 hdi)
        exact ⟨hg, f1, by rw [← f2]; exact (hi.dangling l hc).2⟩)
  refine ⟨M, ?_, fun i j b hb => (hspec i).1 j b hb, fun i => (hspec i).2.1, ?_⟩
  · unfold Model.Fg.googleMatrix
    rw [hp1]
    show (dictToVector? G _ >>= fun o => _) = _
    rw [hd1]
    show (if G.n = 0 then _ else _) = _
    rw [if_neg hnn, hM]
  · intro u' v i j hu hv
    rw [← keyFn_eq h hu, ← keyFn_eq h hv]
    have hP : ∀ j, gmDist pv (fun _ => 1 / (G.n : F)) j = distOf G.nodes pers (uniform G.nodes) (keyFn h j) := by
      intro j
      cases hc : pers with
      | none => rw [hp2 hc]; simp [gmDist, distOf, uniform, hlen]
      | some l =>
        obtain ⟨v', e, hr, -⟩ := hp3 l hc
        rw [e]
        simp only [gmDist, distOf]
        rw [(fr_pos h hr (fun k b hm => (hi.pers l hc k b hm).2) (ha.pers l hc).2).2, ← hr j]
    have key := (hspec i).2.2 j
    unfold googleEntry
    rw [weight?_keyFn, outWeight_eq]
    rw [hP j] at key
    by_cases hii : ∀ j, G.A i j = none
    · have hie := (he i).2 hii
      rw [if_pos ((dangling_iff h i).2 hii)]
      rw [if_pos hie] at key
      rw [if_pos (countRow_lt h ⟨i, hie⟩)] at hd2 hd3
      have hD : gmDist dv (gmDist pv fun _ => 1 / (G.n : F)) j =
          distOf G.nodes dangling (distOf G.nodes pers (uniform G.nodes)) (keyFn h j) := by
        cases hc : dangling with
        | none => rw [hd2 hc]; simp only [gmDist, distOf]; exact hP j
        | some l =>
          obtain ⟨v', e, hr, -⟩ := hd3 l hc
          have hdi : ∃ u, G.Node u ∧ Dangling G.nodes G.weight? u :=
            ⟨_, (keyFn_at h i).node, (dangling_iff h i).2 hii⟩
          rw [e]
          simp only [gmDist, distOf]
          rw [(fr_pos h hr (fun k b hm => ((hi.dangling l hc).1 k b hm).2) ((ha.dangling l hc).2 hdi)).2, ← hr j]
      rw [hD] at key
      exact key
    · rw [if_neg fun hc => hii ((he i).1 hc)] at key
      rw [if_neg fun hc => hii ((dangling_iff h i).1 hc)]
      exact key

omit [IsStrictOrderedRing F] in
/-- **C131.** with exact arithmetic this is the `google_matrix` of Model/PowerIter.lean -/
theorem float_google_exact (G : Graph K F) (alpha : F) (pers dangling : Option (List (K × F))) :
    Model.Fg.googleMatrix (Arith.exact F) G alpha pers dangling = googleMatrix G alpha pers dangling := by
  have es : ∀ {n : Nat} (v : Vec n F), Model.Fr.vsum (Arith.exact F) v = vsum v := by
    intro n v
    unfold Model.Fr.vsum vsum
    rw [fsum_exact]
    simp [Arith.exact]
  have ez : ∀ x : F, ((Arith.exact F).isZero x = true) = (x = 0) := by
    intro x; simp [Arith.exact]
  have ep : ∀ {n : Nat} (v : Vec n F), Model.Fg.normPers (Arith.exact F) v = normNonzero v := by
    intro n v
    funext i
    unfold Model.Fg.normPers Model.Fg.nonzero normNonzero
    rw [es]
    cases v i with
    | none => simp
    | some a => by_cases h : a = 0 <;> simp [Arith.exact, h]
  have ed : ∀ {n : Nat} (v : Vec n F), Model.Fg.normDang (Arith.exact F) v = normNonzero v := by
    intro n v
    funext i
    unfold Model.Fg.normDang Model.Fg.nonzero normNonzero
    rw [es]
    cases v i with
    | none => simp
    | some a => by_cases h : a = 0 <;> simp [Arith.exact, h, div_eq_mul_inv, mul_comm]
  have eg : ∀ {n : Nat} (A : Mat n n F) (p : F ⊕ Vec n F),
      Model.Fg.gmScale (Arith.exact F) alpha A p = gmScale alpha A p := by
    intro n A p
    have er : Model.Fr.rowSums (Arith.exact F) A = reduceRow (· + ·) A := by
      funext i
      exact fsum_exact _
    have e2 : Model.Fr.scaleP (Arith.exact F) alpha p = prScaleP alpha p := by
      cases p <;> simp [Model.Fr.scaleP, prScaleP, Arith.exact]
    unfold Model.Fg.gmScale gmScale
    rw [er, e2]
    rfl
  have eu : ∀ n : Nat, (Arith.exact F).div ((Arith.exact F).nat 1) ((Arith.exact F).nat n) = 1 / (n : F) := by
    intro n; simp [Arith.exact]
  have eb : ∀ {n : Nat} (A : Mat n n F) (p d : Option (Vec n F)) (em : Fin n → Bool),
      Model.Fg.gmBody (Arith.exact F) alpha A p d em = gmBody alpha A p d em := by
    intro n A p d em
    unfold Model.Fg.gmBody gmBody
    cases p <;> cases d <;> simp only [es, ez, ep, ed, eg, eu]
  unfold Model.Fg.googleMatrix googleMatrix
  simp only [eb]

end Props
