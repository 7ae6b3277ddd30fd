import Verif.Proofs.FloatEigen
import Verif.Props.FloatKatz
import Verif.Props.FloatHits64

/-!
# C132 `eigenvector_centrality` with rounding and in IEEE 754 double precision
-/

open GB Spec Model Model.Graph Proofs Proofs.Power Proofs.Fr

namespace Props

variable {K F : Type} [Field F] [LinearOrder F] [IsStrictOrderedRing F] [DecidableEq K] {G : Graph K F}

/-- weights and `nstart` are nonnegative numbers of the format; the weights into any node total at most `D`, the values of
`nstart` total at most `B`, and not 0 -/
structure FeInput (G : Graph K F) (Rp : F → Prop) (D B : F) (nstart : Option (List (K × F))) : Prop where
  weights : ∀ u v a, G.WEdge u v a → Rp a ∧ 0 ≤ a
  into : ∀ v, G.Node v → sumOver G.nodes (fun u => (G.weight? u v).getD 0) ≤ D
  valid : ∀ l, nstart = some l → ValidDict G l
  values : ∀ l, nstart = some l → ∀ k b, (k, b) ∈ l → Rp b ∧ 0 ≤ b
  total : ∀ l, nstart = some l → 0 < sumOver G.nodes (valueIn l) ∧ sumOver G.nodes (valueIn l) ≤ B

/-- **C132.** In rounded arithmetic, with a square root accurate to one unit in the last place: what
`eigenvector_centrality` returns is nonnegative and its squares sum to 1 up to rounding, however many passes were made.
The only error is "not converged". -/
theorem float_eigenvector (h : G.WF) (hm : G.multi = false) (hne : G.nodes ≠ []) {o : Arith F} {Rp : F → Prop}
    {u η D B : F} (R : Rounded o Rp u η) {sqrt : F → F} (Q : SqrtAcc Rp u sqrt) {nstart : Option (List (K × F))}
    (hi : FeInput G Rp D B nstart) (hs : EigSize u η D B G.nodes.length) (maxIter : Int) (tol : F) :
    (∀ r, Model.Fe.eigenvectorCentrality o sqrt G maxIter tol nstart = .ok r →
      (∀ v x, G.view r v = some x → 0 ≤ x) ∧
      |sumOver G.nodes (fun v => atNode G r v ^ 2) - 1| ≤ eigError u η D G.nodes.length) ∧
    ∀ e, Model.Fe.eigenvectorCentrality o sqrt G maxIter tol nstart = .error e → e = .convergence := by
  have hlen : G.nodes.length = G.n := nodes_length h
  have hn : G.n ≠ 0 := by rw [← hlen]; exact fun e => hne (List.length_eq_zero_iff.1 e)
  rw [hlen] at hs ⊢
  obtain ⟨xv, hx1, hx2, hx3⟩ := fr_dict h (d := nstart) (Rp := Rp) hi.valid
    (fun l hl k b hm => (hi.values l hl k b hm).2) (fun l hl k b hm => (hi.values l hl k b hm).1)
  have hxv : ∀ v, xv = some v → Good Rp v ∧ 0 < ∑ i, (v i).getD 0 ∧ ∑ i, (v i).getD 0 ≤ B := by
    intro v hv
    cases hc : nstart with
    | none => rw [hx2 hc] at hv; cases hv
    | some l =>
      obtain ⟨v', h1, h2, h3, -⟩ := hx3 l hc
      rw [h1] at hv; cases hv
      have e : ∑ i, (v i).getD 0 = sumOver G.nodes (valueIn l) := by
        rw [sumOver_nodes h]
        exact Finset.sum_congr rfl fun i _ => h2 i
      rw [e]
      exact ⟨h3, (hi.total l hc).1, (hi.total l hc).2⟩
  have hA : ∀ i j a, G.A i j = some a → Rp a ∧ 0 ≤ a := fun i j a hA =>
    hi.weights _ _ a ⟨i, j, keyFn_at h i, keyFn_at h j, hA⟩
  have hin : ∀ j, ∑ i, (G.A i j).getD 0 ≤ D := by
    intro j
    have := hi.into (keyFn h j) (keyFn_at h j).node
    rw [sumOver_nodes h] at this
    simpa only [weight?_keyFn] using this
  obtain ⟨x0, i1, i2, i3, i4⟩ := eigInit_near R hs hn hxv
  have inv : ∀ k, let s := (Model.Fe.eigStep o sqrt G.A)^[k] x0
      Good Rp s ∧ (∀ i, (s i).getD 0 ≤ 2) ∧ 1 ≤ 4 * G.n * ∑ i, (s i).getD 0 ^ 2 := by
    intro k
    induction k with
    | zero => exact ⟨i2, i3, i4⟩
    | succ k ih =>
      rw [Function.iterate_succ_apply']
      obtain ⟨a, -, b, c⟩ := eigStep_near R Q hs hn hA hin ih.1 ih.2.1 ih.2.2
      exact ⟨a, b, c⟩
  have eV : Model.Fe.eigenvectorCentrality o sqrt G maxIter tol nstart =
      powerIter (Model.Fe.eigStep o sqrt G.A) (Model.Fr.converged o tol) maxIter.toNat x0 := by
    unfold Model.Fe.eigenvectorCentrality
    rw [if_neg (by rw [hm]; simp), if_neg hn, hx1]
    show Model.Fe.eigV o sqrt G.A maxIter tol xv = _
    unfold Model.Fe.eigV
    rw [if_neg hn, i1]
    rfl
  rw [eV]
  constructor
  · intro r hr
    obtain ⟨k, -, rfl, -⟩ := powerIter_ok.1 hr
    rw [Function.iterate_succ_apply']
    obtain ⟨a, b, -⟩ := eigStep_near R Q hs hn hA hin (inv k).1 (inv k).2.1 (inv k).2.2
    refine ⟨fun v x hv => ?_, ?_⟩
    · by_cases hvn : G.Node v
      · obtain ⟨i, rfl⟩ := exists_keyFn h hvn
        rw [view_keyFn] at hv
        exact (a i x hv).2
      · exfalso
        unfold Graph.view at hv
        rw [(Graph.idOf_eq_none h).2 hvn] at hv
        cases hv
    · rw [sumOver_nodes h]
      simpa only [atNode_keyFn h] using b
  · intro e he
    exact (powerIter_error.1 he).1

omit [IsStrictOrderedRing F] in
/-- **C132.** with exact arithmetic this is the `eigenvector_centrality` of Model/PowerIter.lean -/
theorem float_eigenvector_exact (sqrt : F → F) (G : Graph K F) (maxIter : Int) (tol : F) (nstart : Option (List (K × F))) :
    Model.Fe.eigenvectorCentrality (Arith.exact F) sqrt G maxIter tol nstart =
      eigenvectorCentrality sqrt G maxIter tol nstart := by
  have es : ∀ {n : Nat} (v : Vec n F), Model.Fr.vsum (Arith.exact F) v = vsum v := by
    intro n v
    unfold Model.Fr.vsum vsum
    rw [fsum_exact]
    simp [Arith.exact]
  have ec : ∀ {n : Nat}, Model.Fr.converged (n := n) (Arith.exact F) tol = isConverged tol := by
    intro n
    funext x y
    unfold Model.Fr.converged isConverged Model.Fr.vsum vsum
    rw [fsum_exact]
    simp [Arith.exact]
  have ei : ∀ {n : Nat} (x : Option (Vec n F)), Model.Fe.eigInit (Arith.exact F) x = eigInit x := by
    intro n x
    cases x with
    | none => simp [Model.Fe.eigInit, eigInit, Arith.exact]
    | some s =>
      unfold Model.Fe.eigInit eigInit
      simp only [es]
      simp [Arith.exact]
  have en : ∀ {n : Nat} (x : Vec n F), Model.Fk.normalizeL2 (Arith.exact F) sqrt x = normalizeL2 sqrt x := by
    intro n x
    unfold Model.Fk.normalizeL2 normalizeL2 scaleBy Model.Fr.dot
    rw [fsum_exact]
    simp [Arith.exact, dot]
  have ev : ∀ {n : Nat} (A : Mat n n F) (x : Vec n F),
      Model.Fr.vxm (Arith.exact F) (Arith.exact F).mul x A = vxm (· + ·) (· * ·) x A := by
    intro n A x
    funext j
    exact fsum_exact _
  have et : ∀ {n : Nat} (A : Mat n n F), Model.Fe.eigStep (Arith.exact F) sqrt A = eigStep sqrt A := by
    intro n A
    funext x
    unfold Model.Fe.eigStep eigStep
    rw [en, ev]
    rfl
  have eV : ∀ {n : Nat} (A : Mat n n F) (x : Option (Vec n F)),
      Model.Fe.eigV (Arith.exact F) sqrt A maxIter tol x = eigV sqrt A maxIter tol x := by
    intro n A x
    unfold Model.Fe.eigV eigV
    rw [ei, et, ec]
  unfold Model.Fe.eigenvectorCentrality eigenvectorCentrality
  simp only [eV]

end Props
