import Verif.Props.Centrality

/-!
# C68: hits(..., with_authority=True)
-/

open GB Spec Model Model.Graph Proofs Proofs.Power

namespace Props

variable {K F : Type} [Field F] [LinearOrder F] [DecidableEq K] {G : Graph K F}

omit [LinearOrder F] in
theorem authMatrix_rep (h : G.WF) {v : Vec G.n F} {x : K → F} (hv : Rep h v x) :
    Rep h (mxv (· + ·) (· * ·) (authMatrix G.A) v) (inSum G.nodes G.weight? (outSum G.nodes G.weight? x)) := by
  intro j
  rw [← vxm_rep h (mxv_rep h hv) j, mxv_times_getD, vxm_times_getD]
  simp only [authMatrix, mxm_times_getD, mxv_times_getD, transpose, Finset.sum_mul]
  rw [Finset.sum_comm]
  refine Finset.sum_congr rfl fun i _ => Finset.sum_congr rfl fun l _ => ?_
  ring

/-- **C68 (HITS with the authority matrix).** with non-negative weights and start values,
`algorithms.hits(G, ..., with_authority=True)` returns `(h, a)` with `a` the first iterate of
authorities → hubs → authorities (scaled to maximum 1) within `N * tol` of its predecessor, started from `nstart` read
as authorities, and `h` the hubs of that same `a`; both scaled to sum 1 when `normalized` (otherwise maximum 1).  It raises
ConvergenceFailure exactly when there is none within `max_iter` iterations. -/
theorem hits_with_authority_correct [IsStrictOrderedRing F] (h : G.WF) (hne : G.nodes ≠ [])
    (hw : ∀ u v a, G.WEdge u v a → 0 ≤ a) {nstart : Option (List (K × F))}
    (hs : ∀ l, nstart = some l → ValidDict G l ∧ sumOver G.nodes (valueIn l) ≠ 0 ∧
      ∀ k b, (k, b) ∈ l → 0 ≤ b)
    (maxIter : Int) (tol : F) (normalized : Bool) :
    (∀ hub auth, hitsAuthority G maxIter tol nstart normalized = .ok (hub, auth) →
      ∃ k : Nat, (k : Int) < maxIter ∧
        FirstConverged G.nodes tol (authMap G.nodes G.weight?) (prStart G nstart) k ∧
        (∀ u, G.Node u → (G.view hub u).getD 0 = hitsScale G.nodes normalized
          (outSum G.nodes G.weight? ((authMap G.nodes G.weight?)^[k + 1] (prStart G nstart))) u) ∧
        (∀ u, G.Node u → (G.view auth u).getD 0 =
          let y := (authMap G.nodes G.weight?)^[k + 1] (prStart G nstart)
          if normalized then over (sumOver G.nodes y) y u else y u)) ∧
    (∀ e, hitsAuthority G maxIter tol nstart normalized = .error e ↔
      e = .convergence ∧ ∀ k : Nat, (k : Int) < maxIter →
        ¬ FirstConverged G.nodes tol (authMap G.nodes G.weight?) (prStart G nstart) k) := by
  have hnn : G.n ≠ 0 := by
    rw [← nodes_length h]; exact fun e => hne (List.length_eq_zero_iff.1 e)
  obtain ⟨xv, hx1, hx2, hx3⟩ := dict?_rep h (d := nstart) fun l hl => (hs l hl).1
  have hw' : ∀ i j a, G.A i j = some a → 0 ≤ a := fun i j a hA =>
    hw (keyFn h i) (keyFn h j) a ⟨i, j, keyFn_at h i, keyFn_at h j, hA⟩
  have getD0 : ∀ {o : Option F}, (∀ a, o = some a → 0 ≤ a) → 0 ≤ o.getD 0 := by
    intro o ho
    cases o with
    | none => exact le_rfl
    | some a => exact ho a rfl
  obtain ⟨x, hx, hxr, hx0⟩ : ∃ x, hitsInit xv = .ok x ∧ Rep h x (prStart G nstart) ∧
      ∀ i a, x i = some a → 0 ≤ a := by
    cases hc : nstart with
    | none =>
      rw [hx2 hc]
      refine ⟨_, rfl, fun i => by simp [prStart, distOf, uniform, nodes_length h], fun i a hi => ?_⟩
      cases hi; positivity
    | some l =>
      obtain ⟨v', rfl, hr⟩ := hx3 l hc
      have hv0 : ∀ i, 0 ≤ (v' i).getD 0 := fun i => by
        rw [hr i]; exact valueIn_nonneg (hs l hc).2.2 _
      refine ⟨vapply (fun a => a * (1 / vsum v')) v', ?_, scaled_rep h hr _, ?_⟩
      · unfold hitsInit
        dsimp only
        rw [if_neg]
        rw [vsum_rep h hr]; exact (hs l hc).2.1
      · intro i a hi
        unfold vapply at hi
        cases hvi : v' i with
        | none => rw [hvi] at hi; cases hi
        | some b =>
          rw [hvi] at hi; cases hi
          have hb := hv0 i
          rw [hvi] at hb
          have : 0 ≤ vsum v' := by rw [vsum_eq]; exact Finset.sum_nonneg fun i _ => hv0 i
          exact mul_nonneg hb (by positivity)
  have hM0 : ∀ {B : Mat G.n G.n F} {v : Vec G.n F}, (∀ i j, 0 ≤ (B i j).getD 0) →
      (∀ i a, v i = some a → 0 ≤ a) → ∀ j a, mxv (· + ·) (· * ·) B v j = some a → 0 ≤ a := by
    intro B v hB hv j a hj
    have e := mxv_times_getD B v j
    rw [hj] at e
    have e' : a = ∑ l, (B j l).getD 0 * (v l).getD 0 := e
    rw [e']
    exact Finset.sum_nonneg fun l _ => mul_nonneg (hB j l) (getD0 (hv l))
  have hATA : ∀ i j, 0 ≤ (authMatrix G.A i j).getD 0 := by
    intro i j
    unfold authMatrix
    rw [mxm_times_getD]
    exact Finset.sum_nonneg fun l _ => mul_nonneg (getD0 (hw' l i)) (getD0 (hw' l j))
  have hN0 : ∀ {v : Vec G.n F}, (∀ i a, v i = some a → 0 ≤ a) → ∀ j a, normalizeLinf v j = some a → 0 ≤ a := by
    intro v hv j a hj
    unfold normalizeLinf scaleBy at hj
    have hmax : 0 ≤ (reduce max v).getD 0 := by
      refine getD0 fun b hb => ?_
      obtain ⟨⟨i, hi⟩, -⟩ := reduce_max.1 hb
      exact hv i b hi
    split at hj
    · exact hv j a hj
    · unfold vapply at hj
      cases hvj : v j with
      | none => rw [hvj] at hj; cases hj
      | some b =>
        rw [hvj] at hj; cases hj
        exact mul_nonneg (hv j b hvj) (one_div_nonneg.2 hmax)
  have hstep : ∀ (v : Vec G.n F) (y : K → F), (Rep h v y ∧ ∀ i a, v i = some a → 0 ≤ a) →
      (Rep h (hitsAuthStep G.A v) (authMap G.nodes G.weight? y) ∧
        ∀ i a, hitsAuthStep G.A v i = some a → 0 ≤ a) := by
    rintro v y ⟨hv, h0⟩
    exact ⟨normalizeLinf_rep h (authMatrix_rep h hv) (hM0 hATA h0), hN0 (hM0 hATA h0)⟩
  have hit := fun k => iterate_rel (R := fun (v : Vec G.n F) y =>
    Rep h v y ∧ ∀ i a, v i = some a → 0 ≤ a) hstep (x := x) ⟨hxr, hx0⟩ k
  have hconv : ∀ j, isConverged tol ((hitsAuthStep G.A)^[j] x) ((hitsAuthStep G.A)^[j + 1] x) = true ↔
      l1 G.nodes ((authMap G.nodes G.weight?)^[j] (prStart G nstart))
        ((authMap G.nodes G.weight?)^[j + 1] (prStart G nstart)) < G.nodes.length * tol :=
    fun j => isConverged_rep h tol (hit j).1 (hit (j + 1)).1
  have hfirst : ∀ s, powerIter (hitsAuthStep G.A) (isConverged tol) maxIter.toNat x = .ok s →
      ∃ k : Nat, (k : Int) < maxIter ∧
        FirstConverged G.nodes tol (authMap G.nodes G.weight?) (prStart G nstart) k ∧
        s = (hitsAuthStep G.A)^[k + 1] x := by
    intro s hr
    obtain ⟨k, hk, rfl, h1, h2⟩ := powerIter_ok.1 hr
    refine ⟨k, by omega, ⟨(hconv k).1 h1, fun j hj => ?_⟩, rfl⟩
    rw [← hconv j]
    simpa using h2 j hj
  have heq : hitsAuthority G maxIter tol nstart normalized =
      (powerIter (hitsAuthStep G.A) (isConverged tol) maxIter.toNat x).map fun a =>
        if normalized then (normalizeL1 (mxv (· + ·) (· * ·) G.A a), normalizeL1 a)
        else (normalizeLinf (mxv (· + ·) (· * ·) G.A a), a) := by
    unfold hitsAuthority
    rw [hx1]
    show hitsAuthV G.A maxIter tol xv normalized = _
    unfold hitsAuthV
    rw [if_neg hnn, hx]
    show (powerIter _ _ _ _ >>= fun o => _) = _
    cases powerIter (hitsAuthStep G.A) (isConverged tol) maxIter.toNat x <;> rfl
  rw [heq]
  have hread : ∀ {v : Vec G.n F} {y : K → F}, Rep h v y → ∀ u, G.Node u → (G.view v u).getD 0 = y u := by
    intro v y hv u hu
    obtain ⟨i, rfl⟩ := exists_keyFn h hu
    rw [view_keyFn]
    exact hv i
  constructor
  · intro hub auth hR
    cases hp : powerIter (hitsAuthStep G.A) (isConverged tol) maxIter.toNat x with
    | error e => rw [hp] at hR; cases hR
    | ok s =>
      rw [hp] at hR
      obtain ⟨k, hk, hc, hsk⟩ := hfirst s hp
      have h1 : Rep h s ((authMap G.nodes G.weight?)^[k + 1] (prStart G nstart)) := by
        rw [hsk]; exact (hit (k + 1)).1
      have h10 : ∀ i a, s i = some a → 0 ≤ a := by rw [hsk]; exact (hit (k + 1)).2
      have h2 := mxv_rep h h1
      have h20 := hM0 (B := G.A) (fun i j => getD0 (hw' i j)) h10
      refine ⟨k, hk, hc, ?_⟩
      cases normalized with
      | true => cases hR; exact ⟨hread (normalizeL1_rep h h2), hread (normalizeL1_rep h h1)⟩
      | false => cases hR; exact ⟨hread (normalizeLinf_rep h h2 h20), hread h1⟩
  · intro e
    cases hp : powerIter (hitsAuthStep G.A) (isConverged tol) maxIter.toNat x with
    | ok s =>
      obtain ⟨k, hk, hc, -⟩ := hfirst s hp
      simp only [Except.map, reduceCtorEq, false_iff, not_and, not_forall]
      exact fun _ => ⟨k, hk, not_not.2 hc⟩
    | error e' =>
      obtain ⟨rfl, hn⟩ := powerIter_error.1 hp
      simp only [Except.map, Except.error.injEq]
      constructor
      · rintro rfl
        refine ⟨rfl, fun k hk hc => ?_⟩
        have := (hconv k).2 hc.1
        rw [hn k (by omega)] at this
        cases this
      · rintro ⟨rfl, -⟩; rfl

/-- the hypotheses are met, and the call succeeds -/
example : prG.nodes ≠ [] ∧ (∀ i j, ∀ b ∈ prG.A i j, (0 : ℚ) ≤ b) ∧
    (match hitsAuthority prG 10 (1/10) none true with
      | .ok (hub, auth) => decide (prG.view hub 1 ≠ prG.view hub 2 ∧ prG.view auth 2 ≠ some 0)
      | _ => false) = true := by
  refine ⟨by decide, by decide +kernel, by decide +kernel⟩

end Props
