import Verif.Proofs.Power
import Verif.Props.PageRank
import Verif.Props.Small2

/-!
# C68 katz_centrality, eigenvector_centrality, hits; C69 degree centralities
-/

open GB Spec Model Model.Graph Proofs Proofs.Power

namespace Props

variable {K F : Type} [Field F] [LinearOrder F] [DecidableEq K] {G : Graph K F}

/-- `k` is the number of the first iterate `x_k` of `T` whose successor is within `N * tol` (L1) -/
def FirstConverged (N : List K) (tol : F) (T : (K → F) → K → F) (x0 : K → F) (k : Nat) : Prop :=
  l1 N (T^[k] x0) (T^[k + 1] x0) < N.length * tol ∧
    ∀ j < k, ¬ l1 N (T^[j] x0) (T^[j + 1] x0) < N.length * tol

/-- the loop, when its body computes `T` -/
theorem power_result [IsStrictOrderedRing F] (h : G.WF) {step : Vec G.n F → Vec G.n F} {x : Vec G.n F}
    {T : (K → F) → K → F} {x0 : K → F} (hit : ∀ k, Rep h (step^[k] x) (T^[k] x0)) (maxIter : Int) (tol : F) :
    (∀ r, powerIter step (isConverged tol) maxIter.toNat x = .ok r → ∃ k : Nat, (k : Int) < maxIter ∧
      FirstConverged G.nodes tol T x0 k ∧ r = step^[k + 1] x) ∧
    (∀ e, powerIter step (isConverged tol) maxIter.toNat x = .error e ↔
      e = .convergence ∧ ∀ k : Nat, (k : Int) < maxIter → ¬ FirstConverged G.nodes tol T x0 k) := by
  have hconv : ∀ j, isConverged tol (step^[j] x) (step^[j + 1] x) = true ↔
      l1 G.nodes (T^[j] x0) (T^[j + 1] x0) < G.nodes.length * tol :=
    fun j => isConverged_rep h tol (hit j) (hit (j + 1))
  have hfirst : ∀ r, powerIter step (isConverged tol) maxIter.toNat x = .ok r → ∃ k : Nat, (k : Int) < maxIter ∧
      FirstConverged G.nodes tol T x0 k ∧ r = step^[k + 1] x := by
    intro r hr
    obtain ⟨k, hk, rfl, h1, h2⟩ := powerIter_ok.1 hr
    refine ⟨k, by omega, ⟨(hconv k).1 h1, fun j hj => ?_⟩, rfl⟩
    rw [← hconv j, h2 j hj]; simp
  refine ⟨hfirst, fun e => ⟨fun he => ?_, ?_⟩⟩
  · obtain ⟨rfl, hn⟩ := powerIter_error.1 he
    refine ⟨rfl, fun k hk hc => ?_⟩
    have := (hconv k).2 hc.1
    rw [hn k (by omega)] at this; cases this
  · rintro ⟨rfl, hn⟩
    cases hr : powerIter step (isConverged tol) maxIter.toNat x with
    | ok r =>
      obtain ⟨k, hk, hc, -⟩ := hfirst r hr
      exact absurd hc (hn k hk)
    | error e => rw [(powerIter_error.1 hr).1]

/-! ### katz -/

/-- what `beta` gives each node -/
def betaOf (beta : F ⊕ List (K × F)) : K → F :=
  match beta with
  | .inl c => fun _ => c
  | .inr d => valueIn d

/-- the start vector: 0 when omitted -/
def katzStart (nstart : Option (List (K × F))) : K → F :=
  match nstart with
  | none => fun _ => 0
  | some d => valueIn d

/-- arguments of `katz_centrality`: valid dicts, `beta` (if a dict) has all nodes, the reported iso value
is the value of all edges.  When adding a number to a vector only touches stored entries
(`fill = false`; it depends on the version of the library), and `beta` is a number, every node must have
an in-edge and `nstart` must be omitted. -/
structure KatzArgs (G : Graph K F) (fill : Bool) (iso : Option F) (beta : F ⊕ List (K × F))
    (nstart : Option (List (K × F))) : Prop where
  simple : G.multi = false
  nonempty : G.nodes ≠ []
  iso_ok : ∀ c, iso = some c → ∀ u v a, G.WEdge u v a → a = c
  nstart_ok : ∀ l, nstart = some l → ValidDict G l
  beta_ok : ∀ l, beta = .inr l → ValidDict G l ∧ ∀ u, G.Node u → ∃ b, (u, b) ∈ l
  fill_ok : fill = true ∨ (∃ l, beta = .inr l) ∨
    (nstart = none ∧ ∀ v, G.Node v → ∃ u, G.Node u ∧ G.Edge u v)

omit [LinearOrder F] in
theorem vxm_iso_rep (h : G.WF) (iso : Option F)
    (hiso : ∀ c, iso = some c → ∀ i j a, G.A i j = some a → a = c) (alpha : F)
    {v : Vec G.n F} {x : K → F} (hv : Rep h v x) :
    Rep h (vapply (fun a => a * katzAlpha iso alpha) (vxm (· + ·) (prMul iso) v G.A))
      (fun u => alpha * inSum G.nodes G.weight? x u) := by
  intro j
  have e0 : ∀ (o : Option F) (c : F), (o.map fun a => a * c).getD 0 = o.getD 0 * c := by
    intro o c; cases o <;> simp
  unfold vapply
  rw [e0]
  show _ = alpha * inSum G.nodes G.weight? x (keyFn h j)
  cases iso with
  | none =>
    rw [show prMul (none : Option F) = (· * ·) from rfl, vxm_rep h hv j]
    simp [katzAlpha, mul_comm]
  | some c =>
    unfold inSum katzAlpha prMul vxm
    rw [reduce_add, sumOver_nodes h, Finset.sum_mul, Finset.mul_sum]
    refine Finset.sum_congr rfl fun i _ => ?_
    rw [weight?_keyFn, ← hv i]
    cases hA : G.A i j with
    | none => simp
    | some a =>
      have := hiso c rfl i j a hA
      subst this
      cases v i <;> simp [first]; ring

theorem katz_loop (h : G.WF) {fill : Bool} {iso : Option F} {beta : F ⊕ List (K × F)}
    {nstart : Option (List (K × F))} (ha : KatzArgs G fill iso beta nstart) (sqrt : F → F) (alpha : F)
    (maxIter : Int) (tol : F) (normalized : Bool) :
    ∃ (step : Vec G.n F → Vec G.n F) (x : Vec G.n F),
      katzCentrality fill sqrt G iso alpha beta maxIter tol nstart normalized =
        (powerIter step (isConverged tol) maxIter.toNat x).map
          (fun v => some (if normalized then normalizeL2 sqrt v else v)) ∧
      (∀ k, Rep h (step^[k] x)
        ((katzMap G.nodes G.weight? alpha (betaOf beta))^[k] (katzStart nstart))) ∧
      ∀ k i, ((step^[k + 1] x) i).isSome := by
  have hnn : G.n ≠ 0 := by
    rw [← nodes_length h]; exact fun e => ha.nonempty (List.length_eq_zero_iff.1 e)
  obtain ⟨xv, hx1, hx2, hx3⟩ := dict?_rep h (d := nstart) ha.nstart_ok
  have hiso : ∀ c, iso = some c → ∀ i j a, G.A i j = some a → a = c := by
    intro c hc i j a hA
    exact ha.iso_ok c hc (keyFn h i) (keyFn h j) a ⟨i, j, keyFn_at h i, keyFn_at h j, hA⟩
  have hstart : Rep h (katzInit xv) (katzStart nstart) := by
    cases hc : nstart with
    | none => rw [hx2 hc]; exact fun i => rfl
    | some l =>
      obtain ⟨v', rfl, hr⟩ := hx3 l hc
      exact hr
  -- `beta`
  obtain ⟨b, hb1, hb2, hb3⟩ : ∃ b, katzBeta G beta = .ok b ∧ katzCheck b = .ok () ∧
      ((∃ c, b = .inl c ∧ beta = .inl c) ∨
        (∃ v, b = .inr v ∧ Rep h v (betaOf beta) ∧ ∀ i, (v i).isSome)) := by
    cases hbc : beta with
    | inl c => exact ⟨.inl c, rfl, rfl, .inl ⟨c, rfl, rfl⟩⟩
    | inr l =>
      obtain ⟨hvalid, htot⟩ := ha.beta_ok l hbc
      obtain ⟨v, hv, hm⟩ := dictToVector_ok h hvalid.1 hvalid.2.1 hvalid.2.2
      obtain ⟨v', hv', hr⟩ := dict_rep h hvalid
      rw [hv] at hv'; cases hv'
      have hsome : ∀ i, (v i).isSome := by
        intro i
        obtain ⟨b, hb⟩ := htot _ (keyFn_at h i).node
        rw [(hm _ i b (keyFn_at h i)).2 hb]; rfl
      refine ⟨.inr v, ?_, ?_, .inr ⟨v, rfl, hr, hsome⟩⟩
      · show (match dictToVector G l with
          | .ok v => .ok (.inr v)
          | .error e => .error (if e = .valueError then .algorithm else e) :
          Except Err (F ⊕ Vec G.n F)) = _
        rw [hv]
      · unfold katzCheck
        dsimp only
        rw [if_neg]
        rw [not_not]
        have : ¬ nvals v < G.n := by
          rw [nvals_lt]; rintro ⟨i, hi⟩
          have := hsome i; rw [hi] at this; cases this
        have := nvals_le v
        omega
  -- one step
  have hstep : ∀ (v : Vec G.n F) (y : K → F), Rep h v y →
      (fill = false → (∃ c, beta = .inl c) → ∀ i, (v i).isSome) →
      Rep h (katzStep fill G.A iso alpha b v) (katzMap G.nodes G.weight? alpha (betaOf beta) y) ∧
      ∀ i, (katzStep fill G.A iso alpha b v i).isSome := by
    intro v y hv hdense
    have hw := vxm_iso_rep h iso hiso alpha hv
    unfold katzStep
    rcases hb3 with ⟨c, rfl, hbc⟩ | ⟨bv, rfl, hr, hsome⟩
    · have hpat : fill = true ∨ ∀ j, (vapply (fun a => a * katzAlpha iso alpha)
          (vxm (· + ·) (prMul iso) v G.A) j).isSome := by
        rcases ha.fill_ok with hf | ⟨l, hl⟩ | ⟨-, hin⟩
        · exact .inl hf
        · rw [hbc] at hl; cases hl
        · cases hfc : fill with
          | true => exact .inl rfl
          | false =>
            refine .inr fun j => ?_
            obtain ⟨u, hu, hedge⟩ := hin _ (keyFn_at h j).node
            obtain ⟨i, rfl⟩ := exists_keyFn h hu
            unfold vapply
            rw [Option.isSome_map, vxm_isSome]
            exact ⟨i, hdense hfc ⟨c, hbc⟩ i, (edge_keyFn h i j).1 hedge⟩
      have hval : ∀ j, katzAdd fill (.inl c) (vapply (fun a => a * katzAlpha iso alpha)
          (vxm (· + ·) (prMul iso) v G.A)) j = some (alpha * inSum G.nodes G.weight? y (keyFn h j) + c) := by
        intro j
        have hj : (vapply (fun a => a * katzAlpha iso alpha) (vxm (· + ·) (prMul iso) v G.A) j).getD 0 =
            alpha * inSum G.nodes G.weight? y (keyFn h j) := hw j
        unfold katzAdd addScalar
        dsimp only
        cases hc : vapply (fun a => a * katzAlpha iso alpha) (vxm (· + ·) (prMul iso) v G.A) j with
        | some a =>
          rw [hc] at hj
          have : a = alpha * inSum G.nodes G.weight? y (keyFn h j) := hj
          rw [this]
        | none =>
          rw [hc] at hj
          have : (0 : F) = alpha * inSum G.nodes G.weight? y (keyFn h j) := hj
          rcases hpat with hf | hp
          · rw [hf, ← this]; simp
          · have := hp j; rw [hc] at this; cases this
      constructor
      · intro j
        rw [hval j, hbc]; rfl
      · intro j; rw [hval j]; rfl
    · constructor
      · intro j
        unfold katzAdd vadd
        dsimp only
        rw [omerge_getD, hw j, hr j]; rfl
      · intro j
        unfold katzAdd vadd
        dsimp only
        rw [isSome_omerge, hsome j, Bool.or_true]
  have hrun : ∀ k, Rep h ((katzStep fill G.A iso alpha b)^[k] (katzInit xv))
      ((katzMap G.nodes G.weight? alpha (betaOf beta))^[k] (katzStart nstart)) ∧
      (fill = false → (∃ c, beta = .inl c) → ∀ i, ((katzStep fill G.A iso alpha b)^[k] (katzInit xv) i).isSome) := by
    intro k
    induction k with
    | zero =>
      refine ⟨hstart, fun hf hbc i => ?_⟩
      rcases ha.fill_ok with hf' | ⟨l, hl⟩ | ⟨hn, -⟩
      · rw [hf] at hf'; cases hf'
      · obtain ⟨c, hc⟩ := hbc; rw [hc] at hl; cases hl
      · rw [hx2 hn]; rfl
    | succ k ih =>
      rw [Function.iterate_succ_apply', Function.iterate_succ_apply']
      obtain ⟨h1, h2⟩ := hstep _ _ ih.1 ih.2
      exact ⟨h1, fun _ _ => h2⟩
  refine ⟨katzStep fill G.A iso alpha b, katzInit xv, ?_, fun k => (hrun k).1, fun k i => ?_⟩
  · unfold katzCentrality
    rw [ha.simple]
    simp only [Bool.false_eq_true, if_false]
    rw [if_neg hnn, hx1]
    show (katzBeta G beta >>= fun o => _) = _
    rw [hb1]
    show (katzV fill sqrt G.A iso alpha b maxIter tol xv normalized).map some = _
    unfold katzV
    rw [hb2]
    show (powerIter _ _ _ _ >>= fun o => _).map some = _
    cases powerIter (katzStep fill G.A iso alpha b) (isConverged tol) maxIter.toNat (katzInit xv) <;> rfl
  · rw [Function.iterate_succ_apply']
    exact (hstep _ _ (hrun k).1 (hrun k).2).2 i

omit [LinearOrder F] [DecidableEq K] in
theorem over_map [DecidableEq F] (c : F) (x : K → F) (v : K) : over c x v = if c = 0 then x v else x v / c := by
  unfold over; split <;> rfl

/-- **C68 (Katz).** `katz_centrality` returns the first iterate of `x ↦ alpha * x A + beta` that is within
`N * tol` of its predecessor, every node present, divided by its Euclidean norm when `normalized`; it
raises PowerIterationFailedConvergence exactly when there is none within `max_iter` iterations. -/
theorem katz_correct [IsStrictOrderedRing F] (h : G.WF) {fill : Bool} {iso : Option F}
    {beta : F ⊕ List (K × F)} {nstart : Option (List (K × F))} (ha : KatzArgs G fill iso beta nstart)
    (sqrt : F → F) (alpha : F) (maxIter : Int) (tol : F) (normalized : Bool) :
    (∀ R, katzCentrality fill sqrt G iso alpha beta maxIter tol nstart normalized = .ok R →
      ∃ (k : Nat) (r : Vec G.n F), (k : Int) < maxIter ∧ R = some r ∧
        FirstConverged G.nodes tol (katzMap G.nodes G.weight? alpha (betaOf beta)) (katzStart nstart) k ∧
        ∀ u, G.Node u → G.view r u = some (
          let y := (katzMap G.nodes G.weight? alpha (betaOf beta))^[k + 1] (katzStart nstart)
          if normalized then over (norm2 sqrt G.nodes y) y u else y u)) ∧
    (∀ e, katzCentrality fill sqrt G iso alpha beta maxIter tol nstart normalized = .error e ↔
      e = .convergence ∧ ∀ k : Nat, (k : Int) < maxIter →
        ¬ FirstConverged G.nodes tol (katzMap G.nodes G.weight? alpha (betaOf beta)) (katzStart nstart) k) := by
  obtain ⟨step, x, heq, hit, hsome⟩ := katz_loop h ha sqrt alpha maxIter tol normalized
  have hpr := power_result h hit maxIter tol
  rw [heq]
  constructor
  · intro R hR
    cases hp : powerIter step (isConverged tol) maxIter.toNat x with
    | error e => rw [hp] at hR; cases hR
    | ok r =>
      rw [hp] at hR; cases hR
      obtain ⟨k, hk, hc, rfl⟩ := hpr.1 r hp
      refine ⟨k, _, hk, rfl, hc, fun u hu => ?_⟩
      obtain ⟨i, rfl⟩ := exists_keyFn h hu
      rw [view_keyFn]
      have hs := hsome k i
      dsimp only
      cases normalized with
      | false =>
        simp only [Bool.false_eq_true, if_false]
        obtain ⟨a, ha'⟩ := Option.isSome_iff_exists.1 hs
        have := hit (k + 1) i
        rw [ha'] at this ⊢
        rw [← this]; rfl
      | true =>
        simp only [if_true]
        have hs' : ((normalizeL2 sqrt (step^[k + 1] x)) i).isSome := by
          unfold normalizeL2 scaleBy
          split
          · exact hs
          · unfold vapply; rw [Option.isSome_map]; exact hs
        obtain ⟨a, ha'⟩ := Option.isSome_iff_exists.1 hs'
        have := normalizeL2_rep h sqrt (hit (k + 1)) i
        rw [ha'] at this ⊢
        rw [← this]; rfl
  · intro e
    rw [← hpr.2 e]
    cases powerIter step (isConverged tol) maxIter.toNat x <;> simp [Except.map]

/-- the Euclidean norm of a normalised vector is 1 -/
theorem norm2_over [IsStrictOrderedRing F] {sqrt : F → F} (hsq : ∀ y, 0 ≤ y → sqrt y * sqrt y = y)
    (N : List K) (x : K → F) (h0 : norm2 sqrt N x ≠ 0) :
    sumOver N (fun v => over (norm2 sqrt N x) x v * over (norm2 sqrt N x) x v) = 1 := by
  have hs : norm2 sqrt N x * norm2 sqrt N x = sumOver N fun v => x v * x v :=
    hsq _ (sumOver_nonneg fun v _ => mul_self_nonneg _)
  have e : sumOver N (fun v => over (norm2 sqrt N x) x v * over (norm2 sqrt N x) x v) =
      (sumOver N fun v => x v * x v) / (norm2 sqrt N x * norm2 sqrt N x) := by
    unfold sumOver
    rw [div_eq_mul_inv, ← List.sum_map_mul_right]
    congr 1
    refine List.map_congr_left fun v _ => ?_
    rw [over_map, if_neg h0]
    field_simp
  rw [e, ← hs, div_self (mul_ne_zero h0 h0)]

/-- **C68 (Katz).** normalised Katz values have Euclidean norm 1 (`sqrt` is the square root), unless all
unnormalised values are 0. -/
theorem katz_norm [IsStrictOrderedRing F] (h : G.WF) {fill : Bool} {iso : Option F}
    {beta : F ⊕ List (K × F)} {nstart : Option (List (K × F))} (ha : KatzArgs G fill iso beta nstart)
    {sqrt : F → F} (hsq : ∀ y, 0 ≤ y → sqrt y * sqrt y = y) (alpha : F) (maxIter : Int) (tol : F)
    {r : Vec G.n F}
    (hR : katzCentrality fill sqrt G iso alpha beta maxIter tol nstart true = .ok (some r)) :
    sumOver G.nodes (fun u => (G.view r u).getD 0 * (G.view r u).getD 0) = 1 ∨
      ∀ u, G.Node u → G.view r u = some 0 := by
  obtain ⟨k, r', -, hr, -, hv⟩ := (katz_correct h ha sqrt alpha maxIter tol true).1 _ hR
  cases hr
  simp only [if_true] at hv
  set y := (katzMap G.nodes G.weight? alpha (betaOf beta))^[k + 1] (katzStart nstart) with hy
  by_cases h0 : norm2 sqrt G.nodes y = 0
  · right
    intro u hu
    rw [hv u hu, over_map, if_pos h0]
    have hs : sumOver G.nodes (fun v => y v * y v) = 0 := by
      have := hsq (sumOver G.nodes fun v => y v * y v) (sumOver_nonneg fun v _ => mul_self_nonneg _)
      unfold norm2 at h0
      rw [h0, mul_zero] at this
      exact this.symm
    rw [sumOver_nodes h] at hs
    obtain ⟨i, rfl⟩ := exists_keyFn h hu
    have := (Finset.sum_eq_zero_iff_of_nonneg fun i _ => mul_self_nonneg (y (keyFn h i))).1 hs i
      (Finset.mem_univ i)
    rw [mul_self_eq_zero.1 this]
  · left
    rw [← norm2_over hsq G.nodes y h0]
    unfold sumOver
    congr 1
    refine List.map_congr_left fun u hu => ?_
    rw [hv u hu]; rfl

/-- 0→1 -/
def katzG : Graph Nat ℚ where
  n := 2
  A := Ex.ofTriples 2 [(0,1,1)]
  keyToId := [(0,0), (1,1)]
  directed := true

/-- **C68 (Katz), finding (depends on the library).**  If adding a number to a vector touches stored entries
only, nodes without in-edges are missing from the iterates: on `0 → 1` the result has no value for
node 0, and then none for node 1, although their Katz values are `beta` and `beta + alpha * beta`. -/
theorem katz_sources_missing : ∃ G : Graph Nat ℚ, G.WF ∧
    (match katzCentrality false id G none (1/10) (.inl 1) 100 (1/100) none false with
      | .ok (some r) => decide (G.view r 0 = none ∧ G.view r 1 = none)
      | _ => false) = true ∧
    (match katzCentrality true id G none (1/10) (.inl 1) 100 (1/100) none false with
      | .ok (some r) => decide (G.view r 0 = some 1 ∧ G.view r 1 = some (11/10))
      | _ => false) = true :=
  ⟨katzG, ⟨by decide, by decide⟩, by decide +kernel, by decide +kernel⟩

example : KatzArgs katzG true none (.inl 1) none := by
  refine ⟨rfl, by decide, by simp, by simp, by simp, .inl rfl⟩

/-! ### eigenvector centrality -/

omit [DecidableEq K] in
theorem eigStep_isSome {n : Nat} {sqrt : F → F} {A : Mat n n F} {x : Vec n F} {i : Fin n}
    (hi : (x i).isSome) : (eigStep sqrt A x i).isSome := by
  unfold eigStep normalizeL2 scaleBy
  split
  · unfold vadd; rw [isSome_omerge, hi]; rfl
  · unfold vapply vadd; rw [Option.isSome_map, isSome_omerge, hi]; rfl

/-- **C68 (eigenvector).** `eigenvector_centrality` returns the first iterate of `x ↦ x (I + A) / ‖x (I + A)‖₂`,
from the start vector scaled to sum 1, that is within `N * tol` of its predecessor; it raises
PowerIterationFailedConvergence exactly when there is none within `max_iter` iterations.  Without
`nstart` every node has a value (with `nstart`, a missing value means 0). -/
theorem eigenvector_correct [IsStrictOrderedRing F] (h : G.WF) (hm : G.multi = false) (hne : G.nodes ≠ [])
    {nstart : Option (List (K × F))}
    (hs : ∀ l, nstart = some l → ValidDict G l ∧ sumOver G.nodes (valueIn l) ≠ 0)
    (sqrt : F → F) (maxIter : Int) (tol : F) :
    (∀ r, eigenvectorCentrality sqrt G maxIter tol nstart = .ok r →
      ∃ k : Nat, (k : Int) < maxIter ∧
        FirstConverged G.nodes tol (eigMap sqrt G.nodes G.weight?) (prStart G nstart) k ∧
        (∀ u, G.Node u →
          (G.view r u).getD 0 = (eigMap sqrt G.nodes G.weight?)^[k + 1] (prStart G nstart) u) ∧
        (nstart = none → ∀ u, G.Node u → (G.view r u).isSome)) ∧
    (∀ e, eigenvectorCentrality sqrt G maxIter tol nstart = .error e ↔
      e = .convergence ∧ ∀ k : Nat, (k : Int) < maxIter →
        ¬ FirstConverged G.nodes tol (eigMap sqrt G.nodes G.weight?) (prStart G nstart) k) := by
  have hnn : G.n ≠ 0 := by
    rw [← nodes_length h]; exact fun e => hne (List.length_eq_zero_iff.1 e)
  obtain ⟨xv, hx1, hx2, hx3⟩ := dict?_rep h (d := nstart) fun l hl => (hs l hl).1
  obtain ⟨x, hx, hxr, hxs⟩ : ∃ x, eigInit xv = .ok x ∧ Rep h x (prStart G nstart) ∧
      (nstart = none → ∀ i, (x i).isSome) := by
    cases hc : nstart with
    | none =>
      rw [hx2 hc]
      exact ⟨_, rfl, fun i => by simp [prStart, distOf, uniform, nodes_length h], fun _ _ => rfl⟩
    | some l =>
      obtain ⟨v', rfl, hr⟩ := hx3 l hc
      refine ⟨vapply (fun a => a * (1 / vsum v')) v', ?_, scaled_rep h hr _, by simp⟩
      unfold eigInit
      dsimp only
      rw [if_neg]
      rw [vsum_rep h hr]; exact (hs l hc).2
  have hstep : ∀ v y, Rep h v y → Rep h (eigStep sqrt G.A v) (eigMap sqrt G.nodes G.weight? y) := by
    intro v y hv
    refine normalizeL2_rep h sqrt ?_
    intro i
    unfold vadd
    rw [omerge_getD, hv i, vxm_rep h hv i]
  have hit := fun k => iterate_rel (R := Rep h) hstep hxr k
  have hpr := power_result h hit maxIter tol
  have heq : eigenvectorCentrality sqrt G maxIter tol nstart =
      powerIter (eigStep sqrt G.A) (isConverged tol) maxIter.toNat x := by
    unfold eigenvectorCentrality
    rw [hm]
    simp only [Bool.false_eq_true, if_false]
    rw [if_neg hnn, hx1]
    show eigV sqrt G.A maxIter tol xv = _
    unfold eigV
    rw [if_neg hnn, hx]; rfl
  rw [heq]
  refine ⟨fun r hr => ?_, hpr.2⟩
  obtain ⟨k, hk, hc, rfl⟩ := hpr.1 r hr
  refine ⟨k, hk, hc, fun u hu => ?_, fun hn u hu => ?_⟩
  · obtain ⟨i, rfl⟩ := exists_keyFn h hu
    rw [view_keyFn]; exact hit (k + 1) i
  · obtain ⟨i, rfl⟩ := exists_keyFn h hu
    rw [view_keyFn]
    have : ∀ m i, ((eigStep sqrt G.A)^[m] x i).isSome := by
      intro m
      induction m with
      | zero => exact hxs hn
      | succ m ih =>
        intro i
        rw [Function.iterate_succ_apply']
        exact eigStep_isSome (ih i)
    exact this _ i

/-- **C68 (eigenvector).** the result has Euclidean norm 1, unless it is 0 everywhere. -/
theorem eigenvector_norm [IsStrictOrderedRing F] (h : G.WF) (hm : G.multi = false) (hne : G.nodes ≠ [])
    {nstart : Option (List (K × F))}
    (hs : ∀ l, nstart = some l → ValidDict G l ∧ sumOver G.nodes (valueIn l) ≠ 0)
    {sqrt : F → F} (hsq : ∀ y, 0 ≤ y → sqrt y * sqrt y = y) (maxIter : Int) (tol : F) {r : Vec G.n F}
    (hR : eigenvectorCentrality sqrt G maxIter tol nstart = .ok r) :
    sumOver G.nodes (fun u => (G.view r u).getD 0 * (G.view r u).getD 0) = 1 ∨
      ∀ u, G.Node u → (G.view r u).getD 0 = 0 := by
  obtain ⟨k, -, -, hv, -⟩ := (eigenvector_correct h hm hne hs sqrt maxIter tol).1 r hR
  rw [Function.iterate_succ_apply'] at hv
  generalize (eigMap sqrt G.nodes G.weight?)^[k] (prStart G nstart) = x at hv
  obtain ⟨y, hy⟩ : ∃ y : K → F, y = fun v => x v + inSum G.nodes G.weight? x v := ⟨_, rfl⟩
  unfold eigMap at hv
  rw [← hy] at hv
  by_cases h0 : norm2 sqrt G.nodes y = 0
  · right
    intro u hu
    have := hv u hu
    rw [over_map, if_pos h0] at this
    rw [this]
    have hs : sumOver G.nodes (fun v => y v * y v) = 0 := by
      have := hsq (sumOver G.nodes fun v => y v * y v) (sumOver_nonneg fun v _ => mul_self_nonneg _)
      unfold norm2 at h0
      rw [h0, mul_zero] at this
      exact this.symm
    rw [sumOver_nodes h] at hs
    obtain ⟨i, rfl⟩ := exists_keyFn h hu
    have := (Finset.sum_eq_zero_iff_of_nonneg fun i _ => mul_self_nonneg (y (keyFn h i))).1 hs i
      (Finset.mem_univ i)
    exact mul_self_eq_zero.1 this
  · left
    rw [← norm2_over hsq G.nodes y h0]
    unfold sumOver
    congr 1
    refine List.map_congr_left fun u hu => ?_
    rw [hv u hu]

/-- the null graph has no eigenvector centrality -/
theorem eigenvector_null (hn : G.n = 0) (hm : G.multi = false) (sqrt : F → F) (maxIter : Int) (tol : F)
    (nstart : Option (List (K × F))) :
    eigenvectorCentrality sqrt G maxIter tol nstart = .error .pointless := by
  unfold eigenvectorCentrality
  rw [hm]
  simp only [Bool.false_eq_true, if_false]
  rw [if_pos hn]

/-! ### hits -/

/-- the final scaling of `hits`: to sum 1 when `normalized`, otherwise to maximum 1 -/
def hitsScale (N : List K) (normalized : Bool) (x : K → F) : K → F :=
  if normalized then over (sumOver N x) x else over (maxOver N x) x

/-- **C68 (HITS).** with non-negative weights and start values, `hits` returns `(h, a)` with `h` the first
iterate of hubs → authorities → hubs (scaled to maximum 1) within `N * tol` of its predecessor and `a`
the authorities of that predecessor; both scaled to sum 1 when `normalized` (otherwise maximum 1).
It raises exactly when there is none within `max_iter` iterations (ValueError when `max_iter < 1`). -/
theorem hits_correct [IsStrictOrderedRing F] (h : G.WF) (hne : G.nodes ≠ [])
    (hw : ∀ u v a, G.WEdge u v a → 0 ≤ a) {nstart : Option (List (K × F))}
    (hs : ∀ l, nstart = some l → ValidDict G l ∧ sumOver G.nodes (valueIn l) ≠ 0 ∧
      ∀ k b, (k, b) ∈ l → 0 ≤ b)
    (maxIter : Int) (tol : F) (normalized : Bool) :
    (∀ R, hits G maxIter tol nstart normalized = .ok R →
      ∃ (k : Nat) (hub auth : Vec G.n F), (k : Int) < maxIter ∧ R = some (hub, auth) ∧
        FirstConverged G.nodes tol (hubMap G.nodes G.weight?) (prStart G nstart) k ∧
        (∀ u, G.Node u → G.view hub u = some (
          let y := (hubMap G.nodes G.weight?)^[k + 1] (prStart G nstart)
          if normalized then over (sumOver G.nodes y) y u else y u)) ∧
        (∀ u, G.Node u → G.view auth u = some (hitsScale G.nodes normalized
          (inSum G.nodes G.weight? ((hubMap G.nodes G.weight?)^[k] (prStart G nstart))) u))) ∧
    (∀ e, hits G maxIter tol nstart normalized = .error e ↔
      e = (if maxIter < 1 then .valueError else .convergence) ∧ ∀ k : Nat, (k : Int) < maxIter →
        ¬ FirstConverged G.nodes tol (hubMap G.nodes G.weight?) (prStart G nstart) k) := by
  have hnn : G.n ≠ 0 := by
    rw [← nodes_length h]; exact fun e => hne (List.length_eq_zero_iff.1 e)
  obtain ⟨xv, hx1, hx2, hx3⟩ := dict?_rep h (d := nstart) fun l hl => (hs l hl).1
  have hw' : ∀ i j a, G.A i j = some a → 0 ≤ a := fun i j a hA =>
    hw (keyFn h i) (keyFn h j) a ⟨i, j, keyFn_at h i, keyFn_at h j, hA⟩
  -- non-negative vectors
  have getD0 : ∀ {o : Option F}, (∀ a, o = some a → 0 ≤ a) → 0 ≤ o.getD 0 := by
    intro o ho
    cases o with
    | none => exact le_rfl
    | some a => exact ho a rfl
  obtain ⟨x, hx, hxr, hx0⟩ : ∃ x, hitsInit xv = .ok x ∧ Rep h x (prStart G nstart) ∧
      ∀ i a, x i = some a → 0 ≤ a := by
    cases hc : nstart with
    | none =>
      rw [hx2 hc]
      refine ⟨_, rfl, fun i => by simp [prStart, distOf, uniform, nodes_length h], fun i a hi => ?_⟩
      cases hi; positivity
    | some l =>
      obtain ⟨v', rfl, hr⟩ := hx3 l hc
      have hv0 : ∀ i, 0 ≤ (v' i).getD 0 := fun i => by
        rw [hr i]; exact valueIn_nonneg (hs l hc).2.2 _
      refine ⟨vapply (fun a => a * (1 / vsum v')) v', ?_, scaled_rep h hr _, ?_⟩
      · unfold hitsInit
        dsimp only
        rw [if_neg]
        rw [vsum_rep h hr]; exact (hs l hc).2.1
      · intro i a hi
        unfold vapply at hi
        cases hvi : v' i with
        | none => rw [hvi] at hi; cases hi
        | some b =>
          rw [hvi] at hi; cases hi
          have hb := hv0 i
          rw [hvi] at hb
          have : 0 ≤ vsum v' := by rw [vsum_eq]; exact Finset.sum_nonneg fun i _ => hv0 i
          exact mul_nonneg hb (by positivity)
  have hA0 : ∀ {v : Vec G.n F}, (∀ i a, v i = some a → 0 ≤ a) → ∀ j a, hitsA G.A v j = some a → 0 ≤ a := by
    intro v hv j a hj
    have e := vxm_times_getD v G.A j
    unfold hitsA at hj
    rw [hj] at e
    have e' : a = ∑ l, (v l).getD 0 * (G.A l j).getD 0 := e
    rw [e']
    exact Finset.sum_nonneg fun l _ => mul_nonneg (getD0 (hv l)) (getD0 (hw' l j))
  have hM0 : ∀ {v : Vec G.n F}, (∀ i a, v i = some a → 0 ≤ a) → ∀ j a,
      mxv (· + ·) (· * ·) G.A v j = some a → 0 ≤ a := by
    intro v hv j a hj
    have e := mxv_times_getD G.A v j
    rw [hj] at e
    have e' : a = ∑ l, (G.A j l).getD 0 * (v l).getD 0 := e
    rw [e']
    exact Finset.sum_nonneg fun l _ => mul_nonneg (getD0 (hw' j l)) (getD0 (hv l))
  have hN0 : ∀ {v : Vec G.n F}, (∀ i a, v i = some a → 0 ≤ a) → ∀ j a, normalizeLinf v j = some a → 0 ≤ a := by
    intro v hv j a hj
    unfold normalizeLinf scaleBy at hj
    have hmax : 0 ≤ (reduce max v).getD 0 := by
      refine getD0 fun b hb => ?_
      obtain ⟨⟨i, hi⟩, -⟩ := reduce_max.1 hb
      exact hv i b hi
    split at hj
    · exact hv j a hj
    · unfold vapply at hj
      cases hvj : v j with
      | none => rw [hvj] at hj; cases hj
      | some b =>
        rw [hvj] at hj; cases hj
        exact mul_nonneg (hv j b hvj) (one_div_nonneg.2 hmax)
  have hstep : ∀ (s : Vec G.n F × Vec G.n F) (y : K → F), (Rep h s.1 y ∧ ∀ i a, s.1 i = some a → 0 ≤ a) →
      (Rep h (hitsStep G.A s).1 (hubMap G.nodes G.weight? y) ∧
        ∀ i a, (hitsStep G.A s).1 i = some a → 0 ≤ a) := by
    rintro s y ⟨hv, h0⟩
    have ha0 := hA0 h0
    exact ⟨normalizeLinf_rep h (mxv_rep h (vxm_rep h hv)) (hM0 ha0), hN0 (hM0 ha0)⟩
  have hit := fun k => iterate_rel (R := fun (s : Vec G.n F × Vec G.n F) y =>
    Rep h s.1 y ∧ ∀ i a, s.1 i = some a → 0 ≤ a) hstep (x := (x, vempty)) ⟨hxr, hx0⟩ k
  have hconv : ∀ j, isConverged tol ((hitsStep G.A)^[j] (x, vempty)).1
      ((hitsStep G.A)^[j + 1] (x, vempty)).1 = true ↔
      l1 G.nodes ((hubMap G.nodes G.weight?)^[j] (prStart G nstart))
        ((hubMap G.nodes G.weight?)^[j + 1] (prStart G nstart)) < G.nodes.length * tol :=
    fun j => isConverged_rep h tol (hit j).1 (hit (j + 1)).1
  set conv := fun s t : Vec G.n F × Vec G.n F => isConverged tol s.1 t.1 with hconvdef
  have hfirst : ∀ s, powerIter (hitsStep G.A) conv maxIter.toNat (x, vempty) = .ok s →
      ∃ k : Nat, (k : Int) < maxIter ∧
        FirstConverged G.nodes tol (hubMap G.nodes G.weight?) (prStart G nstart) k ∧
        s = (hitsStep G.A)^[k + 1] (x, vempty) := by
    intro s hr
    obtain ⟨k, hk, rfl, h1, h2⟩ := powerIter_ok.1 hr
    refine ⟨k, by omega, ⟨(hconv k).1 h1, fun j hj => ?_⟩, rfl⟩
    rw [← hconv j]
    have := h2 j hj
    simpa [hconvdef] using this
  have heq : hits G maxIter tol nstart normalized =
      match powerIter (hitsStep G.A) conv maxIter.toNat (x, vempty) with
      | .ok s => .ok (some (if normalized then
          (nodemapFill none (normalizeL1 s.1) 0, nodemapFill none (normalizeL1 s.2) 0)
          else (nodemapFill none s.1 0, nodemapFill none (normalizeLinf s.2) 0)))
      | .error e => .error (if e = .convergence ∧ maxIter < 1 then .valueError else e) := by
    unfold hits
    rw [if_neg hnn, hx1]
    show (match hitsV G.A maxIter tol xv normalized with
      | .ok s => .ok (some (nodemapFill none s.1 0, nodemapFill none s.2 0))
      | .error e => .error (if e = .convergence ∧ maxIter < 1 then .valueError else e) :
      Except Err (Option (Vec G.n F × Vec G.n F))) = _
    have : hitsV G.A maxIter tol xv normalized =
        (powerIter (hitsStep G.A) conv maxIter.toNat (x, vempty)).map fun s =>
          if normalized then (normalizeL1 s.1, normalizeL1 s.2) else (s.1, normalizeLinf s.2) := by
      unfold hitsV
      rw [if_neg hnn, hx]
      show (powerIter _ _ _ _ >>= fun o => _) = _
      cases powerIter (hitsStep G.A) conv maxIter.toNat (x, vempty) <;> rfl
    rw [this]
    cases powerIter (hitsStep G.A) conv maxIter.toNat (x, vempty) with
    | error e => rfl
    | ok s => cases normalized <;> rfl
  rw [heq]
  constructor
  · intro R hR
    cases hp : powerIter (hitsStep G.A) conv maxIter.toNat (x, vempty) with
    | error e => rw [hp] at hR; cases hR
    | ok s =>
      rw [hp] at hR
      obtain ⟨k, hk, hc, hsk⟩ := hfirst s hp
      have h1 : Rep h s.1 ((hubMap G.nodes G.weight?)^[k + 1] (prStart G nstart)) := by
        rw [hsk]; exact (hit (k + 1)).1
      have hs2 : s.2 = hitsA G.A ((hitsStep G.A)^[k] (x, vempty)).1 := by
        rw [hsk, Function.iterate_succ_apply']; rfl
      have h2 : Rep h s.2 (inSum G.nodes G.weight? ((hubMap G.nodes G.weight?)^[k] (prStart G nstart))) := by
        rw [hs2]; exact vxm_rep h (hit k).1
      have h20 : ∀ i a, s.2 i = some a → 0 ≤ a := by
        rw [hs2]; exact hA0 (hit k).2
      have hfill : ∀ {v : Vec G.n F} {y : K → F}, Rep h v y → ∀ u, G.Node u →
          G.view (nodemapFill none v 0) u = some (y u) := by
        intro v y hv u hu
        obtain ⟨i, rfl⟩ := exists_keyFn h hu
        rw [view_keyFn]
        show some _ = _
        rw [hv i]
      cases normalized with
      | true =>
        simp only [if_true] at hR
        cases hR
        exact ⟨k, _, _, hk, rfl, hc, hfill (normalizeL1_rep h h1), hfill (normalizeL1_rep h h2)⟩
      | false =>
        simp only [Bool.false_eq_true, if_false] at hR
        cases hR
        exact ⟨k, _, _, hk, rfl, hc, hfill h1, hfill (normalizeLinf_rep h h2 h20)⟩
  · intro e
    cases hp : powerIter (hitsStep G.A) conv maxIter.toNat (x, vempty) with
    | ok s =>
      obtain ⟨k, hk, hc, -⟩ := hfirst s hp
      simp only [reduceCtorEq, false_iff, not_and, not_forall]
      exact fun _ => ⟨k, hk, not_not.2 hc⟩
    | error e' =>
      obtain ⟨rfl, hn⟩ := powerIter_error.1 hp
      simp only [true_and, Except.error.injEq]
      constructor
      · rintro rfl
        refine ⟨rfl, fun k hk hc => ?_⟩
        have := (hconv k).2 hc.1
        have h2 : isConverged tol ((hitsStep G.A)^[k] (x, vempty)).1
          ((hitsStep G.A)^[k + 1] (x, vempty)).1 = false := hn k (by omega)
        rw [this] at h2
        cases h2
      · rintro ⟨rfl, -⟩; rfl

/-- the hypotheses are met, and the call succeeds -/
example : prG.nodes ≠ [] ∧ (∀ i j, ∀ b ∈ prG.A i j, (0 : ℚ) ≤ b) ∧
    (match hits prG 10 (1/10) none true with
      | .ok (some (hub, auth)) => decide (prG.view hub 1 ≠ prG.view hub 2 ∧ prG.view auth 2 ≠ some 0)
      | _ => false) = true := by
  refine ⟨by decide, by decide +kernel, by decide +kernel⟩

example : (match eigenvectorCentrality (fun y => y) prG 10 (1/2) none with
    | .ok r => decide ((prG.view r 1).isSome)
    | _ => false) = true := by decide +kernel

/-! ### C69 -/

section degree
variable {α F : Type} [Field F] {H : Graph K α}

omit [DecidableEq K] in
private theorem degCent_view [DecidableEq K] (h : H.WF) (d : Vec H.n Nat) (deg : K → Nat)
    (hd : ∀ i, (d i).getD 0 = deg (keyFn h i)) {u : K} (hu : H.Node u) :
    H.view (nodemapFill none (degreeCentralityV d) (0 : F)) u =
      some (if H.nodes.length ≤ 1 then 1 else (deg u : F) / ((H.nodes.length : F) - 1)) := by
  obtain ⟨i, rfl⟩ := exists_keyFn h hu
  rw [view_keyFn, nodes_length h]
  show some _ = some _
  congr 1
  unfold degreeCentralityV
  by_cases hn : H.n ≤ 1
  · rw [if_pos hn, if_pos hn]; rfl
  · rw [if_neg hn, if_neg hn, ← hd i]
    unfold vapply
    cases d i <;> simp [div_eq_mul_inv, mul_comm]

/-- **C69.** `degree_centrality` of a directed graph: in-degree plus out-degree, over `N - 1`; 1 when
there is at most one node.  Every node has a value. -/
theorem degree_centrality_directed (h : H.WF) (hdir : H.directed = true) {u : K} (hu : H.Node u) :
    H.view (degreeCentrality H : Vec H.n F) u = some (if H.nodes.length ≤ 1 then 1 else
      ((outDeg H.nodes H.Edge u + inDeg H.nodes H.Edge u : Nat) : F) / ((H.nodes.length : F) - 1)) := by
  refine degCent_view h _ (fun u => outDeg H.nodes H.Edge u + inDeg H.nodes H.Edge u) (fun i => ?_) hu
  unfold degreesP
  simp only [hdir, if_true]
  exact totalDegreesP_getD h i

/-- **C69.** `degree_centrality` of an undirected graph: number of neighbours (a self-loop counts the
node itself, once), over `N - 1`. -/
theorem degree_centrality_undirected (h : H.WF) (hdir : H.directed = false) {u : K} (hu : H.Node u) :
    H.view (degreeCentrality H : Vec H.n F) u = some (if H.nodes.length ≤ 1 then 1 else
      (outDeg H.nodes H.Edge u : F) / ((H.nodes.length : F) - 1)) := by
  refine degCent_view h _ (fun u => outDeg H.nodes H.Edge u) (fun i => ?_) hu
  unfold degreesP
  simp only [hdir, Bool.false_eq_true, if_false]
  rw [countRow_getD, outDeg_eq h, nvals_eq_sum]

/-- **C69.** `in_degree_centrality` and `out_degree_centrality` of a directed graph. -/
theorem in_out_degree_centrality (h : H.WF) (hdir : H.directed = true) :
    ∃ vin vout : Vec H.n F, inDegreeCentrality H = .ok vin ∧ outDegreeCentrality H = .ok vout ∧
      ∀ u, H.Node u →
        H.view vin u = some (if H.nodes.length ≤ 1 then 1 else
          (inDeg H.nodes H.Edge u : F) / ((H.nodes.length : F) - 1)) ∧
        H.view vout u = some (if H.nodes.length ≤ 1 then 1 else
          (outDeg H.nodes H.Edge u : F) / ((H.nodes.length : F) - 1)) := by
  refine ⟨_, _, by unfold inDegreeCentrality; rw [if_neg (by simp [hdir])],
    by unfold outDegreeCentrality; rw [if_neg (by simp [hdir])], fun u hu => ⟨?_, ?_⟩⟩
  · refine degCent_view h _ (fun u => inDeg H.nodes H.Edge u) (fun i => ?_) hu
    rw [countRow_getD, inDeg_eq h, nvals_eq_sum]
  · refine degCent_view h _ (fun u => outDeg H.nodes H.Edge u) (fun i => ?_) hu
    rw [countRow_getD, outDeg_eq h, nvals_eq_sum]

/-- **C69.** on undirected graphs the in- and out-variants are not implemented. -/
theorem in_out_degree_centrality_undirected (hdir : H.directed = false) :
    (inDegreeCentrality H : Except Err (Vec H.n F)) = .error .notImplemented ∧
    (outDegreeCentrality H : Except Err (Vec H.n F)) = .error .notImplemented := by
  constructor
  · unfold inDegreeCentrality; rw [if_pos hdir]
  · unfold outDegreeCentrality; rw [if_pos hdir]

example : Ex.dg.view (degreeCentrality Ex.dg : Vec Ex.dg.n ℚ) 20 = some (3/3) ∧
    Ex.dg.view (degreeCentrality Ex.dg : Vec Ex.dg.n ℚ) 40 = some 0 := by decide +kernel

end degree

end Props
