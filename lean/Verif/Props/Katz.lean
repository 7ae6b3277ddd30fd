import Verif.Props.Centrality

/-!
# C80 katz_centrality: convergence, accuracy, uniqueness
-/

open GB Spec Model Model.Graph Proofs Proofs.Power

namespace Props

variable {K F : Type} [Field F] [LinearOrder F] [DecidableEq K] {G : Graph K F}

/-- the Katz attenuation: `|alpha|` times the total absolute weight out of any node is at most `q` -/
def KatzDamped (G : Graph K F) (alpha q : F) : Prop :=
  ∀ u, G.Node u → |alpha| * sumOver G.nodes (fun v => |(G.weight? u v).getD 0|) ≤ q

/-- `x` solves the Katz equation `x = alpha * x A + beta` on the nodes -/
def KatzSolution (G : Graph K F) (alpha : F) (beta : K → F) (x : K → F) : Prop :=
  ∀ v, G.Node v → x v = alpha * inSum G.nodes G.weight? x v + beta v

section
variable [IsStrictOrderedRing F]

theorem l1_nonneg (N : List K) (x y : K → F) : 0 ≤ l1 N x y := sumOver_nonneg fun _ _ => abs_nonneg _

/-- the Katz map is a contraction with factor `q` -/
theorem katz_contract (h : G.WF) {alpha q : F} (hq : KatzDamped G alpha q) (beta x y : K → F) :
    l1 G.nodes (katzMap G.nodes G.weight? alpha beta x) (katzMap G.nodes G.weight? alpha beta y) ≤
      q * l1 G.nodes x y := by
  unfold l1
  rw [sumOver_nodes h, sumOver_nodes h]
  have hdiff : ∀ j, |katzMap G.nodes G.weight? alpha beta x (keyFn h j) -
      katzMap G.nodes G.weight? alpha beta y (keyFn h j)| ≤
      ∑ i, |x (keyFn h i) - y (keyFn h i)| * (|alpha| * |(G.A i j).getD 0|) := by
    intro j
    unfold katzMap inSum
    rw [sumOver_nodes h, sumOver_nodes h]
    have : alpha * ∑ i, x (keyFn h i) * (G.weight? (keyFn h i) (keyFn h j)).getD 0 + beta (keyFn h j) -
        (alpha * ∑ i, y (keyFn h i) * (G.weight? (keyFn h i) (keyFn h j)).getD 0 + beta (keyFn h j)) =
        ∑ i, (x (keyFn h i) - y (keyFn h i)) * (alpha * (G.A i j).getD 0) := by
      rw [add_sub_add_right_eq_sub, ← mul_sub, ← Finset.sum_sub_distrib, Finset.mul_sum]
      refine Finset.sum_congr rfl fun i _ => ?_
      rw [weight?_keyFn]; ring
    rw [this]
    refine (Finset.abs_sum_le_sum_abs _ _).trans (le_of_eq ?_)
    refine Finset.sum_congr rfl fun i _ => ?_
    rw [abs_mul, abs_mul]
  calc ∑ j, |katzMap G.nodes G.weight? alpha beta x (keyFn h j) -
        katzMap G.nodes G.weight? alpha beta y (keyFn h j)|
      ≤ ∑ j, ∑ i, |x (keyFn h i) - y (keyFn h i)| * (|alpha| * |(G.A i j).getD 0|) :=
        Finset.sum_le_sum fun j _ => hdiff j
    _ = ∑ i, |x (keyFn h i) - y (keyFn h i)| * (|alpha| * ∑ j, |(G.A i j).getD 0|) := by
        rw [Finset.sum_comm]
        refine Finset.sum_congr rfl fun i _ => ?_
        rw [← Finset.mul_sum, ← Finset.mul_sum]
    _ ≤ ∑ i, |x (keyFn h i) - y (keyFn h i)| * q := by
        refine Finset.sum_le_sum fun i _ => mul_le_mul_of_nonneg_left ?_ (abs_nonneg _)
        have := hq (keyFn h i) (keyFn_at h i).node
        rw [sumOver_nodes h] at this
        simpa only [weight?_keyFn] using this
    _ = q * ∑ i, |x (keyFn h i) - y (keyFn h i)| := by rw [← Finset.sum_mul, mul_comm]

omit [DecidableEq K] in
theorem l1_iter_contract {N : List K} {T : (K → F) → K → F} {q : F} (h0 : 0 ≤ q)
    (hT : ∀ x y, l1 N (T x) (T y) ≤ q * l1 N x y) (x0 : K → F) (k : Nat) :
    l1 N (T^[k] x0) (T^[k + 1] x0) ≤ q ^ k * l1 N x0 (T x0) := by
  induction k with
  | zero => simp
  | succ k ih =>
    rw [Function.iterate_succ_apply', Function.iterate_succ_apply' _ (k + 1)]
    refine (hT _ _).trans ?_
    have := mul_le_mul_of_nonneg_left ih h0
    rw [pow_succ]
    linarith

omit [DecidableEq K] in
theorem l1_congr {N : List K} {x x' y y' : K → F} (hx : ∀ v ∈ N, x v = x' v) (hy : ∀ v ∈ N, y v = y' v) :
    l1 N x y = l1 N x' y' := by
  unfold l1 sumOver
  congr 1
  exact List.map_congr_left fun v hv => by rw [hx v hv, hy v hv]

/-- **C80.** with attenuation `q < 1`, the Katz equation has at most one solution. -/
theorem katz_solution_unique (h : G.WF) {alpha q : F} (hq : KatzDamped G alpha q) (h1 : q < 1)
    {beta x y : K → F} (hx : KatzSolution G alpha beta x) (hy : KatzSolution G alpha beta y)
    {u : K} (hu : G.Node u) : x u = y u := by
  have c := katz_contract h hq beta x y
  rw [l1_congr (N := G.nodes) (x := katzMap G.nodes G.weight? alpha beta x) (x' := x)
    (y := katzMap G.nodes G.weight? alpha beta y) (y' := y) (fun v hv => (hx v hv).symm) (fun v hv => (hy v hv).symm)] at c
  have h0 := l1_nonneg G.nodes x y
  have hz : l1 G.nodes x y = 0 := by
    by_contra hne
    have hp : 0 < l1 G.nodes x y := lt_of_le_of_ne h0 (Ne.symm hne)
    have := mul_lt_mul_of_pos_right h1 hp
    linarith
  unfold l1 at hz
  rw [sumOver_nodes h] at hz
  obtain ⟨i, rfl⟩ := exists_keyFn h hu
  have := (Finset.sum_eq_zero_iff_of_nonneg fun i _ => abs_nonneg (x (keyFn h i) - y (keyFn h i))).1 hz i
    (Finset.mem_univ i)
  exact sub_eq_zero.1 (abs_eq_zero.1 this)

/-- **C80.** with attenuation `q < 1`, the unnormalised result is within `q / (1 - q) * N * tol` (L1) of the
solution of the Katz equation. -/
theorem katz_accuracy (h : G.WF) {fill : Bool} {iso : Option F} {beta : F ⊕ List (K × F)}
    {nstart : Option (List (K × F))} (ha : KatzArgs G fill iso beta nstart) {alpha q : F}
    (hq : KatzDamped G alpha q) (h1 : q < 1) (sqrt : F → F) (maxIter : Int) (tol : F) {r : Vec G.n F}
    (hR : katzCentrality fill sqrt G iso alpha beta maxIter tol nstart false = .ok (some r))
    {x : K → F} (hx : KatzSolution G alpha (betaOf beta) x) :
    l1 G.nodes (fun u => (G.view r u).getD 0) x ≤ q / (1 - q) * (G.nodes.length * tol) := by
  obtain ⟨k, r', -, hr, hc, hv⟩ := (katz_correct h ha sqrt alpha maxIter tol false).1 _ hR
  cases hr
  simp only [Bool.false_eq_true, if_false] at hv
  have h0 : 0 ≤ q := by
    obtain ⟨u, hu⟩ := List.exists_mem_of_ne_nil _ ha.nonempty
    exact (mul_nonneg (abs_nonneg _) (sumOver_nonneg fun _ _ => abs_nonneg _)).trans (hq u hu)
  set T := katzMap G.nodes G.weight? alpha (betaOf beta) with hT
  set a := T^[k] (katzStart nstart) with haa
  have hb : T^[k + 1] (katzStart nstart) = T a := by rw [Function.iterate_succ_apply']
  have hc1 : l1 G.nodes a (T a) < G.nodes.length * tol := by rw [← hb]; exact hc.1
  rw [hb] at hv
  have e1 : l1 G.nodes (fun u => (G.view r u).getD 0) x = l1 G.nodes (T a) (T x) :=
    l1_congr (fun u hu => by rw [hv u hu]; rfl) fun u hu => hx u hu
  have e2 : l1 G.nodes (T a) x = l1 G.nodes (T a) (T x) := l1_congr (fun _ _ => rfl) fun u hu => hx u hu
  rw [e1]
  have c1 := katz_contract h hq (betaOf beta) a x
  rw [← hT] at c1
  have c2 := l1_triangle G.nodes a (T a) x
  rw [e2] at c2
  set L := l1 G.nodes (T a) (T x)
  rw [div_mul_eq_mul_div, le_div_iff₀ (sub_pos.2 h1)]
  have c3 := mul_le_mul_of_nonneg_left c2 h0
  have c4 := mul_le_mul_of_nonneg_left hc1.le h0
  have c5 : L * (1 - q) = L - q * L := by ring
  rw [c5]
  linarith

/-- **C80.** the call succeeds when `max_iter` exceeds a `k` with `q ^ k * D < N * tol`, `D` the L1 size of the
first update. -/
theorem katz_converges (h : G.WF) {fill : Bool} {iso : Option F} {beta : F ⊕ List (K × F)}
    {nstart : Option (List (K × F))} (ha : KatzArgs G fill iso beta nstart) {alpha q : F}
    (hq : KatzDamped G alpha q) (sqrt : F → F) {maxIter : Int} {tol : F} (normalized : Bool) {k : Nat}
    (hk : (k : Int) < maxIter)
    (htol : q ^ k * l1 G.nodes (katzStart nstart)
      (fun v => alpha * inSum G.nodes G.weight? (katzStart nstart) v + betaOf beta v) <
        G.nodes.length * tol) :
    ∃ r, katzCentrality fill sqrt G iso alpha beta maxIter tol nstart normalized = .ok (some r) := by
  have h0 : 0 ≤ q := by
    obtain ⟨u, hu⟩ := List.exists_mem_of_ne_nil _ ha.nonempty
    exact (mul_nonneg (abs_nonneg _) (sumOver_nonneg fun _ _ => abs_nonneg _)).trans (hq u hu)
  have hc := katz_correct h ha sqrt alpha maxIter tol normalized
  cases hr : katzCentrality fill sqrt G iso alpha beta maxIter tol nstart normalized with
  | error e =>
    exfalso
    have hno := ((hc.2 e).1 hr).2
    set T := katzMap G.nodes G.weight? alpha (betaOf beta)
    have hk' : l1 G.nodes (T^[k] (katzStart nstart)) (T^[k + 1] (katzStart nstart)) < G.nodes.length * tol :=
      (l1_iter_contract h0 (katz_contract h hq (betaOf beta)) _ k).trans_lt htol
    -- the first such index
    have hex : ∃ k, l1 G.nodes (T^[k] (katzStart nstart)) (T^[k + 1] (katzStart nstart)) <
        G.nodes.length * tol := ⟨k, hk'⟩
    classical
    refine hno (Nat.find hex) ?_ ⟨Nat.find_spec hex, fun j hj => Nat.find_min hex hj⟩
    have := Nat.find_min' hex hk'
    omega
  | ok R =>
    obtain ⟨-, r, -, rfl, -⟩ := hc.1 R hr
    exact ⟨r, rfl⟩

/-- **C80.** with non-negative `alpha`, weights, `beta` and start values every value is non-negative; with
`beta` positive every unnormalised value is at least `beta`. -/
theorem katz_lower (h : G.WF) {fill : Bool} {iso : Option F} {beta : F ⊕ List (K × F)}
    {nstart : Option (List (K × F))} (ha : KatzArgs G fill iso beta nstart) {alpha : F} (ha0 : 0 ≤ alpha)
    (hw : ∀ u v a, G.WEdge u v a → 0 ≤ a) (hb : ∀ u, G.Node u → 0 ≤ betaOf beta u)
    (hs : ∀ l, nstart = some l → ∀ k b, (k, b) ∈ l → 0 ≤ b)
    (sqrt : F → F) (maxIter : Int) (tol : F) {r : Vec G.n F}
    (hR : katzCentrality fill sqrt G iso alpha beta maxIter tol nstart false = .ok (some r))
    {u : K} (hu : G.Node u) : ∃ x, G.view r u = some x ∧ betaOf beta u ≤ x := by
  obtain ⟨k, r', -, hr, -, hv⟩ := (katz_correct h ha sqrt alpha maxIter tol false).1 _ hR
  cases hr
  simp only [Bool.false_eq_true, if_false] at hv
  refine ⟨_, hv u hu, ?_⟩
  have hin : ∀ x : K → F, (∀ v, G.Node v → 0 ≤ x v) → ∀ v, 0 ≤ inSum G.nodes G.weight? x v := fun x hx v =>
    sumOver_nonneg fun z hz => mul_nonneg (hx z hz) (weight?_nonneg h hw z v)
  have hnn : ∀ m v, G.Node v →
      0 ≤ (katzMap G.nodes G.weight? alpha (betaOf beta))^[m] (katzStart nstart) v := by
    intro m
    induction m with
    | zero =>
      intro v _
      cases nstart with
      | none => exact le_rfl
      | some l => exact valueIn_nonneg (hs l rfl) v
    | succ m ih =>
      intro v hv
      rw [Function.iterate_succ_apply']
      exact add_nonneg (mul_nonneg ha0 (hin _ ih v)) (hb v hv)
  rw [Function.iterate_succ_apply']
  have := mul_nonneg ha0 (hin _ (hnn k) u)
  show betaOf beta u ≤ alpha * inSum G.nodes G.weight? _ u + betaOf beta u
  linarith

/-- **C80.** a `beta` dict that gives no value to some node is rejected with a NetworkXError, whatever the
other arguments are. -/
theorem katz_beta_incomplete (h : G.WF) (hm : G.multi = false) {l : List (K × F)}
    (hnd : (l.map Prod.fst).Nodup) (hn : ∀ k b, (k, b) ∈ l → G.Node k) {u : K} (hu : G.Node u)
    (hmiss : ∀ b, (u, b) ∉ l) {nstart : Option (List (K × F))} (hns : ∀ l', nstart = some l' → ValidDict G l')
    (fill : Bool) (sqrt : F → F) (iso : Option F) (alpha : F) (maxIter : Int) (tol : F) (normalized : Bool) :
    katzCentrality fill sqrt G iso alpha (.inr l) maxIter tol nstart normalized = .error .algorithm := by
  obtain ⟨i, hi⟩ := hu.exists_id h
  have hn0 : G.n ≠ 0 := fun e => absurd i.isLt (by omega)
  have hx : ∃ x, dictToVector? G nstart = .ok x := by
    cases nstart with
    | none => exact ⟨none, rfl⟩
    | some l' =>
      obtain ⟨v, hv, -⟩ := dictToVector_ok h (hns l' rfl).1 (hns l' rfl).2.1 (hns l' rfl).2.2
      exact ⟨some v, by simp [dictToVector?, hv, Except.map]⟩
  obtain ⟨x, hx⟩ := hx
  unfold katzCentrality
  rw [hm, if_neg (by simp), if_neg hn0, hx]
  show (katzBeta G (.inr l) >>= fun b => _) = _
  by_cases hl : l = []
  · subst hl
    rfl
  · obtain ⟨v, hv, hv'⟩ := dictToVector_ok h hl hnd hn
    have hb : katzBeta G (.inr l) = .ok (.inr v) := by
      simp only [katzBeta, hv]
    rw [hb]
    have hvi : v i = none := by
      cases e : v i with
      | none => rfl
      | some b => exact absurd ((hv' u i b hi).1 e) (hmiss b)
    have hlt : nvals v ≠ G.n := by
      intro e
      have : (Finset.univ.filter fun i => (v i).isSome) = Finset.univ := by
        rw [← Finset.card_eq_iff_eq_univ]
        simpa [nvals] using e
      have := Finset.mem_univ i
      rw [← ‹_ = Finset.univ›] at this
      simp [hvi] at this
    show (katzV fill sqrt G.A iso alpha (.inr v) maxIter tol x normalized).map some = _
    have : katzCheck (.inr v : F ⊕ Vec G.n F) = .error .algorithm := by
      simp only [katzCheck]; rw [if_pos hlt]
    unfold katzV
    rw [this]
    rfl

end

/-- the hypotheses are met: on `0 → 1`, `alpha = 1/10` -/
example : KatzArgs katzG true none (.inl 1) none ∧ KatzDamped katzG (1/10) (1/10) ∧
    KatzSolution katzG (1/10) (betaOf (.inl 1)) (fun v => if v = 0 then 1 else 11/10) ∧
    (1/10 : ℚ) ^ 1 * l1 katzG.nodes (katzStart none)
      (fun v => (1/10) * inSum katzG.nodes katzG.weight? (katzStart none) v + betaOf (.inl 1) v) <
        katzG.nodes.length * (11/100) := by
  refine ⟨⟨rfl, by decide, by simp, by simp, by simp, Or.inl rfl⟩, ?_, ?_, ?_⟩
  · have : ∀ u ∈ [0, 1], |(1/10 : ℚ)| * sumOver katzG.nodes (fun v => |(katzG.weight? u v).getD 0|) ≤ 1/10 := by
      decide +kernel
    exact this
  · have : ∀ v ∈ [0, 1], (if v = 0 then (1 : ℚ) else 11/10) =
        (1/10) * inSum katzG.nodes katzG.weight? (fun v => if v = 0 then 1 else 11/10) v + 1 := by
      decide +kernel
    exact this
  · decide +kernel

end Props
