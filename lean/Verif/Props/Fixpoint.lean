import Verif.Props.PageRank
import Verif.Props.Katz
import Mathlib.LinearAlgebra.FiniteDimensional.Basic
import Mathlib.LinearAlgebra.Pi
import Mathlib.Tactic.LinearCombination

/-!
# C66, C80: the vectors that pagerank and Katz centrality approximate exist and are unique
-/

open GB Spec Model Model.Graph Proofs

namespace Props

variable {K F : Type} [Field F] [LinearOrder F] [IsStrictOrderedRing F] [DecidableEq K] {G : Graph K F}

/-- a function on nodes from one on ids -/
theorem exists_fun (h : G.WF) (y : Fin G.n → F) : ∃ x : K → F, ∀ i, x (keyFn h i) = y i := by
  classical
  refine ⟨fun u => if hu : ∃ i, keyFn h i = u then y hu.choose else 0, fun i => ?_⟩
  have hu : ∃ j, keyFn h j = keyFn h i := ⟨i, rfl⟩
  show (if hu : ∃ j, keyFn h j = keyFn h i then y hu.choose else 0) = y i
  rw [dif_pos hu, keyFn_inj h hu.choose_spec]

/-- an affine contraction has a fixed point (over any ordered field: the space is finite dimensional) -/
theorem affine_fixpoint (h : G.WF) {T : (K → F) → K → F} {M : K → K → F} {b : K → F} {q : F} (h1 : q < 1)
    (hT : ∀ x v, T x v = sumOver G.nodes (fun u => x u * M u v) + b v)
    (hc : ∀ x y, l1 G.nodes (T x) (T y) ≤ q * l1 G.nodes x y) : ∃ x, ∀ u, G.Node u → T x u = x u := by
  let L : (Fin G.n → F) →ₗ[F] (Fin G.n → F) :=
    { toFun := fun y j => y j - ∑ i, y i * M (keyFn h i) (keyFn h j)
      map_add' := by
        intro y z; funext j
        simp only [Pi.add_apply, add_mul, Finset.sum_add_distrib]; ring
      map_smul' := by
        intro c y; funext j
        simp only [Pi.smul_apply, smul_eq_mul, RingHom.id_apply, mul_assoc, ← Finset.mul_sum]; ring }
  have hinj : Function.Injective L := by
    rw [← LinearMap.ker_eq_bot, LinearMap.ker_eq_bot']
    intro y hy
    obtain ⟨x, hx⟩ := exists_fun h y
    have e : ∀ v ∈ G.nodes, T x v - T 0 v = x v := by
      intro v hv
      obtain ⟨j, rfl⟩ := exists_keyFn h hv
      rw [hT, hT, sumOver_nodes h, sumOver_nodes h, hx]
      have := congrFun hy j
      simp only [L, LinearMap.coe_mk, AddHom.coe_mk, Pi.zero_apply] at this
      simp only [hx, Pi.zero_apply, zero_mul, Finset.sum_const_zero]
      linear_combination -this
    have hc' := hc x 0
    have : l1 G.nodes (T x) (T 0) = l1 G.nodes x 0 := by
      unfold l1 sumOver
      congr 1
      refine List.map_congr_left fun v hv => ?_
      rw [e v hv, Pi.zero_apply, sub_zero]
    rw [this] at hc'
    have hz : l1 G.nodes x 0 = 0 := by
      by_contra hne
      have hp : 0 < l1 G.nodes x 0 := lt_of_le_of_ne (l1_nonneg _ _ _) (Ne.symm hne)
      have := mul_lt_mul_of_pos_right h1 hp
      linarith
    unfold l1 at hz
    rw [sumOver_nodes h] at hz
    funext i
    have := (Finset.sum_eq_zero_iff_of_nonneg fun i _ => abs_nonneg (x (keyFn h i) - (0 : K → F) (keyFn h i))).1 hz i
      (Finset.mem_univ i)
    have := abs_eq_zero.1 this
    rw [Pi.zero_apply, sub_zero, hx] at this
    exact this
  obtain ⟨y, hy⟩ := LinearMap.injective_iff_surjective.1 hinj fun j => b (keyFn h j)
  obtain ⟨x, hx⟩ := exists_fun h y
  refine ⟨x, fun u hu => ?_⟩
  obtain ⟨j, rfl⟩ := exists_keyFn h hu
  have := congrFun hy j
  simp only [L, LinearMap.coe_mk, AddHom.coe_mk] at this
  rw [hT, sumOver_nodes h, hx]
  simp only [hx]
  linear_combination -this

/-- **C80.** With attenuation `q < 1` the Katz equation has exactly one solution, and whatever the start vector and the
bounds, an unnormalised result is within `q / (1 - q) * N * tol` (L1) of it. -/
theorem katz_solution_exists (h : G.WF) {alpha q : F} (hq : KatzDamped G alpha q) (h1 : q < 1)
    (beta : F ⊕ List (K × F)) :
    ∃ x, KatzSolution G alpha (betaOf beta) x ∧
      (∀ y, KatzSolution G alpha (betaOf beta) y → ∀ u, G.Node u → y u = x u) ∧
      ∀ fill iso nstart, KatzArgs G fill iso beta nstart → ∀ sqrt maxIter tol r,
        katzCentrality fill sqrt G iso alpha beta maxIter tol nstart false = .ok (some r) →
          l1 G.nodes (fun u => (G.view r u).getD 0) x ≤ q / (1 - q) * (G.nodes.length * tol) := by
  obtain ⟨x, hx⟩ := affine_fixpoint h (T := katzMap G.nodes G.weight? alpha (betaOf beta)) (q := q)
    (M := fun u v => alpha * (G.weight? u v).getD 0) (b := betaOf beta) h1 (by
      intro x v
      unfold katzMap inSum
      rw [sumOver_nodes h, sumOver_nodes h, Finset.mul_sum]
      congr 1
      exact Finset.sum_congr rfl fun i _ => by ring) (katz_contract h hq (betaOf beta))
  have hx' : KatzSolution G alpha (betaOf beta) x := fun v hv => (hx v hv).symm
  exact ⟨x, hx', fun y hy u hu => katz_solution_unique h hq h1 hy hx' hu,
    fun _ _ _ ha sqrt m tol _ hR => katz_accuracy h ha hq h1 sqrt m tol hR hx'⟩

/-- the PageRank vector: a distribution over the nodes that one step of the random surfer leaves as it is -/
structure IsPageRank (G : Graph K F) (alpha : F) (pers dangling : Option (List (K × F))) (x : K → F) : Prop where
  fixed : ∀ u, G.Node u → prT G alpha pers dangling x u = x u
  sum : sumOver G.nodes x = 1
  nonneg : ∀ u, G.Node u → 0 ≤ x u

/-- **C66.** With `alpha < 1`, nonnegative weights and arguments, there is exactly one PageRank vector; every result of
`pagerank` is within `alpha / (1 - alpha) * N * tol` (L1) of it. -/
theorem pagerank_vector (h : G.WF) (hE : ∃ u v, G.Edge u v) {iso : Option F}
    {pers nstart dangling : Option (List (K × F))} (ha : PRArgs G iso pers nstart dangling)
    {alpha : F} (hs : PRNonneg G alpha pers nstart dangling) (h1 : alpha < 1) :
    ∃ x, IsPageRank G alpha pers dangling x ∧
      (∀ y, (∀ u, G.Node u → prT G alpha pers dangling y u = y u) → ∀ u, G.Node u → y u = x u) ∧
      ∀ maxIter tol r, pagerank G iso alpha pers maxIter tol nstart dangling = .ok (some r) →
        l1 G.nodes (fun u => (G.view r u).getD 0) x ≤ alpha / (1 - alpha) * (G.nodes.length * tol) := by
  have hp := fun v => distOf_nonneg (N := G.nodes) hs.pers (uniform_nonneg G.nodes) v
  have hd := fun v => distOf_nonneg (N := G.nodes) hs.dangling hp v
  have h1' : 0 < 1 - alpha := sub_pos.2 h1
  obtain ⟨x, hx⟩ := affine_fixpoint h (T := prT G alpha pers dangling) (q := alpha)
    (M := fun u v => alpha * tr G (distOf G.nodes dangling (distOf G.nodes pers (uniform G.nodes))) u v)
    (b := fun v => (1 - alpha) * distOf G.nodes pers (uniform G.nodes) v) h1 (by
      intro x v
      unfold prT
      rw [prMap_tr, sumOver_nodes h, sumOver_nodes h, Finset.mul_sum]
      congr 1
      exact Finset.sum_congr rfl fun i _ => by ring) (prT_contract h hE ha hs)
  have hsum : sumOver G.nodes x = 1 := by
    have e := prT_sum h hE ha alpha x
    have e2 : sumOver G.nodes (prT G alpha pers dangling x) = sumOver G.nodes x := by
      unfold sumOver; rw [List.map_congr_left (l := G.nodes) hx]
    rw [e2] at e
    have : (1 - alpha) * (sumOver G.nodes x - 1) = 0 := by linear_combination e
    rcases mul_eq_zero.1 this with h0 | h0
    · exact absurd h0 h1'.ne'
    · exact sub_eq_zero.1 h0
  refine ⟨x, ⟨hx, hsum, ?_⟩, ?_, fun m tol r hR => pagerank_accuracy h hE ha hs h1 m tol hR hx⟩
  · set y : K → F := fun u => max (x u) 0 with hy
    have key : ∀ u, G.Node u → y u ≤ prT G alpha pers dangling y u := by
      intro u hu
      refine max_le ?_ ?_
      · rw [← hx u hu]
        unfold prT
        rw [prMap_tr, prMap_tr]
        refine add_le_add_left (mul_le_mul_of_nonneg_left ?_ hs.alpha0) _
        rw [sumOver_nodes h, sumOver_nodes h]
        exact Finset.sum_le_sum fun i _ =>
          mul_le_mul_of_nonneg_right (le_max_left _ _) (tr_nonneg h hs.weights hd _ _)
      · unfold prT
        rw [prMap_tr]
        exact add_nonneg (mul_nonneg hs.alpha0 (sumOver_nonneg fun z _ =>
          mul_nonneg (le_max_right _ _) (tr_nonneg h hs.weights hd z u))) (mul_nonneg h1'.le (hp u))
    have hle : sumOver G.nodes y ≤ alpha * sumOver G.nodes y + (1 - alpha) := by
      rw [← prT_sum h hE ha alpha y, sumOver_nodes h, sumOver_nodes h]
      exact Finset.sum_le_sum fun i _ => key _ (keyFn_at h i).node
    have hle1 : sumOver G.nodes y ≤ sumOver G.nodes x := by
      rw [hsum]
      have : (1 - alpha) * (sumOver G.nodes y) ≤ (1 - alpha) * 1 := by linarith
      exact le_of_mul_le_mul_left this h1'
    rw [sumOver_nodes h, sumOver_nodes h, ← sub_nonpos, ← Finset.sum_sub_distrib] at hle1
    have hnn : ∀ i ∈ Finset.univ, 0 ≤ y (keyFn h i) - x (keyFn h i) := fun i _ => sub_nonneg.2 (le_max_left _ _)
    have hz := (Finset.sum_eq_zero_iff_of_nonneg hnn).1 (le_antisymm hle1 (Finset.sum_nonneg hnn))
    intro u hu
    obtain ⟨i, rfl⟩ := exists_keyFn h hu
    have := hz i (Finset.mem_univ i)
    rw [← sub_eq_zero.1 this]
    exact le_max_right _ _
  · intro z hz u hu
    have c := prT_contract h hE ha hs z x
    rw [l1_congr (N := G.nodes) hz hx] at c
    have h0 := l1_nonneg G.nodes z x
    have hz0 : l1 G.nodes z x = 0 := by
      by_contra hne
      have hp : 0 < l1 G.nodes z x := lt_of_le_of_ne h0 (Ne.symm hne)
      have := mul_lt_mul_of_pos_right h1 hp
      linarith
    unfold l1 at hz0
    rw [sumOver_nodes h] at hz0
    obtain ⟨i, rfl⟩ := exists_keyFn h hu
    have := (Finset.sum_eq_zero_iff_of_nonneg fun i _ => abs_nonneg (z (keyFn h i) - x (keyFn h i))).1 hz0 i
      (Finset.mem_univ i)
    exact sub_eq_zero.1 (abs_eq_zero.1 this)

omit [IsStrictOrderedRing F] in
/-- the hypotheses are met by the graph of the pagerank example -/
example : ∃ x, IsPageRank prG (1/2) (some [(1, 1), (3, 3)]) (some [(2, 2)]) x ∧
    ∀ r, pagerank prG none (1/2) (some [(1, 1), (3, 3)]) 20 (1/10) none (some [(2, 2)]) = .ok (some r) →
      l1 prG.nodes (fun u => (prG.view r u).getD 0) x ≤ (1/2) / (1 - 1/2) * (prG.nodes.length * (1/10)) := by
  obtain ⟨x, h1, -, h3⟩ := pagerank_vector prG_wf ⟨2, 3, (0 : Fin 3), (1 : Fin 3), by unfold Graph.At; decide,
    by unfold Graph.At; decide, by decide⟩ prG_args prG_nonneg (by norm_num)
  exact ⟨x, h1, fun r hr => h3 20 (1/10) r hr⟩

end Props
