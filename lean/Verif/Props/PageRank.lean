import Verif.Proofs.PageRank
import Verif.Props.Examples
import Mathlib.Algebra.Field.Rat
import Mathlib.Algebra.Order.Field.Rat
import Mathlib.Algebra.Order.Ring.Abs
import Mathlib.Algebra.Order.BigOperators.Ring.Finset
import Mathlib.Tactic.Linarith

/-!
# C66 pagerank
-/

open GB Spec Model Model.Graph Proofs Proofs.Power

namespace Props

variable {K F : Type} [Field F] [LinearOrder F] [DecidableEq K] {G : Graph K F}

/-- the arguments of `pagerank` that its theorems are about: every dict is valid and does not sum to 0
(`dangling` only matters when there is a dangling node), the reported iso value, if any, is the value of
all edges, and no node has out-edges whose weights cancel. -/
structure PRArgs (G : Graph K F) (iso : Option F) (pers nstart dangling : Option (List (K × F))) : Prop where
  iso : ∀ c, iso = some c → ∀ u v a, G.WEdge u v a → a = c
  rows : ∀ u, G.Node u → ¬ Dangling G.nodes G.weight? u → outWeight G.nodes G.weight? u ≠ 0
  pers : ∀ l, pers = some l → ValidDict G l ∧ sumOver G.nodes (valueIn l) ≠ 0
  nstart : ∀ l, nstart = some l → ValidDict G l ∧ sumOver G.nodes (valueIn l) ≠ 0
  dangling : (∃ u, G.Node u ∧ Dangling G.nodes G.weight? u) →
    ∀ l, dangling = some l → ValidDict G l ∧ sumOver G.nodes (valueIn l) ≠ 0

/-- the start vector -/
def prStart (G : Graph K F) (nstart : Option (List (K × F))) : K → F :=
  distOf G.nodes nstart (uniform G.nodes)

/-- the map that pagerank iterates, from its arguments -/
def prT (G : Graph K F) (alpha : F) (pers dangling : Option (List (K × F))) : (K → F) → K → F :=
  prMap G.nodes G.weight? alpha (distOf G.nodes pers (uniform G.nodes))
    (distOf G.nodes dangling (distOf G.nodes pers (uniform G.nodes)))

theorem exists_dangling_iff (h : G.WF) :
    nvals (reduceRow (· + ·) G.A) < G.n ↔ ∃ u, G.Node u ∧ Dangling G.nodes G.weight? u := by
  rw [nvals_lt]
  constructor
  · rintro ⟨i, hi⟩
    refine ⟨keyFn h i, (keyFn_at h i).node, (dangling_iff h i).2 ?_⟩
    by_contra hc
    have := (reduceRow_isSome G.A i).2 hc
    rw [hi] at this; cases this
  · rintro ⟨u, hu, hd⟩
    obtain ⟨i, rfl⟩ := exists_keyFn h hu
    refine ⟨i, ?_⟩
    rw [← Option.not_isSome_iff_eq_none, reduceRow_isSome, not_not]
    exact (dangling_iff h i).1 hd

/-- the loop of `pagerank` and its meaning -/
theorem pagerank_loop (h : G.WF) (hE : ∃ u v, G.Edge u v) {iso : Option F}
    {pers nstart dangling : Option (List (K × F))} (ha : PRArgs G iso pers nstart dangling)
    (alpha : F) (maxIter : Int) (tol : F) :
    ∃ (step : Vec G.n F → Vec G.n F) (x : Vec G.n F),
      pagerank G iso alpha pers maxIter tol nstart dangling =
        (powerIter step (isConverged tol) maxIter.toNat x).map (fun v => some (nodemapFill none v 0)) ∧
      Rep h x (prStart G nstart) ∧
      ∀ v y, Rep h v y → Rep h (step v) (prT G alpha pers dangling y) := by
  obtain ⟨u0, v0, i0, j0, hu0, hv0, hA0⟩ := hE
  have hn : G.n ≠ 0 := fun e => by have := i0.isLt; omega
  have hnv : mnvals G.A ≠ 0 := by
    rw [Ne, mnvals_eq_zero]
    intro hc; rw [hc i0 j0] at hA0; cases hA0
  obtain ⟨xv, hx1, hx2, hx3⟩ := dict?_rep h (d := nstart) fun l hl => (ha.nstart l hl).1
  obtain ⟨pv, hp1, hp2, hp3⟩ := dict?_rep h (d := pers) fun l hl => (ha.pers l hl).1
  obtain ⟨dv, hd1, hd2, hd3⟩ := dict?_rep h
    (d := if nvals (reduceRow (· + ·) G.A) < G.n then dangling else none) (by
      intro l hl
      by_cases hc : nvals (reduceRow (· + ·) G.A) < G.n
      · rw [if_pos hc] at hl
        exact (ha.dangling ((exists_dangling_iff h).1 hc) l hl).1
      · rw [if_neg hc] at hl; cases hl)
  obtain ⟨x, hx, hxr⟩ := prInit_rep h hx2 hx3 fun l hl => (ha.nstart l hl).2
  obtain ⟨p, hp, hpr⟩ := prP_rep h hp2 hp3 fun l hl => (ha.pers l hl).2
  have hiso : ∀ c, iso = some c → ∀ i j a, G.A i j = some a → a = c := by
    intro c hc i j a hA
    exact ha.iso c hc (keyFn h i) (keyFn h j) a ⟨i, j, keyFn_at h i, keyFn_at h j, hA⟩
  have hS : ∀ i, (prS alpha (reduceRow (· + ·) G.A) iso i).isSome = true ↔
      ¬ Dangling G.nodes G.weight? (keyFn h i) := by
    intro i
    rw [prS_isSome, reduceRow_isSome, dangling_iff]
  have key : ∃ md, prDangling alpha (prS alpha (reduceRow (· + ·) G.A) iso) p dv = .ok md ∧
      ∀ v y, Rep h v y → Rep h (prStep G.A ⟨prS alpha (reduceRow (· + ·) G.A) iso, prMul iso, md.1, md.2,
        prScaleP alpha p⟩ v) (prT G alpha pers dangling y) := by
    by_cases hc : nvals (reduceRow (· + ·) G.A) < G.n
    · rw [if_pos hc] at hd2 hd3
      obtain ⟨md, hmd, hmd2⟩ := dangling_part h alpha hS hpr (dangling := dv)
        (dx := distOf G.nodes dangling (distOf G.nodes pers (uniform G.nodes))) (by
          intro v hv
          cases hdd : dangling with
          | none => rw [hd2 hdd] at hv; cases hv
          | some l =>
            obtain ⟨v', hv', hr⟩ := hd3 l hdd
            rw [hv] at hv'; cases hv'
            refine ⟨?_, div_rep h hr _⟩
            rw [vsum_rep h hr]
            exact (ha.dangling ((exists_dangling_iff h).1 hc) l hdd).2) (by
          intro hv
          cases hdd : dangling with
          | none => rfl
          | some l =>
            obtain ⟨v', hv', hr⟩ := hd3 l hdd
            rw [hv] at hv'; cases hv')
      exact ⟨md, hmd, fun v y hv => prStep_rep h alpha iso hiso hmd2 hv⟩
    · rw [if_neg hc] at hd2 hd3
      have hnd : ∀ i, ¬ Dangling G.nodes G.weight? (keyFn h i) := fun i hd =>
        hc ((exists_dangling_iff h).2 ⟨_, (keyFn_at h i).node, hd⟩)
      obtain ⟨md, hmd, hmd2⟩ := dangling_part h alpha hS hpr (dangling := dv)
        (dx := distOf G.nodes pers (uniform G.nodes)) (by
          intro v hv; rw [hd2 rfl] at hv; cases hv) (fun _ => rfl)
      refine ⟨md, hmd, fun v y hv => ?_⟩
      have e := prStep_rep h alpha iso hiso hmd2 hv
      intro i
      rw [e i]
      unfold prT prMap
      rw [sumOver_nodes h, sumOver_nodes h]
      simp only [hnd, if_false]
  obtain ⟨md, hmd, hstep⟩ := key
  refine ⟨_, x, ?_, hxr, hstep⟩
  unfold pagerank
  rw [if_neg hn, hx1]
  show (dictToVector? G pers >>= fun o => _) = _
  rw [hp1]
  show (dictToVector? G (if nvals (reduceRow (· + ·) G.A) < G.n then dangling else none) >>= fun o => _) = _
  rw [hd1]
  show (pagerankV G.A iso alpha pv maxIter tol xv dv).map _ = _
  unfold pagerankV
  rw [if_neg hnv, hx]
  show ((prP pv >>= fun o => _) : Except Err (Vec G.n F)).map _ = _
  rw [hp]
  show ((prDangling alpha (prS alpha (reduceRow (· + ·) G.A) iso) p dv >>= fun o => _) :
    Except Err (Vec G.n F)).map _ = _
  rw [hmd]
  rfl

/-- **C66.** `pagerank` returns the first iterate of the PageRank map that differs from its predecessor
by less than `N * tol` in L1 norm, within `max_iter` iterations; it raises
PowerIterationFailedConvergence exactly when there is none. -/
theorem pagerank_correct [IsStrictOrderedRing F] (h : G.WF) (hE : ∃ u v, G.Edge u v) {iso : Option F}
    {pers nstart dangling : Option (List (K × F))} (ha : PRArgs G iso pers nstart dangling)
    (alpha : F) (maxIter : Int) (tol : F) :
    (∀ R, pagerank G iso alpha pers maxIter tol nstart dangling = .ok R →
      ∃ k : Nat, (k : Int) < maxIter ∧
        (∃ r, R = some r ∧ ∀ u, G.Node u →
          G.view r u = some ((prT G alpha pers dangling)^[k + 1] (prStart G nstart) u)) ∧
        l1 G.nodes ((prT G alpha pers dangling)^[k] (prStart G nstart))
          ((prT G alpha pers dangling)^[k + 1] (prStart G nstart)) < G.nodes.length * tol ∧
        ∀ j < k, ¬ l1 G.nodes ((prT G alpha pers dangling)^[j] (prStart G nstart))
          ((prT G alpha pers dangling)^[j + 1] (prStart G nstart)) < G.nodes.length * tol) ∧
    (∀ e, pagerank G iso alpha pers maxIter tol nstart dangling = .error e ↔
      e = .convergence ∧ ∀ j : Nat, (j : Int) < maxIter →
        ¬ l1 G.nodes ((prT G alpha pers dangling)^[j] (prStart G nstart))
          ((prT G alpha pers dangling)^[j + 1] (prStart G nstart)) < G.nodes.length * tol) := by
  obtain ⟨step, x, heq, hx, hstep⟩ := pagerank_loop h hE ha alpha maxIter tol
  have hit := fun k => iterate_rel (R := Rep h) hstep hx k
  have hconv : ∀ j, isConverged tol (step^[j] x) (step^[j + 1] x) = true ↔
      l1 G.nodes ((prT G alpha pers dangling)^[j] (prStart G nstart))
          ((prT G alpha pers dangling)^[j + 1] (prStart G nstart)) < G.nodes.length * tol :=
    fun j => isConverged_rep h tol (hit j) (hit (j + 1))
  constructor
  · intro R hR
    rw [heq] at hR
    cases hpi : powerIter step (isConverged tol) maxIter.toNat x with
    | error e => rw [hpi] at hR; cases hR
    | ok r =>
      rw [hpi] at hR; cases hR
      obtain ⟨k, hk, rfl, h1, h2⟩ := powerIter_ok.1 hpi
      refine ⟨k, by omega, ⟨_, rfl, fun u hu => ?_⟩, (hconv k).1 h1, fun j hj => ?_⟩
      · obtain ⟨i, rfl⟩ := exists_keyFn h hu
        rw [view_keyFn]
        show some _ = some _
        rw [hit (k + 1) i]
      · rw [← hconv j, h2 j hj]; simp
  · intro e
    rw [heq]
    have : ((powerIter step (isConverged tol) maxIter.toNat x).map
        (fun v => some (nodemapFill none v 0)) = .error e) ↔
        powerIter step (isConverged tol) maxIter.toNat x = .error e := by
      cases powerIter step (isConverged tol) maxIter.toNat x <;> simp [Except.map]
    rw [this, powerIter_error]
    refine and_congr_right fun _ => ⟨fun hh j hj => ?_, fun hh j hj => ?_⟩
    · rw [← hconv j, hh j (by omega)]; simp
    · have := hh j (by omega)
      rw [← hconv j] at this
      simpa using this

/-! ### what the iterates look like -/

/-- transition probability from `u` to `v` -/
def tr (G : Graph K F) (d : K → F) (u v : K) : F :=
  if Dangling G.nodes G.weight? u then d v
  else (G.weight? u v).getD 0 / outWeight G.nodes G.weight? u

omit [LinearOrder F] in
theorem prMap_tr (alpha : F) (p d x : K → F) (v : K) : prMap G.nodes G.weight? alpha p d x v =
    alpha * sumOver G.nodes (fun u => x u * tr G d u v) + (1 - alpha) * p v := by
  unfold prMap tr
  congr 3
  funext u
  split <;> rfl

omit [LinearOrder F] in
theorem tr_sum {d : K → F} {u : K}
    (hr : ¬ Dangling G.nodes G.weight? u → outWeight G.nodes G.weight? u ≠ 0)
    (hd : Dangling G.nodes G.weight? u → sumOver G.nodes d = 1) :
    sumOver G.nodes (tr G d u) = 1 := by
  by_cases hu : Dangling G.nodes G.weight? u
  · have : tr G d u = d := by funext v; simp [tr, hu]
    rw [this, hd hu]
  · have : tr G d u = fun v => (G.weight? u v).getD 0 / outWeight G.nodes G.weight? u := by
      funext v; simp [tr, hu]
    rw [this]
    have e : sumOver G.nodes (fun v => (G.weight? u v).getD 0 / outWeight G.nodes G.weight? u) =
        outWeight G.nodes G.weight? u / outWeight G.nodes G.weight? u := by
      conv_rhs => rw [outWeight]
      unfold sumOver
      simp only [div_eq_mul_inv, List.sum_map_mul_right]
      rfl
    rw [e, div_self (hr hu)]

omit [LinearOrder F] in
theorem distOf_sum {d : Option (List (K × F))} {dflt : K → F}
    (h0 : ∀ l, d = some l → sumOver G.nodes (valueIn l) ≠ 0) (hd : d = none → sumOver G.nodes dflt = 1) :
    sumOver G.nodes (distOf G.nodes d dflt) = 1 := by
  cases d with
  | none => exact hd rfl
  | some l =>
    have e : sumOver G.nodes (distOf G.nodes (some l) dflt) =
        sumOver G.nodes (valueIn l) / sumOver G.nodes (valueIn l) := by
      unfold distOf sumOver
      simp only [div_eq_mul_inv, List.sum_map_mul_right]
    rw [e, div_self (h0 l rfl)]

theorem uniform_sum [IsStrictOrderedRing F] (hn : G.nodes ≠ []) :
    sumOver G.nodes (uniform G.nodes : K → F) = 1 := by
  unfold sumOver uniform
  rw [List.map_const', List.sum_replicate, nsmul_eq_mul, mul_one_div, div_self]
  have := List.length_pos_iff.2 hn
  exact_mod_cast this.ne'

/-- a step of the map: total mass -/
theorem prT_sum [IsStrictOrderedRing F] (h : G.WF) (hE : ∃ u v, G.Edge u v) {iso : Option F}
    {pers nstart dangling : Option (List (K × F))} (ha : PRArgs G iso pers nstart dangling)
    (alpha : F) (x : K → F) :
    sumOver G.nodes (prT G alpha pers dangling x) = alpha * sumOver G.nodes x + (1 - alpha) := by
  have hne : G.nodes ≠ [] := by
    obtain ⟨u, v, i, j, hu, -⟩ := hE
    exact List.ne_nil_of_mem (show u ∈ G.nodes from hu.node)
  have hp : sumOver G.nodes (distOf G.nodes pers (uniform G.nodes : K → F)) = 1 :=
    distOf_sum (fun l hl => (ha.pers l hl).2) fun _ => uniform_sum hne
  unfold prT
  simp only [sumOver_nodes h, prMap_tr] at hp ⊢
  rw [Finset.sum_add_distrib, ← Finset.mul_sum, ← Finset.mul_sum, hp, mul_one, Finset.sum_comm]
  congr 2
  refine Finset.sum_congr rfl fun i _ => ?_
  rw [← Finset.mul_sum]
  have := tr_sum (G := G) (u := keyFn h i)
    (d := distOf G.nodes dangling (distOf G.nodes pers (uniform G.nodes)))
    (ha.rows _ (keyFn_at h i).node)
    (fun hd => distOf_sum (fun l hl => (ha.dangling ⟨_, (keyFn_at h i).node, hd⟩ l hl).2) fun _ => by
      rw [sumOver_nodes h]; exact hp)
  rw [sumOver_nodes h] at this
  rw [this, mul_one]

theorem prStart_sum [IsStrictOrderedRing F] (hE : ∃ u v, G.Edge u v) {iso : Option F}
    {pers nstart dangling : Option (List (K × F))} (ha : PRArgs G iso pers nstart dangling) :
    sumOver G.nodes (prStart G nstart) = 1 := by
  have hne : G.nodes ≠ [] := by
    obtain ⟨u, v, i, j, hu, -⟩ := hE
    exact List.ne_nil_of_mem (show u ∈ G.nodes from hu.node)
  exact distOf_sum (fun l hl => (ha.nstart l hl).2) fun _ => uniform_sum hne

/-- **C66.** the PageRank values sum to 1. -/
theorem pagerank_sum [IsStrictOrderedRing F] (h : G.WF) (hE : ∃ u v, G.Edge u v) {iso : Option F}
    {pers nstart dangling : Option (List (K × F))} (ha : PRArgs G iso pers nstart dangling)
    (alpha : F) (maxIter : Int) (tol : F) {r : Vec G.n F}
    (hR : pagerank G iso alpha pers maxIter tol nstart dangling = .ok (some r)) :
    sumOver G.nodes (fun u => (G.view r u).getD 0) = 1 := by
  obtain ⟨k, -, ⟨r', hr, hv⟩, -⟩ := (pagerank_correct h hE ha alpha maxIter tol).1 _ hR
  cases hr
  have e : sumOver G.nodes (fun u => (G.view r u).getD 0) =
      sumOver G.nodes ((prT G alpha pers dangling)^[k + 1] (prStart G nstart)) := by
    unfold sumOver
    congr 1
    refine List.map_congr_left fun u hu => ?_
    rw [hv u hu]; rfl
  rw [e]
  have : ∀ m, sumOver G.nodes ((prT G alpha pers dangling)^[m] (prStart G nstart)) = 1 := by
    intro m
    induction m with
    | zero => exact prStart_sum hE ha
    | succ m ih =>
      rw [Function.iterate_succ_apply', prT_sum h hE ha, ih]; ring
  exact this _

/-- arguments with the usual signs -/
structure PRNonneg (G : Graph K F) (alpha : F) (pers nstart dangling : Option (List (K × F))) : Prop where
  alpha0 : 0 ≤ alpha
  alpha1 : alpha ≤ 1
  weights : ∀ u v a, G.WEdge u v a → 0 ≤ a
  pers : ∀ l, pers = some l → ∀ k b, (k, b) ∈ l → 0 ≤ b
  nstart : ∀ l, nstart = some l → ∀ k b, (k, b) ∈ l → 0 ≤ b
  dangling : ∀ l, dangling = some l → ∀ k b, (k, b) ∈ l → 0 ≤ b

theorem valueIn_nonneg {l : List (K × F)} (hl : ∀ k b, (k, b) ∈ l → 0 ≤ b) (v : K) : 0 ≤ valueIn l v := by
  unfold valueIn
  induction l with
  | nil => simp
  | cons p l ih =>
    obtain ⟨k, b⟩ := p
    rw [List.lookup_cons]
    split
    · exact hl k b (by simp)
    · exact ih fun k b hm => hl k b (by simp [hm])

theorem sumOver_nonneg [IsStrictOrderedRing F] {N : List K} {f : K → F} (hf : ∀ v ∈ N, 0 ≤ f v) :
    0 ≤ sumOver N f := by
  unfold sumOver
  refine List.sum_nonneg fun x hx => ?_
  obtain ⟨v, hv, rfl⟩ := List.mem_map.1 hx
  exact hf v hv

theorem distOf_nonneg [IsStrictOrderedRing F] {N : List K} {d : Option (List (K × F))} {dflt : K → F}
    (hd : ∀ l, d = some l → ∀ k b, (k, b) ∈ l → 0 ≤ b) (h0 : ∀ v, 0 ≤ dflt v) (v : K) :
    0 ≤ distOf N d dflt v := by
  cases d with
  | none => exact h0 v
  | some l =>
    exact div_nonneg (valueIn_nonneg (hd l rfl) v) (sumOver_nonneg fun u _ => valueIn_nonneg (hd l rfl) u)

theorem uniform_nonneg [IsStrictOrderedRing F] (N : List K) (v : K) : (0 : F) ≤ uniform N v := by
  unfold uniform; positivity

theorem weight?_nonneg (h : G.WF) (hw : ∀ u v a, G.WEdge u v a → 0 ≤ a) (u v : K) :
    0 ≤ (G.weight? u v).getD 0 := by
  cases hwv : G.weight? u v with
  | none => simp
  | some a => exact hw u v a ((weight?_eq_some h).1 hwv)

theorem tr_nonneg [IsStrictOrderedRing F] (h : G.WF) (hw : ∀ u v a, G.WEdge u v a → 0 ≤ a)
    {d : K → F} (hd : ∀ v, 0 ≤ d v) (u v : K) : 0 ≤ tr G d u v := by
  unfold tr
  split
  · exact hd v
  · exact div_nonneg (weight?_nonneg h hw u v) (sumOver_nonneg fun z _ => weight?_nonneg h hw u z)

/-- **C66.** with non-negative weights and dicts and `0 ≤ alpha ≤ 1`, every PageRank value is
non-negative. -/
theorem pagerank_nonneg [IsStrictOrderedRing F] (h : G.WF) (hE : ∃ u v, G.Edge u v) {iso : Option F}
    {pers nstart dangling : Option (List (K × F))} (ha : PRArgs G iso pers nstart dangling)
    {alpha : F} (hs : PRNonneg G alpha pers nstart dangling) (maxIter : Int) (tol : F) {r : Vec G.n F}
    (hR : pagerank G iso alpha pers maxIter tol nstart dangling = .ok (some r)) {u : K} (hu : G.Node u) :
    ∃ x, G.view r u = some x ∧ 0 ≤ x := by
  obtain ⟨k, -, ⟨r', hr, hv⟩, -⟩ := (pagerank_correct h hE ha alpha maxIter tol).1 _ hR
  cases hr
  refine ⟨_, hv u hu, ?_⟩
  have : ∀ m v, 0 ≤ (prT G alpha pers dangling)^[m] (prStart G nstart) v := by
    intro m
    induction m with
    | zero => exact fun v => distOf_nonneg hs.nstart (uniform_nonneg _) v
    | succ m ih =>
      intro v
      rw [Function.iterate_succ_apply']
      unfold prT
      rw [prMap_tr]
      have hp := fun v => distOf_nonneg (N := G.nodes) hs.pers (uniform_nonneg G.nodes) v
      have hd := fun v => distOf_nonneg (N := G.nodes) hs.dangling hp v
      have h1 : 0 ≤ 1 - alpha := sub_nonneg.2 hs.alpha1
      exact add_nonneg (mul_nonneg hs.alpha0 (sumOver_nonneg fun z _ =>
        mul_nonneg (ih z) (tr_nonneg h hs.weights hd z v))) (mul_nonneg h1 (hp v))
  exact this _ u

/-! ### convergence -/

/-- the map is a contraction with factor `alpha` -/
theorem prT_contract [IsStrictOrderedRing F] (h : G.WF) (hE : ∃ u v, G.Edge u v) {iso : Option F}
    {pers nstart dangling : Option (List (K × F))} (ha : PRArgs G iso pers nstart dangling)
    {alpha : F} (hs : PRNonneg G alpha pers nstart dangling) (x y : K → F) :
    l1 G.nodes (prT G alpha pers dangling x) (prT G alpha pers dangling y) ≤ alpha * l1 G.nodes x y := by
  have hne : G.nodes ≠ [] := by
    obtain ⟨u, v, i, j, hu, -⟩ := hE
    exact List.ne_nil_of_mem (show u ∈ G.nodes from hu.node)
  have hp := fun v => distOf_nonneg (N := G.nodes) hs.pers (uniform_nonneg G.nodes) v
  have hd := fun v => distOf_nonneg (N := G.nodes) hs.dangling hp v
  set d := distOf G.nodes dangling (distOf G.nodes pers (uniform G.nodes)) with hdd
  have hp1 : sumOver G.nodes (distOf G.nodes pers (uniform G.nodes : K → F)) = 1 :=
    distOf_sum (fun l hl => (ha.pers l hl).2) fun _ => uniform_sum hne
  have htr : ∀ i, ∑ j, tr G d (keyFn h i) (keyFn h j) = 1 := by
    intro i
    rw [← sumOver_nodes h]
    exact tr_sum (ha.rows _ (keyFn_at h i).node)
      (fun hx => distOf_sum (fun l hl => (ha.dangling ⟨_, (keyFn_at h i).node, hx⟩ l hl).2) fun _ => hp1)
  have hdiff : ∀ v, |prT G alpha pers dangling x v - prT G alpha pers dangling y v| ≤
      alpha * ∑ i, |x (keyFn h i) - y (keyFn h i)| * tr G d (keyFn h i) v := by
    intro v
    unfold prT
    rw [← hdd, prMap_tr, prMap_tr, sumOver_nodes h, sumOver_nodes h]
    have : alpha * ∑ i, x (keyFn h i) * tr G d (keyFn h i) v +
          (1 - alpha) * distOf G.nodes pers (uniform G.nodes) v -
        (alpha * ∑ i, y (keyFn h i) * tr G d (keyFn h i) v +
          (1 - alpha) * distOf G.nodes pers (uniform G.nodes) v) =
        alpha * ∑ i, (x (keyFn h i) - y (keyFn h i)) * tr G d (keyFn h i) v := by
      simp only [sub_mul, Finset.sum_sub_distrib]; ring
    rw [this, abs_mul, abs_of_nonneg hs.alpha0]
    refine mul_le_mul_of_nonneg_left ?_ hs.alpha0
    refine (Finset.abs_sum_le_sum_abs _ _).trans (le_of_eq ?_)
    refine Finset.sum_congr rfl fun i _ => ?_
    rw [abs_mul, abs_of_nonneg (tr_nonneg h hs.weights hd _ _)]
  unfold l1
  rw [sumOver_nodes h, sumOver_nodes h]
  calc ∑ j, |prT G alpha pers dangling x (keyFn h j) - prT G alpha pers dangling y (keyFn h j)|
      ≤ ∑ j, alpha * ∑ i, |x (keyFn h i) - y (keyFn h i)| * tr G d (keyFn h i) (keyFn h j) :=
        Finset.sum_le_sum fun j _ => hdiff _
    _ = alpha * ∑ i, |x (keyFn h i) - y (keyFn h i)| := by
        rw [← Finset.mul_sum, Finset.sum_comm]
        congr 1
        refine Finset.sum_congr rfl fun i _ => ?_
        rw [← Finset.mul_sum, htr i, mul_one]

theorem l1_triangle [IsStrictOrderedRing F] (N : List K) (x y z : K → F) :
    l1 N x z ≤ l1 N x y + l1 N y z := by
  unfold l1 sumOver
  induction N with
  | nil => simp
  | cons a N ih =>
    simp only [List.map_cons, List.sum_cons]
    have := abs_sub_le (x a) (y a) (z a)
    linarith

/-- **C66.** accuracy: the returned values are within `alpha / (1 - alpha) * N * tol` (L1) of any fixed
point of the PageRank map. -/
theorem pagerank_accuracy [IsStrictOrderedRing F] (h : G.WF) (hE : ∃ u v, G.Edge u v) {iso : Option F}
    {pers nstart dangling : Option (List (K × F))} (ha : PRArgs G iso pers nstart dangling)
    {alpha : F} (hs : PRNonneg G alpha pers nstart dangling) (h1 : alpha < 1) (maxIter : Int) (tol : F)
    {r : Vec G.n F}
    (hR : pagerank G iso alpha pers maxIter tol nstart dangling = .ok (some r))
    {x : K → F} (hx : ∀ u, G.Node u → prT G alpha pers dangling x u = x u) :
    l1 G.nodes (fun u => (G.view r u).getD 0) x ≤ alpha / (1 - alpha) * (G.nodes.length * tol) := by
  obtain ⟨k, -, ⟨r', hr, hv⟩, hc, -⟩ := (pagerank_correct h hE ha alpha maxIter tol).1 _ hR
  cases hr
  set a := (prT G alpha pers dangling)^[k] (prStart G nstart) with haa
  have hb : (prT G alpha pers dangling)^[k + 1] (prStart G nstart) = prT G alpha pers dangling a := by
    rw [Function.iterate_succ_apply']
  rw [hb] at hc hv
  have e1 : l1 G.nodes (fun u => (G.view r u).getD 0) x =
      l1 G.nodes (prT G alpha pers dangling a) (prT G alpha pers dangling x) := by
    unfold l1 sumOver
    congr 1
    refine List.map_congr_left fun u hu => ?_
    show |(G.view r u).getD 0 - x u| = _
    rw [hv u hu, hx u hu]; rfl
  have e2 : l1 G.nodes (prT G alpha pers dangling a) x =
      l1 G.nodes (prT G alpha pers dangling a) (prT G alpha pers dangling x) := by
    unfold l1 sumOver
    congr 1
    refine List.map_congr_left fun u hu => ?_
    rw [hx u hu]
  rw [e1]
  have c1 := prT_contract h hE ha hs a x
  have c2 := l1_triangle G.nodes a (prT G alpha pers dangling a) x
  rw [e2] at c2
  set L := l1 G.nodes (prT G alpha pers dangling a) (prT G alpha pers dangling x)
  have h1' : 0 < 1 - alpha := sub_pos.2 h1
  rw [div_mul_eq_mul_div, le_div_iff₀ h1']
  have c3 := mul_le_mul_of_nonneg_left c2 hs.alpha0
  have c4 := mul_le_mul_of_nonneg_left hc.le hs.alpha0
  have c5 : alpha * (l1 G.nodes a (prT G alpha pers dangling a) + L) =
    alpha * l1 G.nodes a (prT G alpha pers dangling a) + alpha * L := mul_add _ _ _
  have c6 : L * (1 - alpha) = L - alpha * L := by ring
  rw [c6]
  linarith

theorem l1_iterate [IsStrictOrderedRing F] (h : G.WF) (hE : ∃ u v, G.Edge u v) {iso : Option F}
    {pers nstart dangling : Option (List (K × F))} (ha : PRArgs G iso pers nstart dangling)
    {alpha : F} (hs : PRNonneg G alpha pers nstart dangling) (k : Nat) :
    l1 G.nodes ((prT G alpha pers dangling)^[k] (prStart G nstart))
      ((prT G alpha pers dangling)^[k + 1] (prStart G nstart)) ≤ 2 * alpha ^ k := by
  induction k with
  | zero =>
    have hp := fun v => distOf_nonneg (N := G.nodes) hs.pers (uniform_nonneg G.nodes) v
    have hd := fun v => distOf_nonneg (N := G.nodes) hs.dangling hp v
    have h0 : ∀ v, 0 ≤ prStart G nstart v := fun v => distOf_nonneg hs.nstart (uniform_nonneg _) v
    have h2 : ∀ v, 0 ≤ prT G alpha pers dangling (prStart G nstart) v := by
      intro v
      unfold prT
      rw [prMap_tr]
      have h1 : 0 ≤ 1 - alpha := sub_nonneg.2 hs.alpha1
      exact add_nonneg (mul_nonneg hs.alpha0 (sumOver_nonneg fun z _ =>
        mul_nonneg (h0 z) (tr_nonneg h hs.weights hd z v))) (mul_nonneg h1 (hp v))
    have t := l1_triangle G.nodes (prStart G nstart) (fun _ => 0) (prT G alpha pers dangling (prStart G nstart))
    have e1 : l1 G.nodes (prStart G nstart) (fun _ => 0) = 1 := by
      rw [← prStart_sum hE ha]
      unfold l1 sumOver
      congr 1
      exact List.map_congr_left fun u _ => by rw [sub_zero, abs_of_nonneg (h0 u)]
    have e2 : l1 G.nodes (fun _ => 0) (prT G alpha pers dangling (prStart G nstart)) = 1 := by
      have : sumOver G.nodes (prT G alpha pers dangling (prStart G nstart)) = 1 := by
        rw [prT_sum h hE ha, prStart_sum hE ha]; ring
      rw [← this]
      unfold l1
      congr 1
      funext u
      rw [zero_sub, abs_neg, abs_of_nonneg (h2 u)]
    rw [e1, e2] at t
    rw [pow_zero, mul_one]
    exact t.trans (by norm_num)
  | succ k ih =>
    rw [Function.iterate_succ_apply', Function.iterate_succ_apply' _ (k + 1)]
    refine (prT_contract h hE ha hs _ _).trans ?_
    have := mul_le_mul_of_nonneg_left ih hs.alpha0
    rw [pow_succ]
    linarith

/-- **C66.** `pagerank` succeeds when `max_iter` exceeds a `k` with `2 * alpha ^ k < N * tol`. -/
theorem pagerank_converges [IsStrictOrderedRing F] (h : G.WF) (hE : ∃ u v, G.Edge u v) {iso : Option F}
    {pers nstart dangling : Option (List (K × F))} (ha : PRArgs G iso pers nstart dangling)
    {alpha : F} (hs : PRNonneg G alpha pers nstart dangling) {maxIter : Int} {tol : F} {k : Nat}
    (hk : (k : Int) < maxIter) (htol : 2 * alpha ^ k < G.nodes.length * tol) :
    ∃ r, pagerank G iso alpha pers maxIter tol nstart dangling = .ok (some r) := by
  have hc := pagerank_correct h hE ha alpha maxIter tol
  cases hr : pagerank G iso alpha pers maxIter tol nstart dangling with
  | error e =>
    have := ((hc.2 e).1 hr).2 k hk
    exact absurd ((l1_iterate h hE ha hs k).trans_lt htol) this
  | ok R =>
    obtain ⟨-, -, ⟨r, rfl, -⟩, -⟩ := hc.1 R hr
    exact ⟨r, rfl⟩

/-! ### errors and the edgeless graph -/

theorem powerIter_not_zeroDivision {σ : Type} {step : σ → σ} {conv : σ → σ → Bool} {m : Nat} {x : σ} :
    powerIter step conv m x ≠ .error .zeroDivision := by
  intro hc
  have := (powerIter_error.1 hc).1
  cases this

/-- **C66.** a start vector or personalization that sums to 0 raises ZeroDivisionError. -/
theorem pagerank_zero_sum (h : G.WF) (hE : ∃ u v, G.Edge u v) {iso : Option F}
    {pers nstart dangling : Option (List (K × F))}
    (hp : ∀ l, pers = some l → ValidDict G l) (hn : ∀ l, nstart = some l → ValidDict G l)
    (hd : ∀ l, dangling = some l → ValidDict G l)
    (h0 : (∃ l, nstart = some l ∧ sumOver G.nodes (valueIn l) = 0) ∨
      (∃ l, pers = some l ∧ sumOver G.nodes (valueIn l) = 0))
    (alpha : F) (maxIter : Int) (tol : F) :
    pagerank G iso alpha pers maxIter tol nstart dangling = .error .zeroDivision := by
  obtain ⟨u0, v0, i0, j0, hu0, hv0, hA0⟩ := hE
  have hnn : G.n ≠ 0 := fun e => by have := i0.isLt; omega
  have hnv : mnvals G.A ≠ 0 := by
    rw [Ne, mnvals_eq_zero]
    intro hc; rw [hc i0 j0] at hA0; cases hA0
  obtain ⟨xv, hx1, hx2, hx3⟩ := dict?_rep h (d := nstart) hn
  obtain ⟨pv, hp1, hp2, hp3⟩ := dict?_rep h (d := pers) hp
  obtain ⟨dv, hd1, hd2, hd3⟩ := dict?_rep h
    (d := if nvals (reduceRow (· + ·) G.A) < G.n then dangling else none) (by
      intro l hl
      split at hl
      · exact hd l hl
      · cases hl)
  unfold pagerank
  rw [if_neg hnn, hx1]
  show (dictToVector? G pers >>= fun o => _) = _
  rw [hp1]
  show (dictToVector? G (if nvals (reduceRow (· + ·) G.A) < G.n then dangling else none) >>= fun o => _) = _
  rw [hd1]
  show (pagerankV G.A iso alpha pv maxIter tol xv dv).map _ = _
  unfold pagerankV
  rw [if_neg hnv]
  have hz : ∀ {l : List (K × F)} {v : Vec G.n F}, Rep h v (valueIn l) →
      sumOver G.nodes (valueIn l) = 0 → vsum v = 0 := fun hr e => by rw [vsum_rep h hr, e]
  have hxz : ∀ l, nstart = some l → sumOver G.nodes (valueIn l) = 0 →
      prInit xv = .error .zeroDivision := by
    intro l hl e
    obtain ⟨v', rfl, hr⟩ := hx3 l hl
    unfold prInit
    dsimp only
    rw [if_pos (hz hr e)]
  have hpz : ∀ l, pers = some l → sumOver G.nodes (valueIn l) = 0 →
      prP pv = .error .zeroDivision := by
    intro l hl e
    obtain ⟨v', rfl, hr⟩ := hp3 l hl
    unfold prP
    dsimp only
    rw [if_pos (hz hr e)]
  rcases h0 with ⟨l, hl, e⟩ | ⟨l, hl, e⟩
  · rw [hxz l hl e]; rfl
  · rcases hcx : prInit xv with e' | x
    · have : e' = .zeroDivision := by
        unfold prInit at hcx
        split at hcx
        · cases hcx
        · split at hcx
          · cases hcx; rfl
          · cases hcx
      rw [this]; rfl
    · show ((prP pv >>= fun o => _) : Except Err (Vec G.n F)).map _ = _
      rw [hpz l hl e]; rfl

/-- **C66, finding.** on a graph with nodes but no edges, `pagerank` returns 0 for every node: the
values sum to 0, not 1 (NetworkX gives 1/N each). -/
theorem pagerank_edgeless (h : G.WF) (hn : G.nodes ≠ []) (hE : ∀ u v, ¬ G.Edge u v) (iso : Option F)
    (alpha : F) (maxIter : Int) (tol : F) :
    ∃ r, pagerank G iso alpha none maxIter tol none none = .ok (some r) ∧
      ∀ u, G.Node u → G.view r u = some 0 := by
  have hnn : G.n ≠ 0 := by
    rw [← nodes_length h]; exact fun e => hn (List.length_eq_zero_iff.1 e)
  have hnv : mnvals G.A = 0 := by
    rw [mnvals_eq_zero]
    intro i j
    by_contra hc
    exact hE (keyFn h i) (keyFn h j) ((edge_keyFn h i j).2 (Option.isSome_iff_ne_none.2 hc))
  refine ⟨nodemapFill none vempty 0, ?_, fun u hu => ?_⟩
  · unfold pagerank
    rw [if_neg hnn]
    have e : (if nvals (reduceRow (· + ·) G.A) < G.n then (none : Option (List (K × F))) else none) = none := by
      split <;> rfl
    rw [e]
    show (pagerankV G.A iso alpha none maxIter tol none none).map _ = _
    unfold pagerankV
    rw [if_pos hnv]; rfl
  · obtain ⟨i, rfl⟩ := exists_keyFn h hu
    rw [view_keyFn]; rfl

/-! ### the hypotheses are met -/

section examples

/-- 1→2 (3), 2→3 (1), 2→1 (1); 3 dangling -/
def prG : Graph Nat ℚ where
  n := 3
  A := Ex.ofTriples 3 [(2,0,3), (0,1,1), (0,2,1)]
  keyToId := [(1,2), (2,0), (3,1)]
  directed := true

theorem prG_wf : prG.WF := ⟨by decide, by decide⟩

example : ∃ u v, prG.Edge u v := ⟨1, 2, by decide⟩

theorem prG_args : PRArgs prG none (some [(1, 1), (3, 3)]) none (some [(2, 2)]) where
  iso := by simp
  rows := by
    intro u hu
    obtain ⟨i, rfl⟩ := exists_keyFn prG_wf hu
    rw [dangling_iff, outWeight_eq]
    clear hu
    revert i
    decide +kernel
  pers := by
    rintro l hl; cases hl
    refine ⟨⟨by simp, by decide, ?_⟩, by decide +kernel⟩
    intro k b hm
    simp only [List.mem_cons, Prod.mk.injEq, List.not_mem_nil, or_false] at hm
    rcases hm with ⟨rfl, -⟩ | ⟨rfl, -⟩ <;> decide
  nstart := by simp
  dangling := by
    rintro - l hl; cases hl
    refine ⟨⟨by simp, by decide, ?_⟩, by decide +kernel⟩
    intro k b hm
    simp only [List.mem_cons, Prod.mk.injEq, List.not_mem_nil, or_false] at hm
    rcases hm with ⟨rfl, -⟩; decide

theorem prG_nonneg : PRNonneg prG (1/2) (some [(1, 1), (3, 3)]) none (some [(2, 2)]) where
  alpha0 := by norm_num
  alpha1 := by norm_num
  weights := by
    rintro u v a ⟨i, j, -, -, h⟩
    revert h
    have : ∀ i j, ∀ b ∈ prG.A i j, (0 : ℚ) ≤ b := by decide +kernel
    exact fun h => this i j a h
  pers := by
    rintro l hl k b hm; cases hl
    simp only [List.mem_cons, Prod.mk.injEq, List.not_mem_nil, or_false] at hm
    rcases hm with ⟨-, rfl⟩ | ⟨-, rfl⟩ <;> norm_num
  nstart := by simp
  dangling := by
    rintro l hl k b hm; cases hl
    simp only [List.mem_cons, Prod.mk.injEq, List.not_mem_nil, or_false] at hm
    rcases hm with ⟨-, rfl⟩; norm_num

/-- the call succeeds, with values that differ from node to node -/
example : (match pagerank prG none (1/2) (some [(1, 1), (3, 3)]) 20 (1/10) none (some [(2, 2)]) with
  | .ok (some r) => decide (sumOver prG.nodes (fun u => (prG.view r u).getD 0) = 1 ∧
      prG.view r 1 ≠ prG.view r 2 ∧ prG.view r 3 ≠ some 0)
  | _ => false) = true := by decide +kernel

end examples

end Props
