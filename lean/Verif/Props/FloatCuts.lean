import Verif.Model.FloatCuts
import Verif.Props.FloatHits64
import Verif.Props.Cuts

/-!
# C133 weighted `cut_size` and `volume` in rounded arithmetic and in double precision
-/

open GB Spec Model Model.Graph Proofs Proofs.Power Proofs.Fr

namespace Props

variable {K F : Type} [DecidableEq K] [Field F] [LinearOrder F] [IsStrictOrderedRing F] {G : Graph K F}

/-- every weight is a number of the format and not negative -/
def FcInput (G : Graph K F) (Rep : F → Prop) : Prop := ∀ u v a, G.WEdge u v a → Rep a ∧ 0 ≤ a

/-- the number of edges between `S` and `T` that `cut_size` counts -/
def cutEdges {K F : Type} [DecidableEq K] (G : Graph K F) (S T : List K) : Nat :=
  edgesFromTo G.nodes G.Edge (· ∈ S) (· ∈ T) +
    if G.directed then edgesFromTo G.nodes G.Edge (· ∈ T) (· ∈ S) else 0

/-- their total weight -/
def cutWeight {K F : Type} [DecidableEq K] [AddCommMonoid F] (G : Graph K F) (S T : List K) : F :=
  weightFromTo G.nodes G.weight? (· ∈ S) (· ∈ T) +
    if G.directed then weightFromTo G.nodes G.weight? (· ∈ T) (· ∈ S) else 0

omit [LinearOrder F] [IsStrictOrderedRing F] in
theorem mentries_sum {m n : Nat} (A : Mat m n F) : (Model.Fc.mentries A).sum = ∑ i, ∑ j, (A i j).getD 0 := by
  unfold Model.Fc.mentries
  rw [Fin.sum_univ_def]
  generalize List.finRange m = l
  induction l with
  | nil => rfl
  | cons i l ih => simp [List.flatMap_cons, ih, entries_sum]

theorem entries_nvals {n : Nat} {F : Type} (v : Vec n F) : (Model.Fr.entries v).length = nvals v := by
  unfold Model.Fr.entries nvals
  rw [List.length_filterMap_eq_countP, List.countP_eq_length_filter]
  have : (Finset.univ.filter fun i => (v i).isSome) = ((List.finRange n).filter fun i => (v i).isSome).toFinset := by
    ext i; simp
  rw [this, List.toFinset_card_of_nodup ((List.nodup_finRange n).filter _)]

theorem mentries_length {m n : Nat} {F : Type} (A : Mat m n F) : (Model.Fc.mentries A).length = mnvals A := by
  rw [mnvals_eq_sum, Fin.sum_univ_def]
  unfold Model.Fc.mentries
  generalize List.finRange m = l
  induction l with
  | nil => rfl
  | cons i l ih => simp [List.flatMap_cons, ih, entries_nvals]

omit [Field F] [LinearOrder F] [IsStrictOrderedRing F] in
theorem mem_mentries {m n : Nat} {A : Mat m n F} {x : F} (hx : x ∈ Model.Fc.mentries A) : ∃ i j, A i j = some x := by
  unfold Model.Fc.mentries Model.Fr.entries at hx
  obtain ⟨i, -, hi⟩ := List.mem_flatMap.1 hx
  obtain ⟨j, -, hj⟩ := List.mem_filterMap.1 hi
  exact ⟨i, j, hj⟩

section rounded
variable {o : Arith F} {Rep : F → Prop} {u η : F} (R : Rounded o Rep u η)
include R

theorem msum_near {m n : Nat} {A : Mat m n F} (hA : ∀ i j a, A i j = some a → Rep a ∧ 0 ≤ a) :
    Rep (Model.Fc.msum o A) ∧ 0 ≤ Model.Fc.msum o A ∧
      Near (growth u) (mnvals A) 0 (Model.Fc.msum o A) (∑ i, ∑ j, (A i j).getD 0) := by
  rw [← mentries_sum, ← mentries_length]
  unfold Model.Fc.msum
  by_cases h : Model.Fc.mentries A = []
  · rw [if_pos h, h, R.zero]
    have := (R.nat 0).1; rw [R.zero] at this
    simp [Near, this]
  · rw [if_neg h]
    have hm : ∀ x ∈ Model.Fc.mentries A, Rep x ∧ 0 ≤ x := fun x hx => by
      obtain ⟨i, j, e⟩ := mem_mentries hx
      exact hA i j x e
    obtain ⟨h1, h2, h3⟩ := treeSum_near R (R.sum _ h fun x hx => (hm x hx).1) hm
    exact ⟨h1, h2, h3 _ (Nat.le_succ _)⟩

end rounded

omit [LinearOrder F] [IsStrictOrderedRing F] in
theorem boundary_total (h : G.WF) {S : List K} {v1 : Vec G.n Bool} {v2} {Q : K → Prop} [DecidablePred Q]
    (h1 : ∀ i, (v1 i).isSome ↔ keyFn h i ∈ S)
    (hb : ∀ i j, (G.A i j).isSome → ((boundaryCols G.A v1 v2 j).isSome ↔ Q (keyFn h j))) :
    (∑ i, ∑ j, (edgeBoundaryW G.A v1 v2 i j).getD 0) = weightFromTo G.nodes G.weight? (· ∈ S) Q := by
  rw [← weight_boundary h h1 hb, reduceScalar_getD]

omit [Field F] [LinearOrder F] [IsStrictOrderedRing F] in
theorem boundary_count {n : Nat} (A : Mat n n F) (S : Vec n Bool) (T) :
    mnvals (edgeBoundaryW A S T) = mnvals (edgeBoundaryU A S T) := by
  unfold mnvals
  congr 1
  ext p
  simp only [Finset.mem_filter, Finset.mem_univ, true_and]
  unfold edgeBoundaryW edgeBoundaryU
  simp only
  generalize S p.1 = s, A p.1 p.2 = a, boundaryCols A S T p.2 = b
  cases s <;> cases a <;> cases b <;> simp [ointer]

omit [IsStrictOrderedRing F] in
theorem boundary_good {Rep : F → Prop} (h : G.WF) (hi : FcInput G Rep) (S : Vec G.n Bool) (T) (i j) (a : F)
    (e : edgeBoundaryW G.A S T i j = some a) : Rep a ∧ 0 ≤ a := by
  have : G.A i j = some a := by
    unfold edgeBoundaryW at e
    cases hs : S i <;> cases ha : G.A i j <;> cases hb : boundaryCols G.A S T j <;>
      simp [ointer, first, second, hs, ha, hb] at e ⊢
    exact e
  exact hi (keyFn h i) (keyFn h j) a ((weight?_eq_some h).1 (by rw [weight?_keyFn]; exact this))

/-- **C133.** weighted `cut_size(G, S, T)` in rounded arithmetic, with any order of summation: what is returned is
within the relative error of one rounding per edge of the cut of the total weight of the edges between `S` and `T`
(in a digraph, in both directions). -/
theorem float_cut_size {o : Arith F} {Rep : F → Prop} {u η : F} (R : Rounded o Rep u η) (h : G.WF)
    (hi : FcInput G Rep) (S T : List K) :
    ∃ r, Model.Fc.cutSizeWeighted o G S (some T) = .ok r ∧ 0 ≤ r ∧
      |r - cutWeight G S T| ≤ (growth u ^ (cutEdges G S T + 1) - 1) * cutWeight G S T := by
  have hg := one_le_growth R
  obtain ⟨v1, e1, h1⟩ := setToVector_ok h S
  obtain ⟨v2, e2, h2⟩ := setToVector_ok h T
  have e2' : setToVector? G (some T) = .ok (some v2) := by simp [setToVector?, e2, Except.map]
  have a1 := mnvals_boundary (Q := (· ∈ T)) (v2 := some v2) h h1 (fun i j _ => h2 j)
  have a2 := mnvals_boundary (Q := (· ∈ S)) (v2 := some v1) h h2 (fun i j _ => h1 j)
  have w1 := boundary_total (Q := (· ∈ T)) (v2 := some v2) h h1 (fun i j _ => h2 j)
  have w2 := boundary_total (Q := (· ∈ S)) (v2 := some v1) h h2 (fun i j _ => h1 j)
  obtain ⟨p1, q1, n1⟩ := msum_near R (boundary_good h hi v1 (some v2))
  obtain ⟨p2, q2, n2⟩ := msum_near R (boundary_good h hi v2 (some v1))
  rw [boundary_count, a1, w1] at n1
  rw [boundary_count, a2, w2] at n2
  have z1 : 0 ≤ weightFromTo G.nodes G.weight? (· ∈ S) (· ∈ T) := by
    rw [← w1]
    refine Finset.sum_nonneg fun i _ => Finset.sum_nonneg fun j _ => ?_
    cases e : edgeBoundaryW G.A v1 (some v2) i j with
    | none => simp
    | some a => exact (boundary_good h hi _ _ i j a e).2
  have z2 : 0 ≤ weightFromTo G.nodes G.weight? (· ∈ T) (· ∈ S) := by
    rw [← w2]
    refine Finset.sum_nonneg fun i _ => Finset.sum_nonneg fun j _ => ?_
    cases e : edgeBoundaryW G.A v2 (some v1) i j with
    | none => simp
    | some a => exact (boundary_good h hi _ _ i j a e).2
  unfold Model.Fc.cutSizeWeighted
  rw [e1, e2']
  show ∃ r, Model.Fc.cutSizeW o G.directed G.A v1 (some v2) = _ ∧ _
  unfold Model.Fc.cutSizeW cutEdges cutWeight
  cases hd : G.directed with
  | false =>
    refine ⟨_, rfl, q1, ?_⟩
    simp only [Bool.false_eq_true, if_false, add_zero]
    have := near_dist hg z1 (near_weaken hg (Nat.le_succ _) le_rfl z1 q1 le_rfl n1)
    simpa using this
  | true =>
    obtain ⟨p3, q3, n3⟩ := add_near R p1 p2 q1 q2
    refine ⟨_, rfl, q3, ?_⟩
    simp only [if_true]
    have m1 := near_weaken hg (Nat.le_add_right _ (edgesFromTo G.nodes G.Edge (· ∈ T) (· ∈ S))) le_rfl z1 q1 le_rfl n1
    have m2 := near_weaken hg (Nat.le_add_left _ (edgesFromTo G.nodes G.Edge (· ∈ S) (· ∈ T))) le_rfl z2 q2 le_rfl n2
    have n4 := near_trans hg (by norm_num) n3 (near_add m1 m2)
    have := near_dist hg (add_nonneg z1 z2) n4
    rw [Nat.add_comm 1] at this
    simpa using this

/-- **C133.** the same with `T` omitted, in an undirected graph: `T` is the complement of `S` -/
theorem float_cut_size_complement {o : Arith F} {Rep : F → Prop} {u η : F} (R : Rounded o Rep u η) (h : G.WF)
    (hs : G.Symm) (hd : G.directed = false) (hi : FcInput G Rep) (S : List K) :
    ∃ r, Model.Fc.cutSizeWeighted o G S none = .ok r ∧ 0 ≤ r ∧
      |r - weightFromTo G.nodes G.weight? (· ∈ S) (· ∉ S)| ≤
        (growth u ^ edgesFromTo G.nodes G.Edge (· ∈ S) (· ∉ S) - 1) *
          weightFromTo G.nodes G.weight? (· ∈ S) (· ∉ S) := by
  have hg := one_le_growth R
  obtain ⟨v1, e1, h1⟩ := setToVector_ok h S
  have a1 := mnvals_boundary (Q := (· ∉ S)) (v2 := none) h h1 (fun i j ha => cols_compl h hs h1 i j ha)
  have w1 := boundary_total (Q := (· ∉ S)) (v2 := none) h h1 (fun i j ha => cols_compl h hs h1 i j ha)
  obtain ⟨p1, q1, n1⟩ := msum_near R (boundary_good h hi v1 none)
  rw [boundary_count, a1, w1] at n1
  have z1 : 0 ≤ weightFromTo G.nodes G.weight? (· ∈ S) (· ∉ S) := by
    rw [← w1]
    refine Finset.sum_nonneg fun i _ => Finset.sum_nonneg fun j _ => ?_
    cases e : edgeBoundaryW G.A v1 none i j with
    | none => simp
    | some a => exact (boundary_good h hi _ _ i j a e).2
  unfold Model.Fc.cutSizeWeighted
  rw [e1]
  show ∃ r, Model.Fc.cutSizeW o G.directed G.A v1 none = _ ∧ _
  unfold Model.Fc.cutSizeW
  rw [hd]
  refine ⟨_, rfl, q1, ?_⟩
  simpa using near_dist hg z1 n1

/-- **C133.** weighted `cut_size(G, S)` of a digraph raises TypeError in every arithmetic, as in C51 -/
theorem float_cut_size_directed_without_target {F : Type} {G : Graph K F} (o : Arith F) (h : G.WF)
    (hd : G.directed = true) (S : List K) : Model.Fc.cutSizeWeighted o G S none = .error .typeError := by
  obtain ⟨v1, e1, -⟩ := setToVector_ok h S
  unfold Model.Fc.cutSizeWeighted
  rw [e1]
  show Model.Fc.cutSizeW o G.directed G.A v1 none = _
  unfold Model.Fc.cutSizeW
  rw [hd]
  rfl

/-- **C133.** weighted `volume(G, S)` of nodes of the graph in rounded arithmetic: within the relative error of `2N`
roundings of the total weight of the edges into `S` (in an undirected graph, of the edges at `S`). -/
theorem float_volume {o : Arith F} {Rep : F → Prop} {u η : F} (R : Rounded o Rep u η) (h : G.WF)
    (hi : FcInput G Rep) {S : List K} (hS : ∀ u ∈ S, G.Node u) :
    ∃ r, Model.Fc.volumeWeighted o G S = .ok r ∧ 0 ≤ r ∧
      |r - weightFromTo G.nodes G.weight? (fun _ => True) (· ∈ S)| ≤
        (growth u ^ (2 * G.nodes.length) - 1) * weightFromTo G.nodes G.weight? (fun _ => True) (· ∈ S) := by
  have hg := one_le_growth R
  obtain ⟨v, e, hv⟩ := listToVector_ok h hS
  have good : ∀ i, Good Rep fun j => ointer first (G.A i j) (v j) := by
    intro i j a ea
    have : G.A i j = some a := by
      cases hs : v j <;> cases ha : G.A i j <;> simp [ointer, first, hs, ha] at ea ⊢
      exact ea
    exact hi (keyFn h i) (keyFn h j) a ((weight?_eq_some h).1 (by rw [weight?_keyFn]; exact this))
  have hsum : (∑ i, ∑ j, (ointer first (G.A i j) (v j)).getD 0) =
      weightFromTo G.nodes G.weight? (fun _ => True) (· ∈ S) := by
    rw [weightFromTo_eq h]
    refine Finset.sum_congr rfl fun i _ => Finset.sum_congr rfl fun j _ => ?_
    by_cases hs : keyFn h j ∈ S
    · obtain ⟨b, hb⟩ := Option.isSome_iff_exists.1 ((hv j).2 hs)
      rw [if_pos ⟨trivial, hs⟩, hb]
      cases G.A i j <;> simp [first, ointer]
    · have : v j = none := by rw [← Option.not_isSome_iff_eq_none, hv]; exact hs
      rw [if_neg fun x => hs x.2, this]
      cases G.A i j <;> rfl
  have in1 := fun i => fsum_near R (good i)
  obtain ⟨p, q, n1⟩ := vsum_near R (v := fun i => Model.Fr.fsum o fun j => ointer first (G.A i j) (v j))
    fun i a ha => (in1 i).1 a ha
  have n2 := near_sum Finset.univ fun i (_ : i ∈ Finset.univ) => (in1 i).2
  rw [Finset.sum_const_zero, hsum] at n2
  have z : 0 ≤ weightFromTo G.nodes G.weight? (fun _ => True) (· ∈ S) := by
    rw [← hsum]
    exact Finset.sum_nonneg fun i _ => Finset.sum_nonneg fun j _ => (good i).val j
  have n3 := near_dist hg z (near_trans hg le_rfl n1 n2)
  unfold Model.Fc.volumeWeighted
  rw [e]
  refine ⟨_, rfl, q, ?_⟩
  rw [nodes_length h, two_mul]
  simpa [Model.Fc.volumeW] using n3

omit [LinearOrder F] [IsStrictOrderedRing F] in
/-- **C133.** in a symmetric graph the sum of C133's `volume` theorems is the total weight of the edges at `S` -/
theorem volume_symm (h : G.WF) (hs : G.Symm) (S : List K) :
    weightFromTo G.nodes G.weight? (fun _ => True) (· ∈ S) = weightFromTo G.nodes G.weight? (· ∈ S) (fun _ => True) := by
  rw [weightFromTo_eq h, weightFromTo_eq h, Finset.sum_comm]
  refine Finset.sum_congr rfl fun i _ => Finset.sum_congr rfl fun j _ => ?_
  rw [hs j i]
  by_cases hc : keyFn h i ∈ S <;> simp [hc]

/-! ### in IEEE 754 double precision -/

section double
variable {K : Type} [DecidableEq K] {G : Graph K ℚ}

/-- **C133.** weighted `cut_size(G, S, T)` in IEEE 754 double precision, with any order of summation and a cut of at most
`2^50` edges: within `(M + 1) * 2^-52` times the total weight of the `M` edges counted. -/
theorem double_cut_size (h : G.WF) {sum : List ℚ → ℚ} (hsum : RoundsSums sum) (hi : FcInput G IsDouble) (S T : List K)
    (hM : cutEdges G S T ≤ 2 ^ 50) :
    ∃ r, Model.Fc.cutSizeWeighted (binary64 sum) G S (some T) = .ok r ∧ 0 ≤ r ∧
      |r - cutWeight G S T| ≤ (cutEdges G S T + 1) / 2 ^ 52 * cutWeight G S T := by
  have R : Rounded (binary64 sum) B64.Mult u64 eta64 := B64.rounded sum fun l hl _ => hsum l hl
  obtain ⟨r, e, h0, hr⟩ := float_cut_size R h (fun u v a ha => ⟨B64.IsDouble.mult (hi u v a ha).1, (hi u v a ha).2⟩) S T
  have z : 0 ≤ cutWeight G S T := by
    have w : ∀ (P Q : K → Prop) [DecidablePred P] [DecidablePred Q], 0 ≤ weightFromTo G.nodes G.weight? P Q := by
      intro P Q _ _
      rw [weightFromTo_eq h]
      refine Finset.sum_nonneg fun i _ => Finset.sum_nonneg fun j _ => ?_
      split
      · cases ha : G.A i j with
        | none => simp
        | some a => exact (hi (keyFn h i) (keyFn h j) a ((weight?_eq_some h).1 (by rw [weight?_keyFn]; exact ha))).2
      · exact le_rfl
    unfold cutWeight
    split
    · exact add_nonneg (w _ _) (w _ _)
    · simpa using w _ _
  refine ⟨r, e, h0, hr.trans (mul_le_mul_of_nonneg_right ?_ z)⟩
  have hM' : (cutEdges G S T : ℚ) ≤ 2 ^ 50 := by exact_mod_cast hM
  have := growth_pow_le (u := u64) (by rw [u64_eq]; norm_num) (by rw [u64_eq]; norm_num) (cutEdges G S T + 1) (by
    rw [u64_eq]; push_cast; linarith)
  have e2 : 1 + 2 * (((cutEdges G S T + 1 : ℕ) : ℚ) * u64) = 1 + (cutEdges G S T + 1) / 2 ^ 52 := by
    rw [u64_eq]; push_cast; ring
  rw [e2] at this
  linarith

/-- **C133.** weighted `volume(G, S)` in IEEE 754 double precision: within `2N * 2^-52` times the exact value. -/
theorem double_volume (h : G.WF) {sum : List ℚ → ℚ} (hsum : RoundsSums sum) (hi : FcInput G IsDouble) {S : List K}
    (hS : ∀ u ∈ S, G.Node u) (hN : G.nodes.length ≤ 2 ^ 40) :
    ∃ r, Model.Fc.volumeWeighted (binary64 sum) G S = .ok r ∧ 0 ≤ r ∧
      |r - weightFromTo G.nodes G.weight? (fun _ => True) (· ∈ S)| ≤
        2 * G.nodes.length / 2 ^ 52 * weightFromTo G.nodes G.weight? (fun _ => True) (· ∈ S) := by
  have R : Rounded (binary64 sum) B64.Mult u64 eta64 := B64.rounded sum fun l hl _ => hsum l hl
  obtain ⟨r, e, h0, hr⟩ := float_volume R h (fun u v a ha => ⟨B64.IsDouble.mult (hi u v a ha).1, (hi u v a ha).2⟩) hS
  refine ⟨r, e, h0, hr.trans (mul_le_mul_of_nonneg_right ?_ ?_)⟩
  · have := growth64 hN (2 * G.nodes.length) (by omega)
    push_cast at this
    linarith
  · rw [weightFromTo_eq h]
    refine Finset.sum_nonneg fun i _ => Finset.sum_nonneg fun j _ => ?_
    split
    · cases ha : G.A i j with
      | none => simp
      | some a => exact (hi (keyFn h i) (keyFn h j) a ((weight?_eq_some h).1 (by rw [weight?_keyFn]; exact ha))).2
    · exact le_rfl

theorem rnd64_nat {k : ℕ} (hk : k ≤ 2 ^ 53) : rnd64 k = k := by
  have hd : IsDouble (k : ℚ) := by
    rcases Nat.lt_or_eq_of_le hk with h | h
    · exact ⟨k, 0, by simpa [abs_of_nonneg] using (by exact_mod_cast h : (k : ℤ) < 2 ^ 53), by norm_num, by simp⟩
    · exact ⟨1, 53, by norm_num, by norm_num, by rw [h]; norm_num⟩
  have := B64.rnd_nearest (k : ℚ) k hd
  rw [sub_self, abs_zero] at this
  have := abs_nonpos_iff.1 this
  linarith

/-- a sum of integers of total at most `2^53` is formed without rounding, in every order -/
theorem treeSum_nat {l : List ℚ} {s : ℚ} (h : TreeSum (fun x y => rnd64 (x + y)) l s) :
    (∀ x ∈ l, ∃ k : ℕ, x = k) → l.sum ≤ 2 ^ 53 → s = l.sum := by
  induction h with
  | one a => intros; simp
  | @add l m s t _ _ ih1 ih2 =>
    intro hl ht
    have nonneg : ∀ l : List ℚ, (∀ x ∈ l, ∃ k : ℕ, x = k) → ∃ k : ℕ, l.sum = k := by
      intro l
      induction l with
      | nil => intro _; exact ⟨0, by simp⟩
      | cons a l ih =>
        intro hl
        obtain ⟨k, hk⟩ := hl a (by simp)
        obtain ⟨k', hk'⟩ := ih fun x hx => hl x (by simp [hx])
        exact ⟨k + k', by rw [List.sum_cons, hk, hk']; push_cast; rfl⟩
    obtain ⟨a, ha⟩ := nonneg l fun x hx => hl x (by simp [hx])
    obtain ⟨b, hb⟩ := nonneg m fun x hx => hl x (by simp [hx])
    rw [List.sum_append] at ht ⊢
    have pa : (0 : ℚ) ≤ a := Nat.cast_nonneg a
    have pb : (0 : ℚ) ≤ b := Nat.cast_nonneg b
    rw [ih1 (fun x hx => hl x (by simp [hx])) (by linarith), ih2 (fun x hx => hl x (by simp [hx])) (by linarith), ha, hb]
    rw [ha, hb] at ht
    have : a + b ≤ 2 ^ 53 := by exact_mod_cast ht
    exact_mod_cast rnd64_nat this
  | @perm l m s hp _ ih =>
    intro hl ht
    rw [← hp.sum_eq] at ht ⊢
    exact ih (fun x hx => hl x (hp.mem_iff.1 hx)) ht

theorem nat_sum {ι : Type} (I : Finset ι) (f : ι → ℚ) (hf : ∀ i, ∃ k : ℕ, f i = k) : ∃ k : ℕ, ∑ i ∈ I, f i = k := by
  choose g hg using hf
  exact ⟨∑ i ∈ I, g i, by push_cast; exact Finset.sum_congr rfl fun i _ => hg i⟩

/-- the weights are natural numbers -/
def NatWeights {K : Type} [DecidableEq K] (G : Graph K ℚ) : Prop := ∀ u v a, G.WEdge u v a → ∃ k : ℕ, a = k

theorem boundary_nat (h : G.WF) (hw : NatWeights G) (S : Vec G.n Bool) (T) (i j) (a : ℚ)
    (e : edgeBoundaryW G.A S T i j = some a) : ∃ k : ℕ, a = k := by
  have : G.A i j = some a := by
    unfold edgeBoundaryW at e
    cases hs : S i <;> cases ha : G.A i j <;> cases hb : boundaryCols G.A S T j <;>
      simp [ointer, first, second, hs, ha, hb] at e ⊢
    exact e
  exact hw (keyFn h i) (keyFn h j) a ((weight?_eq_some h).1 (by rw [weight?_keyFn]; exact this))

theorem msum_nat {sum : List ℚ → ℚ} (hsum : RoundsSums sum) {m n : Nat} {A : Mat m n ℚ}
    (hA : ∀ i j a, A i j = some a → ∃ k : ℕ, a = k) (ht : (∑ i, ∑ j, (A i j).getD 0) ≤ 2 ^ 53) :
    Model.Fc.msum (binary64 sum) A = ∑ i, ∑ j, (A i j).getD 0 := by
  rw [← mentries_sum] at ht ⊢
  unfold Model.Fc.msum
  by_cases hl : Model.Fc.mentries A = []
  · rw [if_pos hl, hl]
    exact rnd64_nat (k := 0) (by norm_num)
  · rw [if_neg hl]
    exact treeSum_nat (hsum _ hl) (fun x hx => by
      obtain ⟨i, j, e⟩ := mem_mentries hx
      exact hA i j x e) ht

/-- **C133.** In double precision, with natural numbers as weights and a cut of total weight at most `2^53`, weighted
`cut_size(G, S, T)` is exact, in whatever order the library adds. -/
theorem double_cut_size_exact (h : G.WF) {sum : List ℚ → ℚ} (hsum : RoundsSums sum) (hw : NatWeights G)
    (S T : List K) (ht : cutWeight G S T ≤ 2 ^ 53) :
    Model.Fc.cutSizeWeighted (binary64 sum) G S (some T) = .ok (cutWeight G S T) := by
  obtain ⟨v1, e1, h1⟩ := setToVector_ok h S
  obtain ⟨v2, e2, h2⟩ := setToVector_ok h T
  have e2' : setToVector? G (some T) = .ok (some v2) := by simp [setToVector?, e2, Except.map]
  have w1 := boundary_total (Q := (· ∈ T)) (v2 := some v2) h h1 (fun i j _ => h2 j)
  have w2 := boundary_total (Q := (· ∈ S)) (v2 := some v1) h h2 (fun i j _ => h1 j)
  have nat : ∀ (s : Vec G.n Bool) (t), ∃ k : ℕ, ∑ i, ∑ j, (edgeBoundaryW G.A s t i j).getD 0 = k := fun s t =>
    nat_sum _ _ fun i => nat_sum _ _ fun j => by
      cases e : edgeBoundaryW G.A s t i j with
      | none => exact ⟨0, by simp⟩
      | some a => exact boundary_nat h hw s t i j a e
  obtain ⟨a, ha⟩ := nat v1 (some v2)
  obtain ⟨b, hb⟩ := nat v2 (some v1)
  have pa : (0 : ℚ) ≤ a := Nat.cast_nonneg a
  have pb : (0 : ℚ) ≤ b := Nat.cast_nonneg b
  have s1 := msum_nat hsum (boundary_nat h hw v1 (some v2))
  have s2 := msum_nat hsum (boundary_nat h hw v2 (some v1))
  rw [ha] at s1 w1
  rw [hb] at s2 w2
  unfold cutWeight at ht ⊢
  rw [← w1, ← w2] at ht ⊢
  unfold Model.Fc.cutSizeWeighted
  rw [e1, e2']
  show Model.Fc.cutSizeW (binary64 sum) G.directed G.A v1 (some v2) = _
  unfold Model.Fc.cutSizeW
  cases hd : G.directed with
  | false =>
    rw [hd] at ht
    simp only [Bool.false_eq_true, if_false, add_zero] at ht ⊢
    rw [s1 ht]
  | true =>
    rw [hd] at ht
    simp only [if_true] at ht ⊢
    rw [s1 (by linarith), s2 (by linarith)]
    have : a + b ≤ 2 ^ 53 := by exact_mod_cast ht
    have r := rnd64_nat this
    push_cast at r
    exact congrArg _ r

theorem fsum_nat {sum : List ℚ → ℚ} (hsum : RoundsSums sum) {n : Nat} {v : Vec n ℚ}
    (hv : ∀ i a, v i = some a → ∃ k : ℕ, a = k) (ht : (∑ i, (v i).getD 0) ≤ 2 ^ 53) :
    Model.Fr.fsum (binary64 sum) v = Model.Fr.fsum (Arith.exact ℚ) v := by
  rw [← entries_sum] at ht
  unfold Model.Fr.fsum
  by_cases hl : Model.Fr.entries v = []
  · rw [if_pos hl, if_pos hl]
  · rw [if_neg hl, if_neg hl]
    refine congrArg some (treeSum_nat (hsum _ hl) (fun x hx => ?_) ht)
    unfold Model.Fr.entries at hx
    obtain ⟨i, -, hi⟩ := List.mem_filterMap.1 hx
    exact hv i x hi

theorem fsum_exact_getD {n : Nat} (v : Vec n ℚ) : (Model.Fr.fsum (Arith.exact ℚ) v).getD 0 = ∑ i, (v i).getD 0 := by
  rw [fsum_exact, reduce_add]

/-- **C133.** In double precision, with natural numbers as weights and a total of at most `2^53`, weighted
`volume(G, S)` is exact, in whatever order the library adds. -/
theorem double_volume_exact (h : G.WF) {sum : List ℚ → ℚ} (hsum : RoundsSums sum) (hw : NatWeights G) {S : List K}
    (hS : ∀ u ∈ S, G.Node u) (ht : weightFromTo G.nodes G.weight? (fun _ => True) (· ∈ S) ≤ 2 ^ 53) :
    Model.Fc.volumeWeighted (binary64 sum) G S = .ok (weightFromTo G.nodes G.weight? (fun _ => True) (· ∈ S)) := by
  obtain ⟨v, e, hv⟩ := listToVector_ok h hS
  have eq := volumeW_eq h hv
  rw [← eq] at ht ⊢
  unfold Model.Fc.volumeWeighted
  rw [e]
  show Except.ok (Model.Fc.volumeW (binary64 sum) G.A v) = Except.ok (volumeW G.A v)
  have nat : ∀ i j a, ointer first (G.A i j) (v j) = some a → ∃ k : ℕ, a = k := by
    intro i j a ea
    have : G.A i j = some a := by
      cases hs : v j <;> cases ha : G.A i j <;> simp [ointer, first, hs, ha] at ea ⊢
      exact ea
    exact hw (keyFn h i) (keyFn h j) a ((weight?_eq_some h).1 (by rw [weight?_keyFn]; exact this))
  have rown : ∀ i, ∃ k : ℕ, (∑ j, (ointer first (G.A i j) (v j)).getD 0) = k := fun i => nat_sum _ _ fun j => by
    cases ea : ointer first (G.A i j) (v j) with
    | none => exact ⟨0, by simp⟩
    | some a => exact nat i j a ea
  have tot : volumeW G.A v = ∑ i, ∑ j, (ointer first (G.A i j) (v j)).getD 0 := by
    unfold volumeW
    rw [reduce_add]
    refine Finset.sum_congr rfl fun i _ => ?_
    rw [mxv, reduce_add]
  rw [tot] at ht ⊢
  have row : ∀ i, Model.Fr.fsum (binary64 sum) (fun j => ointer first (G.A i j) (v j)) =
      Model.Fr.fsum (Arith.exact ℚ) (fun j => ointer first (G.A i j) (v j)) := fun i => by
    refine fsum_nat hsum (nat i) (le_trans ?_ ht)
    exact Finset.single_le_sum (f := fun i => ∑ j, (ointer first (G.A i j) (v j)).getD 0)
      (fun i _ => by obtain ⟨k, hk⟩ := rown i; rw [hk]; exact Nat.cast_nonneg k) (Finset.mem_univ i)
  unfold Model.Fc.volumeW Model.Fr.vsum
  simp only [row]
  rw [fsum_nat hsum]
  · have z : (binary64 sum).nat 0 = 0 := rnd64_nat (k := 0) (by norm_num)
    rw [z, fsum_exact_getD]
    simp only [fsum_exact_getD]
  · intro i a ha
    obtain ⟨k, hk⟩ := rown i
    refine ⟨k, ?_⟩
    rw [← hk, ← fsum_exact_getD, ha]; rfl
  · simpa only [fsum_exact_getD] using ht

end double

/-! ### the exact model is the instance with exact arithmetic -/

omit [IsStrictOrderedRing F] in
/-- **C133.** with exact arithmetic these are the models that C51 and C52 are about -/
theorem float_cuts_exact (G : Graph K F) (S : List K) (T : Option (List K)) :
    Model.Fc.cutSizeWeighted (Arith.exact F) G S T = cutSizeWeighted G S T ∧
    Model.Fc.volumeWeighted (Arith.exact F) G S = volumeWeighted G S := by
  have em : ∀ {m n : Nat} (A : Mat m n F), Model.Fc.msum (Arith.exact F) A = (reduceScalar (· + ·) A).getD 0 := by
    intro m n A
    rw [reduceScalar_getD, ← mentries_sum]
    unfold Model.Fc.msum
    by_cases hl : Model.Fc.mentries A = []
    · rw [if_pos hl, hl]; simp [Arith.exact]
    · rw [if_neg hl]; rfl
  constructor
  · unfold Model.Fc.cutSizeWeighted cutSizeWeighted Model.Fc.cutSizeW cutSizeW
    simp only [em]
    rfl
  · unfold Model.Fc.volumeWeighted volumeWeighted Model.Fc.volumeW volumeW Model.Fr.vsum
    simp only [fsum_exact]
    have : (Arith.exact F).nat 0 = 0 := by simp [Arith.exact]
    rw [this]
    rfl


/-! ### the hypotheses are met: 0→1 with weight 3, 0→2, 1→2 -/

theorem hitsG_nat : NatWeights hitsG := by
  rintro u v a ⟨i, j, -, -, hA⟩
  have key : ∀ i j, (hitsG.A i j = none ∨ hitsG.A i j = some 1 ∨ hitsG.A i j = some 3) := by decide +kernel
  rcases key i j with h | h | h <;> rw [h] at hA <;> cases hA
  · exact ⟨1, by norm_num⟩
  · exact ⟨3, by norm_num⟩

example (sum : List ℚ → ℚ) (hsum : RoundsSums sum) :
    Model.Fc.cutSizeWeighted (binary64 sum) hitsG [1] (some [0, 2]) = .ok 4 := by
  have hc : cutWeight hitsG [1] [0, 2] = 4 := by decide +kernel
  rw [double_cut_size_exact hitsG_wf hsum hitsG_nat _ _ (by rw [hc]; norm_num), hc]

example (sum : List ℚ → ℚ) (hsum : RoundsSums sum) :
    Model.Fc.volumeWeighted (binary64 sum) hitsG [1, 2] = .ok 5 := by
  have hc : weightFromTo hitsG.nodes hitsG.weight? (fun _ => True) (· ∈ [1, 2]) = 5 := by decide +kernel
  rw [double_volume_exact hitsG_wf hsum hitsG_nat (by simp; decide) (by rw [hc]; norm_num), hc]

example (sum : List ℚ → ℚ) (hsum : RoundsSums sum) :
    ∃ r, Model.Fc.cutSizeWeighted (binary64 sum) hitsG [0, 1] (some [2]) = .ok r ∧ |r - 2| ≤ 6 / 2 ^ 52 := by
  have hc : cutWeight hitsG [0, 1] [2] = 2 := by decide +kernel
  have hm : cutEdges hitsG [0, 1] [2] = 2 := by decide +kernel
  obtain ⟨r, e, -, hr⟩ := double_cut_size hitsG_wf hsum hitsG_input.weights [0, 1] [2] (by rw [hm]; norm_num)
  rw [hc, hm] at hr
  exact ⟨r, e, hr.trans (by norm_num)⟩

end Props
