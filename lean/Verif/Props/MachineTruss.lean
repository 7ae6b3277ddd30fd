import Verif.Props.MachineSums
import Verif.Props.Truss

/-!
# C109: the 32-bit triangle counters of k_truss
-/

open GB Spec Model Proofs Proofs.Mach Proofs.Truss Graph

namespace Props

variable {K α β : Type} {n : Nat} [CommRing β]

omit [CommRing β] in
theorem supp_le (S : Mat n n α) (i j) : supp S i j ≤ n := by
  unfold supp
  refine (Finset.sum_le_card_nsmul _ _ 1 fun l _ => ?_).trans (by simp)
  cases S i l <;> cases S j l <;> simp [ind]

/-- the product with counters in `β` is the exact product, converted -/
theorem mxm_one (S : Mat n n α) (i j) :
    mxm (· + ·) (fun _ _ => (1 : β)) S (transpose S) i j =
      (mxm (· + ·) pairN S (transpose S) i j).map Nat.cast := by
  unfold mxm
  rw [reduce_map (· + ·) (· + ·) (Nat.cast : Nat → β) (fun a b => Nat.cast_add a b)]
  congr 1
  funext l
  show ointer _ (S i l) (S j l) = (ointer _ (S i l) (S j l)).map _
  cases S i l <;> cases S j l <;> simp [ointer, pairN]

theorem trussStepI_eq {val : β → Int} (hval : ∀ m : Nat, m ≤ n → val m = m) (k : Int) (S : Mat n n α) :
    trussStepI val k S = mapply Nat.cast (trussStep k S) := by
  funext i j
  unfold trussStepI trussStep mselect massignR mS mapply
  dsimp only
  by_cases hs : (S i j).isSome
  · rw [if_pos hs, if_pos hs, mxm_one]
    have hg : (mxm (· + ·) pairN S (transpose S) i j).getD 0 = supp S i j := mxm_pair_getD _ _ _ _
    cases hm : mxm (· + ·) pairN S (transpose S) i j with
    | none => rfl
    | some c =>
      rw [hm] at hg
      have hc : c ≤ n := by
        have : c = supp S i j := hg
        rw [this]; exact supp_le S i j
      simp only [Option.map_some, Option.filter, hval c hc]
      split <;> simp
  · rw [if_neg hs, if_neg hs]; rfl

theorem trussStepI_pattern {γ : Type} (val : β → Int) (f : α → γ) (k : Int) (S : Mat n n α) :
    trussStepI val k (mapply f S) = trussStepI val k S := by
  funext i j
  unfold trussStepI mselect massignR mS
  simp only [mxm_one]
  have : mxm (· + ·) pairN (mapply f S) (transpose (mapply f S)) i j = mxm (· + ·) pairN S (transpose S) i j := by
    unfold mxm
    congr 1
    funext l
    unfold transpose mapply
    cases S i l <;> cases S j l <;> simp [ointer, pairN]
  rw [this]
  simp [mapply]

theorem trussLoopI_eq {val : β → Int} (hval : ∀ m : Nat, m ≤ n → val m = m) (k : Int) :
    ∀ (fuel : Nat) (C : Mat n n Nat) (last : Nat),
      trussLoopI val k fuel (mapply Nat.cast C) last = (trussLoop k fuel C last).map (mapply Nat.cast)
  | 0, _, _ => rfl
  | fuel+1, C, last => by
    unfold trussLoopI trussLoop
    rw [mnvals_apply]
    by_cases h : mnvals C = last
    · rw [if_pos h, if_pos h]; rfl
    · rw [if_neg h, if_neg h, trussStepI_pattern, trussStepI_eq hval, trussLoopI_eq hval k fuel]

theorem subGraph_map {γ : Type} (f : α → γ) (m : Nat) (A : Mat m m α) (k2i : List (K × Nat)) (ids : List (Fin m)) :
    subGraph (⟨m, mapply f A, k2i, false, false⟩ : Graph K γ) ids =
      (subGraph (⟨m, A, k2i, false, false⟩ : Graph K α) ids).map
        fun T => ⟨T.n, mapply f T.A, T.keyToId, T.directed, T.multi⟩ := by
  unfold subGraph
  have : renumberKeyToId (⟨m, mapply f A, k2i, false, false⟩ : Graph K γ) ids =
      renumberKeyToId (⟨m, A, k2i, false, false⟩ : Graph K α) ids := rfl
  rw [this]
  cases renumberKeyToId (⟨m, A, k2i, false, false⟩ : Graph K α) ids <;> rfl

theorem indices_map {γ : Type} (f : α → γ) (A : Mat n n α) :
    indices (reduceRow any' (mapply f A)) = indices (reduceRow any' A) := by
  unfold indices
  congr 1
  funext i
  unfold reduceRow
  rw [Bool.eq_iff_iff, reduce_isSome, reduce_isSome]
  simp [mapply]

/-- With counters that can hold the number of nodes, the code computes what it would with exact counters. -/
theorem k_truss_counters_exact {val : β → Int} (G : Graph K α) (hval : ∀ m : Nat, m ≤ G.n → val m = m) (k : Int) :
    kTrussI val G k = (kTruss G k).map
      fun T => ⟨T.n, mapply (Sum.map id Nat.cast) T.A, T.keyToId, T.directed, T.multi⟩ := by
  have key : ∀ C : Mat G.n G.n (α ⊕ Nat),
      subGraph (⟨G.n, mapply (Sum.map id (Nat.cast : Nat → β)) C, G.keyToId, false, false⟩ : Graph K (α ⊕ β))
        (indices (reduceRow any' (mapply (Sum.map id (Nat.cast : Nat → β)) C))) =
      (subGraph (⟨G.n, C, G.keyToId, false, false⟩ : Graph K (α ⊕ Nat)) (indices (reduceRow any' C))).map
        fun T => ⟨T.n, mapply (Sum.map id Nat.cast) T.A, T.keyToId, T.directed, T.multi⟩ := by
    intro C
    rw [indices_map, subGraph_map]
  unfold kTrussI kTruss trussMat
  simp only
  by_cases hk : k < 3
  · rw [if_pos hk, if_pos hk]
    have : (mapply Sum.inl (offdiag G.A) : Mat G.n G.n (α ⊕ β)) =
        mapply (Sum.map id (Nat.cast : Nat → β)) (mapply Sum.inl (offdiag G.A)) := by
      funext i j; simp only [mapply, Option.map_map]; rfl
    rw [this]
    exact key _
  · rw [if_neg hk, if_neg hk, trussStepI_eq hval, trussLoopI_eq hval]
    cases trussLoop k (mnvals (offdiag G.A) + 1) (trussStep k (offdiag G.A)) (mnvals (offdiag G.A)) with
    | none => rfl
    | some C =>
      have : (mapply Sum.inr (mapply Nat.cast C) : Mat G.n G.n (α ⊕ β)) =
          mapply (Sum.map id (Nat.cast : Nat → β)) (mapply Sum.inr C) := by
        funext i j; simp only [mapply, Option.map_map]; rfl
      have h2 := key (mapply Sum.inr C)
      rw [← this] at h2
      exact h2

theorem sint_natCast {b : Nat} (hb : 0 < b) {m : Nat} (hm : m < 2 ^ (b - 1)) :
    SInt.toInt ((m : Nat) : SInt b) = m := by
  show ((m : Nat) : BitVec b).toInt = m
  obtain ⟨c, rfl⟩ : ∃ c, b = c + 1 := ⟨b - 1, by omega⟩
  have hm' : m < 2 ^ c := hm
  rw [BitVec.natCast_eq_ofNat, BitVec.toInt_ofNat']
  rw [Int.bmod_eq_of_le]
  · have h0 := Int.natCast_nonneg m
    have h1 : (0 : Int) ≤ 2 ^ c := by positivity
    push_cast; rw [pow_succ]; omega
  · have : (m : Int) < 2 ^ c := by exact_mod_cast hm'
    push_cast; rw [pow_succ]; omega

/-- `k_truss` on every undirected graph with fewer than `2^31` nodes, with its 32-bit counters: the
result is the largest subgraph in which every edge lies in at least `k - 2` triangles, without
isolated nodes, and the weight of an edge of the result is the number of its triangles. -/
theorem k_truss_int32 [DecidableEq K] {G : Graph K α} (h : G.WF) (hs : G.Symm) (hn : G.n < 2 ^ 31) (k : Int) :
    ∃ T, kTrussI (SInt.toInt (b := 32)) G k = .ok T ∧ T.WF ∧ T.directed = false ∧
      IsSubgraph G.Edge T.Edge ∧ IsTruss G.nodes k T.Edge ∧
      (∀ H, IsSubgraph G.Edge H → IsTruss G.nodes k H → ∀ u v, H u v → T.Edge u v) ∧
      (∀ u, T.Node u ↔ ∃ v, T.Edge u v) ∧
      ∀ u v x, T.WEdge u v x →
        (k < 3 ∧ ∃ w, x = .inl w ∧ G.WEdge u v w) ∨
        (3 ≤ k ∧ ∃ c, x = .inr c ∧ c.toInt = countOf G.nodes fun w => T.Edge u w ∧ T.Edge v w) := by
  have hval : ∀ m : Nat, m ≤ G.n → SInt.toInt ((m : Nat) : SInt 32) = m := fun m hm =>
    sint_natCast (by omega) (by omega)
  obtain ⟨T, hT, hwf, hd, h1, h2, h3, h4, h5⟩ := k_truss_correct h hs k
  obtain ⟨T', hT', hwf', hd', hE, hN, hW⟩ : ∃ T' : Graph K (α ⊕ SInt 32),
      kTrussI (SInt.toInt (b := 32)) G k = .ok T' ∧ T'.WF ∧ T'.directed = false ∧ T'.Edge = T.Edge ∧
      (∀ u, T'.Node u ↔ T.Node u) ∧
      ∀ u v x, T'.WEdge u v x → ∃ y, T.WEdge u v y ∧ x = Sum.map id Nat.cast y := by
    refine ⟨⟨T.n, mapply (Sum.map id (Nat.cast : Nat → SInt 32)) T.A, T.keyToId, T.directed, T.multi⟩,
      by rw [k_truss_counters_exact G hval, hT]; rfl, ⟨hwf.keys_nodup, hwf.ids_perm⟩, hd, ?_, fun u => Iff.rfl, ?_⟩
    · funext u v
      apply propext
      constructor
      · rintro ⟨i, j, hi, hj, e⟩
        exact ⟨i, j, hi, hj, by simpa [mapply] using e⟩
      · rintro ⟨i, j, hi, hj, e⟩
        exact ⟨i, j, hi, hj, by simpa [mapply] using e⟩
    · rintro u v x ⟨i, j, hi, hj, e⟩
      obtain ⟨y, hy, rfl⟩ := Option.map_eq_some_iff.1 e
      exact ⟨y, ⟨i, j, hi, hj, hy⟩, rfl⟩
  refine ⟨T', hT', hwf', hd', hE ▸ h1, hE ▸ h2, hE ▸ h3, fun u => by rw [hN, hE]; exact h4 u, ?_⟩
  intro u v x hx
  obtain ⟨y, hy, rfl⟩ := hW u v x hx
  rcases h5 u v y hy with ⟨a, w, rfl, hw⟩ | ⟨a, rfl⟩
  · exact Or.inl ⟨a, w, rfl, hw⟩
  · refine Or.inr ⟨a, _, rfl, ?_⟩
    have e : countOf G.nodes (fun w => T'.Edge u w ∧ T'.Edge v w) =
        countOf G.nodes (fun w => T.Edge u w ∧ T.Edge v w) := countOf_congr fun w => by rw [hE]
    rw [e, hval]
    refine List.countP_le_length.trans ?_
    rw [nodes_length h]

theorem sint_overflow {b : Nat} (hb : 0 < b) : SInt.toInt (((2 ^ (b - 1) : Nat) : Nat) : SInt b) = -2 ^ (b - 1) := by
  show (((2 ^ (b - 1) : Nat) : Nat) : BitVec b).toInt = _
  obtain ⟨c, rfl⟩ : ∃ c, b = c + 1 := ⟨b - 1, by omega⟩
  rw [BitVec.natCast_eq_ofNat, BitVec.toInt_ofNat']
  simp only [Nat.add_sub_cancel]
  rw [Int.bmod_def]
  have h0 : (0 : Int) < 2 ^ c := by positivity
  have h1 : (((2 ^ (c + 1) : Nat) : Nat) : Int) = 2 * 2 ^ c := by push_cast; rw [pow_succ, mul_comm]
  rw [h1]
  push_cast
  rw [Int.emod_eq_of_lt (by omega) (by omega)]
  rw [if_neg (by omega)]
  omega

/-- The counters do overflow: on the complete graph with `2^(b-1) + 2` nodes every edge lies in
`2^(b-1)` triangles, which a signed `b`-bit counter reads as `-2^(b-1)`, and all edges are dropped for
every `k ≥ 3`, although the graph is its own `k`-truss up to `k = 2^(b-1) + 2`. -/
theorem k_truss_counters_overflow [DecidableEq K] {b : Nat} (hb : 0 < b) {G : Graph K α} (h : G.WF)
    (hn : G.n = 2 ^ (b - 1) + 2) (hc : ∀ u v, G.Node u → G.Node v → u ≠ v → G.Edge u v) {k : Int} (hk : 3 ≤ k) :
    ∃ T, kTrussI (SInt.toInt (b := b)) G k = .ok T ∧ T.nodes = [] := by
  have hA : ∀ i j, (offdiag G.A i j).isSome = decide (i ≠ j) := by
    intro i j
    unfold offdiag
    by_cases e : i = j
    · simp [e]
    · obtain ⟨i', j', hi, hj, e'⟩ := hc _ _ (keyFn_at h i).node (keyFn_at h j).node
        (fun e' => e (keyFn_inj h e'))
      have e1 := At.id_unique h hi (keyFn_at h i)
      have e2 := At.id_unique h hj (keyFn_at h j)
      subst e1 e2
      simp [e, e']
  have hsupp : ∀ i j, i ≠ j → supp (offdiag G.A) i j = 2 ^ (b - 1) := by
    intro i j hij
    have h1 : ∀ l, ind (offdiag G.A i l) * ind (offdiag G.A j l) = if l ∉ ({i, j} : Finset (Fin G.n)) then 1 else 0 := by
      intro l
      unfold ind
      rw [hA, hA]
      by_cases e1 : i = l <;> by_cases e2 : j = l <;> simp [e1, e2, eq_comm]
    unfold supp
    rw [Finset.sum_congr rfl fun l _ => h1 l, ← Finset.card_filter]
    rw [Finset.filter_not, Finset.card_sdiff_of_subset (Finset.filter_subset _ _)]
    simp only [Finset.card_univ, Fintype.card_fin, Finset.filter_mem_eq_inter, Finset.univ_inter]
    rw [Finset.card_pair hij]
    omega
  have hstep : trussStepI (SInt.toInt (b := b)) k (offdiag G.A) = mempty := by
    funext i j
    unfold trussStepI mselect massignR mS mempty
    by_cases e : i = j
    · rw [hA]; simp [e]
    · rw [hA, mxm_one]
      have hg : (mxm (· + ·) pairN (offdiag G.A) (transpose (offdiag G.A)) i j).getD 0 = _ := mxm_pair_getD _ _ _ _
      have hg' : (mxm (· + ·) pairN (offdiag G.A) (transpose (offdiag G.A)) i j).getD 0 = 2 ^ (b - 1) :=
        hg.trans (hsupp i j e)
      cases hm : mxm (· + ·) pairN (offdiag G.A) (transpose (offdiag G.A)) i j with
      | none => simp
      | some c =>
        rw [hm] at hg'
        have hc' : c = 2 ^ (b - 1) := hg'
        subst hc'
        have : (0 : Int) < 2 ^ (b - 1) := by positivity
        rw [if_pos (by simpa using e), Option.map_some]
        show (if decide (k - 2 ≤ SInt.toInt (((2 ^ (b - 1) : Nat) : Nat) : SInt b)) = true then _ else none) = none
        rw [sint_overflow hb, if_neg (by simp; omega)]
  have hempty : trussStepI (SInt.toInt (b := b)) k (mempty : Mat G.n G.n (SInt b)) = mempty := by
    funext i j
    unfold trussStepI mselect massignR mS mempty
    simp
  have h0 : mnvals (mempty : Mat G.n G.n (SInt b)) = 0 := by simp [mnvals, mempty]
  have hpos : mnvals (offdiag G.A) ≠ 0 := by
    unfold mnvals
    rw [Finset.card_ne_zero]
    have h2 : 2 ≤ G.n := by rw [hn]; exact Nat.le_add_left _ _
    refine ⟨(⟨0, by omega⟩, ⟨1, by omega⟩), ?_⟩
    rw [Finset.mem_filter]
    refine ⟨Finset.mem_univ _, ?_⟩
    rw [hA]; simp
  have hloop : trussLoopI (SInt.toInt (b := b)) k (mnvals (offdiag G.A) + 1)
      (trussStepI (SInt.toInt (b := b)) k (offdiag G.A)) (mnvals (offdiag G.A)) = some mempty := by
    obtain ⟨f, hf⟩ : ∃ f, mnvals (offdiag G.A) = f + 1 := ⟨mnvals (offdiag G.A) - 1, by omega⟩
    rw [hstep, hf]
    unfold trussLoopI
    rw [h0, if_neg (by omega)]
    unfold trussLoopI
    rw [hempty, h0, if_pos rfl]
  have hind : indices (reduceRow any' (mapply Sum.inr (mempty : Mat G.n G.n (SInt b)) : Mat G.n G.n (α ⊕ SInt b))) = [] := by
    unfold indices
    rw [List.filter_eq_nil_iff]
    intro i _
    unfold reduceRow
    rw [reduce_isSome]
    simp [mapply, mempty]
  have hok : kTrussI (SInt.toInt (b := b)) G k =
      .ok ⟨0, fun i => i.elim0, [], false, false⟩ := by
    unfold kTrussI
    simp only
    rw [if_neg (by omega), hloop]
    show subGraph _ _ = _
    rw [hind]
    unfold subGraph renumberKeyToId
    simp only [List.mapM_nil]
    show Except.ok _ = _
    congr
    funext i; exact i.elim0
  exact ⟨_, hok, rfl⟩

/-- the complete graph on `0, …, n-1` -/
def completeGraph (n : Nat) : Graph Nat Int :=
  { n := n, A := fun i j => if i = j then none else some 1, keyToId := (List.range n).zipIdx, directed := false, multi := false }

theorem completeGraph_wf (n : Nat) : (completeGraph n).WF := wf_zipIdx List.nodup_range (by simp) _ _

/-- graphs as in `k_truss_counters_overflow` exist for every width -/
example (b : Nat) : ∃ G : Graph Nat Int, G.WF ∧ G.Symm ∧ G.n = 2 ^ (b - 1) + 2 ∧
    ∀ u v, G.Node u → G.Node v → u ≠ v → G.Edge u v := by
  refine ⟨completeGraph _, completeGraph_wf _, ?_, rfl, ?_⟩
  · intro i j
    show (if i = j then none else some 1) = if j = i then none else some 1
    by_cases e : i = j
    · rw [if_pos e, if_pos e.symm]
    · rw [if_neg e, if_neg (Ne.symm e)]
  · intro u v hu hv huv
    obtain ⟨i, hi⟩ := hu.exists_id (completeGraph_wf _)
    obtain ⟨j, hj⟩ := hv.exists_id (completeGraph_wf _)
    refine ⟨i, j, hi, hj, ?_⟩
    have : i ≠ j := fun e => huv (At.key_unique (completeGraph_wf _) hi (e ▸ hj))
    show (if i = j then none else some (1 : Int)).isSome = true
    rw [if_neg this]; rfl

/-- with two-bit counters: the 4-truss of the complete graph on four nodes is lost -/
example : (kTrussI (SInt.toInt (b := 2)) (completeGraph 4) 4).toOption.map Graph.nodes = some [] ∧
    (kTruss (completeGraph 4) 4).toOption.map Graph.nodes = some [0, 1, 2, 3] := by
  constructor <;> decide +kernel
/-- on the example graph -/
example : ∃ T, kTrussI (SInt.toInt (b := 32)) Ex.ug 3 = .ok T ∧ T.nodes = [2, 3, 5] := by
  refine ⟨_, rfl, ?_⟩; decide +kernel

end Props
