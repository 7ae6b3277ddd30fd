import Verif.Proofs.Truss
import Verif.Props.Examples

/-! # C42 k_truss -/

open GB Spec Model Model.Graph Proofs Proofs.Truss

namespace Props

variable {K α : Type} [DecidableEq K] {G : Graph K α}

/-- the matrix level, for every `k` -/
theorem trussMat_ok {n : Nat} (A : Mat n n α) (hs : ∀ i j, A i j = A j i) (k : Int) :
    ∃ C, trussMat A k = .ok C ∧
      (∀ i j, (C i j).isSome → i ≠ j ∧ (A i j).isSome) ∧
      (∀ i j, (C i j).isSome = (C j i).isSome) ∧
      (∀ i j, (C i j).isSome → k - 2 ≤ (supp C i j : Int)) ∧
      (∀ i j w, C i j = some (.inl w) → k < 3 ∧ A i j = some w) ∧
      (∀ i j c, C i j = some (.inr c) → 3 ≤ k ∧ c = supp C i j) ∧
      ∀ H : Fin n → Fin n → Bool, (∀ i j, H i j → i ≠ j ∧ (A i j).isSome) →
        (∀ i j, H i j → k - 2 ≤ ((∑ l, (if H i l then 1 else 0) * (if H j l then 1 else 0) : Nat) : Int)) →
        ∀ i j, H i j → (C i j).isSome := by
  have hoff : ∀ i j, (offdiag A i j).isSome ↔ i ≠ j ∧ (A i j).isSome := by
    intro i j; unfold offdiag; split <;> simp_all
  have hoffs : ∀ i j, (offdiag A i j).isSome = (offdiag A j i).isSome := by
    intro i j
    rw [Bool.eq_iff_iff, hoff, hoff, hs i j, ne_comm]
  unfold trussMat
  simp only
  by_cases hk : k < 3
  · rw [if_pos hk]
    refine ⟨_, rfl, ?_, ?_, ?_, ?_, ?_, ?_⟩
    · intro i j; simp only [mapply, Option.isSome_map]; exact (hoff i j).1
    · intro i j; simp only [mapply, Option.isSome_map]; exact hoffs i j
    · intro i j h
      by_cases h3 : k = 3
      · omega
      · have := Int.natCast_nonneg (supp (mapply Sum.inl (offdiag A) : Mat n n (α ⊕ Nat)) i j)
        omega
    · intro i j w hw
      refine ⟨hk, ?_⟩
      simp only [mapply, Option.map_eq_some_iff, Sum.inl.injEq, exists_eq_right] at hw
      unfold offdiag at hw; split at hw <;> simp_all
    · intro i j c hc
      simp [mapply] at hc
    · intro H hH _ i j h
      simp only [mapply, Option.isSome_map]
      exact (hoff i j).2 (hH i j h)
  · rw [if_neg hk]
    obtain ⟨C, hC, hg⟩ := loop_good k (by omega) (offdiag A) (mnvals (offdiag A) + 1) (offdiag A)
      (le_refl _) (fun _ _ h => h) hoffs (fun H hs _ i j h => hs i j h)
    rw [hC]
    have hpat : ∀ i j, ((mapply Sum.inr C : Mat n n (α ⊕ Nat)) i j).isSome = (C i j).isSome := by
      intro i j; simp [mapply]
    refine ⟨_, rfl, ?_, ?_, ?_, ?_, ?_, ?_⟩
    · intro i j h
      rw [hpat] at h
      exact (hoff i j).1 (hg.sub i j h)
    · intro i j; rw [hpat, hpat]; exact hg.symm i j
    · intro i j h
      rw [hpat] at h
      obtain ⟨c, hc⟩ := Option.isSome_iff_exists.1 h
      obtain ⟨e, hle⟩ := hg.val i j c hc
      rw [supp_congr hpat, ← e]; exact hle
    · intro i j w hw
      simp [mapply] at hw
    · intro i j c hc
      simp only [mapply, Option.map_eq_some_iff, Sum.inr.injEq, exists_eq_right] at hc
      refine ⟨by omega, ?_⟩
      rw [supp_congr hpat]
      exact (hg.val i j c hc).1
    · intro H hH ht i j h
      rw [hpat]
      exact hg.greatest H (fun i j h => (hoff i j).2 (hH i j h)) ht i j h

omit [DecidableEq K] in
theorem countOf_supp {β : Type} {T : Graph K β} (h : T.WF) (i j : Fin T.n)
    [DecidablePred fun w => T.Edge (keyFn h i) w ∧ T.Edge (keyFn h j) w] :
    countOf T.nodes (fun w => T.Edge (keyFn h i) w ∧ T.Edge (keyFn h j) w) = supp T.A i j := by
  rw [countOf_nodes h]
  unfold supp
  refine Finset.sum_congr rfl fun l _ => ?_
  have : (T.Edge (keyFn h i) (keyFn h l) ∧ T.Edge (keyFn h j) (keyFn h l)) ↔
      ((T.A i l).isSome ∧ (T.A j l).isSome) := by rw [edge_keyFn, edge_keyFn]
  rw [if_congr this rfl rfl]
  cases T.A i l <;> cases T.A j l <;> simp

open scoped Classical in
/-- **C42.** `k_truss(G, k)` of an undirected graph terminates and returns a graph whose edges are
the *largest* set of non-loop edges of `G` in which every edge lies on at least `k - 2` triangles of
that set, and whose nodes are exactly the end points of those edges.  Each edge carries its original
weight when `k < 3`, and otherwise the number of its triangles in the result. -/
theorem k_truss_correct (h : G.WF) (hs : G.Symm) (k : Int) :
    ∃ T, kTruss G k = .ok T ∧ T.WF ∧ T.directed = false ∧
      IsSubgraph G.Edge T.Edge ∧ IsTruss G.nodes k T.Edge ∧
      (∀ H, IsSubgraph G.Edge H → IsTruss G.nodes k H → ∀ u v, H u v → T.Edge u v) ∧
      (∀ u, T.Node u ↔ ∃ v, T.Edge u v) ∧
      ∀ u v x, T.WEdge u v x →
        (k < 3 ∧ ∃ w, x = .inl w ∧ G.WEdge u v w) ∨
        (3 ≤ k ∧ x = .inr (countOf G.nodes fun w => T.Edge u w ∧ T.Edge v w)) := by
  obtain ⟨C, hC, hsub, hsym, hsup, hinl, hinr, hgr⟩ := trussMat_ok G.A hs k
  let G' : Graph K (α ⊕ Nat) :=
    { n := G.n, A := C, keyToId := G.keyToId, directed := false, multi := false }
  have h' : G'.WF := ⟨h.keys_nodup, h.ids_perm⟩
  have hat : ∀ u i, G'.At u i ↔ G.At u i := fun _ _ => Iff.rfl
  have hedge : ∀ {u v i j}, G.At u i → G.At v j → (G'.Edge u v ↔ (C i j).isSome) :=
    fun hu hv => edge_iff h' ((hat _ _).2 hu) ((hat _ _).2 hv)
  obtain ⟨T, hT, hwf, hdir, -, hnode, hw⟩ := subGraph_ok h'
    (indices_nodup (reduceRow any' C))
  have hnode' : ∀ u, T.Node u ↔ ∃ i j, G.At u i ∧ (C i j).isSome := by
    intro u
    rw [hnode]
    constructor
    · rintro ⟨i, hi, hu⟩
      obtain ⟨j, hj⟩ := (reduce_isSome _ _).1 (mem_indices.1 hi)
      exact ⟨i, j, hu, hj⟩
    · rintro ⟨i, j, hu, hj⟩
      exact ⟨i, mem_indices.2 ((reduce_isSome _ _).2 ⟨j, hj⟩), hu⟩
  have hwe : ∀ u v x, T.WEdge u v x ↔ G'.WEdge u v x := by
    intro u v x
    rw [hw]
    constructor
    · exact fun hh => hh.1
    · rintro ⟨i, j, hu, hv, e⟩
      refine ⟨⟨i, j, hu, hv, e⟩, (hnode' u).2 ⟨i, j, hu, ?_⟩, (hnode' v).2 ⟨j, i, hv, ?_⟩⟩
      · exact Option.isSome_iff_exists.2 ⟨_, e⟩
      · rw [hsym]; exact Option.isSome_iff_exists.2 ⟨_, e⟩
  have he : ∀ u v, T.Edge u v ↔ G'.Edge u v := by
    intro u v
    rw [edge_iff_wedge, edge_iff_wedge]
    exact exists_congr fun x => hwe u v x
  have hTe : T.Edge = G'.Edge := by funext u v; exact propext (he u v)
  have hcount : ∀ i j [DecidablePred fun w => G'.Edge (keyFn h' i) w ∧ G'.Edge (keyFn h' j) w],
      countOf G.nodes (fun w => G'.Edge (keyFn h' i) w ∧ G'.Edge (keyFn h' j) w) =
      supp C i j := fun i j _ => countOf_supp h' i j
  have hok : kTruss G k = .ok T := by
    unfold kTruss; rw [hC]; exact hT
  refine ⟨T, hok, hwf, hdir, ?_, ?_, ?_, ?_, ?_⟩
  · rw [hTe]
    refine ⟨?_, ?_, ?_⟩
    · rintro u v ⟨i, j, hu, hv, e⟩
      exact ⟨i, j, hu, hv, (hsub i j e).2⟩
    · rintro u ⟨i, j, hu, hv, e⟩
      exact (hsub i j e).1 (At.id_unique h hu hv)
    · rintro u v ⟨i, j, hu, hv, e⟩
      exact ⟨j, i, hv, hu, by rw [hsym]; exact e⟩
  · rw [hTe]
    rintro u v ⟨i, j, hu, hv, e⟩
    rw [← keyFn_eq h' hu, ← keyFn_eq h' hv, hcount]
    exact hsup i j e
  · intro H hH ht u v huv
    rw [hTe]
    have hn : ∀ u v, H u v → ∃ i, G.At u i := fun u v huv => by
      obtain ⟨i, _, hi, _⟩ := hH.sub u v huv; exact ⟨i, hi⟩
    obtain ⟨i, hi⟩ := hn u v huv
    obtain ⟨j, hj⟩ := hn v u (hH.symm _ _ huv)
    rw [hedge hi hj]
    apply hgr (fun i j => decide (H (keyFn h i) (keyFn h j)))
    · intro i j hij
      have hij := of_decide_eq_true hij
      refine ⟨?_, (edge_keyFn h i j).1 (hH.sub _ _ hij)⟩
      rintro rfl
      exact hH.irrefl _ hij
    · intro i j hij
      have := ht _ _ (of_decide_eq_true hij)
      rw [countOf_nodes h] at this
      refine this.trans (le_of_eq ?_)
      congr 1
      refine Finset.sum_congr rfl fun l _ => ?_
      by_cases h1 : H (keyFn h i) (keyFn h l) <;> by_cases h2 : H (keyFn h j) (keyFn h l) <;>
        simp [h1, h2]
    · simp only [decide_eq_true_eq]
      rw [keyFn_eq h hi, keyFn_eq h hj]; exact huv
  · intro u
    rw [hnode', hTe]
    constructor
    · rintro ⟨i, j, hu, e⟩
      exact ⟨keyFn h j, i, j, hu, keyFn_at h j, e⟩
    · rintro ⟨v, i, j, hu, -, e⟩
      exact ⟨i, j, hu, e⟩
  · intro u v x hx
    obtain ⟨i, j, hu, hv, e⟩ := (hwe u v x).1 hx
    cases x with
    | inl w =>
      obtain ⟨h1, h2⟩ := hinl i j w e
      exact Or.inl ⟨h1, w, rfl, i, j, hu, hv, h2⟩
    | inr c =>
      obtain ⟨h1, h2⟩ := hinr i j c e
      refine Or.inr ⟨h1, ?_⟩
      rw [h2, ← hcount i j]
      congr 1
      refine countOf_congr fun w => ?_
      rw [hTe, keyFn_eq h' hu, keyFn_eq h' hv]

/-- the 3-truss of the example graph is the triangle 2-3-5; the 4-truss is empty -/
example : ∃ T, kTruss Ex.ug 3 = .ok T ∧ T.nodes = [2, 3, 5] ∧ T.Edge 2 5 ∧ ¬ T.Edge 2 2 := by
  refine ⟨_, rfl, ?_, ?_, ?_⟩ <;> decide +kernel
example : ∃ T, kTruss Ex.ug 4 = .ok T ∧ T.nodes = [] := by
  refine ⟨_, rfl, ?_⟩; decide +kernel
example : ∃ T, kTruss Ex.ug 2 = .ok T ∧ T.nodes = [1, 2, 3, 4, 5] ∧ ¬ T.Edge 4 4 := by
  refine ⟨_, rfl, ?_, ?_⟩ <;> decide +kernel

end Props
