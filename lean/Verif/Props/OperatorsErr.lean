import Verif.Props.Operators
import Verif.Proofs.Relabel

/-!
# When the graph operators raise, and which kind of graph they return

C84: the binary operators reject a mix of a graph and a multigraph, reject two multigraphs as not implemented,
reject overlapping (`union`, `full_join`) or different (`difference`, `symmetric_difference`) node sets, and
succeed otherwise.

C85: an operator applied to two undirected graphs (symmetric adjacency) returns an undirected graph.
-/

open GB Model Graph Spec Proofs

namespace Props

variable {K α : Type} [DecidableEq K] {G H : Graph K α}

/-- what every binary operator does with multigraphs -/
structure MultiRule (op : Graph K α → Graph K α → Option Err) : Prop where
  mixed : ∀ G H : Graph K α, G.multi ≠ H.multi → op G H = some .algorithm
  both : ∀ G H : Graph K α, G.multi = true → H.multi = true → op G H = some .notImplemented

/-- the error raised by a call, if any -/
def raised {A : Type} : Except Err A → Option Err
  | .ok _ => none
  | .error e => some e

omit [DecidableEq K] in
theorem raised_bind_multi {A : Type} (g : Graph K α → Graph K α → Unit → Except Err A) :
    MultiRule fun G H : Graph K α => raised (multiCheck G H >>= g G H) where
  mixed G H h := by simp [multiCheck, h, raised, bind, Except.bind]
  both G H h h' := by simp [multiCheck, h, h', raised, bind, Except.bind]

/-- **C84, multigraphs.** Every binary operator raises `GraphBlasAlgorithmException` on a graph and a multigraph
and `NotImplementedError` on two multigraphs, whatever they contain. -/
theorem operators_reject_multigraphs (one : α) :
    MultiRule (fun G H : Graph K α => raised (Model.union G H)) ∧
    MultiRule (fun G H : Graph K α => raised (disjointUnion G H)) ∧
    MultiRule (fun G H : Graph K α => raised (Model.intersection one G H)) ∧
    MultiRule (fun G H : Graph K α => raised (Model.difference one G H)) ∧
    MultiRule (fun G H : Graph K α => raised (Model.symmetricDifference one G H)) ∧
    MultiRule (fun G H : Graph K α => raised (compose G H)) ∧
    MultiRule (fun G H : Graph K α => raised (fullJoin one G H)) := by
  refine ⟨raised_bind_multi _, raised_bind_multi _, raised_bind_multi _, raised_bind_multi _,
    raised_bind_multi _, raised_bind_multi _, ?_⟩
  constructor
  · intro G H h
    simp [fullJoin, Model.union, multiCheck, h, raised, bind, Except.bind]
  · intro G H h h'
    simp [fullJoin, Model.union, multiCheck, h, h', raised, bind, Except.bind]

theorem compose_returns (hG : G.WF) (hH : H.WF) (h1 : G.multi = false) (h2 : H.multi = false) :
    ∃ R, compose G H = .ok R := by
  by_cases h : ∀ u, G.Node u ↔ H.Node u
  · obtain ⟨R, hR, -⟩ := compose_same_nodes hG hH h1 h2 h
    exact ⟨R, hR⟩
  · have hk : ∀ u, u ∈ sortedKeys G (fun k => H.contains k) ↔ G.Node u ∧ H.Node u := by
      intro u; rw [mem_sortedKeys, contains_iff]
    have hk' : ∀ u, u ∈ sortedKeys H (fun k => !G.contains k) ↔ H.Node u ∧ ¬ G.Node u := by
      intro u; rw [mem_sortedKeys, Bool.not_eq_true', ← Bool.not_eq_true, contains_iff]
    obtain ⟨B1, hB1, -⟩ := extractKeys_ok hH (keys := sortedKeys G fun k => H.contains k)
      fun u hu => ((hk u).1 hu).2
    obtain ⟨B2, hB2, -⟩ := extractKeys_ok hH (keys := sortedKeys H fun k => !G.contains k)
      fun u hu => ((hk' u).1 hu).1
    obtain ⟨ids, hids, -⟩ := listToIds_ok hH (keys := sortedKeys H fun k => !G.contains k)
      fun u hu => ((hk' u).1 hu).1
    obtain ⟨idsG, hidsG, hidsGf⟩ := listToIds_ok hG (keys := sortedKeys G fun k => H.contains k)
      fun u hu => ((hk u).1 hu).1
    have hs : sameKeys G H = false := by
      rw [← Bool.not_eq_true, sameKeys_iff]; exact h
    unfold compose
    rw [multiCheck_ok h1 h2, hs]
    show ∃ R, composeDiff G H = .ok R
    unfold composeDiff idsIn
    dsimp only
    rw [hidsG, hB1, hB2, hids]
    have hc : idsG.length = (sortedKeys G fun k => H.contains k).length ∧
        G.n ≤ G.n + (sortedKeys H fun k => !G.contains k).length :=
      ⟨hidsGf.length_eq.symm, Nat.le_add_right _ _⟩
    simp only [bind, Except.bind, hc, and_self, dite_true]
    exact ⟨_, rfl⟩

open Classical in
/-- **C84.** On two graphs (not multigraphs) `union` and `full_join` succeed exactly when the node sets are
disjoint, `difference` and `symmetric_difference` exactly when they are equal, the others always; the only error
is `GraphBlasAlgorithmException`. -/
theorem operators_raise (hG : G.WF) (hH : H.WF) (h1 : G.multi = false) (h2 : H.multi = false) (one : α) :
    raised (Model.union G H) = (if (∃ u, G.Node u ∧ H.Node u) then some .algorithm else none) ∧
    raised (fullJoin one G H) = (if (∃ u, G.Node u ∧ H.Node u) then some .algorithm else none) ∧
    raised (Model.difference one G H) = (if (∀ u, G.Node u ↔ H.Node u) then none else some .algorithm) ∧
    raised (Model.symmetricDifference one G H) =
      (if (∀ u, G.Node u ↔ H.Node u) then none else some .algorithm) ∧
    raised (disjointUnion G H) = none ∧ raised (Model.intersection one G H) = none ∧
    raised (compose G H) = none := by
  refine ⟨?_, ?_, ?_, ?_, ?_, ?_, ?_⟩
  · split
    · next h => obtain ⟨u, hu, hv⟩ := h; rw [union_overlap h1 h2 hu hv]; rfl
    · next h =>
      obtain ⟨R, e, -⟩ := union_correct hG hH h1 h2 fun u hu hv => h ⟨u, hu, hv⟩
      rw [e]; rfl
  · split
    · next h => obtain ⟨u, hu, hv⟩ := h; rw [full_join_overlap h1 h2 one hu hv]; rfl
    · next h =>
      obtain ⟨R, e, -⟩ := full_join_correct hG hH h1 h2 (fun u hu hv => h ⟨u, hu, hv⟩) one
      rw [e]; rfl
  · split
    · next h => obtain ⟨R, e, -⟩ := (difference_correct hG hH h1 h2 one).1 h; rw [e]; rfl
    · next h => rw [(difference_correct hG hH h1 h2 one).2 h]; rfl
  · split
    · next h => obtain ⟨R, e, -⟩ := (symmetric_difference_correct hG hH h1 h2 one).1 h; rw [e]; rfl
    · next h => rw [(symmetric_difference_correct hG hH h1 h2 one).2 h]; rfl
  · obtain ⟨R, f, g, e, -⟩ := disjoint_union_correct hG hH h1 h2; rw [e]; rfl
  · obtain ⟨R, e, -⟩ := intersection_correct hG hH h1 h2 one; rw [e]; rfl
  · obtain ⟨R, e⟩ := compose_returns hG hH h1 h2; rw [e]; rfl

/-! ### C85 -/

omit [DecidableEq K] in
/-- a graph is symmetric when its weighted edges are -/
theorem symm_of_wedge (hG : G.WF) (h : ∀ u v w, G.WEdge u v w → G.WEdge v u w) : G.Symm := by
  have key : ∀ (i j : Fin G.n) w, G.A i j = some w → G.A j i = some w := by
    intro i j w e
    obtain ⟨x, hx⟩ := hG.exists_key i
    obtain ⟨y, hy⟩ := hG.exists_key j
    obtain ⟨j', i', hj, hi, e''⟩ := h x y w ⟨i, j, hx, hy, e⟩
    rw [At.id_unique hG hj hy, At.id_unique hG hi hx] at e''
    exact e''
  intro i j
  cases e : G.A i j with
  | some w => exact (key i j w e).symm
  | none =>
    cases e' : G.A j i with
    | none => rfl
    | some w => rw [key j i w e'] at e; cases e

omit [DecidableEq K] in
theorem wedge_of_symm (h : G.Symm) {u v : K} {w : α} (e : G.WEdge u v w) : G.WEdge v u w := by
  obtain ⟨i, j, hi, hj, e⟩ := e
  exact ⟨j, i, hj, hi, by rw [h]; exact e⟩

omit [DecidableEq K] in
theorem edge_of_symm (h : G.Symm) {u v : K} (e : G.Edge u v) : G.Edge v u := by
  obtain ⟨w, e⟩ := Relabel.edge_iff_wedge.1 e
  exact Relabel.edge_iff_wedge.2 ⟨w, wedge_of_symm h e⟩

omit [DecidableEq K] in
/-- symmetric edges that all carry the same weight -/
theorem symm_of_edge (hG : G.WF) {one : α} (h : ∀ u v, G.Edge u v → G.Edge v u)
    (ho : ∀ u v w, G.WEdge u v w → w = one) : G.Symm := by
  refine symm_of_wedge hG fun u v w e => ?_
  obtain ⟨w', e'⟩ := Relabel.edge_iff_wedge.1 (h u v (Relabel.edge_iff_wedge.2 ⟨w, e⟩))
  rwa [ho _ _ _ e, ← ho _ _ _ e']

/-- **C85.** The operators of two symmetric graphs give symmetric graphs. -/
theorem operators_symmetric (hG : G.WF) (hH : H.WF) (h1 : G.multi = false) (h2 : H.multi = false)
    (sG : G.Symm) (sH : H.Symm) (one : α) :
    (∀ R, Model.union G H = .ok R → R.Symm) ∧
    (∀ R, disjointUnion G H = .ok R → R.Symm) ∧
    (∀ R, Model.intersection one G H = .ok R → R.Symm) ∧
    (∀ R, Model.difference one G H = .ok R → R.Symm) ∧
    (∀ R, Model.symmetricDifference one G H = .ok R → R.Symm) ∧
    (∀ R, fullJoin one G H = .ok R → R.Symm) ∧
    (complement one G).Symm := by
  have disj : ∀ {X : Graph K α → Graph K α → Except Err (Graph K α)} {R},
      (∀ u, G.Node u → H.Node u → X G H = .error .algorithm) → X G H = .ok R →
      ∀ u, G.Node u → ¬ H.Node u := by
    intro X R h e u hu hv
    rw [h u hu hv] at e; cases e
  refine ⟨?_, ?_, ?_, ?_, ?_, ?_, ?_⟩
  · intro R e
    obtain ⟨R', e', hwf, -, -, -, hw⟩ := union_correct hG hH h1 h2
      (disj (X := Model.union) (fun u hu hv => union_overlap h1 h2 hu hv) e)
    obtain rfl : R = R' := by rw [e] at e'; cases e'; rfl
    refine symm_of_wedge hwf fun u v w h => ?_
    rw [hw] at h ⊢
    exact h.imp (wedge_of_symm sG) (wedge_of_symm sH)
  · intro R e
    obtain ⟨R', f, g, e', hwf, -, -, -, -, -, -, hw⟩ := disjoint_union_correct hG hH h1 h2
    obtain rfl : R = R' := by rw [e] at e'; cases e'; rfl
    refine symm_of_wedge hwf fun u v w h => ?_
    rw [hw] at h ⊢
    rcases h with ⟨a, b, ha, hb, h⟩ | ⟨a, b, ha, hb, h⟩
    · exact .inl ⟨b, a, hb, ha, wedge_of_symm sG h⟩
    · exact .inr ⟨b, a, hb, ha, wedge_of_symm sH h⟩
  · intro R e
    obtain ⟨R', e', hwf, -, -, -, he, ho⟩ := intersection_correct hG hH h1 h2 one
    obtain rfl : R = R' := by rw [e] at e'; cases e'; rfl
    refine symm_of_edge hwf (fun u v h => ?_) ho
    rw [he] at h ⊢
    exact h.imp (edge_of_symm sG) (edge_of_symm sH)
  · intro R e
    by_cases h : ∀ u, G.Node u ↔ H.Node u
    · obtain ⟨R', e', hwf, -, -, -, he, ho⟩ := (difference_correct hG hH h1 h2 one).1 h
      obtain rfl : R = R' := by rw [e] at e'; cases e'; rfl
      refine symm_of_edge hwf (fun u v h => ?_) ho
      rw [he] at h ⊢
      exact h.imp (edge_of_symm sG) fun a b => a (edge_of_symm sH b)
    · rw [(difference_correct hG hH h1 h2 one).2 h] at e; cases e
  · intro R e
    by_cases h : ∀ u, G.Node u ↔ H.Node u
    · obtain ⟨R', e', hwf, -, -, -, he, ho⟩ := (symmetric_difference_correct hG hH h1 h2 one).1 h
      obtain rfl : R = R' := by rw [e] at e'; cases e'; rfl
      refine symm_of_edge hwf (fun u v h => ?_) ho
      rw [he] at h ⊢
      exact h.imp (And.imp (edge_of_symm sG) fun a b => a (edge_of_symm sH b))
        (And.imp (edge_of_symm sH) fun a b => a (edge_of_symm sG b))
    · rw [(symmetric_difference_correct hG hH h1 h2 one).2 h] at e; cases e
  · intro R e
    obtain ⟨R', e', hwf, -, -, hw⟩ := full_join_correct hG hH h1 h2
      (disj (X := fullJoin one) (fun u hu hv => full_join_overlap h1 h2 one hu hv) e) one
    obtain rfl : R = R' := by rw [e] at e'; cases e'; rfl
    refine symm_of_wedge hwf fun u v w h => ?_
    rw [hw] at h ⊢
    rcases h with h | h | ⟨h, h' | h'⟩
    · exact .inl (wedge_of_symm sG h)
    · exact .inr (.inl (wedge_of_symm sH h))
    · exact .inr (.inr ⟨h, .inr ⟨h'.2, h'.1⟩⟩)
    · exact .inr (.inr ⟨h, .inl ⟨h'.2, h'.1⟩⟩)
  · obtain ⟨hwf, -, -, he, ho⟩ := complement_correct hG one
    refine symm_of_edge hwf (fun u v h => ?_) ho
    rw [he] at h ⊢
    exact ⟨h.2.1, h.1, h.2.2.1.symm, fun c => h.2.2.2 (edge_of_symm sG c)⟩

/-- **C85, compose**: with equal or disjoint node sets the result is symmetric. -/
theorem compose_symmetric_partial (hG : G.WF) (hH : H.WF) (h1 : G.multi = false) (h2 : H.multi = false)
    (sG : G.Symm) (sH : H.Symm)
    (h : (∀ u, G.Node u ↔ H.Node u) ∨ ∀ u, G.Node u → ¬ H.Node u) :
    ∀ R, compose G H = .ok R → R.Symm := by
  intro R e
  rcases h with h | h
  · obtain ⟨R', e', hwf, -, -, -, hw⟩ := compose_same_nodes hG hH h1 h2 h
    obtain rfl : R = R' := by rw [e] at e'; cases e'; rfl
    refine symm_of_wedge hwf fun u v w h => ?_
    rw [hw] at h ⊢
    exact h.imp (wedge_of_symm sH) (And.imp (wedge_of_symm sG) fun a b => a (edge_of_symm sH b))
  · obtain ⟨R', e', hwf, -, -, -, hw⟩ := compose_disjoint hG hH h1 h2 h
    obtain rfl : R = R' := by rw [e] at e'; cases e'; rfl
    refine symm_of_wedge hwf fun u v w h => ?_
    rw [hw] at h ⊢
    exact h.imp (wedge_of_symm sH) (wedge_of_symm sG)

/-- **C85 fails for mixed arguments.** An undirected graph joined with a digraph that has a one-way edge is
accepted and gives an undirected graph object with a non-symmetric adjacency matrix (NetworkX raises
`All graphs must be directed or undirected`). -/
theorem union_mixed_not_symmetric (hG : G.WF) (hH : H.WF) (h1 : G.multi = false) (h2 : H.multi = false)
    (dG : G.directed = false) (hd : ∀ u, G.Node u → ¬ H.Node u)
    {u v : K} (huv : H.Edge u v) (hvu : ¬ H.Edge v u) :
    ∃ R, Model.union G H = .ok R ∧ R.directed = false ∧ R.Edge u v ∧ ¬ R.Edge v u ∧ ¬ R.Symm := by
  obtain ⟨R, e, hwf, hdir, -, -, hw⟩ := union_correct hG hH h1 h2 hd
  have c : ¬ R.Edge v u := by
    intro c
    obtain ⟨w, c⟩ := Relabel.edge_iff_wedge.1 c
    rcases (hw _ _ _).1 c with c | c
    · exact hd _ (Relabel.edge_iff_wedge.2 ⟨w, c⟩).node_left huv.node_right
    · exact hvu (Relabel.edge_iff_wedge.2 ⟨w, c⟩)
  have c' : R.Edge u v := by
    obtain ⟨w, e⟩ := Relabel.edge_iff_wedge.1 huv
    exact Relabel.edge_iff_wedge.2 ⟨w, (hw _ _ _).2 (.inr e)⟩
  exact ⟨R, e, hdir.trans dG, c', c, fun s => c (edge_of_symm s c')⟩

/-- the same for the intersection of an undirected graph with a digraph -/
theorem intersection_mixed_not_symmetric (hG : G.WF) (hH : H.WF) (h1 : G.multi = false) (h2 : H.multi = false)
    (dG : G.directed = false) (one : α)
    {u v : K} (hg : G.Edge u v) (huv : H.Edge u v) (hvu : ¬ H.Edge v u) :
    ∃ R, Model.intersection one G H = .ok R ∧ R.directed = false ∧ R.Edge u v ∧ ¬ R.Edge v u ∧ ¬ R.Symm := by
  obtain ⟨R, e, hwf, hdir, -, -, he, -⟩ := intersection_correct hG hH h1 h2 one
  have c' : R.Edge u v := (he u v).2 ⟨hg, huv⟩
  have c : ¬ R.Edge v u := fun c => hvu ((he v u).1 c).2
  exact ⟨R, e, hdir.trans dG, c', c, fun s => c (edge_of_symm s c')⟩

/-! ### The hypotheses are met -/

example : Ex.cg.WF ∧ Ex.oh.WF ∧ Ex.cg.directed = false ∧ (∀ u, Ex.cg.Node u → ¬ Ex.oh.Node u) ∧
    Ex.oh.Edge 7 8 ∧ ¬ Ex.oh.Edge 8 7 := by
  refine ⟨⟨by decide, by decide⟩, ⟨by decide, by decide⟩, rfl, ?_, by decide, by decide⟩
  have : ∀ u ∈ Ex.cg.keyToId.map Prod.fst, ¬ Ex.oh.Node u := by decide
  exact fun u hu => this u hu

example : Ex.cg.Symm ∧ Ex.ch'.Symm ∧ Ex.cp.Symm := by unfold Graph.Symm; decide

end Props
