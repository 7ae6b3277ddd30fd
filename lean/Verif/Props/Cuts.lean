import Verif.Proofs.Cuts
import Verif.Props.Examples
import Mathlib.Tactic.FieldSimp
import Mathlib.Algebra.Order.Field.Rat
import Mathlib.Algebra.Order.Field.Basic
import Mathlib.Algebra.Order.BigOperators.Group.Finset

/-!
# C49 edge_boundary, C50 node_boundary, C51 cut_size, C52 volume, C53 ratios, C54 dominating sets
-/

open GB Spec Model Model.Graph Proofs

namespace Props

variable {K α β : Type} [DecidableEq K] {G : Graph K α}

/-! ### C49 -/

theorem coo_keys (h : G.WF) {β : Type} (B : Mat G.n G.n β) :
    ∃ r, (tocoo2 B).mapM (fun t => do
      let u ← keyAt G t.1.val
      let v ← keyAt G t.2.1.val
      .ok (u, v, t.2.2)) = Except.ok r ∧ r = (tocoo2 B).map fun t => (keyFn h t.1, keyFn h t.2.1, t.2.2) := by
  refine ⟨_, mapM_ok (g := fun t => (keyFn h t.1, keyFn h t.2.1, t.2.2)) fun t _ => ?_, rfl⟩
  rw [keyAt_ok h, keyAt_ok h]; rfl

theorem coo_keys' (h : G.WF) {β : Type} (B : Mat G.n G.n β) :
    ∃ r, (tocoo2 B).mapM (fun t => do
      let u ← keyAt G t.1.val
      let v ← keyAt G t.2.1.val
      .ok (u, v)) = Except.ok r ∧ r = (tocoo2 B).map fun t => (keyFn h t.1, keyFn h t.2.1) := by
  refine ⟨_, mapM_ok (g := fun t => (keyFn h t.1, keyFn h t.2.1)) fun t _ => ?_, rfl⟩
  rw [keyAt_ok h, keyAt_ok h]; rfl

omit [DecidableEq K] in
theorem tocoo2_nodup {m n : Nat} {β : Type} (B : Mat m n β) : ((tocoo2 B).map fun t => (t.1, t.2.1)).Nodup := by
  unfold tocoo2
  rw [List.map_flatMap, List.nodup_flatMap]
  refine ⟨fun i _ => ?_, ?_⟩
  · rw [List.map_map]
    have := (tocoo_nodup (B i)).map (f := fun j => (i, j)) fun a b e => by simpa using e
    rwa [List.map_map] at this
  · refine (List.nodup_finRange m).pairwise_of_forall_ne ?_
    intro a _ b _ hne x hx hy
    simp only [List.map_map, List.mem_map, Function.comp] at hx hy
    obtain ⟨p, -, rfl⟩ := hx
    obtain ⟨q, -, e⟩ := hy
    simp only [Prod.mk.injEq] at e
    exact hne e.1.symm

/-- the target set of `edge_boundary`: the given set, or everything outside `S` that has an out-edge -/
def BTarget (G : Graph K α) (S : List K) (T : Option (List K)) (v : K) : Prop :=
  match T with
  | some l => v ∈ l
  | none => v ∉ S ∧ ∃ w, G.Edge v w

theorem bcols_iff (h : G.WF) {S : List K} {T : Option (List K)} {v1 : Vec G.n Bool} {v2}
    (h1 : ∀ i, (v1 i).isSome ↔ keyFn h i ∈ S) (h0 : T = none ↔ v2 = none)
    (h2 : ∀ l, T = some l → ∃ v, v2 = some v ∧ ∀ i, (v i).isSome ↔ keyFn h i ∈ l) (j) :
    (boundaryCols G.A v1 v2 j).isSome ↔ BTarget G S T (keyFn h j) := by
  cases T with
  | some l =>
    obtain ⟨v, rfl, hv⟩ := h2 l rfl
    exact hv j
  | none =>
    rw [h0.1 rfl, boundaryCols_none]
    unfold BTarget
    rw [← Bool.not_eq_true, h1]
    refine and_congr Iff.rfl ⟨?_, ?_⟩
    · rintro ⟨k, hk⟩; exact ⟨_, (edge_keyFn h j k).2 hk⟩
    · rintro ⟨w, hw⟩
      obtain ⟨k, rfl⟩ := exists_keyFn h hw.node_right
      exact ⟨k, (edge_keyFn h j k).1 hw⟩

/-- **C49.** `edge_boundary(G, S, T)` lists, without repetition, exactly the edges from `S` to the
target set, also with their weights.  (`BTarget`: with `T` omitted the code's target set is the nodes
outside `S` that have an out-edge; see `edge_boundary_undirected` and `edge_boundary_misses_sinks`.) -/
theorem edge_boundary_correct_partial (h : G.WF) (S : List K) (T : Option (List K)) :
    (∃ r, edgeBoundary G S T = .ok r ∧ r.Nodup ∧
      ∀ u v, (u, v) ∈ r ↔ G.Edge u v ∧ u ∈ S ∧ BTarget G S T v) ∧
    (∃ r, edgeBoundaryData G S T = .ok r ∧ (r.map fun t => (t.1, t.2.1)).Nodup ∧
      ∀ u v w, (u, v, w) ∈ r ↔ G.WEdge u v w ∧ u ∈ S ∧ BTarget G S T v) := by
  obtain ⟨v1, e1, h1⟩ := setToVector_ok h S
  obtain ⟨v2, e2, h0, h2⟩ := setToVector?_ok h T
  have hb := bcols_iff h h1 h0 h2
  constructor
  · obtain ⟨r, hr, rfl⟩ := coo_keys' h (edgeBoundaryU G.A v1 v2)
    refine ⟨(tocoo2 (edgeBoundaryU G.A v1 v2)).map fun t => (keyFn h t.1, keyFn h t.2.1), ?_, ?_, fun u v => ?_⟩
    · unfold edgeBoundary; rw [e1, e2]; exact hr
    · have := (tocoo2_nodup (edgeBoundaryU G.A v1 v2)).map (f := fun p => (keyFn h p.1, keyFn h p.2))
        fun a b e => by
          simp only [Prod.mk.injEq] at e
          exact Prod.ext (keyFn_inj h e.1) (keyFn_inj h e.2)
      rwa [List.map_map] at this
    · simp only [List.mem_map, Prod.mk.injEq, Prod.exists, mem_tocoo2]
      constructor
      · rintro ⟨i, j, b, hb', rfl, rfl⟩
        have := (edgeBoundaryU_isSome v2 i j).1 (by rw [hb']; rfl)
        exact ⟨(edge_keyFn h i j).2 this.2.1, (h1 i).1 this.1, (hb j).1 this.2.2⟩
      · rintro ⟨he, hu, hv⟩
        obtain ⟨i, rfl⟩ := exists_keyFn h he.node_left
        obtain ⟨j, rfl⟩ := exists_keyFn h he.node_right
        obtain ⟨b, hb'⟩ := Option.isSome_iff_exists.1 ((edgeBoundaryU_isSome v2 i j).2
          ⟨(h1 i).2 hu, (edge_keyFn h i j).1 he, (hb j).2 hv⟩)
        exact ⟨i, j, b, hb', rfl, rfl⟩
  · obtain ⟨r, hr, rfl⟩ := coo_keys h (edgeBoundaryW G.A v1 v2)
    refine ⟨(tocoo2 (edgeBoundaryW G.A v1 v2)).map fun t => (keyFn h t.1, keyFn h t.2.1, t.2.2), ?_, ?_,
      fun u v w => ?_⟩
    · unfold edgeBoundaryData; rw [e1, e2]; exact hr
    · have := (tocoo2_nodup (edgeBoundaryW G.A v1 v2)).map (f := fun p => (keyFn h p.1, keyFn h p.2))
        fun a b e => by
          simp only [Prod.mk.injEq] at e
          exact Prod.ext (keyFn_inj h e.1) (keyFn_inj h e.2)
      rw [List.map_map] at this ⊢
      exact this
    · simp only [List.mem_map, Prod.mk.injEq, Prod.exists, mem_tocoo2]
      constructor
      · rintro ⟨i, j, b, hb', rfl, rfl, rfl⟩
        rw [edgeBoundaryW_eq] at hb'
        split at hb'
        case isFalse => cases hb'
        case isTrue hc =>
          exact ⟨⟨i, j, keyFn_at h i, keyFn_at h j, hb'⟩, (h1 i).1 hc.1, (hb j).1 hc.2⟩
      · rintro ⟨⟨i, j, hi, hj, he⟩, hu, hv⟩
        rw [← keyFn_eq h hi] at hu ⊢
        rw [← keyFn_eq h hj] at hv ⊢
        refine ⟨i, j, w, ?_, rfl, rfl, rfl⟩
        rw [edgeBoundaryW_eq, if_pos ⟨(h1 i).2 hu, (hb j).2 hv⟩, he]

/-- **C49.** in an undirected graph (and whenever `T` is given) the target set is what the documentation
says: `T`, or the complement of `S`. -/
theorem edge_boundary_undirected (hs : G.Symm) (S : List K) (T : Option (List K)) {u v : K}
    (he : G.Edge u v) : BTarget G S T v ↔ match T with | some l => v ∈ l | none => v ∉ S := by
  cases T with
  | some l => rfl
  | none =>
    refine ⟨fun h => h.1, fun h => ⟨h, u, ?_⟩⟩
    obtain ⟨i, j, hi, hj, hx⟩ := he
    exact ⟨j, i, hj, hi, by rw [← hs i j]; exact hx⟩

/-- 1 → 2 -/
def exSink : Graph Nat Int :=
  { n := 2, A := _root_.Ex.ofTriples 2 [(0,1,1)], keyToId := [(1,0), (2,1)], directed := true }

/-- **C49, the part that fails.** with `T` omitted, an edge into a node without out-edges is missing
from the boundary of a digraph: `edge_boundary({1 → 2}, {1})` is empty. -/
theorem edge_boundary_misses_sinks : exSink.WF ∧ exSink.Edge 1 2 ∧
    (match edgeBoundary exSink [1] none with | .ok l => l == [] | .error _ => false) = true := by
  refine ⟨⟨by decide, by decide⟩, by decide, by decide +kernel⟩

/-! ### C50 -/

/-- **C50.** `node_boundary(G, S, T)` is exactly the nodes outside `S` (and in `T`, when given) that
have an edge from a node in `S`. -/
theorem node_boundary_correct (h : G.WF) (S : List K) (T : Option (List K)) :
    ∃ r, nodeBoundary G S T = .ok r ∧ ∀ v, (G.view r v).isSome ↔
      v ∉ S ∧ (∀ l, T = some l → v ∈ l) ∧ ∃ u ∈ S, G.Edge u v := by
  obtain ⟨v1, e1, h1⟩ := setToVector_ok h S
  obtain ⟨v2, e2, h0, h2⟩ := setToVector?_ok h T
  refine ⟨nodeBoundaryV G.A v1 v2, ?_, fun v => ?_⟩
  · unfold nodeBoundary; rw [e1, e2]; rfl
  by_cases hv : G.Node v
  · obtain ⟨j, rfl⟩ := exists_keyFn h hv
    rw [view_keyFn]
    have hx : (vxm any' pairB v1 G.A j).isSome ↔ ∃ u ∈ S, G.Edge u (keyFn h j) := by
      rw [vxm_isSome]
      constructor
      · rintro ⟨i, hi, ha⟩; exact ⟨_, (h1 i).1 hi, (edge_keyFn h i j).2 ha⟩
      · rintro ⟨u, hu, he⟩
        obtain ⟨i, rfl⟩ := exists_keyFn h he.node_left
        exact ⟨i, (h1 i).2 hu, (edge_keyFn h i j).1 he⟩
    cases T with
    | none =>
      rw [h0.1 rfl]
      by_cases hS : keyFn h j ∈ S
      · simp [nodeBoundaryV, vassignR, vnot, vS, (h1 j).2 hS, hS]
      · have : (v1 j).isSome = false := by rw [← Bool.not_eq_true, h1]; exact hS
        simp [nodeBoundaryV, vassignR, vnot, vS, this, hS, hx]
    | some l =>
      obtain ⟨t, rfl, ht⟩ := h2 l rfl
      by_cases hS : keyFn h j ∈ S
      · obtain ⟨b, hb⟩ := Option.isSome_iff_exists.1 ((h1 j).2 hS)
        simp [nodeBoundaryV, vassignR, vnot, vS, hb, hS]
      · have h3 : v1 j = none := by
          rw [← Option.not_isSome_iff_eq_none, h1]; exact hS
        by_cases hl : keyFn h j ∈ l
        · simp [nodeBoundaryV, vassignR, vnot, vS, h3, hS, (ht j).2 hl, hl, hx]
        · have h4 : (t j).isSome = false := by rw [← Bool.not_eq_true, ht]; exact hl
          simp [nodeBoundaryV, vassignR, vnot, vS, h4, hl]
  · rw [show G.view (nodeBoundaryV G.A v1 v2) v = none by simp [view, (idOf_eq_none h).2 hv]]
    simp only [Option.isSome_none, Bool.false_eq_true, false_iff]
    rintro ⟨-, -, u, -, he⟩
    exact hv he.node_right

/-! ### C51 -/

theorem mnvals_boundary (h : G.WF) {S : List K} {v1 : Vec G.n Bool} {v2} {Q : K → Prop} [DecidablePred Q]
    (h1 : ∀ i, (v1 i).isSome ↔ keyFn h i ∈ S)
    (hb : ∀ i j, (G.A i j).isSome → ((boundaryCols G.A v1 v2 j).isSome ↔ Q (keyFn h j))) :
    mnvals (edgeBoundaryU G.A v1 v2) = edgesFromTo G.nodes G.Edge (· ∈ S) Q := by
  rw [edgesFromTo_eq h, Proofs.CacheMath.mnvals_sum]
  refine Finset.sum_congr rfl fun i _ => Finset.sum_congr rfl fun j _ => ?_
  have := edgeBoundaryU_isSome (A := G.A) (S := v1) v2 i j
  rw [h1] at this
  rw [ind]
  by_cases hc : (edgeBoundaryU G.A v1 v2 i j).isSome
  · have ht := this.1 hc
    rw [if_pos hc, if_pos]
    exact ⟨ht.1, (hb i j ht.2.1).1 ht.2.2, ht.2.1⟩
  · rw [if_neg hc, if_neg]
    rintro ⟨a, b, c⟩; exact hc (this.2 ⟨a, c, (hb i j c).2 b⟩)

theorem weight_boundary [AddCommMonoid α] (h : G.WF) {S : List K} {v1 : Vec G.n Bool} {v2} {Q : K → Prop}
    [DecidablePred Q] (h1 : ∀ i, (v1 i).isSome ↔ keyFn h i ∈ S)
    (hb : ∀ i j, (G.A i j).isSome → ((boundaryCols G.A v1 v2 j).isSome ↔ Q (keyFn h j))) :
    (reduceScalar (· + ·) (edgeBoundaryW G.A v1 v2)).getD 0 =
      weightFromTo G.nodes G.weight? (· ∈ S) Q := by
  rw [weightFromTo_eq h, reduceScalar_getD]
  refine Finset.sum_congr rfl fun i _ => Finset.sum_congr rfl fun j _ => ?_
  rw [edgeBoundaryW_eq]
  cases ha : G.A i j with
  | none => split <;> split <;> rfl
  | some w =>
    have hbij := hb i j (by rw [ha]; rfl)
    by_cases hc : (v1 i).isSome ∧ (boundaryCols G.A v1 v2 j).isSome
    · rw [if_pos hc, if_pos ⟨(h1 i).1 hc.1, hbij.1 hc.2⟩]
    · rw [if_neg hc, if_neg]
      · rfl
      · rintro ⟨a, b⟩; exact hc ⟨(h1 i).2 a, hbij.2 b⟩

theorem cols_compl (h : G.WF) (hs : G.Symm) {S : List K} {v1 : Vec G.n Bool}
    (h1 : ∀ i, (v1 i).isSome ↔ keyFn h i ∈ S) (i j) (ha : (G.A i j).isSome) :
    (boundaryCols G.A v1 none j).isSome ↔ keyFn h j ∉ S := by
  rw [boundaryCols_none, ← Bool.not_eq_true, h1]
  exact ⟨fun x => x.1, fun x => ⟨x, i, by rw [← hs i j]; exact ha⟩⟩

/-- **C51.** `cut_size(G, S, T)` is the number of edges from `S` to `T`, in a digraph plus the number of
edges from `T` to `S`. -/
theorem cut_size_correct (h : G.WF) (S T : List K) :
    cutSize G S (some T) = .ok (edgesFromTo G.nodes G.Edge (· ∈ S) (· ∈ T) +
      if G.directed then edgesFromTo G.nodes G.Edge (· ∈ T) (· ∈ S) else 0) := by
  obtain ⟨v1, e1, h1⟩ := setToVector_ok h S
  obtain ⟨v2, e2, h2⟩ := setToVector_ok h T
  have e2' : setToVector? G (some T) = .ok (some v2) := by simp [setToVector?, e2, Except.map]
  have a1 := mnvals_boundary (Q := (· ∈ T)) (v2 := some v2) h h1 (fun i j _ => h2 j)
  have a2 := mnvals_boundary (Q := (· ∈ S)) (v2 := some v1) h h2 (fun i j _ => h1 j)
  unfold cutSize
  rw [e1, e2']
  show cutSizeU G.directed G.A v1 (some v2) = _
  rw [← a1, ← a2]
  unfold cutSizeU
  cases G.directed <;> simp

/-- **C51.** the same for weights -/
theorem cut_size_weighted_correct [AddCommMonoid α] (h : G.WF) (S T : List K) :
    cutSizeWeighted G S (some T) = .ok (weightFromTo G.nodes G.weight? (· ∈ S) (· ∈ T) +
      if G.directed then weightFromTo G.nodes G.weight? (· ∈ T) (· ∈ S) else 0) := by
  obtain ⟨v1, e1, h1⟩ := setToVector_ok h S
  obtain ⟨v2, e2, h2⟩ := setToVector_ok h T
  have e2' : setToVector? G (some T) = .ok (some v2) := by simp [setToVector?, e2, Except.map]
  have a1 := weight_boundary (Q := (· ∈ T)) (v2 := some v2) h h1 (fun i j _ => h2 j)
  have a2 := weight_boundary (Q := (· ∈ S)) (v2 := some v1) h h2 (fun i j _ => h1 j)
  unfold cutSizeWeighted
  rw [e1, e2']
  show cutSizeW G.directed G.A v1 (some v2) = _
  rw [← a1, ← a2]
  unfold cutSizeW
  cases G.directed <;> simp

/-- **C51.** with `T` omitted, in an undirected graph, `T` is the complement of `S`. -/
theorem cut_size_complement (h : G.WF) (hs : G.Symm) (hd : G.directed = false) (S : List K) :
    cutSize G S none = .ok (edgesFromTo G.nodes G.Edge (· ∈ S) (· ∉ S)) := by
  obtain ⟨v1, e1, h1⟩ := setToVector_ok h S
  have a1 := mnvals_boundary (Q := (· ∉ S)) (v2 := none) h h1 (fun i j ha => cols_compl h hs h1 i j ha)
  unfold cutSize
  rw [e1]
  show cutSizeU G.directed G.A v1 none = _
  unfold cutSizeU
  rw [a1, hd]
  rfl

/-- **C51.** the same for weights -/
theorem cut_size_weighted_complement [AddCommMonoid α] (h : G.WF) (hs : G.Symm) (hd : G.directed = false)
    (S : List K) :
    cutSizeWeighted G S none = .ok (weightFromTo G.nodes G.weight? (· ∈ S) (· ∉ S)) := by
  obtain ⟨v1, e1, h1⟩ := setToVector_ok h S
  have a1 := weight_boundary (Q := (· ∉ S)) (v2 := none) h h1 (fun i j ha => cols_compl h hs h1 i j ha)
  unfold cutSizeWeighted
  rw [e1]
  show cutSizeW G.directed G.A v1 none = _
  unfold cutSizeW
  rw [a1, hd]
  rfl

/-- **C51, the part that fails.** in a digraph `cut_size` with `T` omitted raises TypeError. -/
theorem cut_size_directed_without_target (h : G.WF) (hd : G.directed = true) (S : List K) :
    cutSize G S none = .error .typeError := by
  obtain ⟨v1, e1, -⟩ := setToVector_ok h S
  unfold cutSize
  rw [e1]
  show cutSizeU G.directed G.A v1 none = _
  unfold cutSizeU
  rw [hd]
  rfl

theorem edgesFromTo_symm (h : G.WF) (hs : G.Symm) (P Q : K → Prop) [DecidablePred P] [DecidablePred Q] :
    edgesFromTo G.nodes G.Edge P Q = edgesFromTo G.nodes G.Edge Q P := by
  rw [edgesFromTo_eq h, edgesFromTo_eq h, Finset.sum_comm]
  refine Finset.sum_congr rfl fun i _ => Finset.sum_congr rfl fun j _ => ?_
  rw [hs j i]
  by_cases hP : P (keyFn h j) <;> by_cases hQ : Q (keyFn h i) <;> simp [hP, hQ]

/-- **C51.** `cut_size(G, S, T) = cut_size(G, T, S)` for digraphs and for undirected graphs. -/
theorem cut_size_symmetric (h : G.WF) (hs : G.directed = false → G.Symm) (S T : List K) :
    cutSize G S (some T) = cutSize G T (some S) := by
  rw [cut_size_correct h, cut_size_correct h]
  cases hd : G.directed with
  | true => simp [Nat.add_comm]
  | false =>
    simp only [Bool.false_eq_true, if_false, Nat.add_zero]
    rw [edgesFromTo_symm h (hs hd)]

/-! ### C52 -/

theorem volumeU_eq (h : G.WF) {S : List K} {v : Vec G.n Bool} (hv : ∀ i, (v i).isSome ↔ keyFn h i ∈ S) :
    volumeU G.A v = vol G.nodes G.Edge (· ∈ S) := by
  unfold volumeU
  rw [nvals_vassign_count, vol_eq h]
  refine Finset.sum_congr rfl fun i _ => ?_
  by_cases hs : keyFn h i ∈ S
  · rw [if_pos ((hv i).2 hs), if_pos hs]
  · rw [if_neg hs, if_neg fun x => hs ((hv i).1 x)]

/-- **C52.** `volume(G, S)` is the sum over the nodes in `S` (each once) of the number of their
successors (neighbours; a self-loop counts once); a key that is not a node raises KeyError. -/
theorem volume_correct (h : G.WF) {S : List K} (hS : ∀ u ∈ S, G.Node u) :
    volume G S = .ok (vol G.nodes G.Edge (· ∈ S)) := by
  obtain ⟨v, e, hv⟩ := listToVector_ok h hS
  unfold volume
  rw [e, ← volumeU_eq h hv]
  rfl

/-- **C52.** -/
theorem volume_missing (h : G.WF) {S : List K} {u} (hu : u ∈ S) (hn : ¬ G.Node u) :
    volume G S = .error .keyError := by
  unfold volume; rw [listToVector_error h hu hn]; rfl

theorem volumeW_eq [AddCommMonoid α] (h : G.WF) {S : List K} {v : Vec G.n Bool}
    (hv : ∀ i, (v i).isSome ↔ keyFn h i ∈ S) :
    volumeW G.A v = weightFromTo G.nodes G.weight? (fun _ => True) (· ∈ S) := by
  unfold volumeW
  rw [reduce_add, weightFromTo_eq h]
  refine Finset.sum_congr rfl fun i _ => ?_
  rw [mxv, reduce_add]
  refine Finset.sum_congr rfl fun j _ => ?_
  by_cases hs : keyFn h j ∈ S
  · obtain ⟨b, hb⟩ := Option.isSome_iff_exists.1 ((hv j).2 hs)
    rw [if_pos ⟨trivial, hs⟩, hb]
    cases G.A i j <;> simp [first]
  · have : v j = none := by rw [← Option.not_isSome_iff_eq_none, hv]; exact hs
    rw [if_neg fun x => hs x.2, this]
    cases G.A i j <;> rfl

/-- **C52.** the weighted `volume(G, S)` of an undirected graph is the sum over the nodes in `S` of the
weights of their edges.  (In a digraph the code adds the weights of the edges *into* `S`: first part.) -/
theorem volume_weighted_correct_partial [AddCommMonoid α] (h : G.WF) {S : List K} (hS : ∀ u ∈ S, G.Node u) :
    volumeWeighted G S = .ok (weightFromTo G.nodes G.weight? (fun _ => True) (· ∈ S)) ∧
    (G.Symm → volumeWeighted G S = .ok (weightFromTo G.nodes G.weight? (· ∈ S) (fun _ => True))) := by
  obtain ⟨v, e, hv⟩ := listToVector_ok h hS
  have : volumeWeighted G S = .ok (weightFromTo G.nodes G.weight? (fun _ => True) (· ∈ S)) := by
    unfold volumeWeighted
    rw [e, ← volumeW_eq h hv]
    rfl
  refine ⟨this, fun hs => this.trans (congrArg _ ?_)⟩
  rw [weightFromTo_eq h, weightFromTo_eq h, Finset.sum_comm]
  refine Finset.sum_congr rfl fun i _ => Finset.sum_congr rfl fun j _ => ?_
  rw [hs j i]
  by_cases hc : keyFn h i ∈ S <;> simp [hc]

/-- **C52, the part that fails.** the weighted volume of `{1}` in the digraph `1 → 2` (weight 1) is 0,
though its out-degree is 1 (and the unweighted volume is 1). -/
theorem volume_weighted_directed_wrong : volumeWeighted exSink [1] = .ok 0 ∧ volume exSink [1] = .ok 1 ∧
    weightFromTo exSink.nodes exSink.weight? (· ∈ [1]) (fun _ => True) = 1 := by
  have hw : exSink.WF := ⟨by decide, by decide⟩
  refine ⟨?_, ?_, by decide +kernel⟩
  · rw [(volume_weighted_correct_partial hw (by simp; decide)).1]
    exact congrArg _ (by decide +kernel)
  · rw [volume_correct hw (by simp; decide)]
    exact congrArg _ (by decide +kernel)

/-! ### C53 -/

/-- the other side of a cut: `T`, or the complement of `S` -/
def Other (S : List K) (T : Option (List K)) (v : K) : Prop :=
  match T with
  | some l => v ∈ l
  | none => v ∉ S

instance (S : List K) (T : Option (List K)) : DecidablePred (Other S T) := fun v =>
  match T with
  | some l => inferInstanceAs (Decidable (v ∈ l))
  | none => inferInstanceAs (Decidable (v ∉ S))

/-- edges of the cut, in both directions in a digraph -/
def cutCount (G : Graph K α) (P Q : K → Prop) [DecidablePred P] [DecidablePred Q] : Nat :=
  edgesFromTo G.nodes G.Edge P Q + if G.directed then edgesFromTo G.nodes G.Edge Q P else 0

theorem mnvals_boundary' (h : G.WF) {P : K → Prop} [DecidablePred P] {Q : K → Prop} [DecidablePred Q]
    {v1 : Vec G.n Bool} {t : Vec G.n Bool}
    (h1 : ∀ i, (v1 i).isSome ↔ P (keyFn h i)) (h2 : ∀ i, (t i).isSome ↔ Q (keyFn h i)) :
    mnvals (edgeBoundaryU G.A v1 (some t)) = edgesFromTo G.nodes G.Edge P Q := by
  rw [edgesFromTo_eq h, Proofs.CacheMath.mnvals_sum]
  refine Finset.sum_congr rfl fun i _ => Finset.sum_congr rfl fun j _ => ?_
  have := edgeBoundaryU_isSome (A := G.A) (S := v1) (some t) i j
  rw [h1, boundaryCols_some, h2] at this
  rw [ind]
  by_cases hc : (edgeBoundaryU G.A v1 (some t) i j).isSome
  · have ht := this.1 hc
    rw [if_pos hc, if_pos ⟨ht.1, ht.2.2, ht.2.1⟩]
  · rw [if_neg hc, if_neg]
    rintro ⟨a, b, c⟩; exact hc (this.2 ⟨a, c, b⟩)

theorem cutSizeU_eq (h : G.WF) {P : K → Prop} [DecidablePred P] {Q : K → Prop} [DecidablePred Q]
    {v1 : Vec G.n Bool} {t : Vec G.n Bool}
    (h1 : ∀ i, (v1 i).isSome ↔ P (keyFn h i)) (h2 : ∀ i, (t i).isSome ↔ Q (keyFn h i)) :
    cutSizeU G.directed G.A v1 (some t) = .ok (cutCount G P Q) := by
  unfold cutSizeU cutCount
  rw [← mnvals_boundary' h h1 h2, ← mnvals_boundary' h h2 h1]
  cases G.directed <;> simp

theorem volumeU_eq' (h : G.WF) {P : K → Prop} [DecidablePred P] {v : Vec G.n Bool}
    (hv : ∀ i, (v i).isSome ↔ P (keyFn h i)) : volumeU G.A v = vol G.nodes G.Edge P := by
  unfold volumeU
  rw [nvals_vassign_count, vol_eq h]
  refine Finset.sum_congr rfl fun i _ => ?_
  by_cases hs : P (keyFn h i)
  · rw [if_pos ((hv i).2 hs), if_pos hs]
  · rw [if_neg hs, if_neg fun x => hs ((hv i).1 x)]

theorem otherSide_ok (h : G.WF) {S : List K} {v1 : Vec G.n Bool}
    (h1 : ∀ i, (v1 i).isSome ↔ keyFn h i ∈ S) (T : Option (List K)) :
    ∃ t, otherSide G v1 T = .ok t ∧ ∀ i, (t i).isSome ↔ Other S T (keyFn h i) := by
  cases T with
  | some l => exact setToVector_ok h l
  | none =>
    refine ⟨complV v1, rfl, fun i => ?_⟩
    show (complV v1 i).isSome ↔ keyFn h i ∉ S
    rw [← h1]
    unfold complV
    split <;> simp_all

theorem nvals_count (h : G.WF) {P : K → Prop} [DecidablePred P] {v : Vec G.n β}
    (hv : ∀ i, (v i).isSome ↔ P (keyFn h i)) : nvals v = countOf G.nodes P := by
  rw [nvals_eq_sum, countOf_nodes h]
  refine Finset.sum_congr rfl fun i _ => ?_
  rw [ind]
  by_cases hs : P (keyFn h i)
  · rw [if_pos ((hv i).2 hs), if_pos hs]
  · rw [if_neg hs, if_neg fun x => hs ((hv i).1 x)]

/-- a quotient that raises ZeroDivisionError -/
def ratio (a b : Nat) : Except Err ℚ := if b = 0 then .error .zeroDivision else .ok (a / b)

omit [DecidableEq K] in
theorem pyDiv_nat (a b : Nat) : pyDiv a b = ratio a b := by
  unfold pyDiv ratio
  by_cases hb : b = 0 <;> simp [hb]

/-- **C53.** `conductance` is the number of cut edges over the smaller of the two volumes
(ZeroDivisionError when it is 0); `normalized_cut_size` multiplies by the sum of the reciprocals. -/
theorem conductance_correct (h : G.WF) (S : List K) (T : Option (List K)) :
    conductance G S T = ratio (cutCount G (· ∈ S) (Other S T))
      (min (vol G.nodes G.Edge (· ∈ S)) (vol G.nodes G.Edge (Other S T))) ∧
    normalizedCutSize G S T =
      if vol G.nodes G.Edge (· ∈ S) = 0 ∨ vol G.nodes G.Edge (Other S T) = 0 then .error .zeroDivision
      else .ok (cutCount G (· ∈ S) (Other S T) *
        (1 / (vol G.nodes G.Edge (· ∈ S) : ℚ) + 1 / (vol G.nodes G.Edge (Other S T) : ℚ))) := by
  obtain ⟨v1, e1, h1⟩ := setToVector_ok h S
  obtain ⟨t, e2, h2⟩ := otherSide_ok h h1 T
  have hc := cutSizeU_eq h h1 h2
  have hv1 := volumeU_eq' h h1
  have hv2 := volumeU_eq' h h2
  constructor
  · unfold conductance
    rw [e1]
    show (otherSide G v1 T >>= fun t => _) = _
    rw [e2]
    show (cutSizeU G.directed G.A v1 (some t) >>= fun t => _) = _
    rw [hc]
    show pyDiv _ _ = _
    rw [hv1, hv2]
    exact pyDiv_nat _ _
  · unfold normalizedCutSize
    rw [e1]
    show (otherSide G v1 T >>= fun t => _) = _
    rw [e2]
    show (cutSizeU G.directed G.A v1 (some t) >>= fun t => _) = _
    rw [hc]
    show (pyDiv 1 _ >>= fun a => pyDiv 1 _ >>= fun b => _) = _
    rw [hv1, hv2]
    unfold pyDiv
    by_cases ha : vol G.nodes G.Edge (· ∈ S) = 0
    · rw [if_pos (by exact_mod_cast ha), if_pos (Or.inl ha)]; rfl
    · rw [if_neg (by exact_mod_cast ha)]
      show ((if _ then _ else _ : Except Err ℚ) >>= fun b => _) = _
      by_cases hb : vol G.nodes G.Edge (Other S T) = 0
      · rw [if_pos (by exact_mod_cast hb), if_pos (Or.inr hb)]; rfl
      · rw [if_neg (by exact_mod_cast hb), if_neg (by simp [ha, hb])]; rfl

omit [DecidableEq K] in
theorem edgesFromTo_le_vol (h : G.WF) (P Q : K → Prop) [DecidablePred P] [DecidablePred Q]
    [∀ u v, Decidable (G.Edge u v)] :
    edgesFromTo G.nodes G.Edge P Q ≤ vol G.nodes G.Edge P := by
  unfold edgesFromTo vol
  rw [sumOver_nodes h, sumOver_nodes h]
  refine Finset.sum_le_sum fun i _ => ?_
  unfold outDeg
  rw [countOf_nodes h, countOf_nodes h]
  by_cases hP : P (keyFn h i)
  · rw [if_pos hP]
    refine Finset.sum_le_sum fun j _ => ?_
    by_cases he : G.Edge (keyFn h i) (keyFn h j) <;> by_cases hQ : Q (keyFn h j) <;> simp [hP, he, hQ]
  · simp [hP]

/-- **C53.** the conductance of a cut of an undirected graph, when defined, lies between 0 and 1. -/
theorem conductance_bounds (h : G.WF) (hs : G.Symm) (hd : G.directed = false) (S : List K)
    (T : Option (List K)) {x : ℚ} (hx : conductance G S T = .ok x) : 0 ≤ x ∧ x ≤ 1 := by
  rw [(conductance_correct h S T).1] at hx
  unfold ratio at hx
  split at hx
  case isTrue => cases hx
  case isFalse hne =>
    cases hx
    have h1 := edgesFromTo_le_vol h (· ∈ S) (Other S T)
    have h2 := edgesFromTo_le_vol h (Other S T) (· ∈ S)
    rw [edgesFromTo_symm h hs] at h2
    have hle : cutCount G (· ∈ S) (Other S T) ≤
        min (vol G.nodes G.Edge (· ∈ S)) (vol G.nodes G.Edge (Other S T)) := by
      unfold cutCount
      rw [hd]
      exact le_min h1 h2
    have hpos : (0 : ℚ) < ((min (vol G.nodes G.Edge (· ∈ S)) (vol G.nodes G.Edge (Other S T)) : Nat) : ℚ) := by
      exact_mod_cast Nat.pos_of_ne_zero hne
    refine ⟨by positivity, ?_⟩
    rw [div_le_one hpos]
    exact_mod_cast hle

/-- **C53.** `edge_expansion` is the number of cut edges over the size of the smaller side,
`mixing_expansion` over the number of stored entries (edges counted in both directions in an undirected
graph); with `T` omitted this is about undirected graphs only (a digraph raises TypeError). -/
theorem edge_expansion_correct (h : G.WF) (hs : G.directed = false → G.Symm) (S : List K) (T : Option (List K))
    (hT : T = none → G.directed = false) :
    edgeExpansion G S T = ratio (cutCount G (· ∈ S) (Other S T))
      (min (countOf G.nodes (· ∈ S)) (countOf G.nodes (Other S T))) ∧
    mixingExpansion G S T = ratio (cutCount G (· ∈ S) (Other S T)) (edgeCount G.nodes G.Edge) := by
  obtain ⟨v1, e1, h1⟩ := setToVector_ok h S
  have key : ∃ t, setToVector? G T = .ok t ∧
      cutSizeU G.directed G.A v1 t = .ok (cutCount G (· ∈ S) (Other S T)) ∧
      otherCount G.n v1 t = countOf G.nodes (Other S T) := by
    cases T with
    | some l =>
      obtain ⟨v2, e2, h2⟩ := setToVector_ok h l
      exact ⟨some v2, by simp [setToVector?, e2, Except.map], cutSizeU_eq h h1 h2,
        nvals_count (P := Other S (some l)) h h2⟩
    | none =>
      have hd := hT rfl
      have hsym := hs hd
      refine ⟨none, rfl, ?_, ?_⟩
      · have a1 := mnvals_boundary (Q := (· ∉ S)) (v2 := none) h h1 (fun i j ha => cols_compl h hsym h1 i j ha)
        have : cutSizeU G.directed G.A v1 none = .ok (mnvals (edgeBoundaryU G.A v1 none)) := by
          unfold cutSizeU; rw [hd]; rfl
        rw [this, a1]
        unfold cutCount
        rw [hd]
        rfl
      · show G.n - nvals v1 = _
        rw [nvals_count (P := (· ∈ S)) h h1, ← nodes_length h]
        have : countOf G.nodes (· ∈ S) + countOf G.nodes (Other S none) = G.nodes.length := by
          unfold countOf
          rw [List.length_eq_countP_add_countP (fun u => decide (u ∈ S))]
          congr 1
          refine List.countP_congr fun u _ => ?_
          by_cases hu : u ∈ S <;> simp [Other, hu]
        omega
  obtain ⟨t, e2, hc, hn⟩ := key
  constructor
  · unfold edgeExpansion
    rw [e1, e2]
    show (cutSizeU G.directed G.A v1 t >>= fun t => _) = _
    rw [hc]
    show pyDiv _ ((min (nvals v1) (otherCount G.n v1 t) : Nat) : ℚ) = _
    rw [hn, nvals_count (P := (· ∈ S)) h h1]
    exact pyDiv_nat _ _
  · unfold mixingExpansion
    rw [e1, e2]
    show (cutSizeU G.directed G.A v1 t >>= fun t => _) = _
    rw [hc, edgeCount_eq h]
    exact pyDiv_nat _ _

omit [DecidableEq K] in
theorem nbr_count (h : G.WF) {S : List K} {v1 : Vec G.n Bool} (h1 : ∀ i, (v1 i).isSome ↔ keyFn h i ∈ S) (j) :
    (vxm any' pairB v1 G.A j).isSome ↔ ∃ u ∈ S, G.Edge u (keyFn h j) := by
  rw [vxm_isSome]
  constructor
  · rintro ⟨i, hi, ha⟩; exact ⟨_, (h1 i).1 hi, (edge_keyFn h i j).2 ha⟩
  · rintro ⟨u, hu, he⟩
    obtain ⟨i, rfl⟩ := exists_keyFn h he.node_left
    exact ⟨i, (h1 i).2 hu, (edge_keyFn h i j).1 he⟩

/-- **C53.** `node_expansion` is the number of nodes with an edge from `S` over the size of `S`,
`boundary_expansion` counts only those outside `S`. -/
theorem node_expansion_correct (h : G.WF) (S : List K) :
    ((∀ u ∈ S, G.Node u) → nodeExpansion G S = ratio (countOf G.nodes fun v => ∃ u ∈ S, G.Edge u v)
      (countOf G.nodes (· ∈ S))) ∧
    boundaryExpansion G S = ratio (countOf G.nodes fun v => v ∉ S ∧ ∃ u ∈ S, G.Edge u v)
      (countOf G.nodes (· ∈ S)) := by
  constructor
  · intro hS
    obtain ⟨v1, e1, h1⟩ := listToVector_ok h hS
    unfold nodeExpansion
    rw [e1]
    show pyDiv _ _ = _
    rw [nvals_count (P := (· ∈ S)) h h1, nvals_count (P := fun v => ∃ u ∈ S, G.Edge u v) h (nbr_count h h1)]
    exact pyDiv_nat _ _
  · obtain ⟨v1, e1, h1⟩ := setToVector_ok h S
    unfold boundaryExpansion
    rw [e1]
    show pyDiv _ _ = _
    rw [nvals_count (P := (· ∈ S)) h h1,
      nvals_count (P := fun v => v ∉ S ∧ ∃ u ∈ S, G.Edge u v) (v := nodeBoundaryV G.A v1 none) h]
    · exact pyDiv_nat _ _
    · intro j
      by_cases hj : keyFn h j ∈ S
      · simp [nodeBoundaryV, vassignR, vnot, vS, (h1 j).2 hj, hj]
      · have : (v1 j).isSome = false := by rw [← Bool.not_eq_true, h1]; exact hj
        simp [nodeBoundaryV, vassignR, vnot, vS, this, hj, nbr_count h h1]

/-! ### C54 -/

/-- **C54.** `is_dominating_set(G, S)` is True exactly when every node outside `S` has an edge from a
node in `S`. -/
theorem is_dominating_set_correct (h : G.WF) (S : List K) :
    ∃ b, isDominatingSet G S = .ok b ∧ (b = true ↔ ∀ v, G.Node v → v ∉ S → ∃ u ∈ S, G.Edge u v) := by
  obtain ⟨v1, e1, h1⟩ := setToVector_ok h S
  refine ⟨isDominatingV G.A v1, by unfold isDominatingSet; rw [e1]; rfl, ?_⟩
  have hn : ∀ j, (vassignR (vnot (vS v1)) (vxm any' pairB v1 G.A) j).isSome ↔
      keyFn h j ∉ S ∧ ∃ u ∈ S, G.Edge u (keyFn h j) := by
    intro j
    by_cases hj : keyFn h j ∈ S
    · simp [vassignR, vnot, vS, (h1 j).2 hj, hj]
    · have : (v1 j).isSome = false := by rw [← Bool.not_eq_true, h1]; exact hj
      simp [vassignR, vnot, vS, this, hj, nbr_count h h1]
  unfold isDominatingV
  simp only [decide_eq_true_eq]
  have hsum : nvals v1 + nvals (vassignR (vnot (vS v1)) (vxm any' pairB v1 G.A)) =
      (Finset.univ.filter fun j : Fin G.n => keyFn h j ∈ S ∨ ∃ u ∈ S, G.Edge u (keyFn h j)).card := by
    rw [nvals_eq_sum, nvals_eq_sum, ← Finset.sum_add_distrib, Finset.card_filter]
    refine Finset.sum_congr rfl fun j _ => ?_
    rw [ind, ind]
    by_cases hj : keyFn h j ∈ S
    · rw [if_pos ((h1 j).2 hj), if_neg fun x => ((hn j).1 x).1 hj, if_pos (Or.inl hj)]
    · rw [if_neg fun x => hj ((h1 j).1 x)]
      by_cases he : ∃ u ∈ S, G.Edge u (keyFn h j)
      · rw [if_pos ((hn j).2 ⟨hj, he⟩), if_pos (Or.inr he)]
      · rw [if_neg fun x => he ((hn j).1 x).2, if_neg (by simp only [not_or]; exact ⟨hj, he⟩)]
  have hcard : (Finset.univ : Finset (Fin G.n)).card = G.n := by simp
  constructor
  · intro heq v hv hvS
    obtain ⟨j, rfl⟩ := exists_keyFn h hv
    have : (Finset.univ.filter fun j : Fin G.n => keyFn h j ∈ S ∨ ∃ u ∈ S, G.Edge u (keyFn h j)).card =
        (Finset.univ : Finset (Fin G.n)).card := by rw [hcard, ← hsum]; omega
    rw [Finset.card_filter_eq_iff] at this
    exact (this j (Finset.mem_univ j)).resolve_left hvS
  · intro hall
    have : (Finset.univ.filter fun j : Fin G.n => keyFn h j ∈ S ∨ ∃ u ∈ S, G.Edge u (keyFn h j)).card =
        (Finset.univ : Finset (Fin G.n)).card := by
      rw [Finset.card_filter_eq_iff]
      intro j _
      by_cases hj : keyFn h j ∈ S
      · exact Or.inl hj
      · exact Or.inr (hall _ (keyFn_at h j).node hj)
    rw [hcard, ← hsum] at this
    omega

/-! examples -/

open _root_.Ex in
example : (match edgeBoundary dg [10, 20, 99] (some [30, 20]) with
    | .ok l => decide (l = [(20, 30), (10, 20)]) | .error _ => false) = true := by decide +kernel
open _root_.Ex in
example : (match conductance ug [1, 2] none with | .ok x => decide (x = 1/2) | .error _ => false) = true := by
  decide +kernel
open _root_.Ex in
example : cutSize ug [1, 2] (some [3, 5]) = .ok 2 := by decide +kernel
open _root_.Ex in
example : isDominatingSet ug [2, 3] = .ok true ∧ isDominatingSet ug [2] = .ok false := by
  refine ⟨by decide +kernel, by decide +kernel⟩
open _root_.Ex in
example : ug.WF ∧ ug.Symm ∧ ug.directed = false ∧ dg.WF ∧ dg.directed = true :=
  ⟨ug_wf, ug_symm, rfl, dg_wf, rfl⟩

end Props
