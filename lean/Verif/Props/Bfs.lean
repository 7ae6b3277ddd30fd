import Verif.Proofs.BfsApi
import Verif.Props.Utils
import Verif.Props.Examples
import Mathlib.Data.Fintype.EquivFin
import Mathlib.Data.Fintype.Pigeonhole

/-!
# Hop-distance properties: C15 – C24, C26

`G.WF` says the node dictionary is a bijection (C07); `G.Edge u v` is the edge relation between
node keys; `IsDist`, `Reach`, `Walk` are the independent notions of `Spec/Walk.lean`.
-/

open GB Spec Model Model.Graph Proofs Proofs.Bfs

namespace Props

variable {K α : Type} [DecidableEq K] {G : Graph K α}

/-! ### C15 / C16 -/

/-- **C15.** `single_source_shortest_path_length(G, s, cutoff)` has value `d` at node `u` exactly
when the hop distance from `s` to `u` is `d` and `d` is within the cutoff. -/
theorem single_source_shortest_path_length_correct (h : G.WF) {s : K} (hs : G.Node s)
    (c : Option Int) (hc : ∀ x, c = some x → 0 ≤ x) :
    ∃ r, singleSourceSPL G s c = .ok r ∧
      ∀ u d, G.view r u = some d ↔ IsDist G.Edge s d u ∧ Within c d := by
  obtain ⟨i, hi⟩ := hs.exists_id h
  refine ⟨_, bfsLevel_ok h hi c false, fun u d => ?_⟩
  rw [view_eq_some h]
  simp only [levelFrom_spec _ _ _ hc, isDist_congr adj_bfsMatrix_false, isDist_offLoop]
  constructor
  · rintro ⟨j, hj, hd, hw⟩; exact ⟨(isDist_iff h hi hj).2 hd, hw⟩
  · rintro ⟨hd, hw⟩
    obtain ⟨j, hj⟩ := (Walk_node hs hd.1).exists_id h
    exact ⟨j, hj, (isDist_iff h hi hj).1 hd, hw⟩

/-- **C15.** a source that is not a node raises (NodeNotFound). -/
theorem single_source_shortest_path_length_missing (h : G.WF) {s : K} (hs : ¬ G.Node s)
    (c : Option Int) : singleSourceSPL G s c = .error .keyError := by
  unfold singleSourceSPL bfsLevel
  rw [getId_eq_error h hs]; rfl

omit [DecidableEq K] in
theorem level_negative {n : Nat} (A : Mat n n β) (i : Fin n) {x : Int} (hx : x < 0) :
    bfsLevelFrom A i none (some x) = vset vempty i 0 := by
  unfold bfsLevelFrom getCutoff
  have h1 : ¬ x ≥ (n : Int) := by omega
  have h2 : range1 (x + 1) = [] := by
    unfold range1
    have : (x + 1).toNat - 1 = 0 := by omega
    rw [this]; rfl
  simp only [h1, if_false, h2]
  rfl

/-- **C15, C16, the excluded case**: with a negative cutoff both functions return `{source: 0}` although 0 is
not within the cutoff. -/
theorem shortest_path_length_negative_cutoff (h : G.WF) {s : K} (hs : G.Node s) {x : Int} (hx : x < 0) :
    (∃ r, singleSourceSPL G s (some x) = .ok r ∧ ∀ u d, G.view r u = some d ↔ u = s ∧ d = 0) ∧
    (∃ r, singleTargetSPL G s (some x) = .ok r ∧ ∀ u d, G.view r u = some d ↔ u = s ∧ d = 0) := by
  obtain ⟨i, hi⟩ := hs.exists_id h
  have key : ∀ tr, ∀ u d, G.view (bfsLevelFrom (bfsMatrix G tr) i none (some x)) u = some d ↔ u = s ∧ d = 0 := by
    intro tr u d
    rw [level_negative _ _ hx, view_eq_some h]
    constructor
    · rintro ⟨j, hj, hd⟩
      unfold vset vempty at hd
      by_cases e : j = i
      · subst e
        simp at hd
        exact ⟨At.key_unique h hj hi, hd.symm⟩
      · simp [e] at hd
    · rintro ⟨rfl, rfl⟩
      exact ⟨i, hi, by simp [vset]⟩
  exact ⟨⟨_, bfsLevel_ok h hi _ false, key false⟩, ⟨_, bfsLevel_ok h hi _ true, key true⟩⟩

example : ∃ r, singleSourceSPL Ex.dg 10 (some 5) = .ok r ∧
    [10,20,30,40].map (Ex.dg.view r) = [some 0, some 1, some 2, none] := by
  refine ⟨_, rfl, ?_⟩; decide +kernel

/-- **C16.** `single_target_shortest_path_length(G, t, cutoff)` has value `d` at `u` exactly when
the hop distance from `u` to `t` is `d` and within the cutoff (undirected graph objects have a
symmetric matrix). -/
theorem single_target_shortest_path_length_correct (h : G.WF)
    (hsym : G.directed = false → G.Symm) {t : K} (ht : G.Node t)
    (c : Option Int) (hc : ∀ x, c = some x → 0 ≤ x) :
    ∃ r, singleTargetSPL G t c = .ok r ∧
      ∀ u d, G.view r u = some d ↔ (G.Node u ∧ IsDist G.Edge u d t) ∧ Within c d := by
  obtain ⟨i, hi⟩ := ht.exists_id h
  refine ⟨_, bfsLevel_ok h hi c true, fun u d => ?_⟩
  rw [view_eq_some h]
  simp only [levelFrom_spec _ _ _ hc, isDist_congr (adj_bfsMatrix_true hsym), isDist_offLoop,
    isDist_rev_iff]
  constructor
  · rintro ⟨j, hj, hd, hw⟩; exact ⟨⟨hj.node, (isDist_iff h hj hi).2 hd⟩, hw⟩
  · rintro ⟨⟨hu, hd⟩, hw⟩
    obtain ⟨j, hj⟩ := hu.exists_id h
    exact ⟨j, hj, (isDist_iff h hj hi).1 hd, hw⟩

/-- **C16.** on undirected graphs the two calls agree. -/
theorem single_target_eq_single_source (hd : G.directed = false) (s : K) (c : Option Int) :
    singleTargetSPL G s c = singleSourceSPL G s c := by
  unfold singleTargetSPL singleSourceSPL bfsLevel bfsMatrix
  simp [hd]

example : ∃ r, singleTargetSPL Ex.dg 20 none = .ok r ∧
    [10,20,30,40].map (Ex.dg.view r) = [some 1, some 0, some 1, none] := by
  refine ⟨_, rfl, ?_⟩; decide +kernel

/-! ### C17 -/

/-- single-source answer, as a total function, for the statements below -/
private def lev (G : Graph K α) (c : Option Int) (u : K) : Vec G.n Nat :=
  match G.idOf u with
  | none => vempty
  | some i => bfsLevelFrom (offdiag G.A) i none c

private theorem lev_ok (h : G.WF) {c : Option Int} {u : K} (hu : G.Node u) :
    singleSourceSPL G u c = .ok (lev G c u) := by
  obtain ⟨i, hi⟩ := hu.exists_id h
  unfold lev
  rw [(idOf_eq_some h).2 hi]
  exact bfsLevel_ok h hi c false

private theorem chunk_ok (h : G.WF) (c : Option Int) (nodes : List K)
    (hn : ∀ u ∈ nodes, G.Node u) (ids : List (Fin G.n)) (hf : List.Forall₂ G.At nodes ids) :
    (nodes.zipIdx.filterMap fun (u, r) =>
      if hr : r < ids.length then
        some (u, bfsLevelsFrom (offdiag G.A) (fun r : Fin ids.length => ids.get r) c ⟨r, hr⟩)
      else none) = nodes.map fun u => (u, lev G c u) := by
  have hlen := hf.length_eq
  have e : nodes.map (fun u => (u, lev G c u)) =
      nodes.zipIdx.filterMap (fun p => some (p.1, lev G c p.1)) := by
    conv_lhs => rw [← List.zipIdx_map_fst 0 nodes, List.map_map]
    rw [← List.filterMap_eq_map]; rfl
  rw [e]
  apply List.filterMap_congr
  rintro ⟨u, r⟩ hmem
  have hr := List.mem_zipIdx hmem
  simp only [Nat.zero_add, Nat.zero_le, Nat.sub_zero, true_and] at hr
  obtain ⟨hr1, hr2⟩ := hr
  have hr' : r < ids.length := by omega
  simp only [hr', dite_true, Function.comp]
  rw [levelsFrom_eq]
  have hat : G.At u (ids.get ⟨r, hr'⟩) := by
    have := (List.forall₂_iff_get.1 hf).2 r hr1 hr'
    rw [hr2]; exact this
  unfold lev
  rw [(idOf_eq_some h).2 hat]

/-- **C17.** For every cutoff and every (normalised) chunk size — `None`, below 2, or any other —
`all_pairs_shortest_path_length` yields every node exactly once as source, each with exactly the
single-source result. -/
theorem all_pairs_shortest_path_length_chunksize_independent (h : G.WF) (c : Option Int)
    (chunksize : Option Int) :
    ∃ L, allPairsSPL G c chunksize = .ok L ∧
      (L.map Prod.fst).Perm (G.keyToId.map Prod.fst) ∧
      ∀ p ∈ L, singleSourceSPL G p.1 c = .ok p.2 := by
  have hnode : ∀ u ∈ G.keyToId.map Prod.fst, G.Node u := fun u hu => hu
  have final : ∃ L, L = (G.keyToId.map Prod.fst).map (fun u => (u, lev G c u)) ∧
      (L.map Prod.fst).Perm (G.keyToId.map Prod.fst) ∧
      ∀ p ∈ L, singleSourceSPL G p.1 c = .ok p.2 := by
    refine ⟨_, rfl, ?_, ?_⟩
    · rw [List.map_map]
      have : (Prod.fst ∘ fun u : K => (u, lev G c u)) = id := rfl
      rw [this, List.map_id]
    · intro p hp
      obtain ⟨u, hu, rfl⟩ := List.mem_map.1 hp
      exact lev_ok h hu
  cases chunksize with
  | none =>
    simp only [allPairsSPL]
    choose key hkey using h.exists_key
    have hfil : ((List.finRange G.n).filter fun i : Fin G.n =>
        decide (nvals (bfsLevelsFrom (offdiag G.A) (fun i => i) c i) ≠ 0)) = List.finRange G.n := by
      rw [List.filter_eq_self]
      intro i _
      simp only [decide_eq_true_eq]
      apply Nat.ne_of_gt
      rw [nvals_pos]
      refine ⟨i, ?_⟩
      rw [(levelsFrom_inv (offdiag G.A) (fun i => i) c i).pattern]
      exact ⟨0, by omega, distFrom_zero.2 rfl⟩
    rw [hfil, mapM_ok (g := fun i => (key i, bfsLevelsFrom (offdiag G.A) (fun i => i) c i))]
    · refine ⟨_, rfl, ?_, ?_⟩
      · rw [List.map_map]
        have e1 : (Prod.fst ∘ fun i => (key i, bfsLevelsFrom (offdiag G.A) (fun i => i) c i)) = key := rfl
        rw [e1, List.perm_ext_iff_of_nodup]
        · intro u
          simp only [List.mem_map, List.mem_finRange, true_and]
          constructor
          · rintro ⟨i, rfl⟩; exact List.mem_map.1 (hkey i).node
          · intro hu
            obtain ⟨i, hi⟩ := (show G.Node u from List.mem_map.2 hu).exists_id h
            exact ⟨i, At.key_unique h (hkey i) hi⟩
        · refine (List.nodup_finRange _).map ?_
          intro a b hab
          have := hkey a
          rw [hab] at this
          exact At.id_unique h this (hkey b)
        · exact h.keys_nodup
      · intro p hp
        obtain ⟨i, -, rfl⟩ := List.mem_map.1 hp
        rw [levelsFrom_eq]
        exact bfsLevel_ok h (hkey i) c false
    · intro i _
      rw [(keyOf_eq_some h).2 (hkey i)]
  | some cs =>
    simp only [allPairsSPL]
    split
    · obtain ⟨L, rfl, h1, h2⟩ := final
      refine ⟨_, ?_, h1, h2⟩
      apply mapM_ok
      intro u hu
      rw [lev_ok h hu]; rfl
    · rename_i hcs
      obtain ⟨ps, hp, hflat, -⟩ := partition_correct cs (G.keyToId.map Prod.fst) true (by omega)
      obtain ⟨L, rfl, h1, h2⟩ := final
      refine ⟨_, ?_, h1, h2⟩
      rw [hp, List.mapM_map]
      rw [mapM_ok (g := fun nodes => nodes.map fun u => (u, lev G c u))]
      · conv_rhs => rw [← hflat, List.map_flatten]
        rfl
      · intro nodes hmem
        have hn : ∀ u ∈ nodes, G.Node u := by
          intro u hu
          apply hnode
          rw [← hflat]
          exact List.mem_flatten.2 ⟨nodes, hmem, hu⟩
        obtain ⟨ids, hids, hf⟩ := listToIds_ok h hn
        show (listToIds G nodes >>= _) = _
        rw [hids]
        exact congrArg Except.ok (chunk_ok h c nodes hn ids hf)

example : ∃ L, allPairsSPL Ex.dg none (some 3) = .ok L ∧ L.length = 4 := by
  refine ⟨_, rfl, ?_⟩; decide +kernel

/-! ### C18 / C19 -/

/-- **C18.** `bidirectional_shortest_path_length` returns the exact hop distance when the target
is reachable and raises NoPath exactly when it is not. -/
theorem bidirectional_shortest_path_length_correct (h : G.WF) {s t : K} (hs : G.Node s)
    (ht : G.Node t) :
    (∃ d, IsDist G.Edge s d t ∧ bidirectionalSPL G s t = .ok d) ∨
    (¬ Reach G.Edge s t ∧ bidirectionalSPL G s t = .error .noPath) := by
  obtain ⟨i, hi⟩ := hs.exists_id h
  obtain ⟨j, hj⟩ := ht.exists_id h
  have hcs := contains_iff.2 hs
  have hct := contains_iff.2 ht
  unfold bidirectionalSPL
  simp only [hcs, hct, Bool.not_true, Bool.or_false, Bool.false_eq_true, if_false,
    (getId_eq_ok h).2 hi, (getId_eq_ok h).2 hj]
  by_cases hij : i = j
  · left
    refine ⟨0, ?_, ?_⟩
    · rw [isDist_iff h hi hj, hij]
      exact ⟨Walk.nil _, fun _ _ => Nat.zero_le _⟩
    · show (if i = j then _ else _) = _
      rw [if_pos hij]; rfl
  · have := bidirLoop_spec (offdiag G.A) i j ((G.n+1)/2) 0 (by omega)
      (q_src := vset vempty i true) (seen_src := vset vempty i true)
      (q_dst := vset vempty j true) (seen_dst := vempty)
      ⟨fun x => by
        rw [vset_isSome]
        constructor
        · intro hx; exact ⟨0, le_rfl, distFrom_zero.2 hx⟩
        · rintro ⟨m, hm, hx⟩
          obtain rfl : m = 0 := by omega
          exact (distFrom_zero (S := (· = i))).1 hx, fun x => by rw [vset_isSome, distFrom_zero]⟩
      (fun x => by rw [vset_isSome, isDist_iff_from, distFrom_zero])
      (fun x => by simp [vempty])
      (fun d hd => by
        rcases Nat.eq_zero_or_pos d with rfl | hp
        · exact absurd (walk_zero.1 hd.1) hij
        · omega)
    rw [← oddRange_eq] at this
    have e : ∀ d, IsDist (Adj (offdiag G.A)) i d j ↔ IsDist G.Edge s d t := fun d => by
      rw [isDist_congr (adj_offdiag G.A), isDist_offLoop, isDist_iff h hi hj]
    simp only [e] at this
    rcases this with ⟨d, hd, hr⟩ | ⟨hno, hr⟩
    · left
      refine ⟨d, hd, ?_⟩
      show (if i = j then _ else _) = _
      rw [if_neg hij]; exact hr
    · right
      refine ⟨?_, ?_⟩
      · rintro ⟨k, hk⟩
        obtain ⟨d, -, hd⟩ := exists_dist hk
        exact hno d hd
      · show (if i = j then _ else _) = _
        rw [if_neg hij]; exact hr

/-- **C18.** unknown nodes raise KeyError. -/
theorem bidirectional_shortest_path_length_missing {s t : K} (hst : ¬ G.Node s ∨ ¬ G.Node t) :
    bidirectionalSPL G s t = .error .keyError := by
  unfold bidirectionalSPL
  rw [if_pos]
  simp only [Bool.or_eq_true, Bool.not_eq_true']
  rcases hst with hs | ht
  · left; rw [← Bool.not_eq_true, contains_iff]; exact hs
  · right; rw [← Bool.not_eq_true, contains_iff]; exact ht

/-- **C18.** `has_path` is True exactly when the target is reachable. -/
theorem has_path_correct (h : G.WF) {s t : K} (hs : G.Node s) (ht : G.Node t) :
    ∃ b, hasPath G s t = .ok b ∧ (b = true ↔ Reach G.Edge s t) := by
  unfold hasPath
  rcases bidirectional_shortest_path_length_correct h hs ht with ⟨d, hd, hr⟩ | ⟨hno, hr⟩
  · rw [hr]; exact ⟨true, rfl, by simp; exact ⟨d, hd.1⟩⟩
  · rw [hr]; exact ⟨false, rfl, by simpa using hno⟩

example : bidirectionalSPL Ex.ug 1 4 = .ok 3 ∧ bidirectionalSPL Ex.dg 20 10 = .error .noPath := by
  decide +kernel

/-- **C19.** `efficiency(G, u, v)` of two distinct nodes is `1/d` for hop distance `d`, and `0`
when `v` is unreachable. -/
theorem efficiency_correct {F : Type} [DivisionRing F] (h : G.WF) {u v : K} (hu : G.Node u)
    (hv : G.Node v) (huv : u ≠ v) :
    (∃ d, IsDist G.Edge u d v ∧ efficiency (F := F) G u v = .ok (1 / (d : F))) ∨
    (¬ Reach G.Edge u v ∧ efficiency (F := F) G u v = .ok 0) := by
  unfold efficiency
  rcases bidirectional_shortest_path_length_correct h hu hv with ⟨d, hd, hr⟩ | ⟨hno, hr⟩
  · left
    refine ⟨d, hd, ?_⟩
    have : d ≠ 0 := by
      rintro rfl; exact huv (walk_zero.1 hd.1)
    rw [hr]; simp [this]
  · right; rw [hr]; exact ⟨hno, rfl⟩

/-- **C19, the excluded case**: `u = v` divides by zero in the code. -/
theorem efficiency_same_node {F : Type} [DivisionRing F] (h : G.WF) {u : K} (hu : G.Node u) :
    efficiency (F := F) G u u = .error .zeroDivision := by
  unfold efficiency
  rcases bidirectional_shortest_path_length_correct h hu hu with ⟨d, hd, hr⟩ | ⟨hno, hr⟩
  · have : d = 0 := Nat.le_zero.1 (hd.2 0 (Walk.nil u))
    subst this; rw [hr]; rfl
  · exact absurd (Reach.refl u) hno

/-! ### C20 -/

/-- **C20.** `descendants(G, s)` is the set of nodes other than `s` reachable from `s`. -/
theorem descendants_correct (h : G.WF) {s : K} (hs : G.Node s) :
    ∃ r, descendants G s = .ok r ∧
      ∀ u, (G.view r u).isSome ↔ u ≠ s ∧ Reach G.Edge s u := by
  obtain ⟨i, hi⟩ := hs.exists_id h
  refine ⟨vdel (bfsPlainFrom (bfsMatrix G false) [i] none none) i, ?_, fun u => ?_⟩
  · unfold descendants
    rw [bfsPlain_ok h hi, (getId_eq_ok h).2 hi]; rfl
  · rw [view_isSome h]
    constructor
    · rintro ⟨j, hj, hd⟩
      unfold vdel at hd
      split at hd
      · simp at hd
      · rename_i hji
        refine ⟨?_, (reach_iff h hi hj).2 (plain_fwd.1 hd)⟩
        rintro rfl; exact hji (At.id_unique h hj hi)
    · rintro ⟨hne, hr⟩
      obtain ⟨k, hw⟩ := id hr
      obtain ⟨j, hj⟩ := (Walk_node hs hw).exists_id h
      refine ⟨j, hj, ?_⟩
      unfold vdel
      rw [if_neg]
      · exact plain_fwd.2 ((reach_iff h hi hj).1 hr)
      · rintro rfl; exact hne (At.key_unique h hj hi)

/-- **C20.** `ancestors(G, s)` is the set of nodes other than `s` from which `s` is reachable. -/
theorem ancestors_correct (h : G.WF) (hsym : G.directed = false → G.Symm) {s : K}
    (hs : G.Node s) :
    ∃ r, ancestors G s = .ok r ∧
      ∀ u, (G.view r u).isSome ↔ u ≠ s ∧ G.Node u ∧ Reach G.Edge u s := by
  obtain ⟨i, hi⟩ := hs.exists_id h
  refine ⟨vdel (bfsPlainFrom (bfsMatrix G true) [i] none none) i, ?_, fun u => ?_⟩
  · unfold ancestors
    rw [bfsPlain_ok h hi, (getId_eq_ok h).2 hi]; rfl
  · rw [view_isSome h]
    constructor
    · rintro ⟨j, hj, hd⟩
      unfold vdel at hd
      split at hd
      · simp at hd
      · rename_i hji
        refine ⟨?_, hj.node, (reach_iff h hj hi).2 ((plain_bwd hsym).1 hd)⟩
        rintro rfl; exact hji (At.id_unique h hj hi)
    · rintro ⟨hne, hn, hr⟩
      obtain ⟨j, hj⟩ := hn.exists_id h
      refine ⟨j, hj, ?_⟩
      unfold vdel
      rw [if_neg]
      · exact (plain_bwd hsym).2 ((reach_iff h hj hi).1 hr)
      · rintro rfl; exact hne (At.key_unique h hj hi)

/-- **C20.** `u` is a descendant of `v` exactly when `v` is an ancestor of `u`. -/
theorem descendants_ancestors_dual (h : G.WF) (hsym : G.directed = false → G.Symm) {u v : K}
    (hu : G.Node u) (hv : G.Node v) {du av} (hd : descendants G v = .ok du)
    (ha : ancestors G u = .ok av) :
    (G.view du u).isSome ↔ (G.view av v).isSome := by
  obtain ⟨r, h1, h2⟩ := descendants_correct h hv
  obtain ⟨r', h1', h2'⟩ := ancestors_correct h hsym hu
  rw [hd] at h1; cases h1
  rw [ha] at h1'; cases h1'
  rw [h2, h2']
  constructor
  · rintro ⟨a, b⟩; exact ⟨a.symm, hv, b⟩
  · rintro ⟨a, -, b⟩; exact ⟨a.symm, b⟩

/-- **C20.** unknown nodes raise KeyError. -/
theorem descendants_ancestors_missing (h : G.WF) {s : K} (hs : ¬ G.Node s) :
    descendants G s = .error .keyError ∧ ancestors G s = .error .keyError := by
  unfold descendants ancestors
  rw [bfsPlain_error h hs, bfsPlain_error h hs]
  exact ⟨rfl, rfl⟩

example : ∃ r, descendants Ex.dg 10 = .ok r ∧
    [10,20,30,40].map (fun u => (Ex.dg.view r u).isSome) = [false, true, true, false] := by
  refine ⟨_, rfl, ?_⟩; decide +kernel
example : ∃ r, ancestors Ex.dg 20 = .ok r ∧
    [10,20,30,40].map (fun u => (Ex.dg.view r u).isSome) = [true, false, true, false] := by
  refine ⟨_, rfl, ?_⟩; decide +kernel

/-! ### C21 -/

/-- **C21.** the `t`-th layer of `bfs_layers(G, sources)` is exactly the set of nodes at distance
`t` from the nearest source; layers are non-empty, and every reachable node is in one of them. -/
theorem bfs_layers_correct (h : G.WF) {sources : List K} (hne : sources ≠ [])
    (hn : ∀ u ∈ sources, G.Node u) :
    ∃ L, bfsLayers G sources = .ok L ∧
      (∀ t x, L[t]? = some x →
        (∀ u, (G.view x u).isSome ↔ IsDistFrom G.Edge (· ∈ sources) t u) ∧
        ∃ u, (G.view x u).isSome) ∧
      ∀ u d, IsDistFrom G.Edge (· ∈ sources) d u → d < L.length := by
  obtain ⟨ids, hids, hf⟩ := listToIds_ok h hn
  have hlen : ids.length ≠ 0 := by
    rw [← hf.length_eq]; simpa using hne
  obtain ⟨i0, hi0⟩ : ∃ i, i ∈ ids := List.exists_mem_of_length_pos (by omega)
  have hnpos : 0 < G.n := i0.pos
  have hq : ∀ j, (vofIds ids true j).isSome ↔ IsDistFrom (Adj (offdiag G.A)) (· ∈ ids) 0 j := by
    intro j; rw [vofIds_isSome, distFrom_zero]
  obtain ⟨h1, h2, h3⟩ := layersLoop_spec (A := offdiag G.A) (S := (· ∈ ids)) (G.n - 1) 0
    (v := vempty) (q := vofIds ids true) (by simp [vempty]) hq
  have conv : ∀ (d : Nat) (u : K) j, G.At u j →
      (IsDistFrom (Adj (offdiag G.A)) (· ∈ ids) d j ↔ IsDistFrom G.Edge (· ∈ sources) d u) := by
    intro d u j hj
    rw [distFrom_iff h (T := (· ∈ ids)) (fun u i hu => forall₂_mem hf h hu) hn hj]
    rw [← distFrom_offLoop (E := Adj G.A)]
    have hc : ∀ k i, Walk (Adj (offdiag G.A)) k i j ↔ Walk (OffLoop (Adj G.A)) k i j :=
      fun k i => walk_congr (adj_offdiag G.A)
    unfold IsDistFrom
    simp only [hc]
  refine ⟨vofIds ids true :: bfsLayersLoop (offdiag G.A) (G.n - 1) vempty (vofIds ids true),
    ?_, ?_, ?_⟩
  · unfold bfsLayers
    rw [hids]
    show (if ids.length = 0 then _ else _) = _
    rw [if_neg hlen]; rfl
  · have lift : ∀ (t : Nat) (x : Vec G.n Bool),
        (∀ j, (x j).isSome ↔ IsDistFrom (Adj (offdiag G.A)) (· ∈ ids) t j) → (∃ j, (x j).isSome) →
        (∀ u, (G.view x u).isSome ↔ IsDistFrom G.Edge (· ∈ sources) t u) ∧
          ∃ u, (G.view x u).isSome := by
      intro t x hx ⟨j, hj⟩
      constructor
      · intro u
        rw [view_isSome h]
        constructor
        · rintro ⟨i, hi, hs⟩; exact (conv t u i hi).1 ((hx i).1 hs)
        · intro hd
          obtain ⟨⟨s, hs, hw⟩, -⟩ := id hd
          obtain ⟨i, hi⟩ := (Walk_node (hn s hs) hw).exists_id h
          exact ⟨i, hi, (hx i).2 ((conv t u i hi).2 hd)⟩
      · obtain ⟨u, hu⟩ := h.exists_key j
        exact ⟨u, by rw [view_at h hu]; exact hj⟩
    intro t x hx
    cases t with
    | zero =>
      simp only [List.getElem?_cons_zero, Option.some.injEq] at hx
      subst hx
      exact lift 0 _ hq ⟨i0, (vofIds_isSome _ _ _).2 hi0⟩
    | succ t =>
      simp only [List.getElem?_cons_succ] at hx
      obtain ⟨ha, hb⟩ := h1 t x hx
      refine lift (t+1) x (fun j => ?_) hb
      rw [ha j, show 0 + 1 + t = t + 1 by omega]
  · intro u d hd
    obtain ⟨⟨s, hs, hw⟩, -⟩ := id hd
    obtain ⟨j, hj⟩ := (Walk_node (hn s hs) hw).exists_id h
    have hd' := (conv d u j hj).2 hd
    have hlt := distFrom_lt_card hd'
    rw [Fintype.card_fin] at hlt
    rw [List.length_cons]
    by_contra hge
    rcases Nat.lt_or_ge (bfsLayersLoop (offdiag G.A) (G.n - 1) vempty (vofIds ids true)).length
      (G.n - 1) with hl | hl
    · obtain ⟨x, hx⟩ := distFrom_pred hd' (m := 0 + 1 +
        (bfsLayersLoop (offdiag G.A) (G.n - 1) vempty (vofIds ids true)).length) (by omega)
      exact h2 x hl hx
    · omega

/-- **C21.** layers are pairwise disjoint. -/
theorem bfs_layers_disjoint (h : G.WF) {sources : List K} (hne : sources ≠ [])
    (hn : ∀ u ∈ sources, G.Node u) {L} (hL : bfsLayers G sources = .ok L) {a b : Nat} {x y}
    (hx : L[a]? = some x) (hy : L[b]? = some y) {u : K} (hux : (G.view x u).isSome)
    (huy : (G.view y u).isSome) : a = b := by
  obtain ⟨L', h1, h2, -⟩ := bfs_layers_correct h hne hn
  rw [hL] at h1; cases h1
  exact distFrom_unique (((h2 a x hx).1 u).1 hux) (((h2 b y hy).1 u).1 huy)

/-- **C21.** for a non-negative distance, `descendants_at_distance(G, s, d)` is exactly the set
of nodes at distance `d` from `s` (empty beyond the last layer). -/
theorem descendants_at_distance_correct (h : G.WF) {s : K} (hs : G.Node s) (d : Nat) :
    ∃ r, descendantsAtDistance G s d = .ok r ∧
      ∀ u, (G.view r u).isSome ↔ IsDist G.Edge s d u := by
  obtain ⟨i, hi⟩ := hs.exists_id h
  have hq : ∀ j, (vset (vempty : Vec G.n Bool) i true j).isSome ↔
      IsDistFrom (Adj (offdiag G.A)) (· = i) 0 j := by
    intro j; rw [vset_isSome, distFrom_zero]
  have hloop := dadLoop_spec (A := offdiag G.A) (S := (· = i)) d 0
    (v := vempty) (q := vset vempty i true) (by simp [vempty]) hq
  rw [Nat.zero_add] at hloop
  have fin : ∀ r : Vec G.n Bool, (∀ j, (r j).isSome ↔ IsDistFrom (Adj (offdiag G.A)) (· = i) d j) →
      ∀ u, (G.view r u).isSome ↔ IsDist G.Edge s d u := by
    intro r hr u
    rw [view_isSome h]
    simp only [hr, ← isDist_iff_from, isDist_congr (adj_offdiag G.A), isDist_offLoop]
    constructor
    · rintro ⟨j, hj, hd⟩; exact (isDist_iff h hi hj).2 hd
    · intro hd
      obtain ⟨j, hj⟩ := (Walk_node hs hd.1).exists_id h
      exact ⟨j, hj, (isDist_iff h hi hj).1 hd⟩
  unfold descendantsAtDistance
  rw [(getId_eq_ok h).2 hi]
  by_cases hd : d = 0
  · subst hd
    exact ⟨_, rfl, fin _ hq⟩
  · refine ⟨_, ?_, fin _ hloop⟩
    show (if (d : Int) = 0 then _ else _) = _
    rw [if_neg (by omega)]
    rfl

/-- **C21, the excluded case**: a negative distance returns `{source}`. -/
theorem descendants_at_distance_negative (h : G.WF) {s : K} (hs : G.Node s) (d : Int) (hd : d < 0) :
    ∃ r, descendantsAtDistance G s d = .ok r ∧ ∀ u, (G.view r u).isSome ↔ u = s := by
  obtain ⟨i, hi⟩ := hs.exists_id h
  refine ⟨vset vempty i true, ?_, fun u => ?_⟩
  · unfold descendantsAtDistance
    rw [(getId_eq_ok h).2 hi]
    show (if d = 0 then _ else _) = _
    rw [if_neg (by omega), show d.toNat = 0 by omega]; rfl
  · rw [view_isSome h]
    simp only [vset_isSome]
    constructor
    · rintro ⟨j, hj, rfl⟩; exact At.key_unique h hj hi
    · rintro rfl; exact ⟨i, hi, rfl⟩

example : ∃ L, bfsLayers Ex.ug [1, 4] = .ok L ∧
    L.map (fun x => [1,2,3,4,5].map fun u => (Ex.ug.view x u).isSome) =
      [[true,false,false,true,false],[false,true,true,false,false],[false,false,false,false,true]] := by
  refine ⟨_, rfl, ?_⟩; decide +kernel

/-! ### C22 -/

/-- **C22.** `node_connected_component(G, n)` is the set of nodes reachable from `n`. -/
theorem node_connected_component_correct (h : G.WF) {s : K} (hs : G.Node s) :
    ∃ r, nodeConnectedComponent G s = .ok r ∧
      ∀ u, (G.view r u).isSome ↔ Reach G.Edge s u := by
  obtain ⟨i, hi⟩ := hs.exists_id h
  refine ⟨_, bfsPlain_ok h hi none false, fun u => ?_⟩
  rw [view_isSome h]
  constructor
  · rintro ⟨j, hj, hd⟩; exact (reach_iff h hi hj).2 (plain_fwd.1 hd)
  · intro hr
    obtain ⟨k, hw⟩ := id hr
    obtain ⟨j, hj⟩ := (Walk_node hs hw).exists_id h
    exact ⟨j, hj, plain_fwd.2 ((reach_iff h hi hj).1 hr)⟩

private theorem nvals_eq_n {n : Nat} {β : Type} {v : Vec n β} : nvals v = n ↔ ∀ j, (v j).isSome := by
  unfold nvals
  conv_lhs => rhs; rw [← Fintype.card_fin n]
  rw [Finset.card_eq_iff_eq_univ, Finset.filter_eq_self]
  simp

private theorem first_node (h : G.WF) (hn : G.len ≠ 0) : ∃ u, G.firstNode = some u ∧ G.Node u := by
  have hl := h.length
  unfold Graph.firstNode Graph.Node
  unfold Graph.len at hn
  cases hk : G.keyToId with
  | nil => rw [hk] at hl; simp at hl; omega
  | cons p l => exact ⟨p.1, rfl, by simp⟩

/-- `is_connected` needs only that edges go both ways; their weights do not matter. -/
theorem is_connected_structural (h : G.WF) (hsym : ∀ u v, G.Edge u v → G.Edge v u) :
    (G.len = 0 ∧ isConnected G = .error .pointless) ∨
    (G.len ≠ 0 ∧ ∃ b, isConnected G = .ok b ∧
      (b = true ↔ ∀ u v, G.Node u → G.Node v → Reach G.Edge u v)) := by
  unfold isConnected
  by_cases hn : G.len = 0
  · left; rw [if_pos hn]; exact ⟨hn, rfl⟩
  · right
    refine ⟨hn, ?_⟩
    obtain ⟨s, hs, hsn⟩ := first_node h hn
    obtain ⟨i, hi⟩ := hsn.exists_id h
    rw [if_neg hn, hs]
    simp only [bfsPlain_ok h hi]
    refine ⟨_, rfl, ?_⟩
    rw [beq_iff_eq]
    show nvals _ = G.n ↔ _
    rw [nvals_eq_n]
    simp only [plain_fwd]
    constructor
    · intro hall u v hu hv
      obtain ⟨a, ha⟩ := hu.exists_id h
      obtain ⟨b, hb⟩ := hv.exists_id h
      rw [reach_iff h ha hb]
      have hrev : Reach (Adj G.A) a i := by
        have := hall a
        rw [← reach_rev] at this
        refine this.mono ?_
        intro x y hxy
        obtain ⟨p, hp⟩ := h.exists_key x
        obtain ⟨q, hq⟩ := h.exists_key y
        exact (edge_iff h hp hq).1 (hsym _ _ ((edge_iff h hq hp).2 hxy))
      exact hrev.trans (hall b)
    · intro hall j
      obtain ⟨v, hv⟩ := h.exists_key j
      exact (reach_iff h hi hv).1 (hall s v hsn hv.node)

/-- **C22.** for an undirected (symmetric) graph, `is_connected` raises PointlessConcept exactly
on the empty graph, and otherwise is True exactly when every node is reachable from every
node. -/
theorem is_connected_correct (h : G.WF) (hsym : G.Symm) :
    (G.len = 0 ∧ isConnected G = .error .pointless) ∨
    (G.len ≠ 0 ∧ ∃ b, isConnected G = .ok b ∧
      (b = true ↔ ∀ u v, G.Node u → G.Node v → Reach G.Edge u v)) :=
  is_connected_structural h fun _ _ ⟨i, j, hi, hj, e⟩ => ⟨j, i, hj, hi, by rwa [hsym j i]⟩

example : isConnected Ex.ug = .ok true := by decide +kernel

/-! ### C23 -/

/-- **C23.** `is_weakly_connected` raises PointlessConcept exactly on the empty graph; otherwise
it is True exactly when every two nodes are joined by a walk that may traverse edges in either
direction. -/
theorem is_weakly_connected_correct (h : G.WF) :
    (G.len = 0 ∧ isWeaklyConnected G = .error .pointless) ∨
    (G.len ≠ 0 ∧ ∃ b, isWeaklyConnected G = .ok b ∧
      (b = true ↔ ∀ u v, G.Node u → G.Node v → Reach (Spec.Sym G.Edge) u v)) := by
  unfold isWeaklyConnected
  by_cases hn : G.len = 0
  · left; rw [if_pos hn]; exact ⟨hn, rfl⟩
  · right
    refine ⟨hn, ?_⟩
    obtain ⟨s, hs, hsn⟩ := first_node h hn
    obtain ⟨i, hi⟩ := hsn.exists_id h
    rw [if_neg hn, hs]
    have hloop : ∀ j, (bfsBiLoop (offdiag G.A) (G.n - 1) (vset vempty i true) vempty
        (vset vempty i true) true false j).isSome ↔ Reach (Spec.Sym (Adj (offdiag G.A))) i j := by
      intro j
      apply biLoop_spec
      · refine ⟨?_, by simp [vset], ?_, ?_, ?_, ?_, ?_, ?_⟩
        · intro j hj; rw [vset_isSome] at hj; rw [hj]; exact Reach.refl _
        · intro a b ha _ hb; exact absurd ha hb
        · intro a b ha hb; exact absurd ha hb
        · intro j hj; simp [vempty] at hj
        · intro j hj; exact hj
        · simp [vempty]
        · simp only [Bool.false_eq_true, false_iff, not_forall]
          exact ⟨i, by simp [vset]⟩
      · have : 0 < nvals (vset (vempty : Vec G.n Bool) i true) :=
          nvals_pos.2 ⟨i, by simp [vset]⟩
        omega
    have hsymE : ∀ a b, Spec.Sym (Adj (offdiag G.A)) a b ↔ OffLoop (Spec.Sym (Adj G.A)) a b := by
      intro a b
      unfold Spec.Sym
      rw [adj_offdiag, adj_offdiag]
      unfold OffLoop
      constructor
      · rintro (⟨h1, h2⟩ | ⟨h1, h2⟩)
        · exact ⟨h1, Or.inl h2⟩
        · exact ⟨h1.symm, Or.inr h2⟩
      · rintro ⟨h1, h2 | h2⟩
        · exact Or.inl ⟨h1, h2⟩
        · exact Or.inr ⟨h1.symm, h2⟩
    have hreach : ∀ j, Reach (Spec.Sym (Adj (offdiag G.A))) i j ↔ Reach (Spec.Sym (Adj G.A)) i j := by
      intro j
      rw [← reach_offLoop (E := Spec.Sym (Adj G.A))]
      simp only [Reach, walk_congr hsymE]
    have lift : ∀ {u v : K} {a b}, G.At u a → G.At v b →
        (Reach (Spec.Sym G.Edge) u v ↔ Reach (Spec.Sym (Adj G.A)) a b) := by
      intro u v a b ha hb
      unfold Reach
      have := fun k => walk_transport (E := Spec.Sym G.Edge) (E' := Spec.Sym (Adj G.A)) (R := G.At)
        (fun _ _ _ h1 h2 => At.key_unique h h1 h2)
        (fun _ _ _ h1 h2 => At.id_unique h h1 h2) h.exists_key
        (by
          intro x y
          constructor
          · rintro (⟨p, q, h1, h2, h3⟩ | ⟨p, q, h1, h2, h3⟩)
            · exact ⟨p, q, h1, h2, Or.inl h3⟩
            · exact ⟨q, p, h2, h1, Or.inr h3⟩
          · rintro ⟨p, q, h1, h2, h3 | h3⟩
            · exact Or.inl ⟨p, q, h1, h2, h3⟩
            · exact Or.inr ⟨q, p, h2, h1, h3⟩) (k := k) ha hb
      simp only [this]
    have hsymm : ∀ {a b}, Reach (Spec.Sym (Adj G.A)) a b → Reach (Spec.Sym (Adj G.A)) b a := by
      intro a b hab
      rw [← reach_rev] at hab
      exact hab.mono fun x y hxy => Or.symm hxy
    have hgo : bfsPlainBidirectional G s = .ok (bfsBiLoop (offdiag G.A) (G.n - 1)
        (vset vempty i true) vempty (vset vempty i true) true false) := by
      unfold bfsPlainBidirectional
      rw [(getId_eq_ok h).2 hi]; rfl
    simp only [hgo]
    refine ⟨_, rfl, ?_⟩
    rw [beq_iff_eq]
    show nvals _ = G.n ↔ _
    rw [nvals_eq_n]
    simp only [hloop, hreach]
    constructor
    · intro hall u v hu hv
      obtain ⟨a, ha⟩ := hu.exists_id h
      obtain ⟨b, hb⟩ := hv.exists_id h
      rw [lift ha hb]
      exact (hsymm (hall a)).trans (hall b)
    · intro hall j
      obtain ⟨v, hv⟩ := h.exists_key j
      exact (lift hi hv).1 (hall s v hsn hv.node)

example : isWeaklyConnected Ex.dg = .ok false ∧ isWeaklyConnected Ex.ug = .ok true := by
  decide +kernel

/-! ### C24 -/

/-- **C24.** In the parent vector of a BFS from `s` without target or cutoff, exactly the
reachable nodes have a parent; the source is its own parent; every other node's parent is
adjacent to it and one hop closer to `s`. -/
theorem bfs_parent_correct (h : G.WF) {s : K} {i} (hs : G.At s i) :
    ∃ r, bfsParent G s = .ok r ∧
      (∀ j, (r j).isSome ↔ Reach (Adj G.A) i j) ∧ r i = some i ∧
      ∀ j p, r j = some p → j ≠ i →
        (G.A p j).isSome ∧ ∃ d, IsDist (Adj G.A) i d p ∧ IsDist (Adj G.A) i (d+1) j := by
  have hinit : ∀ j, (vset (vempty : Vec G.n (Fin G.n)) i i j).isSome ↔
      IsDist (Adj (bfsMatrix G false)) i 0 j := by
    intro j; rw [vset_isSome, isDist_iff_from, distFrom_zero]
  obtain ⟨L, hst, hp⟩ := parentLoop_spec (A := bfsMatrix G false) (s := i) none (G.n - 1) 0
    (parent_init _ i) hinit (by
      intro j p hp
      unfold vset vempty at hp
      split at hp
      · cases hp; simp_all
      · cases hp)
  refine ⟨_, ?_, ?_, hp.src, ?_⟩
  · unfold bfsParent
    rw [(getId_eq_ok h).2 hs]
    show Except.ok (bfsParentLoop (bfsMatrix G false) none (range1 (getCutoff G.n none)) _ _) = _
    unfold range1 getCutoff
    rw [Int.toNat_natCast]
  · intro j
    rw [hp.pat j, ← reach_offLoop]
    simp only [isDist_congr adj_bfsMatrix_false]
    constructor
    · rintro ⟨d, -, hd⟩; exact ⟨d, hd.1⟩
    · rintro ⟨k, hk⟩
      obtain ⟨d, -, hd⟩ := exists_dist hk
      refine ⟨d, ?_, hd⟩
      have hlt := dist_lt_card hd
      rw [Fintype.card_fin] at hlt
      refine hst.complete (j := j) (Or.inl rfl) (by omega) ?_
      rw [← isDist_iff_from, isDist_congr adj_bfsMatrix_false]; exact hd
  · intro j p hjp hne
    obtain ⟨d, h1, h2, h3⟩ := hp.par j p hjp hne
    simp only [isDist_congr adj_bfsMatrix_false, isDist_offLoop] at h1 h2
    exact ⟨((adj_bfsMatrix_false _ _).1 h3).2, d, h1, h2⟩

/-- follow the parent vector `m` times -/
def chase {n : Nat} (r : Vec n (Fin n)) : Nat → Fin n → List (Fin n)
  | 0, j => [j]
  | m + 1, j => j :: match r j with
    | none => []
    | some p => chase r m p

/-- **C24.** following parents from a node at distance `d` reaches the source after exactly `d`
steps, through nodes at distances `d, d-1, ..., 0` (so the chain is a shortest path, backwards). -/
theorem bfs_parent_chase (h : G.WF) {s : K} {i} (hs : G.At s i) {r} (hr : bfsParent G s = .ok r)
    {j : Fin G.n} {d : Nat} (hd : IsDist (Adj G.A) i d j) :
    (chase r d j).length = d + 1 ∧ (chase r d j).getLast? = some i ∧
      (chase r d j).IsChain (fun a b => (G.A b a).isSome) := by
  obtain ⟨r', h1, h2, h3, h4⟩ := bfs_parent_correct h hs
  rw [hr] at h1; cases h1
  induction d generalizing j with
  | zero =>
    have := walk_zero.1 hd.1
    subst this
    simp [chase]
  | succ d ih =>
    have hne : j ≠ i := by
      rintro rfl
      have := hd.2 0 (Walk.nil _)
      omega
    have hsome : (r j).isSome := (h2 j).2 ⟨_, hd.1⟩
    obtain ⟨p, hp⟩ := Option.isSome_iff_exists.1 hsome
    obtain ⟨he, d', hd1, hd2⟩ := h4 j p hp hne
    obtain rfl : d' = d := by have := dist_unique hd hd2; omega
    obtain ⟨a, b, c⟩ := ih hd1
    simp only [chase, hp]
    refine ⟨by simp [a], ?_, ?_⟩
    · rw [List.getLast?_cons, b]; rfl
    · have hc : ∃ t, chase r d' p = p :: t := by cases d' <;> exact ⟨_, rfl⟩
      obtain ⟨t, ht⟩ := hc
      rw [ht] at c ⊢
      exact List.IsChain.cons_cons he c

example : ∃ r, bfsParent Ex.dg 10 = .ok r ∧ (chase r 2 ⟨1, by decide⟩).map Fin.val = [1, 0, 2] := by
  refine ⟨_, rfl, ?_⟩; decide +kernel

/-! ### C26 -/

/-- on an acyclic graph a non-empty set of nodes has a member without successor in the set -/
private theorem exists_sink {n : Nat} {E : Fin n → Fin n → Prop}
    (hac : ∀ x k, ¬ Walk E (k+1) x x) {C : Fin n → Prop} {c : Fin n} (hc : C c) :
    ∃ x, C x ∧ ∀ y, E x y → ¬ C y := by
  classical
  by_contra hno
  push Not at hno
  choose f hf1 hf2 using hno
  let g : ℕ → {x // C x} := fun t => Nat.rec ⟨c, hc⟩ (fun _ x => ⟨f x.1 x.2, hf2 x.1 x.2⟩) t
  have hstep : ∀ t, E (g t).1 (g (t+1)).1 := fun t => hf1 _ _
  have hwalk : ∀ m t, Walk E m (g t).1 (g (t + m)).1 := by
    intro m t
    induction m with
    | zero => exact Walk.nil _
    | succ m ih => exact ih.snoc (hstep (t + m))
  obtain ⟨a, b, hab, heq⟩ := Finite.exists_ne_map_eq_of_infinite fun t => (g t).1
  wlog hlt : a < b generalizing a b
  · exact this b a hab.symm heq.symm (by omega)
  have hw := hwalk (b - a - 1 + 1) a
  rw [show a + (b - a - 1 + 1) = b by omega] at hw
  have heq' : (g a).1 = (g b).1 := heq
  rw [← heq'] at hw
  exact hac _ _ hw

/-- **C26.** On an acyclic directed graph, `lowest_common_ancestor(G, u, v)` returns a common
ancestor (a node counts as its own ancestor) none of whose successors is a common ancestor; it
returns the default exactly when there is no common ancestor. -/
theorem lowest_common_ancestor_correct (h : G.WF) (hdir : G.directed = true)
    (hac : ∀ x k, ¬ Walk G.Edge (k+1) x x) {u v : K} (hu : G.Node u) (hv : G.Node v) :
    (∃ a, lowestCommonAncestor G u v = .ok (some a) ∧ G.Node a ∧
      Reach G.Edge a u ∧ Reach G.Edge a v ∧
      ∀ b, G.Edge a b → ¬ (Reach G.Edge b u ∧ Reach G.Edge b v)) ∨
    (lowestCommonAncestor G u v = .ok none ∧
      ∀ a, G.Node a → ¬ (Reach G.Edge a u ∧ Reach G.Edge a v)) := by
  have hsym : G.directed = false → G.Symm := by simp [hdir]
  obtain ⟨i, hi⟩ := hu.exists_id h
  obtain ⟨j, hj⟩ := hv.exists_id h
  unfold lowestCommonAncestor
  rw [bfsPlain_ok h hi, bfsPlain_ok h hj]
  have hbind : ∀ {β γ : Type} (a : β) (f : β → Except Err γ),
    ((Except.ok a : Except Err β) >>= f) = f a := fun _ _ => rfl
  simp only [hbind]
  generalize hca : (vmul pairB (bfsPlainFrom (bfsMatrix G true) [i] none none)
    (bfsPlainFrom (bfsMatrix G true) [j] none none) : Vec G.n Bool) = ca
  have hcas : ∀ x, (ca x).isSome ↔ Reach (Adj G.A) x i ∧ Reach (Adj G.A) x j := by
    intro x
    rw [← hca]
    simp only [vmul, isSome_ointer, Bool.and_eq_true, plain_bwd hsym]
  split
  · rename_i hz
    rw [nvals_eq_zero] at hz
    right
    refine ⟨rfl, fun a ha => ?_⟩
    obtain ⟨x, hx⟩ := ha.exists_id h
    rw [reach_iff h hx hi, reach_iff h hx hj, ← hcas, hz x]
    simp
  · rename_i hz
    left
    obtain ⟨c, hc⟩ := nvals_pos.1 (Nat.pos_of_ne_zero hz)
    have hac' : ∀ x k, ¬ Walk (Adj G.A) (k+1) x x := by
      intro x k hw
      obtain ⟨a, ha⟩ := h.exists_key x
      exact hac a k ((walk_iff h ha ha).2 hw)
    generalize hoa : (vassignR (vS ca) (mxv any' pairB G.A ca) : Vec G.n Bool) = oa
    have hoas : ∀ x, (oa x).isSome ↔ (ca x).isSome ∧ ∃ y, Adj G.A x y ∧ (ca y).isSome := by
      intro x
      rw [← hoa]
      unfold vassignR vS
      split
      · rename_i hx; rw [mxv_isSome]; simp [hx, Adj]
      · rename_i hx; simp [hx]
    generalize hfin : (vassignR (vnot (vS oa)) ca : Vec G.n Bool) = fin
    have hfins : ∀ x, (fin x).isSome ↔ (ca x).isSome ∧ ∀ y, Adj G.A x y → ¬ (ca y).isSome := by
      intro x
      rw [← hfin]
      unfold vassignR vnot vS
      by_cases hx : (oa x).isSome
      · rw [if_neg (by simp [hx])]
        simp only [Option.isSome_none, Bool.false_eq_true, false_iff, not_and, not_forall]
        intro _
        obtain ⟨-, y, h1, h2⟩ := (hoas x).1 hx
        exact ⟨y, h1, fun hn => hn h2⟩
      · rw [if_pos (by simpa using hx)]
        constructor
        · intro hc
          refine ⟨hc, fun y hy hcy => hx ((hoas x).2 ⟨hc, y, hy, hcy⟩)⟩
        · exact fun h => h.1
    obtain ⟨x, hx1, hx2⟩ := exists_sink hac' (C := fun x => (ca x).isSome) hc
    have hmem : x ∈ indices fin := mem_indices.2 ((hfins x).2 ⟨hx1, hx2⟩)
    cases hh : (indices fin).head? with
    | none =>
      rw [List.head?_eq_none_iff] at hh
      rw [hh] at hmem; cases hmem
    | some y =>
      have hy : y ∈ indices fin := List.mem_of_head? hh
      rw [mem_indices, hfins] at hy
      obtain ⟨a, ha⟩ := h.exists_key y
      simp only [(keyOf_eq_some h).2 ha]
      have hr := (hcas y).1 hy.1
      refine ⟨a, rfl, ha.node, (reach_iff h ha hi).2 hr.1, (reach_iff h ha hj).2 hr.2, ?_⟩
      intro b hab
      obtain ⟨z, hz⟩ := hab.node_right.exists_id h
      rw [reach_iff h hz hi, reach_iff h hz hj, ← hcas]
      exact hy.2 z ((edge_iff h ha hz).1 hab)

/-- directed acyclic example: 1→3, 2→3, 1→4, 2→4, 0→1 (keys = rows) -/
def dag : Graph Nat Int where
  n := 5
  A := Ex.ofTriples 5 [(1,3,1),(2,3,1),(1,4,1),(2,4,1),(0,1,1)]
  keyToId := [(0,0),(1,1),(2,2),(3,3),(4,4)]
  directed := true

example : lowestCommonAncestor dag 3 4 = .ok (some 1) ∧ lowestCommonAncestor dag 0 2 = .ok none := by
  decide +kernel

/-- **C26, finding**: on a graph with a cycle the call can fail with IndexError although there is
a common ancestor (here the 2-cycle 0 ⇄ 1, asked for 0 and 1). -/
theorem lowest_common_ancestor_cycle_index_error :
    ∃ G : Graph Nat Int, G.WF ∧ G.directed = true ∧ G.Node 0 ∧ G.Node 1 ∧
      Reach G.Edge 0 0 ∧ Reach G.Edge 0 1 ∧ lowestCommonAncestor G 0 1 = .error .indexError := by
  refine ⟨{ n := 2, A := Ex.ofTriples 2 [(0,1,1),(1,0,1)], keyToId := [(0,0),(1,1)], directed := true },
    ⟨by decide, by decide⟩, rfl, by decide, by decide, Reach.refl _, Reach.edge ?_, by decide +kernel⟩
  exact ⟨⟨0, by decide⟩, ⟨1, by decide⟩, by decide, by decide, by decide⟩

end Props
