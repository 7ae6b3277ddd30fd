import Verif.Model.Raises
import Verif.Props.Bfs
import Verif.Props.BellmanFord
import Verif.Props.BfExact
import Verif.Props.BfPathExact
import Verif.Props.FloydWarshall
import Verif.Props.Small
import Verif.Props.Small2
import Verif.Props.OperatorsErr
import Verif.Props.PageRank
import Verif.Props.Centrality

/-!
# C104: failures surface as the documented exceptions

For each function: which exception its caller sees, and exactly when.  `r = .error x` says that the call ends with
exception `x`; `Exc.own e` is an exception that NetworkX does not document (it leaks from the implementation, or it is
a plain Python exception).
-/

open GB Model Model.Graph Spec Proofs Proofs.Bfs

namespace Props

variable {K α : Type} [DecidableEq K] {G : Graph K α}

theorem try_ok {a : Type} (cl : List (Cls × Exc)) (x : a) : tryExcept cl (.ok x) = .ok x := rfl

theorem try_error {a : Type} (cl : List (Cls × Exc)) (e : Err) :
    (tryExcept cl (.error e) : Except Exc a) = .error (translate cl e) := rfl

theorem exc_of_ok {a : Type} {r : Except Exc a} {v : a} (h : r = .ok v) (x : Exc) : r ≠ .error x := by
  rw [h]; intro h'; cases h'

/-- one exception, raised exactly if `P` -/
theorem raises_iff {a : Type} {r : Except Exc a} {e : Exc} {P : Prop} (hp : P → r = .error e)
    (hn : ¬ P → ∃ v, r = .ok v) (x : Exc) : r = .error x ↔ x = e ∧ P := by
  by_cases h : P
  · rw [hp h]
    constructor
    · intro h'; cases h'; exact ⟨rfl, h⟩
    · rintro ⟨rfl, -⟩; rfl
  · obtain ⟨v, hv⟩ := hn h
    constructor
    · intro h'; exact absurd h' (exc_of_ok hv x)
    · rintro ⟨-, h'⟩; exact absurd h' h

/-! ## Hop distances, traversal -/

/-- **C104.** `single_source_shortest_path_length` and `single_target_shortest_path_length` raise NodeNotFound exactly
if the node is not in the graph, and nothing else. -/
theorem shortest_path_length_raises (h : G.WF) (s : K) (c : Option Int) (x : Exc) :
    (nxSingleSourceSPL G s c = .error x ↔ x = .nodeNotFound ∧ ¬ G.Node s) ∧
    (nxSingleTargetSPL G s c = .error x ↔ x = .nodeNotFound ∧ ¬ G.Node s) := by
  have hc : ¬ G.Node s → G.contains s = false := fun hs => by
    rw [← Bool.not_eq_true, contains_iff]; exact hs
  constructor
  · refine raises_iff (fun hs => by unfold nxSingleSourceSPL; rw [hc hs]; rfl) (fun hs => ?_) x
    rw [not_not] at hs
    obtain ⟨i, hi⟩ := hs.exists_id h
    unfold nxSingleSourceSPL singleSourceSPL
    rw [contains_iff.2 hs, bfsLevel_ok h hi c false]
    exact ⟨_, rfl⟩
  · refine raises_iff (fun hs => by unfold nxSingleTargetSPL; rw [hc hs]; rfl) (fun hs => ?_) x
    rw [not_not] at hs
    obtain ⟨i, hi⟩ := hs.exists_id h
    unfold nxSingleTargetSPL singleTargetSPL
    rw [contains_iff.2 hs, bfsLevel_ok h hi c true]
    exact ⟨_, rfl⟩

/-- **C104.** `has_path` raises NodeNotFound exactly if one of the nodes is not in the graph; unreachable targets are
an answer, not an error. -/
theorem has_path_raises (h : G.WF) (s t : K) (x : Exc) :
    nxHasPath G s t = .error x ↔ x = .nodeNotFound ∧ (¬ G.Node s ∨ ¬ G.Node t) := by
  refine raises_iff (fun hst => ?_) (fun hst => ?_) x
  · unfold nxHasPath hasPath
    rw [bidirectional_shortest_path_length_missing hst]; rfl
  · push Not at hst
    obtain ⟨b, hb, -⟩ := has_path_correct h hst.1 hst.2
    exact ⟨b, by unfold nxHasPath; rw [hb]; rfl⟩

/-- **C104.** `descendants`, `ancestors` and `descendants_at_distance` raise NetworkXError exactly if the node is not
in the graph. -/
theorem reachability_raises (h : G.WF) (hsym : G.directed = false → G.Symm) (s : K) (d : Int) (x : Exc) :
    (nxDescendants G s = .error x ↔ x = .nxError ∧ ¬ G.Node s) ∧
    (nxAncestors G s = .error x ↔ x = .nxError ∧ ¬ G.Node s) ∧
    (nxDescendantsAtDistance G s d = .error x ↔ x = .nxError ∧ ¬ G.Node s) := by
  refine ⟨raises_iff (fun hs => ?_) (fun hs => ?_) x, raises_iff (fun hs => ?_) (fun hs => ?_) x,
    raises_iff (fun hs => ?_) (fun hs => ?_) x⟩
  · unfold nxDescendants; rw [(descendants_ancestors_missing h hs).1]; rfl
  · obtain ⟨r, hr, -⟩ := descendants_correct h (not_not.1 hs)
    exact ⟨r, by unfold nxDescendants; rw [hr]; rfl⟩
  · unfold nxAncestors; rw [(descendants_ancestors_missing h hs).2]; rfl
  · obtain ⟨r, hr, -⟩ := ancestors_correct h hsym (not_not.1 hs)
    exact ⟨r, by unfold nxAncestors; rw [hr]; rfl⟩
  · unfold nxDescendantsAtDistance descendantsAtDistance
    rw [getId_eq_error h hs]; rfl
  · rcases Int.lt_or_le d 0 with hd | hd
    · obtain ⟨r, hr, -⟩ := descendants_at_distance_negative h (not_not.1 hs) d hd
      exact ⟨r, by unfold nxDescendantsAtDistance; rw [hr]; rfl⟩
    · obtain ⟨r, hr, -⟩ := descendants_at_distance_correct h (not_not.1 hs) d.toNat
      rw [Int.toNat_of_nonneg hd] at hr
      exact ⟨r, by unfold nxDescendantsAtDistance; rw [hr]; rfl⟩

/-- **C104.** `bfs_layers` raises NetworkXError exactly if some source is not in the graph, before it yields anything;
otherwise it ends normally. -/
theorem bfs_layers_raises (h : G.WF) (sources : List K) (x : Exc) :
    ((nxBfsLayers G sources).stop = some x ↔ x = .nxError ∧ ∃ s ∈ sources, ¬ G.Node s) ∧
    ((nxBfsLayers G sources).stop = some x → (nxBfsLayers G sources).items = []) := by
  by_cases hs : ∃ s ∈ sources, ¬ G.Node s
  · have e : bfsLayers G sources = .error .keyError := by
      obtain ⟨s, hm, hn⟩ := hs
      unfold bfsLayers
      rw [listToIds_error h hm hn]; rfl
    unfold nxBfsLayers
    rw [e]
    refine ⟨⟨(fun h' => by cases h'; exact ⟨rfl, hs⟩), (fun h' => by rw [h'.1]; rfl)⟩, fun _ => rfl⟩
  · have : ∃ L, bfsLayers G sources = .ok L := by
      push Not at hs
      obtain ⟨ids, hids, -⟩ := Bfs.listToIds_ok h hs
      unfold bfsLayers
      rw [hids]
      by_cases h0 : ids.length = 0
      · simp only [bind, Except.bind, h0, if_true]; exact ⟨_, rfl⟩
      · simp only [bind, Except.bind, h0, if_false]; exact ⟨_, rfl⟩
    obtain ⟨L, hL⟩ := this
    unfold nxBfsLayers
    rw [hL]
    refine ⟨⟨(fun h' => by cases h'), fun h' => absurd h'.2 hs⟩, fun h' => by cases h'⟩

/-- **C104.** `is_connected` (of an undirected graph) and `is_weakly_connected` raise NetworkXPointlessConcept exactly
on the graph without nodes; `node_connected_component` raises KeyError exactly for unknown nodes. -/
theorem components_raise (h : G.WF) (x : Exc) :
    (G.Symm → (nxIsConnected G = .error x ↔ x = .nxPointless ∧ G.nodes = [])) ∧
    (nxIsWeaklyConnected G = .error x ↔ x = .nxPointless ∧ G.nodes = []) ∧
    (∀ u, nxNodeConnectedComponent G u = .error x ↔ x = .own .keyError ∧ ¬ G.Node u) := by
  have hlen : G.len = 0 ↔ G.nodes = [] := by
    rw [← List.length_eq_zero_iff, nodes_length h]; rfl
  refine ⟨fun hsym => raises_iff (fun hs => ?_) (fun hs => ?_) x, raises_iff (fun hs => ?_) (fun hs => ?_) x,
    fun u => raises_iff (fun hs => ?_) (fun hs => ?_) x⟩
  · rcases is_connected_correct h hsym with ⟨-, e⟩ | ⟨e, -⟩
    · unfold nxIsConnected; rw [e]; rfl
    · exact absurd (hlen.2 hs) e
  · rcases is_connected_correct h hsym with ⟨e, -⟩ | ⟨-, b, hb, -⟩
    · exact absurd (hlen.1 e) hs
    · exact ⟨b, by unfold nxIsConnected; rw [hb]; rfl⟩
  · rcases is_weakly_connected_correct h with ⟨-, e⟩ | ⟨e, -⟩
    · unfold nxIsWeaklyConnected; rw [e]; rfl
    · exact absurd (hlen.2 hs) e
  · rcases is_weakly_connected_correct h with ⟨e, -⟩ | ⟨-, b, hb, -⟩
    · exact absurd (hlen.1 e) hs
    · exact ⟨b, by unfold nxIsWeaklyConnected; rw [hb]; rfl⟩
  · unfold nxNodeConnectedComponent nodeConnectedComponent bfsPlain
    rw [getId_eq_error h hs]; rfl
  · obtain ⟨r, hr, -⟩ := node_connected_component_correct h (not_not.1 hs)
    exact ⟨r, by unfold nxNodeConnectedComponent; rw [hr]; rfl⟩

/-! ## Generators -/

section gen
variable {a b κ : Type}

theorem genFor_item {f : b → Except Exc (List a)} {xs : List b} {p : a} (hp : p ∈ (genFor f xs).items) :
    ∃ x ∈ xs, ∃ l, f x = .ok l ∧ p ∈ l := by
  induction xs with
  | nil => simp [genFor] at hp
  | cons x xs ih =>
    unfold genFor at hp
    cases hf : f x with
    | error e => simp [hf] at hp
    | ok l =>
      simp only [hf, List.mem_append] at hp
      rcases hp with hp | hp
      · exact ⟨x, by simp, l, hf, hp⟩
      · obtain ⟨y, hy, l', h1, h2⟩ := ih hp
        exact ⟨y, by simp [hy], l', h1, h2⟩

theorem genFor_stop {f : b → Except Exc (List a)} {xs : List b} {e : Exc} (he : (genFor f xs).stop = some e) :
    ∃ x ∈ xs, f x = .error e := by
  induction xs with
  | nil => simp [genFor] at he
  | cons x xs ih =>
    unfold genFor at he
    cases hf : f x with
    | error e' => simp only [hf, Option.some.injEq] at he; subst he; exact ⟨x, by simp, hf⟩
    | ok l =>
      simp only [hf] at he
      obtain ⟨y, hy, h1⟩ := ih he
      exact ⟨y, by simp [hy], h1⟩

theorem genFor_done {f : b → Except Exc (List a)} {xs : List b} (he : (genFor f xs).stop = none) :
    ∀ x ∈ xs, ∃ l, f x = .ok l := by
  induction xs with
  | nil => simp
  | cons x xs ih =>
    unfold genFor at he
    cases hf : f x with
    | error e' => simp [hf] at he
    | ok l =>
      simp only [hf] at he
      intro y hy
      rcases List.mem_cons.1 hy with rfl | hy
      · exact ⟨l, hf⟩
      · exact ih he y hy

/-- the keys come in the order of the loop -/
theorem genFor_keys {f : b → Except Exc (List a)} {xs : List b} (key : a → κ) (ks : b → List κ)
    (hk : ∀ x ∈ xs, ∀ l, f x = .ok l → l.map key = ks x) :
    (genFor f xs).items.map key <+: xs.flatMap ks ∧
    ((genFor f xs).stop = none → (genFor f xs).items.map key = xs.flatMap ks) := by
  induction xs with
  | nil => simp [genFor]
  | cons x xs ih =>
    unfold genFor
    cases hf : f x with
    | error e' => simp
    | ok l =>
      obtain ⟨h1, h2⟩ := ih fun y hy => hk y (by simp [hy])
      have h0 := hk x (by simp) l hf
      simp only [List.map_append, List.flatMap_cons, h0]
      exact ⟨(List.prefix_append_right_inj _).2 h1, fun h' => by rw [h2 h']⟩

/-- pairing a list with the rows of a matrix -/
theorem zip_rows {β : Type} {m : Nat} (nodes : List κ) (hlen : nodes.length = m) (D : Fin m → β) :
    (nodes.zipIdx.filterMap fun (p : κ × Nat) => if h : p.2 < m then some (p.1, D ⟨p.2, h⟩) else none).map Prod.fst = nodes ∧
    ∀ q ∈ nodes.zipIdx.filterMap fun (p : κ × Nat) => if h : p.2 < m then some (p.1, D ⟨p.2, h⟩) else none,
      ∃ r : Fin m, q = (nodes[r.val]'(by omega), D r) := by
  have hb : ∀ p ∈ nodes.zipIdx, ∃ h : p.2 < m, nodes[p.2]'(by omega) = p.1 := by
    rintro ⟨u, r⟩ hp
    have hr := List.mem_zipIdx hp
    simp only [Nat.zero_add, Nat.zero_le, Nat.sub_zero, true_and] at hr
    exact ⟨by simp only; omega, hr.2.symm⟩
  constructor
  · rw [List.map_filterMap]
    have : nodes.zipIdx.filterMap (fun p : κ × Nat => (if h : p.2 < m then some (p.1, D ⟨p.2, h⟩) else none).map Prod.fst)
        = nodes.zipIdx.filterMap (fun p => some p.1) := by
      apply List.filterMap_congr
      intro p hp
      obtain ⟨h, -⟩ := hb p hp
      simp [h]
    rw [this, show (fun p : κ × Nat => some p.1) = some ∘ Prod.fst from rfl, List.filterMap_eq_map]
    exact List.zipIdx_map_fst 0 nodes
  · intro q hq
    obtain ⟨p, hp, hpq⟩ := List.mem_filterMap.1 hq
    obtain ⟨h, hu⟩ := hb p hp
    rw [dif_pos h] at hpq
    refine ⟨⟨p.2, h⟩, ?_⟩
    cases hpq
    simp [hu]

end gen

/-- the items of a NodeNodeMap: every row that has an entry, once -/
theorem genRows_spec {β : Type} (h : G.WF) (D : Mat G.n G.n β) (hne : ∀ i, ∃ j, (D i j).isSome) :
    (genRows G D).stop = none ∧ ((genRows G D).items.map Prod.fst).Nodup ∧
    (∀ p ∈ (genRows G D).items, ∃ i, G.At p.1 i ∧ p.2 = D i) ∧
    ∀ u, G.Node u → u ∈ (genRows G D).items.map Prod.fst := by
  choose key hkey using h.exists_key
  have hfil : ((List.finRange G.n).filter fun i : Fin G.n => decide (nvals (D i) ≠ 0)) = List.finRange G.n := by
    rw [List.filter_eq_self]
    intro i _
    simp only [decide_eq_true_eq]
    exact Nat.ne_of_gt (nvals_pos.2 (hne i))
  have hf : ∀ i : Fin G.n, genRow G D i = .ok [(key i, D i)] := by
    intro i; unfold genRow; rw [(keyOf_eq_some h).2 (hkey i)]
  have hs : (genRows G D).stop = none := by
    rw [Option.eq_none_iff_forall_ne_some]
    intro e he
    obtain ⟨i, -, h1⟩ := genFor_stop he
    rw [hf i] at h1; cases h1
  have hk := (genFor_keys (Prod.fst : K × Vec G.n β → K) (fun i : Fin G.n => [key i])
    (xs := (List.finRange G.n).filter fun i : Fin G.n => decide (nvals (D i) ≠ 0))
    (f := genRow G D) (by
      intro i _ l hl
      rw [hf i] at hl; cases hl; rfl)).2 hs
  have hk' : (genRows G D).items.map Prod.fst = (List.finRange G.n).map key := by
    refine Eq.trans hk ?_
    rw [hfil]
    exact List.flatMap_pure_eq_map key _
  refine ⟨hs, ?_, ?_, ?_⟩
  · rw [hk']
    refine (List.nodup_finRange _).map ?_
    intro x y hxy
    have := hkey x
    rw [hxy] at this
    exact At.id_unique h this (hkey y)
  · intro p hp
    obtain ⟨i, -, l, h1, h2⟩ := genFor_item hp
    rw [hf i] at h1
    cases h1
    rw [List.mem_singleton] at h2
    subst h2
    exact ⟨i, hkey i, rfl⟩
  · intro u hu
    rw [hk']
    obtain ⟨i, hi⟩ := hu.exists_id h
    exact List.mem_map.2 ⟨i, List.mem_finRange i, At.key_unique h (hkey i) hi⟩

/-- **C104.** `all_pairs_shortest_path_length`, as a generator: for every chunk size it ends without an exception and
yields every node exactly once, with its distances. -/
theorem all_pairs_shortest_path_length_yields (h : G.WF) (c : Option Int) (hc : ∀ x, c = some x → 0 ≤ x)
    (chunksize : Option Int) :
    let g := nxAllPairsSPL G c chunksize
    g.stop = none ∧ (g.items.map Prod.fst).Nodup ∧ (∀ u, G.Node u ↔ u ∈ g.items.map Prod.fst) ∧
    ∀ p ∈ g.items, ∀ v d, G.view p.2 v = some d ↔ IsDist G.Edge p.1 d v ∧ Within c d := by
  intro g
  -- what one row holds
  have hrow : ∀ {u : K} {r : Vec G.n Nat}, G.Node u → singleSourceSPL G u c = .ok r →
      ∀ v d, G.view r v = some d ↔ IsDist G.Edge u d v ∧ Within c d := by
    intro u r hu hr
    obtain ⟨r', hr', h1⟩ := single_source_shortest_path_length_correct h hu c hc
    rw [hr] at hr'; cases hr'
    exact h1
  have hok : ∀ u, G.Node u → ∃ r, singleSourceSPL G u c = .ok r := fun u hu => by
    obtain ⟨r, hr, -⟩ := single_source_shortest_path_length_correct h hu c hc
    exact ⟨r, hr⟩
  have key : g.stop = none ∧ (g.items.map Prod.fst).Nodup ∧ (∀ u, G.Node u ↔ u ∈ g.items.map Prod.fst) ∧
      ∀ p ∈ g.items, singleSourceSPL G p.1 c = .ok p.2 := by
    cases chunksize with
    | none =>
      obtain ⟨h1, h2, h3, h4⟩ := genRows_spec h (bfsLevelsFrom (offdiag G.A) (fun i => i) c) fun i => ⟨i, by
        rw [(levelsFrom_inv (offdiag G.A) (fun i => i) c i).pattern]
        exact ⟨0, by omega, distFrom_zero.2 rfl⟩⟩
      refine ⟨h1, h2, fun u => ⟨h4 u, fun hu => ?_⟩, fun p hp => ?_⟩
      · obtain ⟨p, hp, rfl⟩ := List.mem_map.1 hu
        obtain ⟨i, hi, -⟩ := h3 p hp
        exact hi.node
      · obtain ⟨i, hi, e⟩ := h3 p hp
        rw [e, levelsFrom_eq]
        exact bfsLevel_ok h hi c false
    | some cs =>
      by_cases hcs : cs < 2
      · have e : g = genFor (fun source => (tryExcept [] (singleSourceSPL G source c)).map fun d => [(source, d)])
            (G.keyToId.map Prod.fst) := by
          show nxAllPairsSPL G c (some cs) = _
          unfold nxAllPairsSPL
          simp only
          rw [if_pos hcs]
        have hs : g.stop = none := by
          rw [Option.eq_none_iff_forall_ne_some]
          intro x hx
          rw [e] at hx
          obtain ⟨u, hu, h1⟩ := genFor_stop hx
          obtain ⟨r, hr⟩ := hok u hu
          rw [hr] at h1; cases h1
        have hk := (genFor_keys (Prod.fst : K × Vec G.n Nat → K) (fun u : K => [u]) (xs := G.keyToId.map Prod.fst)
          (f := fun source => (tryExcept [] (singleSourceSPL G source c)).map fun d => [(source, d)]) (by
            intro u hu l hl
            obtain ⟨r, hr⟩ := hok u hu
            rw [hr] at hl; cases hl; rfl)).2 (by rw [← e]; exact hs)
        rw [← e, List.flatMap_singleton'] at hk
        refine ⟨hs, by rw [hk]; exact h.keys_nodup, fun u => by rw [hk]; rfl, fun p hp => ?_⟩
        rw [e] at hp
        obtain ⟨u, hu, l, h1, h2⟩ := genFor_item hp
        obtain ⟨r, hr⟩ := hok u hu
        rw [hr] at h1
        cases h1
        rw [List.mem_singleton] at h2
        subst h2
        exact hr
      · obtain ⟨ps, hp, hflat, -⟩ := partition_correct cs (G.keyToId.map Prod.fst) true (by omega)
        have e : g = genFor (fun p => tryExcept [] (splPiece G c p)) (ps.map .chunk) := by
          show nxAllPairsSPL G c (some cs) = _
          unfold nxAllPairsSPL
          simp only
          rw [if_neg hcs, hp]
        have hpiece : ∀ nodes ∈ ps, ∃ L, splPiece G c (.chunk nodes) = .ok L ∧ L.map Prod.fst = nodes ∧
            ∀ q ∈ L, singleSourceSPL G q.1 c = .ok q.2 := by
          intro nodes hmem
          have hn : ∀ u ∈ nodes, G.Node u := by
            intro u hu
            show u ∈ G.keyToId.map Prod.fst
            rw [← hflat]
            exact List.mem_flatten.2 ⟨nodes, hmem, hu⟩
          obtain ⟨ids, hids, hf⟩ := Bfs.listToIds_ok h hn
          have hlen := hf.length_eq
          obtain ⟨z1, z2⟩ := zip_rows nodes hlen
            (bfsLevelsFrom (offdiag G.A) (fun r : Fin ids.length => ids.get r) c)
          refine ⟨_, ?_, z1, ?_⟩
          · unfold splPiece
            simp only
            rw [hids]; rfl
          · intro q hq
            obtain ⟨r, rfl⟩ := z2 q hq
            show singleSourceSPL G (nodes[r.val]'(by omega)) c = .ok _
            rw [levelsFrom_eq]
            exact bfsLevel_ok h ((List.forall₂_iff_get.1 hf).2 r (by omega) r.2) c false
        have hs : g.stop = none := by
          rw [Option.eq_none_iff_forall_ne_some]
          intro x hx
          rw [e] at hx
          obtain ⟨p, hmem, h1⟩ := genFor_stop hx
          obtain ⟨nodes, hmem', rfl⟩ := List.mem_map.1 hmem
          obtain ⟨L, hL, -⟩ := hpiece nodes hmem'
          rw [hL] at h1; cases h1
        have hk := (genFor_keys (Prod.fst : K × Vec G.n Nat → K)
          (fun p : Piece K => match p with | .chunk l => l | .elem _ => []) (xs := ps.map .chunk)
          (f := fun p => tryExcept [] (splPiece G c p)) (by
            intro p hmem l hl
            obtain ⟨nodes, hmem', rfl⟩ := List.mem_map.1 hmem
            obtain ⟨L, hL, h1, -⟩ := hpiece nodes hmem'
            rw [hL] at hl; cases hl; exact h1)).2 (by rw [← e]; exact hs)
        have hk' : g.items.map Prod.fst = G.keyToId.map Prod.fst := by
          rw [e, hk, List.flatMap_map, ← hflat]
          simp only [List.flatMap_id']
        refine ⟨hs, by rw [hk']; exact h.keys_nodup, fun u => by rw [hk']; rfl, fun p hp => ?_⟩
        rw [e] at hp
        obtain ⟨x, hmem, l, h1, h2⟩ := genFor_item hp
        obtain ⟨nodes, hmem', rfl⟩ := List.mem_map.1 hmem
        obtain ⟨L, hL, -, h3⟩ := hpiece nodes hmem'
        rw [hL] at h1; cases h1
        exact h3 p h2
  obtain ⟨k1, k2, k3, k4⟩ := key
  refine ⟨k1, k2, k3, fun p hp => ?_⟩
  exact hrow ((k3 p.1).2 (List.mem_map.2 ⟨p, hp, rfl⟩)) (k4 p hp)


/-! ## Weighted distances -/

section weighted
variable [AddCommGroup α] [LinearOrder α] [IsOrderedAddMonoid α]

/-- **C104.** `single_source_bellman_ford_path_length` raises NodeNotFound exactly if the source is not in the graph,
NetworkXUnbounded exactly if a negative cycle can be reached from it, and nothing else. -/
theorem single_source_bellman_ford_raises (h : G.WF) (hsym : G.directed = false → G.Symm) {iso : Option α}
    (hiso : IsoValid G iso) (fdiv : α → α → Int) (s : K) (x : Exc) :
    nxSingleSourceBF G iso fdiv s = .error x ↔
      (x = .nodeNotFound ∧ ¬ G.Node s) ∨ (x = .nxUnbounded ∧ G.Node s ∧ NegCycleFrom G.WEdge s) := by
  unfold nxSingleSourceBF
  by_cases hs : G.Node s
  · rcases single_source_bellman_ford_path_length_correct h hsym hiso fdiv hs with ⟨hn, e⟩ | ⟨hn, r, e, -⟩
    · rw [e]
      constructor
      · intro h'; cases h'; exact Or.inr ⟨rfl, hs, hn⟩
      · rintro (⟨-, h'⟩ | ⟨rfl, -⟩)
        · exact absurd hs h'
        · rfl
    · rw [e]
      constructor
      · intro h'; cases h'
      · rintro (⟨-, h'⟩ | ⟨-, -, h'⟩)
        · exact absurd hs h'
        · exact absurd h' hn
  · rw [single_source_bellman_ford_path_length_missing h fdiv hs]
    constructor
    · intro h'; cases h'; exact Or.inl ⟨rfl, hs⟩
    · rintro (⟨rfl, -⟩ | ⟨-, h', -⟩)
      · rfl
      · exact absurd h' hs

theorem bfCore_errors {n : Nat} {A : Mat n n α} {i : Fin n} {dst : Option (Fin n)} {cut : Option α} {e : Err}
    (he : bfCore A i dst cut = .error e) : e = .unbounded := by
  have gen : ∀ (c1 c2 : Bool) (r : Vec n α), (if c1 then (.error .unbounded : Except Err (Vec n α))
      else if c2 then .error .unbounded else .ok r) = .error e → e = .unbounded := by
    intro c1 c2 r h'
    cases c1 <;> cases c2 <;> cases h' <;> rfl
  exact gen _ _ _ he

/-- for nodes of the graph, the only failures are NoPath and Unbounded -/
theorem path_length_errors (h : G.WF) {iso : Option α} {s t : K} (hs : G.Node s) (ht : G.Node t) {e : Err}
    (he : bellmanFordPathLength G iso s t = .error e) : e = .noPath ∨ e = .unbounded := by
  obtain ⟨i, hi⟩ := hs.exists_id h
  obtain ⟨j, hj⟩ := ht.exists_id h
  unfold bellmanFordPathLength at he
  rw [(getId_eq_ok h).2 hi, (getId_eq_ok h).2 hj] at he
  simp only [bind, Except.bind] at he
  have core : ∀ r : Except Err (Vec G.n α), (∀ e, r = .error e → e = .unbounded) →
      (match r with
        | .error err => Except.error err
        | .ok d => match d j with
          | none => .error .noPath
          | some x => .ok x) = .error e → e = .noPath ∨ e = .unbounded := by
    intro r hr h'
    cases r with
    | error err => cases h'; exact Or.inr (hr _ rfl)
    | ok d =>
      simp only at h'
      cases hd : d j with
      | none => rw [hd] at h'; cases h'; exact Or.inl rfl
      | some x => rw [hd] at h'; cases h'
  cases iso with
  | none =>
    simp only at he
    cases hb : bfCore G.A i (some j) none with
    | error err => rw [hb] at he; cases he; exact Or.inr (bfCore_errors hb)
    | ok d =>
      rw [hb] at he
      exact core (.ok d) (fun _ h' => by cases h') he
  | some c =>
    simp only at he
    split at he
    · have hb : ∃ d, bfsLevel G s (some t) none = .ok d := by
        unfold bfsLevel
        rw [(getId_eq_ok h).2 hi]
        simp only [bind, Except.bind]
        rw [(getId_eq_ok h).2 hj]
        exact ⟨_, rfl⟩
      obtain ⟨d, hd⟩ := hb
      rw [hd] at he
      exact core (.ok (vapply (fun l => l • c) d)) (fun _ h' => by cases h') he
    · split at he
      · cases he; exact Or.inr rfl
      · split at he
        · cases he; exact Or.inr rfl
        · cases hb : bfCore G.A i (some j) none with
          | error err => rw [hb] at he; cases he; exact Or.inr (bfCore_errors hb)
          | ok d =>
            rw [hb] at he
            exact core (.ok d) (fun _ h' => by cases h') he

/-- **C104 (partial).** `bellman_ford_path_length`: NodeNotFound exactly for unknown nodes, and, without negative cycles
reachable from the source, NetworkXNoPath exactly if the target cannot be reached, and nothing else.
Missing: NetworkXUnbounded, which this function never raises (`unbounded_not_translated`). -/
theorem bellman_ford_path_length_raises_partial (h : G.WF) (hsym : G.directed = false → G.Symm) {iso : Option α}
    (hiso : IsoValid G iso) (s t : K) :
    (nxBellmanFordPathLength G iso s t = .error .nodeNotFound ↔ ¬ G.Node s ∨ ¬ G.Node t) ∧
    (G.Node s → G.Node t → ¬ NegCycleFrom G.WEdge s → ∀ x,
      nxBellmanFordPathLength G iso s t = .error x ↔ x = .nxNoPath ∧ ¬ WReach G.WEdge s t) ∧
    (G.Node s → G.Node t → nxBellmanFordPathLength G iso s t = .error (.own .unbounded) →
      NegCycleFrom G.WEdge s) := by
  have hmiss : (¬ G.Node s ∨ ¬ G.Node t) → nxBellmanFordPathLength G iso s t = .error .nodeNotFound := by
    intro hst
    unfold nxBellmanFordPathLength
    rw [bellman_ford_path_length_missing h hst]; rfl
  have hno : G.Node s → G.Node t → ¬ NegCycleFrom G.WEdge s → ∀ x,
      nxBellmanFordPathLength G iso s t = .error x ↔ x = .nxNoPath ∧ ¬ WReach G.WEdge s t := by
    intro hs ht hn x
    unfold nxBellmanFordPathLength
    rcases bellman_ford_path_length_correct_partial h hsym hiso hs ht hn with ⟨d, hd, e⟩ | ⟨hr, e⟩
    · rw [e]
      constructor
      · intro h'; cases h'
      · rintro ⟨-, h'⟩
        obtain ⟨⟨m, hw⟩, -⟩ := hd
        exact absurd ⟨m, d, hw⟩ h'
    · rw [e]
      constructor
      · intro h'; cases h'; exact ⟨rfl, hr⟩
      · rintro ⟨rfl, -⟩; rfl
  have hub : G.Node s → G.Node t → nxBellmanFordPathLength G iso s t = .error (.own .unbounded) →
      NegCycleFrom G.WEdge s := by
    intro hs ht e
    by_contra hn
    exact absurd ((hno hs ht hn _).1 e).1 (by decide)
  refine ⟨⟨fun e => ?_, hmiss⟩, hno, hub⟩
  by_contra hc
  push Not at hc
  unfold nxBellmanFordPathLength at e
  cases hr : bellmanFordPathLength G iso s t with
  | ok d => rw [hr] at e; cases e
  | error err =>
    rw [hr] at e
    rcases path_length_errors h hc.1 hc.2 hr with rfl | rfl <;> cases e


/-- a chase along parents that all have parents themselves never meets a missing parent -/
theorem chase_errors {n : Nat} {p : Vec n (Fin n)} {s : Fin n} (hp : ∀ j q, p j = some q → (p q).isSome) :
    ∀ {f : Nat} {j : Fin n} {e : Err}, (p j).isSome → chaseParents p s f j = .error e → e = .diverges := by
  intro f
  induction f with
  | zero =>
    intro j e _ he
    unfold chaseParents at he
    split at he
    · cases he
    · cases he; rfl
  | succ f ih =>
    intro j e hj he
    unfold chaseParents at he
    split at he
    · cases he
    · obtain ⟨q, hq⟩ := Option.isSome_iff_exists.1 hj
      simp only [hq, bind, Except.bind] at he
      cases hc : chaseParents p s f q with
      | error e' => rw [hc] at he; cases he; exact ih (hp j q hq) hc
      | ok l => rw [hc] at he; cases he

theorem reconstruct_errors {n : Nat} {p : Vec n (Fin n)} {s t : Fin n} (hp : ∀ j q, p j = some q → (p q).isSome)
    {e : Err} (he : reconstructPath p s t = .error e) : e = .diverges := by
  unfold reconstructPath at he
  cases ht : p t with
  | none => rw [ht] at he; cases he
  | some q =>
    simp only [ht, bind, Except.bind] at he
    cases hc : chaseParents p s n t with
    | error e' => rw [hc] at he; cases he; exact chase_errors hp (by rw [ht]; rfl) hc
    | ok l => rw [hc] at he; cases he

theorem path_core_errors {n : Nat} {A : Mat n n α} {s t : Fin n} {e : Err} (he : bfPathCore A s t = .error e) :
    e = .unbounded ∨ e = .valueError ∨ e = .diverges := by
  unfold bfPathCore at he
  simp only at he
  generalize hpr : (if hasNegEdgesM A then none else some t : Option (Fin n)) = prune at *
  obtain ⟨k', prev', r', hk', hP⟩ := BFP.pinv_loop (cut := none) prune (n-1) (BFP.pinv_init (offdiag A) s)
  generalize bfPathLoop (offdiag A) prune (n-1) none (vset vempty s 0) (vset vempty s 0)
    (vset vempty s s) = res at *
  obtain ⟨st, p⟩ := res
  simp only at *
  have hcl : ∀ j q, p j = some q → (p q).isSome := by
    intro j q hq
    obtain ⟨c, hc⟩ := Option.isSome_iff_exists.1 ((hP.pat j).1 (by rw [hq]; rfl))
    rcases hP.par j c hc with ⟨rfl, -, h1⟩ | ⟨i, a, c1, c1', h1, -, -, h2, -⟩
    · rw [hq] at h1; cases h1; rw [hq]; rfl
    · rw [hq] at h1; cases h1
      exact (hP.pat q).2 (by rw [h2]; rfl)
  split at he
  · cases he; exact Or.inl rfl
  · cases hr : reconstructPath p s t with
    | error e' => rw [hr] at he; cases he; exact Or.inr (Or.inr (reconstruct_errors hcl hr))
    | ok l =>
      rw [hr] at he
      simp only [bind, Except.bind, pure, Except.pure] at he
      split at he
      · generalize (if st.broke = true then st.cur else bfRelax (offdiag A) st.cut st.cur) = cur at he
        cases hb : bfPathDiag A t l cur with
        | ok u => rw [hb] at he; cases he
        | error e' =>
          rw [hb] at he
          cases he
          unfold bfPathDiag at hb
          simp only at hb
          split at hb
          · cases hb; exact Or.inl rfl
          · split at hb
            · split at hb
              · split at hb
                · cases hb; exact Or.inl rfl
                · cases hb
              · cases hb; exact Or.inr (Or.inl rfl)
            · cases hb
      · cases he

/-- for nodes of the graph, the failures of `bellman_ford_path`; the last one is an endless loop -/
theorem bellman_ford_path_errors (h : G.WF) {iso : Option α} {s t : K} (hs : G.Node s) (ht : G.Node t) {e : Err}
    (he : bellmanFordPath G iso s t = .error e) : e = .unbounded ∨ e = .valueError ∨ e = .diverges := by
  obtain ⟨i, hi⟩ := hs.exists_id h
  obtain ⟨j, hj⟩ := ht.exists_id h
  unfold bellmanFordPath at he
  rw [(getId_eq_ok h).2 hi, (getId_eq_ok h).2 hj] at he
  simp only [bind, Except.bind] at he
  cases hr : bfPathIds G iso s t i j with
  | ok l' =>
    rw [hr] at he
    obtain ⟨ks, hk1, -⟩ := mapM_keys h l'
    exact absurd (hk1.symm.trans he) (by intro h'; cases h')
  | error e' =>
    rw [hr] at he
    cases he
    cases iso with
    | none => exact path_core_errors hr
    | some c =>
      unfold bfPathIds at hr
      simp only at hr
      split at hr
      swap
      · cases hr; exact Or.inl rfl
      have hinit : ∀ x, (vset (vempty : Vec G.n (Fin G.n)) i i x).isSome ↔
          IsDist (Adj (offdiag G.A)) i 0 x := by
        intro x; rw [vset_isSome, isDist_iff_from, distFrom_zero]
      obtain ⟨L, -, hp⟩ := parentLoop_spec (A := offdiag G.A) (s := i) (some j) (G.n - 1) 0
        (parent_init _ i) hinit (by
          intro x p hp
          unfold vset vempty at hp
          split at hp
          · cases hp; simp_all
          · cases hp)
      have hb : bfsParent G s (some t) = .ok (bfsParentLoop (offdiag G.A) (some j)
          (List.range' (0+1) (G.n - 1)) (vset vempty i i) (vset vempty i i)) := by
        unfold bfsParent
        rw [(getId_eq_ok h).2 hi]
        simp only [bind, Except.bind]
        rw [(getId_eq_ok h).2 hj]
        show Except.ok (bfsParentLoop (bfsMatrix G false) _ (range1 (getCutoff G.n none)) _ _) = _
        unfold range1 getCutoff
        rw [Int.toNat_natCast]
        rfl
      rw [hb] at hr
      simp only [bind, Except.bind] at hr
      generalize bfsParentLoop (offdiag G.A) (some j)
          (List.range' (0+1) (G.n - 1)) (vset vempty i i) (vset vempty i i) = p at *
      refine Or.inr (Or.inr (reconstruct_errors (fun x q hq => ?_) hr))
      by_cases hx : x = i
      · subst hx
        rw [hp.src] at hq; cases hq; rw [hp.src]; rfl
      · obtain ⟨d, h1, h2, -⟩ := hp.par x q hq hx
        obtain ⟨d', hd', h3⟩ := (hp.pat x).1 (by rw [hq]; rfl)
        have := Spec.dist_unique h2 h3
        exact (hp.pat q).2 ⟨d, by omega, h1⟩

/-- **C104 (partial).** `bellman_ford_path` raises NodeNotFound exactly for unknown nodes; it never raises
NetworkXNoPath (an unreachable target gives the empty list) nor NetworkXUnbounded, and no other NetworkX exception.
Without negative cycles reachable from the source and without negative self-loops it raises nothing else.
Missing: NetworkX documents NetworkXNoPath and NetworkXUnbounded for it (`unbounded_not_translated`,
`no_path_not_raised`). -/
theorem bellman_ford_path_raises_partial (h : G.WF) (iso : Option α) (s t : K) :
    (nxBellmanFordPath G iso s t = .error .nodeNotFound ↔ ¬ G.Node s ∨ ¬ G.Node t) ∧
    (∀ x, nxBellmanFordPath G iso s t = .error x →
      x = .nodeNotFound ∨ x = .own .unbounded ∨ x = .own .valueError ∨ x = .own .diverges) ∧
    (iso = none → ¬ NegCycleFrom G.WEdge s → (∀ u w, G.WEdge u u w → 0 ≤ w) →
      ∀ x, nxBellmanFordPath G iso s t = .error x ↔ x = .nodeNotFound ∧ (¬ G.Node s ∨ ¬ G.Node t)) := by
  have hmiss : (¬ G.Node s ∨ ¬ G.Node t) → nxBellmanFordPath G iso s t = .error .nodeNotFound := by
    intro hst
    unfold nxBellmanFordPath
    rw [bellman_ford_path_missing h hst]; rfl
  have hnode : G.Node s → G.Node t → ∀ x, nxBellmanFordPath G iso s t = .error x →
      x = .own .unbounded ∨ x = .own .valueError ∨ x = .own .diverges := by
    intro hs ht x hx
    unfold nxBellmanFordPath at hx
    cases hr : bellmanFordPath G iso s t with
    | ok l => rw [hr] at hx; cases hx
    | error e =>
      rw [hr] at hx
      rcases bellman_ford_path_errors h hs ht hr with rfl | rfl | rfl <;> cases hx
      · exact Or.inl rfl
      · exact Or.inr (Or.inl rfl)
      · exact Or.inr (Or.inr rfl)
  refine ⟨⟨fun e => ?_, hmiss⟩, fun x hx => ?_, fun hi hno hl x => ?_⟩
  · by_contra hc
    push Not at hc
    rcases hnode hc.1 hc.2 _ e with h' | h' | h' <;> cases h'
  · by_cases hst : ¬ G.Node s ∨ ¬ G.Node t
    · rw [hmiss hst] at hx; cases hx; exact Or.inl rfl
    · push Not at hst
      exact Or.inr (hnode hst.1 hst.2 x hx)
  · refine raises_iff hmiss (fun hst => ?_) x
    push Not at hst
    subst hi
    unfold nxBellmanFordPath
    rcases bellman_ford_path_exact h hst.1 hst.2 hno with ⟨-, e⟩ | ⟨l, -, e⟩
    · exact ⟨[], by rw [e]; rfl⟩
    · rw [if_neg (by rintro ⟨⟨u, w, h1, h2⟩, -⟩; exact absurd (hl u w h1) (not_le.2 h2))] at e
      exact ⟨l, by rw [e]; rfl⟩

/-- **C104.** `all_pairs_bellman_ford_path_length`, as a generator, for every chunk size: every pair it yields is a node
with its right distances, no node twice; it ends with NetworkXUnbounded exactly if a negative cycle can be reached from
some node, never with another exception, and yields every node if it ends normally. -/
theorem all_pairs_bellman_ford_yields (h : G.WF) (hsym : G.directed = false → G.Symm) {iso : Option α}
    (hiso : IsoValid G iso) (fdiv : α → α → Int) (chunksize : Option Int) :
    let g := nxAllPairsBF G iso fdiv chunksize
    (∀ x, g.stop = some x ↔ x = .nxUnbounded ∧ ∃ u, G.Node u ∧ NegCycleFrom G.WEdge u) ∧
    (g.items.map Prod.fst).Nodup ∧
    (∀ p ∈ g.items, G.Node p.1 ∧ ¬ NegCycleFrom G.WEdge p.1 ∧
      ∀ v d, G.view p.2 v = some d ↔ IsWDist G.WEdge p.1 d v) ∧
    (g.stop = none → ∀ u, G.Node u → u ∈ g.items.map Prod.fst) ∧
    (∀ c, chunksize = some c → g.items.map Prod.fst <+: G.nodes) := by
  intro g
  -- one source at a time
  have hsrc : ∀ u, G.Node u →
      (NegCycleFrom G.WEdge u ∧ singleSourceBF G iso fdiv u none = .error .unbounded) ∨
      (¬ NegCycleFrom G.WEdge u ∧ ∃ r, singleSourceBF G iso fdiv u none = .ok r) := by
    intro u hu
    rcases single_source_bellman_ford_path_length_correct h hsym hiso fdiv hu with h1 | ⟨h1, r, h2, -⟩
    · exact Or.inl h1
    · exact Or.inr ⟨h1, r, h2⟩
  suffices key : (∀ x, g.stop = some x → x = .nxUnbounded ∧ ∃ u, G.Node u ∧ NegCycleFrom G.WEdge u) ∧
      (g.stop = none → ∀ u, G.Node u → ¬ NegCycleFrom G.WEdge u) ∧
      (g.items.map Prod.fst).Nodup ∧
      (∀ p ∈ g.items, G.Node p.1 ∧ singleSourceBF G iso fdiv p.1 none = .ok p.2) ∧
      (g.stop = none → ∀ u, G.Node u → u ∈ g.items.map Prod.fst) ∧
      (∀ c, chunksize = some c → g.items.map Prod.fst <+: G.nodes) by
    obtain ⟨k1, k2, k3, k4, k5, k6⟩ := key
    refine ⟨fun x => ⟨k1 x, ?_⟩, k3, fun p hp => ?_, k5, k6⟩
    · rintro ⟨rfl, u, hu, hn⟩
      cases hg : g.stop with
      | none => exact absurd hn (k2 hg u hu)
      | some x => rw [(k1 x hg).1]
    · obtain ⟨h1, h2⟩ := k4 p hp
      rcases single_source_bellman_ford_path_length_correct h hsym hiso fdiv h1 with ⟨-, h3⟩ | ⟨h3, r, h4, h5⟩
      · rw [h3] at h2; cases h2
      · rw [h4] at h2; cases h2
        exact ⟨h1, h3, h5⟩
  cases chunksize with
  | none =>
    choose key hkey using h.exists_key
    have e : g = (match tryExcept [(.unbounded, .nxUnbounded)] (bellmanFordPathLengths G iso (fun i => i)) with
      | .error e => ⟨[], some e⟩
      | .ok D => genRows G D) := rfl
    rcases bellman_ford_path_lengths_batch h hsym hiso fdiv key (fun i => i) hkey with ⟨⟨r, hr⟩, hb⟩ | ⟨hn, D, hb, hD⟩
    · have e' : g = ⟨[], some .nxUnbounded⟩ := by rw [e, hb]; rfl
      rw [e']
      refine ⟨?_, ?_, by simp, by simp, ?_, by simp⟩
      · intro x hx; cases hx; exact ⟨rfl, key r, (hkey r).node, hr⟩
      · intro hx; cases hx
      · intro hx; cases hx
    · have e' : g = genRows G D := by rw [e, hb]; rfl
      have hdiag : ∀ i, ∃ j, (D i j).isSome := by
        intro i
        rcases single_source_bellman_ford_path_length_correct h hsym hiso fdiv (hkey i).node with ⟨h3, -⟩ | ⟨h3, r, h4, h5⟩
        · exact absurd h3 (hn i)
        · rw [hD i] at h4; cases h4
          refine ⟨i, ?_⟩
          have := (h5 (key i) 0).2 ⟨⟨0, .nil _⟩, fun k c hw => by
            by_contra hc
            exact h3 ⟨key i, ⟨0, 0, .nil _⟩, k, c, hw, not_le.1 hc⟩⟩
          rw [view_at h (hkey i)] at this
          rw [this]; rfl
      obtain ⟨g1, g2, g3, g4⟩ := genRows_spec h D hdiag
      rw [e']
      refine ⟨fun x hx => (by rw [g1] at hx; cases hx), fun _ u hu => ?_, g2, fun p hp => ?_, fun _ => g4, by simp⟩
      · obtain ⟨i, hi⟩ := hu.exists_id h
        rw [← At.key_unique h (hkey i) hi]; exact hn i
      · obtain ⟨i, hi, e⟩ := g3 p hp
        refine ⟨hi.node, ?_⟩
        rw [e, ← At.key_unique h (hkey i) hi]; exact hD i
  | some cs =>
    by_cases hcs : cs < 2
    · have e : g = genFor (fun source => (tryExcept [(.unbounded, .nxUnbounded)]
          (singleSourceBF G iso fdiv source none)).map fun d => [(source, d)]) (G.keyToId.map Prod.fst) := by
        show nxAllPairsBF G iso fdiv (some cs) = _
        unfold nxAllPairsBF
        simp only
        rw [if_pos hcs]
      have hk := genFor_keys (Prod.fst : K × Vec G.n α → K) (fun u : K => [u]) (xs := G.keyToId.map Prod.fst)
        (f := fun source => (tryExcept [(.unbounded, .nxUnbounded)]
          (singleSourceBF G iso fdiv source none)).map fun d => [(source, d)]) (by
          intro u hu l hl
          rcases hsrc u hu with ⟨-, h1⟩ | ⟨-, r, h1⟩
          · rw [h1] at hl; cases hl
          · rw [h1] at hl; cases hl; rfl)
      rw [← e, List.flatMap_singleton'] at hk
      refine ⟨fun x hx => ?_, fun hx u hu => ?_, hk.1.sublist.nodup h.keys_nodup, fun p hp => ?_,
        fun hx u hu => by rw [hk.2 hx]; exact hu, fun _ _ => hk.1⟩
      · rw [e] at hx
        obtain ⟨u, hu, h1⟩ := genFor_stop hx
        rcases hsrc u hu with ⟨h2, h3⟩ | ⟨-, r, h3⟩
        · rw [h3] at h1; cases h1; exact ⟨rfl, u, hu, h2⟩
        · rw [h3] at h1; cases h1
      · rw [e] at hx
        obtain ⟨l, hl⟩ := genFor_done hx u hu
        rcases hsrc u hu with ⟨-, h3⟩ | ⟨h2, -⟩
        · rw [h3] at hl; cases hl
        · exact h2
      · rw [e] at hp
        obtain ⟨u, hu, l, h1, h2⟩ := genFor_item hp
        rcases hsrc u hu with ⟨-, h3⟩ | ⟨-, r, h3⟩
        · rw [h3] at h1; cases h1
        · rw [h3] at h1; cases h1
          rw [List.mem_singleton] at h2
          subst h2
          exact ⟨hu, h3⟩
    · obtain ⟨ps, hp, hflat, -⟩ := partition_correct cs (G.keyToId.map Prod.fst) true (by omega)
      have e : g = genFor (fun p => tryExcept [(.unbounded, .nxUnbounded)] (bfPiece G iso p)) (ps.map .chunk) := by
        show nxAllPairsBF G iso fdiv (some cs) = _
        unfold nxAllPairsBF
        simp only
        rw [if_neg hcs, hp]
      have hn : ∀ nodes ∈ ps, ∀ u ∈ nodes, G.Node u := by
        intro nodes hmem u hu
        show u ∈ G.keyToId.map Prod.fst
        rw [← hflat]
        exact List.mem_flatten.2 ⟨nodes, hmem, hu⟩
      have hpiece : ∀ nodes ∈ ps,
          ((∃ u ∈ nodes, NegCycleFrom G.WEdge u) ∧ bfPiece G iso (.chunk nodes) = .error .unbounded) ∨
          ((∀ u ∈ nodes, ¬ NegCycleFrom G.WEdge u) ∧
            ∃ L, bfPiece G iso (.chunk nodes) = .ok L ∧ L.map Prod.fst = nodes ∧
            ∀ q ∈ L, G.Node q.1 ∧ singleSourceBF G iso fdiv q.1 none = .ok q.2) := by
        intro nodes hmem
        obtain ⟨ids, hids, hf⟩ := Bfs.listToIds_ok h (hn nodes hmem)
        have hlen := hf.length_eq
        have hat : ∀ r : Fin ids.length, G.At (nodes[r.val]'(by omega)) (ids.get r) := fun r =>
          (List.forall₂_iff_get.1 hf).2 r (by omega) r.2
        rcases bellman_ford_path_lengths_batch h hsym hiso fdiv (fun r : Fin ids.length => nodes[r.val]'(by omega))
          (fun r => ids.get r) hat with ⟨⟨r, hr⟩, hb⟩ | ⟨hno, D, hb, hD⟩
        · refine Or.inl ⟨⟨_, List.getElem_mem _, hr⟩, ?_⟩
          unfold bfPiece
          simp only
          rw [hids]
          simp only [bind, Except.bind]
          rw [hb]
        · obtain ⟨z1, z2⟩ := zip_rows nodes hlen D
          refine Or.inr ⟨fun u hu => ?_, _, ?_, z1, ?_⟩
          · obtain ⟨r, hr, rfl⟩ := List.getElem_of_mem hu
            exact hno ⟨r, by omega⟩
          · unfold bfPiece
            simp only
            rw [hids]
            simp only [bind, Except.bind]
            rw [hb]; rfl
          · intro q hq
            obtain ⟨r, rfl⟩ := z2 q hq
            exact ⟨hn nodes hmem _ (List.getElem_mem _), hD r⟩
      have hk := genFor_keys (Prod.fst : K × Vec G.n α → K)
        (fun p : Piece K => match p with | .chunk l => l | .elem _ => []) (xs := ps.map .chunk)
        (f := fun p => tryExcept [(.unbounded, .nxUnbounded)] (bfPiece G iso p)) (by
          intro p hmem l hl
          obtain ⟨nodes, hmem', rfl⟩ := List.mem_map.1 hmem
          rcases hpiece nodes hmem' with ⟨-, h1⟩ | ⟨-, L, hL, h1, -⟩
          · rw [h1] at hl; cases hl
          · rw [hL] at hl; cases hl; exact h1)
      rw [← e, List.flatMap_map] at hk
      simp only [List.flatMap_id'] at hk
      rw [hflat] at hk
      refine ⟨fun x hx => ?_, fun hx u hu => ?_, hk.1.sublist.nodup h.keys_nodup, fun p hp => ?_,
        fun hx u hu => by rw [hk.2 hx]; exact hu, fun _ _ => hk.1⟩
      · rw [e] at hx
        obtain ⟨p, hmem, h1⟩ := genFor_stop hx
        obtain ⟨nodes, hmem', rfl⟩ := List.mem_map.1 hmem
        rcases hpiece nodes hmem' with ⟨⟨u, hu, h2⟩, h3⟩ | ⟨-, L, hL, -⟩
        · rw [h3] at h1; cases h1; exact ⟨rfl, u, hn nodes hmem' u hu, h2⟩
        · rw [hL] at h1; cases h1
      · rw [e] at hx
        have hu' : u ∈ G.keyToId.map Prod.fst := hu
        rw [← hflat] at hu'
        obtain ⟨nodes, hmem, hun⟩ := List.mem_flatten.1 hu'
        obtain ⟨l, hl⟩ := genFor_done hx (.chunk nodes) (List.mem_map.2 ⟨nodes, hmem, rfl⟩)
        rcases hpiece nodes hmem with ⟨-, h3⟩ | ⟨h2, -⟩
        · rw [h3] at hl; cases hl
        · exact h2 u hun
      · rw [e] at hp
        obtain ⟨x, hmem, l, h1, h2⟩ := genFor_item hp
        obtain ⟨nodes, hmem', rfl⟩ := List.mem_map.1 hmem
        rcases hpiece nodes hmem' with ⟨-, h3⟩ | ⟨-, L, hL, -, h3⟩
        · rw [h3] at h1; cases h1
        · rw [hL] at h1; cases h1
          exact h3 p h2

/-- **C104, finding.** `bellman_ford_path` and `bellman_ford_path_length` never raise NetworkXUnbounded: the exception of
the implementation, which is no NetworkX exception, reaches the caller instead.  It does: see the examples. -/
theorem unbounded_not_translated (G : Graph K α) (iso : Option α) (s t : K) :
    nxBellmanFordPath G iso s t ≠ .error .nxUnbounded ∧
    nxBellmanFordPathLength G iso s t ≠ .error .nxUnbounded ∧
    (bellmanFordPath G iso s t = .error .unbounded ↔ nxBellmanFordPath G iso s t = .error (.own .unbounded)) ∧
    (bellmanFordPathLength G iso s t = .error .unbounded ↔
      nxBellmanFordPathLength G iso s t = .error (.own .unbounded)) := by
  unfold nxBellmanFordPath nxBellmanFordPathLength
  refine ⟨?_, ?_, ?_, ?_⟩
  · cases bellmanFordPath G iso s t with
    | ok l => intro h; cases h
    | error e => cases e <;> intro h <;> cases h
  · cases bellmanFordPathLength G iso s t with
    | ok l => intro h; cases h
    | error e => cases e <;> intro h <;> cases h
  · cases bellmanFordPath G iso s t with
    | ok l => constructor <;> intro h <;> cases h
    | error e => cases e <;> constructor <;> intro h <;> first | rfl | cases h
  · cases bellmanFordPathLength G iso s t with
    | ok l => constructor <;> intro h <;> cases h
    | error e => cases e <;> constructor <;> intro h <;> first | rfl | cases h

/-- **C104, finding.** For an unreachable target `bellman_ford_path_length` raises NetworkXNoPath, as documented, but
`bellman_ford_path` returns the empty list. -/
theorem no_path_not_raised (h : G.WF) (hsym : G.directed = false → G.Symm) {s t : K} (hs : G.Node s) (ht : G.Node t)
    (hno : ¬ NegCycleFrom G.WEdge s) (hr : ¬ WReach G.WEdge s t) :
    nxBellmanFordPath G none s t = .ok [] ∧ nxBellmanFordPathLength G none s t = .error .nxNoPath := by
  constructor
  · unfold nxBellmanFordPath
    rcases bellman_ford_path_exact h hs ht hno with ⟨-, e⟩ | ⟨l, ⟨h1, h2, c, h3, h4⟩, -⟩
    · rw [e]; rfl
    · obtain ⟨⟨k, hk⟩, -⟩ := h4
      exact absurd ⟨k, c, hk⟩ hr
  · exact ((bellman_ford_path_length_raises_partial h hsym (iso := none) (by intro c hc; cases hc) s t).2.1 hs ht hno
      .nxNoPath).2 ⟨rfl, hr⟩

/-- **C104 (partial).** `floyd_warshall_numpy` accepts exactly the lists of all nodes without repeats; it raises
NetworkXError exactly if the length is wrong or a node is repeated.  Missing: a list of the right length without
repeats that holds something else than a node raises KeyError, where NetworkX documents NetworkXError. -/
theorem floyd_warshall_numpy_raises_partial (h : G.WF) (choose : α → α → α) (l : List K) (x : Exc) :
    (∀ y, nxFloydWarshallNumpy G choose none ≠ .error y) ∧
    (nxFloydWarshallNumpy G choose (some l) = .error x ↔
      (x = .nxError ∧ ¬ (l.Nodup ∧ l.length = G.nodes.length)) ∨
      (x = .own .keyError ∧ (l.Nodup ∧ l.length = G.nodes.length) ∧ ∃ u ∈ l, ¬ G.Node u)) := by
  have hlen : G.nodes.length = G.n := nodes_length h
  refine ⟨fun y hy => (by cases hy), ?_⟩
  have hcond : (l.length = G.len ∧ G.len = l.dedup.length) ↔ (l.Nodup ∧ l.length = G.nodes.length) := by
    rw [hlen]
    show (l.length = G.n ∧ G.n = l.dedup.length) ↔ _
    constructor
    · rintro ⟨h1, h2⟩
      refine ⟨?_, h1⟩
      rw [← List.dedup_eq_self]
      exact (List.dedup_sublist l).eq_of_length (by omega)
    · rintro ⟨h1, h2⟩
      exact ⟨h2, by rw [h1.dedup, h2]⟩
  unfold nxFloydWarshallNumpy floydWarshallNumpy
  simp only
  by_cases hc : l.length = G.len ∧ G.len = l.dedup.length
  · rw [if_neg (not_not.2 hc)]
    have hc' := hcond.1 hc
    by_cases hn : ∃ u ∈ l, ¬ G.Node u
    · obtain ⟨u, hu, hun⟩ := hn
      rw [listToIds_error h hu hun]
      constructor
      · intro h'; cases h'; exact Or.inr ⟨rfl, hc', u, hu, hun⟩
      · rintro (⟨-, h'⟩ | ⟨rfl, -⟩)
        · exact absurd hc' h'
        · rfl
    · obtain ⟨ids, hids, hf⟩ := Bfs.listToIds_ok h (by push Not at hn; exact hn)
      rw [hids]
      simp only [bind, Except.bind]
      rw [dif_pos (by rw [← hf.length_eq, hc'.2, hlen])]
      constructor
      · intro h'; cases h'
      · rintro (⟨-, h'⟩ | ⟨-, -, h'⟩)
        · exact absurd hc' h'
        · exact absurd h' hn
  · rw [if_pos hc]
    constructor
    · intro h'; cases h'; exact Or.inl ⟨rfl, fun h' => hc (hcond.2 h')⟩
    · rintro (⟨rfl, -⟩ | ⟨-, h', -⟩)
      · rfl
      · exact absurd (hcond.2 h') hc

end weighted

/-! ## Reciprocity and operators -/

theorem outDeg_zero {u : K} : outDeg G.nodes G.Edge u = 0 ↔ ∀ v, ¬ G.Edge u v := by
  unfold outDeg countOf
  rw [List.countP_eq_zero]
  simp only [decide_eq_true_eq]
  exact ⟨fun h' v he => h' v he.node_right he, fun h' v _ => h' v⟩

theorem inDeg_zero {u : K} : inDeg G.nodes G.Edge u = 0 ↔ ∀ v, ¬ G.Edge v u := by
  unfold inDeg countOf
  rw [List.countP_eq_zero]
  simp only [decide_eq_true_eq]
  exact ⟨fun h' v he => h' v he.node_left he, fun h' v _ => h' v⟩

theorem edgeCount_zero : edgeCount G.nodes G.Edge = 0 ↔ ¬ ∃ u v, G.Edge u v := by
  unfold edgeCount sumOver
  rw [List.sum_eq_zero_iff]
  constructor
  · rintro h' ⟨u, v, he⟩
    exact outDeg_zero.1 (h' _ (List.mem_map.2 ⟨u, he.node_left, rfl⟩)) v he
  · intro h' x hx
    obtain ⟨u, -, rfl⟩ := List.mem_map.1 hx
    exact outDeg_zero.2 fun v he => h' ⟨u, v, he⟩

theorem degs_zero {u : K} : outDeg G.nodes G.Edge u + inDeg G.nodes G.Edge u = 0 ↔
    ∀ v, ¬ G.Edge u v ∧ ¬ G.Edge v u := by
  rw [Nat.add_eq_zero_iff, outDeg_zero, inDeg_zero]
  exact ⟨fun h' v => ⟨h'.1 v, h'.2 v⟩, fun h' => ⟨fun v => (h' v).1, fun v => (h' v).2⟩⟩

/-- **C104.** `overall_reciprocity` of a directed graph raises NetworkXError exactly if the graph has no edges,
`reciprocity(G, node)` exactly if the node has no edges; of an undirected graph both raise NetworkXNotImplemented. -/
theorem reciprocity_raises (h : G.WF) (x : Exc) :
    (G.directed = true → (nxOverallReciprocity G = .error x ↔ x = .nxError ∧ ¬ ∃ u v, G.Edge u v)) ∧
    (∀ u, G.directed = true → G.Node u →
      (nxReciprocityNode G u = .error x ↔ x = .nxError ∧ ∀ v, ¬ G.Edge u v ∧ ¬ G.Edge v u)) ∧
    (G.directed = false → (nxOverallReciprocity G = .error x ↔ x = .own .notImplemented) ∧
      ∀ u, nxReciprocityNode G u = .error x ↔ x = .own .notImplemented) := by
  refine ⟨fun hd => raises_iff (fun hs => ?_) (fun hs => ?_) x, fun u hd hu =>
    raises_iff (fun hs => ?_) (fun hs => ?_) x, fun hd => ⟨?_, fun u => ?_⟩⟩
  · unfold nxOverallReciprocity
    rw [overall_reciprocity_correct h hd, if_pos (edgeCount_zero.2 hs)]; rfl
  · unfold nxOverallReciprocity
    rw [overall_reciprocity_correct h hd, if_neg (mt edgeCount_zero.1 hs)]; exact ⟨_, rfl⟩
  · unfold nxReciprocityNode
    rw [reciprocity_node_correct h hd hu, if_neg (not_not.2 (degs_zero.2 hs))]; rfl
  · unfold nxReciprocityNode
    rw [reciprocity_node_correct h hd hu, if_pos (mt degs_zero.1 hs)]; exact ⟨_, rfl⟩
  · unfold nxOverallReciprocity overallReciprocity
    rw [if_pos hd]
    constructor
    · intro h'; cases h'; rfl
    · rintro rfl; rfl
  · unfold nxReciprocityNode reciprocityNode
    rw [if_pos hd]
    constructor
    · intro h'; cases h'; rfl
    · rintro rfl; rfl

theorem operator_none {r : Except Err (Graph K α)} (h : raised r = none) (x : Exc) : nxOperator r ≠ .error x := by
  unfold nxOperator
  cases r with
  | ok g => intro h'; cases h'
  | error e => cases h

theorem operator_some {r : Except Err (Graph K α)} {e : Err} (h : raised r = some e) (x : Exc) :
    nxOperator r = .error x ↔ x = translate [(.algorithmException, .nxError)] e := by
  unfold nxOperator
  cases r with
  | ok g => cases h
  | error e' =>
    cases h
    constructor
    · intro h'; cases h'; rfl
    · rintro rfl; rfl

theorem operator_if {r : Except Err (Graph K α)} {P : Prop} [Decidable P]
    (h : raised r = if P then some .algorithm else none) (x : Exc) : nxOperator r = .error x ↔ x = .nxError ∧ P := by
  by_cases hp : P
  · rw [if_pos hp] at h
    rw [operator_some h]
    exact ⟨fun h' => ⟨h', hp⟩, fun h' => h'.1⟩
  · rw [if_neg hp] at h
    exact ⟨fun h' => absurd h' (operator_none h x), fun h' => absurd h'.2 hp⟩

open Classical in
/-- **C104.** The binary operators on two graphs: `union` and `full_join` raise NetworkXError exactly if they share a node,
`difference` and `symmetric_difference` exactly if their nodes differ, `disjoint_union`, `intersection` and `compose`
never raise. -/
theorem graph_operators_raise {H : Graph K α} (hG : G.WF) (hH : H.WF) (h1 : G.multi = false) (h2 : H.multi = false)
    (one : α) (x : Exc) :
    (nxOperator (Model.union G H) = .error x ↔ x = .nxError ∧ ∃ u, G.Node u ∧ H.Node u) ∧
    (nxOperator (fullJoin one G H) = .error x ↔ x = .nxError ∧ ∃ u, G.Node u ∧ H.Node u) ∧
    (nxOperator (Model.difference one G H) = .error x ↔ x = .nxError ∧ ¬ ∀ u, G.Node u ↔ H.Node u) ∧
    (nxOperator (Model.symmetricDifference one G H) = .error x ↔ x = .nxError ∧ ¬ ∀ u, G.Node u ↔ H.Node u) ∧
    (∀ y, nxOperator (disjointUnion G H) ≠ .error y) ∧ (∀ y, nxOperator (Model.intersection one G H) ≠ .error y) ∧
    (∀ y, nxOperator (compose G H) ≠ .error y) := by
  obtain ⟨r1, r2, r3, r4, r5, r6, r7⟩ := operators_raise hG hH h1 h2 one
  refine ⟨operator_if r1 x, operator_if r2 x, ?_, ?_, fun y => operator_none r5 y, fun y => operator_none r6 y,
    fun y => operator_none r7 y⟩
  · refine operator_if (r3.trans ?_) x
    by_cases hp : ∀ u, G.Node u ↔ H.Node u
    · rw [if_pos hp, if_neg (not_not.2 hp)]
    · rw [if_neg hp, if_pos hp]
  · refine operator_if (r4.trans ?_) x
    by_cases hp : ∀ u, G.Node u ↔ H.Node u
    · rw [if_pos hp, if_neg (not_not.2 hp)]
    · rw [if_neg hp, if_pos hp]

/-- what callers of the binary operators see when they pass multigraphs -/
structure MultiRaise {b : Type} (op : Graph K α → Graph K α → Except Exc b) : Prop where
  mixed : ∀ G H : Graph K α, G.multi ≠ H.multi → op G H = .error .nxError
  both : ∀ G H : Graph K α, G.multi = true → H.multi = true → op G H = .error (.own .notImplemented)

theorem multi_operator {L : Type} {op : Graph K α → Graph K α → Except Err (Graph L α)}
    (h : MultiRule fun G H => raised (op G H)) : MultiRaise fun G H => nxOperator (op G H) where
  mixed G H hm := by
    have := h.mixed G H hm
    show nxOperator (op G H) = _
    cases hr : op G H with
    | ok g => simp only [hr] at this; cases this
    | error e => simp only [hr] at this; cases this; rfl
  both G H hg hh := by
    have := h.both G H hg hh
    show nxOperator (op G H) = _
    cases hr : op G H with
    | ok g => simp only [hr] at this; cases this
    | error e => simp only [hr] at this; cases this; rfl

/-- **C104.** Every binary operator raises NetworkXError on a graph and a multigraph; on two multigraphs all of them raise
NotImplementedError (which is no NetworkX exception), whatever they contain. -/
theorem operators_raise_on_multigraphs (one : α) :
    MultiRaise (fun G H : Graph K α => nxOperator (Model.union G H)) ∧
    MultiRaise (fun G H : Graph K α => nxOperator (disjointUnion G H)) ∧
    MultiRaise (fun G H : Graph K α => nxOperator (Model.intersection one G H)) ∧
    MultiRaise (fun G H : Graph K α => nxOperator (Model.difference one G H)) ∧
    MultiRaise (fun G H : Graph K α => nxOperator (Model.symmetricDifference one G H)) ∧
    MultiRaise (fun G H : Graph K α => nxOperator (compose G H)) ∧
    MultiRaise (fun G H : Graph K α => nxOperator (fullJoin one G H)) := by
  obtain ⟨r1, r2, r3, r4, r5, r6, r7⟩ := operators_reject_multigraphs (K := K) (α := α) one
  exact ⟨multi_operator r1, multi_operator r2, multi_operator r3, multi_operator r4, multi_operator r5,
    multi_operator r6, multi_operator r7⟩

omit [DecidableEq K] in
/-- **C104.** `reverse` raises NetworkXError exactly for undirected graphs. -/
theorem reverse_raises (G : Graph K α) (x : Exc) :
    nxReverse G = .error x ↔ x = .nxError ∧ G.directed = false := by
  refine raises_iff (fun hs => ?_) (fun hs => ?_) x
  · unfold nxReverse reverse; rw [hs]; rfl
  · rw [Bool.not_eq_false] at hs
    unfold nxReverse reverse; rw [hs]; exact ⟨_, rfl⟩

/-! ## Power iterations -/

section numeric
open Proofs.Power
variable {F : Type} [Field F] [LinearOrder F] [IsStrictOrderedRing F] {G : Graph K F}

/-- **C104.** `pagerank` with valid arguments on a graph with edges raises PowerIterationFailedConvergence exactly if none
of the first `max_iter` steps meets the tolerance, and nothing else. -/
theorem pagerank_raises (h : G.WF) (hE : ∃ u v, G.Edge u v) {iso : Option F}
    {pers nstart dangling : Option (List (K × F))} (ha : PRArgs G iso pers nstart dangling)
    (alpha : F) (maxIter : Int) (tol : F) (x : Exc) :
    nxPagerank G iso alpha pers maxIter tol nstart dangling = .error x ↔
      x = .nxPowerIter ∧ ∀ j : Nat, (j : Int) < maxIter →
        ¬ l1 G.nodes ((prT G alpha pers dangling)^[j] (prStart G nstart))
          ((prT G alpha pers dangling)^[j + 1] (prStart G nstart)) < G.nodes.length * tol := by
  have hc := (pagerank_correct h hE ha alpha maxIter tol).2
  refine raises_iff (fun hs => ?_) (fun hs => ?_) x
  · unfold nxPagerank
    rw [(hc .convergence).2 ⟨rfl, hs⟩]; rfl
  · unfold nxPagerank
    cases hr : pagerank G iso alpha pers maxIter tol nstart dangling with
    | ok v => exact ⟨_, rfl⟩
    | error e => exact absurd ((hc e).1 hr).2 hs

/-- **C104.** The same for `katz_centrality`. -/
theorem katz_raises (h : G.WF) {fill : Bool} {iso : Option F}
    {beta : F ⊕ List (K × F)} {nstart : Option (List (K × F))} (ha : KatzArgs G fill iso beta nstart)
    (sqrt : F → F) (alpha : F) (maxIter : Int) (tol : F) (normalized : Bool) (x : Exc) :
    nxKatz fill sqrt G iso alpha beta maxIter tol nstart normalized = .error x ↔
      x = .nxPowerIter ∧ ∀ k : Nat, (k : Int) < maxIter →
        ¬ FirstConverged G.nodes tol (katzMap G.nodes G.weight? alpha (betaOf beta)) (katzStart nstart) k := by
  have hc := (katz_correct h ha sqrt alpha maxIter tol normalized).2
  refine raises_iff (fun hs => ?_) (fun hs => ?_) x
  · unfold nxKatz
    rw [(hc .convergence).2 ⟨rfl, hs⟩]; rfl
  · unfold nxKatz
    cases hr : katzCentrality fill sqrt G iso alpha beta maxIter tol nstart normalized with
    | ok v => exact ⟨_, rfl⟩
    | error e => exact absurd ((hc e).1 hr).2 hs

/-- **C104.** `eigenvector_centrality`: NetworkXPointlessConcept on the null graph, PowerIterationFailedConvergence exactly
if no step meets the tolerance, nothing else. -/
theorem eigenvector_raises (h : G.WF) (hm : G.multi = false) {nstart : Option (List (K × F))}
    (hs : ∀ l, nstart = some l → ValidDict G l ∧ sumOver G.nodes (valueIn l) ≠ 0)
    (sqrt : F → F) (maxIter : Int) (tol : F) (x : Exc) :
    nxEigenvector sqrt G maxIter tol nstart = .error x ↔
      (x = .nxPointless ∧ G.nodes = []) ∨
      (x = .nxPowerIter ∧ G.nodes ≠ [] ∧ ∀ k : Nat, (k : Int) < maxIter →
        ¬ FirstConverged G.nodes tol (eigMap sqrt G.nodes G.weight?) (prStart G nstart) k) := by
  have hlen : G.n = 0 ↔ G.nodes = [] := by
    rw [← List.length_eq_zero_iff, nodes_length h]
  unfold nxEigenvector
  rw [hm]
  simp only [Bool.false_eq_true, if_false]
  by_cases hn : G.nodes = []
  · rw [if_pos (hlen.2 hn)]
    constructor
    · intro h'; cases h'; exact Or.inl ⟨rfl, hn⟩
    · rintro (⟨rfl, -⟩ | ⟨-, h', -⟩)
      · rfl
      · exact absurd hn h'
  · rw [if_neg (mt hlen.1 hn)]
    have hc := (eigenvector_correct h hm hn hs sqrt maxIter tol).2
    cases hr : eigenvectorCentrality sqrt G maxIter tol nstart with
    | ok v =>
      constructor
      · intro h'; cases h'
      · rintro (⟨-, h'⟩ | ⟨-, -, h'⟩)
        · exact absurd h' hn
        · have := (hc .convergence).2 ⟨rfl, h'⟩
          rw [hr] at this; cases this
    | error e =>
      obtain ⟨rfl, he⟩ := (hc e).1 hr
      constructor
      · intro h'; cases h'; exact Or.inr ⟨rfl, hn, he⟩
      · rintro (⟨-, h'⟩ | ⟨rfl, -⟩)
        · exact absurd h' hn
        · rfl

/-- **C104.** `hits` raises ValueError if `max_iter < 1`, ArpackNoConvergence exactly if no step meets the tolerance,
nothing else. -/
theorem hits_raises (h : G.WF) (hne : G.nodes ≠ [])
    (hw : ∀ u v a, G.WEdge u v a → 0 ≤ a) {nstart : Option (List (K × F))}
    (hs : ∀ l, nstart = some l → ValidDict G l ∧ sumOver G.nodes (valueIn l) ≠ 0 ∧
      ∀ k b, (k, b) ∈ l → 0 ≤ b)
    (maxIter : Int) (tol : F) (normalized : Bool) (x : Exc) :
    nxHits G maxIter tol nstart normalized = .error x ↔
      (x = .own .valueError ∧ maxIter < 1) ∨
      (x = .arpack ∧ 1 ≤ maxIter ∧ ∀ k : Nat, (k : Int) < maxIter →
        ¬ FirstConverged G.nodes tol (hubMap G.nodes G.weight?) (prStart G nstart) k) := by
  have hc := (hits_correct h hne hw hs maxIter tol normalized).2
  unfold nxHits
  cases hr : hits G maxIter tol nstart normalized with
  | ok v =>
    constructor
    · intro h'; cases h'
    · rintro (⟨-, h'⟩ | ⟨-, h1, h'⟩)
      · have := (hc .valueError).2 ⟨by rw [if_pos h'], fun k hk => by omega⟩
        rw [hr] at this; cases this
      · have := (hc .convergence).2 ⟨by rw [if_neg (by omega)], h'⟩
        rw [hr] at this; cases this
  | error e =>
    obtain ⟨he1, he2⟩ := (hc e).1 hr
    by_cases hm : maxIter < 1
    · rw [if_pos hm] at he1
      subst he1
      constructor
      · intro h'; cases h'; exact Or.inl ⟨rfl, hm⟩
      · rintro (⟨rfl, -⟩ | ⟨-, h', -⟩)
        · rfl
        · omega
    · rw [if_neg hm] at he1
      subst he1
      constructor
      · intro h'; cases h'; exact Or.inr ⟨rfl, by omega, he2⟩
      · rintro (⟨-, h'⟩ | ⟨rfl, -⟩)
        · exact absurd h' hm
        · rfl

end numeric

/-! ## Examples -/

/-- the hypotheses hold of concrete graphs, and every exception occurs -/
example : (nxSingleSourceSPL Ex.dg 99 none).toOption = none ∧ nxHasPath Ex.dg 1 99 = .error .nodeNotFound ∧
    (nxDescendants Ex.dg 99).toOption = none := by decide +kernel
example : nxBellmanFordPathLength Ex.neg none 3 4 = .error .nxNoPath := by decide +kernel
example : nxBellmanFordPath Ex.neg none 3 4 = .ok [] := by decide +kernel
example : nxBellmanFordPathLength Ex.farLoop none 0 2 = .error (.own .unbounded) := by decide +kernel
/-- an isolated node before a negative cycle -/
def Ex.late : Graph Nat Int where
  n := 3
  A := Ex.ofTriples 3 [(1,2,10), (2,1,-11)]
  keyToId := [(5,0),(6,1),(7,2)]
  directed := true

example : Ex.late.WF := ⟨by decide, by decide⟩
/-- the generator stops in the middle, and later for smaller chunks -/
example : (nxAllPairsBF Ex.late none (fun x c => x / c) (some 1)).items.map Prod.fst = [5] ∧
    (nxAllPairsBF Ex.late none (fun x c => x / c) (some 1)).stop = some .nxUnbounded ∧
    (nxAllPairsBF Ex.late none (fun x c => x / c) (some 2)).items.map Prod.fst = [] ∧
    (nxAllPairsBF Ex.late none (fun x c => x / c) (some 2)).stop = some .nxUnbounded := by decide +kernel
example : (nxAllPairsBF Ex.missed none (fun x c => x / c) (some 1)).stop = some .nxUnbounded := by decide +kernel
example : (nxAllPairsBF Ex.missed none (fun x c => x / c) none).items.length = 0 := by decide +kernel
example : (nxAllPairsBF Ex.neg none (fun x c => x / c) (some 3)).items.map Prod.fst = [1, 2, 3, 4] := by
  decide +kernel

end Props
