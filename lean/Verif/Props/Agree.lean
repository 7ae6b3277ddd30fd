import Verif.Props.Bfs
import Verif.Props.BellmanFord
import Verif.Props.FloydWarshall
import Verif.Props.Ego
import Verif.Props.Operators
import Verif.Props.OperatorsErr

/-!
# C94–C97 functions of the API agree with each other

The statements mention calls and their results only.
-/

open GB Spec Model Model.Graph

namespace Props

variable {K α : Type} [DecidableEq K] {G : Graph K α}

theorem opt_ext {β : Type} {a b : Option β} (h : ∀ x, a = some x ↔ b = some x) : a = b := by
  cases a with
  | none => cases b with
    | none => rfl
    | some y => exact ((h y).2 rfl).symm ▸ rfl
  | some x => exact ((h x).1 rfl).symm

theorem isSome_congr {β γ : Type} {a : Option β} {b : Option γ} (h : a.isSome = true ↔ b.isSome = true) :
    a.isSome = b.isSome := by
  cases a <;> cases b <;> simp_all

/-! ### C94 hop distances -/

/-- **C94, with a target.** For every target, the length between two nodes, `has_path`, `single_target…` and
`floyd_warshall` without weights say what `single_source_shortest_path_length` says: no entry is NetworkXNoPath. -/
theorem hop_distance_apis_agree (h : G.WF) (hsym : G.directed = false → G.Symm) {s : K} (hs : G.Node s) :
    ∃ r, singleSourceSPL G s none = .ok r ∧ ∀ t, G.Node t →
      bidirectionalSPL G s t = (match G.view r t with | some d => .ok d | none => .error .noPath) ∧
      hasPath G s t = .ok (G.view r t).isSome ∧
      (∃ q, singleTargetSPL G t none = .ok q ∧ G.view q s = G.view r t) ∧
      ∀ choose, G.view2 (fwDist G.directed choose (hopMatrix G.A)) s t = (G.view r t).map Int.ofNat := by
  obtain ⟨r, hr, hv⟩ := single_source_shortest_path_length_correct h hs none (by simp)
  have hv' : ∀ u d, G.view r u = some d ↔ IsDist G.Edge s d u := fun u d => by
    rw [hv]; exact ⟨fun x => x.1, fun x => ⟨x, by simp [Within]⟩⟩
  have hreach : ∀ t, (G.view r t).isSome ↔ Reach G.Edge s t := by
    intro t
    rw [Option.isSome_iff_exists]
    constructor
    · rintro ⟨d, hd⟩; exact ⟨d, ((hv' _ _).1 hd).1⟩
    · rintro ⟨k, hk⟩
      obtain ⟨d, -, hd⟩ := Spec.exists_dist hk
      exact ⟨d, (hv' _ _).2 hd⟩
  refine ⟨r, hr, fun t ht => ⟨?_, ?_, ?_, ?_⟩⟩
  · rcases bidirectional_shortest_path_length_correct h hs ht with ⟨d, hd, e⟩ | ⟨hn, e⟩
    · rw [e, (hv' _ _).2 hd]
    · rw [e]
      cases hx : G.view r t with
      | none => rfl
      | some d => exact absurd ((hreach t).1 (by simp [hx])) hn
  · obtain ⟨b, hb, hbr⟩ := has_path_correct h hs ht
    rw [hb]
    congr 1
    rw [Bool.eq_iff_iff, hbr, hreach]
  · obtain ⟨q, hq, hqv⟩ := single_target_shortest_path_length_correct h hsym ht none (by simp)
    refine ⟨q, hq, opt_ext fun d => ?_⟩
    rw [hqv, hv']
    exact ⟨fun x => x.1.2, fun x => ⟨⟨hs, x⟩, by simp [Within]⟩⟩
  · intro choose
    apply opt_ext
    intro d
    rw [floyd_warshall_hops h hsym]
    constructor
    · rintro ⟨-, -, l, rfl, hl⟩
      rw [(hv' _ _).2 hl]; rfl
    · intro e
      rw [Option.map_eq_some_iff] at e
      obtain ⟨l, hl, rfl⟩ := e
      exact ⟨hs, ht, l, rfl, (hv' _ _).1 hl⟩

/-- **C94, as sets.** `descendants`, `node_connected_component`, `bfs_layers` and `descendants_at_distance` are read
off from `single_source_shortest_path_length`; a cutoff keeps exactly the entries within it. -/
theorem hop_distance_sets_agree (h : G.WF) {s : K} (hs : G.Node s) :
    ∃ r, singleSourceSPL G s none = .ok r ∧ G.view r s = some 0 ∧
      (∃ x, descendants G s = .ok x ∧ ∀ u, (G.view x u).isSome ↔ (∃ d, G.view r u = some d ∧ d ≠ 0)) ∧
      (∃ x, nodeConnectedComponent G s = .ok x ∧ ∀ u, (G.view x u).isSome = (G.view r u).isSome) ∧
      (∀ d : Nat, ∃ x, descendantsAtDistance G s d = .ok x ∧
        ∀ u, (G.view x u).isSome ↔ G.view r u = some d) ∧
      (∃ L, bfsLayers G [s] = .ok L ∧
        ∀ (d : Nat) u, G.view r u = some d ↔ ∃ x, L[d]? = some x ∧ (G.view x u).isSome) ∧
      ∀ c : Nat, ∃ q, singleSourceSPL G s (some c) = .ok q ∧
        ∀ u d, G.view q u = some d ↔ G.view r u = some d ∧ d ≤ c := by
  obtain ⟨r, hr, hv⟩ := single_source_shortest_path_length_correct h hs none (by simp)
  have hv' : ∀ u d, G.view r u = some d ↔ IsDist G.Edge s d u := fun u d => by
    rw [hv]; exact ⟨fun x => x.1, fun x => ⟨x, by simp [Within]⟩⟩
  have hreach : ∀ t, (G.view r t).isSome ↔ Reach G.Edge s t := by
    intro t
    rw [Option.isSome_iff_exists]
    constructor
    · rintro ⟨d, hd⟩; exact ⟨d, ((hv' _ _).1 hd).1⟩
    · rintro ⟨k, hk⟩
      obtain ⟨d, -, hd⟩ := Spec.exists_dist hk
      exact ⟨d, (hv' _ _).2 hd⟩
  have h0 : ∀ u, IsDist G.Edge s 0 u ↔ u = s := by
    intro u
    constructor
    · rintro ⟨h1, -⟩; exact (Spec.walk_zero.1 h1).symm
    · rintro rfl; exact ⟨.nil _, fun _ _ => Nat.zero_le _⟩
  refine ⟨r, hr, (hv' _ _).2 ((h0 s).2 rfl), ?_, ?_, ?_, ?_, ?_⟩
  · obtain ⟨x, hx, hxv⟩ := descendants_correct h hs
    refine ⟨x, hx, fun u => ?_⟩
    rw [hxv]
    constructor
    · rintro ⟨hne, hr⟩
      obtain ⟨d, hd⟩ := Option.isSome_iff_exists.1 ((hreach u).2 hr)
      refine ⟨d, hd, fun hz => hne ?_⟩
      subst hz
      exact (h0 u).1 ((hv' _ _).1 hd)
    · rintro ⟨d, hd, hne⟩
      refine ⟨fun e => hne ?_, (hreach u).1 (by simp [hd])⟩
      subst e
      exact Spec.dist_unique ((hv' _ _).1 hd) ((h0 u).2 rfl)
  · obtain ⟨x, hx, hxv⟩ := node_connected_component_correct h hs
    exact ⟨x, hx, fun u => isSome_congr ((hxv u).trans (hreach u).symm)⟩
  · intro d
    obtain ⟨x, hx, hxv⟩ := descendants_at_distance_correct h hs d
    exact ⟨x, hx, fun u => (hxv u).trans (hv' u d).symm⟩
  · obtain ⟨L, hL, h1, h2⟩ := bfs_layers_correct h (sources := [s]) (by simp) (by simpa using hs)
    have hf : ∀ d u, IsDistFrom G.Edge (· ∈ [s]) d u ↔ IsDist G.Edge s d u := by
      intro d u
      rw [Spec.isDist_iff_from]
      simp
    refine ⟨L, hL, fun d u => ?_⟩
    rw [hv', ← hf]
    constructor
    · intro hd
      have hlt := h2 u d hd
      exact ⟨L[d], by simp [hlt], ((h1 d L[d] (by simp [hlt])).1 u).2 hd⟩
    · rintro ⟨x, hx, hxu⟩
      exact ((h1 d x hx).1 u).1 hxu
  · intro c
    obtain ⟨q, hq, hqv⟩ := single_source_shortest_path_length_correct h hs (some (c : Int)) (by simp)
    refine ⟨q, hq, fun u d => ?_⟩
    rw [hqv, hv']
    simp [Within]

/-- **C94, triangle inequality.** `d(s, u) ≤ d(s, t) + d(t, u)`, and the left side exists when the right side does;
on undirected graphs `d(s, t) = d(t, s)`. -/
theorem hop_distance_metric (h : G.WF) (hsym : G.directed = false → G.Symm) {s t : K} (hs : G.Node s) (ht : G.Node t) :
    ∃ rs rt, singleSourceSPL G s none = .ok rs ∧ singleSourceSPL G t none = .ok rt ∧
      (∀ u a b, G.view rs t = some a → G.view rt u = some b → ∃ d, G.view rs u = some d ∧ d ≤ a + b) ∧
      (G.directed = false → G.view rs t = G.view rt s) ∧
      ∀ u v d, G.Edge u v → G.view rs u = some d → ∃ e, G.view rs v = some e ∧ e ≤ d + 1 := by
  obtain ⟨r, hr, hv⟩ := single_source_shortest_path_length_correct h hs none (by simp)
  obtain ⟨q, hq, hw⟩ := single_source_shortest_path_length_correct h ht none (by simp)
  have hW : ∀ d, Within none d := by simp [Within]
  refine ⟨r, q, hr, hq, ?_, ?_, ?_⟩
  · intro u a b ha hb
    have h1 := ((hv _ _).1 ha).1.1
    have h2 := ((hw _ _).1 hb).1.1
    obtain ⟨d, hd, hdd⟩ := Spec.exists_dist (Spec.Walk.append h1 h2)
    exact ⟨d, (hv _ _).2 ⟨hdd, hW _⟩, hd⟩
  · intro hd
    have hE : ∀ a b, G.Edge a b ↔ Rev G.Edge a b := fun a b =>
      ⟨fun e => edge_of_symm (hsym hd) e, fun e => edge_of_symm (hsym hd) e⟩
    apply opt_ext
    intro d
    rw [hv, hw, and_iff_left (hW _), and_iff_left (hW _), Spec.isDist_congr hE]
    unfold IsDist
    simp only [Spec.walk_rev]
  · intro u v d e hd
    obtain ⟨d', h1, h2⟩ := Spec.exists_dist (Spec.Walk.snoc ((hv _ _).1 hd).1.1 e)
    exact ⟨d', (hv _ _).2 ⟨h2, hW _⟩, h1⟩

/-! ### C95 weighted distances -/

section
variable [AddCommGroup α] [LinearOrder α] [IsOrderedAddMonoid α]

omit [IsOrderedAddMonoid α] in
theorem wdist_unique {V : Type} {W : V → V → α → Prop} {u v : V} {a b : α} (h : IsWDist W u a v) (h' : IsWDist W u b v) :
    a = b := by
  obtain ⟨⟨k, hk⟩, h1⟩ := h
  obtain ⟨⟨k', hk'⟩, h2⟩ := h'
  exact le_antisymm (h1 _ _ hk') (h2 _ _ hk)

/-- **C95.** Without negative cycles the three ways to ask for a weighted distance agree. -/
theorem weighted_distance_apis_agree (h : G.WF) (hsym : G.directed = false → G.Symm)
    (hno : ∀ u, G.Node u → ¬ NegCycleAt G.WEdge u) {iso : Option α} (hiso : IsoValid G iso)
    (fdiv : α → α → Int) {s : K} (hs : G.Node s) :
    ∃ r, singleSourceBF G iso fdiv s none = .ok r ∧ ∀ t, G.Node t →
      bellmanFordPathLength G iso s t = (match G.view r t with | some d => .ok d | none => .error .noPath) ∧
      ∀ choose, G.view2 (fwDist G.directed choose G.A) s t = G.view r t := by
  have hno' : ¬ NegCycleFrom G.WEdge s := by
    rintro ⟨x, ⟨k, c, hw⟩, hx⟩
    exact hno x (WWalk_node hs hw) hx
  rcases single_source_bellman_ford_path_length_correct h hsym hiso fdiv hs with ⟨hc, -⟩ | ⟨-, r, hr, hv⟩
  · exact absurd hc hno'
  · refine ⟨r, hr, fun t ht => ⟨?_, fun choose => opt_ext fun d => ?_⟩⟩
    · rcases bellman_ford_path_length_correct_partial h hsym hiso hs ht hno' with ⟨d, hd, e⟩ | ⟨hn, e⟩
      · rw [e, (hv _ _).2 hd]
      · rw [e]
        cases hx : G.view r t with
        | none => rfl
        | some d =>
          obtain ⟨⟨k, hk⟩, -⟩ := (hv _ _).1 hx
          exact absurd ⟨k, d, hk⟩ hn
    · rw [floyd_warshall_correct h hsym hno, hv]
      exact ⟨fun x => x.2.2, fun x => ⟨hs, ht, x⟩⟩

/-- **C95, equal weights.** When all weights are `c ≥ 0`, the weighted distance is `c` times the hop distance. -/
theorem weighted_distance_equal_weights (h : G.WF) (hsym : G.directed = false → G.Symm) {c : α} (hc : 0 ≤ c)
    (hw : ∀ u v w, G.WEdge u v w → w = c) {iso : Option α} (hiso : IsoValid G iso)
    (fdiv : α → α → Int) {s : K} (hs : G.Node s) :
    ∃ r q, singleSourceBF G iso fdiv s none = .ok r ∧ singleSourceSPL G s none = .ok q ∧
      ∀ t, G.view r t = (G.view q t).map fun d => d • c := by
  have hwalk : ∀ {k : Nat} {x : α} {u v : K}, WWalk G.WEdge k x u v → x = k • c ∧ Walk G.Edge k u v := by
    intro k x u v hk
    induction hk with
    | nil => exact ⟨by simp, .nil _⟩
    | snoc _ e ih =>
      refine ⟨?_, .snoc ih.2 (edge_iff_wedge.2 ⟨_, e⟩)⟩
      rw [ih.1, hw _ _ _ e, succ_nsmul]
  have hwalk' : ∀ {k : Nat} {u v : K}, Walk G.Edge k u v → WWalk G.WEdge k (k • c) u v := by
    intro k u v hk
    induction hk with
    | nil => simpa using WWalk.nil (W := G.WEdge) _
    | snoc _ e ih =>
      obtain ⟨w, hw'⟩ := edge_iff_wedge.1 e
      rw [succ_nsmul]
      exact .snoc ih (hw _ _ _ hw' ▸ hw')
  have hno : ∀ u, ¬ NegCycleAt G.WEdge u := by
    rintro u ⟨k, x, hk, hx⟩
    rw [(hwalk hk).1] at hx
    exact absurd hx (not_lt.2 (nsmul_nonneg hc k))
  have hno' : ¬ NegCycleFrom G.WEdge s := fun ⟨x, _, hx⟩ => hno x hx
  obtain ⟨q, hq, hqv⟩ := single_source_shortest_path_length_correct h hs none (by simp)
  rcases single_source_bellman_ford_path_length_correct h hsym hiso fdiv hs with ⟨hc', -⟩ | ⟨-, r, hr, hv⟩
  · exact absurd hc' hno'
  · refine ⟨r, q, hr, hq, fun t => opt_ext fun x => ?_⟩
    rw [hv, Option.map_eq_some_iff]
    have key : ∀ l, IsDist G.Edge s l t → IsWDist G.WEdge s (l • c) t := by
      intro l hl
      refine ⟨⟨l, hwalk' hl.1⟩, fun k y hy => ?_⟩
      rw [(hwalk hy).1]
      exact nsmul_le_nsmul_left hc (hl.2 k (hwalk hy).2)
    constructor
    · intro hx
      obtain ⟨k, hk⟩ := hx.1
      obtain ⟨l, -, hl⟩ := Spec.exists_dist (hwalk hk).2
      exact ⟨l, (hqv _ _).2 ⟨hl, by simp [Within]⟩, wdist_unique (key l hl) hx⟩
    · rintro ⟨l, hl, rfl⟩
      exact key l ((hqv _ _).1 hl).1

/-- **C95, triangle inequality** for weighted distances, without negative cycles; and every edge is relaxed. -/
theorem weighted_distance_metric (h : G.WF) (hsym : G.directed = false → G.Symm)
    (hno : ∀ u, G.Node u → ¬ NegCycleAt G.WEdge u) {iso : Option α} (hiso : IsoValid G iso)
    (fdiv : α → α → Int) {s t : K} (hs : G.Node s) (ht : G.Node t) :
    ∃ rs rt, singleSourceBF G iso fdiv s none = .ok rs ∧ singleSourceBF G iso fdiv t none = .ok rt ∧
      G.view rs s = some 0 ∧
      (∀ u a b, G.view rs t = some a → G.view rt u = some b → ∃ d, G.view rs u = some d ∧ d ≤ a + b) ∧
      ∀ u v w d, G.WEdge u v w → G.view rs u = some d → ∃ e, G.view rs v = some e ∧ e ≤ d + w := by
  have hf : ∀ {s}, G.Node s → ¬ NegCycleFrom G.WEdge s := by
    rintro s hs ⟨x, ⟨k, c, hw⟩, hx⟩
    exact hno x (WWalk_node hs hw) hx
  rcases single_source_bellman_ford_path_length_correct h hsym hiso fdiv hs with ⟨hc, -⟩ | ⟨-, r, hr, hv⟩
  · exact absurd hc (hf hs)
  rcases single_source_bellman_ford_path_length_correct h hsym hiso fdiv ht with ⟨hc, -⟩ | ⟨-, q, hq, hw⟩
  · exact absurd hc (hf ht)
  have hfw : ∀ u d, G.Node u → (G.view2 (fwDist G.directed (fun a _ => a) G.A) s u = some d ↔ IsWDist G.WEdge s d u) := by
    intro u d hu
    rw [floyd_warshall_correct h hsym hno]
    exact ⟨fun x => x.2.2, fun x => ⟨hs, hu, x⟩⟩
  -- reachable nodes have a minimum
  have hex : ∀ u k c, WWalk G.WEdge k c s u → ∃ d, G.view r u = some d ∧ d ≤ c := by
    intro u k c hk
    rcases bellman_ford_path_length_correct_partial h hsym hiso hs (WWalk_node hs hk) (hf hs) with ⟨d, hd, -⟩ | ⟨hn, -⟩
    · exact ⟨d, (hv _ _).2 hd, hd.2 _ _ hk⟩
    · exact absurd ⟨k, c, hk⟩ hn
  refine ⟨r, q, hr, hq, ?_, ?_, ?_⟩
  · obtain ⟨d, hd, hle⟩ := hex s 0 0 (.nil s)
    obtain ⟨⟨k, hk⟩, -⟩ := (hv _ _).1 hd
    have : 0 ≤ d := not_lt.1 fun hlt => hno s hs ⟨k, d, hk, hlt⟩
    rw [hd, le_antisymm hle this]
  · intro u a b ha hb
    obtain ⟨⟨k, hk⟩, -⟩ := (hv _ _).1 ha
    obtain ⟨⟨l, hl⟩, -⟩ := (hw _ _).1 hb
    exact hex u _ _ (Spec.WWalk.append hk hl)
  · intro u v w d e hd
    obtain ⟨⟨k, hk⟩, -⟩ := (hv _ _).1 hd
    exact hex v _ _ (.snoc hk e)

end

/-! ### the hypotheses are met -/

example : ∃ r, singleSourceSPL Ex.dg 10 none = .ok r ∧ hasPath Ex.dg 10 30 = .ok (Ex.dg.view r 30).isSome := by
  obtain ⟨r, hr, ht⟩ := hop_distance_apis_agree Ex.dg_wf (fun e => by cases e) (s := 10) (by unfold Graph.Node; decide)
  exact ⟨r, hr, (ht 30 (by unfold Graph.Node; decide)).2.1⟩

example : ∀ u v w, Ex.dg.WEdge u v w → (0 : Int) ≤ w := by
  rintro u v w ⟨i, j, -, -, e⟩
  revert w; revert i j; decide +kernel

end Props
