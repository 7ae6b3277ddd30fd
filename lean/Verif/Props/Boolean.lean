import Verif.Model.Boolean
import Verif.Props.MachinePath

/-!
# C110: Boolean graphs in the weighted shortest-path functions

A stored `True` is an edge of length 1, a stored `False` an edge of length 0; the sums are INT64 and never
overflow, because a GraphBLAS matrix has at most `2^60` rows.
-/

open GB Spec Model Proofs Proofs.BF Proofs.Mach Proofs.Bfs Graph

namespace Spec
/-- the length of a Boolean edge: 1 for `True`, 0 for `False` -/
def BoolLen {V : Type} (E : V → V → Bool → Prop) (u v : V) (x : Int) : Prop :=
  (E u v true ∧ x = 1) ∨ (E u v false ∧ x = 0)
end Spec

namespace Props
variable {K : Type} [DecidableEq K] {G : Graph K Bool}

omit [DecidableEq K] in
theorem int64_wf (h : G.WF) : G.int64.WF := ⟨h.keys_nodup, h.ids_perm⟩

omit [DecidableEq K] in
theorem int64_wedge {u v : K} {w : SInt 64} : G.int64.WEdge u v w ↔ ∃ b, G.WEdge u v b ∧ w = castBool b := by
  constructor
  · rintro ⟨i, j, hi, hj, he⟩
    have he' : (G.A i j).map castBool = some w := he
    obtain ⟨b, hb, rfl⟩ := Option.map_eq_some_iff.1 he'
    exact ⟨b, ⟨i, j, hi, hj, hb⟩, rfl⟩
  · rintro ⟨b, ⟨i, j, hi, hj, hb⟩, rfl⟩
    refine ⟨i, j, hi, hj, ?_⟩
    show (G.A i j).map castBool = _
    rw [hb]; rfl

theorem castBool_toInt (b : Bool) : (castBool b).toInt = if b then 1 else 0 := by cases b <;> decide

omit [DecidableEq K] in
theorem int64_len : IntEdge SInt.toInt G.int64 = BoolLen G.WEdge := by
  funext u v x
  apply propext
  constructor
  · rintro ⟨w, hw, rfl⟩
    obtain ⟨b, hb, rfl⟩ := int64_wedge.1 hw
    rw [castBool_toInt]
    cases b
    · exact Or.inr ⟨hb, rfl⟩
    · exact Or.inl ⟨hb, rfl⟩
  · rintro (⟨hb, rfl⟩ | ⟨hb, rfl⟩)
    · exact ⟨_, int64_wedge.2 ⟨_, hb, rfl⟩, castBool_toInt _⟩
    · exact ⟨_, int64_wedge.2 ⟨_, hb, rfl⟩, castBool_toInt _⟩

omit [DecidableEq K] in
theorem int64_edge : G.int64.Edge = G.Edge := by
  funext u v
  apply propext
  constructor
  · rintro ⟨i, j, hi, hj, he⟩
    exact ⟨i, j, hi, hj, by simpa [Graph.int64, mapply] using he⟩
  · rintro ⟨i, j, hi, hj, he⟩
    exact ⟨i, j, hi, hj, by simpa [Graph.int64, mapply] using he⟩

omit [DecidableEq K] in
theorem int64_symm (hs : G.directed = false → G.Symm) : G.int64.directed = false → G.int64.Symm := by
  intro hd i j
  show (G.A i j).map castBool = (G.A j i).map castBool
  rw [hs hd i j]

omit [DecidableEq K] in
theorem int64_iso {iso : Option Bool} (hi : IsoValid G iso) : IsoValid G.int64 (iso.map castBool) := by
  intro c hc u v w hw
  obtain ⟨b, rfl, rfl⟩ := Option.map_eq_some_iff.1 hc
  obtain ⟨b', hb', rfl⟩ := int64_wedge.1 hw
  rw [hi b rfl u v b' hb']

omit [DecidableEq K] in
theorem int64_bound : ∀ u v w, G.int64.WEdge u v w → 0 ≤ w.toInt ∧ w.toInt ≤ ((1 : Nat) : Int) := by
  intro u v w hw
  obtain ⟨b, -, rfl⟩ := int64_wedge.1 hw
  rw [castBool_toInt]
  cases b <;> simp

omit [DecidableEq K] in
theorem int64_abs : ∀ u v w, G.int64.WEdge u v w → |w.toInt| ≤ ((1 : Nat) : Int) := by
  intro u v w hw
  obtain ⟨h1, h2⟩ := int64_bound u v w hw
  rwa [abs_of_nonneg h1]

theorem boolWalk_nonneg {V : Type} {E : V → V → Bool → Prop} {k : Nat} {c : Int} {u v : V}
    (h : WWalk (BoolLen E) k c u v) : 0 ≤ c := by
  induction h with
  | nil => exact le_refl _
  | snoc _ he ih => rcases he with ⟨-, rfl⟩ | ⟨-, rfl⟩ <;> omega

theorem bool_no_neg {V : Type} {E : V → V → Bool → Prop} (x : V) : ¬ NegCycleAt (BoolLen E) x := by
  rintro ⟨k, c, hw, hc⟩
  have := boolWalk_nonneg hw
  omega

theorem bool_no_neg_from {V : Type} {E : V → V → Bool → Prop} (x : V) : ¬ NegCycleFrom (BoolLen E) x := by
  rintro ⟨y, -, hy⟩
  exact bool_no_neg y hy

/-- reachability along Boolean edges ignores the stored values -/
theorem bool_reach {u v : K} : WReach (BoolLen G.WEdge) u v ↔ ∃ k, Walk G.Edge k u v := by
  constructor
  · rintro ⟨k, c, hw⟩
    refine ⟨k, ?_⟩
    induction hw with
    | nil => exact Walk.nil _
    | snoc _ he ih =>
      refine Walk.snoc ih (edge_iff_wedge.2 ?_)
      rcases he with ⟨he, -⟩ | ⟨he, -⟩
      · exact ⟨_, he⟩
      · exact ⟨_, he⟩
  · rintro ⟨k, hw⟩
    suffices ∃ c, WWalk (BoolLen G.WEdge) k c u v from this.elim fun c h => ⟨k, c, h⟩
    induction hw with
    | nil => exact ⟨0, WWalk.nil _⟩
    | snoc _ he ih =>
      obtain ⟨c, hc⟩ := ih
      obtain ⟨b, hb⟩ := edge_iff_wedge.1 he
      cases b
      · exact ⟨_, WWalk.snoc hc (Or.inr ⟨hb, rfl⟩)⟩
      · exact ⟨_, WWalk.snoc hc (Or.inl ⟨hb, rfl⟩)⟩

omit [DecidableEq K] in
theorem fits64 (hn : G.n ≤ 2 ^ 60) : G.int64.n * 1 < 2 ^ (64 - 1) := by
  show G.n * 1 < _
  have : (2:Nat) ^ 60 < 2 ^ 63 := by norm_num
  omega

/-- **C110**, `single_source_bellman_ford_path_length(G, s)` on a Boolean graph never raises for a node `s`
and gives, for exactly the reachable nodes, the smallest number of `True` edges on a walk from `s`.  The
answer is the exact number although it is computed in INT64, and does not depend on whether SuiteSparse
reports the matrix as iso-valued. -/
theorem bool_single_source_bellman_ford_path_length (h : G.WF) (hsym : G.directed = false → G.Symm)
    (hn : G.n ≤ 2 ^ 60) {iso : Option Bool} (hiso : IsoValid G iso) {s : K} (hs : G.Node s) :
    ∃ r, singleSourceBFB G iso s none = .ok r ∧
      ∀ u d, (G.view r u).map SInt.toInt = some d ↔ IsWDist (BoolLen G.WEdge) s d u := by
  rcases int_single_source_bellman_ford_path_length (b := 64) (by decide) (int64_wf h) (int64_symm hsym)
    (int64_iso hiso) fdiv64 int64_abs (fits64 hn) (s := s) hs with ⟨h1, -⟩ | ⟨-, r, h2, h3⟩
  · rw [int64_len] at h1
    exact absurd h1 (bool_no_neg_from s)
  · rw [int64_len] at h3
    exact ⟨r, h2, h3⟩

/-- **C110**, with a non-negative `cutoff` (not on a matrix reported as iso-valued with value `False`) -/
theorem bool_single_source_bellman_ford_path_length_cutoff (h : G.WF)
    (hn : G.n ≤ 2 ^ 60) {iso : Option Bool} (hiso : IsoValid G iso) (hf : iso ≠ some false) {s : K}
    (hs : G.Node s) {x : SInt 64} (hx : 0 ≤ x.toInt) :
    ∃ r, singleSourceBFB G iso s (some x) = .ok r ∧
      ∀ u d, (G.view r u).map SInt.toInt = some d ↔ IsWDist (BoolLen G.WEdge) s d u ∧ d ≤ x.toInt := by
  obtain ⟨r, h2, h3⟩ := int_single_source_bellman_ford_path_length_cutoff (b := 64) (by decide) (int64_wf h)
    (int64_iso hiso) (by
      rcases iso with _ | b
      · simp
      · cases b
        · exact absurd rfl hf
        · decide) (fd := fdiv64) (fun _ _ => rfl) int64_bound (fits64 hn) (s := s) hs hx (by
      intro c hc
      obtain ⟨b, -, rfl⟩ := Option.map_eq_some_iff.1 hc
      rw [castBool_toInt]; cases b <;> simp)
  rw [int64_len] at h3
  exact ⟨r, h2, h3⟩

omit [DecidableEq K] in
/-- **C110**, the three negativity properties are False on every Boolean graph, as `NONNEGATIVE_DTYPES`
(_caching.py:4, graph.py:134-192) answers without looking at the values -/
theorem bool_negative_flags : hasNegEdgesM G.int64.A = false ∧ hasNegEdgesP G.int64.A = false ∧
    hasNegDiag G.int64.A = false := by
  have hnn : ∀ i j a, G.int64.A i j = some a → ¬ a < 0 := by
    intro i j a ha hlt
    have ha' : (G.A i j).map castBool = some a := ha
    obtain ⟨b, -, rfl⟩ := Option.map_eq_some_iff.1 ha'
    cases b
    · exact absurd hlt (by decide)
    · exact absurd hlt (by decide)
  refine ⟨?_, ?_, ?_⟩
  · by_contra hc
    obtain ⟨i, j, a, ha, hlt⟩ := hasNegEdgesM_iff.1 (Bool.eq_true_of_not_eq_false hc)
    refine hnn i j a ?_ hlt
    unfold GB.offdiag at ha
    split at ha
    · cases ha
    · exact ha
  · by_contra hc
    obtain ⟨i, j, a, ha, hlt⟩ := hasNegEdgesP_iff.1 (Bool.eq_true_of_not_eq_false hc)
    exact hnn i j a ha hlt
  · by_contra hc
    obtain ⟨i, a, ha, hlt⟩ := hasNegDiag_iff.1 (Bool.eq_true_of_not_eq_false hc)
    exact hnn i i a ha hlt

/-- **C110**, the excluded case: on a matrix stored as iso-valued `False` any cutoff raises
ZeroDivisionError (weighted.py:30, `cutoff // iso_value.get()`) -/
theorem bool_single_source_cutoff_all_false (h : G.WF) {s : K} (hs : G.Node s)
    (hiso : IsoValid G (some false)) (x : SInt 64) :
    singleSourceBFB G (some false) s (some x) = .error .zeroDivision := by
  obtain ⟨i, hi⟩ := hs.exists_id h
  have hnn := (bool_negative_flags (G := G)).2.1
  unfold singleSourceBFB singleSourceBF
  have hg : G.int64.getId s = .ok i := (getId_eq_ok (int64_wf h)).2 hi
  rw [hg]
  simp only [bind, Except.bind, Option.map_some, hnn]
  rfl

/-- **C110**, `bellman_ford_path_length(G, s, t)` on a Boolean graph: the smallest number of `True` edges on
a walk, or NetworkXNoPath when there is none -/
theorem bool_bellman_ford_path_length (h : G.WF) (hsym : G.directed = false → G.Symm)
    (hn : G.n ≤ 2 ^ 60) {iso : Option Bool} (hiso : IsoValid G iso) {s t : K} (hs : G.Node s) (ht : G.Node t) :
    (∃ d, IsWDist (BoolLen G.WEdge) s d.toInt t ∧ bellmanFordPathLengthB G iso s t = .ok d) ∨
    ((¬ ∃ k, Walk G.Edge k s t) ∧ bellmanFordPathLengthB G iso s t = .error .noPath) := by
  have := int_bellman_ford_path_length (b := 64) (by decide) (int64_wf h) (int64_symm hsym)
    (int64_iso hiso) int64_abs (fits64 hn) (s := s) (t := t) hs ht (by rw [int64_len]; exact bool_no_neg_from s)
  rw [int64_len, bool_reach] at this
  exact this

/-- **C110**, `bellman_ford_path(G, s, t)` on a Boolean graph: a path with the fewest `True` edges, or the
empty list when there is no path -/
theorem bool_bellman_ford_path (h : G.WF) (hn : G.n ≤ 2 ^ 60) {iso : Option Bool} (hiso : IsoValid G iso)
    {s t : K} (hs : G.Node s) (ht : G.Node t) :
    (∃ l, bellmanFordPathB G iso s t = .ok l ∧ IsShortestPath (BoolLen G.WEdge) s t l ∧ l.Nodup) ∨
    ((¬ ∃ k, Walk G.Edge k s t) ∧ bellmanFordPathB G iso s t = .ok []) := by
  obtain ⟨h1, h2⟩ := int_bellman_ford_path (b := 64) (by decide) (int64_wf h) (int64_iso hiso) int64_abs
    (fits64 hn) (s := s) (t := t) hs ht
  rw [int64_len] at h1
  have hnn : ∀ u v w, BoolLen G.WEdge u v w → 0 ≤ w := by
    rintro u v w (⟨-, rfl⟩ | ⟨-, rfl⟩) <;> decide
  rcases h1 (bool_no_neg_from s) (fun u w => hnn u u w) (fun _ => hnn) with ⟨l, h3, h4⟩ | ⟨h3, h4⟩
  · refine Or.inl ⟨l, h3, h4, ?_⟩
    rcases h2 l h3 with ⟨rfl, -⟩ | ⟨-, -, -, h5⟩
    · exact List.nodup_nil
    · exact h5
  · exact Or.inr ⟨fun hc => h3 (bool_reach.2 hc), h4⟩

/-- **C110**, `all_pairs_bellman_ford_path_length(G, chunksize=)` on a Boolean graph never raises, lists every
node once, whatever the chunk size, and gives the same distances -/
theorem bool_all_pairs (h : G.WF) (hsym : G.directed = false → G.Symm)
    (hn : G.n ≤ 2 ^ 60) {iso : Option Bool} (hiso : IsoValid G iso) (chunksize : Option Int) :
    ∃ L, allPairsBFB G iso chunksize = .ok L ∧ (L.map Prod.fst).Perm G.nodes ∧
      ∀ p ∈ L, ∀ v d, (G.view p.2 v).map SInt.toInt = some d ↔ IsWDist (BoolLen G.WEdge) p.1 d v := by
  rcases int_all_pairs (b := 64) (by decide) (int64_wf h) (int64_symm hsym)
    (int64_iso hiso) fdiv64 int64_abs (fits64 hn) chunksize with ⟨⟨u, -, h1⟩, -⟩ | ⟨-, L, h2, h3, h4⟩
  · rw [int64_len] at h1
    exact absurd h1 (bool_no_neg_from u)
  · rw [int64_len] at h4
    exact ⟨L, h2, h3, h4⟩

/-- **C110**, `negative_edge_cycle(G)` is False on every Boolean graph -/
theorem bool_negative_edge_cycle (h : G.WF) (hsym : G.directed = false → G.Symm) (hn : G.n ≤ 2 ^ 60) :
    negativeEdgeCycleB G = false := by
  by_contra hc
  have hc' : negativeEdgeCycle G.int64 = true := by
    have := Bool.eq_true_of_not_eq_false hc
    exact this
  obtain ⟨u, -, hu⟩ := (int_negative_edge_cycle (b := 64) (by decide) (int64_wf h) (int64_symm hsym) int64_abs
    (fits64 hn)).1 hc'
  rw [int64_len] at hu
  exact bool_no_neg u hu

omit [DecidableEq K] in
theorem fits64' (hn : G.n ≤ 2 ^ 60) : 2 * ((G.int64.n - 1) * 1) < 2 ^ (64 - 1) := by
  show 2 * ((G.n - 1) * 1) < _
  have : (2:Nat) ^ 60 * 2 < 2 ^ 63 := by norm_num
  omega

/-- **C110**, `floyd_warshall(G)` on a Boolean graph -/
theorem bool_floyd_warshall (h : G.WF) (hsym : G.directed = false → G.Symm) (hn : G.n ≤ 2 ^ 60)
    (choose : SInt 64 → SInt 64 → SInt 64) (u v : K) (d : Int) :
    (G.view2 (fwDistB G choose) u v).map SInt.toInt = some d ↔
      G.Node u ∧ G.Node v ∧ IsWDist (BoolLen G.WEdge) u d v := by
  have := int_floyd_warshall (b := 64) (by decide) (int64_wf h) (int64_symm hsym) int64_abs (fits64' hn)
    (by rw [int64_len]; exact fun u _ => bool_no_neg u) choose u v d
  rw [int64_len] at this
  exact this

/-- **C110**, `floyd_warshall_predecessor_and_distance(G)` on a directed Boolean graph: the same distances,
and the predecessor of `v` on row `u` is the last but one node of a walk with the fewest `True` edges -/
theorem bool_floyd_warshall_predecessor (h : G.WF) (hd : G.directed = true) (hn : G.n ≤ 2 ^ 60)
    (choose : SInt 64 → SInt 64 → SInt 64) (chooseP : Fin G.n → Fin G.n → Fin G.n) :
    (∀ u v d, (G.view2 (fwPredB G choose chooseP).2 u v).map SInt.toInt = some d ↔
      G.Node u ∧ G.Node v ∧ IsWDist (BoolLen G.WEdge) u d v) ∧
    ∀ u v c, G.Node u → G.Node v → u ≠ v → IsWDist (BoolLen G.WEdge) u c v →
      ∃ p w c1, viewPred G (fwPredB G choose chooseP).1 u v = some p ∧
        BoolLen G.WEdge p v w ∧ IsWDist (BoolLen G.WEdge) u c1 p ∧ c1 + w = c := by
  have := int_floyd_warshall_predecessor (b := 64) (by decide) (int64_wf h) hd int64_abs (fits64' hn)
    (by rw [int64_len]; exact fun u _ => bool_no_neg u) choose chooseP
  rw [int64_len] at this
  exact this

/-! ### a Boolean graph with both values -/

/-- `0 →F 1 →F 2`, `0 →T 2`, `2 →T 3`, and a node `4` nobody reaches -/
def Ex.bools : Graph Nat Bool where
  n := 5
  A := fun i j => (_root_.Ex.ofTriples 5 [(0,1,0), (1,2,0), (0,2,1), (2,3,1), (4,0,1)] i j).map (· == 1)
  keyToId := [(10,0),(11,1),(12,2),(13,3),(14,4)]
  directed := true

example : Ex.bools.WF := ⟨by decide, by decide⟩
example : Ex.bools.n ≤ 2 ^ 60 := by decide
example : IsoValid Ex.bools none := by intro c hc; cases hc
example : Ex.bools.Node 10 ∧ Ex.bools.Node 13 := by unfold Graph.Node; decide

/-- the direct edge 10 → 12 has length 1, the detour over 11 has length 0 -/
example : (match singleSourceBFB Ex.bools none 10 none with
    | .ok r => (List.finRange 5).map fun i => (r i).map SInt.toInt
    | .error _ => []) = [some 0, some 0, some 0, some 1, none] := by decide +kernel
example : bellmanFordPathB Ex.bools none 10 13 = .ok [10, 11, 12, 13] := by decide +kernel
example : bellmanFordPathB Ex.bools none 10 14 = .ok [] := by decide +kernel

end Props
