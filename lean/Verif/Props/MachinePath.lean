import Verif.Proofs.MachinePath
import Verif.Props.Machine
import Verif.Props.BfPathSound

/-!
# C106: paths, all pairs and predecessors on integer dtypes
-/

open GB Spec Model Proofs Proofs.BF Proofs.Mach Proofs.Bfs Graph

namespace Props

variable {K β : Type} [DecidableEq K]

section generic
variable [AddCommGroup β] [LinearOrder β] {val : β → Int} {lo hi L U : Int}
  (hm : Machine β val lo hi) {G : Graph K β}
include hm

theorem machine_path (h : G.WF) {iso : Option β} (hiso : IsoValid G iso)
    (hW : ∀ u v w, G.WEdge u v w → L ≤ val w ∧ val w ≤ U) (hL : L ≤ 0) (hU : 0 ≤ U)
    (hlo : lo ≤ G.n * L) (hhi : G.n * U ≤ hi) {s t : K} (hs : G.Node s) (ht : G.Node t) :
    ((¬ NegCycleFrom (IntEdge val G) s → (∀ u w, IntEdge val G u u w → 0 ≤ w) →
        (iso.isSome → ∀ u v w, IntEdge val G u v w → 0 ≤ w) →
      (∃ l, bellmanFordPath G iso s t = .ok l ∧ IsShortestPath (IntEdge val G) s t l) ∨
      (¬ WReach (IntEdge val G) s t ∧ bellmanFordPath G iso s t = .ok []))) ∧
    ∀ l, bellmanFordPath G iso s t = .ok l →
      (l = [] ∧ ¬ WReach (IntEdge val G) s t) ∨
      (l.head? = some s ∧ l.getLast? = some t ∧ l.IsChain G.Edge ∧ l.Nodup) := by
  have hv := path_val hm (fits h hiso hW hL hU hlo hhi) s t
  constructor
  · intro hno hloop hneg
    have := bellman_ford_path_correct_partial (G := G.ints val) (ints_wf h) (ints_isoValid hiso) (s := s) (t := t)
      hs ht (by rw [ints_wedge]; exact hno) (by rw [ints_wedge]; exact hloop)
      (by rw [ints_wedge]; intro hi; exact hneg (by simpa using hi))
    rw [ints_wedge, hv] at this
    exact this
  · intro l hl
    rw [← hv] at hl
    have hE : (G.ints val).Edge = G.Edge := by
      funext u v
      apply propext
      constructor
      · rintro ⟨i, j, hi, hj, he⟩
        exact ⟨i, j, hi, hj, by simpa [Graph.ints, mapply] using he⟩
      · rintro ⟨i, j, hi, hj, he⟩
        exact ⟨i, j, hi, hj, by simpa [Graph.ints, mapply] using he⟩
    have := bellman_ford_path_sound (G := G.ints val) (ints_wf h) (s := s) (t := t) hs ht hl
    rw [ints_wedge, hE] at this
    exact this

theorem machine_all_pairs (h : G.WF) (hsym : G.directed = false → G.Symm) {iso : Option β}
    (hiso : IsoValid G iso) (fd : β → β → Int)
    (hW : ∀ u v w, G.WEdge u v w → L ≤ val w ∧ val w ≤ U) (hL : L ≤ 0) (hU : 0 ≤ U)
    (hlo : lo ≤ G.n * L) (hhi : G.n * U ≤ hi) (chunksize : Option Int) :
    ((∃ u, G.Node u ∧ NegCycleFrom (IntEdge val G) u) ∧
      allPairsBF G iso fd chunksize = .error .unbounded) ∨
    ((∀ u, G.Node u → ¬ NegCycleFrom (IntEdge val G) u) ∧ ∃ L', allPairsBF G iso fd chunksize = .ok L' ∧
      (L'.map Prod.fst).Perm G.nodes ∧
      ∀ p ∈ L', ∀ v d, (G.view p.2 v).map val = some d ↔ IsWDist (IntEdge val G) p.1 d v) := by
  have hv := allPairs_val hm (fits h hiso hW hL hU hlo hhi) fd (fun x c => x / c) chunksize
  have hc := all_pairs_bellman_ford_path_length_chunksize_independent (ints_wf (val := val) h) (ints_symm hsym)
    (ints_isoValid hiso) (fun x c => x / c) chunksize
  rcases hc with ⟨⟨u, hu, h1⟩, h2⟩ | ⟨h1, L', h2, h3, h4⟩
  · rw [ints_wedge] at h1
    exact Or.inl ⟨⟨u, hu, h1⟩, map_eq_error (hv.trans h2)⟩
  · obtain ⟨z, hz, hzr⟩ := map_eq_ok (hv.trans h2)
    refine Or.inr ⟨fun u hu => by have := h1 u hu; rwa [ints_wedge] at this, z, hz, ?_, ?_⟩
    · subst hzr
      have e : (z.map (itemVal val)).map Prod.fst = z.map Prod.fst := by rw [List.map_map]; rfl
      have h3' : ((z.map (itemVal val)).map Prod.fst).Perm G.nodes := h3
      rwa [e] at h3'
    · intro p hp v d
      have hmem : itemVal val p ∈ L' := hzr ▸ List.mem_map_of_mem hp
      have hnode : (G.ints val).Node p.1 := by
        have : p.1 ∈ L'.map Prod.fst := List.mem_map.2 ⟨_, hmem, rfl⟩
        exact h3.subset this
      have h5 := h4 _ hmem
      have hs := single_source_bellman_ford_path_length_correct (ints_wf (val := val) h) (ints_symm hsym)
        (ints_isoValid hiso) (fun x c => x / c) (s := p.1) hnode
      rcases hs with ⟨h6, -⟩ | ⟨-, r', h7, h8⟩
      · exact absurd h6 (h1 p.1 hnode)
      · have e : r' = vapply val p.2 := Except.ok.inj (h7.symm.trans h5)
        subst e
        rw [ints_wedge] at h8
        rw [← h8 v d]
        exact Iff.of_eq (congrArg (· = some d) (ints_view p.2 v).symm)

theorem machine_fw_pred (h : G.WF) (hd : G.directed = true)
    (hW : ∀ u v w, G.WEdge u v w → L ≤ val w ∧ val w ≤ U) (hL : L ≤ 0) (hU : 0 ≤ U)
    (hlo : lo ≤ 2 * ((G.n - 1 : Int) * L)) (hhi : 2 * ((G.n - 1 : Int) * U) ≤ hi)
    (hno : ∀ u, G.Node u → ¬ NegCycleAt (IntEdge val G) u) (choose : β → β → β)
    (chooseP : Fin G.n → Fin G.n → Fin G.n) :
    (∀ u v d, (G.view2 (fwPred G.directed choose chooseP G.A).2 u v).map val = some d ↔
      G.Node u ∧ G.Node v ∧ IsWDist (IntEdge val G) u d v) ∧
    ∀ u v c, G.Node u → G.Node v → u ≠ v → IsWDist (IntEdge val G) u c v →
      ∃ p w c1, viewPred G (fwPred G.directed choose chooseP G.A).1 u v = some p ∧
        IntEdge val G p v w ∧ IsWDist (IntEdge val G) u c1 p ∧ c1 + w = c := by
  have hno' : ∀ u, (G.ints val).Node u → ¬ NegCycleAt (G.ints val).WEdge u := by
    rw [ints_wedge]; exact hno
  have e := fwPred_val hm (inM_of_edges h hW) hL hU hlo hhi (no_neg_cycle (ints_wf (val := val) h) hno') choose
    (fun a _ => a) chooseP
  have hd' : (G.ints val).directed = true := hd
  obtain ⟨h1, h2⟩ := floyd_warshall_predecessor_correct_partial (ints_wf (val := val) h) hd' hno' (fun a _ => a) chooseP
  rw [ints_wedge] at h2
  have e0 : fwPred (G.ints val).directed (fun a _ => a) chooseP (G.ints val).A =
      ((fwPred G.directed choose chooseP G.A).1, mapply val (fwPred G.directed choose chooseP G.A).2) := by
    rw [hd]
    refine Eq.trans ?_ e
    exact congrArg (fun b => fwPred b (fun a _ => a) chooseP (mapply val G.A)) hd'
  have e1 := congrArg Prod.fst e0
  have e2 := h1.symm.trans (congrArg Prod.snd e0)
  constructor
  · intro u v d
    have hc := floyd_warshall_correct (ints_wf (val := val) h) (fun hf => absurd (hd'.symm.trans hf) (by decide)) hno'
      (fun a _ => a) u v d
    rw [ints_wedge] at hc
    refine Iff.trans ?_ hc
    rw [e2]
    show _ ↔ ((G.idOf u).bind fun i => (G.idOf v).bind fun j => ((fwPred G.directed choose chooseP G.A).2 i j).map val) = some d
    show Option.map val ((G.idOf u).bind fun i => (G.idOf v).bind fun j => _) = some d ↔ _
    cases G.idOf u with
    | none => simp
    | some i =>
      cases G.idOf v with
      | none => simp
      | some j => rfl
  · intro u v c hu hv huv hc
    obtain ⟨p, w, c1, h3, h4, h5, h6⟩ := h2 u v c hu hv huv hc
    exact ⟨p, w, c1, (congrArg (fun P => viewPred G P u v) e1).symm.trans h3, h4, h5, h6⟩

end generic

/-! ### signed types -/

section signed
variable {b : Nat} (hb : 0 < b) {G : Graph K (SInt b)} {W : Nat}
include hb

/-- **C106**, `bellman_ford_path(G, s, t)` on signed `b`-bit weights of absolute value at most `W`,
`n·W < 2^(b-1)`: without a reachable negative cycle, without negative self-loops (and without
negative weights if the matrix is iso-valued) the list is a shortest path of the integer weights, or
empty when there is no walk; and always, whatever list comes back is empty with `t` unreachable or a
simple path along edges. -/
theorem int_bellman_ford_path (h : G.WF) {iso : Option (SInt b)} (hiso : IsoValid G iso)
    (hW : ∀ u v w, G.WEdge u v w → |w.toInt| ≤ W) (hfit : G.n * W < 2 ^ (b - 1))
    {s t : K} (hs : G.Node s) (ht : G.Node t) :
    ((¬ NegCycleFrom (IntEdge SInt.toInt G) s → (∀ u w, IntEdge SInt.toInt G u u w → 0 ≤ w) →
        (iso.isSome → ∀ u v w, IntEdge SInt.toInt G u v w → 0 ≤ w) →
      (∃ l, bellmanFordPath G iso s t = .ok l ∧ IsShortestPath (IntEdge SInt.toInt G) s t l) ∨
      (¬ WReach (IntEdge SInt.toInt G) s t ∧ bellmanFordPath G iso s t = .ok []))) ∧
    ∀ l, bellmanFordPath G iso s t = .ok l →
      (l = [] ∧ ¬ WReach (IntEdge SInt.toInt G) s t) ∨
      (l.head? = some s ∧ l.getLast? = some t ∧ l.IsChain G.Edge ∧ l.Nodup) :=
  machine_path (SInt.machine hb) h hiso (fun u v w e => abs_le.1 (hW u v w e))
    (by omega) (by omega) (signed_range hb hfit).1 (signed_range hb hfit).2 hs ht

/-- **C106**, `all_pairs_bellman_ford_path_length(G, chunksize=)`: every chunk size. -/
theorem int_all_pairs (h : G.WF) (hsym : G.directed = false → G.Symm)
    {iso : Option (SInt b)} (hiso : IsoValid G iso) (fd : SInt b → SInt b → Int)
    (hW : ∀ u v w, G.WEdge u v w → |w.toInt| ≤ W) (hfit : G.n * W < 2 ^ (b - 1)) (chunksize : Option Int) :
    ((∃ u, G.Node u ∧ NegCycleFrom (IntEdge SInt.toInt G) u) ∧
      allPairsBF G iso fd chunksize = .error .unbounded) ∨
    ((∀ u, G.Node u → ¬ NegCycleFrom (IntEdge SInt.toInt G) u) ∧ ∃ L, allPairsBF G iso fd chunksize = .ok L ∧
      (L.map Prod.fst).Perm G.nodes ∧
      ∀ p ∈ L, ∀ v d, (G.view p.2 v).map SInt.toInt = some d ↔ IsWDist (IntEdge SInt.toInt G) p.1 d v) :=
  machine_all_pairs (SInt.machine hb) h hsym hiso fd (fun u v w e => abs_le.1 (hW u v w e))
    (by omega) (by omega) (signed_range hb hfit).1 (signed_range hb hfit).2 chunksize

/-- **C106**, `floyd_warshall_predecessor_and_distance(G)`, directed, no negative cycle: distances and
predecessors of the integer weights. -/
theorem int_floyd_warshall_predecessor (h : G.WF) (hd : G.directed = true)
    (hW : ∀ u v w, G.WEdge u v w → |w.toInt| ≤ W) (hfit : 2 * ((G.n - 1) * W) < 2 ^ (b - 1))
    (hno : ∀ u, G.Node u → ¬ NegCycleAt (IntEdge SInt.toInt G) u) (choose : SInt b → SInt b → SInt b)
    (chooseP : Fin G.n → Fin G.n → Fin G.n) :
    (∀ u v d, (G.view2 (fwPred G.directed choose chooseP G.A).2 u v).map SInt.toInt = some d ↔
      G.Node u ∧ G.Node v ∧ IsWDist (IntEdge SInt.toInt G) u d v) ∧
    ∀ u v c, G.Node u → G.Node v → u ≠ v → IsWDist (IntEdge SInt.toInt G) u c v →
      ∃ p w c1, viewPred G (fwPred G.directed choose chooseP G.A).1 u v = some p ∧
        IntEdge SInt.toInt G p v w ∧ IsWDist (IntEdge SInt.toInt G) u c1 p ∧ c1 + w = c := by
  by_cases h1 : 1 ≤ G.n
  · exact machine_fw_pred (SInt.machine hb) h hd (fun u v w e => abs_le.1 (hW u v w e))
      (by omega) (by omega) (signed_range2 hb hfit h1).1 (signed_range2 hb hfit h1).2 hno choose chooseP
  · have hn : ∀ u, ¬ G.Node u := by
      intro u hu
      obtain ⟨i, hi⟩ := hu.exists_id h
      exact absurd i.2 (by omega)
    refine ⟨fun u v d => ⟨fun hv => ?_, fun hu => absurd hu.1 (hn u)⟩, fun u v c hu => absurd hu (hn u)⟩
    obtain ⟨x, hx, -⟩ := Option.map_eq_some_iff.1 hv
    obtain ⟨i, -⟩ := (view2_eq_some h).1 hx
    exact absurd i.2 (by omega)

end signed

/-! ### unsigned types -/

section unsigned
variable {K : Type} [DecidableEq K] {b : Nat} {G : Graph K (UInt_ b)} {W : Nat}

private theorem uint_range (hfit : G.n * W < 2 ^ b) : (G.n * W : Int) ≤ 2 ^ b - 1 := by
  have h : ((G.n * W : Nat) : Int) < ((2 ^ b : Nat) : Int) := by exact_mod_cast hfit
  push_cast at h
  omega

private theorem uint_nonneg (x : UInt_ b) : 0 ≤ x.toInt := Int.natCast_nonneg _

private theorem uint_walk {k c u v} (hw : WWalk (IntEdge UInt_.toInt G) k c u v) : 0 ≤ c := by
  induction hw with
  | nil => exact le_rfl
  | snoc _ e ih =>
    obtain ⟨w, -, rfl⟩ := e
    exact add_nonneg ih (uint_nonneg w)

private theorem uint_noneg (s : K) : ¬ NegCycleFrom (IntEdge UInt_.toInt G) s := by
  rintro ⟨x, -, k, c, hw, hc⟩
  exact absurd (uint_walk hw) (by omega)

/-- **C106**, unsigned weights: `bellman_ford_path_length(G, s, t)`; never Unbounded. -/
theorem uint_bellman_ford_path_length (h : G.WF) (hsym : G.directed = false → G.Symm)
    {iso : Option (UInt_ b)} (hiso : IsoValid G iso)
    (hW : ∀ u v w, G.WEdge u v w → w.toInt ≤ W) (hfit : G.n * W < 2 ^ b)
    {s t : K} (hs : G.Node s) (ht : G.Node t) :
    (∃ d, IsWDist (IntEdge UInt_.toInt G) s d.toInt t ∧ bellmanFordPathLength G iso s t = .ok d) ∨
    (¬ WReach (IntEdge UInt_.toInt G) s t ∧ bellmanFordPathLength G iso s t = .error .noPath) :=
  machine_target (L := 0) UInt_.machine h hsym hiso (fun u v w e => ⟨uint_nonneg w, hW u v w e⟩) le_rfl (by omega)
    (by simp) (uint_range hfit) hs ht (uint_noneg s)

/-- **C106**, unsigned weights: `bellman_ford_path_lengths(G, nodes)`; never Unbounded. -/
theorem uint_bellman_ford_path_lengths (h : G.WF) (hsym : G.directed = false → G.Symm)
    {iso : Option (UInt_ b)} (hiso : IsoValid G iso)
    (hW : ∀ u v w, G.WEdge u v w → w.toInt ≤ W) (hfit : G.n * W < 2 ^ b) {k : Nat}
    (nodes : Fin k → K) (ids : Fin k → Fin G.n) (hids : ∀ r, G.At (nodes r) (ids r)) :
    ∃ D, bellmanFordPathLengths G iso ids = .ok D ∧ ∀ r u d, (G.view (D r) u).map UInt_.toInt = some d ↔
      IsWDist (IntEdge UInt_.toInt G) (nodes r) d u := by
  rcases machine_batch (L := 0) UInt_.machine h hsym hiso (fun u v w e => ⟨uint_nonneg w, hW u v w e⟩) le_rfl
    (by omega) (by simp) (uint_range hfit) nodes ids hids with ⟨⟨r, hr⟩, -⟩ | ⟨-, hD⟩
  · exact absurd hr (uint_noneg _)
  · exact hD

/-- **C106**, unsigned weights: `all_pairs_bellman_ford_path_length(G)` for every chunk size; never Unbounded. -/
theorem uint_all_pairs (h : G.WF) (hsym : G.directed = false → G.Symm)
    {iso : Option (UInt_ b)} (hiso : IsoValid G iso) (fd : UInt_ b → UInt_ b → Int)
    (hW : ∀ u v w, G.WEdge u v w → w.toInt ≤ W) (hfit : G.n * W < 2 ^ b) (chunksize : Option Int) :
    ∃ L, allPairsBF G iso fd chunksize = .ok L ∧ (L.map Prod.fst).Perm G.nodes ∧
      ∀ p ∈ L, ∀ v d, (G.view p.2 v).map UInt_.toInt = some d ↔ IsWDist (IntEdge UInt_.toInt G) p.1 d v := by
  rcases machine_all_pairs (L := 0) UInt_.machine h hsym hiso fd (fun u v w e => ⟨uint_nonneg w, hW u v w e⟩) le_rfl
    (by omega) (by simp) (uint_range hfit) chunksize with ⟨⟨u, -, hu⟩, -⟩ | ⟨-, hL⟩
  · exact absurd hu (uint_noneg _)
  · exact hL

/-- **C106**, unsigned weights: `bellman_ford_path(G, s, t)` returns a shortest path, `[]` if there is none. -/
theorem uint_bellman_ford_path (h : G.WF) {iso : Option (UInt_ b)} (hiso : IsoValid G iso)
    (hW : ∀ u v w, G.WEdge u v w → w.toInt ≤ W) (hfit : G.n * W < 2 ^ b)
    {s t : K} (hs : G.Node s) (ht : G.Node t) :
    (∃ l, bellmanFordPath G iso s t = .ok l ∧ IsShortestPath (IntEdge UInt_.toInt G) s t l) ∨
    (¬ WReach (IntEdge UInt_.toInt G) s t ∧ bellmanFordPath G iso s t = .ok []) := by
  refine (machine_path (L := 0) UInt_.machine h hiso (fun u v w e => ⟨uint_nonneg w, hW u v w e⟩) le_rfl (by omega)
    (by simp) (uint_range hfit) hs ht).1 (uint_noneg s) ?_ ?_
  · rintro u w ⟨x, -, rfl⟩; exact uint_nonneg x
  · rintro - u v w ⟨x, -, rfl⟩; exact uint_nonneg x

/-- **C106**, unsigned weights: `negative_edge_cycle(G)` is False, whatever the sizes of the weights. -/
theorem uint_negative_edge_cycle_false (G : Graph K (UInt_ b)) : negativeEdgeCycle G = false := by
  have h0 : ∀ x : UInt_ b, 0 ≤ x := fun x =>
    (UInt_.machine.le_iff 0 x).1 (by rw [UInt_.machine.zero]; exact uint_nonneg x)
  have h1 : hasNegDiag G.A = false := by simp [hasNegDiag, h0]
  have h2 : hasNegEdgesM G.A = false := by simp [hasNegEdgesM, h0]
  simp [negativeEdgeCycle, necBody, h1, h2]

end unsigned

/-- UINT8 weights up to 60 on four nodes: sums up to 240 fit -/
def Ex.u8small : Graph Nat (UInt_ 8) where
  n := 4
  A := fun i j => (_root_.Ex.ofTriples 4 [(0,1,60), (1,2,60), (2,3,60), (0,3,30), (3,1,10)] i j).map (UInt_.ofInt 8)
  keyToId := [(0,0),(1,1),(2,2),(3,3)]
  directed := true

example : Ex.u8small.WF ∧ (∀ i j w, Ex.u8small.A i j = some w → w.toInt ≤ (60 : Nat)) ∧ Ex.u8small.n * 60 < 2 ^ 8 ∧
    bellmanFordPath Ex.u8small none 0 2 = .ok [0, 3, 1, 2] ∧
    (match bellmanFordPathLength Ex.u8small none 0 2 with | .ok d => decide (d.toInt = 100) | _ => false) = true ∧
    negativeEdgeCycle Ex.u8small = false := by
  refine ⟨⟨by decide, by decide⟩, by decide +kernel, by decide, by decide +kernel, by decide +kernel, by decide +kernel⟩

/-- on the INT8 graph of C106 that meets the bound -/
example : bellmanFordPath Ex.small8 none 0 3 = .ok [0, 2, 3] := by decide +kernel
example : (allPairsBF Ex.small8 none (fun _ _ => 0) (some 2)).isOk = true := by decide +kernel

/-- `0 → 1 → 2` of weights 100 and 100 and `0 → 2` of weight 101 -/
def Ex.detour8 : Graph Nat (SInt 8) where
  n := 3
  A := Ex.i8 [(0,1,100), (1,2,100), (0,2,101)] 3
  keyToId := [(0,0),(1,1),(2,2)]
  directed := true

/-- **C106, negative part.**  Beyond the bound the path itself is wrong: the detour of weight 200, which
wraps to -56, is returned instead of the edge of weight 101. -/
theorem int8_path_wraps :
    (∀ u v w, Ex.detour8.WEdge u v w → 0 < w.toInt) ∧
    bellmanFordPath Ex.detour8 none 0 2 = .ok [0, 1, 2] ∧
    bellmanFordPath (Ex.detour8.ints SInt.toInt) none 0 2 = .ok [0, 2] := by
  refine ⟨?_, by decide +kernel, by decide +kernel⟩
  have hall : ∀ i j w, Ex.detour8.A i j = some w → 0 < w.toInt := by decide +kernel
  rintro u v w ⟨i, j, -, -, hw⟩
  exact hall i j w hw

end Props
