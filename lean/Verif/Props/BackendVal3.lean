import Verif.Props.BackendVal2
import Verif.Props.ClusterDir
import Verif.Props.Isomorph
import Verif.Props.IsomorphExact

/-! # C105, continued: directed clustering, isomorphism tests, Floyd-Warshall matrices and predecessors
through the NetworkX backend -/

open GB Spec Model Model.Graph Proofs
open Cluster (Asked)

namespace Props

variable {K S : Type} [DecidableEq K] [DecidableEq S]

section plain
variable {α : Type} [DecidableEq α] [AddMonoid α] {one : α} {H : NxFull K S α} {a : NxArgs S α} {x : Option S}

/-- **C105.** `clustering` of a digraph without self-loops: the directed triangles at a node over the possible
ones. -/
theorem nx_directed_clustering_partial (hc : NxCall one H a x) (hdir : isDirectedClass H.cls = true)
    (hno : ∀ u, ¬ NxEdge H u u) {nodes : Option (List K)} (hn : ∀ l, nodes = some l → ∀ u ∈ l, u ∈ H.nodes) :
    IsMapping (fun u => nxRun one H a (itemOf (fun G => clusteringDirected G nodes) u))
      fun u c => AskedFor H nodes u ∧ c = (dirTriPairs H.nodes (NxEdge H) u : ℚ) /
        (2 * ((totalDegree H.nodes (NxEdge H) u : ℚ) * ((totalDegree H.nodes (NxEdge H) u : ℚ) - 1) -
          2 * (recipDegree H.nodes (NxEdge H) u : ℚ))) := by
  obtain ⟨G, hG, hwf, hN, hd, hm, hE, hw, hW, hsy⟩ := nx_call hc
  simp only [hG, AskedFor]
  rw [← hN] at hn
  rw [← hE] at hno
  refine nx_move hN hE (fun N E _ => IsMapping _ fun u c => (u ∈ N ∧ ∀ l, nodes = some l → u ∈ l) ∧
    c = (dirTriPairs N E u : ℚ) / (2 * ((totalDegree N E u : ℚ) * ((totalDegree N E u : ℚ) - 1) -
      2 * (recipDegree N E u : ℚ)))) ?_
  obtain ⟨r, hr, hv⟩ := directed_clustering_correct_partial hwf hno hn
  exact nxItem_mapping hwf (f := fun G => clusteringDirected G nodes) hr hv

/-- **C105.** `faster_could_be_isomorphic` never rejects isomorphic graphs of the same kind;
`fast_could_be_isomorphic` never rejects isomorphic undirected graphs.  The second graph may have other names. -/
theorem nx_could_be_isomorphic_partial {K' S' α' : Type} [DecidableEq K'] [DecidableEq S'] [DecidableEq α']
    [AddMonoid α'] {one' : α'} {H' : NxFull K' S' α'} {a' : NxArgs S' α'} {x' : Option S'}
    (hc : NxCall one H a x) (hc' : NxCall one' H' a' x') (hd : isDirectedClass H.cls = isDirectedClass H'.cls)
    {f : K → K'} (hf : Iso H.nodes (NxEdge H) H'.nodes (NxEdge H') f) :
    (nxRun one H a fun G => nxRun one' H' a' fun G' => .ok (fasterCouldBeIsomorphic G G')) = .ok true ∧
    (isDirectedClass H.cls = false →
      (nxRun one H a fun G => nxRun one' H' a' fun G' => .ok (fastCouldBeIsomorphic G G')) = .ok true) := by
  obtain ⟨G, hG, hwf, hN, hdG, hm, hE, hw, hW, hsy⟩ := nx_call hc
  obtain ⟨G', hG', hwf', hN', hdG', hm', hE', hw', hW', hsy'⟩ := nx_call hc'
  rw [← hN, ← hN', ← hE, ← hE'] at hf
  rw [hG, hG, hG', hG']
  refine ⟨?_, fun hu => ?_⟩
  · rw [faster_never_rejects hwf hwf' (by rw [hdG, hdG', hd]) hf]
  · have h1 : G.directed = false := hdG.trans hu
    have h2 : G'.directed = false := hdG'.trans (hd ▸ hu)
    rw [fast_never_rejects_partial hwf hwf' h1 h2 (hsy h1) (hsy' h2) hf]

end plain

section paths
variable {α : Type} [AddCommGroup α] [LinearOrder α] [IsOrderedAddMonoid α] {one : α} {H : NxFull K S α}
  {a : NxArgs S α} {x : Option S}

/-- `pred[u][v]` for the `NodeNodeMap` of predecessors: the stored row number, translated back to a node
-- nxapi/shortest_paths/dense.py:17-20, nodemap.py:42-50, 354-362 -/
def itemKey (G : Graph K α) (P : Mat G.n G.n (Fin G.n)) (u v : K) : Except Err K := do
  let q ← item2 G P u v
  keyAt G q.val

/-- **C105.** `floyd_warshall_predecessor_and_distance` of a digraph without negative cycles: `pred[u][v]` is the
last node before `v` on a shortest path from `u`. -/
theorem nx_floyd_warshall_predecessor_partial (hc : NxCall one H a x) (hdir : isDirectedClass H.cls = true)
    (hno : ∀ u ∈ H.nodes, ¬ NegCycleAt (NxW one H x) u) (choose : α → α → α)
    (chooseP : (n : Nat) → Fin n → Fin n → Fin n) {u v : K} (hu : u ∈ H.nodes)
    (hv : v ∈ H.nodes) (huv : u ≠ v) {d : α} (hd : IsWDist (NxW one H x) u d v) :
    ∃ p w d1, (nxRun one H a fun G => itemKey G (fwPred G.directed choose (chooseP G.n) G.A).1 u v) = .ok p ∧
      NxW one H x p v w ∧ IsWDist (NxW one H x) u d1 p ∧ d1 + w = d := by
  obtain ⟨G, hG, hwf, hN, hdG, hm, hE, hw, hW, hsy⟩ := nx_call hc
  rw [hG]
  have hW' : NxW one H x = G.WEdge := hW.symm
  rw [hW'] at hno hd ⊢
  rw [← hN] at hno hu hv
  obtain ⟨_, h1⟩ := floyd_warshall_predecessor_correct_partial hwf (hdG.trans hdir) hno choose (chooseP G.n)
  obtain ⟨p, w, d1, hp, h2, h3, h4⟩ := h1 u v d hu hv huv hd
  refine ⟨p, w, d1, ?_, h2, h3, h4⟩
  unfold viewPred at hp
  rw [Option.bind_eq_some_iff] at hp
  obtain ⟨q, hq, hk⟩ := hp
  unfold itemKey
  rw [item2_eq hwf, hq]
  show keyAt G q.val = .ok p
  unfold keyAt
  rw [hk]

end paths

section matrices
variable {F : Type} [Field F] [LinearOrder F] [IsStrictOrderedRing F] {one : F} {H : NxFull K S F} {a : NxArgs S F}
  {x : Option S}

/-- **C105.** `floyd_warshall_numpy` of a digraph (any node order asked for) or of an undirected graph (its own
order) without negative cycles: a NumPy array whose rows and columns follow the order asked for, holding the weighted
distance where there is a path.  Where there is none it holds 0 (`convert_to_nx_unreachable_zero`, C78). -/
theorem nx_floyd_warshall_numpy_partial (hc : NxCall one H a x)
    (hno : ∀ u ∈ H.nodes, ¬ NegCycleAt (NxW one H x) u) (choose : F → F → F) {nodelist : Option (List K)}
    (hl : ∀ l, nodelist = some l → l.Perm H.nodes ∧ isDirectedClass H.cls = true) :
    let rows := nodelist.getD H.nodes
    ∃ (m : Nat) (M : Fin m → Fin m → F),
      nxMatrix one H a "floyd_warshall_numpy" (fun G => (floydWarshallNumpy G choose nodelist).map (Sigma.mk G.n)) =
        .ok (.dense m M) ∧ m = rows.length ∧
      ∀ i j u v, rows[i.val]? = some u → rows[j.val]? = some v →
        (∀ d, IsWDist (NxW one H x) u d v → M i j = d) ∧ (¬ WReach (NxW one H x) u v → M i j = 0) := by
  obtain ⟨G, hG, hwf, hN, hdG, hm, hE, hw, hW, hsy⟩ := nx_call hc
  have hW' : NxW one H x = G.WEdge := hW.symm
  have hrow := fun (i : Nat) (u : K) => nx_rowName (S := S) hG nodelist i u
  rw [hW'] at hno ⊢
  rw [← hN] at hno
  have key : ∃ D, floydWarshallNumpy G choose nodelist = .ok D ∧ ∀ (p q : Fin G.n) (u v : K),
      (nodelist.getD H.nodes)[p.val]? = some u → (nodelist.getD H.nodes)[q.val]? = some v →
        ∀ d, D p q = some d ↔ IsWDist G.WEdge u d v := by
    cases hnl : nodelist with
    | some l =>
      obtain ⟨hp, hdir⟩ := hl l hnl
      rw [← hN] at hp
      exact floyd_warshall_numpy_nodelist_partial hwf (hdG.trans hdir) hno choose hp
    | none =>
      refine ⟨_, rfl, fun p q u v hu hv d => ?_⟩
      subst hnl
      have h1 : G.At u p := (hrow p.val u).2 hu
      have h2 : G.At v q := (hrow q.val v).2 hv
      have := floyd_warshall_correct hwf hsy hno choose u v d
      rw [view2_eq_some hwf] at this
      constructor
      · intro e
        exact (this.1 ⟨p, q, h1, h2, e⟩).2.2
      · intro e
        obtain ⟨i, j, hi, hj, e⟩ := this.2 ⟨h1.node, h2.node, e⟩
        rwa [At.id_unique hwf hi h1, At.id_unique hwf hj h2] at e
  obtain ⟨D, hD, hspec⟩ := key
  refine ⟨G.n, fun i j => (D i j).getD 0, ?_, ?_, ?_⟩
  · unfold nxMatrix
    rw [hG, hD]
    rfl
  · cases hnl : nodelist with
    | some l => 
      rw [Option.getD_some, (hl l hnl).1.length_eq, ← hN, nodes_length hwf]
    | none => rw [Option.getD_none, ← hN, nodes_length hwf]
  · intro i j u v hu hv
    refine ⟨fun d hd => by beta_reduce; rw [(hspec i j u v hu hv d).2 hd]; rfl, fun hn => ?_⟩
    beta_reduce
    cases e : D i j with
    | none => rfl
    | some y => 
      obtain ⟨⟨k, hk⟩, _⟩ := (hspec i j u v hu hv y).1 e
      exact absurd ⟨k, y, hk⟩ hn

end matrices

-- the digraph of `nxq_call`: a → b (5), b → a (1), b → c (2); from "c" nothing can be reached
example :
    nxRun (1 : ℚ) _root_.Ex.nxq _root_.Ex.nxqa (fun G => itemKey G (fwPred G.directed (fun x _ => x) (fun x _ => x) G.A).1
      "a" "c") = .ok "b" ∧
    (match nxMatrix (1 : ℚ) _root_.Ex.nxq _root_.Ex.nxqa "floyd_warshall_numpy"
        (fun G => (floydWarshallNumpy G (fun x _ => x) (some ["a", "b", "c"])).map (Sigma.mk G.n)) with
      | .ok (.dense m M) => (List.finRange m).map fun i => (List.finRange m).map fun j => M i j
      | _ => []) = [[0, 5, 7], [1, 0, 2], [0, 0, 0]] ∧
    nxRun (1 : ℚ) _root_.Ex.nxq _root_.Ex.nxqa (itemOf (fun G => clusteringDirected G none) "b") = .ok 0 := by
  decide +kernel

/-- it satisfies the hypotheses: no self-loops, no negative cycle -/
example : ∀ u, ¬ NxEdge _root_.Ex.nxq u u := by
  intro u h
  unfold NxEdge _root_.Ex.nxq at h
  dsimp only at h
  split_ifs at h with h1 h2 h3
  · exact absurd (h1.1.symm.trans h1.2) (by decide)
  · exact absurd (h2.1.symm.trans h2.2) (by decide)
  · exact absurd (h3.1.symm.trans h3.2) (by decide)
  · exact h rfl

end Props
