import Verif.Proofs.SubGraph
import Verif.Proofs.BfsApi
import Verif.Props.BellmanFord
import Verif.Props.Examples

/-!
# C25 ego_graph, C47 to_undirected
-/

open GB Spec Model Model.Graph Proofs Proofs.Bfs

namespace Props

variable {K α : Type} [DecidableEq K] {G : Graph K α}

/-! ### C47 -/

omit [DecidableEq K] in
/-- **C47.** `G.to_undirected()` of a digraph keeps nodes, keys and numbering, and has an edge
between `u` and `v` exactly when there is one in some direction; every weight in it is the weight
of one of the two edges, whatever the `any` operator picks. -/
theorem to_undirected_correct (h : G.WF) {choose : α → α → α}
    (hc : ∀ a b, choose a b = a ∨ choose a b = b) :
    (toUndirected choose G false).WF ∧ (toUndirected choose G false).directed = false ∧
    (∀ u, (toUndirected choose G false).Node u ↔ G.Node u) ∧
    (∀ u v, (toUndirected choose G false).Edge u v ↔ G.Edge u v ∨ G.Edge v u) ∧
    (∀ u v w, (toUndirected choose G false).WEdge u v w → G.WEdge u v w ∨ G.WEdge v u w) := by
  refine ⟨⟨h.keys_nodup, h.ids_perm⟩, rfl, fun u => Iff.rfl, ?_, ?_⟩
  · intro u v
    constructor
    · rintro ⟨i, j, hi, hj, he⟩
      simp only [toUndirected, madd, transpose, Bool.false_eq_true, if_false, isSome_omerge,
        Bool.or_eq_true] at he
      exact he.imp (fun e => ⟨i, j, hi, hj, e⟩) (fun e => ⟨j, i, hj, hi, e⟩)
    · rintro (⟨i, j, hi, hj, he⟩ | ⟨j, i, hj, hi, he⟩)
      · exact ⟨i, j, hi, hj, by simp [toUndirected, madd, transpose, he]⟩
      · exact ⟨i, j, hi, hj, by simp [toUndirected, madd, transpose, he]⟩
  · rintro u v w ⟨i, j, hi, hj, he⟩
    simp only [toUndirected, madd, transpose, Bool.false_eq_true, if_false] at he
    cases h1 : G.A i j with
    | none => rw [h1] at he; exact .inr ⟨j, i, hj, hi, by simpa using he⟩
    | some a =>
      cases h2 : G.A j i with
      | none => rw [h1, h2] at he; exact .inl ⟨i, j, hi, hj, by rw [h1]; simpa using he⟩
      | some b =>
        rw [h1, h2] at he
        obtain rfl : choose a b = w := by simpa using he
        rcases hc a b with e | e
        · exact .inl ⟨i, j, hi, hj, by rw [h1, e]⟩
        · exact .inr ⟨j, i, hj, hi, by rw [h2, e]⟩

omit [DecidableEq K] in
/-- **C47, reciprocal.** with `reciprocal=True` exactly the pairs joined in both directions stay. -/
theorem to_undirected_reciprocal (h : G.WF) (choose : α → α → α) :
    (toUndirected choose G true).WF ∧ (∀ u, (toUndirected choose G true).Node u ↔ G.Node u) ∧
    ∀ u v, (toUndirected choose G true).Edge u v ↔ G.Edge u v ∧ G.Edge v u := by
  refine ⟨⟨h.keys_nodup, h.ids_perm⟩, fun u => Iff.rfl, ?_⟩
  intro u v
  constructor
  · rintro ⟨i, j, hi, hj, he⟩
    simp only [toUndirected, mmul, transpose, if_true, isSome_ointer, Bool.and_eq_true] at he
    exact ⟨⟨i, j, hi, hj, he.1⟩, ⟨j, i, hj, hi, he.2⟩⟩
  · rintro ⟨⟨i, j, hi, hj, he⟩, ⟨j', i', hj', hi', he'⟩⟩
    obtain rfl := At.id_unique h hi hi'
    obtain rfl := At.id_unique h hj hj'
    exact ⟨i, j, hi, hj, by simp [toUndirected, mmul, transpose, he, he']⟩

omit [DecidableEq K] in
/-- **C47.** Weights: when antiparallel edges agree, or `choose` is commutative, the result is a
symmetric matrix. -/
theorem to_undirected_symm {choose : α → α → α}
    (hw : ∀ i j a b, G.A i j = some a → G.A j i = some b → choose a b = choose b a) (r : Bool) :
    (toUndirected choose G r).Symm := by
  intro i j
  unfold toUndirected
  cases r <;> simp only [madd, mmul, transpose, if_true, Bool.false_eq_true, if_false] <;>
    (have := hw i j; cases h1 : G.A i j <;> cases h2 : G.A j i <;> simp_all)

/-- two antiparallel edges with different weights -/
def Ex.antipar : Graph Nat Int where
  n := 2
  A := Ex.ofTriples 2 [(0,1,3), (1,0,4)]
  keyToId := [(0,0),(1,1)]
  directed := true

/-- **C47, finding.** `to_undirected` of a digraph whose antiparallel edges differ gives an
"undirected" graph whose two directions carry different weights when `any` keeps its first operand. -/
theorem to_undirected_weights_not_symmetric :
    Ex.antipar.WF ∧ (toUndirected (fun a _ => a) Ex.antipar false).WEdge 0 1 3 ∧
    (toUndirected (fun a _ => a) Ex.antipar false).WEdge 1 0 4 ∧
    ¬ (toUndirected (fun a _ => a) Ex.antipar false).Symm := by
  refine ⟨⟨by decide, by decide⟩, by decide +kernel, by decide +kernel, ?_⟩
  unfold Graph.Symm
  decide +kernel

example : (toUndirected (fun a _ => a) Ex.dg false).Edge 20 10 ∧
    ¬ (toUndirected (fun a _ => a) Ex.dg false).Edge 10 30 ∧
    (toUndirected (fun a _ => a) Ex.dg true).Edge 20 30 ∧
    ¬ (toUndirected (fun a _ => a) Ex.dg true).Edge 10 20 := by decide +kernel

/-! ### C25 -/

/-- what `ego_graph` must return, given which nodes are in the ball -/
structure IsInduced (G S : Graph K α) (In : K → Prop) : Prop where
  wf : S.WF
  kind : S.directed = G.directed ∧ S.multi = G.multi
  nodes : ∀ u, S.Node u ↔ In u
  edges : ∀ u v w, S.WEdge u v w ↔ G.WEdge u v w ∧ In u ∧ In v

theorem egoFinish_spec (h : G.WF) {β : Type} {s : K} (hs : G.Node s) (center : Bool) (v : Vec G.n β)
    {In : K → Prop} (hv : ∀ u i, G.At u i → ((v i).isSome ↔ In u)) (hn : ∀ u, In u → G.Node u) :
    ∃ S, egoFinish G s center v = .ok S ∧
      IsInduced G S (fun u => In u ∧ (center = false → u ≠ s)) := by
  obtain ⟨i, hi⟩ := hs.exists_id h
  unfold egoFinish
  rw [(getId_eq_ok h).2 hi]
  obtain ⟨S, hS, hwf, hd, hm, hnode, hedge⟩ :=
    subGraph_ok h (indices_nodup (if center then v else vdel v i))
  have hnode' : ∀ u, S.Node u ↔ In u ∧ (center = false → u ≠ s) := by
    intro u
    rw [hnode]
    constructor
    · rintro ⟨j, hj, hu⟩
      rw [mem_indices] at hj
      cases center with
      | true => exact ⟨(hv u j hu).1 (by simpa using hj), by simp⟩
      | false =>
        simp only [Bool.false_eq_true, if_false, vdel] at hj
        split at hj
        · simp at hj
        · rename_i hne
          exact ⟨(hv u j hu).1 hj, fun _ e => hne (At.id_unique h hu (e ▸ hi))⟩
    · rintro ⟨hu, hne⟩
      obtain ⟨j, hj⟩ := (hn u hu).exists_id h
      refine ⟨j, ?_, hj⟩
      rw [mem_indices]
      have := (hv u j hj).2 hu
      cases center with
      | true => simpa using this
      | false =>
        simp only [Bool.false_eq_true, if_false, vdel]
        rw [if_neg]
        · exact this
        · rintro rfl
          exact hne rfl (At.key_unique h hj hi)
  refine ⟨S, hS, hwf, ⟨hd, hm⟩, hnode', ?_⟩
  intro u v w
  rw [hedge, hnode', hnode']

/-- **C25.** `ego_graph(G, s, radius, center, undirected)`: a graph of the same class whose nodes
are exactly those within `radius` hops of `s` — ignoring directions when `undirected=True` on a
digraph — without `s` itself when `center=False`, and whose weighted edges are exactly the edges
of `G` between them, by key. -/
theorem ego_graph_correct (h : G.WF) {choose : α → α → α} {s : K} (hs : G.Node s) {r : Int}
    (hr : 0 ≤ r) (center undirected : Bool) :
    ∃ S, egoGraph choose G s r center undirected = .ok S ∧
      IsInduced G S (fun u =>
        (∃ d : Nat, IsDist (if undirected && G.directed then Sym G.Edge else G.Edge) s d u ∧ (d : Int) ≤ r) ∧
        (center = false → u ≠ s)) := by
  have hB : (egoBase choose G undirected).WF := by
    unfold egoBase; split
    · exact ⟨h.keys_nodup, h.ids_perm⟩
    · exact h
  have hAt : ∀ u (i : Fin (egoBase choose G undirected).n), (egoBase choose G undirected).At u i ↔
      G.At u (i.cast (egoBase_n choose G undirected)) := by
    intro u i
    have e : (egoBase choose G undirected).keyToId = G.keyToId := by unfold egoBase; split <;> rfl
    unfold At; rw [e]; rfl
  have hNode : (egoBase choose G undirected).Node s := by
    unfold egoBase; split <;> exact hs
  have hE : ∀ u v, (egoBase choose G undirected).Edge u v ↔
      (if undirected && G.directed then Sym G.Edge else G.Edge) u v := by
    intro u v
    unfold egoBase; split
    · constructor
      · rintro ⟨i, j, hi, hj, he⟩
        simp only [toUndirected, madd, transpose, Bool.false_eq_true, if_false, isSome_omerge,
          Bool.or_eq_true] at he
        exact he.imp (fun e => ⟨i, j, hi, hj, e⟩) (fun e => ⟨j, i, hj, hi, e⟩)
      · rintro (⟨i, j, hi, hj, he⟩ | ⟨j, i, hj, hi, he⟩)
        · exact ⟨i, j, hi, hj, by simp [toUndirected, madd, transpose, he]⟩
        · exact ⟨i, j, hi, hj, by simp [toUndirected, madd, transpose, he]⟩
    · exact Iff.rfl
  obtain ⟨i, hi⟩ := hNode.exists_id hB
  unfold egoGraph
  rw [bfsPlain_ok hB hi]
  refine egoFinish_spec h hs center _ ?_ ?_
  · intro u j hj
    have hj' : (egoBase choose G undirected).At u (j.cast (egoBase_n choose G undirected).symm) :=
      (hAt _ _).2 hj
    have := plain_cutoff (G := egoBase choose G undirected) (i := i)
      (j := j.cast (egoBase_n choose G undirected).symm) (some r) (by rintro x ⟨⟩; exact hr)
    rw [this]
    simp only [← isDist_iff hB hi hj', isDist_congr hE, Within, Option.some.injEq, forall_eq']
  · rintro u ⟨d, hd, -⟩
    have hw := hd.1
    have : (egoBase choose G undirected).Node u :=
      Walk_node hNode ((walk_congr hE).2 hw)
    unfold egoBase at this
    revert this
    split <;> exact id

/-- **C25, the excluded radii**: a negative radius is treated like radius 0 (NetworkX returns no node). -/
theorem ego_graph_negative_radius (choose : α → α → α) (G : Graph K α) (s : K) {r : Int} (hr : r < 0)
    (center undirected : Bool) :
    egoGraph choose G s r center undirected = egoGraph choose G s 0 center undirected := by
  have e : ∀ n : Nat, range1 (getCutoff n (some r)) = range1 (getCutoff n (some 0)) := by
    intro n
    have h1 : ¬ r ≥ (n : Int) := by omega
    have e1 : getCutoff n (some r) = r + 1 := if_neg h1
    rw [e1]
    by_cases h2 : (0 : Int) ≥ n
    · have e2 : getCutoff n (some 0) = n := if_pos h2
      rw [e2]; unfold range1; congr 1; omega
    · have e2 : getCutoff n (some 0) = 0 + 1 := if_neg h2
      rw [e2]; unfold range1; congr 1; omega
  unfold egoGraph bfsPlain bfsPlainFrom
  simp only [e]

/-- **C25.** an unknown node raises KeyError. -/
theorem ego_graph_missing (h : G.WF) {choose : α → α → α} {s : K} (hs : ¬ G.Node s) (r : Int)
    (center undirected : Bool) : egoGraph choose G s r center undirected = .error .keyError := by
  have hB : (egoBase choose G undirected).WF := by
    unfold egoBase; split
    · exact ⟨h.keys_nodup, h.ids_perm⟩
    · exact h
  unfold egoGraph
  rw [bfsPlain_error hB]
  · rfl
  · unfold egoBase; split <;> exact hs

/-- the edges that count for a weighted ego graph -/
def EgoW (choose : α → α → α) (G : Graph K α) (undirected : Bool) : K → K → α → Prop :=
  if undirected && G.directed then (toUndirected choose G false).WEdge else G.WEdge

/-- **C25, weighted.** with a distance attribute and no negative weights, the ball is measured by
the minimum total weight along edges (of `G.to_undirected()` when `undirected=True`). -/
theorem ego_graph_weighted_correct [AddCommGroup α] [LinearOrder α] [IsOrderedAddMonoid α]
    (h : G.WF) {choose : α → α → α} {undirected : Bool} {iso : Option α}
    (hiso : ∀ c, iso = some c → 0 < c ∧ ∀ u v w, EgoW choose G undirected u v w → w = c)
    {fdiv : α → α → Int} (hf : FloorDiv fdiv)
    (hnn : ∀ u v w, EgoW choose G undirected u v w → 0 ≤ w) {s : K} (hs : G.Node s) {x : α}
    (hx : 0 ≤ x) (center : Bool) :
    ∃ S, egoGraphW choose G iso fdiv s x center undirected = .ok S ∧
      IsInduced G S (fun u => (∃ d, IsWDist (EgoW choose G undirected) s d u ∧ d ≤ x) ∧
        (center = false → u ≠ s)) := by
  have hB : (egoBase choose G undirected).WF := by
    unfold egoBase; split
    · exact ⟨h.keys_nodup, h.ids_perm⟩
    · exact h
  have hAt : ∀ u (i : Fin (egoBase choose G undirected).n), (egoBase choose G undirected).At u i ↔
      G.At u (i.cast (egoBase_n choose G undirected)) := by
    intro u i
    have e : (egoBase choose G undirected).keyToId = G.keyToId := by unfold egoBase; split <;> rfl
    unfold At; rw [e]; rfl
  have hNode : ∀ u, (egoBase choose G undirected).Node u ↔ G.Node u := by
    intro u; unfold egoBase; split <;> exact Iff.rfl
  have hE : EgoW choose G undirected = (egoBase choose G undirected).WEdge := by
    unfold egoBase EgoW; split <;> rfl
  rw [hE] at hiso hnn
  rw [hE]
  obtain ⟨r, hr, hspec⟩ := single_source_bellman_ford_path_length_cutoff hB (iso := iso)
    (fun c hc u v w hw => (hiso c hc).2 u v w hw)
    (fun e => (hiso 0 e).1.ne rfl) hf hnn ((hNode s).2 hs) hx (fun c hc => (hiso c hc).1.le)
  unfold egoGraphW
  rw [hr]
  refine egoFinish_spec h hs center _ ?_ ?_
  · intro u j hj
    have hj' := (hAt u (j.cast (egoBase_n choose G undirected).symm)).2 hj
    rw [Option.isSome_iff_exists]
    simp only [← hspec, view_at hB hj']
  · rintro u ⟨d, ⟨⟨k, hd⟩, -⟩, -⟩
    exact (hNode u).1 (WWalk_node ((hNode s).2 hs) hd)

example : ∃ S, egoGraph (fun a _ => a) Ex.dg 20 1 true false = .ok S ∧
    S.keyToId = [(20,0),(30,1)] ∧ S.WEdge 30 20 2 ∧ ¬ S.Edge 10 20 := by
  refine ⟨_, rfl, ?_⟩; decide +kernel
example : ∃ S, egoGraph (fun a _ => a) Ex.dg 20 1 false true = .ok S ∧
    S.keyToId = [(30,0),(10,1)] ∧ S.WEdge 30 30 1 ∧ ¬ S.Node 20 := by
  refine ⟨_, rfl, ?_⟩; decide +kernel
example : ∃ S, egoGraphW (fun a _ => a) Ex.dg none (fun x c => x / c) 10 11 true false = .ok S ∧
    S.keyToId = [(20,0),(10,1)] := by
  refine ⟨_, rfl, ?_⟩; decide +kernel

end Props
