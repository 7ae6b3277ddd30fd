import Verif.Proofs.Operators
import Verif.Props.Examples

/-!
# C43 union / disjoint_union, C44 intersection / difference / symmetric_difference, C45 compose,
C46 complement / reverse, C48 full_join
-/

open GB Spec Model Model.Graph Proofs

namespace Props

variable {K K' α : Type} [DecidableEq K] [DecidableEq K'] {G H : Graph K α}

/-! ### C43 -/

/-- **C43.** `union(G, H)` of graphs with disjoint node sets: a well-formed graph of `G`'s class
whose nodes are the nodes of both and whose weighted edges are exactly those of `G` and those of
`H`, by key. -/
theorem union_correct (hG : G.WF) (hH : H.WF) (h1 : G.multi = false) (h2 : H.multi = false)
    (hd : ∀ u, G.Node u → ¬ H.Node u) :
    ∃ R, Model.union G H = .ok R ∧ R.WF ∧ R.directed = G.directed ∧ R.multi = false ∧
      (∀ u, R.Node u ↔ G.Node u ∨ H.Node u) ∧
      ∀ u v w, R.WEdge u v w ↔ G.WEdge u v w ∨ H.WEdge u v w :=
  ⟨unionGraph G H, union_ok hG hH h1 h2 hd, unionGraph_wf hG hH hd, rfl, h1,
    fun _ => unionGraph_node, fun _ _ _ => unionGraph_wedge hG⟩

/-- **C43.** no edge joins a node of `G` to a node of `H`. -/
theorem union_no_cross (hG : G.WF) (hH : H.WF) (h1 : G.multi = false) (h2 : H.multi = false)
    (hd : ∀ u, G.Node u → ¬ H.Node u) {R : Graph K α} (hR : Model.union G H = .ok R) {u v : K}
    (hu : G.Node u) (hv : H.Node v) : ¬ R.Edge u v ∧ ¬ R.Edge v u := by
  obtain ⟨R', hR', -, -, -, -, hw⟩ := union_correct hG hH h1 h2 hd
  rw [hR] at hR'; cases hR'
  have hc : ∀ {a b : K} {w : α}, G.WEdge a b w → G.Node a ∧ G.Node b :=
    fun ⟨_, _, ha, hb, _⟩ => ⟨ha.node, hb.node⟩
  have hc' : ∀ {a b : K} {w : α}, H.WEdge a b w → H.Node a ∧ H.Node b :=
    fun ⟨_, _, ha, hb, _⟩ => ⟨ha.node, hb.node⟩
  constructor <;> (rw [edge_iff_wedge]; rintro ⟨w, he⟩; rcases (hw _ _ _).1 he with he | he)
  · exact hd v (hc he).2 hv
  · exact hd u hu (hc' he).1
  · exact hd v (hc he).1 hv
  · exact hd u hu (hc' he).2

/-- **C43.** overlapping node sets are rejected. -/
theorem union_overlap (h1 : G.multi = false) (h2 : H.multi = false)
    {u : K} (hu : G.Node u) (hv : H.Node u) : Model.union G H = .error .algorithm := by
  unfold Model.union
  rw [multiCheck_ok h1 h2]
  have : (G.keyToId.any fun p => H.contains p.1) = true := by
    rw [List.any_eq_true]
    obtain ⟨p, hp, rfl⟩ := List.mem_map.1 hu
    exact ⟨p, hp, contains_iff.2 hv⟩
  show (if _ then _ else _) = _
  rw [if_pos this]

/-- **C43, rename.** `union(G, H, rename=(f, g))`, when the renamings are injective on the nodes of
each graph and the renamed node sets are disjoint. -/
theorem union_rename_correct (hG : G.WF) (hH : H.WF) (h1 : G.multi = false) (h2 : H.multi = false)
    {f g : K → K'} (hf : ∀ u v, G.Node u → G.Node v → f u = f v → u = v)
    (hg : ∀ u v, H.Node u → H.Node v → g u = g v → u = v)
    (hd : ∀ u v, G.Node u → H.Node v → f u ≠ g v) :
    ∃ R, Model.union (renameKeys f G) (renameKeys g H) = .ok R ∧ R.WF ∧ R.directed = G.directed ∧
      (∀ x, R.Node x ↔ (∃ u, G.Node u ∧ f u = x) ∨ (∃ u, H.Node u ∧ g u = x)) ∧
      ∀ x y w, R.WEdge x y w ↔ (∃ u v, f u = x ∧ f v = y ∧ G.WEdge u v w) ∨
        (∃ u v, g u = x ∧ g v = y ∧ H.WEdge u v w) := by
  obtain ⟨R, hR, hwf, hdir, -, hn, he⟩ := union_correct (rename_wf hG hf) (rename_wf hH hg) h1 h2
    (by
      intro x hx hy
      obtain ⟨u, hu, rfl⟩ := (rename_node hG hf).1 hx
      obtain ⟨v, hv, e⟩ := (rename_node hH hg).1 hy
      exact hd u v hu hv e.symm)
  refine ⟨R, hR, hwf, hdir, ?_, ?_⟩
  · intro x; rw [hn, rename_node hG hf, rename_node hH hg]
  · intro x y w; rw [he, rename_wedge hG hf, rename_wedge hH hg]

/-- two nodes whose names become equal under a prefix (like `1` and `"1"`), joined by an edge -/
def Ex.twoNames : Graph (Nat ⊕ String) Int where
  n := 2
  A := Ex.ofTriples 2 [(0,1,3), (1,0,3)]
  keyToId := [(.inl 1,0),(.inr "1",1)]

/-- f"{prefix}{key}" for the two keys of `Ex.twoNames` -/
def Ex.pref : Nat ⊕ String → Nat ⊕ String
  | .inl n => .inr ("a" ++ toString n)
  | .inr s => .inr ("a" ++ s)

/-- **C43, finding.** renaming whose prefixed keys collide (node `1` and node `"1"`) silently
loses a node: the node dictionary of the result has fewer keys than the matrix has rows. -/
theorem union_rename_collision :
    Ex.twoNames.WF ∧ (renameKeys Ex.pref Ex.twoNames).keyToId = [(.inr "a1", 1)] ∧
    (renameKeys Ex.pref Ex.twoNames).n = 2 ∧ ¬ (renameKeys Ex.pref Ex.twoNames).WF := by
  have e : (renameKeys Ex.pref Ex.twoNames).keyToId = [(.inr "a1", 1)] := by decide +kernel
  refine ⟨⟨by decide, by decide⟩, e, rfl, fun h => ?_⟩
  have := h.length
  rw [e] at this
  cases this

/-- **C43.** `disjoint_union(G, H)`: nodes `0 .. n-1`; the node of `G` at row `a` becomes `a`, the
node of `H` at row `b` becomes `G.n + b` (two injective renamings with disjoint ranges that cover
everything), and the weighted edges are exactly the renamed ones. -/
theorem disjoint_union_correct (hG : G.WF) (hH : H.WF) (h1 : G.multi = false)
    (h2 : H.multi = false) :
    ∃ (R : Graph Nat α) (f g : K → Nat), disjointUnion G H = .ok R ∧ R.WF ∧
      R.directed = G.directed ∧
      (∀ x, R.Node x ↔ x < G.n + H.n) ∧
      (∀ u v, G.Node u → G.Node v → f u = f v → u = v) ∧
      (∀ u v, H.Node u → H.Node v → g u = g v → u = v) ∧
      (∀ u (i : Fin G.n), G.At u i → f u = i.val) ∧ (∀ u (i : Fin H.n), H.At u i → g u = G.n + i.val) ∧
      ∀ x y w, R.WEdge x y w ↔ (∃ u v, f u = x ∧ f v = y ∧ G.WEdge u v w) ∨
        (∃ u v, g u = x ∧ g v = y ∧ H.WEdge u v w) := by
  have hidG : ∀ {u : K} {i : Fin G.n}, G.At u i → (G.keyToId.lookup u).getD 0 = i.val := by
    intro u i hu; rw [(lookup_eq_some_iff hG.keys_nodup).2 hu]; rfl
  have hidH : ∀ {u : K} {i : Fin H.n}, H.At u i → (H.keyToId.lookup u).getD 0 = i.val := by
    intro u i hu; rw [(lookup_eq_some_iff hH.keys_nodup).2 hu]; rfl
  let R : Graph Nat α := ⟨G.n + H.n, blockDiag G.A H.A,
    (List.range (G.n + H.n)).map fun i => (i, i), G.directed, G.multi⟩
  have hat : ∀ x (i : Fin (G.n + H.n)), R.At x i ↔ x = i.val := by
    intro x i
    simp only [At, R, List.mem_map, List.mem_range, Prod.mk.injEq]
    constructor
    · rintro ⟨a, -, rfl, h⟩; exact h
    · rintro rfl; exact ⟨_, i.isLt, rfl, rfl⟩
  refine ⟨R, fun u => (G.keyToId.lookup u).getD 0, fun u => G.n + (H.keyToId.lookup u).getD 0,
    ?_, ⟨?_, ?_⟩, rfl, ?_, ?_, ?_, ?_, ?_, ?_⟩
  · unfold disjointUnion; rw [multiCheck_ok h1 h2]; rfl
  · simp [R, List.map_map, Function.comp_def, List.nodup_range]
  · simp [R, List.map_map, Function.comp_def]
  · intro x; simp [Node, R, List.map_map, Function.comp_def]
  · intro u v hu hv e
    obtain ⟨i, hi⟩ := hu.exists_id hG
    obtain ⟨j, hj⟩ := hv.exists_id hG
    simp only [hidG hi, hidG hj] at e
    exact At.key_unique hG hi (Fin.ext e ▸ hj)
  · intro u v hu hv e
    obtain ⟨i, hi⟩ := hu.exists_id hH
    obtain ⟨j, hj⟩ := hv.exists_id hH
    simp only [hidH hi, hidH hj] at e
    exact At.key_unique hH hi ((Fin.ext (by omega) : i = j) ▸ hj)
  · intro u i hi
    exact hidG hi
  · intro u i hi
    simp only [hidH hi]
  · intro x y w
    constructor
    · rintro ⟨i, j, hi, hj, hw⟩
      obtain rfl := (hat _ _).1 hi
      obtain rfl := (hat _ _).1 hj
      have hw' : blockDiag G.A H.A i j = some w := hw
      clear hw
      revert hw'
      refine Fin.addCases (fun a => ?_) (fun a => ?_) i <;>
        refine Fin.addCases (fun b => ?_) (fun b => ?_) j <;>
        simp only [blockDiag_ll, blockDiag_lr, blockDiag_rl, blockDiag_rr]
      · intro hw
        obtain ⟨u, hu⟩ := hG.exists_key a
        obtain ⟨v, hv⟩ := hG.exists_key b
        exact .inl ⟨u, v, hidG hu, hidG hv, a, b, hu, hv, hw⟩
      · intro hw; cases hw
      · intro hw; cases hw
      · intro hw
        obtain ⟨u, hu⟩ := hH.exists_key a
        obtain ⟨v, hv⟩ := hH.exists_key b
        exact .inr ⟨u, v, by simp [hidH hu], by simp [hidH hv], a, b, hu, hv, hw⟩
    · rintro (⟨u, v, rfl, rfl, a, b, hu, hv, hw⟩ | ⟨u, v, rfl, rfl, a, b, hu, hv, hw⟩)
      · refine ⟨Fin.castAdd _ a, Fin.castAdd _ b, (hat _ _).2 (hidG hu), (hat _ _).2 (hidG hv), ?_⟩
        exact (blockDiag_ll G.A H.A a b).trans hw
      · refine ⟨Fin.natAdd _ a, Fin.natAdd _ b, (hat _ _).2 (by simp [hidH hu]),
          (hat _ _).2 (by simp [hidH hv]), ?_⟩
        exact (blockDiag_rr G.A H.A a b).trans hw

/-! ### C44 -/

/-- **C44.** `intersection(G, H)`: the common nodes, and an edge (weight one) exactly where both
graphs have one, matched by key. -/
theorem intersection_correct (hG : G.WF) (hH : H.WF) (h1 : G.multi = false) (h2 : H.multi = false)
    (one : α) :
    ∃ R, Model.intersection one G H = .ok R ∧ R.WF ∧ R.directed = G.directed ∧ R.multi = false ∧
      (∀ u, R.Node u ↔ G.Node u ∧ H.Node u) ∧
      (∀ u v, R.Edge u v ↔ G.Edge u v ∧ H.Edge u v) ∧
      ∀ u v w, R.WEdge u v w → w = one := by
  have hk : ∀ u, u ∈ sortedKeys G (fun k => H.contains k) ↔ G.Node u ∧ H.Node u := by
    intro u; rw [mem_sortedKeys, contains_iff]
  obtain ⟨A, hA, hAs⟩ := extractKeys_ok hG (keys := sortedKeys G fun k => H.contains k)
    (fun u hu => ((hk u).1 hu).1)
  obtain ⟨B, hB, hBs⟩ := extractKeys_ok hH (keys := sortedKeys G fun k => H.contains k)
    (fun u hu => ((hk u).1 hu).2)
  refine ⟨⟨_, mapply (fun _ => one) (massignR (mS A) B), (sortedKeys G fun k => H.contains k).zipIdx,
    G.directed, G.multi⟩, ?_, wf_zipIdx (sortedKeys_nodup hG _) rfl _ _, rfl, h1, ?_, ?_, ?_⟩
  · unfold Model.intersection
    rw [multiCheck_ok h1 h2]
    show (do let A ← extractKeys G _; _) = _
    rw [hA]
    show (do let B ← extractKeys H _; _) = _
    rw [hB]
    rfl
  · intro u
    rw [← hk]
    simp [Node]
  · intro u v
    have key : ∀ i j : Fin (sortedKeys G fun k => H.contains k).length,
        ((mapply (fun _ => one) (massignR (mS A) B)) i j).isSome ↔ (A i j).isSome ∧ (B i j).isSome := by
      intro i j
      simp only [mapply, massignR_S, Option.isSome_map]
      cases (A i j) <;> simp
    constructor
    · rintro ⟨i, j, hi, hj, he⟩
      obtain ⟨ha, hb⟩ := (key i j).1 he
      rw [at_zipIdx] at hi hj
      obtain ⟨_, ei⟩ := List.getElem?_eq_some_iff.1 hi
      obtain ⟨_, ej⟩ := List.getElem?_eq_some_iff.1 hj
      obtain ⟨a, ha⟩ := Option.isSome_iff_exists.1 ha
      obtain ⟨b, hb⟩ := Option.isSome_iff_exists.1 hb
      have ha := (hAs i j a).1 ha
      have hb := (hBs i j b).1 hb
      simp only [Fin.getElem_fin, ei, ej] at ha hb
      exact ⟨edge_iff_wedge.2 ⟨a, ha⟩, edge_iff_wedge.2 ⟨b, hb⟩⟩
    · rintro ⟨ha, hb⟩
      obtain ⟨i, hi, ei⟩ := List.getElem_of_mem ((hk u).2 ⟨ha.node_left, hb.node_left⟩)
      obtain ⟨j, hj, ej⟩ := List.getElem_of_mem ((hk v).2 ⟨ha.node_right, hb.node_right⟩)
      obtain ⟨a, ha⟩ := edge_iff_wedge.1 ha
      obtain ⟨b, hb⟩ := edge_iff_wedge.1 hb
      have ha' := (hAs ⟨i, hi⟩ ⟨j, hj⟩ a).2 (by simpa [ei, ej] using ha)
      have hb' := (hBs ⟨i, hi⟩ ⟨j, hj⟩ b).2 (by simpa [ei, ej] using hb)
      refine ⟨⟨i, hi⟩, ⟨j, hj⟩, at_zipIdx.2 (List.getElem?_eq_some_iff.2 ⟨hi, ei⟩),
        at_zipIdx.2 (List.getElem?_eq_some_iff.2 ⟨hj, ej⟩), ?_⟩
      exact (key _ _).2 ⟨by rw [ha']; rfl, by rw [hb']; rfl⟩
  · rintro u v w ⟨i, j, -, -, hw⟩
    simp only [mapply, Option.map_eq_some_iff] at hw
    obtain ⟨_, _, e⟩ := hw
    exact e.symm

/-- **C44.** `difference(G, H)`: on equal node sets, an edge (weight one) exactly where `G` has one
and `H` has none, matched by key whatever the two numberings; different node sets are rejected. -/
theorem difference_correct (hG : G.WF) (hH : H.WF) (h1 : G.multi = false) (h2 : H.multi = false)
    (one : α) :
    ((∀ u, G.Node u ↔ H.Node u) → ∃ R, Model.difference one G H = .ok R ∧ R.WF ∧
      R.directed = G.directed ∧ R.multi = false ∧ (∀ u, R.Node u ↔ G.Node u) ∧
      (∀ u v, R.Edge u v ↔ G.Edge u v ∧ ¬ H.Edge u v) ∧ ∀ u v w, R.WEdge u v w → w = one) ∧
    ((¬ ∀ u, G.Node u ↔ H.Node u) → Model.difference one G H = .error .algorithm) := by
  constructor
  · intro h
    obtain ⟨B, hB, hBs⟩ := aligned_ok hG hH h
    refine ⟨⟨G.n, massignR (mnot (mS B)) (mapply (fun _ => one) G.A), G.keyToId, G.directed, G.multi⟩,
      ?_, ⟨hG.keys_nodup, hG.ids_perm⟩, rfl, h1, fun u => Iff.rfl, ?_, ?_⟩
    · unfold Model.difference
      rw [multiCheck_ok h1 h2]
      show (if _ then _ else _) = _
      rw [if_neg (by simp [sameKeys_iff.2 h]), hB]
      rfl
    · intro u v
      have hBe : ∀ i j, G.At u i → G.At v j → ((B i j).isSome ↔ H.Edge u v) := by
        intro i j hi hj
        rw [edge_iff_wedge, Option.isSome_iff_exists]
        exact exists_congr fun w => hBs u v i j w hi hj
      constructor
      · rintro ⟨i, j, hi, hj, he⟩
        have := hBe i j hi hj
        simp only [massignR_notS, mapply] at he
        split at he
        · simp at he
        · rename_i hb
          exact ⟨⟨i, j, hi, hj, by simpa using he⟩, fun hc => hb (this.2 hc)⟩
      · rintro ⟨⟨i, j, hi, hj, he⟩, hc⟩
        refine ⟨i, j, hi, hj, ?_⟩
        rw [← hBe i j hi hj] at hc
        simp only [massignR_notS, mapply]
        rw [if_neg hc]
        simpa using he
    · rintro u v w ⟨i, j, -, -, hw⟩
      simp only [massignR, mapply] at hw
      split at hw
      · obtain ⟨_, _, e⟩ := Option.map_eq_some_iff.1 hw; exact e.symm
      · cases hw
  · intro h
    unfold Model.difference
    rw [multiCheck_ok h1 h2]
    show (if _ then _ else _) = _
    rw [if_pos (by simpa [← sameKeys_iff] using h)]

/-- **C44.** `symmetric_difference(G, H)`: on equal node sets, an edge (weight one) exactly where
one of the graphs has one and the other has none. -/
theorem symmetric_difference_correct (hG : G.WF) (hH : H.WF) (h1 : G.multi = false)
    (h2 : H.multi = false) (one : α) :
    ((∀ u, G.Node u ↔ H.Node u) → ∃ R, Model.symmetricDifference one G H = .ok R ∧ R.WF ∧
      R.directed = G.directed ∧ R.multi = false ∧ (∀ u, R.Node u ↔ G.Node u) ∧
      (∀ u v, R.Edge u v ↔ (G.Edge u v ∧ ¬ H.Edge u v) ∨ (H.Edge u v ∧ ¬ G.Edge u v)) ∧
      ∀ u v w, R.WEdge u v w → w = one) ∧
    ((¬ ∀ u, G.Node u ↔ H.Node u) → Model.symmetricDifference one G H = .error .algorithm) := by
  constructor
  · intro h
    obtain ⟨B, hB, hBs⟩ := aligned_ok hG hH h
    refine ⟨⟨G.n, massignR (mnot (mS (mmul pairB G.A B))) (munion (fun _ _ => one) one one G.A B),
      G.keyToId, G.directed, G.multi⟩, ?_, ⟨hG.keys_nodup, hG.ids_perm⟩, rfl, h1, fun u => Iff.rfl,
      ?_, ?_⟩
    · unfold Model.symmetricDifference
      rw [multiCheck_ok h1 h2]
      show (if _ then _ else _) = _
      rw [if_neg (by simp [sameKeys_iff.2 h]), hB]
      rfl
    · intro u v
      have hBe : ∀ i j, G.At u i → G.At v j → (H.Edge u v ↔ (B i j).isSome) := by
        intro i j hi hj
        rw [edge_iff_wedge, Option.isSome_iff_exists]
        exact exists_congr fun w => (hBs u v i j w hi hj).symm
      have key : ∀ i j, ((massignR (mnot (mS (mmul pairB G.A B)))
          (munion (fun _ _ => one) one one G.A B)) i j).isSome ↔
          ((G.A i j).isSome ∧ ¬ (B i j).isSome) ∨ ((B i j).isSome ∧ ¬ (G.A i j).isSome) := by
        intro i j
        have e : (mmul pairB G.A B i j).isSome = ((G.A i j).isSome && (B i j).isSome) := by
          unfold mmul; rw [isSome_ointer]
        rw [massignR_notS]
        simp only [e, munion]
        cases G.A i j <;> cases B i j <;> simp [ounion, ointer]
      constructor
      · rintro ⟨i, j, hi, hj, he⟩
        rw [hBe i j hi hj, edge_iff hG hi hj]
        exact (key i j).1 he
      · intro hh
        have hn : G.Node u ∧ G.Node v := by
          rcases hh with ⟨a, -⟩ | ⟨a, -⟩
          · exact ⟨a.node_left, a.node_right⟩
          · exact ⟨(h u).2 a.node_left, (h v).2 a.node_right⟩
        obtain ⟨i, hi⟩ := hn.1.exists_id hG
        obtain ⟨j, hj⟩ := hn.2.exists_id hG
        rw [hBe i j hi hj, edge_iff hG hi hj] at hh
        exact ⟨i, j, hi, hj, (key i j).2 hh⟩
    · rintro u v w ⟨i, j, -, -, hw⟩
      simp only [massignR, munion] at hw
      split at hw
      · cases h1 : G.A i j <;> cases h2 : B i j <;> rw [h1, h2] at hw <;> simp [ounion] at hw <;>
          exact hw.symm
      · cases hw
  · intro h
    unfold Model.symmetricDifference
    rw [multiCheck_ok h1 h2]
    show (if _ then _ else _) = _
    rw [if_pos (by simpa [← sameKeys_iff] using h)]

/-! ### C45 -/

/-- **C45, equal node sets.** `compose(G, H)`: the nodes of both, the weighted edges of `H`, and
those edges of `G` that `H` does not have. -/
theorem compose_same_nodes (hG : G.WF) (hH : H.WF) (h1 : G.multi = false) (h2 : H.multi = false)
    (h : ∀ u, G.Node u ↔ H.Node u) :
    ∃ R, compose G H = .ok R ∧ R.WF ∧ R.directed = G.directed ∧ R.multi = false ∧
      (∀ u, R.Node u ↔ G.Node u) ∧
      ∀ u v w, R.WEdge u v w ↔ H.WEdge u v w ∨ (G.WEdge u v w ∧ ¬ H.Edge u v) := by
  obtain ⟨B, hB, hBs⟩ := aligned_ok hG hH h
  refine ⟨⟨G.n, madd second G.A B, G.keyToId, G.directed, G.multi⟩,
    ?_, ⟨hG.keys_nodup, hG.ids_perm⟩, rfl, h1, fun u => Iff.rfl, ?_⟩
  · unfold compose
    rw [multiCheck_ok h1 h2]
    show (if _ then _ else _) = _
    rw [if_pos (sameKeys_iff.2 h)]
    unfold composeSame
    rw [hB]
    rfl
  · intro u v w
    have key : ∀ i j, (madd second G.A B) i j = some w ↔
        B i j = some w ∨ (G.A i j = some w ∧ ¬ (B i j).isSome) := by
      intro i j
      simp only [madd]
      cases G.A i j <;> cases B i j <;> simp [omerge, second]
    have hBe : ∀ i j, G.At u i → G.At v j → (H.Edge u v ↔ (B i j).isSome) := by
      intro i j hi hj
      rw [edge_iff_wedge, Option.isSome_iff_exists]
      exact exists_congr fun w => (hBs u v i j w hi hj).symm
    constructor
    · rintro ⟨i, j, hi, hj, he⟩
      rw [hBe i j hi hj, ← hBs u v i j w hi hj, wedge_iff hG hi hj]
      exact (key i j).1 he
    · intro hh
      have hn : G.Node u ∧ G.Node v := by
        rcases hh with ⟨_, _, a, b, -⟩ | ⟨⟨_, _, a, b, -⟩, -⟩
        · exact ⟨(h u).2 a.node, (h v).2 b.node⟩
        · exact ⟨a.node, b.node⟩
      obtain ⟨i, hi⟩ := hn.1.exists_id hG
      obtain ⟨j, hj⟩ := hn.2.exists_id hG
      rw [hBe i j hi hj, ← hBs u v i j w hi hj, wedge_iff hG hi hj] at hh
      exact ⟨i, j, hi, hj, (key i j).2 hh⟩

/-- what `compose(G, H)` computes when the node sets differ and the new nodes of `H` have the lowest
row numbers of `H`: edges of `H` among shared nodes replace all edges of `G` there, edges of `H`
among new nodes are added, edges of `H` between shared and new nodes are lost -/
theorem compose_diff_char (hG : G.WF) (hH : H.WF) (h1 : G.multi = false) (h2 : H.multi = false)
    (h : ¬ ∀ u, G.Node u ↔ H.Node u)
    (hini : ∀ u v i j, H.At u i → H.At v j → ¬ G.Node u → G.Node v → i < j) :
    ∃ R, compose G H = .ok R ∧ R.WF ∧ R.directed = G.directed ∧ R.multi = false ∧
      (∀ u, R.Node u ↔ G.Node u ∨ H.Node u) ∧
      ∀ u v w, R.WEdge u v w ↔
        (H.WEdge u v w ∧ (G.Node u ↔ G.Node v)) ∨ (G.WEdge u v w ∧ ¬ (H.Node u ∧ H.Node v)) := by
  set keys := sortedKeys G fun k => H.contains k with hkeys
  set newkeys := sortedKeys H fun k => !G.contains k with hnew
  have hk : ∀ u, u ∈ keys ↔ G.Node u ∧ H.Node u := by
    intro u; rw [hkeys, mem_sortedKeys, contains_iff]
  have hk' : ∀ u, u ∈ newkeys ↔ H.Node u ∧ ¬ G.Node u := by
    intro u; rw [hnew, mem_sortedKeys, Bool.not_eq_true', ← Bool.not_eq_true, contains_iff]
  have hnk : ∀ a (ha : a < newkeys.length), (newkeys[a], a) ∈ H.keyToId := by
    apply sortedKeys_initial hH
    intro u v i j hu hv hp hji
    simp only [Bool.not_eq_true', ← Bool.not_eq_true, contains_iff] at hp ⊢
    intro hgv
    have := hini u v ⟨i, hH.id_lt hu⟩ ⟨j, hH.id_lt hv⟩ hu hv hp hgv
    rw [Fin.lt_def] at this
    simp only at this
    omega
  obtain ⟨B1, hB1, hB1s⟩ := extractKeys_ok hH (keys := keys) fun u hu => ((hk u).1 hu).2
  obtain ⟨B2, hB2, hB2s⟩ := extractKeys_ok hH (keys := newkeys) fun u hu => ((hk' u).1 hu).1
  obtain ⟨ids, hids, hidsf⟩ := listToIds_ok hH (keys := newkeys) fun u hu => ((hk' u).1 hu).1
  obtain ⟨idsG, hidsG, hidsGf⟩ := listToIds_ok hG (keys := keys) fun u hu => ((hk u).1 hu).1
  have hlG : idsG.length = keys.length := hidsGf.length_eq.symm
  have hle : G.n ≤ G.n + newkeys.length := Nat.le_add_right _ _
  let ids1 : Fin keys.length → Fin (G.n + newkeys.length) :=
    fun i => (idsG.get (i.cast hlG.symm)).castLE hle
  have hids1 : ∀ i : Fin keys.length, (keys[i], (ids1 i).val) ∈ G.keyToId := by
    intro i
    have := (List.forall₂_iff_get.1 hidsGf).2 i.val i.isLt (by rw [hlG]; exact i.isLt)
    simpa [ids1, At] using this
  have hids1lt : ∀ i, (ids1 i).val < G.n := fun i => hG.id_lt (hids1 i)
  have hids1inj : Function.Injective ids1 := by
    intro a b e
    have h1 := hids1 a
    rw [e] at h1
    have := mem_id_unique hG.ids_nodup h1 (hids1 b)
    simp only [Fin.getElem_fin] at this
    exact Fin.ext ((sortedKeys_nodup hG _).getElem_inj_iff.1 this)
  have hidIn : idsIn G (G.n + newkeys.length) keys = .ok ids1 := by
    unfold idsIn
    rw [hidsG]
    show (if h : idsG.length = keys.length ∧ G.n ≤ G.n + newkeys.length then _ else _) = _
    rw [dif_pos ⟨hlG, hle⟩]
  let C0 : Mat (G.n + newkeys.length) (G.n + newkeys.length) α := fun i j =>
    if h : i.val < G.n ∧ j.val < G.n then G.A ⟨i, h.1⟩ ⟨j, h.2⟩ else none
  let C2 := assignRegion (assignRegion C0 ids1 B1) (fun a => Fin.natAdd G.n a) B2
  have hzip : dupdate (dictOf (newkeys.zip (ids.map fun i => i.val + G.n))) G.keyToId =
      (newkeys.zip (ids.map fun i => i.val + G.n)) ++ G.keyToId := by
    have hl : ids.length = newkeys.length := hidsf.length_eq.symm
    have e : (newkeys.zip (ids.map fun i => i.val + G.n)).map Prod.fst = newkeys := by
      rw [List.map_fst_zip]; simp [hl]
    rw [dictOf_nodup (by rw [e]; exact sortedKeys_nodup hH _), dupdate_append]
    rw [List.map_append, e, List.nodup_append]
    refine ⟨sortedKeys_nodup hH _, hG.keys_nodup, ?_⟩
    rintro a ha b hb rfl
    exact ((hk' a).1 ha).2 hb
  have hzip2 : newkeys.zip (ids.map fun i => i.val + G.n) =
      newkeys.zipIdx.map fun p => (p.1, p.2 + G.n) := by
    have hl : ids.length = newkeys.length := hidsf.length_eq.symm
    apply List.ext_getElem
    · simp [hl]
    · intro a ha ha'
      have hlt : a < newkeys.length := by simpa [hl] using ha
      have hat := (List.forall₂_iff_get.1 hidsf).2 a hlt (by rw [hl]; exact hlt)
      simp only [List.get_eq_getElem, At] at hat
      have := mem_key_unique hH.keys_nodup hat (hnk a hlt)
      simp [this]
  let R : Graph K α := ⟨G.n + newkeys.length, C2,
    (newkeys.zipIdx.map fun p => (p.1, p.2 + G.n)) ++ G.keyToId, G.directed, G.multi⟩
  have hRok : compose G H = .ok R := by
    unfold compose
    rw [multiCheck_ok h1 h2]
    show (if _ then _ else _) = _
    rw [if_neg (by simpa [← sameKeys_iff] using h)]
    unfold composeDiff
    show (do let ids1 ← idsIn G (G.n + newkeys.length) keys; _) = _
    rw [hidIn]
    show (do let B1 ← extractKeys H keys; _) = _
    rw [hB1]
    show (do let B2 ← extractKeys H newkeys; _) = _
    rw [hB2]
    show (do let ids ← listToIds H newkeys; _) = _
    rw [hids]
    show Except.ok (Graph.mk _ _ (dupdate (dictOf (newkeys.zip (ids.map fun i => i.val + G.n))) G.keyToId) _ _) = _
    rw [hzip, hzip2]
  have hnode : ∀ u, R.Node u ↔ G.Node u ∨ H.Node u := by
    intro u
    have : R.Node u ↔ u ∈ newkeys ∨ G.Node u := by
      simp [Node, R, List.map_map, Function.comp_def]
    rw [this, hk']
    tauto
  have hat : ∀ u (i : Fin R.n), R.At u i ↔
      (u, i.val) ∈ G.keyToId ∨ ∃ a : Fin newkeys.length, i = Fin.natAdd G.n a ∧ newkeys[a] = u := by
    intro u i
    simp only [At, R, List.mem_append, List.mem_map, Prod.mk.injEq, Prod.exists,
      List.mk_mem_zipIdx_iff_getElem?]
    rw [or_comm]
    refine or_congr Iff.rfl ?_
    constructor
    · rintro ⟨x, a, hx, rfl, e⟩
      obtain ⟨ha, hx⟩ := List.getElem?_eq_some_iff.1 hx
      exact ⟨⟨a, ha⟩, Fin.ext (by simp; omega), hx⟩
    · rintro ⟨a, rfl, e⟩
      exact ⟨u, a, List.getElem?_eq_some_iff.2 ⟨a.isLt, e⟩, rfl, by simp; omega⟩
  have hwf : R.WF := by
    have e : (newkeys.zipIdx.map fun p => (p.1, p.2 + G.n)).map Prod.fst = newkeys := by
      simp [List.map_map, Function.comp_def]
    refine ⟨?_, ?_⟩
    · show List.Nodup (List.map Prod.fst (_ ++ _))
      rw [List.map_append, e, List.nodup_append]
      refine ⟨sortedKeys_nodup hH _, hG.keys_nodup, ?_⟩
      rintro a ha b hb rfl
      exact ((hk' a).1 ha).2 hb
    · show List.Perm (List.map Prod.snd (_ ++ _)) (List.range (G.n + newkeys.length))
      rw [List.map_append, List.range_add]
      refine (List.perm_append_comm).trans (hG.ids_perm.append ?_)
      have : (newkeys.zipIdx.map fun p => (p.1, p.2 + G.n)).map Prod.snd =
          (newkeys.zipIdx.map Prod.snd).map (fun x => G.n + x) := by
        rw [List.map_map, List.map_map]
        exact List.map_congr_left fun p _ => Nat.add_comm _ _
      rw [this, List.zipIdx_map_snd, ← List.range_eq_range']
  -- the four blocks of the matrix
  have hRn : ∀ i : Fin R.n, (i.val < G.n) → ∀ a : Fin newkeys.length,
      (Fin.natAdd G.n a : Fin (G.n + newkeys.length)) ≠ i := by
    intro i hi a e
    rw [← e] at hi
    simp at hi
  have hnn : ∀ a b : Fin newkeys.length, C2 (Fin.natAdd G.n a) (Fin.natAdd G.n b) = B2 a b := by
    intro a b
    exact assignRegion_in _ (fun a b e => by simpa using e) B2 a b
  have hng : ∀ (a : Fin newkeys.length) (j : Fin (G.n + newkeys.length)), j.val < G.n →
      C2 (Fin.natAdd G.n a) j = none ∧ C2 j (Fin.natAdd G.n a) = none := by
    intro a j hj
    have hne : ∀ x, ids1 x ≠ Fin.natAdd G.n a := by
      intro x e
      have := hids1lt x
      rw [e] at this
      simp at this
    constructor
    · show assignRegion _ _ _ _ _ = _
      rw [assignRegion_out _ _ (.inr (hRn j hj)), assignRegion_out _ _ (.inl hne)]
      simp [C0]
    · show assignRegion _ _ _ _ _ = _
      rw [assignRegion_out _ _ (.inl (hRn j hj)), assignRegion_out _ _ (.inr hne)]
      simp [C0]
  have hgg : ∀ {u v : K} {i j : Fin (G.n + newkeys.length)}, (u, i.val) ∈ G.keyToId →
      (v, j.val) ∈ G.keyToId → ∀ w, C2 i j = some w ↔
        (H.WEdge u v w) ∨ (G.WEdge u v w ∧ ¬ (H.Node u ∧ H.Node v)) := by
    intro u v i j hu hv w
    have hi := hG.id_lt hu
    have hj := hG.id_lt hv
    show assignRegion _ _ _ _ _ = _ ↔ _
    rw [assignRegion_out _ _ (.inl (hRn i hi))]
    by_cases hb : H.Node u ∧ H.Node v
    · obtain ⟨a, ha, ea⟩ := List.getElem_of_mem ((hk u).2 ⟨List.mem_map.2 ⟨_, hu, rfl⟩, hb.1⟩)
      obtain ⟨b, hbl, eb⟩ := List.getElem_of_mem ((hk v).2 ⟨List.mem_map.2 ⟨_, hv, rfl⟩, hb.2⟩)
      have e1 : ids1 ⟨a, ha⟩ = i := by
        have := hids1 ⟨a, ha⟩
        simp only [Fin.getElem_fin, ea] at this
        exact Fin.ext (mem_key_unique hG.keys_nodup this hu)
      have e2 : ids1 ⟨b, hbl⟩ = j := by
        have := hids1 ⟨b, hbl⟩
        simp only [Fin.getElem_fin, eb] at this
        exact Fin.ext (mem_key_unique hG.keys_nodup this hv)
      rw [← e1, ← e2, assignRegion_in _ hids1inj, hB1s]
      simp only [Fin.getElem_fin, ea, eb]
      tauto
    · have hout : (∀ a, ids1 a ≠ i) ∨ (∀ b, ids1 b ≠ j) := by
        rw [not_and_or] at hb
        refine hb.imp (fun hn a e => hn ?_) (fun hn a e => hn ?_)
        · have := hids1 a
          rw [e] at this
          have e' := mem_id_unique hG.ids_nodup this hu
          rw [← e']
          exact ((hk _).1 (List.getElem_mem _)).2
        · have := hids1 a
          rw [e] at this
          have e' := mem_id_unique hG.ids_nodup this hv
          rw [← e']
          exact ((hk _).1 (List.getElem_mem _)).2
      rw [assignRegion_out _ _ hout]
      simp only [C0, dif_pos (And.intro hi hj)]
      rw [wedge_iff hG (u := u) (v := v) (i := ⟨i, hi⟩) (j := ⟨j, hj⟩) hu hv]
      constructor
      · intro e; exact .inr ⟨e, hb⟩
      · rintro (⟨_, _, a, b, -⟩ | ⟨e, -⟩)
        · exact absurd ⟨a.node, b.node⟩ hb
        · exact e
  refine ⟨R, hRok, hwf, rfl, h1, hnode, ?_⟩
  intro u v w
  have nodeOfG : ∀ {u : K} {i : Nat}, (u, i) ∈ G.keyToId → G.Node u :=
    fun hm => List.mem_map.2 ⟨_, hm, rfl⟩
  have newNot : ∀ a : Fin newkeys.length, ¬ G.Node newkeys[a] :=
    fun a => ((hk' _).1 (List.getElem_mem _)).2
  constructor
  · rintro ⟨i, j, hi, hj, hw⟩
    rcases (hat u i).1 hi with hi | ⟨a, rfl, rfl⟩ <;> rcases (hat v j).1 hj with hj | ⟨b, rfl, rfl⟩
    · rcases (hgg hi hj w).1 hw with e | e
      · exact .inl ⟨e, iff_of_true (nodeOfG hi) (nodeOfG hj)⟩
      · exact .inr e
    · rw [show R.A i (Fin.natAdd G.n b) = none from (hng b i (hG.id_lt hi)).2] at hw; cases hw
    · rw [show R.A (Fin.natAdd G.n a) j = none from (hng a j (hG.id_lt hj)).1] at hw; cases hw
    · rw [show R.A (Fin.natAdd G.n a) (Fin.natAdd G.n b) = B2 a b from hnn a b, hB2s] at hw
      exact .inl ⟨hw, iff_of_false (newNot a) (newNot b)⟩
  · have back : ∀ {u : K}, G.Node u → ∃ i : Fin R.n, (u, i.val) ∈ G.keyToId := by
      intro u hu
      obtain ⟨i, hi⟩ := hu.exists_id hG
      exact ⟨i.castLE hle, hi⟩
    have gcase : G.Node u → G.Node v → ((H.WEdge u v w) ∨ (G.WEdge u v w ∧ ¬ (H.Node u ∧ H.Node v))) →
        R.WEdge u v w := by
      intro hu hv hh
      obtain ⟨i, hi⟩ := back hu
      obtain ⟨j, hj⟩ := back hv
      exact ⟨i, j, (hat _ _).2 (.inl hi), (hat _ _).2 (.inl hj), (hgg hi hj w).2 hh⟩
    rintro (⟨hw, hiff⟩ | hw)
    · by_cases hu : G.Node u
      · exact gcase hu (hiff.1 hu) (.inl hw)
      · have hv : ¬ G.Node v := fun c => hu (hiff.2 c)
        obtain ⟨_, _, hua, hva, -⟩ := id hw
        obtain ⟨a, ha, ea⟩ := List.getElem_of_mem ((hk' u).2 ⟨hua.node, hu⟩)
        obtain ⟨b, hb, eb⟩ := List.getElem_of_mem ((hk' v).2 ⟨hva.node, hv⟩)
        refine ⟨Fin.natAdd G.n ⟨a, ha⟩, Fin.natAdd G.n ⟨b, hb⟩, (hat _ _).2 (.inr ⟨⟨a, ha⟩, rfl, ea⟩),
          (hat _ _).2 (.inr ⟨⟨b, hb⟩, rfl, eb⟩), ?_⟩
        refine (hnn ⟨a, ha⟩ ⟨b, hb⟩).trans ?_
        rw [hB2s]
        simpa [ea, eb] using hw
    · obtain ⟨⟨_, _, hua, hva, _⟩, -⟩ := id hw
      exact gcase hua.node hva.node (.inr hw)

/-- **C45, partial.** `compose(G, H)` is the edge union by key (with `H`'s weights winning) when
the node sets are equal, or when (a) the nodes of `H` that `G` lacks have the lowest row numbers of
`H`, (b) no edge of `H` joins such a node to a shared one, and (c) `H` has every edge `G` has among
shared nodes.  In particular when the node sets are disjoint.  Missing: all other overlaps, where
it is false (`compose_loses_edges`, `compose_bad_ids`). -/
theorem compose_correct_partial (hG : G.WF) (hH : H.WF) (h1 : G.multi = false) (h2 : H.multi = false)
    (h : (∀ u, G.Node u ↔ H.Node u) ∨
      ((∀ u v i j, H.At u i → H.At v j → ¬ G.Node u → G.Node v → i < j) ∧
       (∀ u v, H.Edge u v → (G.Node u ↔ G.Node v)) ∧
       (∀ u v, G.Edge u v → H.Node u → H.Node v → H.Edge u v))) :
    ∃ R, compose G H = .ok R ∧ R.WF ∧ R.directed = G.directed ∧ R.multi = false ∧
      (∀ u, R.Node u ↔ G.Node u ∨ H.Node u) ∧
      ∀ u v w, R.WEdge u v w ↔ H.WEdge u v w ∨ (G.WEdge u v w ∧ ¬ H.Edge u v) := by
  by_cases hs : ∀ u, G.Node u ↔ H.Node u
  · obtain ⟨R, hR, hwf, hd, hm, hn, he⟩ := compose_same_nodes hG hH h1 h2 hs
    exact ⟨R, hR, hwf, hd, hm, fun u => by rw [hn, ← hs]; simp, he⟩
  · obtain ⟨ha, hb, hc⟩ := h.resolve_left hs
    obtain ⟨R, hR, hwf, hd, hm, hn, he⟩ := compose_diff_char hG hH h1 h2 hs ha
    refine ⟨R, hR, hwf, hd, hm, hn, fun u v w => ?_⟩
    rw [he]
    refine or_congr (and_iff_left_of_imp fun e => hb u v (edge_iff_wedge.2 ⟨w, e⟩))
      (and_congr_right fun e => not_congr ⟨fun ⟨x, y⟩ => hc u v (edge_iff_wedge.2 ⟨w, e⟩) x y,
        fun x => ⟨x.node_left, x.node_right⟩⟩)

/-- **C45.** node-disjoint graphs: compose is their union. -/
theorem compose_disjoint (hG : G.WF) (hH : H.WF) (h1 : G.multi = false) (h2 : H.multi = false)
    (hd : ∀ u, G.Node u → ¬ H.Node u) :
    ∃ R, compose G H = .ok R ∧ R.WF ∧ R.directed = G.directed ∧ R.multi = false ∧
      (∀ u, R.Node u ↔ G.Node u ∨ H.Node u) ∧
      ∀ u v w, R.WEdge u v w ↔ H.WEdge u v w ∨ G.WEdge u v w := by
  obtain ⟨R, hR, hwf, hdir, hm, hn, he⟩ := compose_correct_partial hG hH h1 h2 (.inr
    ⟨fun u v i j _ hv _ hg => absurd hv.node (hd v hg),
     fun u v e => iff_of_false (fun c => hd u c e.node_left) (fun c => hd v c e.node_right),
     fun u v e hu _ => absurd hu (hd u e.node_left)⟩)
  refine ⟨R, hR, hwf, hdir, hm, hn, fun u v w => ?_⟩
  rw [he]
  exact or_congr Iff.rfl (and_iff_left_of_imp fun e c => hd u (edge_iff_wedge.2 ⟨w, e⟩).node_left c.node_left)

/-- **C45, finding (general).** whenever the node sets differ and the new nodes come first in `H`,
every edge of `H` between a shared and a new node, and every edge of `G` between shared nodes that
`H` lacks, is missing from the result. -/
theorem compose_loses_edges (hG : G.WF) (hH : H.WF) (h1 : G.multi = false) (h2 : H.multi = false)
    (h : ¬ ∀ u, G.Node u ↔ H.Node u)
    (hini : ∀ u v i j, H.At u i → H.At v j → ¬ G.Node u → G.Node v → i < j) :
    ∃ R, compose G H = .ok R ∧
      (∀ u v, G.Node u → H.Node u → ¬ G.Node v → ¬ R.Edge u v ∧ ¬ R.Edge v u) ∧
      (∀ u v, G.Node u → G.Node v → H.Node u → H.Node v → ¬ H.Edge u v → ¬ R.Edge u v) := by
  obtain ⟨R, hR, -, -, -, -, he⟩ := compose_diff_char hG hH h1 h2 h hini
  have gn : ∀ {u v : K} {w : α}, G.WEdge u v w → G.Node u ∧ G.Node v :=
    fun ⟨_, _, a, b, _⟩ => ⟨a.node, b.node⟩
  refine ⟨R, hR, fun u v hu _ hv => ⟨fun e => ?_, fun e => ?_⟩, fun u v hu hv hu' hv' hne e => ?_⟩ <;>
    obtain ⟨w, e⟩ := edge_iff_wedge.1 e <;> rcases (he _ _ _).1 e with ⟨e, hi⟩ | ⟨e, hi⟩
  · exact hv (hi.1 hu)
  · exact hv (gn e).2
  · exact hv (hi.2 hu)
  · exact hv (gn e).1
  · exact hne (edge_iff_wedge.2 ⟨w, e⟩)
  · exact hi ⟨hu', hv'⟩

/-- undirected edge 1 - 2 with isolated 3 -/
def Ex.cg : Graph Nat Int where
  n := 3
  A := Ex.ofTriples 3 [(0,1,1),(1,0,1)]
  keyToId := [(1,0),(2,1),(3,2)]
/-- undirected edge 3 - 4, numbered in that order -/
def Ex.ch : Graph Nat Int where
  n := 2
  A := Ex.ofTriples 2 [(0,1,2),(1,0,2)]
  keyToId := [(3,0),(4,1)]
/-- the same edge with 4 numbered first, plus isolated 1 and 2 -/
def Ex.ch' : Graph Nat Int where
  n := 4
  A := Ex.ofTriples 4 [(0,1,2),(1,0,2)]
  keyToId := [(4,0),(3,1),(1,2),(2,3)]

/-- **C45, finding.** `compose` of the path 1-2, 3 with the path 3-4 gives node 4 the row number
`1 + 3 = 4` of a matrix with four rows (valid: 0..3): the result is not a usable graph, the first
access to node 4 raises IndexError. -/
theorem compose_bad_ids :
    Ex.cg.WF ∧ Ex.ch.WF ∧ ∃ R, compose Ex.cg Ex.ch = .ok R ∧ R.n = 4 ∧
      R.keyToId = [(4,4),(1,0),(2,1),(3,2)] ∧ ¬ R.WF ∧ R.getId 4 = .error .indexError := by
  refine ⟨⟨by decide, by decide⟩, ⟨by decide, by decide⟩, ?_⟩
  have e : (match compose Ex.cg Ex.ch with
    | .ok R => decide (R.n = 4 ∧ R.keyToId = [(4,4),(1,0),(2,1),(3,2)] ∧ R.getId 4 = .error .indexError)
    | .error _ => false) = true := by decide +kernel
  cases hR : compose Ex.cg Ex.ch with
  | error _ => rw [hR] at e; cases e
  | ok R =>
    rw [hR] at e
    obtain ⟨h1, h2, h3⟩ := of_decide_eq_true e
    refine ⟨R, rfl, h1, h2, fun hwf => ?_, h3⟩
    have := hwf.id_lt (u := 4) (i := 4) (by rw [h2]; simp)
    omega

/-- **C45, finding.** even with a favourable numbering, the edge 3-4 of `H` and the edge 1-2 of `G`
are both missing from `compose(G, H)`. -/
theorem compose_drops_edges :
    Ex.cg.WF ∧ Ex.ch'.WF ∧ Ex.cg.Edge 1 2 ∧ Ex.ch'.Edge 3 4 ∧
    ∃ R, compose Ex.cg Ex.ch' = .ok R ∧ ¬ R.Edge 1 2 ∧ ¬ R.Edge 3 4 := by
  refine ⟨⟨by decide, by decide⟩, ⟨by decide, by decide⟩, by decide +kernel, by decide +kernel, ?_⟩
  have e : (match compose Ex.cg Ex.ch' with
    | .ok R => decide (¬ R.Edge 1 2 ∧ ¬ R.Edge 3 4)
    | .error _ => false) = true := by decide +kernel
  cases hR : compose Ex.cg Ex.ch' with
  | error _ => rw [hR] at e; cases e
  | ok R => rw [hR] at e; exact ⟨R, rfl, of_decide_eq_true e⟩

/-! ### C46 -/

omit [DecidableEq K] in
/-- **C46.** `complement(G)`: same nodes; an edge between two different nodes exactly when `G` has
none; no self-loops. -/
theorem complement_correct (hG : G.WF) (one : α) :
    (complement one G).WF ∧ (complement one G).directed = G.directed ∧
    (∀ u, (complement one G).Node u ↔ G.Node u) ∧
    (∀ u v, (complement one G).Edge u v ↔ G.Node u ∧ G.Node v ∧ u ≠ v ∧ ¬ G.Edge u v) ∧
    ∀ u v w, (complement one G).WEdge u v w → w = one := by
  have hA : ∀ i j, (complement one G).A i j = if i = j then none else
      if (G.A i j).isSome then none else some one := fun _ _ => rfl
  refine ⟨⟨hG.keys_nodup, hG.ids_perm⟩, rfl, fun _ => Iff.rfl, ?_, ?_⟩
  · intro u v
    constructor
    · rintro ⟨i, j, hi, hj, he⟩
      rw [hA] at he
      have hi' : G.At u i := hi
      have hj' : G.At v j := hj
      split at he
      · simp at he
      · rename_i hne
        split at he
        · simp at he
        · rename_i hno
          refine ⟨hi'.node, hj'.node, ?_, ?_⟩
          · rintro rfl; exact hne (At.id_unique hG hi' hj')
          · rw [edge_iff hG hi' hj']; exact hno
    · rintro ⟨hu, hv, hne, hno⟩
      obtain ⟨i, hi⟩ := hu.exists_id hG
      obtain ⟨j, hj⟩ := hv.exists_id hG
      refine ⟨i, j, hi, hj, ?_⟩
      rw [edge_iff hG hi hj] at hno
      have hij : i ≠ j := by rintro rfl; exact hne (At.key_unique hG hi hj)
      show (if i = j then none else if (G.A i j).isSome then none else some one).isSome = true
      rw [if_neg hij, if_neg hno]
      rfl
  · rintro u v w ⟨i, j, -, -, hw⟩
    rw [hA] at hw
    split at hw
    · cases hw
    · split at hw
      · cases hw
      · exact (Option.some.inj hw).symm

omit [DecidableEq K] in
/-- **C46.** complementing twice gives back exactly the edges between different nodes; so the
structure of a loop-free graph is restored. -/
theorem complement_involutive (hG : G.WF) (one : α) (u v : K) :
    (complement one (complement one G)).Edge u v ↔ G.Edge u v ∧ u ≠ v := by
  obtain ⟨hwf, -, hn, he, -⟩ := complement_correct hG one
  obtain ⟨-, -, -, he', -⟩ := complement_correct hwf one
  rw [he', hn, hn, he]
  constructor
  · rintro ⟨hu, hv, hne, hh⟩
    exact ⟨by_contra fun c => hh ⟨hu, hv, hne, c⟩, hne⟩
  · rintro ⟨e, hne⟩
    exact ⟨e.node_left, e.node_right, hne, fun c => c.2.2.2 e⟩

omit [DecidableEq K] in
/-- **C46.** `reverse(G)` of a digraph turns every weighted edge around and nothing else; reversing
twice is the identity; undirected graphs are rejected. -/
theorem reverse_correct (hG : G.WF) :
    (G.directed = true → ∃ R, reverse G = .ok R ∧ R.WF ∧ R.directed = true ∧
      (∀ u, R.Node u ↔ G.Node u) ∧ (∀ u v w, R.WEdge u v w ↔ G.WEdge v u w) ∧
      reverse R = .ok G) ∧
    (G.directed = false → reverse G = .error .algorithm) := by
  constructor
  · intro hd
    refine ⟨{ G with A := transpose G.A }, by simp [reverse, hd], ⟨hG.keys_nodup, hG.ids_perm⟩, hd,
      fun _ => Iff.rfl, ?_, ?_⟩
    · intro u v w
      exact ⟨fun ⟨i, j, hi, hj, hw⟩ => ⟨j, i, hj, hi, hw⟩, fun ⟨i, j, hi, hj, hw⟩ => ⟨j, i, hj, hi, hw⟩⟩
    · obtain ⟨n, A, k, d, m⟩ := G
      cases hd
      rfl
  · intro hd; simp [reverse, hd]

/-! ### C48 -/

/-- **C48.** `full_join(G, H)`: the nodes of both; the weighted edges of `G` and of `H`, plus an edge
of weight one in both directions between every node of `G` and every node of `H`; nothing else. -/
theorem full_join_correct (hG : G.WF) (hH : H.WF) (h1 : G.multi = false) (h2 : H.multi = false)
    (hd : ∀ u, G.Node u → ¬ H.Node u) (one : α) :
    ∃ R, fullJoin one G H = .ok R ∧ R.WF ∧ R.directed = G.directed ∧
      (∀ u, R.Node u ↔ G.Node u ∨ H.Node u) ∧
      ∀ u v w, R.WEdge u v w ↔ G.WEdge u v w ∨ H.WEdge u v w ∨
        (w = one ∧ ((G.Node u ∧ H.Node v) ∨ (H.Node u ∧ G.Node v))) := by
  have hwf := unionGraph_wf hG hH hd
  let R : Graph K α := { unionGraph G H with
    A := fun i j =>
      if (i.val < G.n ∧ G.n ≤ j.val) ∨ (G.n ≤ i.val ∧ j.val < G.n) then some one
      else (unionGraph G H).A i j }
  refine ⟨R, ?_, ⟨hwf.keys_nodup, hwf.ids_perm⟩, rfl, fun _ => unionGraph_node, ?_⟩
  · unfold fullJoin; rw [union_ok hG hH h1 h2 hd]; rfl
  · intro u v w
    have hAt : ∀ u (i : Fin R.n), R.At u i ↔ (unionGraph G H).At u i := fun _ _ => Iff.rfl
    constructor
    · rintro ⟨i, j, hi, hj, hw⟩
      rw [hAt] at hi hj
      simp only [R] at hw
      split at hw
      · right; right
        refine ⟨(Option.some.inj hw).symm, ?_⟩
        rename_i hc
        rcases (unionGraph_at hG i).1 hi with ⟨a, rfl, ha⟩ | ⟨a, rfl, ha⟩ <;>
          rcases (unionGraph_at hG j).1 hj with ⟨b, rfl, hb⟩ | ⟨b, rfl, hb⟩
        · simp at hc
          omega
        · exact .inl ⟨ha.node, hb.node⟩
        · exact .inr ⟨ha.node, hb.node⟩
        · simp at hc
      · have : (unionGraph G H).WEdge u v w := ⟨i, j, hi, hj, hw⟩
        rw [unionGraph_wedge hG] at this
        tauto
    · have cross : ∀ {a : Fin G.n} {b : Fin H.n} {u v : K}, G.At u a → H.At v b →
          R.WEdge u v one ∧ R.WEdge v u one := by
        intro a b u v ha hb
        have h1 := (unionGraph_at (H := H) hG (Fin.castAdd H.n a)).2 (.inl ⟨a, rfl, ha⟩)
        have h2 := (unionGraph_at (H := H) hG (Fin.natAdd G.n b)).2 (.inr ⟨b, rfl, hb⟩)
        refine ⟨⟨_, _, h1, h2, ?_⟩, ⟨_, _, h2, h1, ?_⟩⟩
        · simp only [R]; rw [if_pos]; left; simp
        · simp only [R]; rw [if_pos]; right; simp
      have keep : (unionGraph G H).WEdge u v w → R.WEdge u v w := by
        rintro ⟨i, j, hi, hj, hw⟩
        refine ⟨i, j, hi, hj, ?_⟩
        simp only [R]
        rw [if_neg]
        · exact hw
        · rintro hc
          rcases (unionGraph_at hG i).1 hi with ⟨a, rfl, ha⟩ | ⟨a, rfl, ha⟩ <;>
            rcases (unionGraph_at hG j).1 hj with ⟨b, rfl, hb⟩ | ⟨b, rfl, hb⟩
          · simp at hc; omega
          · rw [show (unionGraph G H).A _ _ = none from blockDiag_lr G.A H.A a b] at hw; cases hw
          · rw [show (unionGraph G H).A _ _ = none from blockDiag_rl G.A H.A a b] at hw; cases hw
          · simp at hc
      rintro (he | he | ⟨rfl, ⟨hu, hv⟩ | ⟨hu, hv⟩⟩)
      · exact keep ((unionGraph_wedge hG).2 (.inl he))
      · exact keep ((unionGraph_wedge hG).2 (.inr he))
      · obtain ⟨a, ha⟩ := hu.exists_id hG
        obtain ⟨b, hb⟩ := hv.exists_id hH
        exact (cross ha hb).1
      · obtain ⟨a, ha⟩ := hu.exists_id hH
        obtain ⟨b, hb⟩ := hv.exists_id hG
        exact (cross hb ha).2

/-- **C48.** overlapping node sets are rejected. -/
theorem full_join_overlap (h1 : G.multi = false) (h2 : H.multi = false) (one : α)
    {u : K} (hu : G.Node u) (hv : H.Node u) : fullJoin one G H = .error .algorithm := by
  unfold fullJoin; rw [union_overlap h1 h2 hu hv]; rfl

/-! ### non-vacuity -/

/-- disjoint from `Ex.dg` -/
def Ex.oh : Graph Nat Int where
  n := 2
  A := Ex.ofTriples 2 [(0,1,4)]
  keyToId := [(8,1),(7,0)]
  directed := true
/-- same nodes as `Ex.dg`, numbered differently -/
def Ex.op : Graph Nat Int where
  n := 4
  A := Ex.ofTriples 4 [(0,1,9),(3,2,8)]
  keyToId := [(40,3), (30,2), (10,0), (20,1)]
  directed := true

example : Ex.oh.WF ∧ Ex.op.WF ∧ (∀ u, Ex.dg.Node u → ¬ Ex.oh.Node u) ∧
    (∀ u, Ex.dg.Node u ↔ Ex.op.Node u) := by
  refine ⟨⟨by decide, by decide⟩, ⟨by decide, by decide⟩, ?_, ?_⟩
  · intro u; simp [Node, Ex.dg, Ex.oh]; omega
  · intro u; simp [Node, Ex.dg, Ex.op]; omega
example : (match Model.union Ex.dg Ex.oh with
    | .ok R => decide (R.WEdge 7 8 4 ∧ R.WEdge 10 20 5 ∧ ¬ R.Edge 10 7) | .error _ => false) = true := by
  decide +kernel
example : (match disjointUnion Ex.dg Ex.oh with
    | .ok R => decide (R.WEdge 4 5 4 ∧ R.WEdge 2 0 5) | .error _ => false) = true := by decide +kernel
example : (match Model.intersection 1 Ex.dg Ex.op with
    | .ok R => decide (R.WEdge 10 20 1 ∧ ¬ R.Edge 20 30) | .error _ => false) = true := by decide +kernel
example : (match Model.difference 1 Ex.dg Ex.op with
    | .ok R => decide (¬ R.Edge 10 20 ∧ R.WEdge 20 30 1) | .error _ => false) = true := by decide +kernel
example : (match symmetricDifference 1 Ex.dg Ex.op with
    | .ok R => decide (¬ R.Edge 10 20 ∧ R.WEdge 20 30 1 ∧ R.WEdge 40 30 1) | .error _ => false) = true := by
  decide +kernel
example : (match compose Ex.dg Ex.op with
    | .ok R => decide (R.WEdge 10 20 9 ∧ R.WEdge 20 30 7 ∧ R.WEdge 40 30 8) | .error _ => false) = true := by
  decide +kernel
example : (match compose Ex.dg Ex.oh with
    | .ok R => decide (R.WEdge 7 8 4 ∧ R.WEdge 20 30 7) | .error _ => false) = true := by decide +kernel
/-- a case of (a)-(c) with a genuine overlap: new node 5 first, shared nodes 1, 2 last -/
def Ex.cp : Graph Nat Int where
  n := 3
  A := Ex.ofTriples 3 [(1,2,7),(2,1,7),(0,0,3)]
  keyToId := [(5,0),(1,1),(2,2)]
example : (∀ u v i j, Ex.cp.At u i → Ex.cp.At v j → ¬ Ex.cg.Node u → Ex.cg.Node v → i < j) ∧
    (∀ u v, Ex.cp.Edge u v → (Ex.cg.Node u ↔ Ex.cg.Node v)) ∧
    (∀ u v, Ex.cg.Edge u v → Ex.cp.Node u → Ex.cp.Node v → Ex.cp.Edge u v) := by
  have hn : ∀ {G : Graph Nat Int} {u v : Nat}, G.Edge u v → G.Node u ∧ G.Node v :=
    fun e => ⟨e.node_left, e.node_right⟩
  have b : ∀ u ∈ Ex.cp.keyToId.map Prod.fst, ∀ v ∈ Ex.cp.keyToId.map Prod.fst, ∀ i j : Fin Ex.cp.n,
      Ex.cp.At u i → Ex.cp.At v j → ¬ Ex.cg.Node u → Ex.cg.Node v → i < j := by decide +kernel
  have c : ∀ u ∈ Ex.cp.keyToId.map Prod.fst, ∀ v ∈ Ex.cp.keyToId.map Prod.fst,
      Ex.cp.Edge u v → (Ex.cg.Node u ↔ Ex.cg.Node v) := by decide +kernel
  have d : ∀ u ∈ Ex.cg.keyToId.map Prod.fst, ∀ v ∈ Ex.cg.keyToId.map Prod.fst,
      Ex.cg.Edge u v → Ex.cp.Node u → Ex.cp.Node v → Ex.cp.Edge u v := by decide +kernel
  exact ⟨fun u v i j hu hv => b u hu.node v hv.node i j hu hv,
    fun u v e => c u (hn e).1 v (hn e).2 e, fun u v e => d u (hn e).1 v (hn e).2 e⟩
example : (complement 1 Ex.dg).WEdge 10 30 1 ∧ ¬ (complement 1 Ex.dg).Edge 30 30 ∧
    ¬ (complement 1 Ex.dg).Edge 10 20 := by decide +kernel
example : (match reverse Ex.dg with
    | .ok R => decide (R.WEdge 20 10 5 ∧ ¬ R.Edge 10 20) | .error _ => false) = true := by decide +kernel
example : (match fullJoin 1 Ex.dg Ex.oh with
    | .ok R => decide (R.WEdge 10 7 1 ∧ R.WEdge 8 40 1 ∧ R.WEdge 7 8 4 ∧ ¬ R.Edge 10 30)
    | .error _ => false) = true := by decide +kernel
/-- an injective renaming -/
example : (match Model.union (renameKeys (fun u => 2 * u) Ex.dg) (renameKeys (fun u => 2 * u + 1) Ex.dg) with
    | .ok R => decide (R.WEdge 20 40 5 ∧ R.WEdge 21 41 5 ∧ ¬ R.Edge 20 41) | .error _ => false) = true := by
  decide +kernel

end Props
