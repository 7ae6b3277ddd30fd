import Verif.Props.Parts
import Verif.Props.OperatorsErr
import Verif.Props.RelabelBf
import Verif.Props.Relabel2

/-!
# C126 `disjoint_union`: the union behaves like its parts

In `disjoint_union(G, H)` a node of `G` is named by its number in `G`, and a node of `H` by its number in `H` plus the number
of nodes of `G`.
-/

open GB Spec Model Model.Graph Proofs

namespace Props

section
variable {K K' α : Type} [DecidableEq K] [DecidableEq K'] {f : K → K'} {P : Graph K α} {D : Graph K' α}

/-- a renaming of the nodes of a graph, seen from a common renaming of the graph and the renamed graph that is injective on
all names -/
theorem renamed_on_nodes (hP : P.WF) (hf : ∀ u v, P.Node u → P.Node v → f u = f v → u = v) :
    ∃ (Q : Graph (K ⊕ K') α) (g : K' → K ⊕ K'), Q.WF ∧ Relabels Sum.inl P Q ∧ Relabels g (renameKeys f P) Q ∧
      ∀ u, P.Node u → g (f u) = Sum.inl u := by
  classical
  have hi : ∀ u v, P.Node u → P.Node v → (Sum.inl u : K ⊕ K') = Sum.inl v → u = v := fun u v _ _ e => Sum.inl_injective e
  let g : K' → K ⊕ K' := fun x => if hx : ∃ u, P.Node u ∧ f u = x then .inl hx.choose else .inr x
  have gf : ∀ u, P.Node u → g (f u) = Sum.inl u := by
    intro u hu
    have hx : ∃ v, P.Node v ∧ f v = f u := ⟨u, hu, rfl⟩
    show (if hx : ∃ v, P.Node v ∧ f v = f u then Sum.inl hx.choose else Sum.inr (f u)) = _
    rw [dif_pos hx, hf _ _ hx.choose_spec.1 hu hx.choose_spec.2]
  have gl : ∀ x u, g x = Sum.inl u → P.Node u ∧ f u = x := by
    intro x u e
    by_cases hx : ∃ v, P.Node v ∧ f v = x
    · obtain ⟨v, hv, rfl⟩ := hx
      rw [gf v hv] at e
      cases e
      exact ⟨hv, rfl⟩
    · have : g x = .inr x := dif_neg hx
      rw [this] at e; cases e
  have gr : ∀ x y, g x = Sum.inr y → x = y := by
    intro x y e
    by_cases hx : ∃ v, P.Node v ∧ f v = x
    · obtain ⟨v, hv, rfl⟩ := hx
      rw [gf v hv] at e
      cases e
    · have : g x = .inr x := dif_neg hx
      rw [this] at e; cases e; rfl
  have ginj : Function.Injective g := by
    intro x y e
    cases hy : g y with
    | inl u => exact (gl x u (e.trans hy)).2.symm.trans (gl y u hy).2
    | inr z => exact (gr x z (e.trans hy)).trans (gr y z hy).symm
  refine ⟨renameKeys Sum.inl P, g, rename_wf hP hi, ⟨Sum.inl_injective, rfl, rfl, fun x => rename_node hP hi, ?_⟩,
    ⟨ginj, rfl, rfl, fun x => ?_, ?_⟩, gf⟩
  · intro u v w
    rw [rename_wedge hP hi]
    constructor
    · rintro ⟨a, b, e1, e2, h⟩
      rw [← Sum.inl_injective e1, ← Sum.inl_injective e2]; exact h
    · exact fun h => ⟨u, v, rfl, rfl, h⟩
  · rw [rename_node hP hi]
    constructor
    · rintro ⟨u, hu, rfl⟩
      exact ⟨f u, (rename_node hP hf).2 ⟨u, hu, rfl⟩, gf u hu⟩
    · rintro ⟨y, hy, rfl⟩
      obtain ⟨u, hu, rfl⟩ := (rename_node hP hf).1 hy
      exact ⟨u, hu, (gf u hu).symm⟩
  · intro x y w
    rw [rename_wedge hP hi, rename_wedge hP hf]
    constructor
    · rintro ⟨a, b, e1, e2, h⟩
      exact ⟨a, b, (gl x a e1.symm).2, (gl y b e2.symm).2, h⟩
    · rintro ⟨a, b, rfl, rfl, h⟩
      have hab : P.Edge a b := by obtain ⟨i, j, hi, hj, hA⟩ := h; exact ⟨i, j, hi, hj, by rw [hA]; rfl⟩
      exact ⟨a, b, (gf a hab.node_left).symm, (gf b hab.node_right).symm, h⟩

/-- both calls succeed; the result for `D` has the values of the result for `P`, at the nodes `f u`, and nothing else -/
def SameValues {β : Type} (f : K → K') (P : Graph K α) (D : Graph K' α) (x : Except Err (Vec P.n β))
    (y : Except Err (Vec D.n β)) : Prop :=
  ∃ r q, x = .ok r ∧ y = .ok q ∧ (∀ v, P.Node v → D.view q (f v) = P.view r v) ∧
    ∀ z, (D.view q z).isSome → ∃ v, P.Node v ∧ f v = z

/-- both calls succeed; the set for `D` has the members `f u` for the members `u` of the set for `P`, and nothing else -/
def SameMembers {β γ : Type} (f : K → K') (P : Graph K α) (D : Graph K' α) (x : Except Err (Vec P.n β))
    (y : Except Err (Vec D.n γ)) : Prop :=
  ∃ r q, x = .ok r ∧ y = .ok q ∧ (∀ v, P.Node v → ((D.view q (f v)).isSome ↔ (P.view r v).isSome)) ∧
    ∀ z, (D.view q z).isSome → ∃ v, P.Node v ∧ f v = z

omit [DecidableEq K] in
theorem view_isSome_node [DecidableEq K] (hP : P.WF) {β : Type} {r : Vec P.n β} {u : K} (h : (P.view r u).isSome) :
    P.Node u := by
  obtain ⟨b, hb⟩ := Option.isSome_iff_exists.1 h
  obtain ⟨i, hi, -⟩ := (view_eq_some hP).1 hb
  exact hi.node

variable {Q : Graph (K ⊕ K') α} {g : K' → K ⊕ K'}

theorem chain_values (hP : P.WF) (hf : ∀ u v, P.Node u → P.Node v → f u = f v → u = v)
    (hg : ∀ u, P.Node u → g (f u) = Sum.inl u) {β : Type} {x : Except Err (Vec P.n β)}
    {x' : Except Err (Vec (renameKeys f P).n β)} {z : Except Err (Vec Q.n β)} {y : Except Err (Vec D.n β)}
    (h1 : Agree (SameMap Sum.inl P Q) x z) (h2 : Agree (SameMap g (renameKeys f P) Q) x' z)
    (h3 : ∃ r q, x' = .ok r ∧ y = .ok q ∧ ∀ u, (renameKeys f P).view r u = D.view q u) : SameValues f P D x y := by
  obtain ⟨r, q, rfl, rfl, h⟩ := h3
  cases z with
  | error e => exact h2.elim
  | ok s =>
    cases x with
    | error e => exact h1.elim
    | ok t =>
      refine ⟨t, q, rfl, rfl, fun v hv => ?_, fun y hy => ?_⟩
      · rw [← h, ← h2 (f v), hg v hv]
        exact h1 v
      · rw [← h] at hy
        exact (rename_node hP hf).1 (view_isSome_node (rename_wf hP hf) hy)

theorem chain_members (hP : P.WF) (hf : ∀ u v, P.Node u → P.Node v → f u = f v → u = v)
    (hg : ∀ u, P.Node u → g (f u) = Sum.inl u) {β : Type} {x : Except Err (Vec P.n β)}
    {x' : Except Err (Vec (renameKeys f P).n β)} {z : Except Err (Vec Q.n β)} {y : Except Err (Vec D.n β)}
    (h1 : Agree (SameSet Sum.inl P Q) x z) (h2 : Agree (SameSet g (renameKeys f P) Q) x' z)
    (h3 : ∃ r q, x' = .ok r ∧ y = .ok q ∧ ∀ u, ((renameKeys f P).view r u).isSome = (D.view q u).isSome) :
    SameMembers f P D x y := by
  obtain ⟨r, q, rfl, rfl, h⟩ := h3
  cases z with
  | error e => exact h2.elim
  | ok s =>
    cases x with
    | error e => exact h1.elim
    | ok t =>
      refine ⟨t, q, rfl, rfl, fun v hv => ?_, fun y hy => ?_⟩
      · rw [← h, ← h2 (f v), hg v hv]
        exact h1 v
      · rw [← h] at hy
        exact (rename_node hP hf).1 (view_isSome_node (rename_wf hP hf) hy)

/-- for the nodes of `P`, calls about `D` (with the nodes of `P` renamed by `f`) give what they give for `P` -/
structure LikeIn (f : K → K') (P : Graph K α) (D : Graph K' α) (s : K) : Prop where
  hops : ∀ c, (∀ x, c = some x → 0 ≤ x) → SameValues f P D (singleSourceSPL P s c) (singleSourceSPL D (f s) c)
  hopsTo : ∀ c, (∀ x, c = some x → 0 ≤ x) → SameValues f P D (singleTargetSPL P s c) (singleTargetSPL D (f s) c)
  descendants : SameMembers f P D (descendants P s) (descendants D (f s))
  ancestors : SameMembers f P D (ancestors P s) (ancestors D (f s))
  component : SameMembers f P D (nodeConnectedComponent P s) (nodeConnectedComponent D (f s))
  distance : ∀ d : Nat, SameMembers f P D (descendantsAtDistance P s d) (descendantsAtDistance D (f s) d)
  path : ∀ t, P.Node t → bidirectionalSPL D (f s) (f t) = bidirectionalSPL P s t ∧ hasPath D (f s) (f t) = hasPath P s t
  noPath : ∀ y, D.Node y → (¬ ∃ t, P.Node t ∧ f t = y) → hasPath D (f s) y = .ok false ∧ hasPath D y (f s) = .ok false
  clustering : D.Symm → singleClustering D (f s) = singleClustering P s

theorem likeIn (hP : P.WF) (hD : D.WF) (hf : ∀ u v, P.Node u → P.Node v → f u = f v → u = v)
    (h : IsPart (renameKeys f P) D) (hd : P.directed = D.directed) (sP : P.directed = false → P.Symm)
    (sD : D.directed = false → D.Symm) {s : K} (hs : P.Node s) : LikeIn f P D s := by
  obtain ⟨Q, g, hQ, r1, r2, hg⟩ := renamed_on_nodes hP hf
  have hP' := rename_wf hP hf
  have hs' : (renameKeys f P).Node (f s) := (rename_node hP hf).2 ⟨s, hs, rfl⟩
  have sP' : (renameKeys f P).directed = false → (renameKeys f P).Symm := fun e => h.symm hP' (sD (hd ▸ e))
  obtain ⟨p1, p2, p3, p4, p5, p6, p7, p8⟩ := part_searches hP' hD h sP' sD hs'
  have gs := hg s hs
  have nodeP : ∀ t, P.Node t → (renameKeys f P).Node (f t) := fun t ht => (rename_node hP hf).2 ⟨t, ht, rfl⟩
  refine ⟨fun c hc => ?_, fun c hc => ?_, ?_, ?_, ?_, fun d => ?_, fun t ht => ?_, fun y hy hn => ?_, fun sy => ?_⟩
  · have b := relabel_single_source_shortest_path_length r2 hP' hQ (f s) c hc
    rw [gs] at b
    exact chain_values hP hf hg (relabel_single_source_shortest_path_length r1 hP hQ s c hc) b (p1 c)
  · have b := relabel_single_target_shortest_path_length r2 hP' hQ sP' hs' c hc
    rw [gs] at b
    exact chain_values hP hf hg (relabel_single_target_shortest_path_length r1 hP hQ sP hs c hc) b (p2 c)
  · have b := relabel_descendants r2 hP' hQ (f s)
    rw [gs] at b
    exact chain_members hP hf hg (relabel_descendants r1 hP hQ s) b p3
  · have b := relabel_ancestors r2 hP' hQ sP' (f s)
    rw [gs] at b
    exact chain_members hP hf hg (relabel_ancestors r1 hP hQ sP s) b p4
  · have b := relabel_node_connected_component r2 hP' hQ hs'
    rw [gs] at b
    exact chain_members hP hf hg (relabel_node_connected_component r1 hP hQ hs) b p5
  · have b := relabel_descendants_at_distance r2 hP' hQ hs' d
    rw [gs] at b
    exact chain_members hP hf hg (relabel_descendants_at_distance r1 hP hQ hs d) b (p6 d)
  · obtain ⟨a, b⟩ := p7 (f t) (nodeP t ht)
    obtain ⟨c, d⟩ := relabel_bidirectional_shortest_path_length r2 hP' hQ (f s) (f t)
    obtain ⟨c', d'⟩ := relabel_bidirectional_shortest_path_length r1 hP hQ s t
    rw [gs, hg t ht] at c d
    exact ⟨by rw [a, ← c, c'], by rw [b, ← d, d']⟩
  · obtain ⟨a, b, -⟩ := p8 y hy fun hy' => hn ((rename_node hP hf).1 hy')
    exact ⟨a, b⟩
  · have c := ((part_node_values hP' hD h hd hs').1 sy).2
    have b := (relabel_clustering_single r2 hP' hQ hs').1 (h.symm hP' sy)
    rw [gs] at b
    rw [c, ← b]
    refine (relabel_clustering_single r1 hP hQ hs).1 ?_
    exact fun i j => h.symm hP' sy i j

/-- weighted distances: as in the part, including whether a negative cycle is reported -/
theorem likeIn_bellman_ford [AddCommGroup α] [LinearOrder α] [IsOrderedAddMonoid α] (hP : P.WF) (hD : D.WF)
    (hf : ∀ u v, P.Node u → P.Node v → f u = f v → u = v) (h : IsPart (renameKeys f P) D)
    (hd : P.directed = D.directed) (sP : P.directed = false → P.Symm) (sD : D.directed = false → D.Symm)
    {iso iso' : Option α} (hiso : IsoValid P iso) (hiso' : IsoValid D iso') (fdiv : α → α → Int) {s : K}
    (hs : P.Node s) :
    (singleSourceBF P iso fdiv s none = .error .unbounded ∧ singleSourceBF D iso' fdiv (f s) none = .error .unbounded) ∨
    SameValues f P D (singleSourceBF P iso fdiv s none) (singleSourceBF D iso' fdiv (f s) none) := by
  obtain ⟨Q, g, hQ, r1, r2, hg⟩ := renamed_on_nodes hP hf
  have hP' := rename_wf hP hf
  have hs' : (renameKeys f P).Node (f s) := (rename_node hP hf).2 ⟨s, hs, rfl⟩
  have sP' : (renameKeys f P).directed = false → (renameKeys f P).Symm := fun e => h.symm hP' (sD (hd ▸ e))
  have hiso2 : IsoValid (renameKeys f P) iso := by
    intro c hc x y w hw
    obtain ⟨u, v, -, -, e⟩ := (rename_wedge hP hf).1 hw
    exact hiso c hc u v w e
  have b := relabel_single_source_bellman_ford_all r2 hP' hQ iso fdiv (f s) none
  have a := relabel_single_source_bellman_ford_all r1 hP hQ iso fdiv s none
  rw [hg s hs] at b
  rcases part_bellman_ford hP' hD h sP' sD hiso2 hiso' fdiv hs' with ⟨e1, e2⟩ | h3
  · left
    refine ⟨?_, e2⟩
    rw [e1] at b
    cases hq : singleSourceBF Q iso fdiv (Sum.inl s) none with
    | ok q => rw [hq] at b; exact b.elim
    | error e =>
      rw [hq] at a b
      have b' : Err.unbounded = e := b
      cases hp : singleSourceBF P iso fdiv s none with
      | ok r => rw [hp] at a; exact a.elim
      | error e' =>
        rw [hp] at a
        have a' : e' = e := a
        rw [a', ← b']
  · exact .inr (chain_values hP hf hg a b h3)

end

section
variable {K K₁ K₂ α : Type} [DecidableEq K] [DecidableEq K₁] [DecidableEq K₂]

/-- **C126.** `union(G, H, rename=...)`, whatever the renaming of the nodes, as long as no two nodes of a graph get the same
name: each part behaves as before. -/
theorem renamed_union_parts {G : Graph K₁ α} {H : Graph K₂ α} {R : Graph K α} {f : K₁ → K} {g : K₂ → K} (hG : G.WF)
    (hH : H.WF) (h1 : G.multi = false) (h2 : H.multi = false) (hd : G.directed = H.directed)
    (sG : G.directed = false → G.Symm) (sH : H.directed = false → H.Symm)
    (hf : ∀ u v, G.Node u → G.Node v → f u = f v → u = v) (hg : ∀ u v, H.Node u → H.Node v → g u = g v → u = v)
    (hR : Model.union (renameKeys f G) (renameKeys g H) = .ok R) :
    (∀ s, G.Node s → LikeIn f G R s) ∧ ∀ s, H.Node s → LikeIn g H R s := by
  obtain ⟨hw, hdir, hs, hsy⟩ := union_splits (rename_wf hG hf) (rename_wf hH hg) h1 h2 hR
  have hdir' : R.directed = G.directed := hdir
  have sR : R.directed = false → R.Symm := fun e => hsy (sG (hdir' ▸ e)) (sH (hd ▸ hdir' ▸ e))
  exact ⟨fun s hs' => likeIn hG hw hf hs.left hdir'.symm sG sR hs',
    fun s hs' => likeIn hH hw hg hs.right (hdir'.trans hd).symm sH sR hs'⟩

variable {G H : Graph K α}

/-- **C126.** `disjoint_union(G, H)`: a node with number `i` in `G` is named `i`, a node with number `j` in `H` is named
`len(G) + j`; with these names, every call about a node of a part gives what it gives for the part, and nothing is joined
to the other part. -/
theorem disjoint_union_parts (hG : G.WF) (hH : H.WF) (h1 : G.multi = false) (h2 : H.multi = false)
    (hd : G.directed = H.directed) (sG : G.directed = false → G.Symm) (sH : H.directed = false → H.Symm) :
    ∃ (R : Graph Nat α) (f g : K → Nat), disjointUnion G H = .ok R ∧ R.WF ∧
      (∀ u (i : Fin G.n), G.At u i → f u = i.val) ∧ (∀ u (i : Fin H.n), H.At u i → g u = G.n + i.val) ∧
      (∀ s, G.Node s → LikeIn f G R s) ∧ (∀ s, H.Node s → LikeIn g H R s) ∧
      ∀ u v, G.Node u → H.Node v → hasPath R (f u) (g v) = .ok false ∧ hasPath R (g v) (f u) = .ok false := by
  obtain ⟨R, f, g, hR, hw, hdir, hn, hf, hg, idf, idg, he⟩ := disjoint_union_correct hG hH h1 h2
  have flt : ∀ u, G.Node u → f u < G.n := by
    intro u hu
    obtain ⟨i, hi⟩ := hu.exists_id hG
    rw [idf u i hi]; exact i.isLt
  have gle : ∀ u, H.Node u → G.n ≤ g u ∧ g u < G.n + H.n := by
    intro u hu
    obtain ⟨i, hi⟩ := hu.exists_id hH
    rw [idg u i hi]
    have := i.isLt
    omega
  have nl : ∀ {X : Graph K α} {u v w}, X.WEdge u v w → X.Node u ∧ X.Node v := fun e =>
    have e' := edge_iff_wedge.2 ⟨_, e⟩
    ⟨e'.node_left, e'.node_right⟩
  have left : IsPart (renameKeys f G) R := by
    refine ⟨fun x hx => ?_, fun x hx y w => ?_, fun y hy x w => ?_⟩
    · obtain ⟨u, hu, rfl⟩ := (rename_node hG hf).1 hx
      rw [hn]
      have := flt u hu
      omega
    · obtain ⟨u, hu, rfl⟩ := (rename_node hG hf).1 hx
      rw [he, rename_wedge hG hf]
      refine or_iff_left ?_
      rintro ⟨a, b, e, -, hw⟩
      have := gle a (nl hw).1
      have := flt u hu
      omega
    · obtain ⟨u, hu, rfl⟩ := (rename_node hG hf).1 hy
      rw [he, rename_wedge hG hf]
      refine or_iff_left ?_
      rintro ⟨a, b, -, e, hw⟩
      have := gle b (nl hw).2
      have := flt u hu
      omega
  have right : IsPart (renameKeys g H) R := by
    refine ⟨fun x hx => ?_, fun x hx y w => ?_, fun y hy x w => ?_⟩
    · obtain ⟨u, hu, rfl⟩ := (rename_node hH hg).1 hx
      rw [hn]
      exact (gle u hu).2
    · obtain ⟨u, hu, rfl⟩ := (rename_node hH hg).1 hx
      rw [he, rename_wedge hH hg]
      refine or_iff_right ?_
      rintro ⟨a, b, e, -, hw⟩
      have := flt a (nl hw).1
      have := gle u hu
      omega
    · obtain ⟨u, hu, rfl⟩ := (rename_node hH hg).1 hy
      rw [he, rename_wedge hH hg]
      refine or_iff_right ?_
      rintro ⟨a, b, -, e, hw⟩
      have := flt b (nl hw).2
      have := gle u hu
      omega
  have sR : R.directed = false → R.Symm := by
    intro e
    have s1 := sG (hdir ▸ e)
    have s2 := sH (hd ▸ hdir ▸ e)
    refine symm_of_wedge hw fun x y w e => ?_
    rw [he] at e ⊢
    rcases e with ⟨a, b, ea, eb, h⟩ | ⟨a, b, ea, eb, h⟩
    · exact .inl ⟨b, a, eb, ea, wedge_of_symm s1 h⟩
    · exact .inr ⟨b, a, eb, ea, wedge_of_symm s2 h⟩
  have lg : ∀ s, G.Node s → LikeIn f G R s := fun s hs => likeIn hG hw hf left hdir.symm sG sR hs
  refine ⟨R, f, g, hR, hw, idf, idg, lg,
    fun s hs => likeIn hH hw hg right (hdir.trans hd).symm sH sR hs, fun u v hu hv => ?_⟩
  refine (lg u hu).noPath (g v) ((hn _).2 (gle v hv).2) ?_
  rintro ⟨t, ht, e⟩
  have := flt t ht
  have := gle v hv
  omega

end

/-! ### the hypotheses are met -/

example : ∃ R, disjointUnion Ex.partA Ex.partB = .ok R ∧ hasPath R 0 1 = .ok true ∧ hasPath R 0 4 = .ok false ∧
    hasPath R 3 5 = .ok true := ⟨_, rfl, by decide +kernel, by decide +kernel, by decide +kernel⟩

example : Ex.partA.WF ∧ Ex.partB.WF ∧ Ex.partA.Symm ∧ Ex.partB.Symm :=
  ⟨⟨by decide, by decide⟩, ⟨by decide, by decide⟩, by unfold Graph.Symm; decide, by unfold Graph.Symm; decide⟩

example : (match Model.union (renameKeys (fun u => 2 * u) Ex.partA) (renameKeys (fun u => 2 * u + 1) Ex.partB) with
    | .ok R => decide (hasPath R 2 6 = .ok true ∧ hasPath R 2 15 = .ok false)
    | .error _ => false) = true := by decide +kernel

end Props
