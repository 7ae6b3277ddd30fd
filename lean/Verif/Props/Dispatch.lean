import Verif.Model.Dispatch
import Verif.Model.FloydWarshall
import Verif.Props.Convert
import Verif.Props.FloydWarshall

/-!
# C77 convert_from_nx, C78 convert_to_nx
-/

open GB Spec Model Model.Graph Proofs

namespace Props

variable {K S α : Type}

/-- facts every NetworkX graph satisfies -/
structure FullWF (g : NxFull K S α) : Prop where
  nodup : g.nodes.Nodup
  data_nodes : ∀ u v, g.data u v ≠ [] → u ∈ g.nodes ∧ v ∈ g.nodes

/-- some edge has the attribute `x` -/
def EdgeAttr (g : NxFull K S α) (x : S) : Prop := ∃ u v, ∃ d ∈ g.data u v, x ∈ d.map Prod.fst
/-- some node has the attribute `x` -/
def NodeAttr (g : NxFull K S α) (x : S) : Prop := ∃ u ∈ g.nodes, x ∈ (g.nodeAttrs u).map Prod.fst

/-- the edge attributes asked for: with `preserve_edge_attrs` those that occur, if any, else `edge_attrs` -/
def Request (g : NxFull K S α) (a : NxArgs S α) (R : List (S × Option α)) : Prop :=
  (a.preserveEdge = true ∧ ∃ x, EdgeAttr g x ∧ R = [(x, none)]) ∨
  ((a.preserveEdge = false ∨ ∀ x, ¬ EdgeAttr g x) ∧ R = a.edgeAttrs.getD [])

/-- the call is one the backend supports, and reads the edge attribute `x` (`none`: no attribute) -/
structure Supported (one : α) (g : NxFull K S α) (a : NxArgs S α) (x : Option S) : Prop where
  edges : a.preserveEdge = true → ∀ x y, EdgeAttr g x → EdgeAttr g y → x = y
  nodeAttrs : a.nodeAttrs.getD [] = []
  nodes : a.preserveNode = true → ∀ x, ¬ NodeAttr g x
  cls : g.cls ≠ .other
  attr : ∃ R, Request g a R ∧ ((R = [] ∧ x = a.weight) ∨
    ∃ y d, R = [(y, d)] ∧ a.weight = none ∧ (d = none ∨ d = some one) ∧ x = some y)

section
variable [DecidableEq S] {g : NxFull K S α} {a : NxArgs S α}

private theorem mem_edgeAttrNames (hg : FullWF g) (x) : x ∈ edgeAttrNames g ↔ EdgeAttr g x := by
  unfold edgeAttrNames EdgeAttr
  rw [List.mem_dedup]
  simp only [List.mem_flatMap]
  constructor
  · rintro ⟨u, -, v, -, d, hd, hx⟩
    exact ⟨u, v, d, hd, hx⟩
  · rintro ⟨u, v, d, hd, hx⟩
    obtain ⟨hu, hv⟩ := hg.data_nodes u v (List.ne_nil_of_mem hd)
    exact ⟨u, hu, v, hv, d, hd, hx⟩

private theorem nodeAttrNames_nil : nodeAttrNames g = [] ↔ ∀ x, ¬ NodeAttr g x := by
  unfold nodeAttrNames NodeAttr
  rw [List.dedup_eq_nil, List.eq_nil_iff_forall_not_mem]
  simp only [List.mem_flatMap]

private theorem effectiveAttrs_ok (hg : FullWF g)
    (h : a.preserveEdge = true → ∀ x y, EdgeAttr g x → EdgeAttr g y → x = y) :
    ∃ ea, effectiveAttrs g a = .ok ea ∧ Request g a (ea.getD []) := by
  unfold effectiveAttrs
  by_cases hp : a.preserveEdge = true
  · rw [if_pos hp]
    have hm := mem_edgeAttrNames hg
    have hnd : (edgeAttrNames g).Nodup := List.nodup_dedup _
    cases hc : edgeAttrNames g with
    | nil =>
      refine ⟨a.edgeAttrs, rfl, .inr ⟨.inr fun x hx => ?_, rfl⟩⟩
      have := (hm x).2 hx
      rw [hc] at this; cases this
    | cons x l =>
      have hx : EdgeAttr g x := (hm x).1 (by rw [hc]; simp)
      cases l with
      | nil => exact ⟨some [(x, none)], rfl, .inl ⟨hp, x, hx, rfl⟩⟩
      | cons y l =>
        have hy : EdgeAttr g y := (hm y).1 (by rw [hc]; simp)
        have := h hp x y hx hy
        rw [hc] at hnd
        simp [this] at hnd
  · rw [if_neg hp]
    exact ⟨a.edgeAttrs, rfl, .inr ⟨.inl (by simpa using hp), rfl⟩⟩

private theorem effectiveAttrs_cases (hg : FullWF g) :
    (∃ ea, effectiveAttrs g a = .ok ea ∧
      (a.preserveEdge = true → ∀ x y, EdgeAttr g x → EdgeAttr g y → x = y)) ∨
    effectiveAttrs g a = .error .notImplemented := by
  by_cases h : a.preserveEdge = true → ∀ x y, EdgeAttr g x → EdgeAttr g y → x = y
  · obtain ⟨ea, e, -⟩ := effectiveAttrs_ok hg h
    exact .inl ⟨ea, e, h⟩
  · right
    push Not at h
    obtain ⟨hp, x, y, hx, hy, hxy⟩ := h
    unfold effectiveAttrs
    rw [if_pos hp]
    have hm := mem_edgeAttrNames hg
    cases hc : edgeAttrNames g with
    | nil => have := (hm x).2 hx; rw [hc] at this; cases this
    | cons z l =>
      cases l with
      | nil =>
        have h1 := (hm x).2 hx
        have h2 := (hm y).2 hy
        rw [hc] at h1 h2
        simp at h1 h2
        exact absurd (h1.trans h2.symm) hxy
      | cons _ _ => rfl

omit [DecidableEq S] in
private theorem request_unique {R R' : List (S × Option α)}
    (h : a.preserveEdge = true → ∀ x y, EdgeAttr g x → EdgeAttr g y → x = y)
    (h1 : Request g a R) (h2 : Request g a R') : R = R' := by
  rcases h1 with ⟨hp, x, hx, rfl⟩ | ⟨hn, rfl⟩ <;> rcases h2 with ⟨hp', y, hy, rfl⟩ | ⟨hn', rfl⟩
  · rw [h hp x y hx hy]
  · rcases hn' with hn' | hn'
    · rw [hp] at hn'; cases hn'
    · exact absurd hx (hn' x)
  · rcases hn with hn | hn
    · rw [hp'] at hn; cases hn
    · exact absurd hy (hn y)
  · rfl

/-- the directed flag of a NetworkX class -/
def isDirectedClass (c : NxClass) : Bool := c = .digraph || c = .multidigraph
/-- the multigraph flag of a NetworkX class -/
def isMultiClass (c : NxClass) : Bool := c = .multigraph || c = .multidigraph

omit [DecidableEq S] in
private theorem convertClass_ok [DecidableEq S] [Add α] [Zero α] (one : α) (hc : g.cls ≠ .other) (w : Option S) :
    convertClass one g w = .ok (fromFull one g (isDirectedClass g.cls) (isMultiClass g.cls) w) := by
  unfold convertClass isDirectedClass isMultiClass
  cases h : g.cls with
  | other => exact absurd h hc
  | _ => rfl

variable [DecidableEq α] [AddMonoid α]

/-- **C77.** On every supported call the result has the nodes of the input in their order, is a graph object
of the same kind (directed or not, multigraph or not), its edges are those of the input, weighted by the
attribute that was asked for (one where an edge lacks it; summed over parallel edges); graph attributes are
copied exactly when asked for. -/
theorem convert_from_nx_correct {one : α} (hg : FullWF g) {x : Option S} (hs : Supported one g a x) :
    ∃ r, convertFromNx one g a = .ok r ∧ r.G.WF ∧ r.G.nodes = g.nodes ∧
      r.G.directed = isDirectedClass g.cls ∧ r.G.multi = isMultiClass g.cls ∧
      (∀ u v w, r.G.WEdge u v w ↔ g.data u v ≠ [] ∧
        w = ((g.data u v).map fun d => (x.bind fun x => d.lookup x).getD one).sum) ∧
      r.graphAttrs = if a.preserveGraph then g.graphAttrs else [] := by
  obtain ⟨ea, e, hreq⟩ := effectiveAttrs_ok hg hs.edges
  obtain ⟨R, hR, hattr⟩ := hs.attr
  obtain rfl := request_unique hs.edges hR hreq
  have hw : effectiveWeight one ea a.weight = .ok x := by
    rcases hattr with ⟨h0, rfl⟩ | ⟨y, d, h1, h2, h3, rfl⟩
    · rcases ea with _ | _ | _ <;> first | rfl | (simp at h0)
    · rcases ea with _ | _ | ⟨p, _ | _⟩ <;> simp at h1
      subst h1
      rw [h2]
      rcases h3 with rfl | rfl <;> simp [effectiveWeight]
  refine ⟨⟨fromFull one g (isDirectedClass g.cls) (isMultiClass g.cls) x,
    if a.preserveGraph then g.graphAttrs else []⟩, ?_, wf_zipIdx hg.nodup rfl _ _, ?_, rfl, rfl, ?_, rfl⟩
  · unfold convertFromNx
    rw [e]
    have hn : ¬ (a.preserveNode = true ∧ nodeAttrNames g ≠ []) := by
      rintro ⟨h1, h2⟩
      exact h2 (nodeAttrNames_nil.2 (hs.nodes h1))
    simp only [hs.nodeAttrs, ne_eq, not_true_eq_false, if_false, hn]
    show (effectiveWeight one ea a.weight >>= fun o => _) = _
    rw [hw]
    show (convertClass one g x >>= fun o => _) = _
    rw [convertClass_ok one hs.cls]
    rfl
  · simp [fromFull, Graph.nodes]
  · intro u v w
    constructor
    · rintro ⟨i, j, hi, hj, e⟩
      obtain ⟨hi', ei⟩ := List.getElem?_eq_some_iff.1 (at_zipIdx.1 hi)
      obtain ⟨hj', ej⟩ := List.getElem?_eq_some_iff.1 (at_zipIdx.1 hj)
      simp only [fromFull, List.get_eq_getElem, ei, ej] at e
      split at e
      · cases e
      · rename_i hne
        exact ⟨hne, (Option.some.inj e).symm⟩
    · rintro ⟨hne, rfl⟩
      obtain ⟨hu, hv⟩ := hg.data_nodes u v hne
      obtain ⟨i, hi, rfl⟩ := List.getElem_of_mem hu
      obtain ⟨j, hj, rfl⟩ := List.getElem_of_mem hv
      refine ⟨⟨i, hi⟩, ⟨j, hj⟩, at_zipIdx.2 (List.getElem?_eq_getElem hi),
        at_zipIdx.2 (List.getElem?_eq_getElem hj), ?_⟩
      simp only [fromFull, List.get_eq_getElem]
      rw [if_neg hne]

/-- **C77.** Every unsupported call raises: a TypeError, if the argument is not a graph or both an edge
attribute and `weight` are given, and otherwise NotImplementedError. -/
theorem convert_from_nx_unsupported {one : α} (hg : FullWF g) (hs : ∀ x, ¬ Supported one g a x) :
    convertFromNx one g a = .error .notImplemented ∨
    (convertFromNx one g a = .error .typeError ∧
      (g.cls = .other ∨ a.weight ≠ none ∧ ∃ y d, Request g a [(y, d)])) := by
  unfold convertFromNx
  rcases effectiveAttrs_cases (a := a) hg with ⟨ea, e, h1⟩ | e
  · rw [e]
    obtain ⟨ea', e', hreq⟩ := effectiveAttrs_ok hg h1
    rw [e] at e'; cases e'
    by_cases h2 : a.nodeAttrs.getD [] = []
    · by_cases h3 : a.preserveNode = true ∧ nodeAttrNames g ≠ []
      · left
        simp only [h2, ne_eq, not_true_eq_false, if_false, if_pos h3]
        rfl
      · simp only [h2, ne_eq, not_true_eq_false, if_false, h3]
        have h3' : a.preserveNode = true → ∀ x, ¬ NodeAttr g x := by
          intro hp
          by_contra hc
          exact h3 ⟨hp, fun hn => hc (nodeAttrNames_nil.1 hn)⟩
        show (effectiveWeight one ea a.weight >>= fun o => _) = _ ∨ (effectiveWeight one ea a.weight >>= fun o => _) = _ ∧ _
        have step : ∀ x, effectiveWeight one ea a.weight = .ok x →
            (True ∧ ∃ R, Request g a R ∧ ((R = [] ∧ x = a.weight) ∨
              ∃ y d, R = [(y, d)] ∧ a.weight = none ∧ (d = none ∨ d = some one) ∧ x = some y)) →
            g.cls = .other := by
          intro x _ ⟨_, hx⟩
          by_contra hc
          exact hs x ⟨h1, h2, h3', hc, hx⟩
        have cls : ∀ x, g.cls = .other → convertClass one g x = .error .typeError := by
          intro x hx
          unfold convertClass
          rw [hx]; rfl
        rcases ea with _ | _ | ⟨⟨y, d⟩, _ | ⟨z, l⟩⟩
        · have hx := step a.weight rfl ⟨trivial, [], hreq, .inl ⟨rfl, rfl⟩⟩
          right
          refine ⟨?_, .inl hx⟩
          show (convertClass one g a.weight >>= fun o => _) = _
          rw [cls _ hx]; rfl
        · have hx := step a.weight rfl ⟨trivial, [], hreq, .inl ⟨rfl, rfl⟩⟩
          right
          refine ⟨?_, .inl hx⟩
          show (convertClass one g a.weight >>= fun o => _) = _
          rw [cls _ hx]; rfl
        · cases hw : a.weight with
          | some w =>
            right
            exact ⟨rfl, .inr ⟨by simp, y, d, hreq⟩⟩
          | none =>
            rcases d with _ | d
            · have hx := step (some y) (by rw [hw]; rfl)
                ⟨trivial, _, hreq, .inr ⟨y, none, rfl, hw, .inl rfl, rfl⟩⟩
              right
              refine ⟨?_, .inl hx⟩
              show (convertClass one g (some y) >>= fun o => _) = _
              rw [cls _ hx]; rfl
            · by_cases hd : d = one
              · subst hd
                have e1 : effectiveWeight d (some [(y, some d)]) none = .ok (some y) := by
                  simp [effectiveWeight]
                have hx := step (some y) (by rw [hw]; exact e1)
                  ⟨trivial, _, hreq, .inr ⟨y, some d, rfl, hw, .inr rfl, rfl⟩⟩
                right
                refine ⟨?_, .inl hx⟩
                rw [e1]
                show (convertClass d g (some y) >>= fun o => _) = _
                rw [cls _ hx]; rfl
              · left
                have e1 : effectiveWeight one (some [(y, some d)]) (none : Option S) =
                    .error .notImplemented := by
                  simp [effectiveWeight, hd]
                rw [e1]; rfl
        · left; rfl
    · left
      simp only [ne_eq, h2, not_false_eq_true, if_true]
      rfl
  · left
    rw [e]; rfl

end

/-! ### C78 -/

/-- **C78.** a graph goes back through `to_networkx`; the named matrices become sparse or dense arrays with
the same entries (dense: 0 where nothing is stored); other objects are unchanged. -/
theorem convert_to_nx_correct [DecidableEq K] [Zero α] :
    (∀ (G : Graph K α) name, convertToNx (.graph G) name = (toNX G).map NxValue.graph) ∧
    (∀ m (A : Mat m m α), ∀ name ∈ ["adjacency_matrix", "bethe_hessian_matrix", "laplacian_matrix",
        "normalized_laplacian_matrix", "tournament_matrix"],
      convertToNx (K := K) (.matrix m A) name = .ok (.sparse m A)) ∧
    (∀ m (A : Mat m m α), ∀ name ∈ ["directed_modularity_matrix", "floyd_warshall_numpy", "google_matrix",
        "modularity_matrix"],
      convertToNx (K := K) (.matrix m A) name = .ok (.dense m fun i j => (A i j).getD 0)) ∧
    (∀ x name, convertToNx (K := K) (.other x : GaValue K α) name = .ok (.other x)) := by
  refine ⟨fun G name => rfl, ?_, ?_, fun x name => rfl⟩
  · intro m A name hn
    unfold convertToNx
    dsimp only
    rw [if_pos (show name ∈ sparseNames from hn)]
  · intro m A name hn
    unfold convertToNx
    dsimp only
    have h1 : name ∉ sparseNames := by
      intro hc
      revert hn hc
      simp only [sparseNames, List.mem_cons, List.not_mem_nil, or_false]
      rintro (rfl | rfl | rfl | rfl) hc <;> revert hc <;> decide
    rw [if_neg h1, if_pos (show name ∈ denseNames from hn)]

/-- **C78, finding.** `floyd_warshall_numpy` leaves the entries of unreachable pairs out, and the conversion
to a dense array fills them with 0: whenever `v` cannot be reached from `u` (no negative cycles) the user gets
distance 0, where NetworkX gives infinity. -/
theorem convert_to_nx_unreachable_zero [DecidableEq K] [AddCommGroup α] [LinearOrder α] [IsOrderedAddMonoid α]
    {G : Graph K α} (h : G.WF) (hsym : G.directed = false → G.Symm)
    (hno : ∀ u, G.Node u → ¬ NegCycleAt G.WEdge u) (choose : α → α → α) {u v : K} {i j : Fin G.n}
    (hi : G.At u i) (hj : G.At v j) (hunr : ∀ k c, ¬ WWalk G.WEdge k c u v) :
    ∃ D, floydWarshallNumpy G choose none = .ok D ∧ D i j = none ∧
      ∃ M, convertToNx (K := K) (.matrix G.n D) "floyd_warshall_numpy" = .ok (.dense G.n M) ∧ M i j = 0 := by
  refine ⟨fwDist G.directed choose G.A, rfl, ?_, fun i j => (fwDist G.directed choose G.A i j).getD 0, ?_, ?_⟩
  all_goals
    have hnone : fwDist G.directed choose G.A i j = none := by
      cases hc : fwDist G.directed choose G.A i j with
      | none => rfl
      | some d =>
        have : G.view2 (fwDist G.directed choose G.A) u v = some d := by
          unfold Graph.view2
          rw [(idOf_eq_some h).2 hi, (idOf_eq_some h).2 hj]; exact hc
        obtain ⟨-, -, ⟨k, hk⟩, -⟩ := (floyd_warshall_correct h hsym hno choose u v d).1 this
        exact absurd hk (hunr k d)
  · exact hnone
  · exact convert_to_nx_correct.2.2.1 _ _ _ (by decide)
  · show (fwDist G.directed choose G.A i j).getD 0 = 0
    rw [hnone]; rfl

/-! ### the hypotheses are met -/

/-- a multigraph: two edges 1-2, one with weight 5 -/
def dpG : NxFull Nat String Int where
  cls := .multigraph
  nodes := [1, 2, 3]
  data := fun u v => if (u = 1 ∧ v = 2) ∨ (u = 2 ∧ v = 1) then [[("weight", 5)], []] else []
  nodeAttrs := fun _ => []
  graphAttrs := [("name", 0)]

theorem dpG_wf : FullWF dpG := by
  refine ⟨by decide, fun u v h => ?_⟩
  have : (u = 1 ∧ v = 2) ∨ (u = 2 ∧ v = 1) := by
    by_contra hc
    exact h (if_neg hc)
  rcases this with ⟨rfl, rfl⟩ | ⟨rfl, rfl⟩ <;> decide

example : Supported 1 dpG { preserveEdge := true } (some "weight") ∧
    Supported 1 dpG { weight := some "weight" } (some "weight") ∧
    Supported 1 dpG { edgeAttrs := some [("w", some 1)] } (some "w") ∧
    (∀ x, ¬ Supported 1 dpG { edgeAttrs := some [("w", some 2)] } x) := by
  have h1 : ∀ x, EdgeAttr dpG x → x = "weight" := by
    rintro x ⟨u, v, d, hd, hx⟩
    unfold dpG at hd
    dsimp only at hd
    split at hd
    · simp at hd
      rcases hd with rfl | rfl
      · simpa using hx
      · simp at hx
    · cases hd
  refine ⟨⟨fun _ x y hx hy => (h1 x hx).trans (h1 y hy).symm, rfl, by simp, by decide,
      [("weight", none)], .inl ⟨rfl, "weight", ⟨1, 2, [("weight", 5)], by decide, by decide⟩, rfl⟩,
      .inr ⟨"weight", none, rfl, rfl, .inl rfl, rfl⟩⟩,
    ⟨by simp, rfl, by simp, by decide, [], .inr ⟨.inl rfl, rfl⟩, .inl ⟨rfl, rfl⟩⟩,
    ⟨by simp, rfl, by simp, by decide, [("w", some 1)], .inr ⟨.inl rfl, rfl⟩,
      .inr ⟨"w", some 1, rfl, rfl, .inr rfl, rfl⟩⟩, ?_⟩
  rintro x ⟨-, -, -, -, R, hR, hx⟩
  rcases hR with ⟨hp, -⟩ | ⟨-, rfl⟩
  · cases hp
  · rcases hx with ⟨h, -⟩ | ⟨y, d, h, -, hd, -⟩
    · cases h
    · cases h
      rcases hd with hd | hd
      · cases hd
      · exact absurd hd (by decide)

/-- `n` nodes, no edge -/
def Ex.ofNE (n : Nat) : Graph Nat Int :=
  { n := n, A := fun _ _ => none, keyToId := (List.range n).map fun i => (i, i), directed := true }

/-- two nodes, no edge: node 1 cannot be reached from node 0 -/
example : (Ex.ofNE 2).WF ∧ (Ex.ofNE 2).directed = true ∧
    (∀ u, (Ex.ofNE 2).Node u → ¬ NegCycleAt (Ex.ofNE 2).WEdge u) ∧ (Ex.ofNE 2).At 0 (0 : Fin 2) ∧ ∀ k c, ¬ WWalk (Graph.WEdge (Ex.ofNE 2)) k c 0 1 := by
  have hE : ∀ u v w, ¬ Graph.WEdge (Ex.ofNE 2) u v w := by
    rintro u v w ⟨i, j, -, -, e⟩
    cases e
  have hW : ∀ {k c} {a b : Nat}, WWalk (Graph.WEdge (Ex.ofNE 2)) k c a b → a = b ∧ c = 0 := by
    intro k c a b hw
    induction hw with
    | nil => exact ⟨rfl, rfl⟩
    | snoc _ e _ => exact absurd e (hE _ _ _)
  refine ⟨⟨by decide, by decide⟩, rfl, ?_, by unfold Graph.At; decide, ?_⟩
  · rintro u - ⟨k, c, hw, hc⟩
    rw [(hW hw).2] at hc
    exact absurd hc (lt_irrefl _)
  · intro k c hw
    exact absurd (hW hw).1 (by decide)

end Props
