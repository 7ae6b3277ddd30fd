import Verif.Props.Relabel4
import Verif.Props.ClusterW

/-!
# C113 Collections of nodes are read as sets

The order and the repetitions in a node collection never matter (functions in which a node list numbers the rows of a
matrix are not among these), and where extra members are ignored, only the members that are nodes matter.
-/

open GB Spec Model Model.Graph Proofs Proofs.Cluster

namespace Props

variable {K α : Type} [DecidableEq K] {G : Graph K α}

/-- the same members among the nodes of the graph -/
def SameNodes (G : Graph K α) (S S' : List K) : Prop := ∀ u, G.Node u → (u ∈ S ↔ u ∈ S')

/-- the same for an optional collection -/
def SameNodes? (G : Graph K α) : Option (List K) → Option (List K) → Prop
  | none, none => True
  | some S, some S' => SameNodes G S S'
  | _, _ => False

theorem vofIds_congr {n : Nat} {β : Type} {l l' : List (Fin n)} (h : ∀ i, i ∈ l ↔ i ∈ l') (a : β) :
    vofIds l a = vofIds l' a := by
  funext i; unfold vofIds; simp only [h]

theorem ids_congr (h : G.WF) {l l' : List K} (hl : ∀ u, u ∈ l ↔ u ∈ l') :
    (∃ ids ids', listToIds G l = .ok ids ∧ listToIds G l' = .ok ids' ∧ ∀ i, i ∈ ids ↔ i ∈ ids') ∨
    (listToIds G l = .error .keyError ∧ listToIds G l' = .error .keyError) := by
  rcases nodes_or_unknown (G := G) (some l) with hn | ⟨l0, u, e, hu, hx⟩
  · have hn := hn l rfl
    obtain ⟨ids, he, hf⟩ := Proofs.listToIds_ok h hn
    obtain ⟨ids', he', hf'⟩ := Proofs.listToIds_ok h (keys := l') fun u hu => hn u ((hl u).2 hu)
    exact Or.inl ⟨ids, ids', he, he', fun i => by rw [forall₂_ids h hf, forall₂_ids h hf', hl]⟩
  · cases e
    exact Or.inr ⟨Proofs.Bfs.listToIds_error h hu hx, Proofs.Bfs.listToIds_error h ((hl u).1 hu) hx⟩

theorem listToVector_congr (h : G.WF) {l l' : List K} (hl : ∀ u, u ∈ l ↔ u ∈ l') :
    listToVector G l = listToVector G l' := by
  unfold listToVector
  rcases ids_congr h hl with ⟨ids, ids', e, e', hi⟩ | ⟨e, e'⟩
  · rw [e, e']
    show Except.ok _ = Except.ok _
    rw [vofIds_congr hi]
  · rw [e, e']

theorem listToMask_congr (h : G.WF) {l l' : List K} (hl : ∀ u, u ∈ l ↔ u ∈ l') :
    listToMask G (some l) = listToMask G (some l') := by
  unfold listToMask
  rcases ids_congr h hl with ⟨ids, ids', e, e', hi⟩ | ⟨e, e'⟩
  · simp only [e, e']
    show Except.ok _ = Except.ok _
    rw [vofIds_congr hi]
  · simp only [e, e']

theorem setToVector_congr (h : G.WF) {S S' : List K} (hS : SameNodes G S S') :
    setToVector G S true = setToVector G S' true := by
  have := listToVector_congr h (l := S.filter fun k => G.contains k) (l' := S'.filter fun k => G.contains k)
    fun u => by
      rw [List.mem_filter, List.mem_filter]
      constructor
      · rintro ⟨a, b⟩; exact ⟨(hS u (contains_iff.1 b)).1 a, b⟩
      · rintro ⟨a, b⟩; exact ⟨(hS u (contains_iff.1 b)).2 a, b⟩
  unfold setToVector
  exact this

theorem setToVector?_congr (h : G.WF) {T T' : Option (List K)} (hT : SameNodes? G T T') :
    setToVector? G T = setToVector? G T' := by
  cases T <;> cases T' <;> first | exact hT.elim | rfl | skip
  unfold setToVector?
  exact congrArg (Except.map some) (setToVector_congr h hT)

theorem otherSide_congr (h : G.WF) {T T' : Option (List K)} (hT : SameNodes? G T T') (s : Vec G.n Bool) :
    otherSide G s T = otherSide G s T' := by
  cases T <;> cases T' <;> first | exact hT.elim | rfl | skip
  exact setToVector_congr h hT

/-- **C113.** Functions of a node list: two lists with the same members, in any order and with any repetitions, give the
same result (a KeyError included). -/
theorem node_lists_as_sets [AddCommMonoid α] (h : G.WF) {l l' : List K} (hl : ∀ u, u ∈ l ↔ u ∈ l') :
    triangles G (some l) = triangles G (some l') ∧ clustering G (some l) = clustering G (some l') ∧
    clusteringDirected G (some l) = clusteringDirected G (some l') ∧
    generalizedDegree G (some l) = generalizedDegree G (some l') ∧
    (∀ z, averageClustering G (some l) z = averageClustering G (some l') z) ∧
    reciprocityNodes G l = reciprocityNodes G l' ∧
    volume G l = volume G l' ∧ volumeWeighted G l = volumeWeighted G l' ∧ nodeExpansion G l = nodeExpansion G l' := by
  have m := listToMask_congr h hl
  have v := listToVector_congr h hl
  refine ⟨?_, ?_, ?_, ?_, fun z => ?_, ?_, ?_, ?_, ?_⟩
  · unfold triangles; rw [m]
  · unfold clustering; rw [m]
  · unfold clusteringDirected; rw [m]
  · unfold generalizedDegree; rw [m]
  · unfold averageClustering; rw [m]
  · unfold reciprocityNodes; rw [m]
  · unfold volume; rw [v]
  · unfold volumeWeighted; rw [v]
  · unfold nodeExpansion; rw [v]

/-- **C113.** the same for the weighted clustering functions -/
theorem weighted_node_lists_as_sets {F : Type} [Field F] [LinearOrder F] {G : Graph K F} (h : G.WF) {l l' : List K}
    (hl : ∀ u, u ∈ l ↔ u ∈ l') (cbrt : F → F) :
    clusteringWeighted cbrt G (some l) = clusteringWeighted cbrt G (some l') ∧
    ∀ z, averageClusteringWeighted cbrt G (some l) z = averageClusteringWeighted cbrt G (some l') z := by
  have m := listToMask_congr h hl
  refine ⟨?_, fun z => ?_⟩
  · unfold clusteringWeighted; rw [m]
  · unfold averageClusteringWeighted; rw [m]

/-- **C113.** the same for `square_clustering`, whatever the chunk size -/
theorem square_node_lists_as_sets {G : Graph K Int} (h : Simple G) {l l' : List K} (hl : ∀ u, u ∈ l ↔ u ∈ l')
    (c : Option Int) : squareClusteringOf G l c = squareClusteringOf G l' c := by
  unfold squareClusteringOf
  rcases ids_congr h.wf hl with ⟨ids, ids', e, e', hi⟩ | ⟨e, e'⟩
  · rw [e, e']
    show squareResult G.A (some ids) c = squareResult G.A (some ids') c
    have hv : squareVec G.A (some ids) = squareVec G.A (some ids') := by
      funext i
      rw [squareVec_key h, squareVec_key h]
      have : Proofs.Square.inIds (some ids) i ↔ Proofs.Square.inIds (some ids') i := by
        simp only [Proofs.Square.inIds, Option.some.injEq, forall_eq', hi]
      exact if_congr (and_congr_left fun _ => this) rfl rfl
    unfold squareResult squareSplit
    cases c with
    | none => simp only [hv]
    | some c =>
      by_cases hz : ids = []
      · have hz' : ids' = [] := by
          cases ids' with
          | nil => rfl
          | cons a t => exact absurd ((hi a).2 (List.mem_cons_self)) (by rw [hz]; simp)
        rw [hz, hz']
      · have hz' : ids' ≠ [] := by
          rintro rfl
          cases ids with
          | nil => exact hz rfl
          | cons a t => exact absurd ((hi a).1 (List.mem_cons_self)) (by simp)
        simp only [squareSplit_eq h ids c hz, squareSplit_eq h ids' c hz', hv]
  · rw [e, e']

/-- **C113.** Functions of node sets: only the members that are nodes of the graph matter; order, repetitions and
foreign members do not. -/
theorem node_sets_as_sets [AddCommMonoid α] (h : G.WF) {S S' : List K} {T T' : Option (List K)} (hS : SameNodes G S S')
    (hT : SameNodes? G T T') :
    cutSize G S T = cutSize G S' T' ∧ cutSizeWeighted G S T = cutSizeWeighted G S' T' ∧
    normalizedCutSize G S T = normalizedCutSize G S' T' ∧ conductance G S T = conductance G S' T' ∧
    edgeExpansion G S T = edgeExpansion G S' T' ∧ mixingExpansion G S T = mixingExpansion G S' T' ∧
    boundaryExpansion G S = boundaryExpansion G S' ∧
    edgeBoundary G S T = edgeBoundary G S' T' ∧ edgeBoundaryData G S T = edgeBoundaryData G S' T' ∧
    nodeBoundary G S T = nodeBoundary G S' T' ∧ isDominatingSet G S = isDominatingSet G S' := by
  have s := setToVector_congr h hS
  have t := setToVector?_congr h hT
  have o := otherSide_congr h hT
  refine ⟨?_, ?_, ?_, ?_, ?_, ?_, ?_, ?_, ?_, ?_, ?_⟩
  · unfold cutSize; rw [s, t]
  · unfold cutSizeWeighted; rw [s, t]
  · unfold normalizedCutSize; rw [s]; simp only [o]
  · unfold conductance; rw [s]; simp only [o]
  · unfold edgeExpansion; rw [s, t]
  · unfold mixingExpansion; rw [s, t]
  · unfold boundaryExpansion; rw [s]
  · unfold edgeBoundary; rw [s, t]
  · unfold edgeBoundaryData; rw [s, t]
  · unfold nodeBoundary; rw [s, t]
  · unfold isDominatingSet; rw [s]

/-- **C113.** partitions: the blocks as sets -/
theorem communities_as_sets (h : G.WF) {P P' : List (List K)} (hP : List.Forall₂ (SameNodes G) P P') :
    intraCommunityEdges G P = intraCommunityEdges G P' ∧ interCommunityEdges G P = interCommunityEdges G P' := by
  have : (P.mapM fun b => setToVector G b true) = P'.mapM fun b => setToVector G b true := by
    induction hP with
    | nil => rfl
    | cons hb _ ih => rw [List.mapM_cons, List.mapM_cons, setToVector_congr h hb, ih]
  constructor
  · unfold intraCommunityEdges; rw [this]
  · unfold interCommunityEdges; rw [this]

/-- **C113, the hypotheses are met**: a reordered collection with a repetition and a foreign member -/
example : SameNodes _root_.Ex.ug [0, 1] [99, 1, 0, 1] ∧ SameNodes? _root_.Ex.ug (some [2]) (some [2, 77, 2]) ∧
    ¬ _root_.Ex.ug.Node 99 ∧ cutSize _root_.Ex.ug [99, 1, 0, 1] (some [2, 77, 2]) = cutSize _root_.Ex.ug [0, 1] (some [2]) := by
  refine ⟨?_, ?_, by decide, by decide +kernel⟩
  · have : ∀ u ∈ _root_.Ex.ug.nodes, (u ∈ [0, 1] ↔ u ∈ [99, 1, 0, 1]) := by decide
    exact this
  · have : ∀ u ∈ _root_.Ex.ug.nodes, (u ∈ [2] ↔ u ∈ [2, 77, 2]) := by decide
    exact this

end Props
