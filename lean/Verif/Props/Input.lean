import Verif.Model.Input

/-!
# C89: algorithms are only called with the kind of graph they are for

The specification is the table of what each function accepts: `undirectedOnly`, `directedOnly`, `noMulti` list the
functions by name.
-/

open Model

namespace Props

/-- functions documented for undirected graphs only -/
def undirectedOnly : List String :=
  ["triangles", "generalized_degree", "k_truss", "efficiency", "is_k_regular", "is_connected",
   "node_connected_component", "bethe_hessian_matrix", "modularity_matrix"]

/-- functions documented for directed graphs only -/
def directedOnly : List String :=
  ["lowest_common_ancestor", "is_tournament", "score_sequence", "tournament_matrix", "in_degree_centrality",
   "out_degree_centrality", "is_weakly_connected", "directed_modularity_matrix"]

/-- functions not implemented for multigraphs -/
def noMulti : List String :=
  ["k_truss", "bethe_hessian_matrix", "modularity_matrix", "is_tournament", "score_sequence", "tournament_matrix",
   "directed_modularity_matrix", "eigenvector_centrality", "katz_centrality"]

/-- **C89.** Whatever is passed, a function for undirected (directed) graphs calls its algorithm with an undirected
(directed) graph object or raises; a directed (undirected) NetworkX graph or graph object gives
`NotImplemented`, so does a multigraph where the function is not for multigraphs. -/
theorem api_kind (f : ApiFn) (hf : f ∈ apiTable) :
    (∀ i k, enter f i = .ok k → (f.name ∈ undirectedOnly → k.directed = false) ∧
      (f.name ∈ directedOnly → k.directed = true)) ∧
    (f.name ∈ undirectedOnly → ∀ m, enter f (.nx true m) = .error .notImplemented ∧
      enter f (.ga true m) = .error .notImplemented) ∧
    (f.name ∈ directedOnly → ∀ m, enter f (.nx false m) = .error .notImplemented ∧
      enter f (.ga false m) = .error .notImplemented) ∧
    (f.name ∈ noMulti → ∀ d, enter f (.nx d true) = .error .notImplemented ∧
      enter f (.ga d true) = .error .notImplemented) ∧
    (f.name ∈ undirectedOnly → ∀ i ∈ [Inp.nx false false, .ga false false, .matrix true],
      enter f i = .ok ⟨false, false⟩) ∧
    (f.name ∈ directedOnly → ∀ i ∈ [Inp.nx true false, .ga true false, .matrix true],
      enter f i = .ok ⟨true, false⟩) := by
  refine ⟨?_, ?_⟩
  · intro i k
    revert f
    rcases i with ⟨d, m⟩ | ⟨d, m⟩ | b | _ <;> (try cases d) <;> (try cases m) <;> (try cases b) <;>
      rcases k with ⟨kd, km⟩ <;> cases kd <;> cases km <;> decide
  · revert f; decide

/-- **C89.** All other functions accept every graph and keep it directed or undirected. -/
theorem api_plain (name : String) (d m : Bool) :
    enter (plainApi name) (.nx d m) = .ok ⟨d, false⟩ ∧ enter (plainApi name) (.ga d m) = .ok ⟨d, m⟩ ∧
    enter (plainApi name) (.matrix true) = .ok ⟨true, false⟩ ∧
    enter (plainApi name) (.matrix false) = .error .valueError ∧
    enter (plainApi name) .other = .error .typeError := ⟨rfl, rfl, rfl, rfl, rfl⟩

/-- **C89.** What is not a graph is rejected: an object of some other type by TypeError, or by AttributeError where a
decorator asks it for `is_directed()` or `is_multigraph()` first, and a matrix that is not square by ValueError. -/
theorem api_not_a_graph (f : ApiFn) (hf : f ∈ apiTable) :
    enter f .other = .error (if f.name = "square_clustering" then .typeError else .attributeError) ∧
    enter f (.matrix false) = .error .valueError := by
  revert f; decide

/-- **C89 fails for `square_clustering`**: it has no decorator, so a directed NetworkX graph is silently treated as
an undirected graph object (with its non-symmetric matrix), while a `DiGraph` raises TypeError. -/
theorem square_clustering_accepts_directed (f : ApiFn) (hf : f ∈ apiTable) (hn : f.name = "square_clustering")
    (m : Bool) : enter f (.nx true m) = .ok ⟨false, false⟩ ∧ enter f (.ga true m) = .error .typeError := by
  revert f; cases m <;> decide

/-- **C89 fails for `reciprocity`**: `not_implemented_for("undirected", "multigraph")` rejects only undirected
*multigraphs*; an undirected graph reaches the conversion and raises TypeError, a directed multigraph is accepted. -/
theorem reciprocity_rejects_both_only (f : ApiFn) (hf : f ∈ apiTable)
    (hn : f.name = "reciprocity" ∨ f.name = "overall_reciprocity") :
    enter f (.nx false true) = .error .notImplemented ∧ enter f (.nx false false) = .error .typeError ∧
    enter f (.ga false false) = .error .typeError ∧ enter f (.nx true true) = .ok ⟨true, false⟩ := by
  revert f; decide

/-- what a tag of `not_implemented_for` says about a graph -/
def Describes (directed multi : Bool) : Tag → Prop
  | .directed => directed = true
  | .undirected => directed = false
  | .multigraph => multi = true
  | .graph => multi = false

/-- **C89.** `not_implemented_for(*tags)` rejects a graph, of either library, exactly when *all* its tags describe the
graph (`tags` not contradictory); matrices pass. -/
theorem not_implemented_for_iff (tags : List Tag) (h1 : ¬ (.directed ∈ tags ∧ .undirected ∈ tags))
    (h2 : ¬ (.multigraph ∈ tags ∧ .graph ∈ tags)) (d m : Bool) :
    (notImplementedFor tags (.nx d m) = .error .notImplemented ↔ ∀ t ∈ tags, Describes d m t) ∧
    (notImplementedFor tags (.nx d m) = .ok () ↔ ∃ t ∈ tags, ¬ Describes d m t) ∧
    notImplementedFor tags (.ga d m) = notImplementedFor tags (.nx d m) ∧
    ∀ sq, notImplementedFor tags (.matrix sq) = .ok () := by
  have key : ((mval tags = none ∨ mval tags = some m) ∧ (dval tags = none ∨ dval tags = some d)) ↔
      ∀ t ∈ tags, Describes d m t := by
    have hsplit : (∀ t ∈ tags, Describes d m t) ↔
        (.directed ∈ tags → d = true) ∧ (.undirected ∈ tags → d = false) ∧
        (.multigraph ∈ tags → m = true) ∧ (.graph ∈ tags → m = false) := by
      constructor
      · intro h
        exact ⟨h _, h _, h _, h _⟩
      · rintro ⟨a, b, c, e⟩ t ht
        cases t
        exacts [a ht, b ht, c ht, e ht]
    rw [hsplit]
    unfold mval dval
    by_cases a : Tag.directed ∈ tags <;> by_cases b : Tag.undirected ∈ tags <;>
      by_cases c : Tag.multigraph ∈ tags <;> by_cases e : Tag.graph ∈ tags <;>
      cases d <;> cases m <;> simp_all
  refine ⟨?_, ?_, rfl, fun _ => rfl⟩
  · show nxCheck tags d m = _ ↔ _
    unfold nxCheck
    rw [← key]
    split_ifs with h
    · exact ⟨fun _ => h, fun _ => rfl⟩
    · exact ⟨fun e => by simp at e, fun e => absurd e h⟩
  · show nxCheck tags d m = _ ↔ _
    unfold nxCheck
    have : (∃ t ∈ tags, ¬ Describes d m t) ↔ ¬ ∀ t ∈ tags, Describes d m t := by push Not; rfl
    rw [this, ← key]
    split_ifs with h
    · exact ⟨fun e => by simp at e, fun e => absurd h e⟩
    · exact ⟨fun _ => h, fun _ => rfl⟩

-- `@not_implemented_for("undirected", "multigraph")` (reciprocity.py) rejects undirected multigraphs only
example : (¬ (Tag.directed ∈ [Tag.undirected, Tag.multigraph] ∧ Tag.undirected ∈ [Tag.undirected, Tag.multigraph])) ∧
    notImplementedFor [.undirected, .multigraph] (.nx false true) = .error .notImplemented ∧
    notImplementedFor [.undirected, .multigraph] (.nx true true) = .ok () := by decide

end Props
