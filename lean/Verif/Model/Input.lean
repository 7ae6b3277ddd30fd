import Verif.Model.Graph

/-!
# Which graph object an nxapi function hands to its algorithm

`utils/decorators.py`, `to_graph`, `to_directed_graph`, `to_undirected_graph` (`classes/digraph.py`,
`classes/graph.py`) and the decorators and conversions at the top of the nxapi functions.  Only the kind of the
objects is modelled here; their contents are in `Model/Convert.lean` and `Model/Dispatch.lean`.
-/

namespace Model

/-- what a user may pass as a graph -/
inductive Inp
  /-- a `ga.Graph`, `ga.DiGraph`, `ga.MultiGraph`, `ga.MultiDiGraph` -/
  | ga (directed multi : Bool)
  /-- a NetworkX graph of any of the four classes -/
  | nx (directed multi : Bool)
  /-- a `graphblas.Matrix` -/
  | matrix (square : Bool)
  /-- anything else -/
  | other
  deriving DecidableEq, Repr

/-- the kind of the graph object an algorithm receives -/
structure Kind where
  directed : Bool
  multi : Bool
  deriving DecidableEq, Repr

/-- arguments of `not_implemented_for` -/
inductive Tag
  | directed | undirected | multigraph | graph
  deriving DecidableEq, Repr

/-- `dval`: `("directed" in types) or "undirected" not in types and None` (networkx/utils/decorators.py, trusted) -/
def dval (tags : List Tag) : Option Bool :=
  if .directed ∈ tags then some true else if .undirected ∈ tags then some false else none

/-- `mval`, likewise -/
def mval (tags : List Tag) : Option Bool :=
  if .multigraph ∈ tags then some true else if .graph ∈ tags then some false else none

/-- the check of NetworkX's `not_implemented_for(*tags)`: it raises when *all* tags match -/
def nxCheck (tags : List Tag) (directed multi : Bool) : Except Err Unit :=
  if (mval tags = none ∨ mval tags = some multi) ∧ (dval tags = none ∨ dval tags = some directed) then
    .error .notImplemented
  else .ok ()

/-- `not_implemented_for(*tags)` of this project -- utils/decorators.py:6-20: matrices pass -/
def notImplementedFor (tags : List Tag) : Inp → Except Err Unit
  | .matrix _ => .ok ()
  | .ga d m => nxCheck tags d m
  | .nx d m => nxCheck tags d m
  | .other => .error .attributeError

/-- `DiGraph(G)` / `Graph(G)` on something that is not a graph object -- digraph.py:517-535, graph.py:364-382:
`ensure_type` raises TypeError for anything but a matrix, non-square matrices raise ValueError -/
def construct (directed : Bool) : Inp → Except Err Kind
  | .matrix true => .ok ⟨directed, false⟩
  | .matrix false => .error .valueError
  | _ => .error .typeError

/-- the three conversions -/
inductive Conv
  | any | directed | undirected
  deriving DecidableEq, Repr

/-- `to_graph` -- digraph.py:393-411 -/
def toGraph : Inp → Except Err Kind
  | .ga d m => .ok ⟨d, m⟩
  | .matrix b => construct true (.matrix b)
  | .nx d _ => .ok ⟨d, false⟩
  | .other => .error .typeError

/-- `to_directed_graph` -- digraph.py:374-390 -/
def toDirectedGraph : Inp → Except Err Kind
  | .ga true m => .ok ⟨true, m⟩
  | .ga false _ => .error .typeError
  | .matrix b => construct true (.matrix b)
  | .nx true _ => .ok ⟨true, false⟩
  | .nx false _ => .error .typeError
  | .other => .error .typeError

/-- `to_undirected_graph` -- graph.py:252-269; `isinstance(G, nx.Graph)` is true of every NetworkX graph, also of
the directed ones -/
def toUndirectedGraph : Inp → Except Err Kind
  | .ga false m => .ok ⟨false, m⟩
  | .ga true _ => .error .typeError
  | .matrix b => construct false (.matrix b)
  | .nx _ _ => .ok ⟨false, false⟩
  | .other => .error .typeError

/-- the conversion named by `c` -/
def convertInput : Conv → Inp → Except Err Kind
  | .any => toGraph
  | .directed => toDirectedGraph
  | .undirected => toUndirectedGraph

/-- an nxapi function: its decorators, outermost first, and its conversion -/
structure ApiFn where
  name : String
  decorators : List (List Tag)
  conv : Conv

/-- the decorators one after the other -/
def runDecorators (i : Inp) : List (List Tag) → Except Err Unit
  | [] => .ok ()
  | t :: ts => match notImplementedFor t i with
    | .error e => .error e
    | .ok _ => runDecorators i ts

/-- decorators, then the conversion: what the algorithm behind `f` is called with -/
def enter (f : ApiFn) (i : Inp) : Except Err Kind :=
  match runDecorators i f.decorators with
  | .error e => .error e
  | .ok _ => convertInput f.conv i

/-- the nxapi functions with decorators or a conversion other than `to_graph` -- nxapi/cluster.py:20-22, 95-100, 124-126, nxapi/core.py:8-11, nxapi/efficiency_measures.py:7-9, nxapi/lowest_common_ancestors.py:9-11,
nxapi/reciprocity.py:10-14, 27-29, nxapi/regular.py:14-16, nxapi/tournament.py:10-28,
nxapi/centrality/degree_alg.py:14-23, nxapi/centrality/eigenvector.py:10-12, nxapi/centrality/katz.py:10-21,
nxapi/components/connected.py:14-25, nxapi/components/weakly_connected.py:13-15,
nxapi/linalg/bethehessianmatrix.py:8-11, nxapi/linalg/modularitymatrix.py:9-19 -/
def apiTable : List ApiFn :=
  [⟨"triangles", [[.directed]], .undirected⟩,
   ⟨"square_clustering", [], .undirected⟩,
   ⟨"generalized_degree", [[.directed]], .undirected⟩,
   ⟨"k_truss", [[.directed], [.multigraph]], .undirected⟩,
   ⟨"efficiency", [[.directed]], .undirected⟩,
   ⟨"is_k_regular", [[.directed]], .undirected⟩,
   ⟨"is_connected", [[.directed]], .undirected⟩,
   ⟨"node_connected_component", [[.directed]], .undirected⟩,
   ⟨"bethe_hessian_matrix", [[.directed], [.multigraph]], .undirected⟩,
   ⟨"modularity_matrix", [[.directed], [.multigraph]], .undirected⟩,
   ⟨"lowest_common_ancestor", [[.undirected]], .directed⟩,
   ⟨"reciprocity", [[.undirected, .multigraph]], .directed⟩,
   ⟨"overall_reciprocity", [[.undirected, .multigraph]], .directed⟩,
   ⟨"is_tournament", [[.undirected], [.multigraph]], .directed⟩,
   ⟨"score_sequence", [[.undirected], [.multigraph]], .directed⟩,
   ⟨"tournament_matrix", [[.undirected], [.multigraph]], .directed⟩,
   ⟨"in_degree_centrality", [[.undirected]], .directed⟩,
   ⟨"out_degree_centrality", [[.undirected]], .directed⟩,
   ⟨"is_weakly_connected", [[.undirected]], .directed⟩,
   ⟨"directed_modularity_matrix", [[.undirected], [.multigraph]], .directed⟩,
   ⟨"eigenvector_centrality", [[.multigraph]], .any⟩,
   ⟨"katz_centrality", [[.multigraph]], .any⟩]

/-- every other nxapi function has no decorator and calls `to_graph` (e.g. nxapi/cluster.py:32-33) -/
def plainApi (name : String) : ApiFn := ⟨name, [], .any⟩

end Model
