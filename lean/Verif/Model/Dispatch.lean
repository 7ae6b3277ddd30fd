import Verif.Model.Convert
import Mathlib.Data.List.Dedup
import Mathlib.Algebra.BigOperators.Group.List.Basic

/-!
# interface.py: `Dispatcher.convert_from_nx`, `Dispatcher.convert_to_nx`
-/

open GB

namespace Model

variable {K S α : Type}

/-- the NetworkX classes; `other`: not a NetworkX graph -/
inductive NxClass
  | graph | digraph | multigraph | multidigraph | other
  deriving DecidableEq, Repr

/-- `isinstance(obj of class c, d)`: the class hierarchy of NetworkX (trusted): `MultiDiGraph` derives from
`MultiGraph` and `DiGraph`, which derive from `Graph` -/
def NxClass.isInstance : NxClass → NxClass → Bool
  | .multidigraph, d => d != .other
  | .multigraph, d => d == .multigraph || d == .graph
  | .digraph, d => d == .digraph || d == .graph
  | .graph, d => d == .graph
  | .other, _ => false

/-- a NetworkX graph with attributes (trusted data).  `data u v`: the attribute dicts of the edges from `u` to
`v`, one each (so several only in multigraphs) -/
structure NxFull (K S α : Type) where
  cls : NxClass
  nodes : List K
  data : K → K → List (List (S × α))
  nodeAttrs : K → List (S × α)
  graphAttrs : List (S × α)

/-- the arguments of `convert_from_nx` -- interface.py:174-185 -/
structure NxArgs (S α : Type) where
  edgeAttrs : Option (List (S × Option α)) := none
  nodeAttrs : Option (List (S × Option α)) := none
  preserveEdge : Bool := false
  preserveNode : Bool := false
  preserveGraph : Bool := false
  weight : Option S := none

/-- what comes back: a graph object and its attribute dict -/
structure Converted (K S α : Type) where
  G : Graph K α
  graphAttrs : List (S × α)

variable [DecidableEq S]

/-- `attrs`: the names of the edge attributes -- interface.py:190-203 -/
def edgeAttrNames (g : NxFull K S α) : List S :=
  (g.nodes.flatMap fun u => g.nodes.flatMap fun v => (g.data u v).flatMap fun d => d.map Prod.fst).dedup

/-- the names of the node attributes -- interface.py:212 -/
def nodeAttrNames (g : NxFull K S α) : List S :=
  (g.nodes.flatMap fun u => (g.nodeAttrs u).map Prod.fst).dedup

/-- `edge_attrs` after the `preserve_edge_attrs` block -- interface.py:190-208 -/
def effectiveAttrs (g : NxFull K S α) (a : NxArgs S α) : Except Err (Option (List (S × Option α))) :=
  if a.preserveEdge then
    match edgeAttrNames g with
    | [] => .ok a.edgeAttrs
    | [x] => .ok (some [(x, none)])
    | _ => .error .notImplemented
  else .ok a.edgeAttrs

/-- `weight` after the `edge_attrs` block -- interface.py:215-224 -/
def effectiveWeight [DecidableEq α] (one : α) (ea : Option (List (S × Option α))) (weight : Option S) :
    Except Err (Option S) :=
  match ea with
  | none => .ok weight
  | some [] => .ok weight
  | some [(x, d)] =>
    if weight.isSome then .error .typeError
    else match d with
      | none => .ok (some x)
      | some d => if d ≠ one then .error .notImplemented else .ok (some x)
  | some (_ :: _ :: _) => .error .notImplemented

/-- `cls.from_networkx(graph, weight=weight)` -- _utils.py:11-18.  `gb.io.from_networkx` (trusted) sums the
weights of parallel edges; a missing attribute, or no `weight`, counts as `one`. -/
def fromFull [Add α] [Zero α] (one : α) (g : NxFull K S α) (directed multi : Bool) (weight : Option S) :
    Graph K α :=
  { n := g.nodes.length
    A := fun i j =>
      let ds := g.data (g.nodes.get i) (g.nodes.get j)
      if ds = [] then none
      else some ((ds.map fun d => (weight.bind fun x => d.lookup x).getD one).sum)
    keyToId := g.nodes.zipIdx
    directed := directed
    multi := multi }

/-- the class of the result -- interface.py:226-235 -/
def convertClass [Add α] [Zero α] (one : α) (g : NxFull K S α) (weight : Option S) :
    Except Err (Graph K α) :=
  if g.cls.isInstance .multidigraph then .ok (fromFull one g true true weight)
  else if g.cls.isInstance .multigraph then .ok (fromFull one g false true weight)
  else if g.cls.isInstance .digraph then .ok (fromFull one g true false weight)
  else if g.cls.isInstance .graph then .ok (fromFull one g false false weight)
  else .error .typeError

/-- `Dispatcher.convert_from_nx` -- interface.py:174-238.  Not modelled: an argument that is no graph at all
together with a `preserve_` flag (AttributeError). -/
def convertFromNx [DecidableEq α] [Add α] [Zero α] (one : α) (g : NxFull K S α) (a : NxArgs S α) :
    Except Err (Converted K S α) := do
  let ea ← effectiveAttrs g a
  if (a.nodeAttrs.getD []) ≠ [] then .error .notImplemented
  if a.preserveNode ∧ nodeAttrNames g ≠ [] then .error .notImplemented
  let weight ← effectiveWeight one ea a.weight
  let G ← convertClass one g weight
  return { G := G, graphAttrs := if a.preserveGraph then g.graphAttrs else [] }

/-! ## convert_to_nx -/

/-- what an algorithm returns -/
inductive GaValue (K α : Type)
  | graph (G : Graph K α)
  | matrix (m : Nat) (A : Mat m m α)
  | other (x : α)

/-- what NetworkX users receive -/
inductive NxValue (K α : Type)
  | graph (H : NX K α)
  | sparse (m : Nat) (A : Mat m m α)
  | dense (m : Nat) (A : Fin m → Fin m → α)
  | other (x : α)

/-- interface.py:249-255 -/
def sparseNames : List String :=
  ["adjacency_matrix", "bethe_hessian_matrix", "laplacian_matrix", "normalized_laplacian_matrix",
   "tournament_matrix"]
/-- interface.py:257-262 -/
def denseNames : List String :=
  ["directed_modularity_matrix", "floyd_warshall_numpy", "google_matrix", "modularity_matrix"]

omit [DecidableEq S] in
/-- `Dispatcher.convert_to_nx` -- interface.py:240-266 -/
def convertToNx [DecidableEq K] [Zero α] (obj : GaValue K α) (name : String) : Except Err (NxValue K α) :=
  match obj with
  | .graph G => (toNX G).map .graph
  | .matrix m A =>
    if name ∈ sparseNames then .ok (.sparse m A)
    else if name ∈ denseNames then .ok (.dense m fun i j => (A i j).getD 0)
    else .error .runtimeError
  | .other x => .ok (.other x)

end Model
