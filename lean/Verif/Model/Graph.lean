import Verif.GB.Basic

/-!
# Graph objects

Models the data part of `graphblas_algorithms/classes/graph.py` (class `Graph`, lines 303-449) and
`classes/digraph.py` (class `DiGraph`): adjacency matrix `_A`, node dictionary `_key_to_id`,
flags `is_directed`, `is_multigraph`.  The property cache is modelled separately
(`Model/Cache.lean`); algorithm models read fresh values of the properties, which is justified
by the history-independence theorems of `Props/Cache.lean` (and their listed exceptions).
Graph attributes (`self.graph`) are not part of this structure.
-/

open GB

namespace Model

/-- Python exceptions raised by the modelled code. -/
inductive Err
  | keyError        -- KeyError / NodeNotFound (nxapi translates the former to the latter)
  | noPath          -- algorithms.exceptions.NoPath
  | pointless       -- algorithms.exceptions.PointlessConcept
  | unbounded       -- algorithms.exceptions.Unbounded
  | convergence     -- algorithms.exceptions.ConvergenceFailure
  | emptyGraph      -- algorithms.exceptions.EmptyGraphError
  | algorithm       -- algorithms.exceptions.GraphBlasAlgorithmException
  | notImplemented  -- NotImplementedError / NetworkXNotImplemented
  | typeError | valueError | indexError | zeroDivision | runtimeError | attributeError
  | diverges        -- not an exception: the Python loop never ends
  deriving DecidableEq, Repr

/-- `ga.Graph` / `ga.DiGraph` (+ Multi variants).  `keyToId` is the insertion-ordered dict
`_key_to_id`; ids are plain naturals, because nothing in the Python class forces them to be
valid row indices. -/
structure Graph (K α : Type) where
  n : Nat
  A : Mat n n α
  keyToId : List (K × Nat)
  directed : Bool := false
  multi : Bool := false

namespace Graph
variable {K α : Type}

/-- Well-formedness of a graph object: the node dictionary is a bijection between its keys and
the row indices `0 .. n-1`. -/
structure WF (G : Graph K α) : Prop where
  keys_nodup : (G.keyToId.map Prod.fst).Nodup
  ids_perm : (G.keyToId.map Prod.snd).Perm (List.range G.n)

/-- an undirected graph object has a symmetric matrix (what `from_networkx` of an undirected
graph produces). -/
def Symm (G : Graph K α) : Prop := ∀ i j, G.A i j = G.A j i

/-! key-level reading of a graph object, used by the specifications -/

/-- key `u` is at row `i` -/
def At (G : Graph K α) (u : K) (i : Fin G.n) : Prop := (u, i.val) ∈ G.keyToId
/-- `u` is a node -/
def Node (G : Graph K α) (u : K) : Prop := u ∈ G.keyToId.map Prod.fst
/-- there is an edge `u → v` -/
def Edge (G : Graph K α) (u v : K) : Prop :=
  ∃ i j, G.At u i ∧ G.At v j ∧ (G.A i j).isSome
/-- there is an edge `u → v` with weight `w` -/
def WEdge (G : Graph K α) (u v : K) (w : α) : Prop :=
  ∃ i j, G.At u i ∧ G.At v j ∧ G.A i j = some w

/-- the nodes, in the order `iter(G)` gives them -- graph.py:427-428 -/
def nodes (G : Graph K α) : List K := G.keyToId.map Prod.fst

variable [DecidableEq K]

instance (G : Graph K α) (u : K) (i : Fin G.n) : Decidable (G.At u i) :=
  inferInstanceAs (Decidable ((u, i.val) ∈ G.keyToId))
instance (G : Graph K α) (u : K) : Decidable (G.Node u) :=
  inferInstanceAs (Decidable (u ∈ G.keyToId.map Prod.fst))
instance (G : Graph K α) (u v : K) : Decidable (G.Edge u v) :=
  inferInstanceAs (Decidable (∃ i j, G.At u i ∧ G.At v j ∧ (G.A i j).isSome))
instance [DecidableEq α] (G : Graph K α) (u v : K) (w : α) : Decidable (G.WEdge u v w) :=
  inferInstanceAs (Decidable (∃ i j, G.At u i ∧ G.At v j ∧ G.A i j = some w))

/-- `key in G._key_to_id` -- graph.py:430-434 -/
def contains (G : Graph K α) (u : K) : Bool := (G.keyToId.lookup u).isSome

/-- `G._key_to_id[key]`, used as an index: `KeyError` when absent; an id that is not a valid
row index raises `IndexError` at its first use. -/
def getId (G : Graph K α) (u : K) : Except Err (Fin G.n) :=
  match G.keyToId.lookup u with
  | none => .error .keyError
  | some i => if h : i < G.n then .ok ⟨i, h⟩ else .error .indexError

/-- the same as an option -/
def idOf (G : Graph K α) (u : K) : Option (Fin G.n) :=
  match G.keyToId.lookup u with
  | none => none
  | some i => if h : i < G.n then some ⟨i, h⟩ else none

omit [DecidableEq K] in
/-- `G.id_to_key[i]` -- _utils.py:26-29 (dict comprehension: the last binding of an id wins). -/
def keyOf (G : Graph K α) (i : Nat) : Option K :=
  (G.keyToId.reverse.find? fun p => p.2 == i).map Prod.fst

/-- reading a result vector at a node: `NodeMap.get` on `vector_to_nodemap(v)`
-- _utils.py:132-144, nodemap.py:90-99 -/
def view {β : Type*} (G : Graph K α) (v : Vec G.n β) (u : K) : Option β := (G.idOf u).bind v

/-- the weight of the edge `u → v`, if there is one -/
def weight? (G : Graph K α) (u v : K) : Option α :=
  (G.idOf u).bind fun i => (G.idOf v).bind fun j => G.A i j

/-- `len(G)` -- graph.py:436-437 -/
def len (G : Graph K α) : Nat := G.n

/-- `next(iter(G))` -- graph.py:427-428 -/
def firstNode (G : Graph K α) : Option K := (G.keyToId.head?).map Prod.fst

end Graph
end Model
