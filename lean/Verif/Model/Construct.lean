import Verif.Model.Convert
import Verif.Model.Operators

/-!
# Constructors and plain methods of graph objects: classes/graph.py, classes/digraph.py

`Model.Graph` holds the matrix and the node dictionary.  Here the attribute dictionary `self.graph` and the lazily
built `self._id_to_key` are added.
-/

open GB

namespace Model

variable {K α V : Type}

/-- a graph object: the data of `Graph`, the attributes `self.graph` and `self._id_to_key`
-- graph.py:364-382, digraph.py:517-535 -/
structure GObj (K α V : Type) where
  g : Graph K α
  attrs : List (String × V)
  idToKey : Option (List (Nat × K))

/-- `incoming_graph_data` -/
inductive Data (α : Type)
  /-- `None`, or not given -/
  | none
  /-- a `Matrix` with `m` rows and `k` columns -/
  | matrix (m k : Nat) (A : Mat m k α)
  /-- anything else: `ensure_type` raises TypeError -/
  | other

/-- the matrix behind the graph -- graph.py:365-371 (digraph.py:518-524 is the same): no data gives `Matrix()`,
which has no rows -/
def dataMatrix : Data α → Except Err (Σ n, Mat n n α)
  | .none => .ok ⟨0, fun i => i.elim0⟩
  | .matrix m k A => if h : m = k then .ok ⟨m, fun i j => A i (j.cast h)⟩ else .error .valueError
  | .other => .error .typeError

variable [DecidableEq K]

/-- `Graph(data, key_to_id=key_to_id, **attr)` and the same for `DiGraph`, `MultiGraph`, `MultiDiGraph`
-- graph.py:364-382, digraph.py:517-535.  `int` makes a node key from an integer; `attr` are keyword arguments (a
dict).  NOTE: an explicit `key_to_id` is not checked. -/
def newGraph (int : Nat → K) (directed multi : Bool) (data : Data α) (keyToId : Option (List (K × Nat)))
    (attr : List (String × V)) : Except Err (GObj K α V) :=
  match dataMatrix data with
  | .error e => .error e
  | .ok ⟨n, A⟩ => .ok
    { g := { n := n, A := A, keyToId := keyToId.getD ((List.range n).map fun i => (int i, i)),
             directed := directed, multi := multi }
      attrs := dupdate [] attr
      idToKey := none }

/-- method calls on a graph object that do not return graphs -/
inductive GOp (K V : Type)
  | iter | len | numberOfNodes | order | isDirected | isMultigraph | name | idToKey
  /-- `k in G`; `none` is an unhashable object -/
  | contains (k : Option K)
  /-- `G.name = s` -/
  | setName (s : V)
  /-- `G.graph[a] = x` -/
  | setAttr (a : String) (x : V)
  /-- `G.graph.get(a)` -/
  | getAttr (a : String)

/-- their results -/
inductive GOut (K V : Type)
  | keys (l : List K) | nat (n : Nat) | bool (b : Bool) | val (v : Option V) | dict (d : List (Nat × K)) | unit

/-- one call -- graph.py:414-449, digraph.py:567-602, _utils.py:26-29.  `empty` is the empty string. -/
def gStep (empty : V) (o : GObj K α V) : GOp K V → GOut K V × GObj K α V
  -- graph.py:427-428
  | .iter => (.keys (o.g.keyToId.map Prod.fst), o)
  -- graph.py:436-437
  | .len => (.nat o.g.n, o)
  -- graph.py:439-440
  | .numberOfNodes => (.nat o.g.n, o)
  -- graph.py:442-443
  | .order => (.nat o.g.n, o)
  -- graph.py:448-449, digraph.py:601-602
  | .isDirected => (.bool o.g.directed, o)
  -- graph.py:445-446, 452-454
  | .isMultigraph => (.bool o.g.multi, o)
  -- graph.py:414-416
  | .name => (.val (some ((o.attrs.lookup "name").getD empty)), o)
  -- _utils.py:26-29
  | .idToKey => match o.idToKey with
    | some d => (.dict d, o)
    | none =>
      let d := dictOf (o.g.keyToId.map fun p => (p.2, p.1))
      (.dict d, { o with idToKey := some d })
  -- graph.py:430-434
  | .contains none => (.bool false, o)
  | .contains (some k) => (.bool (o.g.keyToId.lookup k).isSome, o)
  -- graph.py:418-421
  | .setName s => (.unit, { o with attrs := dset o.attrs "name" s })
  -- the dictionary is public
  | .setAttr a x => (.unit, { o with attrs := dset o.attrs a x })
  | .getAttr a => (.val (o.attrs.lookup a), o)

/-- a sequence of calls -/
def gRun (empty : V) (o : GObj K α V) : List (GOp K V) → List (GOut K V) × GObj K α V
  | [] => ([], o)
  | op :: ops =>
    let r := gStep empty o op
    let rest := gRun empty r.2 ops
    (r.1 :: rest.1, rest.2)

/-- `G.reverse()` of a DiGraph object -- digraph.py:614-621: the attributes are copied (`deepcopy`: equal values) -/
def reverseObj (int : Nat → K) (o : GObj K α V) : Except Err (GObj K α V) :=
  match newGraph int o.g.directed o.g.multi (.matrix o.g.n o.g.n (transpose o.g.A)) (some o.g.keyToId)
      ([] : List (String × V)) with
  | .error e => .error e
  | .ok r => .ok { r with attrs := dupdate r.attrs o.attrs }

/-- `G.to_undirected(reciprocal)` -- digraph.py:604-612: always a plain `Graph`, no attributes -/
def toUndirectedObj (int : Nat → K) (choose : α → α → α) (reciprocal : Bool) (o : GObj K α V) :
    Except Err (GObj K α V) :=
  newGraph int false false
    (.matrix o.g.n o.g.n (if reciprocal then mmul choose o.g.A (transpose o.g.A)
      else madd choose o.g.A (transpose o.g.A)))
    (some o.g.keyToId) []

end Model
