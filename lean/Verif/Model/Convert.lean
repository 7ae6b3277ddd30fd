import Verif.Model.Bfs
import Verif.Model.Dict

/-!
# Conversions: classes/_utils.py and the constructors of classes/graph.py

A NetworkX graph is trusted data: an ordered list of nodes and, for every pair, the edge's
attributes reduced to the value of the attribute asked for (`none`: the edge lacks it).
-/

open GB

namespace Model

variable {K α β γ : Type}

/-! ## constructing graph objects -/

/-- `Graph(A)` without `key_to_id` -- graph.py:364-382 -/
def ofMatrix {n : Nat} (A : Mat n n α) (directed : Bool) : Graph Nat α :=
  { n := n, A := A, keyToId := (List.range n).map fun i => (i, i), directed := directed }

/-- a NetworkX `Graph` / `DiGraph`.  `adj u v = some d`: there is an edge, whose weight attribute is
`d` (possibly missing) -/
structure NX (K α : Type) where
  nodes : List K
  directed : Bool
  adj : K → K → Option (Option α)

/-- facts every NetworkX graph satisfies -/
structure NX.WF (H : NX K α) : Prop where
  nodup : H.nodes.Nodup
  adj_nodes : ∀ u v, (H.adj u v).isSome → u ∈ H.nodes ∧ v ∈ H.nodes
  symm : H.directed = false → ∀ u v, H.adj u v = H.adj v u

/-- `Graph.from_networkx(H, weight)` -- _utils.py:11-18; `gb.io.from_networkx` (trusted) stores the
weight of each edge, `one` where the attribute is missing (or when `weight=None`, where no edge has
the attribute), in both directions for an undirected graph.  No nodes: an empty matrix. -/
def fromNX (one : α) (H : NX K α) : Graph K α :=
  { n := H.nodes.length
    A := fun i j => (H.adj (H.nodes.get i) (H.nodes.get j)).map fun d => d.getD one
    keyToId := H.nodes.zipIdx
    directed := H.directed }

variable [DecidableEq K]

/-- `nx.Graph.add_edge(u, v, weight=w)` on the adjacency (trusted: NetworkX) -/
def nxAdd (directed : Bool) (adj : K → K → Option (Option α)) (u v : K) (w : α) :
    K → K → Option (Option α) :=
  fun x y => if x = u ∧ y = v ∨ (directed = false ∧ x = v ∧ y = u) then some (some w) else adj x y

omit [DecidableEq K] in
/-- `id_to_key[i]` with KeyError -/
def keyAt (G : Graph K α) (i : Nat) : Except Err K :=
  match G.keyOf i with
  | some u => .ok u
  | none => .error .keyError

/-- `A.to_coo()`: the stored triples, by rows -/
def tocoo2 {m n : Nat} (A : Mat m n α) : List (Fin m × Fin n × α) :=
  (List.finRange m).flatMap fun i => (tocoo (A i)).map fun p => (i, p.1, p.2)

/-- `G.to_networkx(edge_attribute)` -- _utils.py:229-249.  Undirected graphs use `L+`. -/
def toNX (G : Graph K α) : Except Err (NX K α) := do
  let A := if G.directed then G.A else tril G.A
  let adj ← (tocoo2 A).foldlM (fun adj t => do
    let u ← keyAt G t.1.val
    let v ← keyAt G t.2.1.val
    .ok (nxAdd G.directed adj u v t.2.2)) (fun _ _ => none)
  return { nodes := G.keyToId.map Prod.fst, directed := G.directed, adj := adj }

/-! ## keys and ids -/

omit [DecidableEq K] in
/-- `G.list_to_keys(indices)` -- _utils.py:91-95 -/
def listToKeys (G : Graph K α) (ids : List (Fin G.n)) : Except Err (List K) :=
  ids.mapM fun i => keyAt G i.val

/-- `Vector.from_coo(indices, values, size)`: duplicate indices are an error -/
def fromCoo {n : Nat} (ps : List (Fin n × β)) : Except Err (Vec n β) :=
  if (ps.map Prod.fst).Nodup then .ok fun i => ps.lookup i else .error .valueError

/-- `G.dict_to_vector(d)` -- _utils.py:58-65; `zip(*())` of an empty dict cannot be unpacked -/
def dictToVector (G : Graph K α) (d : List (K × β)) : Except Err (Vec G.n β) := do
  let ps ← d.mapM fun p => do let i ← G.getId p.1; .ok (i, p.2)
  if d = [] then .error .valueError else fromCoo ps

omit [DecidableEq K] in
/-- `v` after `fill_value`, no mask -- _utils.py:116-117 -/
def fillV {n : Nat} (fill : Option β) (v : Vec n β) : Vec n β :=
  match fill with
  | none => v
  | some c => if nvals v < n then vassignC (vnot (vS v)) v c else v

/-- `G.vector_to_dict(v, fill_value=)` -- _utils.py:112-119 -/
def vectorToDict (G : Graph K α) (v : Vec G.n β) (fill : Option β := none) :
    Except Err (List (K × β)) := do
  let ps ← (tocoo (fillV fill v)).mapM fun p => do let k ← keyAt G p.1.val; .ok (k, p.2)
  return dictOf ps

/-- `G.set_to_vector(nodes, ignore_extra=)` -- _utils.py:98-109 -/
def setToVector (G : Graph K α) (nodes : List K) (ignoreExtra : Bool) : Except Err (Vec G.n Bool) := do
  let ids ← listToIds G (if ignoreExtra then nodes.filter fun k => G.contains k else nodes)
  return vofIds ids true

/-- `G.list_to_vector(nodes)` -- _utils.py:68-75 -/
def listToVector (G : Graph K α) (nodes : List K) : Except Err (Vec G.n Bool) := do
  let ids ← listToIds G nodes
  return vofIds ids true

omit [DecidableEq K] in
/-- `G.vector_to_list(v)` -- _utils.py:122-129: keys in row order -/
def vectorToList (G : Graph K α) (v : Vec G.n β) : Except Err (List K) := listToKeys G (indices v)

omit [DecidableEq K] in
/-- `G.vector_to_list(v, values_are_keys=True)`: the values, decoded, in row order -/
def vectorToListV (G : Graph K α) (v : Vec G.n Nat) : Except Err (List K) :=
  (tocoo v).mapM fun p => keyAt G p.2

omit [DecidableEq K] in
/-- `G.vector_to_set(v)` -- _utils.py:155-158 -/
def vectorToSet (G : Graph K α) (v : Vec G.n β) : Except Err (List K) := listToKeys G (indices v)

/-! ## matrix_to_dicts -/

/-- `A.ss.export("hypercsr")`: non-empty rows, row pointers, column indices and values -/
structure Hyper (β : Type) where
  rows : List Nat
  indptr : List Nat
  cols : List Nat
  vals : List β

omit [DecidableEq K] in
/-- the compressed form of a matrix (trusted: SuiteSparse export) -/
def hypercsr {m n : Nat} (A : Mat m n β) : Hyper β :=
  let rs := (List.finRange m).filter fun i => !(tocoo (A i)).isEmpty
  { rows := rs.map fun i => i.val
    indptr := (rs.map fun i => (tocoo (A i)).length).scanl (· + ·) 0
    cols := (rs.map fun i => (tocoo (A i)).map fun p => p.1.val).flatten
    vals := (rs.map fun i => (tocoo (A i)).map fun p => p.2).flatten }

omit [DecidableEq K] in
/-- the key of an axis: raw index or node key -/
def axisKey (G : Graph K α) (raw : Bool) (i : Nat) : Except Err (K ⊕ Nat) :=
  if raw then .ok (.inr i) else (keyAt G i).map Sum.inl

/-- the inner dict of a row -- _utils.py:202-226 -/
def rowDict (G : Graph K α) (rawC : Bool) (cols : List Nat) (vals : List γ) :
    Except Err (List ((K ⊕ Nat) × γ)) := do
  let ps ← (cols.zip vals).mapM fun p => do let k ← axisKey G rawC p.1; .ok (k, p.2)
  return dictOf ps

/-- _utils.py:196-226: from the exported arrays.  `dec` decodes values (`values_are_keys`).
`sliding_window_view(indptr, 2)` of a one-element array raises ValueError. -/
def hyperToDicts (G : Graph K α) (dec : β → Except Err γ) (rawR rawC : Bool) (d : Hyper β) :
    Except Err (List ((K ⊕ Nat) × List ((K ⊕ Nat) × γ))) := do
  let vals ← d.vals.mapM dec
  if d.indptr.length < 2 then .error .valueError
  else do
    let ps ← (d.rows.zip (d.indptr.zip d.indptr.tail)).mapM fun p => do
      let k ← axisKey G rawR p.1
      let r ← rowDict G rawC (slice d.cols p.2.1 p.2.2) (slice vals p.2.1 p.2.2)
      .ok (k, r)
    return dictOf ps

/-- `G.matrix_to_dicts(A, use_row_index=rawR, use_column_index=rawC)` -- _utils.py:179-226.
`tr`: `A` is a `TransposedMatrix`; `A` denotes the matrix it stands for, whose transpose exported
by columns has the same arrays.  NOTE the swapped flags in that branch. -/
def matrixToDicts {m n : Nat} (G : Graph K α) (A : Mat m n β) (tr : Bool) (rawR rawC : Bool)
    (dec : β → Except Err γ) : Except Err (List ((K ⊕ Nat) × List ((K ⊕ Nat) × γ))) :=
  if tr then hyperToDicts G dec rawC rawR (hypercsr A) else hyperToDicts G dec rawR rawC (hypercsr A)

end Model
