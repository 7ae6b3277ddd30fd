import Verif.Model.Cluster

/-! # algorithms/cluster.py: generalized_degree -/

open GB

namespace Model

variable {K α : Type} {n : Nat}

/-- `Tri(A.S) << 0` or `Tri << pair(v_mask & A); Tri(Tri.S) << 0` (the mask keeps rows)
-- cluster.py:288-297 -/
def triZero (O : Mat n n α) (mask : NodeMask n) : Mat n n Nat :=
  match mask with
  | none => mapply (fun _ => 0) O
  | some p => fun i j => (ointer pairN (p i) (O i j)).map fun _ => 0

/-- `Tri(Tri.S, binary.second) << plus_pair(Tri @ A.T)` -- cluster.py:298 -/
def triEdges (O : Mat n n α) (mask : NodeMask n) : Mat n n Nat :=
  let Tri := triZero O mask
  fun i j =>
    if (Tri i j).isSome then omerge second (Tri i j) (mxm (· + ·) pairN Tri (transpose O) i j)
    else Tri i j

/-- `Matrix.from_coo(rows, vals, ones, dup_op=plus, nrows, ncols - 1)` -- cluster.py:299-310: the
stored value becomes the column.  A value outside the columns is an error. -/
def histogram (T : Mat n n Nat) : Except Err (Mat n (n - 1) Nat) :=
  if ∃ i j, ∃ t ∈ T i j, n - 1 ≤ t then .error .indexError
  else .ok fun i t =>
    let c := (Finset.univ.filter fun j => T i j = some t.val).card
    if c = 0 then none else some c

variable [DecidableEq K]

/-- `nx.generalized_degree(G)` / `(G, nodes)` -- cluster.py:285-310, nxapi/cluster.py:125-134; the
result is the matrix behind the `VectorNodeMap`.  (`len(G) == 0` gives `{}`, here a matrix without
rows.) -/
def generalizedDegree (G : Graph K α) (nodes : Option (List K)) :
    Except Err (Mat G.n (G.n - 1) Nat) := do
  let mask ← listToMask G nodes
  histogram (triEdges (offdiag G.A) mask)

/-- `result[node].get(t)` for the result above: `VectorNodeMap.__getitem__`, `VectorMap.get`
-- classes/nodemap.py:238-242, 168-169 -/
def genDegAt (G : Graph K α) (M : Mat G.n (G.n - 1) Nat) (u : K) (t : Nat) : Option Nat :=
  (G.idOf u).bind fun i => if h : t < G.n - 1 then M i ⟨t, h⟩ else none

/-- `nx.generalized_degree(G, node)`: the vector behind the returned `NodeMap`
-- cluster.py:313-318, nxapi/cluster.py:129-131 -/
def singleGeneralizedDegree (G : Graph K α) (node : K) : Except Err (Vec (G.n - 1) Nat) := do
  let i ← G.getId node
  let M ← histogram (triEdges (offdiag G.A) (some fun j => if j = i then some true else none))
  return M i

/-- the items of the returned `NodeMap`: NOTE the positions, which are triangle counts, go through
`id_to_key` -- classes/nodemap.py:52-58 -/
def singleGenDegItems (G : Graph K α) (v : Vec (G.n - 1) Nat) : Except Err (List (K × Nat)) :=
  (tocoo v).mapM fun p => match G.keyOf p.1.val with
    | none => .error .keyError
    | some k => .ok (k, p.2)

end Model
