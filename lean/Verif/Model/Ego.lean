import Verif.Model.Bfs
import Verif.Model.BellmanFord

/-!
# Sub-graphs, `to_undirected`, and generators/ego.py
-/

open GB

namespace Model

variable {K α : Type}

/-- `G.renumber_key_to_id(indices)` -- classes/_utils.py:258-261.  The dict comprehension is a
list because the row numbers passed by the callers are distinct, so no key repeats. -/
def renumberKeyToId (G : Graph K α) (ids : List (Fin G.n)) : Except Err (List (K × Nat)) := do
  let keys ← ids.mapM fun i : Fin G.n => match G.keyOf i.val with
    | none => (.error .keyError : Except Err K)
    | some u => .ok u
  return keys.zipIdx

/-- `A = G._A[indices, indices].new(); type(G)(A, key_to_id=G.renumber_key_to_id(indices))`
-- generators/ego.py:21-24; the same three lines appear in core.py:31-37 and operators/binary.py -/
def subGraph (G : Graph K α) (ids : List (Fin G.n)) : Except Err (Graph K α) := do
  let k2i ← renumberKeyToId G ids
  return { n := ids.length, A := extract G.A ids.get ids.get, keyToId := k2i,
           directed := G.directed, multi := G.multi }

/-- `DiGraph.to_undirected(reciprocal)` -- classes/digraph.py:604-612.  `choose` is the binary
operator `any`: which operand it returns is unspecified. -/
def toUndirected (choose : α → α → α) (G : Graph K α) (reciprocal : Bool) : Graph K α :=
  { n := G.n
    A := if reciprocal then mmul choose G.A (transpose G.A) else madd choose G.A (transpose G.A)
    keyToId := G.keyToId, directed := false, multi := false }

variable [DecidableEq K]

/-- the tail of `ego_graph`, from the vector of reached nodes -- generators/ego.py:18-24 -/
def egoFinish {β : Type*} (G : Graph K α) (node : K) (center : Bool) (v : Vec G.n β) :
    Except Err (Graph K α) := do
  let i ← G.getId node
  let v' := if center then v else vdel v i
  subGraph G (indices v')

/-- `G2 = G.to_undirected()` when asked for -- generators/ego.py:9-13 -/
def egoBase (choose : α → α → α) (G : Graph K α) (undirected : Bool) : Graph K α :=
  if undirected && G.directed then toUndirected choose G false else G

omit [DecidableEq K] in
theorem egoBase_n (choose : α → α → α) (G : Graph K α) (undirected : Bool) :
    (egoBase choose G undirected).n = G.n := by
  unfold egoBase; split <;> rfl

/-- `ego_graph(G, n, radius, center, undirected)` without distance attribute
-- generators/ego.py:7-24, nxapi/generators/ego.py:7-11.  Integer radius. -/
def egoGraph (choose : α → α → α) (G : Graph K α) (node : K) (radius : Int) (center undirected : Bool) :
    Except Err (Graph K α) := do
  let v ← bfsPlain (egoBase choose G undirected) node (some radius)
  egoFinish G node center (fun i => v (i.cast (egoBase_n choose G undirected).symm))

/-- `ego_graph(G, n, radius, center, undirected, distance=attr)` -- generators/ego.py:7-24.
`iso`, `fdiv` as in `singleSourceBF`. -/
def egoGraphW [AddCommGroup α] [LinearOrder α] (choose : α → α → α) (G : Graph K α) (iso : Option α)
    (fdiv : α → α → Int) (node : K) (radius : α) (center undirected : Bool) :
    Except Err (Graph K α) := do
  let v ← singleSourceBF (egoBase choose G undirected) iso fdiv node (some radius)
  egoFinish G node center (fun i => v (i.cast (egoBase_n choose G undirected).symm))

end Model
