import Verif.Model.Cluster
import Mathlib.Order.Defs.LinearOrder

/-!
# algorithms/cluster.py and nxapi/cluster.py: `clustering(G, nodes, weight=...)`,
`average_clustering(G, nodes, weight=..., count_zeros=)`

Weights and results in a field `F`; `cbrt` stands for `unary.cbrt`.  Calls on a fresh graph object (the effect
of earlier calls, and the memo of `average_clustering`, are the subject of C06).
-/

open GB

namespace Model

variable {K α F : Type} {n : Nat}

/-- `max_element-` -- classes/_caching.py:105-141.  Without non-loop edges it is an empty Scalar; dividing by it
is taken to raise (`EmptyObject`; the theorems exclude this case). -/
def maxElem [Max F] (A : Mat n n F) : Except Err F :=
  match reduceScalar max (offdiag A) with
  | none => .error .valueError
  | some m => .ok m

/-- `max_element-` read right after `L-` and `U-` on a fresh graph object -- cluster.py:47-49,
classes/_caching.py:120-128: with self-edges the branch taken calls `Matrix.reduce`, which does not exist;
without them `max_element+` is the same number. -/
def maxElemLU [Max F] (A : Mat n n F) : Except Err F :=
  if nvals (diagVec A) ≠ 0 then .error .attributeError else maxElem A

/-- `tri` of `clustering_directed(weighted=True)` -- cluster.py:101-126; `f` normalises a weight.  NOTE `AT`
keeps self-loops. -/
def dirTriVecW [Add F] [Mul F] (f : α → F) (A : Mat n n α) (mask : NodeMask n) : Vec n F :=
  let O := mapply f (offdiag A)
  let AT := mapply f (transpose A)
  let C := mmul (· * ·) (massignR (mS O) (mxm (· + ·) (· * ·) O (transpose O))) O
  let D := mmul (· * ·) (massignR (mS O) (mxm (· + ·) (· * ·) AT (transpose O))) O
  let E := mmul (· * ·) (massignR (mS O) (mxm (· + ·) (· * ·) AT (transpose AT))) O
  vadd (· + ·) (vadd (· + ·) (vadd (· + ·) (maskNew mask (reduceRow (· + ·) C))
    (maskNew mask (reduceCol (· + ·) C))) (maskNew mask (reduceRow (· + ·) D)))
    (maskNew mask (reduceCol (· + ·) E))

/-- `algorithms.clustering_directed(G, weighted=True, mask=mask)` -- cluster.py:101-126 -/
def clusteringDirVecW [Field F] (f : α → F) (A : Mat n n α) (mask : NodeMask n) : Vec n F :=
  vmul (fun (t : F) (d : Int) => t / (d : F)) (dirTriVecW f A mask)
    (dirDenom (maskNew mask (totalDegreesM A)) (maskNew mask (recipDegreesM A)))

/-- one of the four terms of `single_clustering_directed` -- cluster.py:162-166 -/
def oneW [Field F] (O : Mat n n F) (x y : Vec n F) : F :=
  (reduce (· + ·) (vmul (· * ·) (vassignR (vS y) (mxv (· + ·) (· * ·) O x)) y)).getD 0

/-- `single_clustering_directed(weighted=True)` from the row number -- cluster.py:150-173 -/
def singleClusteringDirAtW [Field F] [DecidableEq F] (f : α → F) (A : Mat n n α) (i : Fin n) : F :=
  let O := mapply f (offdiag A)
  let r : Vec n F := O i
  let c : Vec n F := fun j => O j i
  let tri := oneW O c c + oneW O c r + oneW O r c + oneW O r r
  if tri = 0 then 0
  else
    let td : Int := nvals c + nvals r
    let rd : Int := nvals (vmul pairN c r)
    tri / ((td * (td - 1) - 2 * rd : Int) : F)

/-- `single_clustering(weighted=True)` from the row number -- cluster.py:129-147 -/
def singleClusteringAtW [Field F] [DecidableEq F] (f : α → F) (A : Mat n n α) (i : Fin n) : F :=
  let tri := singleTriangleAtW f A i
  if tri = 0 then 0
  else
    let d := singleDegree A i
    2 * tri / ((d * (d - 1) : Int) : F)

variable [DecidableEq K] [Field F] [LinearOrder F]

/-- the branch on the class of the graph -- nxapi/cluster.py:52-56 -/
def clusteringBranchW (f : F → F) (G : Graph K F) (mask : NodeMask G.n) : Vec G.n F :=
  if G.directed then clusteringDirVecW f G.A mask else clusteringVecW f G.A mask

/-- the largest weight as each branch gets it -- cluster.py:49, 105 -/
def maxElemBranch (G : Graph K F) : Except Err F :=
  if G.directed then maxElem G.A else maxElemLU G.A

/-- `nx.clustering(G, weight=...)` / `nx.clustering(G, nodes, weight=...)` -- nxapi/cluster.py:43-57 -/
def clusteringWeighted (cbrt : F → F) (G : Graph K F) (nodes : Option (List K)) :
    Except Err (Vec G.n F) := do
  let mask ← listToMask G nodes
  let m ← maxElemBranch G
  return nodemapFill mask (clusteringBranchW (fun w => cbrt (w / m)) G mask) 0

/-- `nx.clustering(G, node, weight=...)` -- nxapi/cluster.py:48-51 -/
def singleClusteringWeighted (cbrt : F → F) (G : Graph K F) (node : K) : Except Err F := do
  let i ← G.getId node
  let m ← maxElem G.A
  return if G.directed then singleClusteringDirAtW (fun w => cbrt (w / m)) G.A i
    else singleClusteringAtW (fun w => cbrt (w / m)) G.A i

/-- `nx.average_clustering(G, nodes, weight=..., count_zeros=)` -- nxapi/cluster.py:60-78 -/
def averageClusteringWeighted (cbrt : F → F) (G : Graph K F) (nodes : Option (List K)) (countZeros : Bool) :
    Except Err F :=
  if G.n = 0 then .error .zeroDivision
  else do
    let mask ← listToMask G nodes
    let m ← maxElemBranch G
    averageOf (clusteringBranchW (fun w => cbrt (w / m)) G mask) countZeros mask

end Model
