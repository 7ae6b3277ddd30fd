import Verif.Model.Bfs
import Mathlib.Data.Rat.Defs
import Mathlib.Algebra.Field.Rat
import Mathlib.Algebra.Field.Defs

/-!
# algorithms/cluster.py and nxapi/cluster.py: triangles, transitivity, clustering

Properties are read fresh: `L-` = strict lower triangle, `U-` = strict upper triangle,
`offdiag`, `degrees-` = stored entries per row without the diagonal.  Floating point results are
exact rationals.  In the weighted variants `f` is the entrywise normalisation
`unary.cbrt(w / max_element-)` with values in an arbitrary field.
-/

open GB

namespace Model

variable {K α R : Type} {n : Nat}

/-- a node mask is the structural mask `v.S` of a vector `v` -/
abbrev NodeMask (n : Nat) := Option (Vec n Bool)

/-- `x.new(mask=mask)` for a vector expression -/
def maskNew {β : Type*} (mask : NodeMask n) (v : Vec n β) : Vec n β :=
  match mask with
  | none => v
  | some p => vassignR (vS p) v

/-- `G.vector_to_nodemap(v, mask=mask, fill_value=c)`: what the map holds at each row
-- classes/_utils.py:132-144, classes/nodemap.py:42-50 (a fill value answers for every node) -/
def nodemapFill {β : Type*} (mask : NodeMask n) (v : Vec n β) (c : β) : Vec n β :=
  match mask with
  | none => fun i => some ((v i).getD c)
  | some p => if nvals v < nvals p then vaccum first (vS p) v (fun _ => some c) else v

/-- `G.list_to_mask(nodes)` -- classes/_utils.py:78-81 -/
def listToMask [DecidableEq K] (G : Graph K α) (nodes : Option (List K)) :
    Except Err (NodeMask G.n) :=
  match nodes with
  | none => .ok none
  | some l => do
    let ids ← listToIds G l
    return some (vofIds ids true)

/-! ## triangles -/

/-- `plus_pair(L @ L.T).new(mask=L.S)` -- cluster.py:55 -/
def triC (L : Mat n n α) : Mat n n Nat := massignR (mS L) (mxm (· + ·) pairN L (transpose L))
/-- `plus_pair(U @ L.T).new(mask=U.S)` -- cluster.py:56 -/
def triD (U L : Mat n n α) : Mat n n Nat := massignR (mS U) (mxm (· + ·) pairN U (transpose L))

/-- the final sum of `triangles` -- cluster.py:60-64 -/
def triSum [Add R] (mask : NodeMask n) (C D : Mat n n R) : Vec n R :=
  vadd (· + ·) (vadd (· + ·) (maskNew mask (reduceRow (· + ·) C)) (maskNew mask (reduceCol (· + ·) C)))
    (maskNew mask (reduceRow (· + ·) D))

/-- `algorithms.triangles(G, mask=mask)` -- cluster.py:44-64 -/
def trianglesVec (A : Mat n n α) (mask : NodeMask n) : Vec n Nat :=
  triSum mask (triC (tril1 A)) (triD (triu1 A) (tril1 A))

/-- `algorithms.triangles(G, weighted=True, mask=mask)` -- cluster.py:44-64.
`C *= L` is an elementwise product. -/
def trianglesVecW [Add R] [Mul R] (f : α → R) (A : Mat n n α) (mask : NodeMask n) : Vec n R :=
  let L := mapply f (tril1 A)
  let U := mapply f (triu1 A)
  let C := mmul (· * ·) (massignR (mS L) (mxm (· + ·) (· * ·) L (transpose L))) L
  let D := mmul (· * ·) (massignR (mS U) (mxm (· + ·) (· * ·) U (transpose L))) U
  triSum mask C D

/-- row `i` without its diagonal entry -- cluster.py:26, 29-30 (the deletion is skipped when there
are no self-edges, which changes nothing) -/
def rowOff (A : Mat n n α) (i : Fin n) : Vec n α := vdel (A i) i

/-- `algorithms.single_triangle` from the row number -- cluster.py:24-41 -/
def singleTriangleAt (A : Mat n n α) (i : Fin n) : Nat :=
  let r := rowOff A i
  (reduce (· + ·) (vassignR (vS r) (mxv (· + ·) pairN (tril1 A) r))).getD 0

/-- `algorithms.single_triangle(weighted=True)` from the row number -- cluster.py:24-41 -/
def singleTriangleAtW [Zero R] [Add R] [Mul R] (f : α → R) (A : Mat n n α) (i : Fin n) : R :=
  let r := vapply f (rowOff A i)
  let val := vassignR (vS r) (mxv (· + ·) (· * ·) (mapply f (tril1 A)) r)
  (reduce (· + ·) (vmul (· * ·) val r)).getD 0

/-- `algorithms.total_triangles(G)` -- cluster.py:67-71 -/
def totalTriangles (A : Mat n n α) : Nat :=
  (reduceScalar (· + ·) (massignR (mS (tril1 A))
    (mxm (· + ·) pairN (tril1 A) (transpose (triu1 A))))).getD 0

variable [DecidableEq K]

/-- `nx.triangles(G, node)` -- nxapi/cluster.py:25-26 -/
def singleTriangle (G : Graph K α) (node : K) : Except Err Nat := do
  let i ← G.getId node
  return singleTriangleAt G.A i

/-- `nx.triangles(G)` / `nx.triangles(G, nodes)` -- nxapi/cluster.py:20-29; the map is returned as
the vector behind it -/
def triangles (G : Graph K α) (nodes : Option (List K)) : Except Err (Vec G.n Nat) := do
  let mask ← listToMask G nodes
  return nodemapFill mask (trianglesVec G.A mask) 0

/-! ## transitivity -/

/-- `degrees * (degrees - 1)` -- cluster.py:79, 97 -/
def degDenom (deg : Vec n Nat) : Vec n Int := vapply (fun d : Nat => (d : Int) * ((d : Int) - 1)) deg

omit [DecidableEq K] in
/-- `nx.transitivity` of an undirected graph -- cluster.py:74-80, nxapi/cluster.py:32-40 -/
def transitivity (G : Graph K α) : ℚ :=
  if G.n = 0 then 0
  else
    let numerator := totalTriangles G.A
    if numerator = 0 then 0
    else
      let denom := (reduce (· + ·) (degDenom (countRow (offdiag G.A)))).getD 0
      6 * numerator / denom

omit [DecidableEq K] in
/-- `nx.transitivity` of a digraph -- cluster.py:83-91 -/
def transitivityDirected (G : Graph K α) : ℚ :=
  if G.n = 0 then 0
  else
    let A := offdiag G.A
    let numerator := (reduceScalar (· + ·) (massignR (mS A) (mxm (· + ·) pairN A (transpose A)))).getD 0
    if numerator = 0 then 0
    else
      let denom := (reduce (· + ·) (degDenom (countRow A))).getD 0
      numerator / denom

/-! ## clustering -/

/-- `algorithms.clustering(G, mask=mask)` -- cluster.py:94-98 -/
def clusteringVec (A : Mat n n α) (mask : NodeMask n) : Vec n ℚ :=
  vmul (fun (t : Nat) (d : Int) => 2 * (t : ℚ) / d) (trianglesVec A mask)
    (degDenom (countRow (offdiag A)))

/-- `algorithms.clustering(G, weighted=True, mask=mask)` -- cluster.py:94-98 -/
def clusteringVecW [Field R] (f : α → R) (A : Mat n n α) (mask : NodeMask n) : Vec n R :=
  vmul (fun (t : R) (d : Int) => 2 * t / (d : R)) (trianglesVecW f A mask)
    (degDenom (countRow (offdiag A)))

/-- the number of neighbours used by `single_clustering` -- cluster.py:133-145: every branch is the
row's stored entries without the diagonal one -/
def singleDegree (A : Mat n n α) (i : Fin n) : Int :=
  (nvals (A i) : Int) - (if (A i i).isSome then 1 else 0)

/-- `single_clustering` from the row number -- cluster.py:129-147 -/
def singleClusteringAt (A : Mat n n α) (i : Fin n) : ℚ :=
  let tri := singleTriangleAt A i
  if tri = 0 then 0
  else
    let d := singleDegree A i
    2 * (tri : ℚ) / ((d * (d - 1) : Int) : ℚ)

/-- `nx.clustering(G)` / `nx.clustering(G, nodes)` of an undirected graph -- nxapi/cluster.py:43-57 -/
def clustering (G : Graph K α) (nodes : Option (List K)) : Except Err (Vec G.n ℚ) := do
  let mask ← listToMask G nodes
  return nodemapFill mask (clusteringVec G.A mask) 0

/-- `nx.clustering(G, node)` of an undirected graph -- nxapi/cluster.py:48-51 -/
def singleClustering (G : Graph K α) (node : K) : Except Err ℚ := do
  let i ← G.getId node
  return singleClusteringAt G.A i

/-! ## directed clustering -/

/-- `total_degrees-`: row count plus column count without the diagonal
-- classes/digraph.py:268-295 -/
def totalDegreesM (A : Mat n n α) : Vec n Nat :=
  vadd (· + ·) (countRow (offdiag A)) (countRow (transpose (offdiag A)))

/-- `recip_degrees-`: entries of `offdiag(A)` whose transpose entry is stored too, per row
-- classes/digraph.py:161-235 -/
def recipDegreesM (A : Mat n n α) : Vec n Nat :=
  countRow (mmul pairN (offdiag A) (transpose (offdiag A)))

/-- `total_degrees * (total_degrees - 1) - 2 * recip_degrees` -- cluster.py:125 (the subtraction is
an elementwise union with default 0) -/
def dirDenom (td rd : Vec n Nat) : Vec n Int :=
  vunion (fun (a : Int) (r : Nat) => a - 2 * (r : Int)) 0 0 (degDenom td) rd

/-- `tri` of `clustering_directed` -- cluster.py:101-126.  NOTE `AT` is the transpose of the whole
matrix, self-loops included. -/
def dirTri (A : Mat n n α) (mask : NodeMask n) : Vec n Nat :=
  let O := offdiag A
  let AT := transpose A
  let C := massignR (mS O) (mxm (· + ·) pairN O (transpose O))
  let D := massignR (mS O) (mxm (· + ·) pairN AT (transpose O))
  let E := massignR (mS O) (mxm (· + ·) pairN AT (transpose AT))
  vadd (· + ·) (vadd (· + ·) (vadd (· + ·) (maskNew mask (reduceRow (· + ·) C))
    (maskNew mask (reduceCol (· + ·) C))) (maskNew mask (reduceRow (· + ·) D)))
    (maskNew mask (reduceCol (· + ·) E))

/-- `algorithms.clustering_directed(G, mask=mask)` -- cluster.py:101-126 -/
def clusteringDirVec (A : Mat n n α) (mask : NodeMask n) : Vec n ℚ :=
  vmul (fun (t : Nat) (d : Int) => (t : ℚ) / d) (dirTri A mask)
    (dirDenom (maskNew mask (totalDegreesM A)) (maskNew mask (recipDegreesM A)))

/-- `single_clustering_directed` from the row number -- cluster.py:150-173 -/
def singleClusteringDirAt (A : Mat n n α) (i : Fin n) : ℚ :=
  let O := offdiag A
  let r : Vec n α := O i
  let c : Vec n α := fun j => O j i
  let one (x y : Vec n α) : Nat := (reduce (· + ·) (vassignR (vS y) (mxv (· + ·) pairN O x))).getD 0
  let tri := one c c + one c r + one r c + one r r
  if tri = 0 then 0
  else
    let td : Int := nvals c + nvals r
    let rd : Int := nvals (vmul pairN c r)
    (tri : ℚ) / ((td * (td - 1) - 2 * rd : Int) : ℚ)

/-- `nx.clustering` of a digraph -- nxapi/cluster.py:43-57 -/
def clusteringDirected (G : Graph K α) (nodes : Option (List K)) : Except Err (Vec G.n ℚ) := do
  let mask ← listToMask G nodes
  return nodemapFill mask (clusteringDirVec G.A mask) 0

/-- `nx.clustering(G, node)` of a digraph -- nxapi/cluster.py:48-50 -/
def singleClusteringDirected (G : Graph K α) (node : K) : Except Err ℚ := do
  let i ← G.getId node
  return singleClusteringDirAt G.A i

/-! ## average clustering -/

/-- the tail of `average_clustering` / `average_clustering_directed` -- cluster.py:176-183, 186-193 -/
def averageOf {F : Type} [Field F] (c : Vec n F) (countZeros : Bool) (mask : NodeMask n) : Except Err F :=
  let val := (reduce (· + ·) c).getD 0
  let divBy (k : Nat) : Except Err F := if k = 0 then .error .zeroDivision else .ok (val / k)
  if !countZeros then divBy (nvals c)
  else match mask with
    | some p => divBy (nvals p)
    | none => divBy n

/-- `nx.average_clustering(G, nodes, count_zeros=)` -- nxapi/cluster.py:60-78 (unweighted, computed
afresh; the memo key is the subject of C06) -/
def averageClustering (G : Graph K α) (nodes : Option (List K)) (countZeros : Bool) : Except Err ℚ :=
  if G.n = 0 then .error .zeroDivision
  else do
    let mask ← listToMask G nodes
    averageOf (if G.directed then clusteringDirVec G.A mask else clusteringVec G.A mask) countZeros mask

end Model
