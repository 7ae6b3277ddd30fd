import Verif.Model.Cluster
import Verif.Model.Square
import Verif.Model.Cuts
import Verif.Model.Small
import Verif.Model.Bfs
import Verif.Model.PowerIter
import Verif.Model.Binary64

/-!
# Quotients in double precision

The functions whose result is a quotient of counts, with the divisions as they are done on a computer.  There are two
kinds: Python's `a / b` of two `int`s, and GraphBLAS' `truediv` of two INT64 values, which converts both to FP64
first.  Each function below is the one of `Model/Cluster.lean`, `Model/Square.lean`, `Model/Cuts.lean`, `Model/Small.lean`,
`Model/PowerIter.lean` or `Model/Bfs.lean` with its divisions (and, where there are any, float additions and
multiplications) taken from the parameters `q` and `o`; with exact arithmetic it is that function (`ratio_exact`).
Not modelled: overflow of INT64 counts, infinities, NaN (0/0 of two stored counts).
-/

open GB

namespace Model

/-- the two divisions of integers -/
structure IntDiv where
  /-- `a / b` of Python ints; never called with `b = 0`, which raises -/
  py : Int → Int → ℚ
  /-- `binary.truediv` of INT64 vectors -/
  gb : Int → Int → ℚ

/-- without rounding -/
def IntDiv.exact : IntDiv := ⟨fun a b => a / b, fun a b => a / b⟩

/-- Python rounds the exact quotient (`long_true_divide`); GraphBLAS rounds both operands and the quotient -/
def IntDiv.double : IntDiv := ⟨fun a b => rnd64 (a / b), fun a b => rnd64 (rnd64 a / rnd64 b)⟩

namespace Ra

variable {K α : Type} {n : Nat} (q : IntDiv) (o : Arith ℚ)

/-! ## clustering -/

/-- `nx.transitivity` of an undirected graph: Python ints -- cluster.py:74-80, nxapi/cluster.py:32-40 -/
def transitivity (G : Graph K α) : ℚ :=
  if G.n = 0 then 0
  else
    let numerator := totalTriangles G.A
    if numerator = 0 then 0
    else q.py (6 * (numerator : Int)) ((reduce (· + ·) (degDenom (countRow (offdiag G.A)))).getD 0)

/-- `nx.transitivity` of a digraph: Python ints -- cluster.py:83-91 -/
def transitivityDirected (G : Graph K α) : ℚ :=
  if G.n = 0 then 0
  else
    let A := offdiag G.A
    let numerator := (reduceScalar (· + ·) (massignR (mS A) (mxm (· + ·) pairN A (transpose A)))).getD 0
    if numerator = 0 then 0
    else q.py numerator ((reduce (· + ·) (degDenom (countRow A))).getD 0)

/-- `algorithms.clustering(G, mask=mask)`: INT64 vectors -- cluster.py:94-98 -/
def clusteringVec (A : Mat n n α) (mask : NodeMask n) : Vec n ℚ :=
  vmul (fun (t : Nat) (d : Int) => q.gb (2 * (t : Int)) d) (trianglesVec A mask) (degDenom (countRow (offdiag A)))

/-- `single_clustering` from the row number: Python ints -- cluster.py:129-147 -/
def singleClusteringAt (A : Mat n n α) (i : Fin n) : ℚ :=
  let tri := singleTriangleAt A i
  if tri = 0 then 0
  else
    let d := singleDegree A i
    q.py (2 * (tri : Int)) (d * (d - 1))

/-- `algorithms.clustering_directed(G, mask=mask)`: INT64 vectors -- cluster.py:101-126 -/
def clusteringDirVec (A : Mat n n α) (mask : NodeMask n) : Vec n ℚ :=
  vmul (fun (t : Nat) (d : Int) => q.gb t d) (dirTri A mask)
    (dirDenom (maskNew mask (totalDegreesM A)) (maskNew mask (recipDegreesM A)))

/-- `single_clustering_directed` from the row number: Python ints -- cluster.py:150-173 -/
def singleClusteringDirAt (A : Mat n n α) (i : Fin n) : ℚ :=
  let O := offdiag A
  let r : Vec n α := O i
  let c : Vec n α := fun j => O j i
  let one (x y : Vec n α) : Nat := (reduce (· + ·) (vassignR (vS y) (mxv (· + ·) pairN O x))).getD 0
  let tri := one c c + one c r + one r c + one r r
  if tri = 0 then 0
  else
    let td : Int := nvals c + nvals r
    let rd : Int := nvals (vmul pairN c r)
    q.py tri (td * (td - 1) - 2 * rd)

variable [DecidableEq K]

/-- `nx.clustering(G)` / `nx.clustering(G, nodes)` of an undirected graph -- nxapi/cluster.py:43-57 -/
def clustering (G : Graph K α) (nodes : Option (List K)) : Except Err (Vec G.n ℚ) := do
  let mask ← listToMask G nodes
  return nodemapFill mask (clusteringVec q G.A mask) 0

/-- `nx.clustering(G, node)` of an undirected graph -- nxapi/cluster.py:48-51 -/
def singleClustering (G : Graph K α) (node : K) : Except Err ℚ := do
  let i ← G.getId node
  return singleClusteringAt q G.A i

/-- `nx.clustering` of a digraph -- nxapi/cluster.py:43-57 -/
def clusteringDirected (G : Graph K α) (nodes : Option (List K)) : Except Err (Vec G.n ℚ) := do
  let mask ← listToMask G nodes
  return nodemapFill mask (clusteringDirVec q G.A mask) 0

/-- `nx.clustering(G, node)` of a digraph -- nxapi/cluster.py:48-50 -/
def singleClusteringDirected (G : Graph K α) (node : K) : Except Err ℚ := do
  let i ← G.getId node
  return singleClusteringDirAt q G.A i

omit [DecidableEq K] in
/-- the tail of `average_clustering`: an FP64 reduction, and a Python float divided by an int
-- cluster.py:176-183, 186-193 -/
def averageOf (c : Vec n ℚ) (countZeros : Bool) (mask : NodeMask n) : Except Err ℚ :=
  let val := Fr.vsum o c
  let divBy (k : Nat) : Except Err ℚ := if k = 0 then .error .zeroDivision else .ok (o.div val (o.nat k))
  if !countZeros then divBy (nvals c)
  else match mask with
    | some p => divBy (nvals p)
    | none => divBy n

/-- `nx.average_clustering(G, nodes, count_zeros=)` -- nxapi/cluster.py:60-78 -/
def averageClustering (G : Graph K α) (nodes : Option (List K)) (countZeros : Bool) : Except Err ℚ :=
  if G.n = 0 then .error .zeroDivision
  else do
    let mask ← listToMask G nodes
    averageOf o (if G.directed then clusteringDirVec q G.A mask else clusteringVec q G.A mask) countZeros mask

/-! ## square clustering -/

omit [DecidableEq K] in
/-- `algorithms.square_clustering(G, node_ids)`: INT64 vectors -- cluster.py:227-282 -/
def squareVec (A : Mat n n Int) (ids : Option (List (Fin n))) : Vec n ℚ :=
  let P2 := sqP2 A ids
  let Asub := sqSubset A ids
  let squares := sqSquares P2
  vmul q.gb squares (sqDenom (degZ A) squares (sqNeg P2 Asub) (mxv (· + ·) (· * ·) Asub (degZ A)))

omit [DecidableEq K] in
/-- `algorithms.single_square_clustering(G, idx)`: Python ints -- cluster.py:196-224 -/
def singleSquareAt (A : Mat n n Int) (i : Fin n) : Except Err ℚ :=
  let deg := (degZ A i).getD 0
  if deg ≤ 1 then .ok 0
  else
    let v := A i
    let p2 := vdel (vxm (· + ·) pairZ v A) i
    let denom := -(dot (· + ·) first p2 v).getD 0
    let squares := Int.fdiv ((reduce (· + ·) (vapply (fun p => p * (p - 1)) p2)).getD 0) 2
    if squares = 0 then .ok 0
    else match dot (· + ·) (· * ·) v (degZ A) with
      | none => .error .typeError
      | some uw =>
        let d := denom - deg * (deg - 1) + uw * (deg - 1) - squares
        if d = 0 then .error .zeroDivision else .ok (q.py squares d)

omit [DecidableEq K] in
/-- the loop of `_square_clustering_split` -- nxapi/cluster.py:82-92 -/
def squareSplitLoop (A : Mat n n Int) : List (Piece (Fin n)) → Option (Vec n ℚ) → Option (Vec n ℚ)
  | [], r => r
  | p :: ps, r =>
    let res := squareVec q A (some (pieceIds p))
    squareSplitLoop A ps (some (match r with
      | none => res
      | some r => vadd any' r res))

omit [DecidableEq K] in
/-- `_square_clustering_split` and the choice before it -- nxapi/cluster.py:82-92, 106-121 -/
def squareResult (A : Mat n n Int) (ids : Option (List (Fin n))) (chunksize : Option Int) : Except Err (Vec n ℚ) :=
  match chunksize with
  | none => .ok (squareVec q A ids)
  | some c =>
    let l := match ids with
      | none => indices (reduceRow any' A)
      | some l => l
    match squareSplitLoop q A (partition c l) none with
    | none => .error .typeError
    | some v => .ok v

omit [DecidableEq K] in
/-- `nx.square_clustering(G, chunksize=)` -- nxapi/cluster.py:95-112 -/
def squareClustering (G : Graph K Int) (chunksize : Option Int) : Except Err (Vec G.n ℚ) := do
  let v ← squareResult q G.A none chunksize
  return nodemapFill none v 0

/-- `nx.square_clustering(G, nodes, chunksize=)` -- nxapi/cluster.py:116-121 -/
def squareClusteringOf (G : Graph K Int) (nodes : List K) (chunksize : Option Int) : Except Err (Vec G.n ℚ) := do
  let ids ← listToIds G nodes
  squareResult q G.A (some ids) chunksize

/-- `nx.square_clustering(G, node)` -- nxapi/cluster.py:113-115 -/
def squareClusteringSingle (G : Graph K Int) (node : K) : Except Err ℚ := do
  let i ← G.getId node
  singleSquareAt q G.A i

/-! ## degree centralities -/

omit [DecidableEq K] in
/-- `_degree_centrality`: the Python float `1 / (N - 1)` times an INT64 vector -- degree_alg.py:6-14 -/
def degreeCentralityV (degrees : Vec n Nat) : Vec n ℚ :=
  if n ≤ 1 then fun _ => some 1
  else vapply (fun d : Nat => o.mul (q.py 1 ((n : Int) - 1)) (o.nat d)) degrees

omit [DecidableEq K] in
/-- `nx.degree_centrality(G)` -- degree_alg.py:17-22, nxapi/centrality/degree_alg.py:8-11 -/
def degreeCentrality (G : Graph K α) : Vec G.n ℚ :=
  nodemapFill none (degreeCentralityV q o (degreesP G)) 0

omit [DecidableEq K] in
/-- `nx.in_degree_centrality(G)` -- degree_alg.py:25-27 -/
def inDegreeCentrality (G : Graph K α) : Except Err (Vec G.n ℚ) :=
  if G.directed = false then .error .notImplemented
  else .ok (nodemapFill none (degreeCentralityV q o (countRow (transpose G.A))) 0)

omit [DecidableEq K] in
/-- `nx.out_degree_centrality(G)` -- degree_alg.py:30-32 -/
def outDegreeCentrality (G : Graph K α) : Except Err (Vec G.n ℚ) :=
  if G.directed = false then .error .notImplemented
  else .ok (nodemapFill none (degreeCentralityV q o (countRow G.A)) 0)

/-! ## reciprocity and efficiency -/

omit [DecidableEq K] in
/-- `algorithms.reciprocity(G, mask)`: INT64 vectors -- algorithms/reciprocity.py:8-12 -/
def reciprocityV (A : Mat n n α) (mask : NodeMask n) : Vec n ℚ :=
  vunion (fun (a b : Nat) => q.gb a b) 0 0
    (vapply (fun x => 2 * x) (maskNew mask (recipDegreesP A))) (maskNew mask (totalDegreesP A))

omit [DecidableEq K] in
/-- `algorithms.overall_reciprocity(G)`: Python ints -- algorithms/reciprocity.py:15-22, nxapi/reciprocity.py:28-33 -/
def overallReciprocity (G : Graph K α) : Except Err ℚ :=
  if G.directed = false then .error .notImplemented
  else if mnvals G.A = 0 then .error .emptyGraph
  else
    let overlap := mnvals (mmul pairN G.A (transpose G.A))
    let overlap : Int := if ∃ i, (G.A i i).isSome then overlap - nvals (diagVec G.A) else overlap
    .ok (q.py overlap (mnvals G.A))

/-- `nx.reciprocity(G, node)` -- nxapi/reciprocity.py:14-21 -/
def reciprocityNode (G : Graph K α) (u : K) : Except Err ℚ :=
  if G.directed = false then .error .notImplemented
  else do
    let mask ← listToMask G (some [u])
    let i ← G.getId u
    match reciprocityV q G.A mask i with
    | none => .error .emptyGraph
    | some x => .ok x

/-- `nx.reciprocity(G, nodes)` -- nxapi/reciprocity.py:22-24 -/
def reciprocityNodes (G : Graph K α) (nodes : List K) : Except Err (Vec G.n ℚ) :=
  if G.directed = false then .error .notImplemented
  else do
    let mask ← listToMask G (some nodes)
    return reciprocityV q G.A mask

/-- `efficiency` -- efficiency_measures.py:7-12 -/
def efficiency (G : Graph K α) (u v : K) : Except Err ℚ :=
  match bidirectionalSPL G u v with
  | .ok d => if d = 0 then .error .zeroDivision else .ok (q.py 1 d)
  | .error .noPath => .ok 0
  | .error e => .error e

/-! ## cuts -/

/-- a quotient of Python ints -/
def pyDiv (a b : Int) : Except Err ℚ := if b = 0 then .error .zeroDivision else .ok (q.py a b)

/-- `nx.normalized_cut_size(G, S, T)`: two Python floats are added, an int is multiplied by the sum
-- nxapi/cuts.py:31-38, cuts.py:41-45 -/
def normalizedCutSize (G : Graph K α) (S : List K) (T : Option (List K)) : Except Err ℚ := do
  let s ← setToVector G S true
  let t ← otherSide G s T
  let cut ← cutSizeU G.directed G.A s (some t)
  let a ← pyDiv q 1 (volumeU G.A s)
  let b ← pyDiv q 1 (volumeU G.A t)
  .ok (o.mul (o.nat cut) (o.add a b))

/-- `nx.conductance(G, S, T)` -- nxapi/cuts.py:41-48, cuts.py:48-52 -/
def conductance (G : Graph K α) (S : List K) (T : Option (List K)) : Except Err ℚ := do
  let s ← setToVector G S true
  let t ← otherSide G s T
  let cut ← cutSizeU G.directed G.A s (some t)
  pyDiv q cut (min (volumeU G.A s) (volumeU G.A t) : Nat)

/-- `nx.edge_expansion(G, S, T)` -- nxapi/cuts.py:51-55, cuts.py:55-61 -/
def edgeExpansion (G : Graph K α) (S : List K) (T : Option (List K)) : Except Err ℚ := do
  let s ← setToVector G S true
  let t ← setToVector? G T
  let cut ← cutSizeU G.directed G.A s t
  pyDiv q cut (min (nvals s) (otherCount G.n s t) : Nat)

/-- `nx.mixing_expansion(G, S, T)` -- nxapi/cuts.py:58-62, cuts.py:64-66 -/
def mixingExpansion (G : Graph K α) (S : List K) (T : Option (List K)) : Except Err ℚ := do
  let s ← setToVector G S true
  let t ← setToVector? G T
  let cut ← cutSizeU G.directed G.A s t
  pyDiv q cut (mnvals G.A)

/-- `nx.node_expansion(G, S)` -- nxapi/cuts.py:65-68, cuts.py:69-71 -/
def nodeExpansion (G : Graph K α) (S : List K) : Except Err ℚ := do
  let s ← listToVector G S
  pyDiv q (nvals (vxm any' pairB s G.A)) (nvals s)

/-- `nx.boundary_expansion(G, S)` -- nxapi/cuts.py:71-74, cuts.py:74-76 -/
def boundaryExpansion (G : Graph K α) (S : List K) : Except Err ℚ := do
  let s ← setToVector G S true
  pyDiv q (nvals (nodeBoundaryV G.A s none)) (nvals s)

end Ra
end Model
