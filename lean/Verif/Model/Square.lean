import Verif.Model.Cluster
import Verif.Model.Utils

/-! # algorithms/cluster.py, nxapi/cluster.py: square_clustering

The matrix holds integers (an unweighted NetworkX graph gives all ones, a weighted `ga.Graph` its
weights); counts are integers, the final quotient is rational. -/

open GB

namespace Model

variable {K : Type} {n : Nat}

/-- `degrees+` as integers -- classes/graph.py:354-361 -/
def degZ {α : Type*} (A : Mat n n α) : Vec n Int := vapply (fun d : Nat => (d : Int)) (countRow A)

/-- `pair` with integer result, in `plus_pair` -/
def pairZ {α β : Type*} (_ : α) (_ : β) : Int := 1

/-- `Asubset`: the rows of the listed nodes (`binary.second(v & A)`), or everything
-- cluster.py:241-246 -/
def sqSubset (A : Mat n n Int) (ids : Option (List (Fin n))) : Mat n n Int :=
  match ids with
  | none => A
  | some l => fun i j => ointer second (vofIds l true i) (A i j)

/-- the right factor: `A.T` for the whole graph, `A` for a subset -- cluster.py:241-246 -/
def sqRight (A : Mat n n Int) (ids : Option (List (Fin n))) : Mat n n Int :=
  match ids with
  | none => transpose A
  | some _ => A

/-- `P2 = plus_pair(Asubset @ A).new(mask=~D.S)` -- cluster.py:247-248 -/
def sqP2 (A : Mat n n Int) (ids : Option (List (Fin n))) : Mat n n Int :=
  massignR (mnot (mS (diagMat (degZ A)))) (mxm (· + ·) pairZ (sqSubset A ids) (sqRight A ids))

/-- `squares` after dropping zeros -- cluster.py:263-266 -/
def sqSquares (P2 : Mat n n Int) : Vec n Int :=
  let s := reduceRow (· + ·) (mapply (fun p => p * (p - 1)) P2)
  vassignR (fun i => (s i).any fun x => decide (x ≠ 0))
    (vapply (fun x => Int.tdiv x 2) s)

/-- `neg_denom` before the degree term -- cluster.py:256-257 -/
def sqNeg (P2 Asub : Mat n n Int) : Vec n Int := reduceRow (· + ·) (mmul first P2 Asub)

/-- `denom` -- cluster.py:268-279 -/
def sqDenom (deg squares neg uw : Vec n Int) : Vec n Int :=
  let denom := vassignR (vS squares) (vapply (fun d => d - 1) deg)
  let neg := vaccum (· + ·) (fun _ => true) neg (vmul (· * ·) deg denom)
  let denom := vaccum (· * ·) (vS denom) denom uw
  vaccum (· - ·) (fun _ => true) denom (vmul (· + ·) neg squares)

/-- the tail of `square_clustering` -- cluster.py:268-282 -/
def sqFinish (deg squares neg uw : Vec n Int) : Vec n ℚ :=
  vmul (fun (s d : Int) => (s : ℚ) / (d : ℚ)) squares (sqDenom deg squares neg uw)

/-- `algorithms.square_clustering(G, node_ids)` -- cluster.py:227-282 -/
def squareVec (A : Mat n n Int) (ids : Option (List (Fin n))) : Vec n ℚ :=
  let P2 := sqP2 A ids
  let Asub := sqSubset A ids
  sqFinish (degZ A) (sqSquares P2) (sqNeg P2 Asub) (mxv (· + ·) (· * ·) Asub (degZ A))

/-- `algorithms.single_square_clustering(G, idx)` -- cluster.py:196-224 -/
def singleSquareAt (A : Mat n n Int) (i : Fin n) : Except Err ℚ :=
  let deg := (degZ A i).getD 0
  if deg ≤ 1 then .ok 0
  else
    let v := A i
    let p2 := vdel (vxm (· + ·) pairZ v A) i
    let denom := -(dot (· + ·) first p2 v).getD 0
    let squares := Int.fdiv ((reduce (· + ·) (vapply (fun p => p * (p - 1)) p2)).getD 0) 2
    if squares = 0 then .ok 0
    else match dot (· + ·) (· * ·) v (degZ A) with
      | none => .error .typeError
      | some uw =>
        let d := denom - deg * (deg - 1) + uw * (deg - 1) - squares
        if d = 0 then .error .zeroDivision else .ok (squares / d)

/-- the ids of one piece of `partition` (a bare id acts like a one-element list in
`Vector.from_coo`) -/
def pieceIds {α : Type*} : Piece α → List α
  | .chunk l => l
  | .elem a => [a]

/-- the loop of `_square_clustering_split` -- nxapi/cluster.py:82-92 -/
def squareSplitLoop (A : Mat n n Int) : List (Piece (Fin n)) → Option (Vec n ℚ) → Option (Vec n ℚ)
  | [], r => r
  | p :: ps, r =>
    let res := squareVec A (some (pieceIds p))
    squareSplitLoop A ps (some (match r with
      | none => res
      | some r => vadd any' r res))

/-- `_square_clustering_split(G, node_ids, chunksize=)` -- nxapi/cluster.py:82-92 -/
def squareSplit (A : Mat n n Int) (ids : Option (List (Fin n))) (chunksize : Int) : Option (Vec n ℚ) :=
  let l := match ids with
    | none => indices (reduceRow any' A)
    | some l => l
  squareSplitLoop A (partition chunksize l) none

/-- the vector that is turned into the result, for a normalised chunk size
-- nxapi/cluster.py:106-121; `None` (nothing to split) makes the result unusable: the `NodeMap` of
`None` raises AttributeError when read. -/
def squareResult (A : Mat n n Int) (ids : Option (List (Fin n))) (chunksize : Option Int) :
    Except Err (Vec n ℚ) :=
  match chunksize with
  | none => .ok (squareVec A ids)
  | some c => match squareSplit A ids c with
    | none => .error .typeError
    | some v => .ok v

variable [DecidableEq K]

/-- `nx.square_clustering(G, chunksize=)` -- nxapi/cluster.py:95-112 (with `fill_value=0`) -/
def squareClustering (G : Graph K Int) (chunksize : Option Int) : Except Err (Vec G.n ℚ) := do
  let v ← squareResult G.A none chunksize
  return nodemapFill none v 0

/-- `nx.square_clustering(G, nodes, chunksize=)` for a collection of nodes -- nxapi/cluster.py:116-121
(NOTE no fill value) -/
def squareClusteringOf (G : Graph K Int) (nodes : List K) (chunksize : Option Int) :
    Except Err (Vec G.n ℚ) := do
  let ids ← listToIds G nodes
  squareResult G.A (some ids) chunksize

/-- `nx.square_clustering(G, node)` -- nxapi/cluster.py:113-115 -/
def squareClusteringSingle (G : Graph K Int) (node : K) : Except Err ℚ := do
  let i ← G.getId node
  singleSquareAt G.A i

end Model
