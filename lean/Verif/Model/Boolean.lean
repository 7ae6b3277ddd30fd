import Verif.Model.BellmanFordPath
import Verif.Model.Machine

/-!
# Boolean weights in the shortest-path functions

`if A.dtype == bool: dtype = int` -- weighted.py:55-57, 151-152, 225-227, 324-325, dense.py:34-35 and
`if dtype == bool: dtype = int` -- _bfs.py:48-49, 78-79: on a Boolean matrix the vectors of distances are
INT64, so every operator that combines them with `A` (`min_plus(cur @ A)`, `D << A`,
`B[rows, cols] = A[rows, cols]`, `d *= iso_value`) works in INT64 and casts the stored Booleans to
1 (`True`) and 0 (`False`).  `has_negative_edges*` and `has_negative_diagonal` are answered `False` from the
dtype (`NONNEGATIVE_DTYPES`, _caching.py:4, graph.py:134-192).  Casting the matrix first gives the same
values, and is what the definitions below do; the comparisons `min < 0` that the shared definitions then
make are false on weights 0 and 1.
-/

open GB

namespace Model
variable {K : Type}

/-- the typecast BOOL → INT64 of GraphBLAS -- trusted -/
def castBool (b : Bool) : SInt 64 := if b then 1 else 0

/-- the matrix as the INT64 operators see it -- weighted.py:55-57, dense.py:34-41 -/
def Graph.int64 (G : Graph K Bool) : Graph K (SInt 64) := { G with A := mapply castBool G.A }

/-- `int(cutoff // iso_value.get())`: Python integers -- weighted.py:30 -/
def fdiv64 (x c : SInt 64) : Int := x.toInt / c.toInt

variable [DecidableEq K]

/-- `single_source_bellman_ford_path_length(G, source, cutoff=)` on a Boolean matrix
-- weighted.py:17-105, 108-111 -/
def singleSourceBFB (G : Graph K Bool) (iso : Option Bool) (source : K) (cutoff : Option (SInt 64)) :
    Except Err (Vec G.n (SInt 64)) :=
  singleSourceBF G.int64 (iso.map castBool) fdiv64 source cutoff

/-- `bellman_ford_path_length(G, source, target)` on a Boolean matrix -- weighted.py:17-105, 114-115 -/
def bellmanFordPathLengthB (G : Graph K Bool) (iso : Option Bool) (source target : K) : Except Err (SInt 64) :=
  bellmanFordPathLength G.int64 (iso.map castBool) source target

/-- `bellman_ford_path(G, source, target)` on a Boolean matrix -- weighted.py:213-308 -/
def bellmanFordPathB (G : Graph K Bool) (iso : Option Bool) (source target : K) : Except Err (List K) :=
  bellmanFordPath G.int64 (iso.map castBool) source target

/-- `all_pairs_bellman_ford_path_length(G, chunksize=)` on a Boolean matrix
-- weighted.py:118-197, nxapi/shortest_paths/weighted.py:16-45 -/
def allPairsBFB (G : Graph K Bool) (iso : Option Bool) (chunksize : Option Int) :
    Except Err (List (K × Vec G.n (SInt 64))) :=
  allPairsBF G.int64 (iso.map castBool) fdiv64 chunksize

omit [DecidableEq K] in
/-- `negative_edge_cycle(G)` on a Boolean matrix -- weighted.py:311-348 -/
def negativeEdgeCycleB (G : Graph K Bool) : Bool := negativeEdgeCycle G.int64

omit [DecidableEq K] in
/-- `floyd_warshall(G)` on a Boolean matrix -- dense.py:9-111 -/
def fwDistB (G : Graph K Bool) (choose : SInt 64 → SInt 64 → SInt 64) : Mat G.n G.n (SInt 64) :=
  fwDist G.directed choose G.int64.A

omit [DecidableEq K] in
/-- `floyd_warshall_predecessor_and_distance(G)` on a Boolean matrix -- dense.py:13-111 -/
def fwPredB (G : Graph K Bool) (choose : SInt 64 → SInt 64 → SInt 64)
    (chooseP : Fin G.n → Fin G.n → Fin G.n) : Mat G.n G.n (Fin G.n) × Mat G.n G.n (SInt 64) :=
  fwPred G.directed choose chooseP G.int64.A

end Model
