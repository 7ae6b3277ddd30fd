import Verif.Model.Programs
import Verif.Model.BellmanFordPath
import Verif.Model.FloydWarshall
import Verif.Model.Ego
import Verif.Model.GenDegree
import Verif.Model.Truss
import Verif.Model.Small

/-!
# The algorithms of the library as programs on a graph object

Each function makes the property lookups of the code, in the order of the code (`get_properties`
makes them in priority order), and otherwise computes as its pure model does.
-/

open GB Spec.Prop

namespace Model.Run
open Model.Memo Model.Cache
open Model.Memo.Prog (get lift)

variable {ι α K : Type} {a b : Type}

/-- translate the outcome of a function (`try ... except`); the exceptions of lookups are not among
those translated -/
def mapResult {c : Ctx ι α} (f : Except Err a → Except Err b) : Prog c a → Prog c b
  | .done x => .done (f x)
  | .ask r k => .ask r fun v => mapResult f (k v)

variable (e : Env ι α) (G : Graph K α)

/-! ## breadth-first search -/

/-- `A = G.get_property("offdiag"); if transpose and G.is_directed(): A = A.T` -- _bfs.py:28-30, 58-60, 118-120 -/
def bfsMatrix (tr : Bool) : Prog (e.of G) (Mat G.n G.n α) := do
  let A ← get .offdiag
  return if tr && G.directed then transpose A else A

section
variable [DecidableEq K]

/-- `_bfs_plain(G, source, cutoff=, transpose=)` -- _bfs.py:15-45 -/
def bfsPlain (source : K) (cutoff : Option Int := none) (tr : Bool := false) :
    Prog (e.of G) (Vec G.n Bool) := do
  let index ← lift (G.getId source)
  let A ← bfsMatrix e G tr
  return bfsPlainFrom A [index] none cutoff

/-- the row number of an optional target -/
def targetId (target : Option K) : Except Err (Option (Fin G.n)) :=
  match target with
  | none => pure none
  | some t => do let d ← G.getId t; pure (some d)

/-- `_bfs_level(G, source, target, cutoff=, transpose=)` -- _bfs.py:48-75 -/
def bfsLevel (source : K) (target : Option K := none) (cutoff : Option Int := none)
    (tr : Bool := false) : Prog (e.of G) (Vec G.n Nat) := do
  let index ← lift (G.getId source)
  let dst ← lift (targetId G target)
  let A ← bfsMatrix e G tr
  return bfsLevelFrom A index dst cutoff

/-- `_bfs_levels(G, nodes)` for start rows `ids` -- _bfs.py:78-107 -/
def bfsLevels {k : Nat} (ids : Fin k → Fin G.n) (cutoff : Option Int) : Prog (e.of G) (Mat k G.n Nat) := do
  let A ← get .offdiag
  return bfsLevelsFrom A ids cutoff

/-- the rows of a result that are translated to keys by the generators of nxapi
-- nxapi/shortest_paths/unweighted.py:30-35, weighted.py:20-25 -/
def keyedRows {β : Type} (D : Mat G.n G.n β) : Except Err (List (K × Vec G.n β)) :=
  ((List.finRange G.n).filter fun i : Fin G.n => decide (nvals (D i) ≠ 0)).mapM fun i : Fin G.n =>
    match G.keyOf i.val with
    | none => .error .keyError
    | some u => .ok (u, D i)

/-- one chunk of `all_pairs_shortest_path_length` -- nxapi/shortest_paths/unweighted.py:40-45 -/
def splChunk (cutoff : Option Int) (p : Piece K) : Prog (e.of G) (List (K × Vec G.n Nat)) :=
  match p with
  | .elem _ => lift (.error .typeError)
  | .chunk curNodes => do
    let ids ← lift (listToIds G curNodes)
    let D ← bfsLevels e G (fun r : Fin ids.length => ids.get r) cutoff
    return (curNodes.zipIdx.filterMap fun (u, r) =>
      if h : r < ids.length then some (u, D ⟨r, h⟩) else none)

/-- `all_pairs_shortest_path_length(G, cutoff, chunksize=)` -- nxapi/shortest_paths/unweighted.py:30-45.
(`_bfs_levels` looks `offdiag` up before `list_to_ids`; the names are those of the graph, so the order
does not matter here.) -/
def allPairsSPL (cutoff : Option Int) (chunksize : Option Int) :
    Prog (e.of G) (List (K × Vec G.n Nat)) :=
  match chunksize with
  | none => do
    let D ← bfsLevels e G (fun i => i) cutoff
    lift (keyedRows G D)
  | some c =>
    if c < 2 then
      (G.keyToId.map Prod.fst).mapM fun source => do
        let d ← bfsLevel e G source none cutoff
        return (source, d)
    else do
      let parts ← (partition c (G.keyToId.map Prod.fst)).mapM (splChunk e G cutoff)
      return parts.flatten

/-- `bidirectional_shortest_path_length(G, source, target)` -- shortest_paths/unweighted.py:32-64 -/
def bidirectionalSPL (source target : K) : Prog (e.of G) Nat :=
  if !G.contains source || !G.contains target then lift (.error .keyError)
  else do
    let src ← lift (G.getId source)
    let dst ← lift (G.getId target)
    if src = dst then return 0
    else
      let A ← get .offdiag
      lift (bidirLoop A (oddRange G.n) (vset vempty src true) (vset vempty src true)
        (vset vempty dst true) vempty)

/-- `except NoPath: return False` -- shortest_paths/generic.py:7-12 -/
def hasPathOf (x : Except Err Nat) : Except Err Bool :=
  match x with
  | .ok _ => .ok true
  | .error .noPath => .ok false
  | .error e => .error e

/-- `has_path` -- shortest_paths/generic.py:7-12 -/
def hasPath (source target : K) : Prog (e.of G) Bool := mapResult hasPathOf (bidirectionalSPL e G source target)

/-- `descendants` (`tr = false`), `ancestors` (`tr = true`) -- dag.py:6-17 -/
def reachable (source : K) (tr : Bool) : Prog (e.of G) (Vec G.n Bool) := do
  let rv ← bfsPlain e G source none tr
  let index ← lift (G.getId source)
  return vdel rv index

/-- `is_connected` -- components/connected.py:5-8 -/
def isConnected : Prog (e.of G) Bool :=
  if G.len = 0 then lift (.error .pointless)
  else match G.firstNode with
    | none => lift (.error .runtimeError)
    | some u => do
      let v ← bfsPlain e G u
      return nvals v == G.len

/-- `bfs_layers(G, sources)` -- traversal/breadth_first_search.py:10-27 -/
def bfsLayers (sources : List K) : Prog (e.of G) (List (Vec G.n Bool)) := do
  let ids ← lift (listToIds G sources)
  if ids.length = 0 then return []
  else
    let A ← get .offdiag
    let q : Vec G.n Bool := vofIds ids true
    return q :: bfsLayersLoop A (G.n - 1) vempty q

/-- `descendants_at_distance(G, source, distance)` -- traversal/breadth_first_search.py:30-45 -/
def descendantsAtDistance (source : K) (distance : Int) : Prog (e.of G) (Vec G.n Bool) := do
  let index ← lift (G.getId source)
  let A ← get .offdiag
  let q : Vec G.n Bool := vset vempty index true
  if distance = 0 then return q
  else return dadLoop A distance.toNat vempty q

/-- `_bfs_parent(G, source, target)` -- _bfs.py:110-137 -/
def bfsParent (source : K) (target : Option K := none) (cutoff : Option Int := none)
    (tr : Bool := false) : Prog (e.of G) (Vec G.n (Fin G.n)) := do
  let index ← lift (G.getId source)
  let dst ← lift (targetId G target)
  let A ← bfsMatrix e G tr
  return bfsParentLoop A dst (range1 (getCutoff G.n cutoff)) (vset vempty index index)
    (vset vempty index index)

/-- `_bfs_plain_bidirectional(G, source)` -- _bfs.py:141-178 -/
def bfsPlainBidirectional (source : K) : Prog (e.of G) (Vec G.n Bool) := do
  let index ← lift (G.getId source)
  let A ← get .offdiag
  return bfsBiLoop A (G.n - 1) (vset vempty index true) vempty (vset vempty index true) true false

/-- `is_weakly_connected` -- components/weakly_connected.py:5-8 -/
def isWeaklyConnected : Prog (e.of G) Bool :=
  if G.len = 0 then lift (.error .pointless)
  else match G.firstNode with
    | none => lift (.error .runtimeError)
    | some u => do
      let v ← bfsPlainBidirectional e G u
      return nvals v == G.len

/-- the last steps of `lowest_common_ancestor` -- lowest_common_ancestors.py:12-21 -/
def lcaOf (ca oa : Vec G.n Bool) : Except Err (Option K) :=
  let ca : Vec G.n Bool := vmul pairB ca oa
  if nvals ca = 0 then return none
  else
    let oa : Vec G.n Bool := vassignR (vS ca) (mxv any' pairB G.A ca)
    let ca : Vec G.n Bool := vassignR (vnot (vS oa)) ca
    match (indices ca).head? with
    | none => .error .indexError
    | some i => match G.keyOf i.val with
      | none => .error .keyError
      | some u => return (some u)

/-- `lowest_common_ancestor(G, node1, node2)` -- lowest_common_ancestors.py:9-21 -/
def lowestCommonAncestor (node1 node2 : K) : Prog (e.of G) (Option K) := do
  let ca ← bfsPlain e G node1 none true
  let oa ← bfsPlain e G node2 none true
  lift (lcaOf G ca oa)

/-- `ego_graph(G, n, radius, center)` on the graph itself -- generators/ego.py:7-24.  (With
`undirected=True` a digraph is first copied to a new object with its own cache.) -/
def egoGraph (node : K) (radius : Int) (center : Bool) : Prog (e.of G) (Graph K α) := do
  let v ← bfsPlain e G node (some radius)
  lift (egoFinish G node center v)

end

/-! ## triangles, clustering, trusses -/

section
variable [DecidableEq K]

/-- `single_triangle` from the row number -- cluster.py:24-41 -/
def singleTriangleAt (i : Fin G.n) : Prog (e.of G) Nat := do
  let L ← get (.L .m)
  let hasSelf ← get .hasSelf
  let r : Vec G.n α := if hasSelf then vdel (G.A i) i else G.A i
  return (reduce (· + ·) (vassignR (vS r) (mxv (· + ·) pairN L r))).getD 0

/-- `nx.triangles(G, node)` -- nxapi/cluster.py:25-26 -/
def singleTriangle (node : K) : Prog (e.of G) Nat := do
  let i ← lift (G.getId node)
  singleTriangleAt e G i

omit [DecidableEq K] in
/-- `algorithms.triangles(G, mask=mask)` -- cluster.py:44-64 -/
def trianglesVec (mask : NodeMask G.n) : Prog (e.of G) (Vec G.n Nat) := do
  let U ← get (.U .m)
  let L ← get (.L .m)
  return triSum mask (triC L) (triD U L)

/-- `nx.triangles(G)` / `nx.triangles(G, nodes)` -- nxapi/cluster.py:20-29 -/
def triangles (nodes : Option (List K)) : Prog (e.of G) (Vec G.n Nat) := do
  let mask ← lift (listToMask G nodes)
  let v ← trianglesVec e G mask
  return nodemapFill mask v 0

/-- `nx.clustering(G)` / `nx.clustering(G, nodes)` of a `Graph` -- cluster.py:94-98, nxapi/cluster.py:43-57 -/
def clustering (nodes : Option (List K)) : Prog (e.of G) (Vec G.n ℚ) := do
  let mask ← lift (listToMask G nodes)
  let tri ← trianglesVec e G mask
  let degrees ← get (.vec .count .m .row)
  return nodemapFill mask (vmul (fun (t : Nat) (d : Int) => 2 * (t : ℚ) / d) tri (degDenom degrees)) 0

/-- the number of neighbours in `single_clustering` -- cluster.py:133-145.  The tests `"degrees-" in G._cache`
and `"degrees+" in G._cache` are never true: these names are aliases, and the values are stored under
`count_rowwise±` (graph.py:354-361). -/
def singleDegree (i : Fin G.n) : Prog (e.of G) Int := do
  let hasSelf ← get .hasSelf
  return (nvals (G.A i) : Int) - (if hasSelf && (G.A i i).isSome then 1 else 0)

/-- `nx.clustering(G, node)` of a `Graph` -- cluster.py:129-147 -/
def singleClustering (node : K) : Prog (e.of G) ℚ := do
  let i ← lift (G.getId node)
  let tri ← singleTriangleAt e G i
  if tri = 0 then return 0
  else
    let d ← singleDegree e G i
    return 2 * (tri : ℚ) / ((d * (d - 1) : Int) : ℚ)

/-- `nx.clustering(G)` / `nx.clustering(G, nodes)` of a `DiGraph` -- cluster.py:101-126 -/
def clusteringDirected (nodes : Option (List K)) : Prog (e.of G) (Vec G.n ℚ) := do
  let mask ← lift (listToMask G nodes)
  let AT ← get .AT
  let A ← get .offdiag
  let recip ← get (.recip .m) (reqMask mask)
  let total ← get (.totdeg .m) (reqMask mask)
  return nodemapFill mask (vmul (fun (t : Nat) (d : Int) => (t : ℚ) / d) (dirTriOf A AT mask)
    (dirDenom total recip)) 0

omit [DecidableEq K] in
/-- the computation of `single_clustering_directed` -- cluster.py:157-173 -/
def singleDirOf {n : Nat} (O : Mat n n α) (i : Fin n) : ℚ :=
  let r : Vec n α := O i
  let c : Vec n α := fun j => O j i
  let one (x y : Vec n α) : Nat := (reduce (· + ·) (vassignR (vS y) (mxv (· + ·) pairN O x))).getD 0
  let tri := one c c + one c r + one r c + one r r
  if tri = 0 then 0
  else
    let td : Int := nvals c + nvals r
    let rd : Int := nvals (vmul pairN c r)
    (tri : ℚ) / ((td * (td - 1) - 2 * rd : Int) : ℚ)

/-- `nx.clustering(G, node)` of a `DiGraph` -- cluster.py:150-173 -/
def singleClusteringDirected (node : K) : Prog (e.of G) ℚ := do
  let O ← get .offdiag
  let i ← lift (G.getId node)
  return singleDirOf O i

/-- `nx.generalized_degree(G)` / `(G, nodes)` -- cluster.py:285-310, nxapi/cluster.py:125-134 -/
def generalizedDegree (nodes : Option (List K)) : Prog (e.of G) (Mat G.n (G.n - 1) Nat) := do
  let mask ← lift (listToMask G nodes)
  let O ← get .offdiag
  lift (histogram (triEdges O mask))

omit [DecidableEq K] in
/-- the `C` of `k_truss` from `offdiag` -- core.py:11-29 -/
def trussOf {n : Nat} (S : Mat n n α) (k : Int) : Except Err (Mat n n (α ⊕ Nat)) :=
  if k < 3 then .ok (mapply Sum.inl S)
  else match trussLoop k (mnvals S + 1) (trussStep k S) (mnvals S) with
    | none => .error .diverges
    | some C => .ok (mapply Sum.inr C)

omit [DecidableEq K] in
/-- `k_truss(G, k)` -- core.py:8-37 -/
def kTruss (k : Int) : Prog (e.of G) (Graph K (α ⊕ Nat)) := do
  let S ← get .offdiag
  let C ← lift (trussOf S k)
  lift (subGraph { n := G.n, A := C, keyToId := G.keyToId, directed := false, multi := false }
    (indices (reduceRow any' C)))

end

/-! ## degrees and the like -/

/-- `total_degrees+` of a `DiGraph`, `degrees+` of a `Graph` -- isolate.py:6-9, 14-17, 22-25, smetric.py:7-10,
isomorph.py:15-16, 46-47, centrality/degree_alg.py:18-21 -/
def degrees : Prog (e.of G) (Vec G.n Nat) :=
  if G.directed then get (.totdeg .p) else get (.vec .count .p .row)

/-- `is_isolate(G, n)` -- isolate.py:4-10 -/
def isIsolate [DecidableEq K] (u : K) : Prog (e.of G) Bool := do
  let d ← degrees e G
  let i ← lift (G.getId u)
  return (d i).isNone

/-- `isolates(G)` -- isolate.py:13-18 -/
def isolates : Prog (e.of G) (Vec G.n Bool) := do
  let d ← degrees e G
  return fun i => if (d i).isSome then none else some true

/-- `number_of_isolates(G)` -- isolate.py:21-26 -/
def numberOfIsolates : Prog (e.of G) Nat := do
  let d ← degrees e G
  return G.n - nvals d

/-- `s_metric(G)` -- smetric.py:6-11 -/
def sMetric : Prog (e.of G) ℚ := do
  let d ← degrees e G
  let B : Mat G.n G.n Nat := fun i j => ointer first (d i) (G.A i j)
  return ((reduce (· + ·) (mxv (· + ·) (· * ·) B d)).getD 0 : Nat) / 2

/-- `is_regular(G)` -- regular.py:6-23 -/
def isRegular : Prog (e.of G) Bool :=
  if G.directed then do
    let row ← get (.vec .count .p .row)
    if nvals row ≠ G.n then return false
    else
      let col ← get (.vec .count .p .col)
      if nvals col ≠ G.n then return false
      else
        let d ← lift (getFirst row)
        if allEq row d = false then return false
        else lift ((getFirst col).map fun d => allEq col d)
  else do
    let degrees ← get (.vec .count .p .row)
    if nvals degrees ≠ G.n then return false
    else lift ((getFirst degrees).map fun d => allEq degrees d)

/-- `is_k_regular(G, k)` -- regular.py:26-30 -/
def isKRegular (k : Int) : Prog (e.of G) Bool :=
  if G.directed then lift (.error .notImplemented)
  else do
    let degrees ← get (.vec .count .p .row)
    if nvals degrees ≠ G.n then return false
    else return (reduce (· && ·) (vapply (fun x : Nat => decide ((x : Int) = k)) degrees)).getD true

/-- `is_tournament(G)` -- tournament.py:7-13 (`or` does not evaluate its second operand when the first
is true) -/
def isTournament : Prog (e.of G) Bool :=
  if G.directed = false then lift (.error .notImplemented)
  else if mnvals G.A ≠ G.n * (G.n - 1) / 2 then return false
  else do
    let hasSelf ← get .hasSelf
    if hasSelf then return false
    else return decide (mnvals (massignR (mS G.A) (triu1 (transpose G.A))) = 0)

/-- `score_sequence(G)` -- tournament.py:16-22 -/
def scoreSequence : Prog (e.of G) (List Nat) :=
  if G.directed = false then lift (.error .notImplemented)
  else do
    let degrees ← get (.vec .count .p .row)
    let values := ((tocoo degrees).map Prod.snd).insertionSort (· ≤ ·)
    return (if nvals degrees ≠ G.n then List.replicate (G.n - nvals degrees) 0 ++ values else values)

/-- `is_triad(G)` -- triads.py:6-12 -/
def isTriad : Prog (e.of G) Bool :=
  if G.directed && decide (G.n = 3) then do
    let hasSelf ← get .hasSelf
    return !hasSelf
  else return false

/-- `algorithms.reciprocity(G, mask)` -- reciprocity.py:8-12 -/
def reciprocityV (mask : NodeMask G.n) : Prog (e.of G) (Vec G.n ℚ) := do
  let overlap ← get (.recip .p) (reqMask mask)
  let total ← get (.totdeg .p) (reqMask mask)
  return vunion (fun (a b : Nat) => ((a : ℚ) / (b : ℚ))) 0 0 (vapply (fun x => 2 * x) overlap) total

/-- `nx.reciprocity(G, nodes)` for several nodes -- nxapi/reciprocity.py:10-24 -/
def reciprocityNodes [DecidableEq K] (nodes : List K) : Prog (e.of G) (Vec G.n ℚ) :=
  if G.directed = false then lift (.error .notImplemented)
  else do
    let mask ← lift (listToMask G (some nodes))
    reciprocityV e G mask

/-- `nx.overall_reciprocity(G)` -- reciprocity.py:15-22 -/
def overallReciprocity : Prog (e.of G) ℚ :=
  if G.directed = false then lift (.error .notImplemented)
  else if mnvals G.A = 0 then lift (.error .emptyGraph)
  else do
    let overlap ← get (.totrecip .p)
    let hasSelf ← get .hasSelf
    if hasSelf then
      let diag ← get .diag
      return (((overlap : Int) - nvals diag : Int) : ℚ) / (mnvals G.A : ℚ)
    else return ((overlap : Int) : ℚ) / (mnvals G.A : ℚ)

/-! ## cuts -/

section
variable [DecidableEq K]

/-- `edge_boundary(G, S, T)` unweighted -- boundary.py:7-20 -/
def edgeBoundaryU (S : Vec G.n Bool) (T : Option (Vec G.n Bool)) : Prog (e.of G) (Mat G.n G.n Nat) := do
  let B : Mat G.n G.n Nat := fun i j => ointer pairN (S i) (G.A i j)
  match T with
  | some t => return fun i j => ointer pairN (B i j) (t j)
  | none =>
    let d ← get (.vec .count .p .row) (some (vnot (vS S)))
    return fun i j => ointer pairN (B i j) (d j)

/-- `cut_size(G, S, T)` unweighted -- cuts.py:18-30 -/
def cutSizeU (S : Vec G.n Bool) (T : Option (Vec G.n Bool)) : Prog (e.of G) Nat := do
  let edges ← edgeBoundaryU e G S T
  if G.directed then
    match T with
    | none => lift (.error .typeError)
    | some t =>
      let edges' ← edgeBoundaryU e G t (some S)
      return mnvals edges + mnvals edges'
  else return mnvals edges

/-- `nx.cut_size(G, S, T)` -- nxapi/cuts.py:16-21 -/
def cutSize (S : List K) (T : Option (List K)) : Prog (e.of G) Nat := do
  let s ← lift (setToVector G S true)
  let t ← lift (setToVector? G T)
  cutSizeU e G s t

/-- `volume(G, S)` -- cuts.py:33-38 -/
def volumeU (S : Vec G.n Bool) : Prog (e.of G) Nat := do
  let degrees ← get (.vec .count .p .row) (some (vS S))
  return (reduce (· + ·) degrees).getD 0

/-- `nx.volume(G, S)` -- nxapi/cuts.py:24-28 -/
def volume (S : List K) : Prog (e.of G) Nat := do
  let s ← lift (listToVector G S)
  volumeU e G s

/-- `nx.normalized_cut_size(G, S, T)` -- nxapi/cuts.py:31-38, cuts.py:41-45 -/
def normalizedCutSize (S : List K) (T : Option (List K)) : Prog (e.of G) ℚ := do
  let s ← lift (setToVector G S true)
  let t ← lift (otherSide G s T)
  let cut ← cutSizeU e G s (some t)
  let vs ← volumeU e G s
  let vt ← volumeU e G t
  let a ← lift (pyDiv 1 vs)
  let b ← lift (pyDiv 1 vt)
  return cut * (a + b)

/-- `nx.conductance(G, S, T)` -- nxapi/cuts.py:41-48, cuts.py:48-52 -/
def conductance (S : List K) (T : Option (List K)) : Prog (e.of G) ℚ := do
  let s ← lift (setToVector G S true)
  let t ← lift (otherSide G s T)
  let cut ← cutSizeU e G s (some t)
  let vs ← volumeU e G s
  let vt ← volumeU e G t
  lift (pyDiv cut ((min vs vt : Nat) : ℚ))

end

/-! ## weighted shortest paths -/

section
variable [AddCommGroup α] [LinearOrder α]

/-- whether and where to prune -- weighted.py:49-54, 84: without a target `has_negative_edges-` is not looked up -/
def bfPrune (dst : Option (Fin G.n)) : Prog (e.of G) (Option (Fin G.n)) :=
  match dst with
  | none => return none
  | some t => do
    let neg ← get (.neg .m)
    return if neg then none else some t

/-- `_bellman_ford_path_length` after the iso shortcut -- weighted.py:46-100 -/
def bfCore (src : Fin G.n) (dst : Option (Fin G.n)) (cutoff : Option α) : Prog (e.of G) (Vec G.n α) := do
  let O ← get .offdiag
  let nd ← get .negDiag
  let prune ← bfPrune e G dst
  let st := bfLoop O prune (G.n - 1) cutoff (vset vempty src 0) (vset vempty src 0)
  let negCycle := !st.broke &&
    (let mask := bfImproved O st.cut st.d st.cur
     match dst with
     | none => (reduce (· || ·) mask).getD false
     | some t => (mask t).getD false)
  if negCycle then lift (.error .unbounded)
  else if nd then do
    let diag ← get .diag
    if (dot any' pairB st.d (vselect (fun a => decide (a < 0)) diag)).isSome then lift (.error .unbounded)
    else return st.d
  else return st.d

variable [DecidableEq K]

/-- `int(cutoff // iso_value.get())` -- weighted.py:29-30 -/
def isoCut (fdiv : α → α → Int) (cutoff : Option α) (c : α) : Except Err (Option Int) :=
  match cutoff with
  | none => pure none
  | some x => if c = 0 then .error .zeroDivision else pure (some (fdiv x c))

/-- `single_source_bellman_ford_path_length(G, source, cutoff=)` -- weighted.py:17-44, 108-111.
(`iso` is not `None` when `is_iso` is true.) -/
def singleSourceBF (fdiv : α → α → Int) (source : K) (cutoff : Option α) : Prog (e.of G) (Vec G.n α) := do
  let src ← lift (G.getId source)
  let isIso ← get .isIso
  if isIso then
    let neg ← get (.neg .p)
    let iso ← get .isoVal
    if !neg then
      let c ← lift (iso.elim (.error .attributeError) .ok)
      let cut ← lift (isoCut fdiv cutoff c)
      let d ← bfsLevel e G source none cut
      return vapply (fun l => l • c) d
    else if (G.A src src).isSome then lift (.error .unbounded)
    else if !G.directed && decide (nvals (G.A src) > 0) then lift (.error .unbounded)
    else bfCore e G src none cutoff
  else bfCore e G src none cutoff

/-- `d.get(dst_id)` or NoPath -- weighted.py:33-36, 101-105 -/
def orNoPath (x : Option α) : Except Err α :=
  match x with
  | none => .error .noPath
  | some x => .ok x

/-- `bellman_ford_path_length(G, source, target)` -- weighted.py:17-44, 101-105, 114-115 -/
def bellmanFordPathLength (source target : K) : Prog (e.of G) α := do
  let src ← lift (G.getId source)
  let dst ← lift (G.getId target)
  let isIso ← get .isIso
  if isIso then
    let neg ← get (.neg .p)
    let iso ← get .isoVal
    if !neg then
      let c ← lift (iso.elim (.error .attributeError) .ok)
      let d ← bfsLevel e G source (some target) none
      lift (orNoPath (vapply (fun l => l • c) d dst))
    else if (G.A src src).isSome then lift (.error .unbounded)
    else if !G.directed && decide (nvals (G.A src) > 0) then lift (.error .unbounded)
    else do
      let d ← bfCore e G src (some dst) none
      lift (orNoPath (d dst))
  else do
    let d ← bfCore e G src (some dst) none
    lift (orNoPath (d dst))

/-- `bellman_ford_path_lengths` after the iso shortcut -- weighted.py:150-192 -/
def bfCoreM {k : Nat} (ids : Fin k → Fin G.n) : Prog (e.of G) (Mat k G.n α) := do
  let O ← get .offdiag
  let nd ← get .negDiag
  let D0 : Mat k G.n α := fun r j => if j = ids r then some 0 else none
  let st := bfLoopM O (G.n - 1) D0 D0
  let Mask : Mat k G.n Bool := fun r => bfImproved O none (st.1 r) (st.2.1 r)
  if !st.2.2 && (reduceScalar (· || ·) Mask).getD false then lift (.error .unbounded)
  else if nd then do
    let diag ← get .diag
    if decide (nvals (mxv any' pairB st.1 (vselect (fun a => decide (a < 0)) diag)) > 0) then
      lift (.error .unbounded)
    else return st.1
  else return st.1

/-- `bellman_ford_path_lengths(G, nodes)` for start rows `ids` -- weighted.py:118-197 -/
def bellmanFordPathLengths {k : Nat} (ids : Fin k → Fin G.n) : Prog (e.of G) (Mat k G.n α) := do
  let isIso ← get .isIso
  if isIso then
    let neg ← get (.neg .p)
    let iso ← get .isoVal
    if !neg then
      let c ← lift (iso.elim (.error .attributeError) .ok)
      let D ← bfsLevels e G ids none
      return mapply (fun l => l • c) D
    else if !G.directed && decide (mnvals (fun r => G.A (ids r)) > 0) then lift (.error .unbounded)
    else bfCoreM e G ids
  else bfCoreM e G ids

/-- one chunk of `all_pairs_bellman_ford_path_length` -- nxapi/shortest_paths/weighted.py:38-45 -/
def bfChunk (p : Piece K) : Prog (e.of G) (List (K × Vec G.n α)) :=
  match p with
  | .elem _ => lift (.error .typeError)
  | .chunk curNodes => do
    let ids ← lift (listToIds G curNodes)
    let D ← bellmanFordPathLengths e G (fun r : Fin ids.length => ids.get r)
    return (curNodes.zipIdx.filterMap fun (u, r) =>
      if h : r < ids.length then some (u, D ⟨r, h⟩) else none)

/-- `all_pairs_bellman_ford_path_length(G, chunksize=)` -- nxapi/shortest_paths/weighted.py:16-45 -/
def allPairsBF (fdiv : α → α → Int) (chunksize : Option Int) : Prog (e.of G) (List (K × Vec G.n α)) :=
  match chunksize with
  | none => do
    let D ← bellmanFordPathLengths e G (fun i => i)
    lift (keyedRows G D)
  | some c =>
    if c < 2 then
      (G.keyToId.map Prod.fst).mapM fun source => do
        let d ← singleSourceBF e G fdiv source none
        return (source, d)
    else do
      let parts ← (partition c (G.keyToId.map Prod.fst)).mapM (bfChunk e G)
      return parts.flatten

/-- the final self-loop test of `bellman_ford_path` -- weighted.py:294-307 -/
def bfPathDiag (dst : Fin G.n) (path : List (Fin G.n)) (cur : Vec G.n α) : Prog (e.of G) Unit := do
  let mask : Vec G.n Bool := vofIds path true
  let diag ← get .diag (some (vS mask))
  if nvals diag > 0 then lift (.error .unbounded)
  else
    let mask := vmul first mask cur
    if nvals mask > 0 then
      match indices mask with
      | [i, _] =>
        let A ← get .offdiag
        if (bfsPlainFrom A [i] (some dst) (some ((G.n : Int) - 2)) dst).isSome then
          lift (.error .unbounded)
        else return ()
      | _ => lift (.error .valueError)
    else return ()

/-- `bellman_ford_path` after the iso shortcut, on row indices -- weighted.py:223-308 -/
def bfPathCore (src dst : Fin G.n) : Prog (e.of G) (List (Fin G.n)) := do
  let O ← get .offdiag
  let nd ← get .negDiag
  let neg ← get (.neg .m)
  let prune := if neg then none else some dst
  let stp := bfPathLoop O prune (G.n - 1) none (vset vempty src 0) (vset vempty src 0) (vset vempty src src)
  let last := bfRelax O stp.1.cut stp.1.cur
  if !stp.1.broke && (bfImproved O stp.1.cut stp.1.d stp.1.cur dst).getD false then lift (.error .unbounded)
  else
    let path ← lift (reconstructPath stp.2 src dst)
    if nd && !path.isEmpty then
      let _ ← bfPathDiag e G dst path (if stp.1.broke then stp.1.cur else last)
      return path
    else return path

/-- the row numbers of `bellman_ford_path` -- weighted.py:216-308 -/
def bfPathIds (source target : K) (src dst : Fin G.n) : Prog (e.of G) (List (Fin G.n)) := do
  let isIso ← get .isIso
  if isIso then
    let neg ← get (.neg .p)
    if !neg then
      let p ← bfsParent e G source (some target)
      lift (reconstructPath p src dst)
    else lift (.error .unbounded)
  else bfPathCore e G src dst

/-- `bellman_ford_path(G, source, target)` -- weighted.py:213-308 -/
def bellmanFordPath (source target : K) : Prog (e.of G) (List K) := do
  let src ← lift (G.getId source)
  let dst ← lift (G.getId target)
  let path ← bfPathIds e G source target src dst
  lift (path.mapM fun i => match G.keyOf i.val with
    | none => .error .keyError
    | some u => .ok u)

omit [DecidableEq K] in
/-- the mask `degrees.S` of `negative_edge_cycle` -- weighted.py:313-319 -/
def necDegrees : Prog (e.of G) (VMask G.n) :=
  if G.directed then do return vS (← get (.totdeg .m))
  else do return vS (← get (.vec .count .m .row))

omit [DecidableEq K] in
/-- `negative_edge_cycle(G)` -- weighted.py:311-348 -/
def negativeEdgeCycle : Prog (e.of G) Bool := do
  let O ← get .offdiag
  let degS ← necDegrees e G
  let nd ← get .negDiag
  let neg ← get (.neg .m)
  return necBody O degS nd neg

omit [DecidableEq K] in
/-- the matrix and the loop nodes of `floyd_warshall_predecessor_and_distance` -- dense.py:21-25 -/
def fwInput : Prog (e.of G) (Mat G.n G.n α × VMask G.n) :=
  if G.directed then do
    let A ← get .offdiag
    let row ← get (.vec .count .m .row)
    let col ← get (.vec .count .m .col)
    let ne : Vec G.n Nat := vmul pairN row col
    return (A, vS ne)
  else do
    let A ← get (.U .m)
    let ne ← get (.vec .count .m .row)
    return (A, vS ne)

omit [DecidableEq K] in
/-- `floyd_warshall(G)` (weighted) -- dense.py:9-111 -/
def floydWarshall (choose : α → α → α) : Prog (e.of G) (Mat G.n G.n α) := do
  let x ← fwInput e G
  return fwFinish G.directed choose (fwLoop G.directed choose x.2 x.1)

omit [DecidableEq K] in
/-- `floyd_warshall_predecessor_and_distance(G)` (weighted) -- dense.py:13-111 -/
def floydWarshallPred (choose : α → α → α) (chooseP : Fin G.n → Fin G.n → Fin G.n) :
    Prog (e.of G) (Mat G.n G.n (Fin G.n) × Mat G.n G.n α) := do
  let x ← fwInput e G
  let P : Mat G.n G.n (Fin G.n) := fun a b => (x.1 a b).map fun _ => a
  let DP := ((List.finRange G.n).filter x.2).foldl (fwStepP G.directed choose chooseP) (x.1, P)
  return (if G.directed then DP.2 else madd chooseP DP.2 (transpose DP.2), fwFinish G.directed choose DP.1)

end

end Model.Run
