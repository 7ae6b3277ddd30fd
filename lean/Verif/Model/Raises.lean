import Verif.Model.Bfs
import Verif.Model.BellmanFordPath
import Verif.Model.FloydWarshall
import Verif.Model.Small
import Verif.Model.PowerIter
import Verif.Model.Operators

/-!
# The exceptions that users of the nxapi functions see

The algorithms raise `KeyError` and the classes of `algorithms/exceptions.py`; the nxapi functions wrap the calls in
`try ... except` and raise NetworkX's classes instead.  The generators among them are modelled by what they yield
before they stop.
-/

open GB

namespace Model

variable {K α a b : Type}

/-- exceptions seen by the caller -- nxapi/exception.py:1-43 -/
inductive Exc
  | nodeNotFound | nxNoPath | nxUnbounded | nxError | nxPointless
  /-- `PowerIterationFailedConvergence` -/
  | nxPowerIter
  /-- `ArpackNoConvergence` -/
  | arpack
  /-- the exception raised by the algorithm itself -/
  | own (e : Err)
  deriving DecidableEq, Repr

/-- classes named in `except` clauses -/
inductive Cls
  | keyError | noPath | unbounded | pointless | convergence | emptyGraph
  /-- `GraphBlasAlgorithmException`, the base class of the five above -/
  | algorithmException
  deriving DecidableEq, Repr

/-- `isinstance` -- algorithms/exceptions.py:1-22 -/
def Cls.covers : Cls → Err → Bool
  | .keyError, .keyError => true
  | .noPath, .noPath => true
  | .unbounded, .unbounded => true
  | .pointless, .pointless => true
  | .convergence, .convergence => true
  | .emptyGraph, .emptyGraph => true
  | .algorithmException, .algorithm => true
  | .algorithmException, .convergence => true
  | .algorithmException, .emptyGraph => true
  | .algorithmException, .pointless => true
  | .algorithmException, .noPath => true
  | .algorithmException, .unbounded => true
  | _, _ => false

/-- the exception that leaves a `try` statement: the first matching clause decides -/
def translate (clauses : List (Cls × Exc)) (e : Err) : Exc :=
  match clauses with
  | [] => .own e
  | (c, x) :: rest => if c.covers e then x else translate rest e

/-- `try: ... except C1 as e: raise X1 ... except C2 as e: raise X2 ...` -/
def tryExcept (clauses : List (Cls × Exc)) : Except Err a → Except Exc a
  | .ok x => .ok x
  | .error e => .error (translate clauses e)

/-- a generator: what it yields, and the exception that ends it, if any -/
structure Gen (a : Type) where
  items : List a
  stop : Option Exc

/-- `for x in xs: ...; yield from l` where the body computes the list `l` or raises -/
def genFor (f : b → Except Exc (List a)) : List b → Gen a
  | [] => ⟨[], none⟩
  | x :: xs => match f x with
    | .error e => ⟨[], some e⟩
    | .ok l => ⟨l ++ (genFor f xs).items, (genFor f xs).stop⟩

section
variable [DecidableEq K]

/-! ## Paths -/

/-- `nx.single_source_shortest_path_length` -- nxapi/shortest_paths/unweighted.py:14-19 -/
def nxSingleSourceSPL (G : Graph K α) (source : K) (cutoff : Option Int) : Except Exc (Vec G.n Nat) :=
  if !G.contains source then .error .nodeNotFound
  else tryExcept [] (singleSourceSPL G source cutoff)

/-- `nx.single_target_shortest_path_length` -- nxapi/shortest_paths/unweighted.py:22-27 -/
def nxSingleTargetSPL (G : Graph K α) (target : K) (cutoff : Option Int) : Except Exc (Vec G.n Nat) :=
  if !G.contains target then .error .nodeNotFound
  else tryExcept [] (singleTargetSPL G target cutoff)

/-- one row of a NodeNodeMap with its name, a `KeyError` if the row has none -- nodemap.py:354-371 -/
def genRow {β : Type} (G : Graph K α) (D : Mat G.n G.n β) (i : Fin G.n) : Except Exc (List (K × Vec G.n β)) :=
  match G.keyOf i.val with
  | none => .error (.own .keyError)
  | some u => .ok [(u, D i)]

/-- the rows of a matrix as the items of a NodeNodeMap
-- nodemap.py:354-371 (`matrix_to_nodenodemap(D).items()`) -/
def genRows {β : Type} (G : Graph K α) (D : Mat G.n G.n β) : Gen (K × Vec G.n β) :=
  genFor (genRow G D) ((List.finRange G.n).filter fun i : Fin G.n => decide (nvals (D i) ≠ 0))

/-- one chunk of `all_pairs_shortest_path_length` -- nxapi/shortest_paths/unweighted.py:41-45 -/
def splPiece (G : Graph K α) (cutoff : Option Int) : Piece K → Except Err (List (K × Vec G.n Nat))
  | .elem _ => .error .typeError
  | .chunk curNodes => do
    let ids ← listToIds G curNodes
    let D := bfsLevelsFrom (offdiag G.A) (fun r : Fin ids.length => ids.get r) cutoff
    return (curNodes.zipIdx.filterMap fun (u, r) =>
      if h : r < ids.length then some (u, D ⟨r, h⟩) else none)

/-- `nx.all_pairs_shortest_path_length(G, cutoff, chunksize=)` with the normalised chunk size
-- nxapi/shortest_paths/unweighted.py:30-45 -/
def nxAllPairsSPL (G : Graph K α) (cutoff : Option Int) (chunksize : Option Int) : Gen (K × Vec G.n Nat) :=
  match chunksize with
  | none => genRows G (bfsLevelsFrom (offdiag G.A) (fun i => i) cutoff)
  | some c =>
    if c < 2 then
      genFor (fun source => (tryExcept [] (singleSourceSPL G source cutoff)).map fun d => [(source, d)])
        (G.keyToId.map Prod.fst)
    else genFor (fun p => tryExcept [] (splPiece G cutoff p)) (partition c (G.keyToId.map Prod.fst))

/-- `nx.has_path` -- nxapi/shortest_paths/generic.py:9-14 -/
def nxHasPath (G : Graph K α) (source target : K) : Except Exc Bool :=
  tryExcept [(.keyError, .nodeNotFound)] (hasPath G source target)

section
variable [AddCommGroup α] [LinearOrder α]

/-- `nx.single_source_bellman_ford_path_length` -- nxapi/shortest_paths/weighted.py:48-57 -/
def nxSingleSourceBF (G : Graph K α) (iso : Option α) (fdiv : α → α → Int) (source : K) :
    Except Exc (Vec G.n α) :=
  tryExcept [(.unbounded, .nxUnbounded), (.keyError, .nodeNotFound)] (singleSourceBF G iso fdiv source none)

/-- `nx.bellman_ford_path` -- nxapi/shortest_paths/weighted.py:60-66 -/
def nxBellmanFordPath (G : Graph K α) (iso : Option α) (source target : K) : Except Exc (List K) :=
  tryExcept [(.keyError, .nodeNotFound)] (bellmanFordPath G iso source target)

/-- `nx.bellman_ford_path_length` -- nxapi/shortest_paths/weighted.py:69-76 -/
def nxBellmanFordPathLength (G : Graph K α) (iso : Option α) (source target : K) : Except Exc α :=
  tryExcept [(.keyError, .nodeNotFound), (.noPath, .nxNoPath)] (bellmanFordPathLength G iso source target)

/-- one chunk of `all_pairs_bellman_ford_path_length` -- nxapi/shortest_paths/weighted.py:39-45 -/
def bfPiece (G : Graph K α) (iso : Option α) : Piece K → Except Err (List (K × Vec G.n α))
  | .elem _ => .error .typeError
  | .chunk curNodes => do
    let ids ← listToIds G curNodes
    let D ← bellmanFordPathLengths G iso (fun r : Fin ids.length => ids.get r)
    return (curNodes.zipIdx.filterMap fun (u, r) =>
      if h : r < ids.length then some (u, D ⟨r, h⟩) else none)

/-- `nx.all_pairs_bellman_ford_path_length(G, chunksize=)` with the normalised chunk size
-- nxapi/shortest_paths/weighted.py:16-45 -/
def nxAllPairsBF (G : Graph K α) (iso : Option α) (fdiv : α → α → Int) (chunksize : Option Int) :
    Gen (K × Vec G.n α) :=
  match chunksize with
  | none => match tryExcept [(.unbounded, .nxUnbounded)] (bellmanFordPathLengths G iso (fun i => i)) with
    | .error e => ⟨[], some e⟩
    | .ok D => genRows G D
  | some c =>
    if c < 2 then
      genFor (fun source => (tryExcept [(.unbounded, .nxUnbounded)] (singleSourceBF G iso fdiv source none)).map
          fun d => [(source, d)])
        (G.keyToId.map Prod.fst)
    else
      genFor (fun p => tryExcept [(.unbounded, .nxUnbounded)] (bfPiece G iso p))
        (partition c (G.keyToId.map Prod.fst))

/-- `nx.floyd_warshall_numpy` -- nxapi/shortest_paths/dense.py:24-37 (the model of the algorithm already stands for
the test of the nodelist: `algorithm` is its NetworkXError) -/
def nxFloydWarshallNumpy (G : Graph K α) (choose : α → α → α) (nodelist : Option (List K)) :
    Except Exc (Mat G.n G.n α) :=
  tryExcept [(.algorithmException, .nxError)] (floydWarshallNumpy G choose nodelist)

end

/-! ## Traversal, components -/

/-- `nx.descendants` -- nxapi/dag.py:9-16 -/
def nxDescendants (G : Graph K α) (source : K) : Except Exc (Vec G.n Bool) :=
  tryExcept [(.keyError, .nxError)] (descendants G source)

/-- `nx.ancestors` -- nxapi/dag.py:19-26 -/
def nxAncestors (G : Graph K α) (source : K) : Except Exc (Vec G.n Bool) :=
  tryExcept [(.keyError, .nxError)] (ancestors G source)

/-- `nx.descendants_at_distance` -- nxapi/traversal/breadth_first_search.py:21-27 -/
def nxDescendantsAtDistance (G : Graph K α) (source : K) (distance : Int) : Except Exc (Vec G.n Bool) :=
  tryExcept [(.keyError, .nxError)] (descendantsAtDistance G source distance)

/-- `nx.bfs_layers`, a generator of lists of nodes -- nxapi/traversal/breadth_first_search.py:12-18,
traversal/breadth_first_search.py:10-27 (the sources are looked up before the first layer is yielded) -/
def nxBfsLayers (G : Graph K α) (sources : List K) : Gen (Vec G.n Bool) :=
  match tryExcept [(.keyError, .nxError)] (bfsLayers G sources) with
  | .error e => ⟨[], some e⟩
  | .ok L => ⟨L, none⟩

/-- `nx.is_connected` of a `Graph` -- nxapi/components/connected.py:14-20 -/
def nxIsConnected (G : Graph K α) : Except Exc Bool :=
  tryExcept [(.pointless, .nxPointless)] (isConnected G)

/-- `nx.is_weakly_connected` of a `DiGraph` -- nxapi/components/weakly_connected.py:13-19 -/
def nxIsWeaklyConnected (G : Graph K α) : Except Exc Bool :=
  tryExcept [(.pointless, .nxPointless)] (isWeaklyConnected G)

/-- `nx.node_connected_component` of a `Graph` -- nxapi/components/connected.py:23-27 -/
def nxNodeConnectedComponent (G : Graph K α) (u : K) : Except Exc (Vec G.n Bool) :=
  tryExcept [] (nodeConnectedComponent G u)

/-! ## Reciprocity, operators -/

omit [DecidableEq K] in
/-- `nx.overall_reciprocity` -- nxapi/reciprocity.py:27-33 -/
def nxOverallReciprocity (G : Graph K α) : Except Exc ℚ :=
  tryExcept [(.emptyGraph, .nxError)] (overallReciprocity G)

/-- `nx.reciprocity(G, node)` -- nxapi/reciprocity.py:10-21 (`emptyGraph` of the model is the NetworkXError for
isolated nodes) -/
def nxReciprocityNode (G : Graph K α) (u : K) : Except Exc ℚ :=
  tryExcept [(.emptyGraph, .nxError)] (reciprocityNode G u)

/-- the `try` around the seven binary operators -- nxapi/operators/binary.py:17-77 -/
def nxOperator (r : Except Err (Graph b α)) : Except Exc (Graph b α) :=
  tryExcept [(.algorithmException, .nxError)] r

omit [DecidableEq K] in
/-- `nx.reverse` -- nxapi/operators/unary.py:17-22 -/
def nxReverse (G : Graph K α) : Except Exc (Graph K α) :=
  tryExcept [(.algorithmException, .nxError)] (reverse G)

/-! ## Numerics -/

section
variable {F : Type} [Field F] [LinearOrder F]

/-- `nx.pagerank` -- nxapi/link_analysis/pagerank_alg.py:9-45 -/
def nxPagerank (G : Graph K F) (iso : Option F) (alpha : F) (pers : Option (List (K × F))) (maxIter : Int)
    (tol : F) (nstart dangling : Option (List (K × F))) : Except Exc (Option (Vec G.n F)) :=
  tryExcept [(.convergence, .nxPowerIter)] (pagerank G iso alpha pers maxIter tol nstart dangling)

/-- `nx.katz_centrality` -- nxapi/centrality/katz.py:10-40 -/
def nxKatz (fill : Bool) (sqrt : F → F) (G : Graph K F) (iso : Option F) (alpha : F)
    (beta : F ⊕ List (K × F)) (maxIter : Int) (tol : F) (nstart : Option (List (K × F)))
    (normalized : Bool) : Except Exc (Option (Vec G.n F)) :=
  tryExcept [(.convergence, .nxPowerIter), (.algorithmException, .nxError)]
    (katzCentrality fill sqrt G iso alpha beta maxIter tol nstart normalized)

/-- `nx.eigenvector_centrality`; the null graph is rejected before the `try`
-- nxapi/centrality/eigenvector.py:10-22 -/
def nxEigenvector (sqrt : F → F) (G : Graph K F) (maxIter : Int) (tol : F)
    (nstart : Option (List (K × F))) : Except Exc (Vec G.n F) :=
  if G.multi then .error (.own .notImplemented)
  else if G.n = 0 then .error .nxPointless
  else tryExcept [(.convergence, .nxPowerIter), (.algorithmException, .nxError)]
    (eigenvectorCentrality sqrt G maxIter tol nstart)

/-- `nx.hits`; the model of the algorithm has the `ValueError` for `max_iter < 1`
-- nxapi/link_analysis/hits_alg.py:9-22 -/
def nxHits (G : Graph K F) (maxIter : Int) (tol : F) (nstart : Option (List (K × F)))
    (normalized : Bool) : Except Exc (Option (Vec G.n F × Vec G.n F)) :=
  tryExcept [(.convergence, .arpack)] (hits G maxIter tol nstart normalized)

end

end

end Model
