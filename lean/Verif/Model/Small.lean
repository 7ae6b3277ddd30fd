import Verif.Model.Cuts
import Verif.Model.Cluster
import Mathlib.Data.List.Sort
import Mathlib.Data.List.Dedup

/-!
# Small algorithms: isolates, regularity, tournaments, simple paths, reciprocity, s-metric,
community edges, mutual weight, triads, isomorphism tests

Graph properties are read fresh (C01, C02).  Quotients are exact rationals.  Multigraphs are not
modelled.
-/

open GB

namespace Model

variable {K α : Type} {n : Nat}

/-- the property `total_degrees+` -- classes/digraph.py:238-265 -/
def totalDegreesP (A : Mat n n α) : Vec n Nat := vadd (· + ·) (countRow A) (countRow (transpose A))

/-- `G.get_property("total_degrees+")` in a digraph, `G.get_property("degrees+")` otherwise
-- isolate.py:6-9, 14-17, 22-25, smetric.py:7-10, isomorph.py:16, 47 -/
def degreesP (G : Graph K α) : Vec G.n Nat :=
  if G.directed then totalDegreesP G.A else countRow G.A

/-! ## isolates -/

/-- `is_isolate(G, n)` -- algorithms/isolate.py:4-10 -/
def isIsolate [DecidableEq K] (G : Graph K α) (u : K) : Except Err Bool := do
  let i ← G.getId u
  return (degreesP G i).isNone

/-- `isolates(G)`, the vector under the returned NodeSet: `(~degrees.S).new()`
-- algorithms/isolate.py:13-18 -/
def isolates (G : Graph K α) : Vec G.n Bool :=
  fun i => if (degreesP G i).isSome then none else some true

/-- `number_of_isolates(G)` -- algorithms/isolate.py:21-26 -/
def numberOfIsolates (G : Graph K α) : Nat := G.n - nvals (degreesP G)

/-! ## regular -/

/-- `v.get(0)`: a vector of size 0 has no index 0 -/
def getFirst (v : Vec n Nat) : Except Err (Option Nat) :=
  if h : 0 < n then .ok (v ⟨0, h⟩) else .error .indexError

/-- `(v == d).reduce(monoid.land)` with "nothing stored" read as `True` -/
def allEq (v : Vec n Nat) (d : Option Nat) : Bool :=
  (reduce (· && ·) (vapply (fun x => decide (some x = d)) v)).getD true

/-- undirected branch of `is_regular` -- algorithms/regular.py:8-12 -/
def isRegularU (A : Mat n n α) : Except Err Bool :=
  let degrees := countRow A
  if nvals degrees ≠ n then .ok false
  else (getFirst degrees).map fun d => allEq degrees d

/-- directed branch of `is_regular` -- algorithms/regular.py:13-23 -/
def isRegularD (A : Mat n n α) : Except Err Bool :=
  let row := countRow A
  let col := countRow (transpose A)
  if nvals row ≠ n then .ok false
  else if nvals col ≠ n then .ok false
  else do
    let d ← getFirst row
    if allEq row d = false then .ok false
    else (getFirst col).map fun d => allEq col d

/-- `is_regular(G)` -- algorithms/regular.py:6-23 -/
def isRegular (G : Graph K α) : Except Err Bool :=
  if G.directed then isRegularD G.A else isRegularU G.A

/-- `is_k_regular(G, k)` -- algorithms/regular.py:26-30, nxapi/regular.py:14-17 -/
def isKRegular (G : Graph K α) (k : Int) : Except Err Bool :=
  if G.directed then .error .notImplemented
  else
    let degrees := countRow G.A
    if nvals degrees ≠ G.n then .ok false
    else .ok ((reduce (· && ·) (vapply (fun x : Nat => decide ((x : Int) = k)) degrees)).getD true)

/-! ## tournaments -/

/-- `is_tournament(G)` -- algorithms/tournament.py:7-13 (`0 * (0 - 1) // 2` is 0 both for Python
integers and for naturals); nxapi/tournament.py:10-14 -/
def isTournament (G : Graph K α) : Except Err Bool :=
  if G.directed = false then .error .notImplemented
  else if mnvals G.A ≠ G.n * (G.n - 1) / 2 ∨ ∃ i, (G.A i i).isSome then .ok false
  else .ok (decide (mnvals (massignR (mS G.A) (triu1 (transpose G.A))) = 0))

/-- `score_sequence(G)` -- algorithms/tournament.py:16-22 -/
def scoreSequence (G : Graph K α) : Except Err (List Nat) :=
  if G.directed = false then .error .notImplemented
  else
    let degrees := countRow G.A
    let values := ((tocoo degrees).map Prod.snd).insertionSort (· ≤ ·)
    .ok (if nvals degrees ≠ G.n then List.replicate (G.n - nvals degrees) 0 ++ values else values)

/-- `tournament_matrix(G)` -- algorithms/tournament.py:25-27 (`-` is a union with default 0) -/
def tournamentMatrix [Zero α] [Sub α] (G : Graph K α) : Mat G.n G.n α :=
  munion (· - ·) 0 0 G.A (transpose G.A)

/-! ## simple paths -/

/-- the last steps of `is_simple_path` -- algorithms/simple_paths.py:19-21.  `from_coo` with a
scalar value keeps one entry for each distinct position. -/
def simplePathIds (A : Mat n n α) (len : Nat) (ids : List (Fin n)) : Bool :=
  if ids.length ≠ len ∨ ids.length > ids.dedup.length then false
  else
    let P : Mat n n Bool := fun i j => if (i, j) ∈ ids.dropLast.zip ids.tail then some true else none
    let P' := mmul second A P
    decide (mnvals P' = ids.length - 1)

/-- `is_simple_path(G, nodes)` -- algorithms/simple_paths.py:6-21 -/
def isSimplePath [DecidableEq K] (G : Graph K α) (nodes : List K) : Except Err Bool :=
  match nodes with
  | [] => .ok false
  | [u] => .ok (G.contains u)
  | nodes =>
    if mnvals G.A < nodes.length - 1 then .ok false
    else (listToIds G (nodes.filter fun k => G.contains k)).map fun ids =>
      simplePathIds G.A nodes.length ids

/-! ## reciprocity -/

/-- the property `recip_degrees+`: `pair(A & A.T).reduce_rowwise()` -- classes/digraph.py:119-158 -/
def recipDegreesP (A : Mat n n α) : Vec n Nat := countRow (mmul pairN A (transpose A))

/-- `algorithms.reciprocity(G, mask)` -- algorithms/reciprocity.py:8-12 -/
def reciprocityV (A : Mat n n α) (mask : NodeMask n) : Vec n ℚ :=
  vunion (fun (a b : Nat) => ((a : ℚ) / (b : ℚ))) 0 0
    (vapply (fun x => 2 * x) (maskNew mask (recipDegreesP A))) (maskNew mask (totalDegreesP A))

/-- `algorithms.overall_reciprocity(G)` and its exception in nxapi -- algorithms/reciprocity.py:15-22,
nxapi/reciprocity.py:28-33 -/
def overallReciprocity (G : Graph K α) : Except Err ℚ :=
  if G.directed = false then .error .notImplemented
  else if mnvals G.A = 0 then .error .emptyGraph
  else
    let overlap := mnvals (mmul pairN G.A (transpose G.A))
    let overlap : Int := if ∃ i, (G.A i i).isSome then overlap - nvals (diagVec G.A) else overlap
    .ok (overlap / (mnvals G.A : ℚ))

/-- `nx.reciprocity(G, nodes)` for one node; NetworkXError on isolated nodes (`emptyGraph` here)
-- nxapi/reciprocity.py:14-21 -/
def reciprocityNode [DecidableEq K] (G : Graph K α) (u : K) : Except Err ℚ :=
  if G.directed = false then .error .notImplemented
  else do
    let mask ← listToMask G (some [u])
    let i ← G.getId u
    match reciprocityV G.A mask i with
    | none => .error .emptyGraph
    | some x => .ok x

/-- `nx.reciprocity(G, nodes)` for several nodes: the vector under the NodeMap
-- nxapi/reciprocity.py:22-24 -/
def reciprocityNodes [DecidableEq K] (G : Graph K α) (nodes : List K) : Except Err (Vec G.n ℚ) :=
  if G.directed = false then .error .notImplemented
  else do
    let mask ← listToMask G (some nodes)
    return reciprocityV G.A mask

/-! ## s-metric -/

/-- `s_metric(G)` -- algorithms/smetric.py:6-11 -/
def sMetric (G : Graph K α) : ℚ :=
  let degrees := degreesP G
  let B : Mat G.n G.n Nat := fun i j => ointer first (degrees i) (G.A i j)
  ((reduce (· + ·) (mxv (· + ·) (· * ·) B degrees)).getD 0 : Nat) / 2

/-! ## communities -/

/-- `intra_community_edges` on vectors -- algorithms/community/quality.py:6-12 -/
def intraV (A : Mat n n α) (blocks : List (Vec n Bool)) : Nat :=
  blocks.foldl (fun count block =>
    count + (reduce (· + ·) (vassignR (vS block) (mxv (· + ·) pairN A block))).getD 0) 0

/-- `inter_community_edges` on vectors -- algorithms/community/quality.py:15-21 -/
def interV (A : Mat n n α) (blocks : List (Vec n Bool)) : Nat :=
  blocks.foldl (fun count block =>
    count + (reduce (· + ·) (vassignR (vnot (vS block)) (mxv (· + ·) pairN A block))).getD 0) 0

/-- `intra_community_edges(G, partition)` -- nxapi/community/quality.py:7-10 -/
def intraCommunityEdges [DecidableEq K] (G : Graph K α) (partition : List (List K)) : Except Err Nat := do
  let blocks ← partition.mapM fun b => setToVector G b true
  return intraV G.A blocks

/-- `inter_community_edges(G, partition)` -- nxapi/community/quality.py:13-16 -/
def interCommunityEdges [DecidableEq K] (G : Graph K α) (partition : List (List K)) : Except Err Nat := do
  let blocks ← partition.mapM fun b => setToVector G b true
  return interV G.A blocks

/-! ## structural holes, triads -/

/-- `mutual_weight(G, u, v)` -- algorithms/structuralholes.py:4-11 -/
def mutualWeight [DecidableEq K] [Zero α] [Add α] (G : Graph K α) (u v : K) : Except Err α :=
  if G.contains u = false ∨ G.contains v = false then .ok 0
  else do
    let i ← G.getId u
    let j ← G.getId v
    return (G.A i j).getD 0 + (G.A j i).getD 0

/-- `is_triad(G)` -- algorithms/triads.py:6-12 -/
def isTriad (G : Graph K α) : Bool :=
  G.directed && decide (G.n = 3) && !decide (∃ i, (G.A i i).isSome)

/-! ## isomorphism tests -/

/-- sorted stored values: `v.to_coo(indices=False)[1]`, then `.sort()` -- isomorph.py:50-53 -/
def sortedValues (v : Vec n Nat) : List Nat := ((tocoo v).map Prod.snd).insertionSort (· ≤ ·)

/-- `faster_could_be_isomorphic(G1, G2)` -- algorithms/isomorphism/isomorph.py:43-56 -/
def fasterCouldBeIsomorphic {K' α' : Type} (G1 : Graph K α) (G2 : Graph K' α') : Bool :=
  if G1.n ≠ G2.n then false
  else if nvals (degreesP G1) ≠ nvals (degreesP G2) then false
  else decide (sortedValues (degreesP G1) = sortedValues (degreesP G2))

/-- `t(~t.S) << binary.second(d, 0)` when the numbers of entries differ -- isomorph.py:24-29 -/
def fillTri (t d : Vec n Nat) : Vec n Nat :=
  if nvals t ≠ nvals d then vassign (vnot (vS t)) t (vapply (fun _ => 0) d) else t

/-- lexicographic order of `np.lexsort((d, t))`: by `t` first, then by `d` -/
def lexLe (a b : Nat × Nat) : Prop := a.2 < b.2 ∨ (a.2 = b.2 ∧ a.1 ≤ b.1)

instance (a b : Nat × Nat) : Decidable (lexLe a b) :=
  inferInstanceAs (Decidable (a.2 < b.2 ∨ (a.2 = b.2 ∧ a.1 ≤ b.1)))

/-- the pairs `(d[ind], t[ind])` for `ind = np.lexsort((d, t))` -- isomorph.py:30-39 -/
def lexPairs (d t : Vec n Nat) : List (Nat × Nat) :=
  (((tocoo d).map Prod.snd).zip ((tocoo t).map Prod.snd)).insertionSort lexLe

/-- `fast_could_be_isomorphic(G1, G2)` -- algorithms/isomorphism/isomorph.py:12-40 -/
def fastCouldBeIsomorphic {K' α' : Type} (G1 : Graph K α) (G2 : Graph K' α') : Bool :=
  let d1 := degreesP G1
  let d2 := degreesP G2
  let t1 := trianglesVec G1.A none
  let t2 := trianglesVec G2.A none
  if G1.n ≠ G2.n then false
  else if nvals d1 ≠ nvals d2 then false
  else if nvals t1 ≠ nvals t2 then false
  else
    let p1 := lexPairs d1 (fillTri t1 d1)
    let p2 := lexPairs d2 (fillTri t2 d2)
    decide (p1.map Prod.fst = p2.map Prod.fst ∧ p1.map Prod.snd = p2.map Prod.snd)

end Model
