import Verif.Model.Cache
import Verif.Model.Cluster
import Verif.Model.BellmanFord

/-!
# Algorithms on a graph object with its cache

`transitivity` and `average_clustering` as the code runs them: properties are looked up in
(and stored into) the property cache of the graph object, and the results are memoised in the same
dictionary by `_cacheit`.  The memo entries are kept in a separate table here: their names
(`"transitivity"`, `"average_clustering(count_zeros=...)"`) are not property names.

`get_properties("L- U-")` and the like are written as the lookups it makes, in priority order
(`Model.Cache.getProps` is that function in general).
-/

open GB Spec.Prop

namespace Model.Memo
open Model.Cache

variable {ι α : Type} [DecidableEq ι] [LinearOrder α] [Zero α]

/-- the keys `_cacheit` is called with -- nxapi/cluster.py:40, 70-77 -/
inductive MemoKey | transitivity | average (countZeros : Bool) deriving DecidableEq

/-- a graph object: its property cache and its memoised results (both live in `G._cache`) -/
structure Obj (c : Ctx ι α) where
  store : Store ι c.n α
  memo : MemoKey → Option ℚ

variable (c : Ctx ι α)

/-- a new graph object: `self._cache = {}` -- graph.py:382 -/
def Obj.fresh : Obj c := ⟨fun _ => none, fun _ => none⟩

/-- an exception raised by plain code -/
def raise {a : Type} (x : Except Err a) : M c a :=
  match x with | .ok v => pure v | .error e => throw e

/-- a node mask as the mask argument of a lookup -/
def reqMask {n : Nat} (mask : NodeMask n) : Option (VMask n) := mask.map vS

/-- `algorithms.total_triangles` -- cluster.py:67-71 -/
def totalTrianglesM : M c Nat := do
  let U ← getProp c false none (.U .m)
  let L ← getProp c false none (.L .m)
  return (reduceScalar (· + ·) (massignR (mS L) (mxm (· + ·) pairN L (transpose U)))).getD 0

/-- `algorithms.transitivity` -- cluster.py:74-80 -/
def transitivityM : M c ℚ := do
  let numerator ← totalTrianglesM c
  if numerator = 0 then return 0
  else
    let degrees ← getProp c false none (.vec .count .m .row)
    let denom := (reduce (· + ·) (degDenom degrees)).getD 0
    return 6 * numerator / denom

/-- `algorithms.transitivity_directed` -- cluster.py:83-91 -/
def transitivityDirM : M c ℚ := do
  let _ ← getProp c false none .AT
  let A ← getProp c false none .offdiag
  let numerator := (reduceScalar (· + ·) (massignR (mS A) (mxm (· + ·) pairN A (transpose A)))).getD 0
  if numerator = 0 then return 0
  else
    let degrees ← getProp c false none (.vec .count .m .row)
    let denom := (reduce (· + ·) (degDenom degrees)).getD 0
    return numerator / denom

/-- `cbrt(w / maxval)`: an arbitrary function of the two (`maxval` is the empty scalar when there
are no off-diagonal edges), with exact values -/
abbrev Norm (α : Type) := Option α → α → ℚ

/-- the sums of `algorithms.triangles(weighted=True)` -- cluster.py:44-64, from `L-`, `U-` and the
normalised weights -/
def triW {n : Nat} (g : α → ℚ) (L U : Mat n n α) (mask : NodeMask n) : Vec n ℚ :=
  let L := mapply g L
  let U := mapply g U
  triSum mask (mmul (· * ·) (massignR (mS L) (mxm (· + ·) (· * ·) L (transpose L))) L)
    (mmul (· * ·) (massignR (mS U) (mxm (· + ·) (· * ·) U (transpose L))) U)

/-- `algorithms.triangles` (its values as rationals) -- cluster.py:44-64; `mx` is the name `max` -/
def trianglesM (mx : ι) (f : Norm α) (weighted : Bool) (mask : NodeMask c.n) : M c (Vec c.n ℚ) := do
  let U ← getProp c false none (.U .m)
  let L ← getProp c false none (.L .m)
  if weighted then
    let maxval ← getProp c false none (.elem mx .m)
    return triW (f maxval) L U mask
  else return vapply (Nat.cast) (triSum mask (triC L) (triD U L))

/-- `algorithms.clustering` -- cluster.py:94-98 -/
def clusteringM (mx : ι) (f : Norm α) (weighted : Bool) (mask : NodeMask c.n) : M c (Vec c.n ℚ) := do
  let tri ← trianglesM c mx f weighted mask
  let degrees ← getProp c false none (.vec .count .m .row)
  return vmul (fun (t : ℚ) (d : Int) => 2 * t / d) tri (degDenom degrees)

/-- `tri` of `algorithms.clustering_directed` from `offdiag` and `AT` -- cluster.py:111-123 -/
def dirTriOf {n : Nat} (O AT : Mat n n α) (mask : NodeMask n) : Vec n Nat :=
  let C := massignR (mS O) (mxm (· + ·) pairN O (transpose O))
  let D := massignR (mS O) (mxm (· + ·) pairN AT (transpose O))
  let E := massignR (mS O) (mxm (· + ·) pairN AT (transpose AT))
  vadd (· + ·) (vadd (· + ·) (vadd (· + ·) (maskNew mask (reduceRow (· + ·) C))
    (maskNew mask (reduceCol (· + ·) C))) (maskNew mask (reduceRow (· + ·) D)))
    (maskNew mask (reduceCol (· + ·) E))

/-- the same with weights -- cluster.py:104-123 -/
def dirTriW {n : Nat} (g : α → ℚ) (O AT : Mat n n α) (mask : NodeMask n) : Vec n ℚ :=
  let O := mapply g O
  let AT := mapply g AT
  let C := mmul (· * ·) (massignR (mS O) (mxm (· + ·) (· * ·) O (transpose O))) O
  let D := mmul (· * ·) (massignR (mS O) (mxm (· + ·) (· * ·) AT (transpose O))) O
  let E := mmul (· * ·) (massignR (mS O) (mxm (· + ·) (· * ·) AT (transpose AT))) O
  vadd (· + ·) (vadd (· + ·) (vadd (· + ·) (maskNew mask (reduceRow (· + ·) C))
    (maskNew mask (reduceCol (· + ·) C))) (maskNew mask (reduceRow (· + ·) D)))
    (maskNew mask (reduceCol (· + ·) E))

/-- the first half of `clustering_directed` -- cluster.py:103-123 -/
def dirTriM (mx : ι) (f : Norm α) (weighted : Bool) (mask : NodeMask c.n) : M c (Vec c.n ℚ) := do
  let AT ← getProp c false none .AT
  let A ← getProp c false none .offdiag
  if weighted then
    let maxval ← getProp c false none (.elem mx .m)
    return dirTriW (f maxval) A AT mask
  else return vapply (Nat.cast) (dirTriOf A AT mask)

/-- `algorithms.clustering_directed` -- cluster.py:101-126 -/
def clusteringDirM (mx : ι) (f : Norm α) (weighted : Bool) (mask : NodeMask c.n) : M c (Vec c.n ℚ) := do
  let tri ← dirTriM c mx f weighted mask
  let recip ← getProp c false (reqMask mask) (.recip .m)
  let total ← getProp c false (reqMask mask) (.totdeg .m)
  return vmul (fun (t : ℚ) (d : Int) => t / d) tri (dirDenom total recip)

/-- `algorithms.average_clustering` / `average_clustering_directed` -- cluster.py:176-193 -/
def averageM (mx : ι) (f : Norm α) (weighted countZeros : Bool) (mask : NodeMask c.n) : M c ℚ := do
  let v ← if c.dir then clusteringDirM c mx f weighted mask else clusteringM c mx f weighted mask
  raise c (averageOf v countZeros mask)

/-- run cache code on a graph object -/
def onStore {a : Type} (m : M c a) (o : Obj c) : Except Err a × Obj c :=
  let r := m.run o.store
  (r.1, { o with store := r.2 })

/-- `_cacheit(self, key, func, ...)` -- classes/_utils.py:252-255 -/
def cacheit (key : MemoKey) (m : M c ℚ) (o : Obj c) : Except Err ℚ × Obj c :=
  match o.memo key with
  | some v => (.ok v, o)
  | none =>
    match onStore c m o with
    | (.ok v, o') => (.ok v, { o' with memo := Function.update o'.memo key (some v) })
    | (.error e, o') => (.error e, o')

/-- what a user may do with a graph object: look up a property (which is also all that the other
algorithms do to the object), or call one of the two memoising functions.
`mask` is the outcome of `G.list_to_mask(nodes)`. -/
inductive Call (ι : Type) (n : Nat)
  | request (r : Req ι n)
  | transitivity
  | average (mask : NodeMask n) (weighted countZeros : Bool)

/-- `nx.transitivity(G)` -- nxapi/cluster.py:32-40 -/
def callTransitivity (o : Obj c) : Except Err ℚ × Obj c :=
  if c.n = 0 then (.ok 0, o)
  else cacheit c .transitivity (if c.dir then transitivityDirM c else transitivityM c) o

/-- `nx.average_clustering(G, nodes, weight, count_zeros)` -- nxapi/cluster.py:60-78 -/
def callAverage (mx : ι) (f : Norm α) (mask : NodeMask c.n) (weighted countZeros : Bool)
    (o : Obj c) : Except Err ℚ × Obj c :=
  if c.n = 0 then (.error .zeroDivision, o)
  else match mask with
    | none => cacheit c (.average countZeros) (averageM c mx f weighted countZeros none) o
    | some p => onStore c (averageM c mx f weighted countZeros (some p)) o

/-- the object after a call -/
def step (mx : ι) (f : Norm α) (o : Obj c) : Call ι c.n → Obj c
  | .request r => { o with store := exec c r o.store }
  | .transitivity => (callTransitivity c o).2
  | .average mask w cz => (callAverage c mx f mask w cz o).2

/-- the object after a history of calls -/
def afterCalls (mx : ι) (f : Norm α) (h : List (Call ι c.n)) : Obj c :=
  h.foldl (step c mx f) (Obj.fresh c)

/-! ## negative_edge_cycle with its lookups -/

section
variable {ι α : Type} [DecidableEq ι] [AddCommGroup α] [LinearOrder α]

/-- the mask `degrees.S` -- weighted.py:313-319 -/
def necDegrees (c : Ctx ι α) : M c (VMask c.n) := do
  if c.dir then return vS (← getProp c false none (.totdeg .m))
  else return vS (← getProp c false none (.vec .count .m .row))

/-- `negative_edge_cycle(G)` -- weighted.py:311-348, lookups in priority order -/
def negativeEdgeCycleM (c : Ctx ι α) : M c Bool := do
  let O ← getProp c false none .offdiag
  let degS ← necDegrees c
  let nd ← getProp c false none .negDiag
  let neg ← getProp c false none (.neg .m)
  return necBody O degS nd neg

end

end Model.Memo
