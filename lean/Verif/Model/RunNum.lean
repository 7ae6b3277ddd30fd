import Verif.Model.Run
import Verif.Model.Linalg

/-!
# Numeric algorithms of the library as programs on a graph object

As `Model/Run.lean`, for the functions whose results are numbers of a field: pagerank, google matrix,
katz, degree centralities and the matrices of linalg/.  `NumEnv` names the operators of the property
names `plus_rowwise+` and `any_rowwise+`.
-/

open GB Spec.Prop

namespace Model.Run
open Model.Memo Model.Cache
open Model.Memo.Prog (get lift)

variable {ι K F : Type} [Field F] [LinearOrder F]

/-- an environment whose operator `pl` is `plus`; `an` is the name `any` -/
structure NumEnv (ι F : Type) [Field F] extends Env ι F where
  pl : ι
  an : ι
  plus : toEnv.f pl = (· + ·)

variable (e : NumEnv ι F) (G : Graph K F)

/-- `plus_rowwise+` -/
def plusRowwise : Prog (e.toEnv.of G) (Vec G.n F) := get (.vec (.mon e.pl) .p .row)

/-- the part of `pagerank` after the lookups -- pagerank_alg.py:60-101 -/
def prFinish (A : Mat n n F) (alpha : F) (maxIter : Int) (tol : F) (dangling : Option (Vec n F))
    (x : Vec n F) (p : F ⊕ Vec n F) (S : Vec n F) (iso : Option F) : Except Err (Vec n F) := do
  let md ← prDangling alpha S p dangling
  powerIter (prStep A { S := S, mul := prMul iso, mask := md.1, dw := md.2, p := prScaleP alpha p })
    (isConverged tol) maxIter.toNat x

/-- `algorithms.pagerank` -- pagerank_alg.py:12-101 -/
def pagerankV (alpha : F) (pers : Option (Vec G.n F)) (maxIter : Int) (tol : F)
    (nstart dangling : Option (Vec G.n F)) (rowDegrees : Vec G.n F) : Prog (e.toEnv.of G) (Vec G.n F) :=
  if mnvals G.A = 0 then pure vempty
  else do
    let x ← lift (prInit nstart)
    let p ← lift (prP pers)
    let iso ← get .isoVal
    lift (prFinish G.A alpha maxIter tol dangling x p (prS alpha rowDegrees iso) iso)

variable [DecidableEq K]

/-- `nx.pagerank` -- nxapi/link_analysis/pagerank_alg.py:9-45 -/
def pagerank (alpha : F) (pers : Option (List (K × F))) (maxIter : Int) (tol : F)
    (nstart dangling : Option (List (K × F))) : Prog (e.toEnv.of G) (Option (Vec G.n F)) :=
  if G.n = 0 then pure none
  else do
    let x ← lift (dictToVector? G nstart)
    let p ← lift (dictToVector? G pers)
    let rowDegrees ← plusRowwise e G
    let d ← lift (dictToVector? G (if nvals rowDegrees < G.n then dangling else none))
    let v ← pagerankV e G alpha p maxIter tol x d rowDegrees
    return some (nodemapFill none v 0)

/-- `dangling` of `nx.google_matrix`: `row_degrees+` is looked up only if it is given
-- nxapi/link_analysis/pagerank_alg.py:53-56 -/
def gmDangling (dangling : Option (List (K × F))) : Prog (e.toEnv.of G) (Option (Vec G.n F)) :=
  match dangling with
  | none => pure none
  | some d => do
    let deg ← get (.vec .count .p .row)
    lift (dictToVector? G (if nvals deg < G.n then some d else none))

/-- `nx.google_matrix` for all nodes -- pagerank_alg.py:104-162, nxapi/link_analysis/pagerank_alg.py:48-63 -/
def googleMatrix (alpha : F) (pers dangling : Option (List (K × F))) :
    Prog (e.toEnv.of G) (Mat G.n G.n F) := do
  let p ← lift (dictToVector? G pers)
  let d ← gmDangling e G dangling
  if G.n = 0 then pure G.A
  else
    let nonempty ← get (.vec (.mon e.an) .p .row)
    lift (gmBody alpha G.A p d fun i => !(nonempty i).isSome)

/-- the rows taken to be empty, with `any_rowwise+` given -- pagerank_alg.py:133-136, 140 -/
def gmEmptyRows (A : Mat n n F) (nonempty : Vec n F) (ids : List (Fin n)) (i : Fin ids.length) : Bool :=
  if h : ids.length = n then !(nonempty (Fin.cast h i)).isSome
  else !(countRow (extract A ids.get ids.get) i).isSome

/-- the last steps of `nx.google_matrix` with a node list -/
def gmListFinish (alpha : F) (p d : Option (Vec G.n F)) (ids : List (Fin G.n))
    (empty : Fin ids.length → Bool) : Except Err (Σ m, Mat m m F) :=
  (gmBody alpha (extract G.A ids.get ids.get) (p.map fun v => fun i => v (ids.get i))
    (d.map fun v => fun i => v (ids.get i)) empty).map fun M => ⟨ids.length, M⟩

/-- `nx.google_matrix` with a node list -- pagerank_alg.py:104-162, nxapi/link_analysis/pagerank_alg.py:48-63.
`any_rowwise+` is looked up only if the list is as long as the graph. -/
def googleMatrixList (alpha : F) (pers : Option (List (K × F))) (nodelist : List K)
    (dangling : Option (List (K × F))) : Prog (e.toEnv.of G) (Σ m, Mat m m F) := do
  let p ← lift (dictToVector? G pers)
  let d ← gmDangling e G dangling
  let ids ← lift (listToIds G nodelist)
  if ids.length = 0 then pure ⟨ids.length, extract G.A ids.get ids.get⟩
  else if ids.length = G.n then
    let nonempty ← get (.vec (.mon e.an) .p .row)
    lift (gmListFinish G alpha p d ids (gmEmptyRows G.A nonempty ids))
  else lift (gmListFinish G alpha p d ids (gmEmptyRows G.A vempty ids))

/-- the iteration of `katz_centrality` -- katz.py:35-55 -/
def katzFinish (fill : Bool) (sqrt : F → F) (A : Mat n n F) (iso : Option F) (alpha : F) (beta : F ⊕ Vec n F)
    (maxIter : Int) (tol : F) (nstart : Option (Vec n F)) (normalized : Bool) : Except Err (Vec n F) := do
  let x ← powerIter (katzStep fill A iso alpha beta) (isConverged tol) maxIter.toNat (katzInit nstart)
  return if normalized then normalizeL2 sqrt x else x

/-- `nx.katz_centrality` -- katz.py:11-55, nxapi/centrality/katz.py:10-40 -/
def katzCentrality (fill : Bool) (sqrt : F → F) (alpha : F) (beta : F ⊕ List (K × F)) (maxIter : Int)
    (tol : F) (nstart : Option (List (K × F))) (normalized : Bool) :
    Prog (e.toEnv.of G) (Option (Vec G.n F)) :=
  if G.multi then lift (.error .notImplemented)
  else if G.n = 0 then pure none
  else do
    let x ← lift (dictToVector? G nstart)
    let b ← lift (katzBeta G beta)
    let _ ← lift (katzCheck b)
    let iso ← get .isoVal
    let v ← lift (katzFinish fill sqrt G.A iso alpha b maxIter tol x normalized)
    return some v

omit [LinearOrder F] [DecidableEq K] in
/-- `nx.degree_centrality(G)` -- degree_alg.py:17-22 -/
def degreeCentrality : Prog (e.toEnv.of G) (Vec G.n F) := do
  let d ← degrees e.toEnv G
  return nodemapFill none (degreeCentralityV d) 0

omit [LinearOrder F] [DecidableEq K] in
/-- `nx.in_degree_centrality(G)` -- degree_alg.py:25-27 -/
def inDegreeCentrality : Prog (e.toEnv.of G) (Vec G.n F) :=
  if G.directed = false then lift (.error .notImplemented)
  else do
    let d ← get (.vec .count .p .col)
    return nodemapFill none (degreeCentralityV d) 0

omit [LinearOrder F] [DecidableEq K] in
/-- `nx.out_degree_centrality(G)` -- degree_alg.py:30-32 -/
def outDegreeCentrality : Prog (e.toEnv.of G) (Vec G.n F) :=
  if G.directed = false then lift (.error .notImplemented)
  else do
    let d ← get (.vec .count .p .row)
    return nodemapFill none (degreeCentralityV d) 0

/-! ## linalg -/

/-- a vector of counts as numbers -/
def asNumbers (d : Vec n Nat) : Vec n F := vapply (fun (d : Nat) => (d : F)) d

omit [LinearOrder F] [DecidableEq K] in
/-- `G.get_property("degrees+")`: unknown to a DiGraph (see `Model.degreesProp`) -/
def degreesProp : Prog (e.toEnv.of G) (Vec G.n F) :=
  if G.directed then lift (.error .keyError)
  else do
    let d ← get (.vec .count .p .row)
    return asNumbers d

/-- `_laplacian_helper` -- linalg/laplacianmatrix.py:9-24 -/
def laplacianHelper (nodelist : Option (List K)) (isWeighted : Bool) :
    Prog (e.toEnv.of G) (Σ m, Vec m F × Mat m m F) :=
  match nodelist with
  | some L => lift (Model.laplacianHelper G (some L) isWeighted)
  | none =>
    if G.multi || isWeighted then do
      let d ← plusRowwise e G
      return ⟨G.n, d, G.A⟩
    else do
      let d ← degreesProp e G
      return ⟨G.n, d, onesOf G.A⟩

/-- `laplacian_matrix` -- linalg/laplacianmatrix.py:27-30 -/
def laplacianMatrix (nodelist : Option (List K)) (isWeighted : Bool) :
    Prog (e.toEnv.of G) (Σ m, Mat m m F) := do
  let dA ← laplacianHelper e G nodelist isWeighted
  return ⟨dA.1, msub (diagMat dA.2.1) dA.2.2⟩

/-- `normalized_laplacian_matrix` -- linalg/laplacianmatrix.py:33-54 -/
def normalizedLaplacianMatrix (sqrt : F → F) (nodelist : Option (List K)) (isWeighted : Bool) :
    Prog (e.toEnv.of G) (Σ m, Mat m m F) := do
  let dA ← laplacianHelper e G nodelist isWeighted
  return ⟨dA.1, normLap sqrt dA.2.1 dA.2.2⟩

/-- `modularity_matrix` -- linalg/modularitymatrix.py:8-14, nxapi/linalg/modularitymatrix.py:9-13 -/
def modularityMatrix (nodelist : Option (List K)) (isWeighted : Bool) :
    Prog (e.toEnv.of G) (Σ m, Mat m m F) :=
  if G.directed || G.multi then lift (.error .notImplemented)
  else do
    let kA ← laplacianHelper e G nodelist isWeighted
    return ⟨kA.1, modBody kA.2.1 kA.2.1 kA.2.2⟩

/-- `directed_modularity_matrix` -- linalg/modularitymatrix.py:17-37, nxapi/linalg/modularitymatrix.py:16-20 -/
def directedModularityMatrix (nodelist : Option (List K)) (isWeighted : Bool) :
    Prog (e.toEnv.of G) (Σ m, Mat m m F) :=
  if !G.directed || G.multi then lift (.error .notImplemented)
  else
    match nodelist with
    | some L => lift (Model.directedModularityMatrix G (some L) isWeighted)
    | none =>
      if isWeighted then do
        let kout ← plusRowwise e G
        let kin ← get (.vec (.mon e.pl) .p .col)
        return ⟨G.n, modBody kout kin G.A⟩
      else do
        let kout ← get (.vec .count .p .row)
        let kin ← get (.vec .count .p .col)
        return ⟨G.n, modBody (asNumbers kout) (asNumbers kin) (onesOf G.A)⟩

/-- the default `r` -- linalg/bethehessianmatrix.py:14-18 -/
def betheR (r : Option F) : Prog (e.toEnv.of G) F :=
  match r with
  | some r => pure r
  | none => do
    let degrees ← degreesProp e G
    let k := (reduce (· + ·) degrees).getD 0
    let k2 := (dot (· + ·) (· * ·) degrees degrees).getD 0
    if k = 0 then lift (.error .zeroDivision) else pure (k2 / k - 1)

/-- `bethe_hessian_matrix` -- linalg/bethehessianmatrix.py:6-25, nxapi/linalg/bethehessianmatrix.py:8-12 -/
def betheHessianMatrix (r : Option F) (nodelist : Option (List K)) : Prog (e.toEnv.of G) (Σ m, Mat m m F) :=
  if G.directed || G.multi then lift (.error .notImplemented)
  else
    match nodelist with
    | some L => do
      let ids ← lift (listToIds G L)
      let r ← betheR e G r
      return ⟨ids.length, betheBody r (reduceRow (· + ·) (extract G.A ids.get ids.get)) (extract G.A ids.get ids.get)⟩
    | none => do
      let d ← plusRowwise e G
      let r ← betheR e G r
      return ⟨G.n, betheBody r d G.A⟩

end Model.Run
