import Verif.Model.Small
import Mathlib.Algebra.Field.Defs
import Mathlib.Algebra.Order.Group.Unbundled.Abs

/-!
# Power iterations: pagerank, google_matrix, katz_centrality, eigenvector_centrality, hits

Numbers are elements of a linearly ordered field: exact arithmetic, not floats.  Division by zero in
Python float arithmetic raises (modelled); inside GraphBLAS it gives infinities (not modelled: the
theorems exclude it).  The iso value reported by SuiteSparse is a parameter.
-/

open GB

namespace Model

variable {K F : Type} {n : Nat}

/-! ## _helpers.py -/

section
variable [Field F] [LinearOrder F]

/-- `x.reduce().get(0)` -/
def vsum (x : Vec n F) : F := (reduce (· + ·) x).getD 0

/-- `is_converged(xprev, x, tol)` -- _helpers.py:21-29 -/
def isConverged (tol : F) (xprev x : Vec n F) : Bool :=
  decide (vsum (vapply abs (vadd (· - ·) xprev x)) < n * tol)

/-- `x *= 1.0 / denom`, skipped when `denom` is 0 -- _helpers.py:14-17 -/
def scaleBy (denom : F) (x : Vec n F) : Vec n F :=
  if denom = 0 then x else vapply (fun a => a * (1 / denom)) x

/-- `normalize(x, "L1")` -- _helpers.py:6-7 -/
def normalizeL1 (x : Vec n F) : Vec n F := scaleBy (vsum x) x
/-- `normalize(x, "L2")` -- _helpers.py:8-9; `sqrt` is `_ ** 0.5` -/
def normalizeL2 (sqrt : F → F) (x : Vec n F) : Vec n F :=
  scaleBy (sqrt ((dot (· + ·) (· * ·) x x).getD 0)) x
/-- `normalize(x, "Linf")` -- _helpers.py:10-11 -/
def normalizeLinf (x : Vec n F) : Vec n F := scaleBy ((reduce max x).getD 0) x

end

/-- `for _i in range(max_iter): x_new = step(x); if converged: return` and the ConvergenceFailure
at the end -/
def powerIter {σ : Type} (step : σ → σ) (conv : σ → σ → Bool) : Nat → σ → Except Err σ
  | 0, _ => .error .convergence
  | k + 1, x => if conv x (step x) then .ok (step x) else powerIter step conv k (step x)

section
variable [Field F] [LinearOrder F]

/-! ## pagerank -/

/-- the initial vector -- pagerank_alg.py:29-36 -/
def prInit (nstart : Option (Vec n F)) : Except Err (Vec n F) :=
  match nstart with
  | none => .ok fun _ => some (1 / n)
  | some s => if vsum s = 0 then .error .zeroDivision else .ok (vapply (fun a => a / vsum s) s)

/-- `p`: a number or a vector -- pagerank_alg.py:39-45 -/
def prP (pers : Option (Vec n F)) : Except Err (F ⊕ Vec n F) :=
  match pers with
  | none => .ok (.inl (1 / n))
  | some s => if vsum s = 0 then .error .zeroDivision else .ok (.inr (vapply (fun a => a / vsum s) s))

/-- `S`: alpha over the row sums, with the iso value folded in -- pagerank_alg.py:49-57 -/
def prS (alpha : F) (rowDegrees : Vec n F) (iso : Option F) : Vec n F :=
  let S := vapply (fun d => alpha / d) rowDegrees
  match iso with
  | none => S
  | some c => if c ≠ 1 then vapply (fun s => s * c) S else S

/-- the semiring multiplication: `plus_first` for an iso-valued matrix -- pagerank_alg.py:53-60 -/
def prMul (iso : Option F) : F → F → F :=
  match iso with
  | none => (· * ·)
  | some _ => first

/-- what the loop reads -/
structure PRCfg (n : Nat) (F : Type) where
  S : Vec n F
  mul : F → F → F
  /-- `dangling_mask`, when there are dangling nodes -/
  mask : Option (Vec n F)
  /-- `dangling_weights`, absent in the fast case -/
  dw : Option (Vec n F)
  /-- `p`, already multiplied by `1 - alpha` -/
  p : F ⊕ Vec n F

/-- `dangling_mask(mask=~S.S) << 1.0` -- pagerank_alg.py:64-65 -/
def prMask (S : Vec n F) : Vec n F := vassignC (vnot (vS S)) vempty 1

/-- `dangling_mask` and `dangling_weights` -- pagerank_alg.py:62-75 -/
def prDangling (alpha : F) (S : Vec n F) (p : F ⊕ Vec n F) (dangling : Option (Vec n F)) :
    Except Err (Option (Vec n F) × Option (Vec n F)) :=
  if nvals S < n then
    match dangling, p with
    | some d, _ =>
      if vsum d = 0 then .error .zeroDivision
      else .ok (some (prMask S), some (vapply (fun a => alpha / vsum d * a) d))
    | none, .inl c => .ok (some (vassignC (vS (prMask S)) (prMask S) (alpha * c)), none)
    | none, .inr v => .ok (some (prMask S), some (vapply (fun a => alpha * a) v))
  else .ok (none, none)

/-- `p *= 1 - alpha` -- pagerank_alg.py:78 -/
def prScaleP (alpha : F) (p : F ⊕ Vec n F) : F ⊕ Vec n F :=
  match p with
  | .inl c => .inl (c * (1 - alpha))
  | .inr v => .inr (vapply (fun a => a * (1 - alpha)) v)

/-- `x << p` -- pagerank_alg.py:87 -/
def prBase (p : F ⊕ Vec n F) : Vec n F :=
  match p with
  | .inl c => fun _ => some c
  | .inr v => v

/-- `x += ...` for the dangling nodes -- pagerank_alg.py:88-94.  In the fast case a number is added to
every stored entry of `x` (all are stored); an empty inner product counts as 0. -/
def prAddDangling (c : PRCfg n F) (xprev x : Vec n F) : Vec n F :=
  match c.mask with
  | none => x
  | some m =>
    match c.dw with
    | none => vapply (fun a => a + (dot (· + ·) (· * ·) xprev m).getD 0) x
    | some d => vadd (· + ·) x (vapply (fun a => (dot (· + ·) first xprev m).getD 0 * a) d)

/-- one pass of the loop -- pagerank_alg.py:83-100 -/
def prStep (A : Mat n n F) (c : PRCfg n F) (xprev : Vec n F) : Vec n F :=
  let x := prAddDangling c xprev (prBase c.p)
  let w := vmul (· * ·) xprev c.S
  vadd (· + ·) x (vxm (· + ·) c.mul w A)

/-- `algorithms.pagerank` -- pagerank_alg.py:12-101 -/
def pagerankV (A : Mat n n F) (iso : Option F) (alpha : F) (pers : Option (Vec n F)) (maxIter : Int)
    (tol : F) (nstart dangling : Option (Vec n F)) : Except Err (Vec n F) :=
  if mnvals A = 0 then .ok vempty
  else do
    let x ← prInit nstart
    let p ← prP pers
    let S := prS alpha (reduceRow (· + ·) A) iso
    let md ← prDangling alpha S p dangling
    powerIter (prStep A { S := S, mul := prMul iso, mask := md.1, dw := md.2, p := prScaleP alpha p })
      (isConverged tol) maxIter.toNat x

variable [DecidableEq K]

/-- `G.dict_to_vector(d)` where None stays None -- _utils.py:58-65 -/
def dictToVector? {β : Type} (G : Graph K F) (d : Option (List (K × β))) :
    Except Err (Option (Vec G.n β)) :=
  match d with
  | none => .ok none
  | some d => (dictToVector G d).map some

/-- `nx.pagerank` -- nxapi/link_analysis/pagerank_alg.py:9-45.  `some v`: what the returned NodeMap (fill
value 0) holds at each row; `none`: the empty dict -/
def pagerank (G : Graph K F) (iso : Option F) (alpha : F) (pers : Option (List (K × F))) (maxIter : Int)
    (tol : F) (nstart dangling : Option (List (K × F))) : Except Err (Option (Vec G.n F)) :=
  if G.n = 0 then .ok none
  else do
    let x ← dictToVector? G nstart
    let p ← dictToVector? G pers
    let d ← dictToVector? G (if nvals (reduceRow (· + ·) G.A) < G.n then dangling else none)
    (pagerankV G.A iso alpha p maxIter tol x d).map fun v => some (nodemapFill none v 0)

/-! ## google_matrix -/

/-- `(v / denom).new(mask=v.V)`: zero values are dropped -- pagerank_alg.py:131, 143-145 -/
def normNonzero (v : Vec n F) : Vec n F :=
  fun i => if (v i).getD 0 = 0 then none else (v i).map fun a => a / vsum v

/-- the fill of empty rows -- pagerank_alg.py:138-151 (`first(B | A)`: union, `B` wins) -/
def gmFill (emptyRows : Fin n → Bool) (fill : Fin n → Option F) (A : Mat n n F) : Mat n n F :=
  fun i j => omerge first (if emptyRows i then fill j else none) (A i j)

/-- the last steps -- pagerank_alg.py:153-162 -/
def gmScale (alpha : F) (A : Mat n n F) (p : F ⊕ Vec n F) : Mat n n F :=
  let scale := vapply (fun s => alpha / s) (reduceRow (· + ·) A)
  let A : Mat n n F := fun i j => ointer (· * ·) (scale i) (A i j)
  match prScaleP alpha p with
  | .inl c => fun i j => some ((A i j).elim c fun a => a + c)
  | .inr v => fun i j => omerge (· + ·) (A i j) (v j)

/-- `google_matrix` after selection of the nodes -- pagerank_alg.py:122-162; `emptyRows` are the rows
taken to be empty -/
def gmBody (alpha : F) (A : Mat n n F) (pers dangling : Option (Vec n F)) (emptyRows : Fin n → Bool) :
    Except Err (Mat n n F) :=
  match pers with
  | none =>
    match dangling with
    | some d =>
      if (∃ i, emptyRows i) ∧ vsum d = 0 then .error .zeroDivision
      else .ok (gmScale alpha (gmFill emptyRows (normNonzero d) A) (.inl (1 / n)))
    | none => .ok (gmScale alpha (gmFill emptyRows (fun _ => some (1 / n)) A) (.inl (1 / n)))
  | some s =>
    if vsum s = 0 then .error .zeroDivision
    else match dangling with
      | some d =>
        if (∃ i, emptyRows i) ∧ vsum d = 0 then .error .zeroDivision
        else .ok (gmScale alpha (gmFill emptyRows (normNonzero d) A) (.inr (normNonzero s)))
      | none => .ok (gmScale alpha (gmFill emptyRows (normNonzero s) A) (.inr (normNonzero s)))

/-- `nx.google_matrix(G, alpha, personalization, None, weight, dangling)`, all nodes in their order
-- pagerank_alg.py:104-162, nxapi/link_analysis/pagerank_alg.py:48-63.  The property `any_rowwise+` is used
through its pattern only. -/
def googleMatrix (G : Graph K F) (alpha : F) (pers dangling : Option (List (K × F))) :
    Except Err (Mat G.n G.n F) := do
  let p ← dictToVector? G pers
  let d ← dictToVector? G (if nvals (countRow G.A) < G.n then dangling else none)
  if G.n = 0 then .ok G.A
  else gmBody alpha G.A p d fun i => !(countRow G.A i).isSome

/-- the rows taken to be empty when there is a node list: the property of the whole graph, in the order
of the graph, when the list is as long as the graph -- pagerank_alg.py:133-136, 140 -/
def gmEmptyRows (A : Mat n n F) (ids : List (Fin n)) (i : Fin ids.length) : Bool :=
  if h : ids.length = n then !(countRow A (Fin.cast h i)).isSome
  else !(countRow (extract A ids.get ids.get) i).isSome

/-- `nx.google_matrix(G, alpha, personalization, nodelist, weight, dangling)`
-- pagerank_alg.py:104-162, nxapi/link_analysis/pagerank_alg.py:48-63 -/
def googleMatrixList (G : Graph K F) (alpha : F) (pers : Option (List (K × F))) (nodelist : List K)
    (dangling : Option (List (K × F))) : Except Err (Σ m, Mat m m F) := do
  let p ← dictToVector? G pers
  let d ← dictToVector? G (if nvals (countRow G.A) < G.n then dangling else none)
  let ids ← listToIds G nodelist
  let A := extract G.A ids.get ids.get
  if ids.length = 0 then .ok ⟨ids.length, A⟩
  else (gmBody alpha A (p.map fun v => fun i => v (ids.get i)) (d.map fun v => fun i => v (ids.get i))
    (gmEmptyRows G.A ids)).map fun M => ⟨ids.length, M⟩

/-! ## katz -/

omit [Field F] [LinearOrder F] [DecidableEq K] in
/-- `x += b` for a Scalar `b`.  Whether positions without an entry receive `b` too is a matter of the
library (`fill`); the theorems hold for both readings. -/
def addScalar [Add F] (fill : Bool) (b : F) (x : Vec n F) : Vec n F :=
  fun i => match x i with
    | some a => some (a + b)
    | none => if fill then some b else none

/-- `x += b` -/
def katzAdd (fill : Bool) (b : F ⊕ Vec n F) (x : Vec n F) : Vec n F :=
  match b with
  | .inl c => addScalar fill c x
  | .inr v => vadd (· + ·) x v

/-- `alpha *= iso_value.get(1.0)` -- katz.py:35-40 -/
def katzAlpha (iso : Option F) (alpha : F) : F :=
  match iso with
  | none => alpha
  | some c => alpha * c

/-- one pass of the loop -- katz.py:47-50, the iso value folded in as in 35-40 -/
def katzStep (fill : Bool) (A : Mat n n F) (iso : Option F) (alpha : F) (b : F ⊕ Vec n F) (xprev : Vec n F) :
    Vec n F :=
  katzAdd fill b (vapply (fun a => a * katzAlpha iso alpha) (vxm (· + ·) (prMul iso) xprev A))

/-- the start vector -- katz.py:22-26 -/
def katzInit (nstart : Option (Vec n F)) : Vec n F :=
  match nstart with
  | none => fun _ => some 0
  | some s => s

/-- the check of `beta` -- katz.py:27-32 -/
def katzCheck (beta : F ⊕ Vec n F) : Except Err Unit :=
  match beta with
  | .inl _ => .ok ()
  | .inr v => if nvals v ≠ n then .error .algorithm else .ok ()

/-- `algorithms.katz_centrality` -- katz.py:11-55 -/
def katzV (fill : Bool) (sqrt : F → F) (A : Mat n n F) (iso : Option F) (alpha : F) (beta : F ⊕ Vec n F)
    (maxIter : Int) (tol : F) (nstart : Option (Vec n F)) (normalized : Bool) : Except Err (Vec n F) := do
  katzCheck beta
  let x ← powerIter (katzStep fill A iso alpha beta) (isConverged tol) maxIter.toNat (katzInit nstart)
  return if normalized then normalizeL2 sqrt x else x

/-- `beta` of `nx.katz_centrality`: a number or a dict -- nxapi/centrality/katz.py:25-28 -/
def katzBeta (G : Graph K F) (beta : F ⊕ List (K × F)) : Except Err (F ⊕ Vec G.n F) :=
  match beta with
  | .inl c => .ok (.inl c)
  | .inr d =>
    match dictToVector G d with
    | .ok v => .ok (.inr v)
    | .error e => .error (if e = .valueError then .algorithm else e)

/-- `nx.katz_centrality` -- nxapi/centrality/katz.py:11-40.  `some v`: the vector under the NodeMap (without
fill value); `none`: the empty dict -/
def katzCentrality (fill : Bool) (sqrt : F → F) (G : Graph K F) (iso : Option F) (alpha : F)
    (beta : F ⊕ List (K × F)) (maxIter : Int) (tol : F) (nstart : Option (List (K × F)))
    (normalized : Bool) : Except Err (Option (Vec G.n F)) :=
  if G.multi then .error .notImplemented
  else if G.n = 0 then .ok none
  else do
    let x ← dictToVector? G nstart
    let b ← katzBeta G beta
    (katzV fill sqrt G.A iso alpha b maxIter tol x normalized).map some

/-! ## eigenvector centrality -/

/-- one pass of the loop -- eigenvector.py:27-29 -/
def eigStep (sqrt : F → F) (A : Mat n n F) (x : Vec n F) : Vec n F :=
  normalizeL2 sqrt (vadd (· + ·) x (vxm (· + ·) (· * ·) x A))

/-- the start vector -- eigenvector.py:13-21 -/
def eigInit (nstart : Option (Vec n F)) : Except Err (Vec n F) :=
  match nstart with
  | none => .ok fun _ => some (1 / n)
  | some s => if vsum s = 0 then .error .algorithm else .ok (vapply (fun a => a * (1 / vsum s)) s)

/-- `algorithms.eigenvector_centrality` -- eigenvector.py:9-33 -/
def eigV (sqrt : F → F) (A : Mat n n F) (maxIter : Int) (tol : F) (nstart : Option (Vec n F)) :
    Except Err (Vec n F) :=
  if n = 0 then .error .pointless
  else do
    let x ← eigInit nstart
    powerIter (eigStep sqrt A) (isConverged tol) maxIter.toNat x

/-- `nx.eigenvector_centrality`: the vector under the NodeMap (without fill value)
-- nxapi/centrality/eigenvector.py:10-22 -/
def eigenvectorCentrality (sqrt : F → F) (G : Graph K F) (maxIter : Int) (tol : F)
    (nstart : Option (List (K × F))) : Except Err (Vec G.n F) :=
  if G.multi then .error .notImplemented
  else if G.n = 0 then .error .pointless
  else do
    let x ← dictToVector? G nstart
    eigV sqrt G.A maxIter tol x

/-! ## hits -/

/-- the start vector -- hits_alg.py:20-25 -/
def hitsInit (nstart : Option (Vec n F)) : Except Err (Vec n F) :=
  match nstart with
  | none => .ok fun _ => some (1 / n)
  | some s => if vsum s = 0 then .error .zeroDivision else .ok (vapply (fun a => a * (1 / vsum s)) s)

/-- `hprev @ A` -- hits_alg.py:46 -/
def hitsA (A : Mat n n F) (h : Vec n F) : Vec n F := vxm (· + ·) (· * ·) h A

/-- one pass of the loop on `(h, a)` -- hits_alg.py:44-49 -/
def hitsStep (A : Mat n n F) (s : Vec n F × Vec n F) : Vec n F × Vec n F :=
  (normalizeLinf (mxv (· + ·) (· * ·) A (hitsA A s.1)), hitsA A s.1)

/-- `algorithms.hits(G, max_iter, tol, nstart, normalized)`: `(h, a)` -- hits_alg.py:9-62 (without
`with_authority`, see `hitsAuthV`) -/
def hitsV (A : Mat n n F) (maxIter : Int) (tol : F) (nstart : Option (Vec n F)) (normalized : Bool) :
    Except Err (Vec n F × Vec n F) :=
  if n = 0 then .ok (vempty, vempty)
  else do
    let h ← hitsInit nstart
    let s ← powerIter (hitsStep A) (fun s t => isConverged tol s.1 t.1) maxIter.toNat (h, vempty)
    return if normalized then (normalizeL1 s.1, normalizeL1 s.2) else (s.1, normalizeLinf s.2)

/-- `ATA = (A.T @ A).new()` -- hits_alg.py:30 -/
def authMatrix (A : Mat n n F) : Mat n n F := mxm (· + ·) (· * ·) (transpose A) A

/-- one pass of the loop on `a` -- hits_alg.py:33-35 -/
def hitsAuthStep (A : Mat n n F) (a : Vec n F) : Vec n F :=
  normalizeLinf (mxv (· + ·) (· * ·) (authMatrix A) a)

/-- `algorithms.hits(..., with_authority=True)`: `(h, a)`; the start vector is used for the authorities
-- hits_alg.py:9-41, 53-62 -/
def hitsAuthV (A : Mat n n F) (maxIter : Int) (tol : F) (nstart : Option (Vec n F)) (normalized : Bool) :
    Except Err (Vec n F × Vec n F) :=
  if n = 0 then .ok (vempty, vempty)
  else do
    let x ← hitsInit nstart
    let a ← powerIter (hitsAuthStep A) (isConverged tol) maxIter.toNat x
    let h := mxv (· + ·) (· * ·) A a
    return if normalized then (normalizeL1 h, normalizeL1 a) else (normalizeLinf h, a)

/-- `algorithms.hits(G, ..., nstart=G.dict_to_vector(d), with_authority=True)`: the two vectors
-- hits_alg.py:9-62, _utils.py:58-65 -/
def hitsAuthority (G : Graph K F) (maxIter : Int) (tol : F) (nstart : Option (List (K × F)))
    (normalized : Bool) : Except Err (Vec G.n F × Vec G.n F) := do
  let x ← dictToVector? G nstart
  hitsAuthV G.A maxIter tol x normalized

/-- `nx.hits(G, max_iter, tol, nstart, normalized)`: what the two NodeMaps (fill value 0) hold, or two
empty dicts -- nxapi/link_analysis/hits_alg.py:9-22 -/
def hits (G : Graph K F) (maxIter : Int) (tol : F) (nstart : Option (List (K × F)))
    (normalized : Bool) : Except Err (Option (Vec G.n F × Vec G.n F)) :=
  if G.n = 0 then .ok none
  else do
    let x ← dictToVector? G nstart
    match hitsV G.A maxIter tol x normalized with
    | .ok s => .ok (some (nodemapFill none s.1 0, nodemapFill none s.2 0))
    | .error e => .error (if e = .convergence ∧ maxIter < 1 then .valueError else e)

end

/-! ## degree centralities -/

/-- `_degree_centrality` -- degree_alg.py:6-14 -/
def degreeCentralityV [Field F] (degrees : Vec n Nat) : Vec n F :=
  if n ≤ 1 then fun _ => some 1
  else vapply (fun d : Nat => (1 / ((n : F) - 1)) * (d : F)) degrees

/-- `nx.degree_centrality(G)`: the NodeMap with fill value 0 -- degree_alg.py:17-22,
nxapi/centrality/degree_alg.py:8-11 -/
def degreeCentrality [Field F] {α : Type} (G : Graph K α) : Vec G.n F :=
  nodemapFill none (degreeCentralityV (degreesP G)) 0

/-- `nx.in_degree_centrality(G)` -- degree_alg.py:25-27 -/
def inDegreeCentrality [Field F] {α : Type} (G : Graph K α) : Except Err (Vec G.n F) :=
  if G.directed = false then .error .notImplemented
  else .ok (nodemapFill none (degreeCentralityV (countRow (transpose G.A))) 0)

/-- `nx.out_degree_centrality(G)` -- degree_alg.py:30-32 -/
def outDegreeCentrality [Field F] {α : Type} (G : Graph K α) : Except Err (Vec G.n F) :=
  if G.directed = false then .error .notImplemented
  else .ok (nodemapFill none (degreeCentralityV (countRow G.A)) 0)

end Model
