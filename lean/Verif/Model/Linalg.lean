import Verif.Model.PowerIter

/-!
# linalg/: adjacency, Laplacian, modularity and Bethe-Hessian matrices

Entries are elements of a field (no dtypes).  `sqrt` is a parameter.  Division by zero inside GraphBLAS
(infinities) is not modelled; the theorems exclude it.
-/

open GB

namespace Model

variable {K F : Type} {m n : Nat}

section
variable [CommRing F]

/-- `unary.one(A)` -/
def onesOf (A : Mat m n F) : Mat m n F := mapply (fun _ => 1) A

/-- `A << unary.one(A)` unless weighted -/
def oneUnless (isWeighted : Bool) (A : Mat m n F) : Mat m n F := if isWeighted then A else onesOf A

/-- `D - A`: `ewise_union` with 0 for missing operands -/
def msub (A B : Mat m n F) : Mat m n F := munion (· - ·) 0 0 A B

/-- `u.outer(v)` -/
def outer (u : Vec m F) (v : Vec n F) : Mat m n F := fun i j => ointer (· * ·) (u i) (v j)

/-- the counts of `countRow` as numbers -/
def degreesF (A : Mat n n F) : Vec n F := vapply (fun (d : Nat) => (d : F)) (countRow A)

/-- `degrees+` of a Graph; a DiGraph has no such property (no alias, digraph.py:509-514; the name matches
nothing in `AutoDict.__missing__`, digraph.py:415-441) -/
def degreesProp (G : Graph K F) : Except Err (Vec G.n F) :=
  if G.directed then .error .keyError else .ok (degreesF G.A)

section
variable [DecidableEq K]

/-- `linalg.adjacency_matrix` -- linalg/graphmatrix.py:6-19, nxapi/linalg/graphmatrix.py:7-9 -/
def adjacencyMatrix (G : Graph K F) (nodelist : Option (List K)) (isWeighted : Bool) :
    Except Err (Σ m, Mat m m F) :=
  match nodelist with
  | none => .ok ⟨G.n, oneUnless (G.multi || isWeighted) G.A⟩
  | some L => do
    let ids ← listToIds G L
    return ⟨ids.length, oneUnless (G.multi || isWeighted) (extract G.A ids.get ids.get)⟩

/-- `_laplacian_helper` -- linalg/laplacianmatrix.py:9-24 -/
def laplacianHelper (G : Graph K F) (nodelist : Option (List K)) (isWeighted : Bool) :
    Except Err (Σ m, Vec m F × Mat m m F) :=
  match nodelist with
  | some L => do
    let ids ← listToIds G L
    let A := oneUnless (G.multi || isWeighted) (extract G.A ids.get ids.get)
    return ⟨ids.length, reduceRow (· + ·) A, A⟩
  | none =>
    if G.multi || isWeighted then .ok ⟨G.n, reduceRow (· + ·) G.A, G.A⟩
    else do
      let d ← degreesProp G
      return ⟨G.n, d, onesOf G.A⟩

/-- `laplacian_matrix` -- linalg/laplacianmatrix.py:27-30 -/
def laplacianMatrix (G : Graph K F) (nodelist : Option (List K)) (isWeighted : Bool) :
    Except Err (Σ m, Mat m m F) := do
  let dA ← laplacianHelper G nodelist isWeighted
  return ⟨dA.1, msub (diagMat dA.2.1) dA.2.2⟩

end

end

variable [Field F]

section
variable [DecidableEq K]

/-- the computation of `normalized_laplacian_matrix` -- linalg/laplacianmatrix.py:37-54 -/
def normLap (sqrt : F → F) (d : Vec n F) (A : Mat n n F) : Mat n n F :=
  let dInvsqrt := vapply (fun x => 1 / x) (vapply sqrt d)
  let W := massignR (mS A) (outer dInvsqrt dInvsqrt)
  let W := mmul (· * ·) W A
  msub (diagMat (vapply (fun _ => (1 : F)) dInvsqrt)) W

/-- `normalized_laplacian_matrix` -- linalg/laplacianmatrix.py:33-54 -/
def normalizedLaplacianMatrix (sqrt : F → F) (G : Graph K F) (nodelist : Option (List K))
    (isWeighted : Bool) : Except Err (Σ m, Mat m m F) := do
  let dA ← laplacianHelper G nodelist isWeighted
  return ⟨dA.1, normLap sqrt dA.2.1 dA.2.2⟩

/-- `X = kout.outer(kin) / m; A - X` with `m = kout.reduce().get(0)` -- linalg/modularitymatrix.py:10-14, 33-37 -/
def modBody (kout kin : Vec n F) (A : Mat n n F) : Mat n n F :=
  msub A (mapply (fun x => x / (reduce (· + ·) kout).getD 0) (outer kout kin))

/-- `modularity_matrix` -- linalg/modularitymatrix.py:8-14, nxapi/linalg/modularitymatrix.py:9-13 -/
def modularityMatrix (G : Graph K F) (nodelist : Option (List K)) (isWeighted : Bool) :
    Except Err (Σ m, Mat m m F) :=
  if G.directed || G.multi then .error .notImplemented
  else do
    let kA ← laplacianHelper G nodelist isWeighted
    return ⟨kA.1, modBody kA.2.1 kA.2.1 kA.2.2⟩

/-- `directed_modularity_matrix` -- linalg/modularitymatrix.py:17-37, nxapi/linalg/modularitymatrix.py:16-20 -/
def directedModularityMatrix (G : Graph K F) (nodelist : Option (List K)) (isWeighted : Bool) :
    Except Err (Σ m, Mat m m F) :=
  if !G.directed || G.multi then .error .notImplemented
  else
    match nodelist with
    | some L => do
      let ids ← listToIds G L
      let A := oneUnless isWeighted (extract G.A ids.get ids.get)
      return ⟨ids.length, modBody (reduceRow (· + ·) A) (reduceCol (· + ·) A) A⟩
    | none =>
      if isWeighted then .ok ⟨G.n, modBody (reduceRow (· + ·) G.A) (reduceCol (· + ·) G.A) G.A⟩
      else .ok ⟨G.n, modBody (degreesF G.A) (degreesF (transpose G.A)) (onesOf G.A)⟩

/-- the default `r` -- linalg/bethehessianmatrix.py:14-18 -/
def betheR [DecidableEq F] (G : Graph K F) (r : Option F) : Except Err F :=
  match r with
  | some r => .ok r
  | none => do
    let degrees ← degreesProp G
    let k := (reduce (· + ·) degrees).getD 0
    let k2 := (dot (· + ·) (· * ·) degrees degrees).getD 0
    if k = 0 then .error .zeroDivision else .ok (k2 / k - 1)

/-- `ri = full(r²-1); ri += d; rI = diag(ri); rI(plus) << -r * A`
-- linalg/bethehessianmatrix.py:19-25 -/
def betheBody (r : F) (d : Vec n F) (A : Mat n n F) : Mat n n F :=
  let ri : Vec n F := vadd (· + ·) (fun _ => some (r ^ 2 - 1)) d
  madd (· + ·) (diagMat ri) (mapply (fun a => -r * a) A)

/-- `bethe_hessian_matrix` -- linalg/bethehessianmatrix.py:6-25, nxapi/linalg/bethehessianmatrix.py:8-12 -/
def betheHessianMatrix [DecidableEq F] (G : Graph K F) (r : Option F) (nodelist : Option (List K)) :
    Except Err (Σ m, Mat m m F) :=
  if G.directed || G.multi then .error .notImplemented
  else
    match nodelist with
    | some L => do
      let ids ← listToIds G L
      let A := extract G.A ids.get ids.get
      let r ← betheR G r
      return ⟨ids.length, betheBody r (reduceRow (· + ·) A) A⟩
    | none => do
      let r ← betheR G r
      return ⟨G.n, betheBody r (reduceRow (· + ·) G.A) G.A⟩

end
end Model
