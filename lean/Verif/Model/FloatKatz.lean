import Verif.Model.FloatRank

/-!
# `katz_centrality` in the arithmetic of a computer

The program of `Model/PowerIter.lean` (katz.py:11-55, nxapi/centrality/katz.py:11-40), with every addition,
multiplication, division and sum done by an arithmetic `o` that is a parameter, as in `Model/FloatRank.lean`; with exact
arithmetic it is the earlier model (`float_katz_exact`).  Not modelled: infinities and NaN.
-/

open GB

namespace Model
namespace Fk

variable {K F : Type} {n : Nat} (o : Arith F)

/-- `normalize(x, "L2")` -- _helpers.py:8-9, 14-17; `sqrt` is `_ ** 0.5` -/
def normalizeL2 (sqrt : F → F) (x : Vec n F) : Vec n F :=
  let denom := sqrt (Fr.dot o o.mul x x)
  if o.isZero denom then x else vapply (fun a => o.mul a (o.div (o.nat 1) denom)) x

/-- `x += b` for a Scalar `b`; whether positions without an entry receive `b` too is left open, as in
`Model/PowerIter.lean` -/
def addScalar (fill : Bool) (b : F) (x : Vec n F) : Vec n F :=
  fun i => match x i with
    | some a => some (o.add a b)
    | none => if fill then some b else none

/-- `x += b` -- katz.py:50 -/
def katzAdd (fill : Bool) (b : F ⊕ Vec n F) (x : Vec n F) : Vec n F :=
  match b with
  | .inl c => addScalar o fill c x
  | .inr v => vadd o.add x v

/-- `alpha *= iso_value.get(1.0)` -- katz.py:35-40 -/
def katzAlpha (iso : Option F) (alpha : F) : F :=
  match iso with
  | none => alpha
  | some c => o.mul alpha c

/-- one pass of the loop -- katz.py:47-50 -/
def katzStep (fill : Bool) (A : Mat n n F) (iso : Option F) (alpha : F) (b : F ⊕ Vec n F) (xprev : Vec n F) :
    Vec n F :=
  katzAdd o fill b (vapply (fun a => o.mul a (katzAlpha o iso alpha)) (Fr.vxm o (Fr.semiringMul o iso) xprev A))

/-- the start vector -- katz.py:22-26 -/
def katzInit (nstart : Option (Vec n F)) : Vec n F :=
  match nstart with
  | none => fun _ => some (o.nat 0)
  | some s => s

/-- `algorithms.katz_centrality` -- katz.py:11-55 -/
def katzV (fill : Bool) (sqrt : F → F) (A : Mat n n F) (iso : Option F) (alpha : F) (beta : F ⊕ Vec n F)
    (maxIter : Int) (tol : F) (nstart : Option (Vec n F)) (normalized : Bool) : Except Err (Vec n F) := do
  katzCheck beta
  let x ← powerIter (katzStep o fill A iso alpha beta) (Fr.converged o tol) maxIter.toNat (katzInit o nstart)
  return if normalized then normalizeL2 o sqrt x else x

/-- `nx.katz_centrality` -- nxapi/centrality/katz.py:11-40.  `some v`: the vector under the NodeMap (without fill
value); `none`: the empty dict -/
def katzCentrality [DecidableEq K] (fill : Bool) (sqrt : F → F) (G : Graph K F) (iso : Option F) (alpha : F)
    (beta : F ⊕ List (K × F)) (maxIter : Int) (tol : F) (nstart : Option (List (K × F)))
    (normalized : Bool) : Except Err (Option (Vec G.n F)) :=
  if G.multi then .error .notImplemented
  else if G.n = 0 then .ok none
  else do
    let x ← dictToVector? G nstart
    let b ← katzBeta G beta
    (katzV o fill sqrt G.A iso alpha b maxIter tol x normalized).map some

end Fk
end Model
