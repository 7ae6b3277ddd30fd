import Verif.Model.FloatRank

/-!
# `hits` in the arithmetic of a computer

The program of `Model/PowerIter.lean` (hits_alg.py:9-62 without `with_authority`, nxapi/link_analysis/hits_alg.py:9-22),
with every addition, multiplication, division and sum done by an arithmetic `o` that is a parameter, as in
`Model/FloatRank.lean`; with exact arithmetic it is the earlier model (`float_hits_exact`).  `max` is exact on floating
point numbers.  Not modelled: infinities and NaN.
-/

open GB

namespace Model
namespace Fh

variable {K F : Type} {n : Nat} (o : Arith F)

/-- `x *= 1.0 / denom` unless that raises ZeroDivisionError -- _helpers.py:14-17 -/
def scaleBy (denom : F) (x : Vec n F) : Vec n F :=
  if o.isZero denom then x else vapply (fun a => o.mul a (o.div (o.nat 1) denom)) x

/-- `normalize(x, "L1")` -- _helpers.py:6-7 -/
def normalizeL1 (x : Vec n F) : Vec n F := scaleBy o (Fr.vsum o x) x

/-- `normalize(x, "Linf")` -- _helpers.py:10-11 -/
def normalizeLinf [Max F] (x : Vec n F) : Vec n F := scaleBy o ((reduce max x).getD (o.nat 0)) x

/-- `plus_times(A @ v)` -/
def mxv (A : Mat n n F) (v : Vec n F) : Vec n F := fun i => Fr.fsum o fun j => ointer o.mul (A i j) (v j)

/-- the start vector -- hits_alg.py:20-25 -/
def hitsInit (nstart : Option (Vec n F)) : Except Err (Vec n F) :=
  match nstart with
  | none => .ok fun _ => some (o.div (o.nat 1) (o.nat n))
  | some s =>
    if o.isZero (Fr.vsum o s) then .error .zeroDivision
    else .ok (vapply (fun a => o.mul a (o.div (o.nat 1) (Fr.vsum o s))) s)

/-- `hprev @ A` -- hits_alg.py:46 -/
def hitsA (A : Mat n n F) (h : Vec n F) : Vec n F := Fr.vxm o o.mul h A

/-- one pass of the loop on `(h, a)` -- hits_alg.py:44-49 -/
def hitsStep [Max F] (A : Mat n n F) (s : Vec n F × Vec n F) : Vec n F × Vec n F :=
  (normalizeLinf o (mxv o A (hitsA o A s.1)), hitsA o A s.1)

/-- `algorithms.hits` -- hits_alg.py:9-62 -/
def hitsV [Max F] (A : Mat n n F) (maxIter : Int) (tol : F) (nstart : Option (Vec n F)) (normalized : Bool) :
    Except Err (Vec n F × Vec n F) :=
  if n = 0 then .ok (vempty, vempty)
  else do
    let h ← hitsInit o nstart
    let s ← powerIter (hitsStep o A) (fun s t => Fr.converged o tol s.1 t.1) maxIter.toNat (h, vempty)
    return if normalized then (normalizeL1 o s.1, normalizeL1 o s.2) else (s.1, normalizeLinf o s.2)

/-- `nx.hits` -- nxapi/link_analysis/hits_alg.py:9-22 -/
def hits [Max F] [DecidableEq K] (G : Graph K F) (maxIter : Int) (tol : F) (nstart : Option (List (K × F)))
    (normalized : Bool) : Except Err (Option (Vec G.n F × Vec G.n F)) :=
  if G.n = 0 then .ok none
  else do
    let x ← dictToVector? G nstart
    match hitsV o G.A maxIter tol x normalized with
    | .ok s => .ok (some (nodemapFill none s.1 (o.nat 0), nodemapFill none s.2 (o.nat 0)))
    | .error e => .error (if e = .convergence ∧ maxIter < 1 then .valueError else e)

end Fh
end Model
