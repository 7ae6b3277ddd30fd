import Verif.Model.FloatKatz

/-!
# `eigenvector_centrality` in the arithmetic of a computer

The program of `Model/PowerIter.lean` (eigenvector.py:9-33, nxapi/centrality/eigenvector.py:10-22), with every addition,
multiplication, division and sum done by an arithmetic `o` that is a parameter, as in `Model/FloatRank.lean`, and with the
square root a parameter; with exact arithmetic it is the earlier model (`float_eigenvector_exact`).  Not modelled:
infinities and NaN.
-/

open GB

namespace Model
namespace Fe

variable {K F : Type} {n : Nat} (o : Arith F)

/-- one pass of the loop -- eigenvector.py:27-29 -/
def eigStep (sqrt : F → F) (A : Mat n n F) (x : Vec n F) : Vec n F :=
  Fk.normalizeL2 o sqrt (vadd o.add x (Fr.vxm o o.mul x A))

/-- the start vector -- eigenvector.py:13-21 -/
def eigInit (nstart : Option (Vec n F)) : Except Err (Vec n F) :=
  match nstart with
  | none => .ok fun _ => some (o.div (o.nat 1) (o.nat n))
  | some s =>
    if o.isZero (Fr.vsum o s) then .error .algorithm
    else .ok (vapply (fun a => o.mul a (o.div (o.nat 1) (Fr.vsum o s))) s)

/-- `algorithms.eigenvector_centrality` -- eigenvector.py:9-33 -/
def eigV (sqrt : F → F) (A : Mat n n F) (maxIter : Int) (tol : F) (nstart : Option (Vec n F)) :
    Except Err (Vec n F) :=
  if n = 0 then .error .pointless
  else do
    let x ← eigInit o nstart
    powerIter (eigStep o sqrt A) (Fr.converged o tol) maxIter.toNat x

/-- `nx.eigenvector_centrality`: the vector under the NodeMap (without fill value)
-- nxapi/centrality/eigenvector.py:10-22 -/
def eigenvectorCentrality [DecidableEq K] (sqrt : F → F) (G : Graph K F) (maxIter : Int) (tol : F)
    (nstart : Option (List (K × F))) : Except Err (Vec G.n F) :=
  if G.multi then .error .notImplemented
  else if G.n = 0 then .error .pointless
  else do
    let x ← dictToVector? G nstart
    eigV o sqrt G.A maxIter tol x

end Fe
end Model
