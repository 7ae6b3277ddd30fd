import Verif.Model.FloatRank
import Verif.Model.Cuts

/-!
# weighted `cut_size` and `volume` in the arithmetic of a computer

The same programs as in `Model/Cuts.lean` (cuts.py:18-38, nxapi/cuts.py:16-28), with every addition done by an
arithmetic `o` that is a parameter (see `Model/FloatRank.lean`).  In which order and how bracketed the entries of a
matrix are added up is left to `o.sum`.
-/

open GB

namespace Model

namespace Fc

variable {K F : Type} {m n : Nat} (o : Arith F)

/-- the stored values of a matrix -/
def mentries (A : Mat m n F) : List F := (List.finRange m).flatMap fun i => Fr.entries (A i)

/-- `A.reduce_scalar(monoid.plus).get(0)` -/
def msum (A : Mat m n F) : F := if mentries A = [] then o.nat 0 else o.sum (mentries A)

/-- `cut_size(G, S, T, is_weighted=True)` -- cuts.py:18-30 -/
def cutSizeW (directed : Bool) (A : Mat n n F) (S : Vec n Bool) (T : Option (Vec n Bool)) : Except Err F :=
  let rv := msum o (edgeBoundaryW A S T)
  if directed then
    match T with
    | none => .error .typeError
    | some t => .ok (o.add rv (msum o (edgeBoundaryW A t (some S))))
  else .ok rv

/-- `volume(G, S, weighted=True)` -- cuts.py:33-38 -/
def volumeW (A : Mat n n F) (S : Vec n Bool) : F :=
  Fr.vsum o fun i => Fr.fsum o fun j => ointer first (A i j) (S j)

variable [DecidableEq K]

/-- `nx.cut_size(G, S, T, weight="weight")` -- nxapi/cuts.py:16-21 -/
def cutSizeWeighted (G : Graph K F) (S : List K) (T : Option (List K)) : Except Err F := do
  let s ← setToVector G S true
  let t ← setToVector? G T
  cutSizeW o G.directed G.A s t

/-- `nx.volume(G, S, weight="weight")` -- nxapi/cuts.py:24-28 -/
def volumeWeighted (G : Graph K F) (S : List K) : Except Err F := do
  let s ← listToVector G S
  return volumeW o G.A s

end Fc

end Model
