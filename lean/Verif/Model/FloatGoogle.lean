import Verif.Model.FloatRank

/-!
# `google_matrix` in the arithmetic of a computer

The program of `Model/PowerIter.lean` (pagerank_alg.py:104-162 without `nodelist`, nxapi/link_analysis/pagerank_alg.py:48-63),
with every addition, subtraction, multiplication, division and sum done by an arithmetic `o` that is a parameter, as in
`Model/FloatRank.lean`; with exact arithmetic it is the earlier model (`float_google_exact`).  Not modelled: infinities and
NaN.
-/

open GB

namespace Model
namespace Fg

variable {K F : Type} {n : Nat} (o : Arith F)

/-- `f(v)` under `mask=v.V`: zero values are dropped -- pagerank_alg.py:131, 143-145 -/
def nonzero (f : F → F) (v : Vec n F) : Vec n F := fun i => (v i).bind fun a => if o.isZero a then none else some (f a)

/-- `personalization / denom` -- pagerank_alg.py:131 -/
def normPers (v : Vec n F) : Vec n F := nonzero o (fun a => o.div a (Fr.vsum o v)) v

/-- `1.0 / dangling.reduce().get(0) * dangling` -- pagerank_alg.py:143-145 -/
def normDang (v : Vec n F) : Vec n F := nonzero o (fun a => o.mul (o.div (o.nat 1) (Fr.vsum o v)) a) v

/-- the last steps -- pagerank_alg.py:153-162 -/
def gmScale (alpha : F) (A : Mat n n F) (p : F ⊕ Vec n F) : Mat n n F :=
  let scale := vapply (fun s => o.div alpha s) (Fr.rowSums o A)
  let A : Mat n n F := fun i j => ointer o.mul (scale i) (A i j)
  match Fr.scaleP o alpha p with
  | .inl c => fun i j => some ((A i j).elim c fun a => o.add a c)
  | .inr v => fun i j => omerge o.add (A i j) (v j)

/-- `google_matrix` on the matrix -- pagerank_alg.py:122-162; `emptyRows` are the rows taken to be empty -/
def gmBody (alpha : F) (A : Mat n n F) (pers dangling : Option (Vec n F)) (emptyRows : Fin n → Bool) :
    Except Err (Mat n n F) :=
  match pers with
  | none =>
    match dangling with
    | some d =>
      if (∃ i, emptyRows i) ∧ o.isZero (Fr.vsum o d) = true then .error .zeroDivision
      else .ok (gmScale o alpha (gmFill emptyRows (normDang o d) A) (.inl (o.div (o.nat 1) (o.nat n))))
    | none =>
      .ok (gmScale o alpha (gmFill emptyRows (fun _ => some (o.div (o.nat 1) (o.nat n))) A)
        (.inl (o.div (o.nat 1) (o.nat n))))
  | some s =>
    if o.isZero (Fr.vsum o s) = true then .error .zeroDivision
    else match dangling with
      | some d =>
        if (∃ i, emptyRows i) ∧ o.isZero (Fr.vsum o d) = true then .error .zeroDivision
        else .ok (gmScale o alpha (gmFill emptyRows (normDang o d) A) (.inr (normPers o s)))
      | none => .ok (gmScale o alpha (gmFill emptyRows (normPers o s) A) (.inr (normPers o s)))

/-- `nx.google_matrix(G, alpha, personalization, None, weight, dangling)`, all nodes in their order
-- pagerank_alg.py:104-162, nxapi/link_analysis/pagerank_alg.py:48-63 -/
def googleMatrix [DecidableEq K] (G : Graph K F) (alpha : F) (pers dangling : Option (List (K × F))) :
    Except Err (Mat G.n G.n F) := do
  let p ← dictToVector? G pers
  let d ← dictToVector? G (if nvals (countRow G.A) < G.n then dangling else none)
  if G.n = 0 then .ok G.A
  else gmBody o alpha G.A p d fun i => !(countRow G.A i).isSome

end Fg
end Model
