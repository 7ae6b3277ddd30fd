import Verif.Model.Ego

/-! # algorithms/core.py, nxapi/core.py: k_truss -/

open GB

namespace Model

variable {K α : Type} {n : Nat}

/-- `C(S.S, replace) << plus_pair(S @ S.T); C << select.value(k - 2 <= C)` -- core.py:24-25 -/
def trussStep (k : Int) (S : Mat n n α) : Mat n n Nat :=
  mselect (fun c => decide (k - 2 ≤ (c : Int))) (massignR (mS S) (mxm (· + ·) pairN S (transpose S)))

/-- the `while True` loop from the point where `C` has just been computed -- core.py:23-29;
`fuel` bounds the number of passes (`kTruss` gives enough: `Props.k_truss_correct`). -/
def trussLoop (k : Int) : Nat → Mat n n Nat → Nat → Option (Mat n n Nat)
  | 0, _, _ => none
  | fuel+1, C, last =>
    if mnvals C = last then some C
    else trussLoop k fuel (trussStep k C) (mnvals C)

/-- the matrix `C` of `k_truss` -- core.py:11-29.  Values: the original weights (`inl`) when
`k < 3`, the triangle counts (`inr`) otherwise. -/
def trussMat (A : Mat n n α) (k : Int) : Except Err (Mat n n (α ⊕ Nat)) :=
  let S := offdiag A
  if k < 3 then .ok (mapply Sum.inl S)
  else match trussLoop k (mnvals S + 1) (trussStep k S) (mnvals S) with
    | none => .error .diverges
    | some C => .ok (mapply Sum.inr C)

/-- `k_truss(G, k)` -- core.py:8-37, nxapi/core.py:8-13 (conversion to a Boolean matrix is not
modelled: it changes weights only).  The result always has class `Graph`. -/
def kTruss (G : Graph K α) (k : Int) : Except Err (Graph K (α ⊕ Nat)) := do
  let C ← trussMat G.A k
  subGraph { n := G.n, A := C, keyToId := G.keyToId, directed := false, multi := false }
    (indices (reduceRow any' C))

end Model
