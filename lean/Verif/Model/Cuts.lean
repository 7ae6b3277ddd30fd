import Verif.Model.Convert
import Mathlib.Data.Rat.Defs
import Mathlib.Algebra.Field.Rat

/-!
# algorithms/boundary.py, cuts.py, dominating.py and their nxapi wrappers

The property `row_degrees+` is read fresh.  NetworkX graphs with attribute
dictionaries and multigraphs: `Model/Multi.lean`.  Quotients are exact rationals.
-/

open GB

namespace Model

variable {K α : Type} {n : Nat}

/-- the column filter of `edge_boundary`: `nbunch2`, or `row_degrees+` outside `nbunch1` (only its
pattern is used) -- boundary.py:12-15 -/
def boundaryCols (A : Mat n n α) (S : Vec n Bool) (T : Option (Vec n Bool)) : Vec n Bool :=
  match T with
  | some t => t
  | none => vapply (fun _ => true) (vassignR (vnot (vS S)) (countRow A))

/-- `edge_boundary(G, S, T)` unweighted -- boundary.py:7-20 -/
def edgeBoundaryU (A : Mat n n α) (S : Vec n Bool) (T : Option (Vec n Bool)) : Mat n n Nat :=
  let B : Mat n n Nat := fun i j => ointer pairN (S i) (A i j)
  fun i j => ointer pairN (B i j) (boundaryCols A S T j)

/-- `edge_boundary(G, S, T, is_weighted=True)` -- boundary.py:7-20 -/
def edgeBoundaryW (A : Mat n n α) (S : Vec n Bool) (T : Option (Vec n Bool)) : Mat n n α :=
  let B : Mat n n α := fun i j => ointer second (S i) (A i j)
  fun i j => ointer first (B i j) (boundaryCols A S T j)

/-- `node_boundary(G, S, mask=mask)` -- boundary.py:23-29 -/
def nodeBoundaryV (A : Mat n n α) (S : Vec n Bool) (T : Option (Vec n Bool)) : Vec n Bool :=
  let mask : VMask n := match T with
    | none => vnot (vS S)
    | some t => fun i => vS t i && vnot (vS S) i
  vassignR mask (vxm any' pairB S A)

/-- `cut_size(G, S, T)` unweighted -- cuts.py:18-30; in a digraph `T=None` ends in `None & A`, a
TypeError -/
def cutSizeU (directed : Bool) (A : Mat n n α) (S : Vec n Bool) (T : Option (Vec n Bool)) :
    Except Err Nat :=
  let rv := mnvals (edgeBoundaryU A S T)
  if directed then
    match T with
    | none => .error .typeError
    | some t => .ok (rv + mnvals (edgeBoundaryU A t (some S)))
  else .ok rv

/-- `cut_size(G, S, T, is_weighted=True)` -- cuts.py:18-30 -/
def cutSizeW [Zero α] [Add α] (directed : Bool) (A : Mat n n α) (S : Vec n Bool)
    (T : Option (Vec n Bool)) : Except Err α :=
  let rv := (reduceScalar (· + ·) (edgeBoundaryW A S T)).getD 0
  if directed then
    match T with
    | none => .error .typeError
    | some t => .ok (rv + (reduceScalar (· + ·) (edgeBoundaryW A t (some S))).getD 0)
  else .ok rv

/-- `volume(G, S)` -- cuts.py:33-38 -/
def volumeU (A : Mat n n α) (S : Vec n Bool) : Nat :=
  (reduce (· + ·) (vassignR (vS S) (countRow A))).getD 0

/-- `volume(G, S, weighted=True)` -- cuts.py:33-38 -/
def volumeW [Zero α] [Add α] (A : Mat n n α) (S : Vec n Bool) : α :=
  (reduce (· + ·) (mxv (· + ·) first A S)).getD 0

/-- a quotient of Python numbers -/
def pyDiv (a b : ℚ) : Except Err ℚ := if b = 0 then .error .zeroDivision else .ok (a / b)

/-- `(~S.S).new()` -/
def complV (S : Vec n Bool) : Vec n Bool := fun i => if (S i).isSome then none else some true

/-- `is_dominating_set(G, S)` -- dominating.py:6-8 -/
def isDominatingV (A : Mat n n α) (S : Vec n Bool) : Bool :=
  let nbrs : Vec n Bool := vassignR (vnot (vS S)) (vxm any' pairB S A)
  decide ((n : Int) - nvals S - nvals nbrs = 0)

variable [DecidableEq K]

/-- `G.set_to_vector(nbunch, ignore_extra=True)` where None stays None -- _utils.py:98-109 -/
def setToVector? (G : Graph K α) (nodes : Option (List K)) : Except Err (Option (Vec G.n Bool)) :=
  match nodes with
  | none => .ok none
  | some l => (setToVector G l true).map some

/-- `nx.edge_boundary(G, nbunch1, nbunch2)` -- nxapi/boundary.py:9-45 -/
def edgeBoundary (G : Graph K α) (nbunch1 : List K) (nbunch2 : Option (List K)) :
    Except Err (List (K × K)) := do
  let v1 ← setToVector G nbunch1 true
  let v2 ← setToVector? G nbunch2
  (tocoo2 (edgeBoundaryU G.A v1 v2)).mapM fun t => do
    let u ← keyAt G t.1.val
    let v ← keyAt G t.2.1.val
    .ok (u, v)

/-- `nx.edge_boundary(G, nbunch1, nbunch2, data="weight")` -- nxapi/boundary.py:9-45 -/
def edgeBoundaryData (G : Graph K α) (nbunch1 : List K) (nbunch2 : Option (List K)) :
    Except Err (List (K × K × α)) := do
  let v1 ← setToVector G nbunch1 true
  let v2 ← setToVector? G nbunch2
  (tocoo2 (edgeBoundaryW G.A v1 v2)).mapM fun t => do
    let u ← keyAt G t.1.val
    let v ← keyAt G t.2.1.val
    .ok (u, v, t.2.2)

/-- `nx.node_boundary(G, nbunch1, nbunch2)` -- nxapi/boundary.py:48-56 -/
def nodeBoundary (G : Graph K α) (nbunch1 : List K) (nbunch2 : Option (List K)) :
    Except Err (Vec G.n Bool) := do
  let v1 ← setToVector G nbunch1 true
  let v2 ← setToVector? G nbunch2
  return nodeBoundaryV G.A v1 v2

/-- `nx.cut_size(G, S, T)` -- nxapi/cuts.py:16-21 -/
def cutSize (G : Graph K α) (S : List K) (T : Option (List K)) : Except Err Nat := do
  let s ← setToVector G S true
  let t ← setToVector? G T
  cutSizeU G.directed G.A s t

/-- `nx.cut_size(G, S, T, weight="weight")` -- nxapi/cuts.py:16-21 -/
def cutSizeWeighted [Zero α] [Add α] (G : Graph K α) (S : List K) (T : Option (List K)) :
    Except Err α := do
  let s ← setToVector G S true
  let t ← setToVector? G T
  cutSizeW G.directed G.A s t

/-- `nx.volume(G, S)` -- nxapi/cuts.py:24-28 -/
def volume (G : Graph K α) (S : List K) : Except Err Nat := do
  let s ← listToVector G S
  return volumeU G.A s

/-- `nx.volume(G, S, weight="weight")` -- nxapi/cuts.py:24-28 -/
def volumeWeighted [Zero α] [Add α] (G : Graph K α) (S : List K) : Except Err α := do
  let s ← listToVector G S
  return volumeW G.A s

/-- the second set of `normalized_cut_size` and `conductance` -- nxapi/cuts.py:34-37, 44-47 -/
def otherSide (G : Graph K α) (s : Vec G.n Bool) (T : Option (List K)) : Except Err (Vec G.n Bool) :=
  match T with
  | none => .ok (complV s)
  | some l => setToVector G l true

/-- `nx.normalized_cut_size(G, S, T)` -- nxapi/cuts.py:31-38, cuts.py:41-45 (weights are ignored) -/
def normalizedCutSize (G : Graph K α) (S : List K) (T : Option (List K)) : Except Err ℚ := do
  let s ← setToVector G S true
  let t ← otherSide G s T
  let cut ← cutSizeU G.directed G.A s (some t)
  let a ← pyDiv 1 (volumeU G.A s)
  let b ← pyDiv 1 (volumeU G.A t)
  .ok (cut * (a + b))

/-- `nx.conductance(G, S, T)` -- nxapi/cuts.py:41-48, cuts.py:48-52 -/
def conductance (G : Graph K α) (S : List K) (T : Option (List K)) : Except Err ℚ := do
  let s ← setToVector G S true
  let t ← otherSide G s T
  let cut ← cutSizeU G.directed G.A s (some t)
  pyDiv cut ((min (volumeU G.A s) (volumeU G.A t) : Nat) : ℚ)

/-- the size of the other side in `edge_expansion` -- cuts.py:55-61 -/
def otherCount (n : Nat) (s : Vec n Bool) (t : Option (Vec n Bool)) : Nat :=
  match t with
  | none => n - nvals s
  | some t => nvals t

/-- `nx.edge_expansion(G, S, T)` -- nxapi/cuts.py:51-55, cuts.py:55-61 -/
def edgeExpansion (G : Graph K α) (S : List K) (T : Option (List K)) : Except Err ℚ := do
  let s ← setToVector G S true
  let t ← setToVector? G T
  let cut ← cutSizeU G.directed G.A s t
  pyDiv cut ((min (nvals s) (otherCount G.n s t) : Nat) : ℚ)

/-- `nx.mixing_expansion(G, S, T)` -- nxapi/cuts.py:58-62, cuts.py:64-66 -/
def mixingExpansion (G : Graph K α) (S : List K) (T : Option (List K)) : Except Err ℚ := do
  let s ← setToVector G S true
  let t ← setToVector? G T
  let cut ← cutSizeU G.directed G.A s t
  pyDiv cut (mnvals G.A)

/-- `nx.node_expansion(G, S)` -- nxapi/cuts.py:65-68, cuts.py:69-71 -/
def nodeExpansion (G : Graph K α) (S : List K) : Except Err ℚ := do
  let s ← listToVector G S
  pyDiv (nvals (vxm any' pairB s G.A)) (nvals s)

/-- `nx.boundary_expansion(G, S)` -- nxapi/cuts.py:71-74, cuts.py:74-76 -/
def boundaryExpansion (G : Graph K α) (S : List K) : Except Err ℚ := do
  let s ← setToVector G S true
  pyDiv (nvals (nodeBoundaryV G.A s none)) (nvals s)

/-- `nx.is_dominating_set(G, nbunch)` -- nxapi/dominating.py:7-10 -/
def isDominatingSet (G : Graph K α) (nbunch : List K) : Except Err Bool := do
  let v ← setToVector G nbunch true
  return isDominatingV G.A v

end Model
