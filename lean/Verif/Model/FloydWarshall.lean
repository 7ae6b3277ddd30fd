import Verif.Model.BellmanFord

/-!
# algorithms/shortest_paths/dense.py and nxapi/shortest_paths/dense.py

`choose` is the binary operator `any` (GxB_ANY): SuiteSparse may return either operand, so the
model takes it as a parameter; theorems quantify over it.  `is_weighted=False` is the same
computation on the matrix of ones (`D(A.S) << 1`).
-/

open GB

namespace Model

variable {K α : Type} {n : Nat}

section
variable [Zero α] [Add α] [LinearOrder α]

/-- `A` at the start: `offdiag` for directed graphs, `U-` for undirected graphs
-- dense.py:21-25 -/
def fwStart (directed : Bool) (A : Mat n n α) : Mat n n α :=
  if directed then offdiag A else triu1 A

/-- `nonempty_nodes`: `pair(row_degrees- & column_degrees-)` resp. `degrees-` -- dense.py:21-25 -/
def fwNonempty (directed : Bool) (A : Mat n n α) : VMask n := fun i =>
  let row := decide (nvals (offdiag A i) ≠ 0)
  let col := decide (nvals (transpose (offdiag A) i) ≠ 0)
  if directed then row && col else row

/-- `Outer << any_plus(Col @ Row)` with `Col = D[:, [i]]`, `Row = D[[i], :]`
-- dense.py:62-68 (directed) -/
def fwOuter (D : Mat n n α) (i : Fin n) : Mat n n α :=
  fun a b => ointer (· + ·) (D a i) (D i b)

/-- `Row << D[[i], :]; Row(binary.any) << D.T[[i], :]` -- dense.py:62, 66 (undirected) -/
def fwRowU (choose : α → α → α) (D : Mat n n α) (i : Fin n) : Vec n α :=
  fun b => omerge choose (D i b) (D b i)

/-- `Outer << any_plus(Col @ Row)` with `Col = Row.T` -- dense.py:67-68 (undirected) -/
def fwOuterU (choose : α → α → α) (D : Mat n n α) (i : Fin n) : Mat n n α :=
  fun a b => ointer (· + ·) (fwRowU choose D i a) (fwRowU choose D i b)

/-- one iteration without predecessors -- dense.py:61-76 -/
def fwStep (directed : Bool) (choose : α → α → α) (D : Mat n n α) (i : Fin n) : Mat n n α :=
  if directed then madd min D (offdiag (fwOuter D i))
  else madd min D (triu1 (fwOuterU choose D i))

/-- the loop `for i in nonempty_nodes` -- dense.py:61 -/
def fwLoop (directed : Bool) (choose : α → α → α) (ne : VMask n) (D : Mat n n α) : Mat n n α :=
  ((List.finRange n).filter ne).foldl (fwStep directed choose) D

/-- symmetrise (undirected) and set the diagonal to 0 -- dense.py:97-109 -/
def fwFinish (directed : Bool) (choose : α → α → α) (D : Mat n n α) : Mat n n α :=
  let D := if directed then D else madd choose D (transpose D)
  fun a b => if a = b then some 0 else D a b

/-- `floyd_warshall_predecessor_and_distance(G, True, compute_predecessors=False)[1]`
-- dense.py:13-111 -/
def fwDist (directed : Bool) (choose : α → α → α) (A : Mat n n α) : Mat n n α :=
  fwFinish directed choose
    (fwLoop directed choose (fwNonempty directed A) (fwStart directed A))

/-- the same with `permutation=` (a list of row indices of length `n`): `A[perm, perm]` and
`nonempty_nodes[perm]` are taken before the loop -- dense.py:26-32 -/
def fwDistPerm (directed : Bool) (choose : α → α → α) (A : Mat n n α) (perm : Fin n → Fin n) :
    Mat n n α :=
  fwFinish directed choose
    (fwLoop directed choose (fun i => fwNonempty directed A (perm i))
      (extract (fwStart directed A) perm perm))

/-! ## with predecessors -/

/-- `Mask << offdiag(Outer)` (or `triu(Outer, 1)`); `Mask(second) << lt(Outer & D)`;
`Outer(Mask.V, replace) << Outer` -- dense.py:79-84.  (The first `Mask` stores a Boolean for every
entry of `Outer`, true off the diagonal.) -/
def fwImprove (directed : Bool) (Outer D : Mat n n α) : Mat n n α := fun a b =>
  let mask : Option Bool := omerge second
    ((Outer a b).map fun _ => if directed then decide (a ≠ b) else decide (a < b))
    (ointer (fun x y => decide (x < y)) (Outer a b) (D a b))
  if mask == some true then Outer a b else none

/-- one iteration with predecessors -- dense.py:61-94 -/
def fwStepP (directed : Bool) (choose : α → α → α) (chooseP : Fin n → Fin n → Fin n)
    (S : Mat n n α × Mat n n (Fin n)) (i : Fin n) : Mat n n α × Mat n n (Fin n) :=
  let (D, P) := S
  let Outer := fwImprove directed (if directed then fwOuter D i else fwOuterU choose D i) D
  let D' := massign (mS Outer) D Outer
  let P' : Mat n n (Fin n) :=
    if directed then massign (mS Outer) P (fun a b => ointer second (D a i) (P i b))
    else
      let row : Vec n (Fin n) := fun b => omerge chooseP (P i b) (P b i)
      massign (mS Outer) P (fun a b => ointer second (row a) (row b))
  (D', P')

/-- `floyd_warshall_predecessor_and_distance(G, True)` -- dense.py:13-111 -/
def fwPred (directed : Bool) (choose : α → α → α) (chooseP : Fin n → Fin n → Fin n)
    (A : Mat n n α) : Mat n n (Fin n) × Mat n n α :=
  let D := fwStart directed A
  let P : Mat n n (Fin n) := fun a b => (D a b).map fun _ => a
  let (D, P) := ((List.finRange n).filter (fwNonempty directed A)).foldl
    (fwStepP directed choose chooseP) (D, P)
  (if directed then P else madd chooseP P (transpose P), fwFinish directed choose D)

end

/-! ## the graph-level functions -/

/-- the matrix the loop works on: `D << A` or `D(A.S) << 1` -- dense.py:40-43 -/
def hopMatrix (A : Mat n n α) : Mat n n Int := mapply (fun _ => 1) A

section
variable [DecidableEq K]

/-- reading `matrix_to_nodenodemap(D)` at a pair of nodes: `D[u][v]`
-- nxapi/shortest_paths/dense.py:9-12, nodemap.py:354-362 -/
def Graph.view2 {β : Type} (G : Graph K α) (D : Mat G.n G.n β) (u v : K) : Option β :=
  (G.idOf u).bind fun i => (G.idOf v).bind fun j => D i j

variable [Zero α] [Add α] [LinearOrder α]

/-- `floyd_warshall_numpy(G, nodelist)` (weighted) -- nxapi/shortest_paths/dense.py:24-37 -/
def floydWarshallNumpy (G : Graph K α) (choose : α → α → α) (nodelist : Option (List K)) :
    Except Err (Mat G.n G.n α) :=
  match nodelist with
  | none => .ok (fwDist G.directed choose G.A)
  | some l => do
    if ¬ (l.length = G.len ∧ G.len = l.dedup.length) then .error .algorithm
    else do
      let ids ← listToIds G l
      if h : ids.length = G.n then
        .ok (fwDistPerm G.directed choose G.A (fun i => ids.get ⟨i, by omega⟩))
      else .error .algorithm

end
end Model
