import Verif.Model.BellmanFord

/-!
# algorithms/shortest_paths/weighted.py : bellman_ford_path
-/

open GB

namespace Model

variable {K α : Type} {n : Nat}

/-- the `while cur != src` loop of `_reconstruct_path_from_parents`: the nodes from `cur` back to
`src` -- weighted.py:205-209.  The chase is deterministic, so after `n` steps without meeting
`src` some node was visited twice and the Python loop never ends: `Err.diverges`
(`Proofs.BFP.chase_diverges` proves that no larger fuel helps). -/
def chaseParents (p : Vec n (Fin n)) (src : Fin n) : Nat → Fin n → Except Err (List (Fin n))
  | fuel, cur =>
    if cur = src then .ok [cur]
    else match fuel with
      | 0 => .error .diverges
      | f + 1 => match p cur with
        | none => .error .keyError
        | some q => do
          let rest ← chaseParents p src f q
          return cur :: rest

/-- `_reconstruct_path_from_parents(G, parents, src, dst)`, as row indices in order from `src` to
`dst` -- weighted.py:200-210 (`list_to_keys` is applied by the caller below) -/
def reconstructPath (p : Vec n (Fin n)) (src dst : Fin n) : Except Err (List (Fin n)) :=
  match p dst with
  | none => .ok []
  | some _ => do
    let path ← chaseParents p src n dst
    return path.reverse

section
variable [Zero α] [Add α] [LinearOrder α]

/-- the parents found in a round: `B[rows, cols] = A[rows, cols]`, `B << plus(prev & B)`,
`B << iseq(B & cur)`, `B << select.valuene(B, False)`, `Indices << rowindex(B)`,
`indices << Indices.reduce_columnwise(min)` -- weighted.py:271-283.  `rows`, `cols` are the stored
positions of `prev` and `cur`. -/
def bfParents (A : Mat n n α) (prev cur : Vec n α) : Vec n (Fin n) :=
  let B : Mat n n α := fun i j => if (prev i).isSome && (cur j).isSome then A i j else none
  let B : Mat n n α := fun i j => ointer (· + ·) (prev i) (B i j)
  let B : Mat n n Bool := fun i j => ointer (fun a b => decide (a = b)) (B i j) (cur j)
  let B := mselect (fun b => b != false) B
  let I : Mat n n (Fin n) := fun i j => (B i j).map fun _ => i
  reduceCol min I

/-- the `for _i in range(n - 1)` loop of `bellman_ford_path` -- weighted.py:246-284; the same as
`bfLoop` plus the parent vector -/
def bfPathLoop (A : Mat n n α) (prune : Option (Fin n)) :
    Nat → Option α → Vec n α → Vec n α → Vec n (Fin n) → BFState n α × Vec n (Fin n)
  | 0, cut, d, prev, p => (⟨d, prev, cut, false⟩, p)
  | m + 1, cut, d, prev, p =>
    let cur := bfRound A cut d prev
    if nvals cur = 0 then (⟨d, cur, cut, true⟩, p)
    else
      let d' := vassign (vS cur) d cur
      let idx := bfParents A prev cur
      bfPathLoop A prune m (bfNextCut prune cut cur) d' cur (vassign (vS idx) p idx)

/-- the final self-loop test -- weighted.py:294-307.  `cur` is the vector bound to `cur` at that
point.  `indices, _ = mask.to_coo(values=False)[0]` unpacks the *array* of indices, hence a
ValueError unless it has exactly two elements; `cutoff=_i` is `n - 2`. -/
def bfPathDiag (A : Mat n n α) (dst : Fin n) (path : List (Fin n)) (cur : Vec n α) :
    Except Err Unit :=
  let mask : Vec n Bool := vofIds path true
  let diag : Vec n α := vassignR (vS mask) (diagVec A)
  if nvals diag > 0 then .error .unbounded
  else
    let mask := vmul first mask cur
    if nvals mask > 0 then
      match indices mask with
      | [i, _] =>
        if (bfsPlainFrom (offdiag A) [i] (some dst) (some ((n : Int) - 2)) dst).isSome then
          .error .unbounded
        else .ok ()
      | _ => .error .valueError
    else .ok ()

/-- `bellman_ford_path` after the iso shortcut, on row indices -- weighted.py:223-308 -/
def bfPathCore (A : Mat n n α) (src dst : Fin n) : Except Err (List (Fin n)) :=
  let O := offdiag A
  let prune := if hasNegEdgesM A then none else some dst
  let (st, p) := bfPathLoop O prune (n - 1) none (vset vempty src 0) (vset vempty src 0)
    (vset vempty src src)
  let last := bfRelax O st.cut st.cur
  if !st.broke && (bfImproved O st.cut st.d st.cur dst).getD false then .error .unbounded
  else do
    let path ← reconstructPath p src dst
    if hasNegDiag A && !path.isEmpty then do
      bfPathDiag A dst path (if st.broke then st.cur else last)
      return path
    else return path

variable [DecidableEq K]

/-- `bellman_ford_path` on row indices, with the iso shortcut -- weighted.py:213-308 -/
def bfPathIds (G : Graph K α) (iso : Option α) (source target : K) (src dst : Fin G.n) :
    Except Err (List (Fin G.n)) :=
  match iso with
  | none => bfPathCore G.A src dst
  | some _ =>
    if !hasNegEdgesP G.A then do
      let p ← bfsParent G source (some target)
      reconstructPath p src dst
    else .error .unbounded

/-- `bellman_ford_path(G, source, target)` -- weighted.py:213-308;
nxapi/shortest_paths/weighted.py:60-66 -/
def bellmanFordPath (G : Graph K α) (iso : Option α) (source target : K) :
    Except Err (List K) := do
  let src ← G.getId source
  let dst ← G.getId target
  let path ← bfPathIds G iso source target src dst
  path.mapM fun i => match G.keyOf i.val with
    | none => .error .keyError
    | some u => .ok u

end
end Model
