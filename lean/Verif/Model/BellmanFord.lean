import Verif.Model.Bfs
import Mathlib.Algebra.Order.Group.Defs
import Mathlib.Algebra.Group.Basic

/-!
# algorithms/shortest_paths/weighted.py

Weights range over any type with an addition and a linear order; most theorems take a linearly
ordered commutative group (integers, rationals, reals), `Props/Machine.lean` takes wrapping
integers, `Props/Float.lean` a rounded addition and `Props/Boolean.lean` Boolean matrices cast to INT64.
`A` is `G._A`; the properties read by the code are computed here from `A` (fresh values).
`iso` is what `G.get_properties("is_iso iso_value")` reports: `some c` when SuiteSparse stores
the matrix as iso-valued; `none` says nothing about the values (see the comment at graph.py:217-227).
-/

open GB

namespace Model

variable {K α : Type} {n k : Nat}

section
variable [Zero α] [Add α] [SMul Nat α] [LinearOrder α]

/-- `get_property("has_negative_edges-")` -- graph.py:177-192: `min_element-` < 0 -/
def hasNegEdgesM (A : Mat n n α) : Bool := decide ((reduceScalar min (offdiag A)).getD 0 < 0)
/-- `get_property("has_negative_edges+")` -- graph.py:154-174: `min_element+` < 0 -/
def hasNegEdgesP (A : Mat n n α) : Bool := decide ((reduceScalar min A).getD 0 < 0)
/-- `get_property("has_negative_diagonal")` -- graph.py:134-151: `min_diagonal` < 0 -/
def hasNegDiag (A : Mat n n α) : Bool := decide ((reduce min (diagVec A)).getD 0 < 0)

/-- `cur << min_plus(cur @ A)` and, with a cutoff, `cur << select.valuele(cur, cutoff)`
-- weighted.py:70-72, 89-91 -/
def bfRelax (A : Mat n n α) (cut : Option α) (cur : Vec n α) : Vec n α :=
  let c := vxm min (· + ·) cur A
  match cut with
  | none => c
  | some x => vselect (fun a => decide (a ≤ x)) c

/-- `mask << one(cur); mask(binary.second) << binary.lt(cur & d)` -- weighted.py:75-76 -/
def bfMask (cur d : Vec n α) : Vec n Bool :=
  vaccum second (fun _ => true) (vapply (fun _ => true) cur) (vmul (fun a b => decide (a < b)) cur d)

/-- the new frontier of a round -- weighted.py:70-79 -/
def bfRound (A : Mat n n α) (cut : Option α) (d cur : Vec n α) : Vec n α :=
  let c := bfRelax A cut cur
  vassignR (vV (bfMask c d)) c

/-- how the `for` loop ended: the vectors, the current cutoff, whether it ended by `break` -/
structure BFState (n : Nat) (α : Type) where
  d : Vec n α
  cur : Vec n α
  cut : Option α
  broke : Bool

/-- `cutoff = cur.get(dst_id, cutoff)` when pruning -- weighted.py:84-86 -/
def bfNextCut (prune : Option (Fin n)) (cut : Option α) (cur : Vec n α) : Option α :=
  match prune with
  | none => cut
  | some t => (cur t).or cut

/-- the `for _i in range(n - 1)` loop -- weighted.py:66-86.  `prune` is the target when pruning
is on (`dst_id is not None and not is_negative`). -/
def bfLoop (A : Mat n n α) (prune : Option (Fin n)) :
    Nat → Option α → Vec n α → Vec n α → BFState n α
  | 0, cut, d, cur => ⟨d, cur, cut, false⟩
  | m + 1, cut, d, cur =>
    let cur' := bfRound A cut d cur
    if nvals cur' = 0 then ⟨d, cur', cut, true⟩
    else
      let d' := vassign (vS cur') d cur'
      bfLoop A prune m (bfNextCut prune cut cur') d' cur'

/-- `mask << binary.lt(cur & d)` after one more relaxation -- weighted.py:89-92 -/
def bfImproved (A : Mat n n α) (cut : Option α) (d cur : Vec n α) : Vec n Bool :=
  vmul (fun a b => decide (a < b)) (bfRelax A cut cur) d

/-- the part of `_bellman_ford_path_length` after the iso shortcut -- weighted.py:46-100
(without the final `d.get(dst_id)`) -/
def bfCore (A : Mat n n α) (src : Fin n) (dst : Option (Fin n)) (cutoff : Option α) :
    Except Err (Vec n α) :=
  let O := offdiag A
  let prune := if hasNegEdgesM A then none else dst
  let st := bfLoop O prune (n - 1) cutoff (vset vempty src 0) (vset vempty src 0)
  let negCycle := !st.broke &&
    (let mask := bfImproved O st.cut st.d st.cur
     match dst with
     | none => (reduce (· || ·) mask).getD false
     | some t => (mask t).getD false)
  if negCycle then .error .unbounded
  else if hasNegDiag A &&
      (dot any' pairB st.d (vselect (fun a => decide (a < 0)) (diagVec A))).isSome then
    .error .unbounded
  else .ok st.d

variable [DecidableEq K]

/-- `single_source_bellman_ford_path_length(G, source, cutoff=)` -- weighted.py:17-44, 108-111;
nxapi/shortest_paths/weighted.py:48-57 (KeyError becomes NodeNotFound).  `fdiv x c` is
`int(x // c)`. -/
def singleSourceBF (G : Graph K α) (iso : Option α) (fdiv : α → α → Int) (source : K)
    (cutoff : Option α) : Except Err (Vec G.n α) := do
  let src ← G.getId source
  match iso with
  | none => bfCore G.A src none cutoff
  | some c =>
    if !hasNegEdgesP G.A then
      let cut ← match cutoff with
        | none => pure none
        | some x => if c = 0 then (.error .zeroDivision : Except Err (Option Int)) else pure (some (fdiv x c))
      let d ← bfsLevel G source none cut
      return vapply (fun l => l • c) d
    else if (G.A src src).isSome then .error .unbounded
    else if !G.directed && decide (nvals (G.A src) > 0) then .error .unbounded
    else bfCore G.A src none cutoff

/-- `bellman_ford_path_length(G, source, target)` -- weighted.py:17-44, 101-105, 114-115 -/
def bellmanFordPathLength (G : Graph K α) (iso : Option α) (source target : K) :
    Except Err α := do
  let src ← G.getId source
  let dst ← G.getId target
  let get (d : Vec G.n α) : Except Err α := match d dst with
    | none => .error .noPath
    | some x => .ok x
  match iso with
  | none => do let d ← bfCore G.A src (some dst) none; get d
  | some c =>
    if !hasNegEdgesP G.A then do
      let d ← bfsLevel G source (some target) none
      get (vapply (fun l => l • c) d)
    else if (G.A src src).isSome then .error .unbounded
    else if !G.directed && decide (nvals (G.A src) > 0) then .error .unbounded
    else do let d ← bfCore G.A src (some dst) none; get d

/-! ## all pairs -/

omit [DecidableEq K] in
/-- one round on a matrix of sources -- weighted.py:176-179; every operation acts row by row -/
def bfRoundM (A : Mat n n α) (D Cur : Mat k n α) : Mat k n α := fun r => bfRound A none (D r) (Cur r)

omit [DecidableEq K] in
/-- the loop of `bellman_ford_path_lengths` -- weighted.py:175-182 -/
def bfLoopM (A : Mat n n α) : Nat → Mat k n α → Mat k n α → Mat k n α × Mat k n α × Bool
  | 0, D, Cur => (D, Cur, false)
  | m + 1, D, Cur =>
    let Cur' := bfRoundM A D Cur
    if mnvals Cur' = 0 then (D, Cur', true)
    else bfLoopM A m (massign (mS Cur') D Cur') Cur'

omit [DecidableEq K] in
/-- `bellman_ford_path_lengths` after the iso shortcut, for start rows `ids`
-- weighted.py:150-192 -/
def bfCoreM (A : Mat n n α) (ids : Fin k → Fin n) : Except Err (Mat k n α) :=
  let O := offdiag A
  let D0 : Mat k n α := fun r j => if j = ids r then some 0 else none
  let (D, Cur, broke) := bfLoopM O (n - 1) D0 D0
  let Mask : Mat k n Bool := fun r => bfImproved O none (D r) (Cur r)
  if !broke && (reduceScalar (· || ·) Mask).getD false then .error .unbounded
  else if hasNegDiag A &&
      decide (nvals (mxv any' pairB D (vselect (fun a => decide (a < 0)) (diagVec A))) > 0) then
    .error .unbounded
  else .ok D

omit [DecidableEq K] in
/-- `bellman_ford_path_lengths(G, nodes)` for start rows `ids` -- weighted.py:118-197
(`expand_output=False`).  `nodes=None` is `ids = id`; there `G._A.nvals > 0` is the same test. -/
def bellmanFordPathLengths (G : Graph K α) (iso : Option α) (ids : Fin k → Fin G.n) :
    Except Err (Mat k G.n α) :=
  match iso with
  | none => bfCoreM G.A ids
  | some c =>
    if !hasNegEdgesP G.A then
      .ok (mapply (fun l => l • c) (bfsLevelsFrom (offdiag G.A) ids none))
    else if !G.directed && decide (mnvals (fun r => G.A (ids r)) > 0) then .error .unbounded
    else bfCoreM G.A ids

/-- `all_pairs_bellman_ford_path_length(G, chunksize=)` of nxapi, with the normalised chunk size;
the result is what `list(...)` of the generator gives
-- nxapi/shortest_paths/weighted.py:16-45 -/
def allPairsBF (G : Graph K α) (iso : Option α) (fdiv : α → α → Int) (chunksize : Option Int) :
    Except Err (List (K × Vec G.n α)) :=
  match chunksize with
  | none => do
    let D ← bellmanFordPathLengths G iso (fun i => i)
    ((List.finRange G.n).filter fun i : Fin G.n => decide (nvals (D i) ≠ 0)).mapM fun i : Fin G.n =>
      match G.keyOf i.val with
      | none => .error .keyError
      | some u => .ok (u, D i)
  | some c =>
    if c < 2 then
      (G.keyToId.map Prod.fst).mapM fun source => do
        let d ← singleSourceBF G iso fdiv source none
        return (source, d)
    else do
      let parts ← (partition c (G.keyToId.map Prod.fst)).mapM fun
        | .elem _ => (.error .typeError : Except Err (List (K × Vec G.n α)))
        | .chunk curNodes => do
          let ids ← listToIds G curNodes
          let D ← bellmanFordPathLengths G iso (fun r : Fin ids.length => ids.get r)
          return (curNodes.zipIdx.filterMap fun (u, r) =>
            if h : r < ids.length then some (u, D ⟨r, h⟩) else none)
      return parts.flatten

/-! ## negative_edge_cycle -/

omit [DecidableEq K] in
/-- the loop of `negative_edge_cycle`; `none` when it returned False inside the loop
-- weighted.py:336-343 -/
def necLoop (A : Mat n n α) : Nat → Vec n α → Vec n α → Option (Vec n α × Vec n α)
  | 0, d, cur => some (d, cur)
  | m + 1, d, cur =>
    let cur' := bfRound A none d cur
    if nvals cur' = 0 then none
    else necLoop A m (vassign (vS cur') d cur') cur'

omit [DecidableEq K] in
/-- the code of `negative_edge_cycle` after the lookups -- weighted.py:320-348 -/
def necBody (O : Mat n n α) (degS : VMask n) (negDiag neg : Bool) : Bool :=
  if negDiag then true
  else if !neg then false
  else
    let d : Vec n α := vassignC degS vempty 0
    match necLoop O (n - 1) d d with
    | none => false
    | some (d, cur) => (reduce (· || ·) (bfImproved O none d cur)).getD false

omit [DecidableEq K] in
/-- `negative_edge_cycle(G)` -- weighted.py:311-348.  `degrees.S` is the pattern of
`total_degrees-` (directed: off-diagonal entry in the row or the column) or `degrees-`
(undirected: off-diagonal entry in the row). -/
def negativeEdgeCycle (G : Graph K α) : Bool :=
  necBody (offdiag G.A)
    (if G.directed then fun i => decide (nvals (offdiag G.A i) ≠ 0) ||
        decide (nvals (transpose (offdiag G.A) i) ≠ 0)
      else fun i => decide (nvals (offdiag G.A i) ≠ 0))
    (hasNegDiag G.A) (hasNegEdgesM G.A)

end
end Model
