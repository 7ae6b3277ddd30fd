import Verif.Model.Graph
import Verif.Model.Utils

/-!
# algorithms/_bfs.py and its direct clients

`A` is always `G.get_property("offdiag")`, i.e. `GB.offdiag G.A`.
-/

open GB

namespace Model

variable {K α β : Type} {n k : Nat}

/-- `_get_cutoff(n, cutoff)` -- _bfs.py:8-11 -/
def getCutoff (n : Nat) : Option Int → Int
  | none => n
  | some c => if c ≥ n then n else c + 1

/-- `range(1, c)` -/
def range1 (c : Int) : List Nat := List.range' 1 (c.toNat - 1)

/-- `q(~v.S, replace) << any_pair_bool(q @ A)` -- _bfs.py:39, 69, 103; breadth_first_search.py:24, 42 -/
def bfsStep {γ : Type*} (A : Mat n n β) (v : Vec n γ) (q : Vec n Bool) : Vec n Bool :=
  vassignR (vnot (vS v)) (vxm any' pairB q A)

/-- `A = G.get_property("offdiag"); if transpose and G.is_directed(): A = A.T`
-- _bfs.py:28-30, 58-60, 118-120 -/
def bfsMatrix (G : Graph K α) (tr : Bool) : Mat G.n G.n α :=
  if tr && G.directed then transpose (offdiag G.A) else offdiag G.A

/-! ## _bfs_plain -/

/-- loop of `_bfs_plain` -- _bfs.py:38-44 -/
def bfsPlainLoop (A : Mat n n β) (dst : Option (Fin n)) :
    List Nat → Vec n Bool → Vec n Bool → Vec n Bool
  | [], v, _ => v
  | _ :: is, v, q =>
    let q' := bfsStep A v q
    if nvals q' = 0 then v
    else
      let v' := vassignC (vS q') v true
      if dst.any fun d => (q' d).isSome then v'
      else bfsPlainLoop A dst is v' q'

/-- `_bfs_plain` from row indices `start` (the `index=` argument, a list in
weighted.py:305) -- _bfs.py:31-45 -/
def bfsPlainFrom (A : Mat n n β) (start : List (Fin n)) (dst : Option (Fin n))
    (cutoff : Option Int) : Vec n Bool :=
  bfsPlainLoop A dst (range1 (getCutoff n cutoff)) (vofIds start true) (vofIds start true)

variable [DecidableEq K]

/-- `_bfs_plain(G, source, cutoff=, transpose=)` -- _bfs.py:15-45 (target=None) -/
def bfsPlain (G : Graph K α) (source : K) (cutoff : Option Int := none) (tr : Bool := false) :
    Except Err (Vec G.n Bool) := do
  let index ← G.getId source
  return bfsPlainFrom (bfsMatrix G tr) [index] none cutoff

/-! ## _bfs_level -/

omit [DecidableEq K] in
/-- loop of `_bfs_level` -- _bfs.py:68-74 -/
def bfsLevelLoop (A : Mat n n β) (dst : Option (Fin n)) :
    List Nat → Vec n Nat → Vec n Bool → Vec n Nat
  | [], v, _ => v
  | i :: is, v, q =>
    let q' := bfsStep A v q
    if nvals q' = 0 then v
    else
      let v' := vassignC (vS q') v i
      if dst.any fun d => (q' d).isSome then v'
      else bfsLevelLoop A dst is v' q'

omit [DecidableEq K] in
/-- the body of `_bfs_level` once the ids are known -- _bfs.py:61-75 -/
def bfsLevelFrom (A : Mat n n β) (s : Fin n) (dst : Option (Fin n)) (cutoff : Option Int) :
    Vec n Nat :=
  bfsLevelLoop A dst (range1 (getCutoff n cutoff)) (vset vempty s 0) (vset vempty s true)

/-- `_bfs_level(G, source, target, cutoff=, transpose=)` -- _bfs.py:48-75 -/
def bfsLevel (G : Graph K α) (source : K) (target : Option K := none)
    (cutoff : Option Int := none) (tr : Bool := false) : Except Err (Vec G.n Nat) := do
  let index ← G.getId source
  let dst ← match target with
    | none => pure none
    | some t => do let d ← G.getId t; pure (some d)
  return bfsLevelFrom (bfsMatrix G tr) index dst cutoff

/-- `single_source_shortest_path_length` -- shortest_paths/unweighted.py:14-15,
nxapi/shortest_paths/unweighted.py:14-19 (`source not in G` raises NodeNotFound) -/
def singleSourceSPL (G : Graph K α) (source : K) (cutoff : Option Int) :
    Except Err (Vec G.n Nat) := bfsLevel G source none cutoff

/-- `single_target_shortest_path_length` -- shortest_paths/unweighted.py:18-19 -/
def singleTargetSPL (G : Graph K α) (target : K) (cutoff : Option Int) :
    Except Err (Vec G.n Nat) := bfsLevel G target none cutoff true

/-! ## _bfs_levels and all pairs -/

omit [DecidableEq K] in
/-- `Q(~D.S, replace) << any_pair_bool(Q @ A)` -- _bfs.py:103 -/
def bfsStepM (A : Mat n n β) (D : Mat k n Nat) (Q : Mat k n Bool) : Mat k n Bool :=
  massignR (mnot (mS D)) (mxm any' pairB Q A)

omit [DecidableEq K] in
/-- loop of `_bfs_levels` -- _bfs.py:102-106 -/
def bfsLevelsLoop (A : Mat n n β) : List Nat → Mat k n Nat → Mat k n Bool → Mat k n Nat
  | [], D, _ => D
  | i :: is, D, Q =>
    let Q' := bfsStepM A D Q
    if mnvals Q' = 0 then D
    else bfsLevelsLoop A is (massignC (mS Q') D i) Q'

omit [DecidableEq K] in
/-- `_bfs_levels` for start rows `ids` -- _bfs.py:78-107.  `nodes=None` is `ids = id`
(`D` is then `diag(0)`), otherwise `from_coo(arange(len(ids)), ids, 0)`. -/
def bfsLevelsFrom (A : Mat n n β) (ids : Fin k → Fin n) (cutoff : Option Int) : Mat k n Nat :=
  bfsLevelsLoop A (range1 (getCutoff n cutoff))
    (fun r j => if j = ids r then some 0 else none) (fun r j => if j = ids r then some true else none)

/-- `G.list_to_ids(nodes)` -- _utils.py:84-88 -/
def listToIds (G : Graph K α) (nodes : List K) : Except Err (List (Fin G.n)) :=
  nodes.mapM G.getId

/-- `all_pairs_shortest_path_length(G, cutoff, chunksize=)` of nxapi
-- nxapi/shortest_paths/unweighted.py:30-45, with the normalised chunk size; the generator is
the list of what it yields.  First branch: `matrix_to_nodenodemap(D).items()` iterates the rows
that have an entry in index order, translating them to keys (nodemap.py:359-383). -/
def allPairsSPL (G : Graph K α) (cutoff : Option Int) (chunksize : Option Int) :
    Except Err (List (K × Vec G.n Nat)) :=
  match chunksize with
  | none =>
    let D := bfsLevelsFrom (offdiag G.A) (fun i => i) cutoff
    ((List.finRange G.n).filter fun i : Fin G.n => decide (nvals (D i) ≠ 0)).mapM fun i : Fin G.n =>
      match G.keyOf i.val with
      | none => .error .keyError
      | some u => .ok (u, D i)
  | some c =>
    if c < 2 then
      (G.keyToId.map Prod.fst).mapM fun source => do
        let d ← singleSourceSPL G source cutoff
        return (source, d)
    else do
      let parts ← (partition c (G.keyToId.map Prod.fst)).mapM fun
        | .elem _ => (.error .typeError : Except Err (List (K × Vec G.n Nat)))
        | .chunk curNodes => do
          let ids ← listToIds G curNodes
          let D := bfsLevelsFrom (offdiag G.A) (fun r : Fin ids.length => ids.get r) cutoff
          -- `for i, source in enumerate(cur_nodes): D[i, :]`
          return (curNodes.zipIdx.filterMap fun (u, r) =>
            if h : r < ids.length then some (u, D ⟨r, h⟩) else none)
      return parts.flatten

/-! ## bidirectional search -/

omit [DecidableEq K] in
/-- loop of `bidirectional_shortest_path_length` -- shortest_paths/unweighted.py:49-63;
`is` is what is left of `range(1, n + 1, 2)` -/
def bidirLoop (A : Mat n n β) : List Nat →
    (q_src seen_src q_dst seen_dst : Vec n Bool) → Except Err Nat
  | [], _, _, _, _ => .error .noPath
  | i :: is, q_src, seen_src, q_dst, seen_dst =>
    let q_src := bfsStep A seen_src q_src
    if nvals q_src = 0 then .error .noPath
    else if (dot any' pairB q_src q_dst).isSome then .ok i
    else
      let seen_dst := vassignC (vS q_dst) seen_dst true
      let q_dst : Vec n Bool := vassignR (vnot (vS seen_dst)) (mxv any' pairB A q_dst)
      if nvals q_dst = 0 then .error .noPath
      else if (dot any' pairB q_src q_dst).isSome then .ok (i + 1)
      else bidirLoop A is q_src (vassignC (vS q_src) seen_src true) q_dst seen_dst

/-- `range(1, n + 1, 2)` -/
def oddRange (n : Nat) : List Nat := (List.range ((n + 1) / 2)).map fun t => 2 * t + 1

/-- `bidirectional_shortest_path_length(G, source, target)` -- shortest_paths/unweighted.py:32-64 -/
def bidirectionalSPL (G : Graph K α) (source target : K) : Except Err Nat :=
  if !G.contains source || !G.contains target then .error .keyError
  else do
    let src ← G.getId source
    let dst ← G.getId target
    if src = dst then return 0
    else
      bidirLoop (offdiag G.A) (oddRange G.n) (vset vempty src true) (vset vempty src true)
        (vset vempty dst true) vempty

/-- `has_path` -- shortest_paths/generic.py:7-12 -/
def hasPath (G : Graph K α) (source target : K) : Except Err Bool :=
  match bidirectionalSPL G source target with
  | .ok _ => .ok true
  | .error .noPath => .ok false
  | .error e => .error e

/-- `efficiency` -- efficiency_measures.py:7-12 (`1 / 0` raises ZeroDivisionError) -/
def efficiency {F : Type} [DivisionRing F] (G : Graph K α) (u v : K) : Except Err F :=
  match bidirectionalSPL G u v with
  | .ok d => if d = 0 then .error .zeroDivision else .ok (1 / (d : F))
  | .error .noPath => .ok 0
  | .error e => .error e

/-! ## descendants, ancestors, components -/

/-- `descendants` -- dag.py:6-10 -/
def descendants (G : Graph K α) (source : K) : Except Err (Vec G.n Bool) := do
  let rv ← bfsPlain G source
  let index ← G.getId source
  return vdel rv index

/-- `ancestors` -- dag.py:13-17 -/
def ancestors (G : Graph K α) (source : K) : Except Err (Vec G.n Bool) := do
  let rv ← bfsPlain G source none true
  let index ← G.getId source
  return vdel rv index

/-- `node_connected_component` -- components/connected.py:11-12 -/
def nodeConnectedComponent (G : Graph K α) (u : K) : Except Err (Vec G.n Bool) := bfsPlain G u

/-- `is_connected` -- components/connected.py:5-8 -/
def isConnected (G : Graph K α) : Except Err Bool :=
  if G.len = 0 then .error .pointless
  else match G.firstNode with
    | none => .error .runtimeError  -- StopIteration; impossible for well-formed graphs
    | some u => do
      let v ← bfsPlain G u
      return nvals v == G.len

/-! ## layers -/

omit [DecidableEq K] in
/-- loop of `bfs_layers` -- traversal/breadth_first_search.py:22-27 -/
def bfsLayersLoop (A : Mat n n β) : Nat → Vec n Bool → Vec n Bool → List (Vec n Bool)
  | 0, _, _ => []
  | m + 1, v, q =>
    let v' := vassignC (vS q) v true
    let q' := bfsStep A v' q
    if nvals q' = 0 then [] else q' :: bfsLayersLoop A m v' q'

/-- `bfs_layers(G, sources)` -- traversal/breadth_first_search.py:10-27 (the list of layers the
generator yields).  The step `if sources in G: sources = [sources]` is the caller's. -/
def bfsLayers (G : Graph K α) (sources : List K) : Except Err (List (Vec G.n Bool)) := do
  let ids ← listToIds G sources
  if ids.length = 0 then return []
  else
    let q : Vec G.n Bool := vofIds ids true
    return q :: bfsLayersLoop (offdiag G.A) (G.n - 1) vempty q

omit [DecidableEq K] in
/-- loop of `descendants_at_distance` -- traversal/breadth_first_search.py:40-44 -/
def dadLoop (A : Mat n n β) : Nat → Vec n Bool → Vec n Bool → Vec n Bool
  | 0, _, q => q
  | m + 1, v, q =>
    let v' := vassignC (vS q) v true
    let q' := bfsStep A v' q
    if nvals q' = 0 then q' else dadLoop A m v' q'

/-- `descendants_at_distance(G, source, distance)` -- traversal/breadth_first_search.py:30-45 -/
def descendantsAtDistance (G : Graph K α) (source : K) (distance : Int) :
    Except Err (Vec G.n Bool) := do
  let index ← G.getId source
  let q : Vec G.n Bool := vset vempty index true
  if distance = 0 then return q
  else return dadLoop (offdiag G.A) distance.toNat vempty q

/-! ## _bfs_parent -/

omit [DecidableEq K] in
/-- loop of `_bfs_parent` -- _bfs.py:129-136.  `min_first(q @ A)`; afterwards
`q << index(q)` stores in each frontier position its own index. -/
def bfsParentLoop (A : Mat n n β) (dst : Option (Fin n)) :
    List Nat → Vec n (Fin n) → Vec n (Fin n) → Vec n (Fin n)
  | [], v, _ => v
  | _ :: is, v, q =>
    let q' : Vec n (Fin n) := vassignR (vnot (vS v)) (vxm min first q A)
    if nvals q' = 0 then v
    else
      let v' := vassign (vS q') v q'
      if dst.any fun d => (q' d).isSome then v'
      else bfsParentLoop A dst is v' (fun i => (q' i).map fun _ => i)

/-- `_bfs_parent(G, source, target, cutoff=, transpose=)` -- _bfs.py:110-137 -/
def bfsParent (G : Graph K α) (source : K) (target : Option K := none)
    (cutoff : Option Int := none) (tr : Bool := false) : Except Err (Vec G.n (Fin G.n)) := do
  let index ← G.getId source
  let dst ← match target with
    | none => pure none
    | some t => do let d ← G.getId t; pure (some d)
  return bfsParentLoop (bfsMatrix G tr) dst (range1 (getCutoff G.n cutoff))
    (vset vempty index index) (vset vempty index index)

/-! ## _bfs_plain_bidirectional -/

omit [DecidableEq K] in
/-- loop of `_bfs_plain_bidirectional` -- _bfs.py:155-177 -/
def bfsBiLoop (A : Mat n n β) : Nat → (v q_out q_in : Vec n Bool) →
    (is_out_empty is_in_empty : Bool) → Vec n Bool
  | 0, v, _, _, _, _ => v
  | m + 1, v, q_out, q_in, oe, ie =>
    let q_out : Vec n Bool :=
      if oe then vassign (vnot (vS v)) q_out (vxm any' pairB q_in A)
      else vassignR (vnot (vS v)) (vxm any' pairB (vadd any' q_out q_in) A)
    let oe := decide (nvals q_out = 0)
    if oe && ie then v
    else
      let v := if oe then v else vassignC (vS q_out) v true
      let q_in : Vec n Bool :=
        if ie then vassign (vnot (vS v)) q_in (mxv any' pairB A q_out)
        else vassignR (vnot (vS v)) (mxv any' pairB A (vadd any' q_out q_in))
      let ie := decide (nvals q_in = 0)
      if ie && oe then v
      else
        let v := if ie then v else vassignC (vS q_in) v true
        bfsBiLoop A m v q_out q_in oe ie

/-- `_bfs_plain_bidirectional(G, source)` -- _bfs.py:141-178 -/
def bfsPlainBidirectional (G : Graph K α) (source : K) : Except Err (Vec G.n Bool) := do
  let index ← G.getId source
  return bfsBiLoop (offdiag G.A) (G.n - 1) (vset vempty index true) vempty
    (vset vempty index true) true false

/-- `is_weakly_connected` -- components/weakly_connected.py:5-8 -/
def isWeaklyConnected (G : Graph K α) : Except Err Bool :=
  if G.len = 0 then .error .pointless
  else match G.firstNode with
    | none => .error .runtimeError
    | some u => do
      let v ← bfsPlainBidirectional G u
      return nvals v == G.len

/-! ## lowest common ancestor -/

/-- `lowest_common_ancestor(G, node1, node2, default)` -- lowest_common_ancestors.py:9-21.
`ok none` stands for `default`. -/
def lowestCommonAncestor (G : Graph K α) (node1 node2 : K) : Except Err (Option K) := do
  let ca ← bfsPlain G node1 none true
  let oa ← bfsPlain G node2 none true
  let ca : Vec G.n Bool := vmul pairB ca oa
  if nvals ca = 0 then return none
  else
    let oa : Vec G.n Bool := vassignR (vS ca) (mxv any' pairB G.A ca)
    let ca : Vec G.n Bool := vassignR (vnot (vS oa)) ca
    match (indices ca).head? with
    | none => .error .indexError
    | some i => match G.keyOf i.val with
      | none => .error .keyError
      | some u => return (some u)

end Model
