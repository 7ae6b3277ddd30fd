import Verif.Model.Bfs
import Verif.Model.Dict
import Mathlib.Data.List.Sort

/-!
# algorithms/operators/binary.py, algorithms/operators/unary.py and `DiGraph.reverse`

`one` is the value `1` of the result's dtype (`unary.one`, `pair`, `True`).  `dtypes.unify` is not
modelled: both matrices have values in one type.  The Python class of the result is `type(G)`,
i.e. the flags of the first argument.
-/

open GB

namespace Model

variable {K K' α : Type}

/-- `C[:nA, :nA] = A; C[nA:, nA:] = B` on an empty matrix -- operators/binary.py:37-39 -/
def blockDiag {m n : Nat} (A : Mat m m α) (B : Mat n n α) : Mat (m + n) (m + n) α :=
  fun i j => Fin.addCases (fun a => Fin.addCases (fun b => A a b) (fun _ => none) j)
    (fun a => Fin.addCases (fun _ => none) (fun b => B a b) j) i

/-- the checks at the top of every binary operator, e.g. operators/binary.py:17-20 -/
def multiCheck (G H : Graph K α) : Except Err Unit :=
  if G.multi ≠ H.multi then .error .algorithm
  else if G.multi then .error .notImplemented
  else .ok ()

variable [DecidableEq K] [DecidableEq K']

/-- `type(G)(G._A, key_to_id={f"{prefix}{key}": val ...})`; `f` is the renaming of a key
-- operators/binary.py:21-32 -/
def renameKeys (f : K → K') (G : Graph K α) : Graph K' α :=
  { n := G.n, A := G.A, keyToId := dictOf (G.keyToId.map fun p => (f p.1, p.2)),
    directed := G.directed, multi := G.multi }

/-- `key_to_id` of `union(G, H)` -- operators/binary.py:40-42 -/
def unionKeys (G H : Graph K α) : List (K × Nat) :=
  dupdate (dictOf (H.keyToId.map fun p => (p.1, p.2 + G.n))) G.keyToId

/-- `union(G, H)` (after renaming) -- operators/binary.py:33-43 -/
def union (G H : Graph K α) : Except Err (Graph K α) := do
  multiCheck G H
  if G.keyToId.any fun p => H.contains p.1 then .error .algorithm
  else .ok ({ n := G.n + H.n, A := blockDiag G.A H.A, keyToId := unionKeys G H
              directed := G.directed, multi := G.multi } : Graph K α)

/-- `disjoint_union(G, H)` -- operators/binary.py:46-56; the result has the default `key_to_id`
`{i: i for i in range(nrows)}` (graph.py:378-379) -/
def disjointUnion (G H : Graph K α) : Except Err (Graph Nat α) := do
  multiCheck G H
  .ok { n := G.n + H.n, A := blockDiag G.A H.A
        keyToId := (List.range (G.n + H.n)).map fun i => (i, i)
        directed := G.directed, multi := G.multi }

/-- `sorted(keys, key=G._key_to_id.__getitem__)` for the keys of `G` that satisfy `p`
-- operators/binary.py:64, 85, 128 (ids are distinct, so the order of the unsorted set is
irrelevant) -/
def sortedKeys (G : Graph K α) (p : K → Bool) : List K :=
  ((G.keyToId.filter fun q => p q.1).insertionSort fun a b => a.2 ≤ b.2).map Prod.fst

/-- `H._A[ids, ids]` for `ids = H.list_to_ids(keys)` -/
def extractKeys (H : Graph K α) (keys : List K) :
    Except Err (Mat keys.length keys.length α) := do
  let ids ← listToIds H keys
  if h : ids.length = keys.length then
    .ok (extract H.A (fun i => ids.get (i.cast h.symm)) fun i => ids.get (i.cast h.symm))
  else .error .runtimeError

/-- `intersection(G, H)` -- operators/binary.py:59-70 -/
def intersection (one : α) (G H : Graph K α) : Except Err (Graph K α) := do
  multiCheck G H
  let keys := sortedKeys G fun k => H.contains k
  let A ← extractKeys G keys
  let B ← extractKeys H keys
  .ok { n := keys.length, A := mapply (fun _ => one) (massignR (mS A) B), keyToId := keys.zipIdx
        directed := G.directed, multi := G.multi }

/-- `G._key_to_id.keys() == H._key_to_id.keys()` -/
def sameKeys (G H : Graph K α) : Bool :=
  (G.keyToId.all fun p => H.contains p.1) && (H.keyToId.all fun p => G.contains p.1)

/-- `G._key_to_id == H._key_to_id` (dictionaries compare regardless of order) -/
def sameDict (G H : Graph K α) : Bool :=
  (G.keyToId.all fun p => H.keyToId.lookup p.1 == some p.2) &&
  (H.keyToId.all fun p => G.keyToId.lookup p.1 == some p.2)

/-- a matrix that must have `n` rows (GraphBLAS raises `DimensionMismatch` otherwise) -/
def resize {m : Nat} (n : Nat) (B : Mat m m α) : Except Err (Mat n n α) :=
  if h : n = m then .ok (fun i j => B (i.cast h) (j.cast h)) else .error .valueError

/-- `H._A` with rows and columns numbered as in `G` -- operators/binary.py:81-87, 100-106, 119-125 -/
def aligned (G H : Graph K α) : Except Err (Mat G.n G.n α) :=
  if sameDict G H then resize G.n H.A
  else do
    let B ← extractKeys H (sortedKeys G fun _ => true)
    resize G.n B

/-- `difference(G, H)` -- operators/binary.py:73-89 -/
def difference (one : α) (G H : Graph K α) : Except Err (Graph K α) := do
  multiCheck G H
  if !sameKeys G H then .error .algorithm
  else do
    let B ← aligned G H
    .ok { n := G.n, A := massignR (mnot (mS B)) (mapply (fun _ => one) G.A), keyToId := G.keyToId
          directed := G.directed, multi := G.multi }

/-- `symmetric_difference(G, H)` -- operators/binary.py:92-109 -/
def symmetricDifference (one : α) (G H : Graph K α) : Except Err (Graph K α) := do
  multiCheck G H
  if !sameKeys G H then .error .algorithm
  else do
    let B ← aligned G H
    let Mask := mmul pairB G.A B
    .ok { n := G.n
          A := massignR (mnot (mS Mask)) (munion (fun _ _ => one) one one G.A B)
          keyToId := G.keyToId, directed := G.directed, multi := G.multi }

/-- `C[ids, ids] = B` -- region assignment: `B` replaces the region, deleting what `B` lacks -/
def assignRegion {n m : Nat} (C : Mat n n α) (ids : Fin m → Fin n) (B : Mat m m α) : Mat n n α :=
  fun i j =>
    match (List.finRange m).find? fun a => ids a == i, (List.finRange m).find? fun b => ids b == j with
    | some a, some b => B a b
    | _, _ => C i j

/-- the ids of `keys` in `G` as row numbers of a matrix with `n ≥ G.n` rows -/
def idsIn (G : Graph K α) (n : Nat) (keys : List K) : Except Err (Fin keys.length → Fin n) := do
  let ids ← listToIds G keys
  if h : ids.length = keys.length ∧ G.n ≤ n then
    .ok fun i => (ids.get (i.cast h.1.symm)).castLE h.2
  else .error .runtimeError

/-- `compose(G, H)`, equal node sets -- operators/binary.py:117-126 -/
def composeSame (G H : Graph K α) : Except Err (Graph K α) := do
  let B ← aligned G H
  .ok { n := G.n, A := madd second G.A B, keyToId := G.keyToId
        directed := G.directed, multi := G.multi }

/-- `compose(G, H)`, different node sets -- operators/binary.py:127-146.  The ids of the new keys
are `H`'s ids plus `A.nrows`, as in the code. -/
def composeDiff (G H : Graph K α) : Except Err (Graph K α) := do
  let keys := sortedKeys G fun k => H.contains k
  let newkeys := sortedKeys H fun k => !G.contains k
  let n := G.n + newkeys.length
  let ids1 ← idsIn G n keys
  let B1 ← extractKeys H keys
  let B2 ← extractKeys H newkeys
  let ids ← listToIds H newkeys
  let C0 : Mat n n α := fun i j =>
    if h : i.val < G.n ∧ j.val < G.n then G.A ⟨i, h.1⟩ ⟨j, h.2⟩ else none
  let C1 := assignRegion C0 ids1 B1
  let C2 := assignRegion C1 (fun a => Fin.natAdd G.n a) B2
  .ok { n := n, A := C2
        keyToId := dupdate (dictOf (newkeys.zip (ids.map fun i => i.val + G.n))) G.keyToId
        directed := G.directed, multi := G.multi }

/-- `compose(G, H)` -- operators/binary.py:112-147 -/
def compose (G H : Graph K α) : Except Err (Graph K α) := do
  multiCheck G H
  if sameKeys G H then composeSame G H else composeDiff G H

/-- `full_join(G, H)` (after renaming) -- operators/binary.py:150-155 -/
def fullJoin (one : α) (G H : Graph K α) : Except Err (Graph K α) := do
  let rv ← union G H
  .ok { rv with
    A := fun i j =>
      if (i.val < G.n ∧ G.n ≤ j.val) ∨ (G.n ≤ i.val ∧ j.val < G.n) then some one else rv.A i j }

omit [DecidableEq K] in
/-- `complement(G)` -- operators/unary.py:8-12 -/
def complement (one : α) (G : Graph K α) : Graph K α :=
  { n := G.n, A := offdiag fun i j => if (G.A i j).isSome then none else some one
    keyToId := G.keyToId, directed := G.directed, multi := G.multi }

omit [DecidableEq K] in
/-- `reverse(G)` -- operators/unary.py:15-18, classes/digraph.py:614-621 (the copy of the graph
attributes is not modelled; `copy=False` keeps a lazily transposed matrix with the same entries) -/
def reverse (G : Graph K α) : Except Err (Graph K α) :=
  if !G.directed then .error .algorithm
  else .ok { G with A := transpose G.A }

end Model
