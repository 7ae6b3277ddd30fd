import Verif.Model.Bfs
import Verif.Model.BellmanFord
import Verif.Model.Convert
import Verif.Model.Buffers

/-!
# Generators: results that are computed while they are consumed

`bfs_layers` and the `all_pairs_*` functions are Python generators: the call itself runs nothing, each
`next()` runs the body up to the following `yield`, and between two `next()` the consumer runs.

* `Gen` is the sequence of things a generator will do, for the generators whose steps only compute values.
* `layersStep` is `bfs_layers` on mutable vectors, resumed at one of its `yield`s.
-/

open GB

namespace Model.Lazy

variable {K α β γ : Type}

/-- what a generator still has to do -/
inductive Gen (β : Type) where
  /-- it returns (`StopIteration`) -/
  | done
  /-- it raises; a generator that has raised is finished -/
  | fail (e : Err)
  /-- it hands out `b`, and can be resumed -/
  | yield (b : β) (rest : Gen β)

namespace Gen

/-- one generator after the other -/
def append : Gen β → Gen β → Gen β
  | done, g => g
  | fail e, _ => fail e
  | yield b r, g => yield b (append r g)

/-- `for x in l: …` -/
def forEach (l : List γ) (f : γ → Gen β) : Gen β :=
  l.foldr (fun x r => append (f x) r) done

/-- `x = expr` followed by the rest of the body: an exception of `expr` ends the generator -/
def bind (x : Except Err γ) (f : γ → Gen β) : Gen β :=
  match x with
  | .ok c => f c
  | .error e => fail e

/-- `yield b` -/
def give (b : β) : Gen β := yield b done

/-- what `t` calls of `next()` bring: the values handed out, in order, and the exception if one of the
calls ends with one (`StopIteration` is not counted as one) -/
def take : Nat → Gen β → List β × Option Err
  | 0, _ => ([], none)
  | _ + 1, done => ([], none)
  | _ + 1, fail e => ([], some e)
  | t + 1, yield b r => let (bs, e) := take t r; (b :: bs, e)

/-- `list(generator)` -/
def toList : Gen β → Except Err (List β)
  | done => .ok []
  | fail e => .error e
  | yield b r => match toList r with
    | .ok bs => .ok (b :: bs)
    | .error e => .error e

end Gen

open Gen

section
variable [DecidableEq K]

/-- `all_pairs_shortest_path_length(G, cutoff, chunksize=)` as a generator
-- nxapi/shortest_paths/unweighted.py:30-45, with the normalised chunk size -/
def allPairsSPLGen (G : Graph K α) (cutoff : Option Int) (chunksize : Option Int) :
    Gen (K × Vec G.n Nat) :=
  match chunksize with
  | none =>
    let D := bfsLevelsFrom (offdiag G.A) (fun i => i) cutoff
    forEach ((List.finRange G.n).filter fun i : Fin G.n => decide (nvals (D i) ≠ 0)) fun i =>
      match G.keyOf i.val with
      | none => fail .keyError
      | some u => give (u, D i)
  | some c =>
    if c < 2 then
      forEach (G.keyToId.map Prod.fst) fun source =>
        bind (singleSourceSPL G source cutoff) fun d => give (source, d)
    else
      forEach (partition c (G.keyToId.map Prod.fst)) fun
        | .elem _ => fail .typeError
        | .chunk curNodes => bind (listToIds G curNodes) fun ids =>
          let D := bfsLevelsFrom (offdiag G.A) (fun r : Fin ids.length => ids.get r) cutoff
          forEach curNodes.zipIdx fun (u, r) =>
            if h : r < ids.length then give (u, D ⟨r, h⟩) else fail .indexError

variable [AddCommGroup α] [LinearOrder α]

/-- `all_pairs_bellman_ford_path_length(G, chunksize=)` as a generator
-- nxapi/shortest_paths/weighted.py:16-45, with the normalised chunk size.  `Unbounded` and
`NetworkXUnbounded` are both `unbounded`. -/
def allPairsBFGen (G : Graph K α) (iso : Option α) (fdiv : α → α → Int) (chunksize : Option Int) :
    Gen (K × Vec G.n α) :=
  match chunksize with
  | none => bind (bellmanFordPathLengths G iso (fun i => i)) fun D =>
    forEach ((List.finRange G.n).filter fun i : Fin G.n => decide (nvals (D i) ≠ 0)) fun i =>
      match G.keyOf i.val with
      | none => fail .keyError
      | some u => give (u, D i)
  | some c =>
    if c < 2 then
      forEach (G.keyToId.map Prod.fst) fun source =>
        bind (singleSourceBF G iso fdiv source none) fun d => give (source, d)
    else
      forEach (partition c (G.keyToId.map Prod.fst)) fun
        | .elem _ => fail .typeError
        | .chunk curNodes => bind (listToIds G curNodes) fun ids =>
          bind (bellmanFordPathLengths G iso (fun r : Fin ids.length => ids.get r)) fun D =>
          forEach curNodes.zipIdx fun (u, r) =>
            if h : r < ids.length then give (u, D ⟨r, h⟩) else fail .indexError

end

/-! ## bfs_layers on mutable vectors -/

open Model.Buffers

variable {n : Nat}

/-- where `bfs_layers` is suspended -- traversal/breadth_first_search.py:10-27 -/
inductive LPos where
  /-- before its first statement -/
  | start
  /-- at a `yield`; the next value of the loop variable is `i`, the names `v` and `q` hold these objects -/
  | at (i : Nat) (v q : Nat)

/-- `x.dup()` -/
def dup (a : Nat) : HM n Bool Nat := do
  let v ← read a
  new v

/-- one `next()` of `bfs_layers`: `none` when it returns, else the vector handed out and where it is
suspended -- traversal/breadth_first_search.py:10-27.  `ids` is what `G.list_to_ids(sources)` gives, `A` is
`G.get_property("offdiag")`. -/
def layersStep (ids : Except Err (List (Fin n))) (A : Mat n n β) :
    LPos → HM n Bool (Option (Nat × LPos))
  | .start =>
    match ids with
    | .error e => raise e
    | .ok ids =>
      if ids.length = 0 then pure none
      else do
        let v ← newEmpty
        let q ← new (vofIds ids true)
        let a ← dup q
        pure (some (a, .at 1 v q))
  | .at i v q =>
    if i < n then do
      let x ← read v
      let y ← read q
      write v (vassignC (vS y) x true)
      let x ← read v
      let y ← read q
      write q (bfsStep A x y)
      let y ← read q
      if nvals y = 0 then pure none
      else do
        let a ← dup q
        pure (some (a, .at (i + 1) v q))
    else pure none

end Model.Lazy
