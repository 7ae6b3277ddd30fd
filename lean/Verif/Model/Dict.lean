import Verif.Model.Graph

/-!
# Python dictionaries

Insertion-ordered association lists with distinct keys (language semantics, not code of `/repo`).
-/

namespace Model

variable {K V : Type} [DecidableEq K]

/-- `d[k] = v`: an existing key keeps its position -/
def dset : List (K × V) → K → V → List (K × V)
  | [], k, v => [(k, v)]
  | (k', v') :: d, k, v => if k' = k then (k, v) :: d else (k', v') :: dset d k v

/-- `d.update(e)` / inserting the pairs of a dict comprehension one after the other -/
def dupdate (d e : List (K × V)) : List (K × V) := e.foldl (fun d p => dset d p.1 p.2) d

/-- a dict comprehension over the given pairs -/
def dictOf (l : List (K × V)) : List (K × V) := dupdate [] l

end Model
