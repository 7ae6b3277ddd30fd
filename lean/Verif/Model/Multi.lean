import Verif.Model.Dispatch
import Verif.Model.Cuts
import Mathlib.Data.Nat.Cast.Defs
import Mathlib.Data.Int.Cast.Defs

/-!
# nxapi/cuts.py and nxapi/boundary.py called with a NetworkX graph: attribute dictionaries and parallel edges
-/

open GB

namespace Model

variable {K S α : Type} [DecidableEq S]

/-- `to_graph(G, weight=weight)` for a NetworkX graph -- classes/digraph.py:393-411.  A multigraph becomes a plain
`Graph`/`DiGraph` with summed weights. -/
def toGraphFull [Add α] [Zero α] (one : α) (g : NxFull K S α) (weight : Option S) : Except Err (Graph K α) :=
  if g.cls.isInstance .digraph then .ok (fromFull one g true false weight)
  else if g.cls.isInstance .graph then .ok (fromFull one g false false weight)
  else .error .typeError

/-- `G.is_multigraph()` of a NetworkX graph (an object that is no graph has no such method; not modelled) -/
def NxFull.isMulti (g : NxFull K S α) : Bool := g.cls.isInstance .multigraph

variable [DecidableEq K]

/-- `nx.cut_size(G, S, T, weight)` -- nxapi/cuts.py:16-21 -/
def nxCutSize [AddMonoidWithOne α] (g : NxFull K S α) (s : List K) (t : Option (List K)) (weight : Option S) :
    Except Err α := do
  let G ← toGraphFull 1 g weight
  if g.isMulti || weight.isSome then cutSizeWeighted G s t
  else (cutSize G s t).map Nat.cast

/-- `nx.volume(G, S, weight)` -- nxapi/cuts.py:24-28 -/
def nxVolume [AddMonoidWithOne α] (g : NxFull K S α) (s : List K) (weight : Option S) : Except Err α := do
  let G ← toGraphFull 1 g weight
  if g.isMulti || weight.isSome then volumeWeighted G s
  else (volume G s).map Nat.cast

/-- `nx.normalized_cut_size(G, S, T, weight)` -- nxapi/cuts.py:31-38 -/
def nxNormalizedCutSize [AddMonoidWithOne α] (g : NxFull K S α) (s : List K) (t : Option (List K)) (weight : Option S) :
    Except Err ℚ := do
  let G ← toGraphFull 1 g weight
  normalizedCutSize G s t

/-- `nx.conductance(G, S, T, weight)` -- nxapi/cuts.py:41-48 -/
def nxConductance [AddMonoidWithOne α] (g : NxFull K S α) (s : List K) (t : Option (List K)) (weight : Option S) :
    Except Err ℚ := do
  let G ← toGraphFull 1 g weight
  conductance G s t

/-- `nx.edge_expansion(G, S, T, weight)` -- nxapi/cuts.py:51-55 -/
def nxEdgeExpansion [AddMonoidWithOne α] (g : NxFull K S α) (s : List K) (t : Option (List K)) (weight : Option S) :
    Except Err ℚ := do
  let G ← toGraphFull 1 g weight
  edgeExpansion G s t

/-- `nx.mixing_expansion(G, S, T, weight)` -- nxapi/cuts.py:58-62 -/
def nxMixingExpansion [AddMonoidWithOne α] (g : NxFull K S α) (s : List K) (t : Option (List K)) (weight : Option S) :
    Except Err ℚ := do
  let G ← toGraphFull 1 g weight
  mixingExpansion G s t

/-- what `edge_boundary` yields: an edge, with `{data: val}` if `data` was given -/
abbrev BItem (K S : Type) := K × K × Option (S × Int)

/-- the items before repetition and how often each is repeated -- nxapi/boundary.py:22-43 -/
def boundaryItems (G : Graph K Int) (multi : Bool) (nb1 : List K) (nb2 : Option (List K)) (data : Option S) :
    Except Err (List (BItem K S × Nat)) :=
  if multi || data.isSome then
    (edgeBoundaryData G nb1 nb2).map fun l => l.map fun t =>
      ((t.1, t.2.1, data.map fun x => (x, t.2.2)), if multi then t.2.2.toNat else 1)
  else
    (edgeBoundary G nb1 nb2).map fun l => l.map fun t => ((t.1, t.2, none), 1)

/-- `list(nx.edge_boundary(G, nbunch1, nbunch2, data=data))` -- nxapi/boundary.py:9-45 for integer weights
(`itertools.repeat(x, w)` repeats `w` times, never if `w` is negative); `data=True` is `data="weight"` -/
def nxEdgeBoundary (g : NxFull K S Int) (nb1 : List K) (nb2 : Option (List K)) (data : Option S) :
    Except Err (List (BItem K S)) := do
  let G ← toGraphFull 1 g data
  let items ← boundaryItems G g.isMulti nb1 nb2 data
  return items.flatMap fun p => List.replicate p.2 p.1

end Model
