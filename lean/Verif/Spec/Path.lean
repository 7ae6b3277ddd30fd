import Verif.Spec.WWalk

/-! Specification vocabulary: node lists as paths. Independent of the model. -/

namespace Spec
variable {V α : Type*}

/-- `PathWeight W l c`: `l` is a non-empty list of nodes, consecutive nodes are joined by an edge,
and `c` is the sum of the weights of those edges. -/
inductive PathWeight [Zero α] [Add α] (W : V → V → α → Prop) : List V → α → Prop
  | single (u : V) : PathWeight W [u] 0
  | cons {u v : V} {l : List V} {a c : α} :
      W u v a → PathWeight W (v :: l) c → PathWeight W (u :: v :: l) (a + c)

/-- The same, adding from left to right, starting from 0: what matters when addition rounds. -/
inductive RunWeight [Zero α] [Add α] (W : V → V → α → Prop) : List V → α → Prop
  | single (u : V) : RunWeight W [u] 0
  | snoc {l : List V} {u v : V} {c a : α} :
      RunWeight W (l ++ [u]) c → W u v a → RunWeight W (l ++ [u] ++ [v]) (c + a)

/-- `l` is a path from `s` to `t` whose total weight is the minimum over all walks. -/
def IsShortestPath [Zero α] [Add α] [LE α] (W : V → V → α → Prop) (s t : V) (l : List V) : Prop :=
  l.head? = some s ∧ l.getLast? = some t ∧ ∃ c, PathWeight W l c ∧ IsWDist W s c t

end Spec
