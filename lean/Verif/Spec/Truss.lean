import Verif.Spec.Count

/-! Specification of the k-truss. -/

namespace Spec

variable {V : Type*} (N : List V)

open scoped Classical in
/-- in the edge set `H`, every edge lies on at least `k - 2` triangles -/
def IsTruss (k : Int) (H : V → V → Prop) : Prop :=
  ∀ u v, H u v → k - 2 ≤ (countOf N fun w => H u w ∧ H v w : Int)

/-- `H` is an undirected set of edges of the graph `E`, self-loops left out -/
structure IsSubgraph (E H : V → V → Prop) : Prop where
  sub : ∀ u v, H u v → E u v
  irrefl : ∀ u, ¬ H u u
  symm : ∀ u v, H u v → H v u

end Spec
