import Verif.Spec.PageRank

/-! Entries of the graph matrices, over nodes `N` (with repetitions if a node is listed twice).  `w u v` is
the weight of the edge `u → v`, if there is one; `same` says that row and column are the same index. -/

namespace Spec

variable {V F : Type}

section
variable [CommRing F]

/-- every edge has weight 1 -/
def unitWeights (w : V → V → Option F) : V → V → Option F := fun u v => (w u v).map fun _ => 1

/-- the weights used: those of the graph, or 1 -/
def weightsOf (isWeighted : Bool) (w : V → V → Option F) : V → V → Option F :=
  if isWeighted then w else unitWeights w

/-- total weight of the edges into `v` -/
def inWeight (N : List V) (w : V → V → Option F) (v : V) : F := sumOver N fun u => (w u v).getD 0

/-- total weight of all edges among `N` -/
def totalWeight (N : List V) (w : V → V → Option F) : F := sumOver N fun u => outWeight N w u

/-- `D - A` -/
def lapEntry (N : List V) (w : V → V → Option F) (same : Bool) (u v : V) : F :=
  (if same then outWeight N w u else 0) - (w u v).getD 0

end

variable [Field F]

/-- `1 / sqrt (degree)`, and 0 for a node without out-edges -/
def invSqrtDeg (sqrt : F → F) (N : List V) (w : V → V → Option F) (u : V) : F :=
  if Dangling N w u then 0 else 1 / sqrt (outWeight N w u)

/-- `D^(-1/2) (D - A) D^(-1/2)` -/
def normLapEntry (sqrt : F → F) (N : List V) (w : V → V → Option F) (same : Bool) (u v : V) : F :=
  invSqrtDeg sqrt N w u * lapEntry N w same u v * invSqrtDeg sqrt N w v

/-- `A - k kᵀ / m` -/
def modEntry (N : List V) (w : V → V → Option F) (u v : V) : F :=
  (w u v).getD 0 - outWeight N w u * outWeight N w v / totalWeight N w

/-- `A - kout kinᵀ / m` -/
def dirModEntry (N : List V) (w : V → V → Option F) (u v : V) : F :=
  (w u v).getD 0 - outWeight N w u * inWeight N w v / totalWeight N w

/-- `(r² - 1) I - r A + D` -/
def betheEntry (N : List V) (w : V → V → Option F) (r : F) (same : Bool) (u v : V) : F :=
  (if same then r ^ 2 - 1 + outWeight N w u else 0) - r * (w u v).getD 0

end Spec
