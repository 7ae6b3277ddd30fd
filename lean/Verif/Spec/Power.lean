import Verif.Spec.PageRank

/-! Specification of Katz centrality, eigenvector centrality and HITS: the maps whose iterates are
taken.  `w u v` is the weight of the edge `u → v`, if there is one. -/

namespace Spec

variable {V F : Type} [Field F]

/-- the weighted sum over the in-edges of `v` -/
def inSum (N : List V) (w : V → V → Option F) (x : V → F) (v : V) : F :=
  sumOver N fun u => x u * (w u v).getD 0

/-- the weighted sum over the out-edges of `u` -/
def outSum (N : List V) (w : V → V → Option F) (x : V → F) (u : V) : F :=
  sumOver N fun v => (w u v).getD 0 * x v

/-- one Katz step -/
def katzMap (N : List V) (w : V → V → Option F) (alpha : F) (beta : V → F) (x : V → F) (v : V) : F :=
  alpha * inSum N w x v + beta v

/-- division by a norm; a zero vector stays as it is -/
def over [DecidableEq F] (c : F) (x : V → F) : V → F := if c = 0 then x else fun v => x v / c

/-- the Euclidean norm -/
def norm2 (sqrt : F → F) (N : List V) (x : V → F) : F := sqrt (sumOver N fun v => x v * x v)

/-- one step of eigenvector centrality: `x (I + A)`, scaled to Euclidean norm 1 -/
def eigMap [DecidableEq F] (sqrt : F → F) (N : List V) (w : V → V → Option F) (x : V → F) : V → F :=
  over (norm2 sqrt N fun v => x v + inSum N w x v) fun v => x v + inSum N w x v

/-- the largest value (0 if there is none above 0) -/
def maxOver [LinearOrder F] (N : List V) (x : V → F) : F := (N.map x).foldr max 0

/-- one HITS step for the hubs: hubs → authorities → hubs, scaled to maximum 1 -/
def hubMap [LinearOrder F] (N : List V) (w : V → V → Option F) (x : V → F) : V → F :=
  over (maxOver N (outSum N w (inSum N w x))) (outSum N w (inSum N w x))

/-- one HITS step for the authorities: authorities → hubs → authorities, scaled to maximum 1 -/
def authMap [LinearOrder F] (N : List V) (w : V → V → Option F) (x : V → F) : V → F :=
  over (maxOver N (inSum N w (outSum N w x))) (inSum N w (outSum N w x))

end Spec
