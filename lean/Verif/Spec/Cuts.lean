import Verif.Spec.Count

/-! Specification vocabulary for cuts: counts and sums over ordered pairs of nodes. -/

namespace Spec

variable {V R : Type*} (N : List V) (E : V → V → Prop) [∀ u v, Decidable (E u v)]

/-- number of edges leading from a node in `P` to a node in `Q` -/
def edgesFromTo (P Q : V → Prop) [DecidablePred P] [DecidablePred Q] : Nat :=
  sumOver N fun u => countOf N fun v => P u ∧ Q v ∧ E u v

/-- total weight of the edges leading from a node in `P` to a node in `Q` -/
def weightFromTo [AddCommMonoid R] (w : V → V → Option R) (P Q : V → Prop) [DecidablePred P]
    [DecidablePred Q] : R :=
  sumOver N fun u => sumOver N fun v => if P u ∧ Q v then (w u v).getD 0 else 0

/-- number of successors (neighbours) of `u`, `u` itself included when it has a self-loop -/
def outDeg (u : V) : Nat := countOf N fun v => E u v

/-- number of predecessors of `u` -/
def inDeg (u : V) : Nat := countOf N fun v => E v u

/-- sum of the out-degrees of the nodes in `P` -/
def vol (P : V → Prop) [DecidablePred P] : Nat := sumOver N fun u => if P u then outDeg N E u else 0

/-- number of edges -/
def edgeCount : Nat := sumOver N fun u => outDeg N E u

end Spec
