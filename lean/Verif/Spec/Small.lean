import Verif.Spec.Cuts

/-! Specification vocabulary for the small algorithms.  Independent of the model. -/

namespace Spec

variable {V : Type*}

/-- no edge touches `u` (a self-loop does) -/
def Isolated (E : V → V → Prop) (u : V) : Prop := ∀ v, ¬ E u v ∧ ¬ E v u

/-- every node has the same number `k` of neighbours (a self-loop counts once) -/
def Regular (N : List V) (E : V → V → Prop) [∀ u v, Decidable (E u v)] (k : Nat) : Prop :=
  ∀ u ∈ N, outDeg N E u = k

/-- every node has `k` predecessors -/
def InRegular (N : List V) (E : V → V → Prop) [∀ u v, Decidable (E u v)] (k : Nat) : Prop :=
  ∀ u ∈ N, inDeg N E u = k

/-- between any two different nodes exactly one direction is an edge, and there are no self-loops -/
def Tournament (N : List V) (E : V → V → Prop) : Prop :=
  (∀ u ∈ N, ¬ E u u) ∧ ∀ u ∈ N, ∀ v ∈ N, u ≠ v → (E u v ↔ ¬ E v u)

/-- a non-empty list of different nodes in which consecutive nodes are joined by an edge -/
def SimplePath (N : List V) (E : V → V → Prop) (l : List V) : Prop :=
  l ≠ [] ∧ (∀ u ∈ l, u ∈ N) ∧ l.Nodup ∧ l.IsChain E

end Spec

namespace Spec
variable {V : Type*} (N : List V) (E : V → V → Prop) [∀ u v, Decidable (E u v)]

/-- number of nodes joined to `u` in both directions (`u` itself included when it has a self-loop) -/
def mutualDeg (u : V) : Nat := countOf N fun v => E u v ∧ E v u

/-- number of edges `u → v` with `u ≠ v` whose reverse is an edge too -/
def mutualEdges [DecidableEq V] : Nat := sumOver N fun u => countOf N fun v => u ≠ v ∧ E u v ∧ E v u

/-- `f` is an isomorphism from the graph `(N, E)` to the graph `(N', E')` -/
structure Iso {V V' : Type*} (N : List V) (E : V → V → Prop) (N' : List V') (E' : V' → V' → Prop)
    (f : V → V') : Prop where
  maps : ∀ u ∈ N, f u ∈ N'
  inj : ∀ u ∈ N, ∀ v ∈ N, f u = f v → u = v
  surj : ∀ w ∈ N', ∃ u ∈ N, f u = w
  edge : ∀ u ∈ N, ∀ v ∈ N, (E u v ↔ E' (f u) (f v))

end Spec
