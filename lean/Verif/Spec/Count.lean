import Mathlib.Algebra.Group.Defs
import Mathlib.Data.List.Basic
import Mathlib.Algebra.BigOperators.Group.List.Basic

/-! Specification vocabulary: sums and counts over the nodes of a graph given by a list of nodes
(without repetition) and an edge relation.  Independent of the model. -/

namespace Spec

variable {V R : Type*}

/-- sum of `f` over the nodes -/
def sumOver [AddCommMonoid R] (N : List V) (f : V → R) : R := (N.map f).sum

/-- number of nodes satisfying `p` -/
def countOf (N : List V) (p : V → Prop) [DecidablePred p] : Nat := N.countP fun u => decide (p u)

variable [DecidableEq V] (N : List V) (E : V → V → Prop) [∀ u v, Decidable (E u v)]

/-- number of neighbours (successors) of `v` other than `v` -/
def degree (v : V) : Nat := countOf N fun u => u ≠ v ∧ E v u

/-- number of *ordered* pairs of distinct neighbours `a`, `b` of `v` (other than `v`) that are
joined to each other; every triangle through `v` gives two such pairs. -/
def triPairs (v : V) : Nat :=
  sumOver N fun a => countOf N fun b => a ≠ b ∧ a ≠ v ∧ b ≠ v ∧ E v a ∧ E v b ∧ E a b

end Spec

namespace Spec
variable {V : Type*} [DecidableEq V] (N : List V) (E : V → V → Prop) [∀ u v, Decidable (E u v)]

/-- number of directed edges between `a` and `b`, in both directions: 0, 1 or 2 -/
def between (a b : V) : Nat := (if E a b then 1 else 0) + (if E b a then 1 else 0)

/-- directed triangles at `v` as NetworkX counts them, over *ordered* pairs of other nodes (so each
is counted twice): every choice of a direction for each of the three sides. -/
def dirTriPairs (v : V) : Nat :=
  sumOver N fun a => sumOver N fun b =>
    if a ≠ b ∧ a ≠ v ∧ b ≠ v then between E v a * between E v b * between E a b else 0

/-- in-degree plus out-degree, self-loops ignored -/
def totalDegree (v : V) : Nat := degree N E v + countOf N fun u => u ≠ v ∧ E u v

/-- number of nodes joined to `v` in both directions, `v` itself excluded -/
def recipDegree (v : V) : Nat := countOf N fun u => u ≠ v ∧ E v u ∧ E u v

end Spec
