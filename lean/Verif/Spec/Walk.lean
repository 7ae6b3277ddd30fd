import Mathlib.Logic.Basic
import Mathlib.Order.Basic

/-! Specification vocabulary: walks, reachability and hop distance in an arbitrary directed
graph given by an edge relation.  Independent of the model. -/

namespace Spec

variable {V : Type*}

/-- `Walk E k u v`: there is a walk with exactly `k` edges from `u` to `v`. -/
inductive Walk (E : V → V → Prop) : Nat → V → V → Prop
  | nil (u : V) : Walk E 0 u u
  | snoc {k : Nat} {u v w : V} : Walk E k u v → E v w → Walk E (k + 1) u w

/-- `v` is reachable from `u` (0 edges allowed). -/
def Reach (E : V → V → Prop) (u v : V) : Prop := ∃ k, Walk E k u v

/-- the hop distance from `u` to `v` is `d`. -/
def IsDist (E : V → V → Prop) (u : V) (d : Nat) (v : V) : Prop :=
  Walk E d u v ∧ ∀ k, Walk E k u v → d ≤ k

/-- the hop distance from the set `S` to `v` is `d`. -/
def IsDistFrom (E : V → V → Prop) (S : V → Prop) (d : Nat) (v : V) : Prop :=
  (∃ s, S s ∧ Walk E d s v) ∧ ∀ k s, S s → Walk E k s v → d ≤ k

/-- the edges traversed against their direction. -/
def Rev (E : V → V → Prop) : V → V → Prop := fun u v => E v u

/-- edges traversed in either direction. -/
def Sym (E : V → V → Prop) : V → V → Prop := fun u v => E u v ∨ E v u

/-- `c` allows distance `d`: `None` is no limit, otherwise the limit is inclusive. -/
def Within (c : Option Int) (d : Nat) : Prop := ∀ x, c = some x → (d : Int) ≤ x

end Spec
