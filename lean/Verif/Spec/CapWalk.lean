import Verif.Spec.WWalk

/-! Specification vocabulary: walks that never exceed a cutoff.  Independent of the model. -/

namespace Spec

variable {V α : Type*} [Zero α] [Add α] [LE α]

/-- `CapWalk W x k c u v`: a walk from `u` to `v` with `k` edges and total weight `c`, such that the total after each
edge is at most `x` -/
inductive CapWalk (W : V → V → α → Prop) (x : α) : Nat → α → V → V → Prop
  | nil (u : V) : CapWalk W x 0 0 u u
  | snoc {k : Nat} {c a : α} {u v w : V} :
      CapWalk W x k c u v → W v w a → c + a ≤ x → CapWalk W x (k + 1) (c + a) u w

/-- `v` can be reached from `u` without exceeding `x` on the way -/
def CapReach (W : V → V → α → Prop) (x : α) (u v : V) : Prop := ∃ k c, CapWalk W x k c u v

/-- the least total of the walks from `u` to `v` that never exceed `x` is `d` -/
def IsCapDist (W : V → V → α → Prop) (x : α) (u : V) (d : α) (v : V) : Prop :=
  (∃ k, CapWalk W x k d u v) ∧ ∀ k c, CapWalk W x k c u v → d ≤ c

/-- some node can be reached from `u` without exceeding `x`, but there is no least total of doing so -/
def CapUnbounded (W : V → V → α → Prop) (x : α) (u : V) : Prop :=
  ∃ v, CapReach W x u v ∧ ¬ ∃ d, IsCapDist W x u d v

end Spec
