import Verif.Spec.Walk
import Mathlib.Algebra.Group.Defs
import Mathlib.Order.Defs.LinearOrder

/-! Specification vocabulary: weighted walks, minimum walk weight, negative cycles, for an
arbitrary weighted edge relation `W u v w` ("there is an edge `u → v` of weight `w`").
Independent of the model. -/

namespace Spec

variable {V α : Type*}

/-- `WWalk W k c u v`: there is a walk from `u` to `v` with exactly `k` edges and total
weight `c`. -/
inductive WWalk [Zero α] [Add α] (W : V → V → α → Prop) : Nat → α → V → V → Prop
  | nil (u : V) : WWalk W 0 0 u u
  | snoc {k : Nat} {c a : α} {u v w : V} :
      WWalk W k c u v → W v w a → WWalk W (k + 1) (c + a) u w

/-- the minimum total weight over all walks from `u` to `v` is `d` (and is attained). -/
def IsWDist [Zero α] [Add α] [LE α] (W : V → V → α → Prop) (u : V) (d : α) (v : V) : Prop :=
  (∃ k, WWalk W k d u v) ∧ ∀ k c, WWalk W k c u v → d ≤ c

/-- `v` is reachable from `u` along weighted edges. -/
def WReach [Zero α] [Add α] (W : V → V → α → Prop) (u v : V) : Prop := ∃ k c, WWalk W k c u v

/-- a closed walk of negative total weight through `x` (a self-loop counts). -/
def NegCycleAt [Zero α] [Add α] [LT α] (W : V → V → α → Prop) (x : V) : Prop :=
  ∃ k c, WWalk W k c x x ∧ c < 0

/-- a negative cycle is reachable from `u`. -/
def NegCycleFrom [Zero α] [Add α] [LT α] (W : V → V → α → Prop) (u : V) : Prop :=
  ∃ x, WReach W u x ∧ NegCycleAt W x

end Spec
