import Verif.Model.Float

/-! Specification vocabulary: how accurate a floating-point format is. -/

namespace Spec
open Model

variable {R : Type} [Field R] [LinearOrder R] [IsStrictOrderedRing R]

/-- Rounded sums and multiples of non-negative floating-point numbers with property `S` have relative
error at most `u`, as long as the exact value does not exceed `B`; sums keep the property.
(Every double: `u = 2⁻⁵³`, no bound, as sums and integer multiples are exact in the subnormal range.
Integers: `u = 0` and `B = 2⁵³`.  Both are proved in Props/Float64.lean.) -/
structure Accurate (r : Rounding R) (S : R → Prop) (u B : R) : Prop where
  u_nonneg : 0 ≤ u
  u_le : u ≤ 1
  zero : S 0
  add : ∀ x y : Fl r, S x.val → S y.val → 0 ≤ x.val → 0 ≤ y.val → x.val + y.val ≤ B → S (x + y).val ∧
    |(x + y).val - (x.val + y.val)| ≤ u * (x.val + y.val)
  smul : ∀ (l : Nat) (x : Fl r), S x.val → 0 ≤ x.val → l * x.val ≤ B →
    |(l • x).val - l * x.val| ≤ u * (l * x.val)

end Spec
