import Verif.Model.FloydWarshall
import Verif.Spec.WWalk
import Mathlib.Algebra.Order.Field.Basic
import Mathlib.Algebra.Order.AbsoluteValue.Basic
import Mathlib.Algebra.Order.Group.Unbundled.Abs
import Mathlib.Tactic.Linarith

/-!
# Floating-point weights

The code adds weights in the dtype of the matrix.  For FP32 and FP64 every addition is the exact
sum rounded to a representable value.  What is modelled of the format is only that rounding is a
monotone map that fixes the representable values, 0 among them: `R` is the domain of exact values
(an ordered field, or the extended reals, where a sum may round to infinity), `fl` the rounding.
NaN is not modelled (adding non-negative numbers does not produce one); `-0.0` is `0`.
The functions of `Model/BellmanFord.lean` and `Model/FloydWarshall.lean` run on `Fl r` unchanged.
-/

open GB

namespace Model

/-- a rounding mode of a floating-point format -/
structure Rounding (R : Type) [Zero R] [LE R] where
  fl : R → R
  mono : ∀ {x y}, x ≤ y → fl x ≤ fl y
  idem : ∀ x, fl (fl x) = fl x
  zero : fl 0 = 0

/-- the representable values -/
def Fl {R : Type} [Zero R] [LE R] (r : Rounding R) : Type := {x : R // r.fl x = x}

namespace Fl
variable {R : Type}

/-- the exact value of a floating-point number -/
def val [Zero R] [LE R] {r : Rounding R} (x : Fl r) : R := x.1

instance [Zero R] [LinearOrder R] (r : Rounding R) : LinearOrder (Fl r) :=
  inferInstanceAs (LinearOrder {x : R // r.fl x = x})

instance [Zero R] [LE R] (r : Rounding R) : Zero (Fl r) := ⟨⟨0, r.zero⟩⟩

/-- `min_plus` and `any_plus` add with one rounding -- weighted.py:70, 89, 176, dense.py:68 -/
instance [AddMonoid R] [LE R] (r : Rounding R) : Add (Fl r) := ⟨fun x y => ⟨r.fl (x.1 + y.1), r.idem _⟩⟩

/-- `d *= iso_value`: the level (an exact integer in the dtype) times the value, rounded once
-- weighted.py:37-39, 134-135.  Simplified: levels are assumed to be exact in the dtype. -/
instance [AddMonoid R] [LE R] (r : Rounding R) : SMul Nat (Fl r) := ⟨fun l x => ⟨r.fl (l • x.1), r.idem _⟩⟩

end Fl

/-- the graph with the exact values of its weights -/
def Graph.vals {K R : Type} [Zero R] [LE R] {r : Rounding R} (G : Graph K (Fl r)) : Graph K R :=
  { n := G.n, A := mapply Fl.val G.A, keyToId := G.keyToId, directed := G.directed, multi := G.multi }

/-- rounding to a nearest element of any set of representable values, ties broken in any way, is a
rounding in the sense above (IEEE 754 round to nearest, ties to even, is one) -/
def Rounding.nearest {R : Type} [Field R] [LinearOrder R] [IsStrictOrderedRing R] (F : Set R) (h0 : 0 ∈ F) (fl : R → R)
    (hF : ∀ x, fl x ∈ F) (near : ∀ x, ∀ f ∈ F, |x - fl x| ≤ |x - f|) : Rounding R where
  fl := fl
  mono := by
    intro x y hxy
    rcases eq_or_lt_of_le hxy with rfl | hlt
    · exact le_rfl
    by_contra hc
    rw [not_le] at hc
    have h1 := near x _ (hF y)
    have h2 := near y _ (hF x)
    have h3 := sq_le_sq.2 h1
    have h4 := sq_le_sq.2 h2
    nlinarith
  idem := by
    intro x
    have := near (fl x) (fl x) (hF x)
    rw [sub_self, abs_zero] at this
    have := abs_eq_zero.1 (le_antisymm this (abs_nonneg _))
    linarith
  zero := by
    have := near 0 0 h0
    rw [sub_self, abs_zero] at this
    have := abs_eq_zero.1 (le_antisymm this (abs_nonneg _))
    linarith

end Model
