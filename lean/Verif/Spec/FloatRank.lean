import Verif.Model.FloatRank
import Mathlib.Algebra.Order.Field.Basic
import Mathlib.Algebra.Order.Field.Rat

/-! Specification vocabulary: arithmetic with rounding. -/

namespace Spec
open Model

variable {F : Type}

/-- `s` is what some order and some bracketing of the additions gives for the numbers in the list -/
inductive TreeSum (add : F → F → F) : List F → F → Prop
  | one (a : F) : TreeSum add [a] a
  | add {l m : List F} {s t : F} : TreeSum add l s → TreeSum add m t → TreeSum add (l ++ m) (add s t)
  | perm {l m : List F} {s : F} : l.Perm m → TreeSum add l s → TreeSum add m s

variable [Field F] [LinearOrder F]

/-- An arithmetic with unit roundoff `u` and underflow error `η` on the representable numbers `Rep`: the result of
each operation is representable and differs from the exact result by at most the fraction `u` of it, products and
quotients by at most `η` more.  Sums are formed by rounded additions in any order.  `F` is the field of exact numbers.
For IEEE 754 binary64 with round to nearest: `F = ℝ` or `ℚ`, `u = 2⁻⁵³`, `η = 2⁻¹⁰⁷⁵` (half the least positive
number), `Rep` the multiples of `2⁻¹⁰⁷⁴` with at most 53 significant bits; the format has no largest number here, so
what is proved applies to runs in which nothing overflows. -/
structure Rounded (o : Arith F) (Rep : F → Prop) (u η : F) : Prop where
  u0 : 0 ≤ u
  u1 : u < 1
  eta0 : 0 ≤ η
  zero : o.nat 0 = 0
  one : o.nat 1 = 1
  nat : ∀ k, Rep (o.nat k) ∧ 0 ≤ o.nat k ∧ |o.nat k - k| ≤ u * k
  add : ∀ x y, Rep x → Rep y → 0 ≤ x → 0 ≤ y → Rep (o.add x y) ∧ |o.add x y - (x + y)| ≤ u * (x + y)
  sub : ∀ x y, Rep x → Rep y → 0 ≤ x → 0 ≤ y → Rep (o.abs (o.sub x y)) ∧ Rep (o.sub x y) ∧
    |o.sub x y - (x - y)| ≤ u * |x - y|
  mul : ∀ x y, Rep x → Rep y → 0 ≤ x → 0 ≤ y → Rep (o.mul x y) ∧ 0 ≤ o.mul x y ∧
    |o.mul x y - x * y| ≤ u * (x * y) + η
  div : ∀ x y, Rep x → Rep y → 0 ≤ x → 0 < y → Rep (o.div x y) ∧ 0 ≤ o.div x y ∧
    |o.div x y - x / y| ≤ u * (x / y) + η
  abs : ∀ x, o.abs x = |x|
  lt : ∀ x y, o.lt x y = true ↔ x < y
  isZero : ∀ x, o.isZero x = true ↔ x = 0
  sum : ∀ l, l ≠ [] → (∀ x ∈ l, Rep x) → TreeSum o.add l (o.sum l)

/-- the growth of an error by one rounding: `1 / (1 - u)` -/
def growth (u : F) : F := 1 / (1 - u)

/-- a square root whose relative error is at most about `2u` (one unit in the last place): its square is the argument up
to four factors `growth u` -/
structure SqrtAcc (Rep : F → Prop) (u : F) (sqrt : F → F) : Prop where
  rep : ∀ x, Rep x → 0 ≤ x → Rep (sqrt x) ∧ 0 ≤ sqrt x
  err : ∀ x, Rep x → 0 ≤ x → x ≤ growth u ^ 4 * sqrt x ^ 2 ∧ sqrt x ^ 2 ≤ growth u ^ 4 * x

/-- the rounding error of one pass of `pagerank` over a graph with `n` nodes whose weights are at most `D`, in L1
norm -/
def passError (u η D : F) (n : Nat) : F :=
  2 * (growth u ^ (2 * n + 5) - 1) + 9 * n ^ 2 * (D + 1) * growth u ^ (2 * n + 5) * η

end Spec

namespace Spec

/-- a finite binary64 number: 53 significant bits, exponent at least -1074 (and, as in `binary64`, not bounded above) -/
def IsDouble (q : ℚ) : Prop := ∃ m e : ℤ, |m| < 2 ^ 53 ∧ -1074 ≤ e ∧ q = m * 2 ^ e

end Spec
