import Verif.Model.FloatRank
import Mathlib.Data.Int.Log
import Mathlib.Data.Rat.Floor
import Mathlib.Algebra.Order.Field.Rat

/-!
# IEEE 754 binary64 arithmetic

Not code of the repository: the arithmetic the repository's `float` and FP64 operations are done in (IEEE 754-2019,
3.4 and 4.3.1, roundTiesToEven), on rational numbers.  Simplification: the exponent has no upper bound (no overflow to
infinity), so what is proved holds for runs in which no intermediate result reaches `2¹⁰²⁴`; no NaN; -0 is 0.
-/

namespace Model

/-- the nearest integer, ties to even -/
def rne (q : ℚ) : ℤ :=
  if Int.fract q < 1 / 2 then ⌊q⌋
  else if 1 / 2 < Int.fract q then ⌊q⌋ + 1
  else if ⌊q⌋ % 2 = 0 then ⌊q⌋ else ⌊q⌋ + 1

/-- the exponent of the last place: 53 significant bits, and not below `2⁻¹⁰⁷⁴` -/
def ulpExp (q : ℚ) : ℤ := max (Int.log 2 |q| - 52) (-1074)

/-- rounding to binary64 -/
def rnd64 (q : ℚ) : ℚ := rne (q / 2 ^ ulpExp q) * 2 ^ ulpExp q

/-- binary64 arithmetic; `sum` is the library's summation -/
def binary64 (sum : List ℚ → ℚ) : Arith ℚ where
  add x y := rnd64 (x + y)
  sub x y := rnd64 (x - y)
  mul x y := rnd64 (x * y)
  div x y := rnd64 (x / y)
  abs x := |x|
  nat k := rnd64 k
  lt x y := decide (x < y)
  isZero x := decide (x = 0)
  sum := sum

end Model
