import Verif.Spec.Count
import Mathlib.Algebra.Field.Defs

/-! Specification vocabulary: weighted clustering coefficients over a list of nodes and a weight function `w`
(`none`: no edge).  Independent of the model. -/

namespace Spec

variable {V F : Type*} [DecidableEq V] [Field F]

/-- the normalised weight of an edge: the cube root of its share of the largest weight `m`; 0 without edge -/
def normWeight (cbrt : F → F) (m : F) (w : V → V → Option F) (a b : V) : F :=
  match w a b with
  | some x => cbrt (x / m)
  | none => 0

/-- sum over ordered pairs of distinct other nodes of the product of the three sides (each triangle twice);
`x` is the weight of a side, 0 where there is no edge -/
def triWeight (N : List V) (x : V → V → F) (v : V) : F :=
  sumOver N fun a => sumOver N fun b => if a ≠ b ∧ a ≠ v ∧ b ≠ v then x v a * x v b * x a b else 0

/-- weighted clustering coefficient with `d` neighbours -/
def wCoeff (N : List V) (x : V → V → F) (d : Nat) (v : V) : F :=
  triWeight N x v / ((d : F) * ((d : F) - 1))

/-- weighted directed clustering coefficient with total degree `d` and `r` reciprocated neighbours: every side
is taken in both directions -/
def wDirCoeff (N : List V) (x : V → V → F) (d r : Nat) (v : V) : F :=
  triWeight N (fun a b => x a b + x b a) v / (2 * ((d : F) * ((d : F) - 1) - 2 * (r : F)))

end Spec
