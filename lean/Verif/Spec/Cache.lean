import Verif.GB.Basic
import Mathlib.Order.Lattice

/-!
# What each graph property is supposed to be

Independent of the caching code: the names a user may pass to `get_property`, the type of each
value, and the value its docstring defines from the adjacency matrix alone.
-/

open GB

namespace Spec.Prop

/-- `+` includes self-edges, `-` ignores them -/
inductive Sign | p | m deriving DecidableEq, Repr
/-- `_rowwise` / `_columnwise` -/
inductive Axis | row | col deriving DecidableEq, Repr
/-- reduction operators: a monoid named by `ι` (`plus`, `min`, ...), or the aggregator `count` -/
inductive VOp (ι : Type) | mon (o : ι) | count deriving DecidableEq

/-- element type of a vector-valued reduction -/
@[reducible] def VOp.Ty (α : Type) {ι : Type} : VOp ι → Type
  | .mon _ => α
  | .count => Nat

/-- property names (`degrees±`, `row_degrees±`, `column_degrees±` are aliases of
`count_rowwise±`/`count_columnwise±`) -/
inductive Key (ι : Type)
  | A | AT | offdiag | U (s : Sign) | L (s : Sign) | diag
  | vec (r : VOp ι) (s : Sign) (ax : Axis)      -- "{op}_rowwise±", "{op}_columnwise±"
  | elem (o : ι) (s : Sign)                     -- "{op}_element±"
  | diagRed (o : ι)                             -- "{op}_diagonal"
  | recip (s : Sign) | totdeg (s : Sign) | totrecip (s : Sign)
  | hasSelf | negDiag | neg (s : Sign) | isIso | isoVal
  deriving DecidableEq

/-- the type of the value of a property -/
@[reducible] def Val (n : Nat) (α : Type) {ι : Type} : Key ι → Type
  | .A | .AT | .offdiag | .U _ | .L _ => Mat n n α
  | .diag => Vec n α
  | .vec r _ _ => Vec n (r.Ty α)
  | .elem _ _ | .diagRed _ => Option α
  | .recip _ | .totdeg _ => Vec n Nat
  | .totrecip _ => Nat
  | .hasSelf | .negDiag | .neg _ | .isIso => Bool
  | .isoVal => Option α

/-- What the lookups depend on: the matrix, the meaning of the operator names, whether the dtype
is one of the nonnegative or user-defined ones, what SuiteSparse reports as the iso value, and
the class (`DiGraph` or `Graph`). -/
structure Ctx (ι α : Type) where
  n : Nat
  A : Mat n n α
  f : ι → α → α → α
  /-- the name `min` -/
  mn : ι
  nonneg : Bool
  iso : Option α
  dir : Bool

section
variable {ι α : Type} {n : Nat}

/-- the matrix with or without its self-edges -/
def part (s : Sign) (A : Mat n n α) : Mat n n α :=
  match s with | .p => A | .m => offdiag A

/-- row reduction by a named operator -/
def redRow (f : ι → α → α → α) (r : VOp ι) (M : Mat n n α) : Vec n (r.Ty α) :=
  match r with
  | .mon o => reduceRow (f o) M
  | .count => countRow M

/-- row or column reduction -/
def red (f : ι → α → α → α) (r : VOp ι) (ax : Axis) (M : Mat n n α) : Vec n (r.Ty α) :=
  match ax with
  | .row => redRow f r M
  | .col => redRow f r (transpose M)

/-- `pair(B & B.T)` -/
def recipMat (B : Mat n n α) : Mat n n Nat := mmul pairN B (transpose B)

variable [LinearOrder α] [Zero α]

/-- the defined value of each property -/
def value (c : Ctx ι α) : (k : Key ι) → Val c.n α k
  | .A => c.A
  | .AT => transpose c.A
  | .offdiag => offdiag c.A
  | .U .p => triu c.A
  | .U .m => triu1 c.A
  | .L .p => tril c.A
  | .L .m => tril1 c.A
  | .diag => diagVec c.A
  | .vec r s ax => red c.f r ax (part s c.A)
  | .elem o s => reduceScalar (c.f o) (part s c.A)
  | .diagRed o => reduce (c.f o) (diagVec c.A)
  | .recip s => countRow (recipMat (part s c.A))
  | .totdeg s => vadd (· + ·) (countRow (part s c.A)) (countRow (transpose (part s c.A)))
  | .totrecip s => mnvals (recipMat (part s c.A))
  | .hasSelf => decide (∃ i, (c.A i i).isSome)
  | .negDiag => decide (∃ i, (c.A i i).any (· < 0) = true)
  | .neg s => decide (∃ i j, (part s c.A i j).any (· < 0) = true)
  | .isIso => c.iso.isSome
  | .isoVal => c.iso

/-- a lookup with a mask: vector-valued properties are restricted to the mask, the others
ignore it -/
def restrict (mask : Option (VMask n)) : (k : Key ι) → Val n α k → Val n α k
  | .diag, v | .vec _ _ _, v | .recip _, v | .totdeg _, v =>
    match mask with
    | none => v
    | some m => fun i => if m i then v i else none
  | .A, v | .AT, v | .offdiag, v | .U _, v | .L _, v | .elem _ _, v | .diagRed _, v
  | .totrecip _, v | .hasSelf, v | .negDiag, v | .neg _, v | .isIso, v | .isoVal, v => v

/-- What is assumed of a graph object: the operator names denote commutative monoids with `min`
the minimum; unsigned dtypes hold no negative weight; a reported iso value is the weight of
every edge, and there is an edge; the matrix of a `Graph` is symmetric. -/
structure Ctx.Valid (c : Ctx ι α) : Prop where
  assoc : ∀ o a b d, c.f o (c.f o a b) d = c.f o a (c.f o b d)
  comm : ∀ o a b, c.f o a b = c.f o b a
  min : ∀ a b, c.f c.mn a b = min a b
  nonneg : c.nonneg = true → ∀ i j w, c.A i j = some w → 0 ≤ w
  iso : ∀ x, c.iso = some x → (∃ i j, c.A i j = some x) ∧ ∀ i j w, c.A i j = some w → w = x
  symm : c.dir = false → ∀ i j, c.A i j = c.A j i

end
end Spec.Prop
