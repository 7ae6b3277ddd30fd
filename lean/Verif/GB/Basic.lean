import Mathlib.Data.List.FinRange
import Mathlib.Data.Fintype.Card
import Mathlib.Data.Finset.Card
import Mathlib.Data.Fintype.Prod

/-!
# GraphBLAS objects and operations

Trusted reading of python-graphblas / SuiteSparse:GraphBLAS.  A sparse object is a total
function into `Option`: index `i` stores `a` iff the function returns `some a`.
Not taken from `/repo` (it is the dependency's semantics); every use in `Verif/Model` cites
the Python lines it models.
-/

namespace GB

/-- A sparse vector of size `n`. -/
abbrev Vec (n : Nat) (α : Type*) := Fin n → Option α
/-- A sparse matrix of shape `m × n`. -/
abbrev Mat (m n : Nat) (α : Type*) := Fin m → Fin n → Option α

variable {α β γ δ : Type*} {m n k : Nat}

/-! ## Scalars -/

/-- union of two optional values: `op` when both are present (eWiseAdd on one position). -/
def omerge (op : α → α → α) : Option α → Option α → Option α
  | some a, some b => some (op a b)
  | some a, none => some a
  | none, b => b

/-- intersection of two optional values (eWiseMult on one position). -/
def ointer (op : α → β → γ) : Option α → Option β → Option γ
  | some a, some b => some (op a b)
  | _, _ => none

/-- eWiseUnion on one position: missing side replaced by its default. -/
def ounion (op : α → β → γ) (da : α) (db : β) : Option α → Option β → Option γ
  | some a, some b => some (op a b)
  | some a, none => some (op a db)
  | none, some b => some (op da b)
  | none, none => none

/-- Reduction over all positions with a monoid; absent iff nothing is stored. -/
def reduce (op : α → α → α) (v : Vec n α) : Option α :=
  (List.finRange n).foldl (fun acc i => omerge op acc (v i)) none

/-! ## Vectors -/

/-- `Vector(dtype, n)` : empty. -/
def vempty : Vec n α := fun _ => none
/-- `v[i] = a` -/
def vset (v : Vec n α) (i : Fin n) (a : α) : Vec n α := fun j => if j = i then some a else v j
/-- `del v[i]` -/
def vdel (v : Vec n α) (i : Fin n) : Vec n α := fun j => if j = i then none else v j
/-- number of stored entries -/
def nvals (v : Vec n α) : Nat := (Finset.univ.filter fun i => (v i).isSome).card
/-- `Vector.from_coo(ids, x, size=n)` with a scalar value. -/
def vofIds (ids : List (Fin n)) (a : α) : Vec n α := fun i => if i ∈ ids then some a else none
/-- `v.to_coo(values=False)[0]`: stored indices, ascending. -/
def indices (v : Vec n α) : List (Fin n) := (List.finRange n).filter fun i => (v i).isSome
/-- `v.to_coo()`: stored (index, value) pairs, ascending by index. -/
def tocoo (v : Vec n α) : List (Fin n × α) :=
  (List.finRange n).filterMap fun i => (v i).map fun a => (i, a)

/-! ## Elementwise operations -/

def vadd (op : α → α → α) (u v : Vec n α) : Vec n α := fun i => omerge op (u i) (v i)
def vmul (op : α → β → γ) (u : Vec n α) (v : Vec n β) : Vec n γ := fun i => ointer op (u i) (v i)
def vunion (op : α → β → γ) (da : α) (db : β) (u : Vec n α) (v : Vec n β) : Vec n γ :=
  fun i => ounion op da db (u i) (v i)
def vapply (f : α → β) (v : Vec n α) : Vec n β := fun i => (v i).map f

def madd (op : α → α → α) (A B : Mat m n α) : Mat m n α := fun i j => omerge op (A i j) (B i j)
def mmul (op : α → β → γ) (A : Mat m n α) (B : Mat m n β) : Mat m n γ :=
  fun i j => ointer op (A i j) (B i j)
def munion (op : α → β → γ) (da : α) (db : β) (A : Mat m n α) (B : Mat m n β) : Mat m n γ :=
  fun i j => ounion op da db (A i j) (B i j)
def mapply (f : α → β) (A : Mat m n α) : Mat m n β := fun i j => (A i j).map f

/-- `select.<value predicate>(v)`, e.g. `select.valuele(v, c)` -/
def vselect (p : α → Bool) (v : Vec n α) : Vec n α := fun i => (v i).filter p
/-- `select.<value predicate>(A)` -/
def mselect (p : α → Bool) (A : Mat m n α) : Mat m n α := fun i j => (A i j).filter p

/-! ## Masks and masked assignment -/

/-- evaluated mask over vector positions -/
abbrev VMask (n : Nat) := Fin n → Bool
abbrev MMask (m n : Nat) := Fin m → Fin n → Bool

/-- `v.S` -/
def vS (v : Vec n α) : VMask n := fun i => (v i).isSome
/-- `v.V` for a Boolean vector -/
def vV (v : Vec n Bool) : VMask n := fun i => v i == some true
/-- `~m` -/
def vnot (m : VMask n) : VMask n := fun i => !m i
def mS (A : Mat m n α) : MMask m n := fun i j => (A i j).isSome
def mnot (M : MMask m n) : MMask m n := fun i j => !M i j

/-- `w(mask, replace) << t` -/
def vassignR (mask : VMask n) (t : Vec n α) : Vec n α := fun i => if mask i then t i else none
/-- `w(mask) << t` (no replace: positions outside the mask keep `w`) -/
def vassign (mask : VMask n) (w t : Vec n α) : Vec n α := fun i => if mask i then t i else w i
/-- `w(mask) << scalar` -/
def vassignC (mask : VMask n) (w : Vec n α) (c : α) : Vec n α :=
  fun i => if mask i then some c else w i
/-- `w(mask, accum=op) << t` -/
def vaccum (op : α → α → α) (mask : VMask n) (w t : Vec n α) : Vec n α :=
  fun i => if mask i then omerge op (w i) (t i) else w i

def massignR (M : MMask m n) (T : Mat m n α) : Mat m n α := fun i j => if M i j then T i j else none
def massign (M : MMask m n) (W T : Mat m n α) : Mat m n α := fun i j => if M i j then T i j else W i j
def massignC (M : MMask m n) (W : Mat m n α) (c : α) : Mat m n α :=
  fun i j => if M i j then some c else W i j

/-! ## Matrices -/

def mempty : Mat m n α := fun _ _ => none
def mnvals (A : Mat m n α) : Nat :=
  (Finset.univ.filter fun p : Fin m × Fin n => (A p.1 p.2).isSome).card
/-- `A.T` -/
def transpose (A : Mat m n α) : Mat n m α := fun i j => A j i
/-- `A.diag()` : the main diagonal as a vector -/
def diagVec (A : Mat n n α) : Vec n α := fun i => A i i
/-- `v.diag()` : a diagonal matrix -/
def diagMat (v : Vec n α) : Mat n n α := fun i j => if i = j then v i else none
/-- `select.offdiag(A)` -/
def offdiag (A : Mat n n α) : Mat n n α := fun i j => if i = j then none else A i j
/-- `select.triu(A)`: diagonal included -/
def triu (A : Mat n n α) : Mat n n α := fun i j => if i ≤ j then A i j else none
/-- `select.tril(A)`: diagonal included -/
def tril (A : Mat n n α) : Mat n n α := fun i j => if j ≤ i then A i j else none
/-- `select.triu(A, 1)`: strictly upper -/
def triu1 (A : Mat n n α) : Mat n n α := fun i j => if i < j then A i j else none
/-- `select.tril(A, -1)`: strictly lower -/
def tril1 (A : Mat n n α) : Mat n n α := fun i j => if j < i then A i j else none
/-- `A.reduce_rowwise(op)` -/
def reduceRow (op : α → α → α) (A : Mat m n α) : Vec m α := fun i => reduce op (A i)
/-- `A.reduce_columnwise(op)` -/
def reduceCol (op : α → α → α) (A : Mat m n α) : Vec n α := reduceRow op (transpose A)
/-- `A.reduce_scalar(op)` -/
def reduceScalar (op : α → α → α) (A : Mat m n α) : Option α := reduce op (reduceRow op A)
/-- the number of stored entries in each row; absent for empty rows
(`reduce_rowwise(agg.count)`, equivalently `plus_pair`). -/
def countRow (A : Mat m n α) : Vec m Nat :=
  fun i => if nvals (A i) = 0 then none else some (nvals (A i))
/-- `A[I, J].new()` for index lists given as functions -/
def extract {p q : Nat} (A : Mat m n α) (I : Fin p → Fin m) (J : Fin q → Fin n) : Mat p q α :=
  fun i j => A (I i) (J j)

/-! ## Products over a semiring given by `add` and `mul` -/

/-- `add_mul(q @ A)` -/
def vxm (add : γ → γ → γ) (mul : α → β → γ) (q : Vec m α) (A : Mat m n β) : Vec n γ :=
  fun j => reduce add fun i => ointer mul (q i) (A i j)
/-- `add_mul(A @ v)` -/
def mxv (add : γ → γ → γ) (mul : α → β → γ) (A : Mat m n α) (v : Vec n β) : Vec m γ :=
  fun i => reduce add fun j => ointer mul (A i j) (v j)
/-- `add_mul(A @ B)` -/
def mxm (add : γ → γ → γ) (mul : α → β → γ) (A : Mat m k α) (B : Mat k n β) : Mat m n γ :=
  fun i j => reduce add fun l => ointer mul (A i l) (B l j)
/-- `add_mul(u @ v)`: inner product, absent when the patterns are disjoint -/
def dot (add : γ → γ → γ) (mul : α → β → γ) (u : Vec n α) (v : Vec n β) : Option γ :=
  reduce add fun i => ointer mul (u i) (v i)

/-- the `any` monoid, modelled as "the first operand" -/
def any' (a _b : α) : α := a
/-- `pair` (`oneb`) with Boolean result -/
def pairB (_ : α) (_ : β) : Bool := true
/-- `pair` with integer result -/
def pairN (_ : α) (_ : β) : Nat := 1
def first (a : α) (_ : β) : α := a
def second (_ : α) (b : β) : β := b

end GB
