import Verif.Model.FloydWarshall
import Verif.Model.BellmanFordPath
import Mathlib.Logic.Function.Basic

/-!
# The work space of floyd_warshall and bellman_ford_path, statement by statement

`Model/FloydWarshall.lean` and `Model/BellmanFordPath.lean` give one pass of the loops as a pure function
of the result matrices.  The code keeps a work space that survives from pass to pass (`Row`, `Col`,
`Outer`, `Mask`, `P_row`; `prev`, `cur`, `mask`, `B`, `Indices`, `indices`, `rows`, `cols`), in which two
names can stand for one object: `P_row` is `Row` when the dtypes agree, `Col` is a transposed *view* of
`Row` or of `P_row` for undirected graphs, `prev` and `cur` are exchanged at every pass.  Here every
statement overwrites its object.
-/

open GB

namespace Model.Workspace

variable {V α : Type} {n : Nat}

/-! ## floyd_warshall -/

/-- the work space of dense.py:38-59.  The `1 x n` and `n x 1` objects are addressed: `row` is 0, an owned
`Col` is 1, a `P_row` of its own is 2; `col` is the object that the name `Col` stands for.  One domain `V`
holds the values of all dtypes. -/
structure FW (n : Nat) (V : Type) where
  D : Mat n n V
  P : Mat n n V
  Outer : Mat n n V
  Mask : Mat n n Bool
  vec : Nat → Vec n V
  col : Nat

section
variable [Add V] [LinearOrder V]

/-- the object that `P_row` stands for: `Row` when `P.dtype == dtype` -- dense.py:54-57 -/
def pRow (shared : Bool) : Nat := if shared then 0 else 2

/-- `Row << D[[i], :]` -- dense.py:62 -/
def fwRow (i : Fin n) (s : FW n V) : FW n V :=
  { s with vec := Function.update s.vec 0 (fun b => s.D i b) }
/-- `Col << D[:, [i]]` -- dense.py:63-64 -/
def fwColOwn (i : Fin n) (s : FW n V) : FW n V :=
  { s with vec := Function.update s.vec 1 (fun a => s.D a i) }
/-- `Row(binary.any) << D.T[[i], :]; Col = Row.T` -- dense.py:65-67 -/
def fwColView (choose : V → V → V) (i : Fin n) (s : FW n V) : FW n V :=
  { s with vec := Function.update s.vec 0 (fun b => omerge choose (s.vec 0 b) (s.D b i)), col := 0 }
/-- `Outer << any_plus(Col @ Row)` -- dense.py:68 -/
def fwOuterW (s : FW n V) : FW n V :=
  { s with Outer := fun a b => ointer (· + ·) (s.vec s.col a) (s.vec 0 b) }
/-- `D(binary.min) << select.offdiag(Outer)`, or `select.triu(Outer, 1)` -- dense.py:70-76 -/
def fwMin (directed : Bool) (s : FW n V) : FW n V :=
  { s with D := madd min s.D (if directed then offdiag s.Outer else triu1 s.Outer) }
/-- `Mask << indexunary.offdiag(Outer)`, or `triu(Outer, 1)` -- dense.py:79-82 -/
def fwMask1 (directed : Bool) (s : FW n V) : FW n V :=
  { s with Mask := fun a b => (s.Outer a b).map fun _ => if directed then decide (a ≠ b) else decide (a < b) }
/-- `Mask(binary.second) << binary.lt(Outer & D)` -- dense.py:83 -/
def fwMask2 (s : FW n V) : FW n V :=
  { s with Mask := fun a b =>
      omerge second (s.Mask a b) (ointer (fun x y => decide (x < y)) (s.Outer a b) (s.D a b)) }
/-- `Outer(Mask.V, replace) << Outer` -- dense.py:84 -/
def fwOuterMask (s : FW n V) : FW n V :=
  { s with Outer := massignR (fun a b => s.Mask a b == some true) s.Outer }
/-- `D(Outer.S) << Outer` -- dense.py:87 -/
def fwDist (s : FW n V) : FW n V := { s with D := massign (mS s.Outer) s.D s.Outer }
/-- `P_row << P[[i], :]` -- dense.py:90 -/
def fwPRow (shared : Bool) (i : Fin n) (s : FW n V) : FW n V :=
  { s with vec := Function.update s.vec (pRow shared) (fun b => s.P i b) }
/-- `P_row(binary.any) << P.T[[i], :]; Col = P_row.T` -- dense.py:91-93 -/
def fwPView (shared : Bool) (choose : V → V → V) (i : Fin n) (s : FW n V) : FW n V :=
  { s with
    vec := Function.update s.vec (pRow shared) (fun b => omerge choose (s.vec (pRow shared) b) (s.P b i))
    col := pRow shared }
/-- `P(Outer.S) << any_second(Col @ P_row)` -- dense.py:94 -/
def fwPred (shared : Bool) (s : FW n V) : FW n V :=
  let T : Mat n n V := fun a b => ointer second (s.vec s.col a) (s.vec (pRow shared) b)
  { s with P := massign (mS s.Outer) s.P T }

/-- one pass of the loop -- dense.py:61-94 -/
def fwPass (directed preds shared : Bool) (choose : V → V → V) (s : FW n V) (i : Fin n) : FW n V :=
  let s := fwRow i s
  let s := if directed then fwColOwn i s else fwColView choose i s
  let s := fwOuterW s
  if !preds then fwMin directed s
  else
    let s := fwMask1 directed s
    let s := fwMask2 s
    let s := fwOuterMask s
    let s := fwDist s
    let s := fwPRow shared i s
    let s := if directed then s else fwPView shared choose i s
    fwPred shared s

/-- the work space before the loop: `D << A`, `P = rowindex(D)`, the other objects as they are (the code
allocates them empty); `Col` is owned when directed -- dense.py:38-59 -/
def fwAlloc (idx : Fin n → V) (A : Mat n n V) (Outer : Mat n n V) (Mask : Mat n n Bool)
    (vec : Nat → Vec n V) : FW n V :=
  { D := A, P := fun a b => (A a b).map fun _ => idx a, Outer := Outer, Mask := Mask, vec := vec, col := 1 }

/-- the loop over `nonempty_nodes` -- dense.py:61-94 -/
def fwRun (directed preds shared : Bool) (choose : V → V → V) (nonempty : VMask n) (s : FW n V) : FW n V :=
  ((List.finRange n).filter nonempty).foldl (fwPass directed preds shared choose) s

/-- after the loop: `D(any) << D.T; P(any) << P.T` for undirected graphs, then the diagonal of `D`
-- dense.py:97-109 -/
def fwClose [Zero V] (directed : Bool) (choose : V → V → V) (s : FW n V) : Mat n n V × Mat n n V :=
  let D := if directed then s.D else madd choose s.D (transpose s.D)
  let P := if directed then s.P else madd choose s.P (transpose s.P)
  (P, massignC (fun a b => decide (a = b)) D 0)

/-- `floyd_warshall_predecessor_and_distance(G, True, compute_predecessors=preds)` from `A = G._A`
-- dense.py:13-111 -/
def fwAll [Zero V] (directed preds shared : Bool) (choose : V → V → V) (idx : Fin n → V) (A : Mat n n V)
    (Outer : Mat n n V) (Mask : Mat n n Bool) (vec : Nat → Vec n V) : Mat n n V × Mat n n V :=
  fwClose directed choose (fwRun directed preds shared choose (fwNonempty directed A)
    (fwAlloc idx (fwStart directed A) Outer Mask vec))

end

/-! ## bellman_ford_path -/

/-- the work space of weighted.py:231-245 -/
structure BFP (n : Nat) (α : Type) where
  d : Vec n α
  p : Vec n (Fin n)
  prev : Vec n α
  cur : Vec n α
  indices : Vec n (Fin n)
  mask : Vec n Bool
  B : Mat n n α
  /-- `B` after `iseq`: the truth values, which the code keeps in the same object -/
  Beq : Mat n n Bool
  Indices : Mat n n (Fin n)
  /-- the arrays of indices `rows`, `cols` -/
  rows : List (Fin n)
  cols : List (Fin n)
  cutoff : Option α
  /-- the loop ended by `break` -/
  broke : Bool

section
variable [Zero α] [Add α] [LinearOrder α]

/-- `cur << min_plus(prev @ A)` and the cutoff -- weighted.py:250-252, 287-289 -/
def bfpRelax (A : Mat n n α) (s : BFP n α) : BFP n α :=
  let s := { s with cur := vxm min (· + ·) s.prev A }
  match s.cutoff with
  | none => s
  | some c => { s with cur := vselect (fun a => decide (a ≤ c)) s.cur }
/-- `mask << one(cur); mask(binary.second) << binary.lt(cur & d)` -- weighted.py:255-256 -/
def bfpMask (s : BFP n α) : BFP n α :=
  let s := { s with mask := vapply (fun _ => true) s.cur }
  { s with mask := vaccum second (fun _ => true) s.mask (vmul (fun a b => decide (a < b)) s.cur s.d) }
/-- `cur(mask.V, replace) << cur` -- weighted.py:259 -/
def bfpDrop (s : BFP n α) : BFP n α := { s with cur := vassignR (vV s.mask) s.cur }
/-- `d(cur.S) << cur; if not is_negative: cutoff = cur.get(dst_id, cutoff)` -- weighted.py:263-266 -/
def bfpUpdate (prune : Option (Fin n)) (s : BFP n α) : BFP n α :=
  let s := { s with d := vassign (vS s.cur) s.d s.cur }
  match prune with
  | none => s
  | some t => { s with cutoff := (s.cur t).or s.cutoff }
/-- `rows = cols; cols = cur.to_coo(values=False)[0]; B.clear(); B[rows, cols] = A[rows, cols]`
-- weighted.py:272-275 -/
def bfpSelect (A : Mat n n α) (s : BFP n α) : BFP n α :=
  let s := { s with rows := s.cols }
  let s := { s with cols := GB.indices s.cur }
  let s := { s with B := mempty }
  { s with B := fun i j => if i ∈ s.rows ∧ j ∈ s.cols then A i j else s.B i j }
/-- `B << plus(prev & B); B << iseq(B & cur); B << select.valuene(B, False)` -- weighted.py:278-280 -/
def bfpMatch (s : BFP n α) : BFP n α :=
  let s := { s with B := fun i j => ointer (· + ·) (s.prev i) (s.B i j) }
  let s := { s with Beq := fun i j => ointer (fun a b => decide (a = b)) (s.B i j) (s.cur j) }
  { s with Beq := mselect (fun b => b != false) s.Beq }
/-- `Indices << rowindex(B); indices << Indices.reduce_columnwise(min); p(indices.S) << indices`
-- weighted.py:281-283 -/
def bfpParents (s : BFP n α) : BFP n α :=
  let s := { s with Indices := fun i j => (s.Beq i j).map fun _ => i }
  let s := { s with indices := reduceCol min s.Indices }
  { s with p := vassign (vS s.indices) s.p s.indices }
/-- `prev, cur = cur, prev` -- weighted.py:284 -/
def bfpSwap (s : BFP n α) : BFP n α := { s with prev := s.cur, cur := s.prev }

/-- the loop -- weighted.py:246-284 -/
def bfpLoop (A : Mat n n α) (prune : Option (Fin n)) : Nat → BFP n α → BFP n α
  | 0, s => s
  | m + 1, s =>
    let s := bfpDrop (bfpMask (bfpRelax A s))
    if nvals s.cur = 0 then { s with broke := true }
    else bfpLoop A prune m (bfpSwap (bfpParents (bfpMatch (bfpSelect A (bfpUpdate prune s)))))

/-- the work space before the loop: `d[src] = 0; p[src] = src; prev = d.dup(); cols` the indices of `prev`;
the other objects as they are (the code allocates them empty) -- weighted.py:231-245 -/
def bfpAlloc (src : Fin n) (w : BFP n α) : BFP n α :=
  { w with
    d := vset vempty src 0, p := vset vempty src src, prev := vset vempty src 0
    cols := GB.indices (vset vempty src 0 : Vec n α), cutoff := none, broke := false }

/-- `bellman_ford_path` after the iso shortcut, on row indices, with the `else` of the loop and the use of
`mask` and `cur` after it -- weighted.py:223-308 -/
def bfpCore (A : Mat n n α) (src dst : Fin n) (w : BFP n α) : Except Err (List (Fin n)) := do
  let O := offdiag A
  let prune := if hasNegEdgesM A then none else some dst
  let s := bfpLoop O prune (n - 1) (bfpAlloc src w)
  let s := if s.broke then s else
    let s := bfpRelax O s
    { s with mask := vmul (fun a b => decide (a < b)) s.cur s.d }
  if !s.broke && (s.mask dst).getD false then .error .unbounded
  else do
    let path ← reconstructPath s.p src dst
    if hasNegDiag A && !path.isEmpty then do
      bfPathDiag A dst path s.cur
      return path
    else return path

end

end Model.Workspace
