import Verif.Model.PowerIter
import Mathlib.Logic.Function.Basic

/-!
# The power iterations, statement by statement, on mutable vectors

`Model/PowerIter.lean` gives the iterations as pure functions of the previous vector.  The code does not
work like that: it allocates a few `Vector`s, overwrites them in place, exchanges the names of two of them
at the start of every pass, and `is_converged` destroys the previous vector.  Here a `Vector` object is an
address in a heap, a Python variable holds an address, `<<`, `+=` and `*=` overwrite the object at the
address, `Vector(float, N)` and `.new()` allocate.  The adjacency matrix is never assigned to and stays a
value.  `x.name = name` (the display name of a vector) is not modelled.
-/

open GB

namespace Model.Buffers

variable {F : Type} {n : Nat}

/-- the `Vector` objects in existence: those with an address below `next`; the contents of every address -/
structure Heap (n : Nat) (F : Type) where
  next : Nat
  cell : Nat → Vec n F

/-- a computation on the heap that returns a value or raises; the heap survives an exception -/
def HM (n : Nat) (F : Type) (β : Type) : Type := Heap n F → Except Err β × Heap n F

namespace HM
variable {β γ : Type}

/-- return a value -/
def pure (b : β) : HM n F β := fun h => (.ok b, h)
/-- one statement after the other; an exception skips the rest -/
def bind (m : HM n F β) (f : β → HM n F γ) : HM n F γ := fun h =>
  match m h with
  | (.ok b, h') => f b h'
  | (.error e, h') => (.error e, h')

instance : Monad (HM n F) where
  pure := HM.pure
  bind := HM.bind
end HM

/-- `raise e` -/
def raise {β : Type} (e : Err) : HM n F β := fun h => (.error e, h)
/-- the contents of the vector at `a`, an operand of an expression -/
def read (a : Nat) : HM n F (Vec n F) := fun h => (.ok (h.cell a), h)
/-- `v << expr`, and `v += expr`, `v *= expr` once the new contents are known: in place -/
def write (a : Nat) (v : Vec n F) : HM n F Unit :=
  fun h => (.ok (), { h with cell := Function.update h.cell a v })
/-- `(expr).new()` -/
def new (v : Vec n F) : HM n F Nat :=
  fun h => (.ok h.next, { next := h.next + 1, cell := Function.update h.cell h.next v })
/-- `Vector(float, N)` -/
def newEmpty : HM n F Nat := new vempty

section
variable [Field F] [LinearOrder F]

/-- the argument `how` of `normalize` -- _helpers.py:4-13 -/
inductive How | l1 | l2 | linf

/-- `denom` -- _helpers.py:6-11 -/
def denomOf (sqrt : F → F) (how : How) (x : Vec n F) : F :=
  match how with
  | .l1 => (reduce (· + ·) x).getD 0
  | .l2 => sqrt ((dot (· + ·) (· * ·) x x).getD 0)
  | .linf => (reduce max x).getD 0

/-- `normalize(x, how)` -- _helpers.py:4-18 -/
def normalizeB (sqrt : F → F) (x : Nat) (how : How) : HM n F Unit := do
  let v ← read x
  let denom := denomOf sqrt how v
  if denom = 0 then pure () else write x (vapply (fun a => a * (1 / denom)) v)

/-- `is_converged(xprev, x, tol)`: leaves the differences in `xprev` -- _helpers.py:21-29 -/
def isConvergedB (xprev x : Nat) (tol : F) : HM n F Bool := do
  let p ← read xprev
  let v ← read x
  write xprev (vadd (· - ·) p v)
  let d ← read xprev
  write xprev (vapply abs d)
  let d ← read xprev
  pure (decide ((reduce (· + ·) d).getD 0 < n * tol))

/-! ## pagerank -/

/-- the initial vector -- pagerank_alg.py:28-36 -/
def prInitB (nstart : Option Nat) : HM n F Nat := do
  let x ← newEmpty
  match nstart with
  | none => write x fun _ => some (1 / n)
  | some s =>
    let v ← read s
    let denom := (reduce (· + ·) v).getD 0
    if denom = 0 then raise .zeroDivision else write x (vapply (fun a => a / denom) v)
  pure x

/-- `p`: a number, or a new vector -- pagerank_alg.py:38-45 -/
def prPB (pers : Option Nat) : HM n F (F ⊕ Nat) :=
  match pers with
  | none => pure (.inl (1 / n))
  | some s => do
    let v ← read s
    let denom := (reduce (· + ·) v).getD 0
    if denom = 0 then raise .zeroDivision
    else do
      let p ← new (vapply (fun a => a / denom) v)
      pure (.inr p)

/-- `S`, from the (cached) row sums -- pagerank_alg.py:47-60 -/
def prSB (alpha : F) (rowDegrees : Nat) (iso : Option F) : HM n F Nat := do
  let r ← read rowDegrees
  let S ← new (vapply (fun d => alpha / d) r)
  match iso with
  | none => pure ()
  | some c =>
    if c ≠ 1 then do
      let v ← read S
      write S (vapply (fun s => s * c) v)
    else pure ()
  pure S

/-- the dangling vectors: `none` when no node is dangling, else `(dangling_mask, dangling_weights)`
-- pagerank_alg.py:62-75.  `alpha / denom` with `denom` 0 raises, as in Python. -/
def prDanglingB (alpha : F) (S : Nat) (p : F ⊕ Nat) (dangling : Option Nat) :
    HM n F (Option (Nat × Option Nat)) := do
  let s ← read S
  if nvals s < n then do
    let m ← newEmpty
    let v ← read m
    write m (vassignC (vnot (vS s)) v 1)
    match dangling, p with
    | some d, _ =>
      let v ← read d
      let denom := (reduce (· + ·) v).getD 0
      if denom = 0 then raise .zeroDivision
      else do
        let w ← new (vapply (fun a => alpha / denom * a) v)
        pure (some (m, some w))
    | none, .inl c =>
      let v ← read m
      write m (vassignC (vS v) v (alpha * c))
      pure (some (m, none))
    | none, .inr p =>
      let v ← read p
      let w ← new (vapply (fun a => alpha * a) v)
      pure (some (m, some w))
  else pure none

/-- `p *= 1 - alpha`: a number is replaced, a vector overwritten -- pagerank_alg.py:77-78 -/
def prScalePB (alpha : F) (p : F ⊕ Nat) : HM n F (F ⊕ Nat) :=
  match p with
  | .inl c => pure (.inl (c * (1 - alpha)))
  | .inr a => do
    let v ← read a
    write a (vapply (fun b => b * (1 - alpha)) v)
    pure (.inr a)

/-- the body of the loop, after the exchange of names -- pagerank_alg.py:85-96 -/
def prBodyB (A : Mat n n F) (iso : Option F) (S : Nat) (md : Option (Nat × Option Nat)) (p : F ⊕ Nat)
    (x xprev w : Nat) : HM n F Unit := do
  match p with
  | .inl c => write x fun _ => some c
  | .inr a =>
    let v ← read a
    write x v
  match md with
  | none => pure ()
  | some (m, none) =>
    let v ← read xprev
    let mk ← read m
    let o ← read x
    write x (vapply (fun a => a + (dot (· + ·) (· * ·) v mk).getD 0) o)
  | some (m, some d) =>
    let v ← read xprev
    let mk ← read m
    let dw ← read d
    let o ← read x
    write x (vadd (· + ·) o (vapply (fun a => (dot (· + ·) first v mk).getD 0 * a) dw))
  let v ← read xprev
  let s ← read S
  write w (vmul (· * ·) v s)
  let wv ← read w
  let o ← read x
  write x (vadd (· + ·) o (vxm (· + ·) (prMul iso) wv A))

/-- the loop: each pass begins with `xprev, x = x, xprev` -- pagerank_alg.py:82-101 -/
def prLoopB (A : Mat n n F) (iso : Option F) (S : Nat) (md : Option (Nat × Option Nat)) (p : F ⊕ Nat)
    (tol : F) (w : Nat) : Nat → Nat → Nat → HM n F Nat
  | 0, _, _ => raise .convergence
  | k + 1, x, xprev => do
    let (xprev, x) := (x, xprev)
    prBodyB A iso S md p x xprev w
    let c ← isConvergedB xprev x tol
    if c then pure x else prLoopB A iso S md p tol w k x xprev

/-- `algorithms.pagerank(G, alpha, personalization, max_iter, tol, nstart, dangling, row_degrees)`: the
vector arguments are addresses, and so is the result -- pagerank_alg.py:12-101 -/
def pagerankB (A : Mat n n F) (iso : Option F) (alpha : F) (pers : Option Nat) (maxIter : Int)
    (tol : F) (nstart dangling : Option Nat) (rowDegrees : Nat) : HM n F Nat :=
  if mnvals A = 0 then newEmpty
  else do
    let x ← prInitB nstart
    let p ← prPB pers
    let S ← prSB alpha rowDegrees iso
    let md ← prDanglingB alpha S p dangling
    let p ← prScalePB alpha p
    let xprev ← newEmpty
    let w ← newEmpty
    prLoopB A iso S md p tol w maxIter.toNat x xprev

/-! ## katz -/

/-- the loop -- katz.py:44-55 -/
def katzLoopB (fill : Bool) (sqrt : F → F) (A : Mat n n F) (iso : Option F) (alpha : F) (b : F ⊕ Nat)
    (tol : F) (normalized : Bool) : Nat → Nat → Nat → HM n F Nat
  | 0, _, _ => raise .convergence
  | k + 1, x, xprev => do
    let (xprev, x) := (x, xprev)
    let v ← read xprev
    write x (vxm (· + ·) (prMul iso) v A)
    let o ← read x
    write x (vapply (fun a => a * alpha) o)
    let o ← read x
    match b with
    | .inl c => write x (addScalar fill c o)
    | .inr a =>
      let bv ← read a
      write x (vadd (· + ·) o bv)
    let c ← isConvergedB xprev x tol
    if c then do
      if normalized then normalizeB sqrt x .l2 else pure ()
      pure x
    else katzLoopB fill sqrt A iso alpha b tol normalized k x xprev

/-- `algorithms.katz_centrality` -- katz.py:11-55 -/
def katzB (fill : Bool) (sqrt : F → F) (A : Mat n n F) (iso : Option F) (alpha : F) (beta : F ⊕ Nat)
    (maxIter : Int) (tol : F) (nstart : Option Nat) (normalized : Bool) : HM n F Nat := do
  let x ← newEmpty
  match nstart with
  | none => write x fun _ => some 0
  | some s =>
    let v ← read s
    write x v
  match beta with
  | .inl _ => pure ()
  | .inr b =>
    let v ← read b
    if nvals v ≠ n then raise .algorithm else pure ()
  let alpha := katzAlpha iso alpha
  let xprev ← newEmpty
  katzLoopB fill sqrt A iso alpha beta tol normalized maxIter.toNat x xprev

/-! ## eigenvector centrality -/

/-- the initial contents of `x`, or of `h` in `hits` -- eigenvector.py:14-21, hits_alg.py:20-25.  When the
start vector sums to 0 the first raises `err`, in the second `1.0 / denom` raises `err`: both after
`x << nstart`. -/
def startB (err : Err) (nstart : Option Nat) (x : Nat) : HM n F Unit :=
  match nstart with
  | none => write x fun _ => some (1 / n)
  | some s => do
    let v ← read s
    write x v
    let v ← read x
    let denom := (reduce (· + ·) v).getD 0
    if denom = 0 then raise err else write x (vapply (fun a => a * (1 / denom)) v)

/-- the loop: no exchange, `xprev << x` copies -- eigenvector.py:26-33 -/
def eigLoopB (sqrt : F → F) (A : Mat n n F) (tol : F) (x xprev : Nat) : Nat → HM n F Nat
  | 0 => raise .convergence
  | k + 1 => do
    let v ← read x
    write xprev v
    let v ← read x
    write x (vadd (· + ·) v (vxm (· + ·) (· * ·) v A))
    normalizeB sqrt x .l2
    let c ← isConvergedB xprev x tol
    if c then pure x else eigLoopB sqrt A tol x xprev k

/-- `algorithms.eigenvector_centrality` -- eigenvector.py:9-33 -/
def eigB (sqrt : F → F) (A : Mat n n F) (maxIter : Int) (tol : F) (nstart : Option Nat) : HM n F Nat :=
  if n = 0 then raise .pointless
  else do
    let x ← newEmpty
    startB .algorithm nstart x
    let xprev ← newEmpty
    eigLoopB sqrt A tol x xprev maxIter.toNat

/-! ## hits -/

/-- the loop with the authority matrix: returns the address of `a` after `h << A @ a` -- hits_alg.py:32-40 -/
def hitsAuthLoopB (sqrt : F → F) (A ATA : Mat n n F) (tol : F) (h : Nat) : Nat → Nat → Nat → HM n F Nat
  | 0, _, _ => raise .convergence
  | k + 1, a, aprev => do
    let (aprev, a) := (a, aprev)
    let v ← read aprev
    write a (mxv (· + ·) (· * ·) ATA v)
    normalizeB sqrt a .linf
    let c ← isConvergedB aprev a tol
    if c then do
      let v ← read a
      write h (mxv (· + ·) (· * ·) A v)
      pure a
    else hitsAuthLoopB sqrt A ATA tol h k a aprev

/-- the other loop: returns the address of `h` -- hits_alg.py:43-52 -/
def hitsLoopB (sqrt : F → F) (A : Mat n n F) (tol : F) (a : Nat) : Nat → Nat → Nat → HM n F Nat
  | 0, _, _ => raise .convergence
  | k + 1, h, hprev => do
    let (hprev, h) := (h, hprev)
    let v ← read hprev
    write a (vxm (· + ·) (· * ·) v A)
    let v ← read a
    write h (mxv (· + ·) (· * ·) A v)
    normalizeB sqrt h .linf
    let c ← isConvergedB hprev h tol
    if c then pure h else hitsLoopB sqrt A tol a k h hprev

/-- `algorithms.hits(G, max_iter, tol, nstart, normalized, with_authority)`: the addresses of `(h, a)`
-- hits_alg.py:9-62 -/
def hitsB (sqrt : F → F) (A : Mat n n F) (maxIter : Int) (tol : F) (nstart : Option Nat)
    (normalized withAuthority : Bool) : HM n F (Nat × Nat) := do
  let h ← newEmpty
  let a ← newEmpty
  if n = 0 then pure (h, a)
  else do
    startB .zeroDivision nstart h
    if withAuthority then do
      let (a, h) := (h, a)
      let aprev ← newEmpty
      let a ← hitsAuthLoopB sqrt A (mxm (· + ·) (· * ·) (transpose A) A) tol h maxIter.toNat a aprev
      if normalized then do
        normalizeB sqrt h .l1
        normalizeB sqrt a .l1
      else normalizeB sqrt h .linf
      pure (h, a)
    else do
      let hprev ← newEmpty
      let h ← hitsLoopB sqrt A tol a maxIter.toNat h hprev
      if normalized then do
        normalizeB sqrt h .l1
        normalizeB sqrt a .l1
      else normalizeB sqrt a .linf
      pure (h, a)

end

end Model.Buffers
