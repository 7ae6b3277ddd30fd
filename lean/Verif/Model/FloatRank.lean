import Verif.Model.PowerIter

/-!
# `pagerank` in the arithmetic of a computer

The same program as in `Model/PowerIter.lean` (pagerank_alg.py:12-101, _helpers.py:21-29), with every addition,
subtraction, multiplication, division and sum done by an arithmetic `o` that is a parameter: exact numbers
(`Arith.exact`, for which it is the earlier model, `fr_exact`), or numbers with rounding.  In which order and how
bracketed the entries of a vector are added up is left to `o.sum`: SuiteSparse makes no promise about it.
Not modelled: infinities and NaN (see `Spec/FloatRank.lean`).
-/

open GB

namespace Model

/-- the operations on a number type -/
structure Arith (F : Type) where
  add : F → F → F
  sub : F → F → F
  mul : F → F → F
  div : F → F → F
  abs : F → F
  /-- an `int` used in a float operation -/
  nat : Nat → F
  lt : F → F → Bool
  isZero : F → Bool
  /-- the sum of the entries of a vector (never called without entries) -/
  sum : List F → F

/-- exact arithmetic -/
def Arith.exact (F : Type) [Field F] [LinearOrder F] : Arith F where
  add := (· + ·)
  sub := (· - ·)
  mul := (· * ·)
  div := (· / ·)
  abs := fun x => |x|
  nat := fun k => (k : F)
  lt := fun x y => decide (x < y)
  isZero := fun x => decide (x = 0)
  sum := List.sum

namespace Fr

variable {K F : Type} {n : Nat} (o : Arith F)

/-- the stored values of a vector -/
def entries (v : Vec n F) : List F := (List.finRange n).filterMap v

/-- `v.reduce()`, and every sum a semiring with `plus` forms: absent when there is nothing to add -/
def fsum (v : Vec n F) : Option F := if entries v = [] then none else some (o.sum (entries v))

/-- `v.reduce().get(0)` -/
def vsum (v : Vec n F) : F := (fsum o v).getD (o.nat 0)

/-- `plus_mul(x @ y)` as a number, 0 when empty -/
def dot (mul : F → F → F) (x y : Vec n F) : F := (fsum o fun i => ointer mul (x i) (y i)).getD (o.nat 0)

/-- `plus_mul(x @ A)` -/
def vxm (mul : F → F → F) (x : Vec n F) (A : Mat n n F) : Vec n F :=
  fun j => fsum o fun i => ointer mul (x i) (A i j)

/-- `G.get_property("plus_rowwise+")` -- _caching.py:7-98 -/
def rowSums (A : Mat n n F) : Vec n F := fun i => fsum o (A i)

/-- `is_converged(xprev, x, tol)` -- _helpers.py:21-29 -/
def converged (tol : F) (xprev x : Vec n F) : Bool :=
  o.lt (vsum o (vapply o.abs (vadd o.sub xprev x))) (o.mul (o.nat n) tol)

/-- the initial vector -- pagerank_alg.py:29-36 -/
def init (nstart : Option (Vec n F)) : Except Err (Vec n F) :=
  match nstart with
  | none => .ok fun _ => some (o.div (o.nat 1) (o.nat n))
  | some s => if o.isZero (vsum o s) then .error .zeroDivision else .ok (vapply (fun a => o.div a (vsum o s)) s)

/-- `p`: a number or a vector -- pagerank_alg.py:39-45 -/
def pers (p : Option (Vec n F)) : Except Err (F ⊕ Vec n F) :=
  match p with
  | none => .ok (.inl (o.div (o.nat 1) (o.nat n)))
  | some s =>
    if o.isZero (vsum o s) then .error .zeroDivision else .ok (.inr (vapply (fun a => o.div a (vsum o s)) s))

/-- `S` -- pagerank_alg.py:49-57; `iso_value.get(1) != 1` compares exactly -/
def prS [DecidableEq F] (alpha : F) (rowDegrees : Vec n F) (iso : Option F) : Vec n F :=
  let S := vapply (fun d => o.div alpha d) rowDegrees
  match iso with
  | none => S
  | some c => if c ≠ o.nat 1 then vapply (fun s => o.mul s c) S else S

/-- the semiring multiplication -- pagerank_alg.py:53-60 -/
def semiringMul (iso : Option F) : F → F → F :=
  match iso with
  | none => o.mul
  | some _ => first

/-- `dangling_mask(mask=~S.S) << 1.0` -- pagerank_alg.py:64-65 -/
def mask (S : Vec n F) : Vec n F := vassignC (vnot (vS S)) vempty (o.nat 1)

/-- `dangling_mask` and `dangling_weights` -- pagerank_alg.py:62-75 -/
def dangling (alpha : F) (S : Vec n F) (p : F ⊕ Vec n F) (d : Option (Vec n F)) :
    Except Err (Option (Vec n F) × Option (Vec n F)) :=
  if nvals S < n then
    match d, p with
    | some d, _ =>
      if o.isZero (vsum o d) then .error .zeroDivision
      else .ok (some (mask o S), some (vapply (fun a => o.mul (o.div alpha (vsum o d)) a) d))
    | none, .inl c => .ok (some (vassignC (vS (mask o S)) (mask o S) (o.mul alpha c)), none)
    | none, .inr v => .ok (some (mask o S), some (vapply (fun a => o.mul alpha a) v))
  else .ok (none, none)

/-- `p *= 1 - alpha` -- pagerank_alg.py:78 -/
def scaleP (alpha : F) (p : F ⊕ Vec n F) : F ⊕ Vec n F :=
  match p with
  | .inl c => .inl (o.mul c (o.sub (o.nat 1) alpha))
  | .inr v => .inr (vapply (fun a => o.mul a (o.sub (o.nat 1) alpha)) v)

/-- `x << p` -- pagerank_alg.py:87 -/
def base (p : F ⊕ Vec n F) : Vec n F :=
  match p with
  | .inl c => fun _ => some c
  | .inr v => v

/-- `x += ...` for the dangling nodes -- pagerank_alg.py:88-94 -/
def addDangling (md : Option (Vec n F) × Option (Vec n F)) (xprev x : Vec n F) : Vec n F :=
  match md.1 with
  | none => x
  | some m =>
    match md.2 with
    | none => vapply (fun a => o.add a (dot o o.mul xprev m)) x
    | some d => vadd o.add x (vapply (fun a => o.mul (dot o first xprev m) a) d)

/-- one pass of the loop -- pagerank_alg.py:83-98 -/
def step (A : Mat n n F) (S : Vec n F) (mul : F → F → F) (md : Option (Vec n F) × Option (Vec n F))
    (p : F ⊕ Vec n F) (xprev : Vec n F) : Vec n F :=
  let x := addDangling o md xprev (base p)
  let w := vmul o.mul xprev S
  vadd o.add x (vxm o mul w A)

/-- `algorithms.pagerank` -- pagerank_alg.py:12-101 -/
def pagerankV [DecidableEq F] (A : Mat n n F) (iso : Option F) (alpha : F) (p : Option (Vec n F)) (maxIter : Int)
    (tol : F) (nstart d : Option (Vec n F)) : Except Err (Vec n F) :=
  if mnvals A = 0 then .ok vempty
  else do
    let x ← init o nstart
    let p ← pers o p
    let S := prS o alpha (rowSums o A) iso
    let md ← dangling o alpha S p d
    powerIter (step o A S (semiringMul o iso) md (scaleP o alpha p)) (converged o tol) maxIter.toNat x

/-- `nx.pagerank` -- nxapi/link_analysis/pagerank_alg.py:9-45.  `some v`: what the returned NodeMap (fill value 0)
holds at each row; `none`: the empty dict -/
def pagerank [DecidableEq F] [DecidableEq K] (G : Graph K F) (iso : Option F) (alpha : F) (p : Option (List (K × F)))
    (maxIter : Int) (tol : F) (nstart d : Option (List (K × F))) : Except Err (Option (Vec G.n F)) :=
  if G.n = 0 then .ok none
  else do
    let x ← dictToVector? G nstart
    let p ← dictToVector? G p
    let d ← dictToVector? G (if nvals (rowSums o G.A) < G.n then d else none)
    (pagerankV o G.A iso alpha p maxIter tol x d).map fun v => some (nodemapFill none v (o.nat 0))

end Fr
end Model
