/-!
# What a call may do to existing objects

The other model files treat matrices and vectors as values.  In Python they are mutable objects, shared between
the graph, its cache of computed properties, the caller's arguments and the local variables of an algorithm
(`S = G.get_property("offdiag")` may be `G._A` itself -- classes/graph.py:24-37).  This file models only that:
which object every variable refers to and which statements write to an object in place.  Contents are arbitrary.

A function body is a `Stmt`; `Effects/Table.lean` holds the bodies, translated from the Python sources.
-/

namespace Model.Effects

abbrev Var := String
/-- object identities -/
abbrev Ref := Nat

/-- The reference-relevant part of a Python statement. -/
inductive Stmt
  /-- nothing relevant -/
  | skip
  /-- `x = expr.new()`, `Vector(..)`, `Matrix(..)`, `.dup()`, `.diag()`, a number: an object nobody else has -/
  | new (x : Var)
  /-- `x = G._A`, `x = G.get_property(..)`, a parameter's attribute: some object that the graph or the caller can
  also reach.  Looking a property up may also add new objects to the graph's cache. -/
  | shared (x : Var)
  /-- `x = y` -/
  | move (x y : Var)
  /-- `x << ..`, `x(..) << ..`, `x[..] = ..`, `del x[..]`, `x += ..`, `x.clear()` -/
  | write (x : Var)
  | seq (a b : Stmt)
  | ite (a b : Stmt)
  /-- `for` / `while`; `own` is an annotation (variables that own their object throughout), checked, not trusted -/
  | loop (own : List Var) (body : Stmt)
  /-- `try: a  except ..: b`; `own` as for loops -/
  | attempt (own : List Var) (a b : Stmt)
  /-- `return xs` -/
  | ret (xs : List Var)
  /-- `yield xs` -/
  | yield (xs : List Var)
  /-- `xs = f(args)` with `f`'s parameters and body -/
  | call (xs : List Var) (params args : List Var) (body : Stmt)
  deriving Repr

infixr:30 " ;; " => Stmt.seq

/-- Run-time state: variables, contents of all existing objects, which objects existed before the call or have
been put in the graph's cache (`prot`), and the objects returned. -/
structure State (V : Type) where
  env : Var → Option Ref
  heap : Ref → Option V
  prot : Ref → Prop
  res : List Ref

variable {V : Type}

/-- function update -/
def upd {A B : Type} [DecidableEq A] (f : A → B) (a : A) (b : B) : A → B := fun x => if x = a then b else f x

/-- binding several variables to references, in order; those left over become unbound -/
def bindAll (env : Var → Option Ref) : List Var → List Ref → (Var → Option Ref)
  | [], _ => env
  | x :: xs, [] => bindAll (upd env x none) xs []
  | x :: xs, r :: rs => bindAll (upd env x (some r)) xs rs

/-- the environment of a callee: its parameters get the caller's references -/
def callEnv (env : Var → Option Ref) (params args : List Var) : Var → Option Ref :=
  fun x => (params.zip args).findSome? fun p => if p.1 = x then env p.2 else none

/-- `Exec s σ σ' c`: running `s` from `σ` can stop in `σ'`.  `c = true`: the statement finished normally;
`c = false`: it was left early (`return`, `break`, `continue` or an exception).  Branch decisions, numbers of
iterations, contents written and the point where an exception strikes are all arbitrary. -/
inductive Exec : Stmt → State V → State V → Bool → Prop
  /-- any statement may raise -/
  | raise (s σ) : Exec s σ σ false
  | skip (σ) : Exec .skip σ σ true
  | new (x σ r v) (h : σ.heap r = none) :
      Exec (.new x) σ { σ with env := upd σ.env x (some r), heap := upd σ.heap r (some v) } true
  | shared (x σ r) (h : σ.prot r) : Exec (.shared x) σ { σ with env := upd σ.env x (some r) } true
  /-- a property computed now: the new object is in the graph's cache from now on -/
  | cache (x σ σ' r v c) (h : σ.heap r = none)
      (k : Exec (.shared x) { σ with heap := upd σ.heap r (some v), prot := fun q => q = r ∨ σ.prot q } σ' c) :
      Exec (.shared x) σ σ' c
  | move (x y σ r) (h : σ.env y = some r) : Exec (.move x y) σ { σ with env := upd σ.env x (some r) } true
  | write (x σ r v) (h : σ.env x = some r) : Exec (.write x) σ { σ with heap := upd σ.heap r (some v) } true
  | seqNext (a b σ σ' σ'' c) (h : Exec a σ σ' true) (k : Exec b σ' σ'' c) : Exec (.seq a b) σ σ'' c
  | seqStop (a b σ σ') (h : Exec a σ σ' false) : Exec (.seq a b) σ σ' false
  | iteL (a b σ σ' c) (h : Exec a σ σ' c) : Exec (.ite a b) σ σ' c
  | iteR (a b σ σ' c) (h : Exec b σ σ' c) : Exec (.ite a b) σ σ' c
  | loopDone (o b σ) : Exec (.loop o b) σ σ true
  /-- another iteration, the last one finished normally or by `continue` -/
  | loopMore (o b σ σ' σ'' c d) (h : Exec b σ σ' d) (k : Exec (.loop o b) σ' σ'' c) : Exec (.loop o b) σ σ'' c
  /-- `return` or an exception inside the loop (`break` is `loopMore` followed by `loopDone`) -/
  | loopStop (o b σ σ') (h : Exec b σ σ' false) : Exec (.loop o b) σ σ' false
  | tryOk (o a b σ σ') (h : Exec a σ σ' true) : Exec (.attempt o a b) σ σ' true
  /-- left early: uncaught exception or `return` -/
  | tryStop (o a b σ σ') (h : Exec a σ σ' false) : Exec (.attempt o a b) σ σ' false
  | tryCatch (o a b σ σ' σ'' c) (h : Exec a σ σ' false) (k : Exec b σ' σ'' c) : Exec (.attempt o a b) σ σ'' c
  | yield (xs σ) : Exec (.yield xs) σ { σ with res := σ.res ++ xs.filterMap σ.env } true
  | ret (xs σ) : Exec (.ret xs) σ { σ with res := xs.filterMap σ.env } false
  | call (xs ps as b σ σ' d)
      (h : Exec b { σ with env := callEnv σ.env ps as, res := [] } σ' d) :
      Exec (.call xs ps as b) σ { σ' with env := bindAll σ.env xs σ'.res, res := σ.res } true
  /-- the callee raises -/
  | callRaise (xs ps as b σ σ' d)
      (h : Exec b { σ with env := callEnv σ.env ps as, res := [] } σ' d) :
      Exec (.call xs ps as b) σ { σ' with env := σ.env, res := σ.res } false

/-- a function of the library -/
structure Fn where
  name : String
  params : List Var
  body : Stmt

/-- `x = f(args)` -/
def Fn.call (f : Fn) (xs args : List Var) : Stmt := .call xs f.params args f.body

end Model.Effects
