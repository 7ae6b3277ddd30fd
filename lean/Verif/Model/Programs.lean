import Verif.Model.Memo

/-!
# Algorithms as programs on a graph object

An algorithm of the library uses a graph object in two ways: it reads what never changes (the matrix,
the node names) and it looks up properties, which reads and writes the cache of the object.  A `Prog`
is such an algorithm: a sequence of property lookups, each of which may depend on the answers to the
earlier ones, ending in a value or an exception.  An exception raised by a lookup ends the program
(no function of the library catches one, apart from nxapi wrappers that translate `KeyError`).

`Prog.run` executes it on a cache.  `Prog.eval` is the mathematical reading used as specification:
every lookup answers the defined value of the property.
-/

open GB Spec.Prop

namespace Model.Memo
open Model.Cache

variable {ι α K : Type}

/-- what a graph object knows besides its matrix: the meaning of the operator names, the name `min`,
whether the dtype is a nonnegative one, and the iso value reported by SuiteSparse -/
structure Env (ι α : Type) where
  f : ι → α → α → α
  mn : ι
  nonneg : Bool
  iso : Option α

/-- the cache context of the graph object `G` -/
@[reducible] def Env.of (e : Env ι α) (G : Graph K α) : Ctx ι α :=
  { n := G.n, A := G.A, f := e.f, mn := e.mn, nonneg := e.nonneg, iso := e.iso, dir := G.directed }

/-- an algorithm: property lookups `G.get_property(name, mask=mask)` -- classes/_utils.py:37-38, then
a result -/
inductive Prog (c : Ctx ι α) (a : Type) : Type
  | done (x : Except Err a)
  | ask (r : Req ι c.n) (k : Val c.n α r.key → Prog c a)

namespace Prog
variable {c : Ctx ι α} {a b : Type}

/-- run `p`, then `f` on its value -/
def bind : Prog c a → (a → Prog c b) → Prog c b
  | .done (.ok x), f => f x
  | .done (.error e), _ => .done (.error e)
  | .ask r k, f => .ask r fun v => (k v).bind f

instance : Monad (Prog c) where
  pure x := .done (.ok x)
  bind := bind

/-- plain code that may raise -/
def lift (x : Except Err a) : Prog c a := .done x

/-- `G.get_property(key, mask=mask)` -/
def get (key : Key ι) (mask : Option (VMask c.n) := none) : Prog c (Val c.n α key) :=
  .ask { key := key, mask := mask } fun v => .done (.ok v)

variable [DecidableEq ι] [LinearOrder α] [Zero α]

/-- run a program on a cache -/
def run : Prog c a → M c a
  | .done x => raise c x
  | .ask r k => do
    let v ← getProp c r.al r.mask r.key
    (k v).run

/-- the value computed when every lookup answers the defined value of the property -/
def eval : Prog c a → Except Err a
  | .done x => x
  | .ask r k => (k (restrict r.mask r.key (value c r.key))).eval

/-- the lookups made when every lookup answers the defined value of the property -/
def path : Prog c a → List (Req ι c.n)
  | .done _ => []
  | .ask r k => r :: (k (restrict r.mask r.key (value c r.key))).path

/-- the lookups made on the cache `s` -/
def trace : Prog c a → Store ι c.n α → List (Req ι c.n)
  | .done _, _ => []
  | .ask r k, s =>
    match (getProp c r.al r.mask r.key).run s with
    | (.ok v, s') => r :: (k v).trace s'
    | (.error _, _) => [r]

end Prog

variable [DecidableEq ι] [LinearOrder α] [Zero α]

/-- a call of some algorithm, with its result type -/
abbrev Job (c : Ctx ι α) := Σ a : Type, Prog c a

/-- the cache after a history of algorithm calls on a fresh graph object -/
def afterJobs {c : Ctx ι α} (h : List (Job c)) : Store ι c.n α :=
  h.foldl (fun s p => (p.2.run.run s).2) fun _ => none

/-- the outcome of an algorithm call after the history `h` of algorithm calls -/
def call {c : Ctx ι α} {a : Type} (h : List (Job c)) (p : Prog c a) : Except Err a :=
  (p.run.run (afterJobs h)).1

end Model.Memo
