import Verif.Model.Programs

/-!
# Threads that share a graph object, and calls that are cut off

A graph object may be used by several threads at once, and a call may be cut off anywhere (`KeyboardInterrupt`,
`MemoryError`).  What calls share and modify is the dictionary `G._cache` (graph.py:382, digraph.py:535).  CPython
executes one dictionary access at a time, but a thread may be suspended, or stopped, between any two accesses.

Here a call is the tree of its accesses to the dictionary, a thread is what remains of its calls, and a schedule
names the thread that makes the next access.  What lies between the accesses reads immutable data only (the matrix,
and values from the cache that are never changed in place: C90, C91).
-/

open GB Spec.Prop Model.Cache Model.Memo

namespace Model.Threads

/-- code that accesses a dictionary with keys `κ`; each node is one access -/
inductive Tree (κ : Type) (V : κ → Type) (a : Type) : Type
  /-- return -/
  | ret (x : a)
  /-- raise -/
  | err (e : Err)
  /-- `d.get(k)` -/
  | get (k : κ) (f : Option (V k) → Tree κ V a)
  /-- `d[k] = v` -/
  | put (k : κ) (v : V k) (m : Tree κ V a)

variable {κ : Type} {V : κ → Type}

/-- sequencing; an exception ends the call -/
def Tree.bind {a b : Type} : Tree κ V a → (a → Tree κ V b) → Tree κ V b
  | .ret x, f => f x
  | .err e, _ => .err e
  | .get k g, f => .get k fun o => (g o).bind f
  | .put k v m, f => .put k v (m.bind f)

instance : Monad (Tree κ V) where
  pure := .ret
  bind := Tree.bind

/-- `try: ... except Exception as e: ...` -/
def attempt {a : Type} : Tree κ V a → Tree κ V (Except Err a)
  | .ret x => .ret (.ok x)
  | .err e => .ret (.error e)
  | .get k f => .get k fun o => attempt (f o)
  | .put k v m => .put k v (attempt m)

/-- one job after the other, recording results and exceptions -/
def inTurn {J : Type} {Out : J → Type} (prog : (j : J) → Tree κ V (Out j)) :
    List J → Tree κ V (List (Σ j, Except Err (Out j)))
  | [] => pure []
  | j :: js => do
    let x ← attempt (prog j)
    let xs ← inTurn prog js
    pure (⟨j, x⟩ :: xs)

/-- a Python dict -/
abbrev Dict (κ : Type) (V : κ → Type) := (k : κ) → Option (V k)

variable [DecidableEq κ]

/-- the next access: what remains of the code, and the dictionary -/
def access {a : Type} : Tree κ V a → Dict κ V → Tree κ V a × Dict κ V
  | .ret x, s => (.ret x, s)
  | .err e, s => (.err e, s)
  | .get k f, s => (f (s k), s)
  | .put k v m, s => (m, Function.update s k (some v))

/-- run without interruption -/
def Tree.run {a : Type} : Tree κ V a → Dict κ V → Except Err a × Dict κ V
  | .ret x, s => (.ok x, s)
  | .err e, s => (.error e, s)
  | .get k f, s => (f (s k)).run s
  | .put k v m, s => m.run (Function.update s k (some v))

/-- cut off after `n` accesses: what is left in the dictionary -/
def cutOff {a : Type} : Nat → Tree κ V a → Dict κ V → Dict κ V
  | 0, _, s => s
  | n + 1, m, s => cutOff n (access m s).1 (access m s).2

variable {τ : Type} {R : τ → Type}

/-- a dictionary and the threads `τ`, of which `t` computes an `R t` -/
structure Sys (V : κ → Type) (R : τ → Type) where
  dict : Dict κ V
  thread : (t : τ) → Tree κ V (R t)

variable [DecidableEq τ]

/-- thread `t` makes its next access (a finished thread does nothing) -/
def step (y : Sys V R) (t : τ) : Sys V R where
  dict := (access (y.thread t) y.dict).2
  thread := Function.update y.thread t (access (y.thread t) y.dict).1

/-- the accesses named by a schedule, one after the other -/
def runSched (y : Sys V R) (sched : List τ) : Sys V R := sched.foldl step y

/-! ## graph objects -/

variable {ι α : Type}

/-- the keys of `G._cache`: property names and the names of memoised results -/
abbrev OKey (ι : Type) := Key ι ⊕ MemoKey

/-- the values stored under them -/
@[reducible] def OVal (n : Nat) (α : Type) {ι : Type} : OKey ι → Type
  | .inl k => Val n α k
  | .inr _ => ℚ

/-- code that runs on a graph object -/
abbrev Code (c : Ctx ι α) (a : Type) := Tree (OKey ι) (OVal c.n α) a

/-- `G._cache` as one dictionary -/
def theDict {c : Ctx ι α} (o : Obj c) : Dict (OKey ι) (OVal c.n α)
  | .inl k => o.store k
  | .inr k => o.memo k

/-- code that only looks properties up -/
def ofM {c : Ctx ι α} {a : Type} : M c a → Code c a
  | .ret x => .ret x
  | .err e => .err e
  | .get k f => .get (.inl k) fun o => ofM (f o)
  | .put k v m => .put (.inl k) v (ofM m)

/-- `self._cache[key]` -/
def readMemo (c : Ctx ι α) (key : MemoKey) : Code c ℚ :=
  .get (.inr key) fun (o : Option ℚ) => match o with
    | some v => .ret v
    | none => .err .keyError

/-- `_cacheit(self, key, func, ...)`: `if key not in self._cache: self._cache[key] = func(...)`, and then
`return self._cache[key]` -- classes/_utils.py:252-255 -/
def cacheitT (c : Ctx ι α) (key : MemoKey) (m : M c ℚ) : Code c ℚ :=
  .get (.inr key) fun (o : Option ℚ) =>
    if o.isSome then readMemo c key
    else (ofM m).bind fun v => .put (.inr key) v (readMemo c key)

variable [DecidableEq ι] [LinearOrder α] [Zero α]

/-- `nx.transitivity(G)` -- nxapi/cluster.py:32-40 -/
def transitivityT (c : Ctx ι α) : Code c ℚ :=
  if c.n = 0 then .ret 0
  else cacheitT c .transitivity (if c.dir then transitivityDirM c else transitivityM c)

/-- `nx.average_clustering(G, nodes, count_zeros=)` after `list_to_mask` -- nxapi/cluster.py:60-78 -/
def averageT (c : Ctx ι α) (mx : ι) (f : Norm α) (mask : NodeMask c.n) (weighted countZeros : Bool) : Code c ℚ :=
  if c.n = 0 then .err .zeroDivision
  else match mask with
    | none => cacheitT c (.average countZeros) (averageM c mx f weighted countZeros none)
    | some p => ofM (averageM c mx f weighted countZeros (some p))

end Model.Threads
