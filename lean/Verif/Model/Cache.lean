import Verif.Spec.Cache
import Verif.Model.Graph
import Mathlib.Logic.Function.Basic
import Mathlib.Data.List.Sort

/-!
# The property cache

Models `classes/_caching.py`, the getters of `classes/graph.py:13-249` and
`classes/digraph.py:25-371`, and `get_property` / `get_properties` of `classes/_utils.py:37-55`.

`G._cache` is a partial map from property names to values.  A lookup is a state transformer that
may raise: an exception leaves the changes made so far in the cache, as in Python.
Simplifications: `count_element±` is not a key (aggregator of an aggregator); empty `Scalar`s
compare as `False`; operators are monoids or `count`.
Masks are evaluated (`VMask`), so complemented and structural masks are both covered.
-/

open GB Spec.Prop

namespace Model.Cache

variable {ι α : Type} [DecidableEq ι] [LinearOrder α] [Zero α]

/-- `G._cache` -- graph.py:382 -/
abbrev Store (ι : Type) (n : Nat) (α : Type) := (k : Key ι) → Option (Val n α k)
/-- code running on one graph object: a tree of accesses to the cache dictionary.  Each node is one access (atomic
in CPython); what lies between two accesses reads immutable data only.  Running the tree without interruption
(`M.run`) is a single-threaded call; `Model/Threads.lean` interleaves the accesses of several threads. -/
inductive M (c : Ctx ι α) (a : Type) : Type
  /-- return -/
  | ret (x : a)
  /-- raise -/
  | err (e : Err)
  /-- `cache.get(k)` -/
  | get (k : Key ι) (f : Option (Val c.n α k) → M c a)
  /-- `cache[k] = v` -/
  | put (k : Key ι) (v : Val c.n α k) (m : M c a)

/-- sequencing; an exception ends the call -/
def M.bind {c : Ctx ι α} {a b : Type} : M c a → (a → M c b) → M c b
  | .ret x, f => f x
  | .err e, _ => .err e
  | .get k g, f => .get k fun o => (g o).bind f
  | .put k v m, f => .put k v (m.bind f)

instance {c : Ctx ι α} : Monad (M c) where
  pure := .ret
  bind := M.bind

/-- `try ... except` -/
def M.handle {c : Ctx ι α} {a : Type} : M c a → (Err → M c a) → M c a
  | .ret x, _ => .ret x
  | .err e, h => h e
  | .get k g, h => .get k fun o => (g o).handle h
  | .put k v m, h => .put k v (m.handle h)

instance {c : Ctx ι α} : MonadExceptOf Err (M c) where
  throw := .err
  tryCatch := M.handle

/-- run without interruption: an exception leaves the changes made so far in the cache -/
def M.run {c : Ctx ι α} {a : Type} : M c a → Store ι c.n α → Except Err a × Store ι c.n α
  | .ret x, s => (.ok x, s)
  | .err e, s => (.error e, s)
  | .get k f, s => (f (s k)).run s
  | .put k v m, s => m.run (Function.update s k (some v))

variable (c : Ctx ι α)

/-- `cache.get(k)` -/
def peek (k : Key ι) : M c (Option (Val c.n α k)) := .get k .ret
/-- `k in cache` -/
def has (k : Key ι) : M c Bool := .get k fun o => .ret o.isSome
/-- `cache[k] = v` -/
def put (k : Key ι) (v : Val c.n α k) : M c Unit := .put k v (.ret ())
/-- `cache[k]` -/
def readK (k : Key ι) : M c (Val c.n α k) :=
  .get k fun o => match o with | some v => .ret v | none => .err .keyError
/-- short-circuit `a and b` -/
def andM (a b : M c Bool) : M c Bool := do if ← a then b else pure false
/-- `not a` -/
def notM (a : M c Bool) : M c Bool := do return !(← a)
/-- `if k not in cache: cache[k] = g` -/
def fill (k : Key ι) (g : M c (Val c.n α k)) : M c Unit := do
  if ← has c k then pure () else put c k (← g)
/-- `if k not in cache: b` -/
def ifMissing (k : Key ι) (b : M c Unit) : M c Unit := do
  if ← has c k then pure () else b
/-- `if b: x` -/
def whenM (b : Bool) (x : M c Unit) : M c Unit := if b then x else pure ()
/-- `cache.get("has_self_edges") is False` -/
def selfFalse : M c Bool := .get .hasSelf fun o => .ret (o == some false)
/-- `cache.get(k) is b` for a Boolean property -/
def isB (k : Key ι) (hk : Val c.n α k = Bool) (b : Bool) : M c Bool :=
  .get k fun o => .ret (o.map (cast hk) == some b)

/-! ## scalar comparisons -/

/-- `x < 0` -/
def ltZ (x : Option α) : Bool := x.any (· < 0)
/-- `x >= 0` -/
def geZ (x : Option α) : Bool := x.any (0 ≤ ·)
/-- `x < y` -/
def oltB (x y : Option α) : Bool := x.any fun a => y.any fun b => a < b

/-! ## getters shared by the classes (no recursion among themselves) -/

/-- `get_diag` -- graph.py:114-131 -/
def getDiag (mask : Option (VMask c.n)) : M c (Vec c.n α) := do
  fill c .diag (do
    if ← selfFalse c then pure vempty
    else if ← has c (.U .p) then return diagVec (← readK c (.U .p))
    else if ← has c (.L .p) then return diagVec (← readK c (.L .p))
    else pure (diagVec c.A))
  fill c .hasSelf (do return decide (0 < nvals (← readK c .diag)))
  match mask with
  | some m => return vassignR m (← readK c .diag)
  | none => readK c .diag

/-- `Graph.has_self_edges` -- graph.py:195-214 -/
def selfUndir : M c Bool := do
  ifMissing c .hasSelf (do
    if ← has c (.L .p) then
      put c .hasSelf (decide (2 * mnvals (← readK c (.L .p)) > mnvals c.A))
    else if ← has c (.L .m) then
      put c .hasSelf (decide (2 * mnvals (← readK c (.L .m)) < mnvals c.A))
    else if ← has c (.U .p) then
      put c .hasSelf (decide (2 * mnvals (← readK c (.U .p)) > mnvals c.A))
    else if ← has c (.U .m) then
      put c .hasSelf (decide (2 * mnvals (← readK c (.U .m)) < mnvals c.A))
    else if ← has c .offdiag then
      put c .hasSelf (decide (mnvals c.A > mnvals (← readK c .offdiag)))
    else if ← isB c .negDiag rfl true then put c .hasSelf true
    else do
      let _ ← getDiag c none
      pure ())
  readK c .hasSelf

/-- `DiGraph.has_self_edges` -- digraph.py:332-371.  The tests on the keys `row_degrees±` and
`column_degrees±` are left out: these names are aliases, so they are never keys of the cache
(digraph.py:509-514).  `elif "L+" in cache and ("L-" in cache or "U+" in cache)` with its inner
`if` is written as two branches, and likewise for `U-`. -/
def selfDir : M c Bool := do
  ifMissing c .hasSelf (do
    if ← has c .offdiag then
      put c .hasSelf (decide (mnvals c.A > mnvals (← readK c .offdiag)))
    else if ← andM c (has c (.L .p)) (has c (.L .m)) then
      put c .hasSelf (decide (mnvals (← readK c (.L .m)) < mnvals (← readK c (.L .p))))
    else if ← andM c (has c (.L .p)) (has c (.U .p)) then
      put c .hasSelf
        (decide (mnvals (← readK c (.L .p)) + mnvals (← readK c (.U .p)) > mnvals c.A))
    else if ← andM c (has c (.U .m)) (has c (.U .p)) then
      put c .hasSelf (decide (mnvals (← readK c (.U .m)) < mnvals (← readK c (.U .p))))
    else if ← andM c (has c (.U .m)) (has c (.L .m)) then
      put c .hasSelf
        (decide (mnvals (← readK c (.U .m)) + mnvals (← readK c (.L .m)) < mnvals c.A))
    else if ← isB c .negDiag rfl true then put c .hasSelf true
    else if ← andM c (has c (.totrecip .m)) (has c (.totrecip .p)) then
      put c .hasSelf (decide ((← readK c (.totrecip .p)) > (← readK c (.totrecip .m))))
    else if ← andM c (has c (.totdeg .m)) (has c (.totdeg .p)) then
      put c .hasSelf (decide (¬ (← readK c (.totdeg .m)) = (← readK c (.totdeg .p))))
    else if ← andM c (has c (.recip .m)) (has c (.recip .p)) then
      put c .hasSelf (decide (¬ (← readK c (.recip .m)) = (← readK c (.recip .p))))
    else if ← has c (.totdeg .m) then
      put c .hasSelf
        (decide ((reduce (· + ·) (← readK c (.totdeg .m))).getD 0 < 2 * mnvals c.A))
    else if ← has c (.totdeg .p) then
      put c .hasSelf
        (decide ((reduce (· + ·) (← readK c (.totdeg .p))).getD 0 > 2 * mnvals c.A))
    else do
      let _ ← getDiag c none
      pure ())
  readK c .hasSelf

/-- `G.get_property("has_self_edges")` -/
def getSelf : M c Bool := if c.dir then selfDir c else selfUndir c

/-- `get_AT` -- graph.py:17-21 (`Graph`), digraph.py:24-30 (`DiGraph`) -/
def getAT : M c (Mat c.n c.n α) :=
  if c.dir then do
    fill c .AT (pure (transpose c.A))
    readK c .AT
  else do
    put c .AT c.A
    readK c .AT

/-- `get_offdiag` -- graph.py:24-37 -/
def getOffdiag : M c (Mat c.n c.n α) := do
  fill c .offdiag (do
    if ← selfFalse c then pure c.A else pure (offdiag c.A))
  fill c .hasSelf (do return decide (mnvals c.A > mnvals (← readK c .offdiag)))
  whenM c (!(← readK c .hasSelf)) (do put c .offdiag c.A)
  readK c .offdiag

/-- `Graph.get_Up` -- graph.py:40-53 -/
def upUndir : M c (Mat c.n c.n α) := do
  fill c (.U .p) (do
    if ← andM c (has c (.U .m)) (notM c (getSelf c)) then readK c (.U .m)
    else pure (triu c.A))
  fill c .hasSelf (do return decide (2 * mnvals (← readK c (.U .p)) > mnvals c.A))
  whenM c (!(← readK c .hasSelf)) (do put c (.U .m) (← readK c (.U .p)))
  readK c (.U .p)

/-- `Graph.get_Lp` -- graph.py:56-69 -/
def lpUndir : M c (Mat c.n c.n α) := do
  fill c (.L .p) (do
    if ← andM c (has c (.L .m)) (notM c (getSelf c)) then readK c (.L .m)
    else pure (tril c.A))
  fill c .hasSelf (do return decide (2 * mnvals (← readK c (.L .p)) > mnvals c.A))
  whenM c (!(← readK c .hasSelf)) (do put c (.L .m) (← readK c (.L .p)))
  readK c (.L .p)

/-- `Graph.get_Um` -- graph.py:72-90 -/
def umUndir : M c (Mat c.n c.n α) := do
  fill c (.U .m) (do
    if ← has c (.U .p) then
      if ← getSelf c then return triu1 (← readK c (.U .p)) else readK c (.U .p)
    else if ← has c .offdiag then return triu1 (← readK c .offdiag)
    else pure (triu1 c.A))
  fill c .hasSelf (do return decide (2 * mnvals (← readK c (.U .m)) < mnvals c.A))
  whenM c (!(← readK c .hasSelf)) (do put c (.U .p) (← readK c (.U .m)))
  readK c (.U .m)

/-- `Graph.get_Lm` -- graph.py:93-111 -/
def lmUndir : M c (Mat c.n c.n α) := do
  fill c (.L .m) (do
    if ← has c (.L .p) then
      if ← getSelf c then return tril1 (← readK c (.L .p)) else readK c (.L .p)
    else if ← has c .offdiag then return tril1 (← readK c .offdiag)
    else pure (tril1 c.A))
  fill c .hasSelf (do return decide (2 * mnvals (← readK c (.L .m)) < mnvals c.A))
  whenM c (!(← readK c .hasSelf)) (do put c (.L .p) (← readK c (.L .m)))
  readK c (.L .m)

/-- `DiGraph.get_Up` -- digraph.py:33-49 -/
def upDir : M c (Mat c.n c.n α) := do
  fill c (.U .p) (do
    if ← andM c (has c (.U .m)) (notM c (getSelf c)) then readK c (.U .m)
    else pure (triu c.A))
  ifMissing c .hasSelf (do
    if ← has c (.U .m) then
      put c .hasSelf (decide (mnvals (← readK c (.U .p)) > mnvals (← readK c (.U .m))))
    else if ← has c (.L .p) then
      put c .hasSelf (decide (mnvals (← readK c (.U .p)) + mnvals (← readK c (.L .p)) > mnvals c.A))
    else pure ())
  whenM c (← selfFalse c) (do put c (.U .m) (← readK c (.U .p)))
  readK c (.U .p)

/-- `DiGraph.get_Lp` -- digraph.py:52-68 -/
def lpDir : M c (Mat c.n c.n α) := do
  fill c (.L .p) (do
    if ← andM c (has c (.L .m)) (notM c (getSelf c)) then readK c (.L .m)
    else pure (tril c.A))
  ifMissing c .hasSelf (do
    if ← has c (.L .m) then
      put c .hasSelf (decide (mnvals (← readK c (.L .p)) > mnvals (← readK c (.L .m))))
    else if ← has c (.U .p) then
      put c .hasSelf (decide (mnvals (← readK c (.L .p)) + mnvals (← readK c (.U .p)) > mnvals c.A))
    else pure ())
  whenM c (← selfFalse c) (do put c (.L .m) (← readK c (.L .p)))
  readK c (.L .p)

/-- `DiGraph.get_Um` -- digraph.py:71-92 -/
def umDir : M c (Mat c.n c.n α) := do
  fill c (.U .m) (do
    if ← has c (.U .p) then
      if ← selfFalse c then readK c (.U .p) else return triu1 (← readK c (.U .p))
    else if ← has c .offdiag then return triu1 (← readK c .offdiag)
    else pure (triu1 c.A))
  ifMissing c .hasSelf (do
    if ← has c (.U .p) then
      put c .hasSelf (decide (mnvals (← readK c (.U .m)) < mnvals (← readK c (.U .p))))
    else if ← has c (.L .m) then
      put c .hasSelf (decide (mnvals (← readK c (.U .m)) + mnvals (← readK c (.L .m)) < mnvals c.A))
    else pure ())
  whenM c (← selfFalse c) (do put c (.U .p) (← readK c (.U .m)))
  readK c (.U .m)

/-- `DiGraph.get_Lm` -- digraph.py:95-116 -/
def lmDir : M c (Mat c.n c.n α) := do
  fill c (.L .m) (do
    if ← has c (.L .p) then
      if ← selfFalse c then readK c (.L .p) else return tril1 (← readK c (.L .p))
    else if ← has c .offdiag then return tril1 (← readK c .offdiag)
    else pure (tril1 c.A))
  ifMissing c .hasSelf (do
    if ← has c (.L .p) then
      put c .hasSelf (decide (mnvals (← readK c (.L .m)) < mnvals (← readK c (.L .p))))
    else if ← has c (.U .m) then
      put c .hasSelf (decide (mnvals (← readK c (.L .m)) + mnvals (← readK c (.U .m)) < mnvals c.A))
    else pure ())
  whenM c (← selfFalse c) (do put c (.L .p) (← readK c (.L .m)))
  readK c (.L .m)

/-- the closing lines of the getters that come in `+`/`-` pairs: `if "has_self_edges" not in
cache and <the other sign is cached and differs>: cache["has_self_edges"] = True`,
`elif cache.get("has_self_edges") is False: <copy to the other sign>` -/
def sync (differ : M c Bool) (copy : M c Unit) : M c Unit := do
  if ← andM c (notM c (has c .hasSelf)) differ then put c .hasSelf true
  else if ← selfFalse c then copy
  else pure ()

/-! ## automatic reductions to vectors -- _caching.py:7-96 -/

/-- the reduction method: `Graph` always reduces row-wise, also for `_columnwise` names
(graph.py:280-282); `DiGraph` follows the name (digraph.py:420-424). -/
def meth (ax : Axis) : Axis := if c.dir then ax else .row

/-- `op_(x | y)` of the `L-`/`U-` branch; `none` for aggregators, for which the branch is not
taken (`opclass in {"BinaryOp", "Monoid"}`). -/
def luOp : (r : VOp ι) → Option (Vec c.n (r.Ty α) → Vec c.n (r.Ty α) → Vec c.n (r.Ty α))
  | .mon o => some (vadd (c.f o))
  | .count => none

/-- after the value is there: compare with the other sign -- _caching.py:55-62, 86-93 -/
def vecSync (r : VOp ι) (ax : Axis) (s t : Sign) : M c (Vec c.n (r.Ty α)) := do
  sync c (andM c (has c (.vec r t ax)) (do
      return decide (nvals (← readK c (.vec r s ax)) ≠ nvals (← readK c (.vec r t ax)))))
    (do put c (.vec r t ax) (← readK c (.vec r s ax)))
  readK c (.vec r s ax)

/-- `{op}_rowwise+` / `{op}_columnwise+` -- _caching.py:67-94 -/
def getVecP (r : VOp ι) (ax : Axis) (mask : Option (VMask c.n)) : M c (Vec c.n (r.Ty α)) :=
  let fresh : M c (Vec c.n (r.Ty α)) := do
    if ← andM c (pure (meth c ax == .col)) (has c .AT) then
      return redRow c.f r (← readK c .AT)
    else pure (red c.f r (meth c ax) c.A)
  match mask with
  | some m => do
    if ← has c (.vec r .p ax) then return vassignR m (← readK c (.vec r .p ax))
    else if ← andM c (selfFalse c) (has c (.vec r .m ax)) then
      put c (.vec r .p ax) (← readK c (.vec r .m ax))
      return vassignR m (← readK c (.vec r .p ax))
    else return vassignR m (← fresh)
  | none => do
    fill c (.vec r .p ax) (do
      if ← andM c (selfFalse c) (has c (.vec r .m ax)) then readK c (.vec r .m ax)
      else fresh)
    vecSync c r ax .p .m

/-- `{op}_rowwise-` / `{op}_columnwise-` -- _caching.py:13-63.  `al` tells how the class-level
`AutoDict` of `Graph` currently resolves the nested name `{op}_columnwise+`: to the row-wise
closure (graph.py:292) or to its own; it is a free input of every request. -/
def getVecM (al : Bool) (r : VOp ι) (ax : Axis) (mask : Option (VMask c.n)) :
    M c (Vec c.n (r.Ty α)) :=
  let ax' := if al && !c.dir then Axis.row else ax
  match mask with
  | some m => do
    if ← has c (.vec r .m ax) then return vassignR m (← readK c (.vec r .m ax))
    else if ← andM c (selfFalse c) (has c (.vec r .p ax)) then
      put c (.vec r .m ax) (← readK c (.vec r .p ax))
      return vassignR m (← readK c (.vec r .m ax))
    else if ← has c .offdiag then
      return vassignR m (red c.f r (meth c ax) (← readK c .offdiag))
    else if ← andM c (has c (.L .m)) (andM c (has c (.U .m))
        (andM c (pure (luOp c r).isSome) (getSelf c))) then
      let l ← readK c (.L .m)
      let u ← readK c (.U .m)
      return ((luOp c r).getD fun _ y => y)
        (vassignR m (red c.f r (meth c ax) l)) (vassignR m (red c.f r (meth c ax) u))
    else if !(← getSelf c) then getVecP c r ax' (some m)
    else return vassignR m (red c.f r (meth c ax) (← getOffdiag c))
  | none => do
    fill c (.vec r .m ax) (do
      if ← andM c (selfFalse c) (has c (.vec r .p ax)) then readK c (.vec r .p ax)
      else if ← has c .offdiag then
        return red c.f r (meth c ax) (← readK c .offdiag)
      else if ← andM c (has c (.L .m)) (andM c (has c (.U .m))
          (andM c (pure (luOp c r).isSome) (getSelf c))) then
        let l ← readK c (.L .m)
        let u ← readK c (.U .m)
        return ((luOp c r).getD fun _ y => y)
          (red c.f r (meth c ax) l) (red c.f r (meth c ax) u)
      else if !(← getSelf c) then getVecP c r ax' none
      else return red c.f r (meth c ax) (← getOffdiag c))
    vecSync c r ax .m .p

/-! ## automatic reductions to scalars -- _caching.py:99-185 -/

/-- compare with the other sign -- _caching.py:133-140, 161-168 -/
def elemSync (o : ι) (s t : Sign) : M c (Option α) := do
  sync c (andM c (has c (.elem o t)) (do
      return decide ((← readK c (.elem o s)) ≠ (← readK c (.elem o t)))))
    (do put c (.elem o t) (← readK c (.elem o s)))
  readK c (.elem o s)

/-- `{op}_element+` -- _caching.py:145-169 -/
def getElemP (o : ι) : M c (Option α) := do
  fill c (.elem o .p) (do
    if ← andM c (selfFalse c) (has c (.elem o .m)) then readK c (.elem o .m)
    else if ← has c (.vec (.mon o) .p .row) then
      return reduce (c.f o) (← readK c (.vec (.mon o) .p .row))
    else if ← has c (.vec (.mon o) .p .col) then
      return reduce (c.f o) (← readK c (.vec (.mon o) .p .col))
    else if ← andM c (selfFalse c) (has c (.vec (.mon o) .m .row)) then
      return reduce (c.f o) (← readK c (.vec (.mon o) .m .row))
    else if ← andM c (selfFalse c) (has c (.vec (.mon o) .m .col)) then
      return reduce (c.f o) (← readK c (.vec (.mon o) .m .col))
    else pure (reduceScalar (c.f o) c.A))
  elemSync c o .p .m

/-- `{op}_element-` -- _caching.py:105-141.  The branch for cached `L-` and `U-` calls
`Matrix.reduce`, which does not exist: `AttributeError` (lines 124-132). -/
def getElemM (o : ι) : M c (Option α) := do
  fill c (.elem o .m) (do
    if ← andM c (selfFalse c) (has c (.elem o .p)) then readK c (.elem o .p)
    else if ← has c (.vec (.mon o) .m .row) then
      return reduce (c.f o) (← readK c (.vec (.mon o) .m .row))
    else if ← has c (.vec (.mon o) .m .col) then
      return reduce (c.f o) (← readK c (.vec (.mon o) .m .col))
    else if ← andM c (selfFalse c) (has c (.vec (.mon o) .p .row)) then
      return reduce (c.f o) (← readK c (.vec (.mon o) .p .row))
    else if ← andM c (selfFalse c) (has c (.vec (.mon o) .p .col)) then
      return reduce (c.f o) (← readK c (.vec (.mon o) .p .col))
    else if ← has c .offdiag then
      return reduceScalar (c.f o) (← readK c .offdiag)
    else if ← andM c (has c (.L .m)) (andM c (has c (.U .m)) (getSelf c)) then
      throw .attributeError
    else if !(← getSelf c) then getElemP c o
    else return reduceScalar (c.f o) (← getOffdiag c))
  elemSync c o .m .p

/-- `{op}_diagonal` -- _caching.py:173-181 -/
def getDiagRed (o : ι) : M c (Option α) := do
  fill c (.diagRed o) (do
    if !(← getSelf c) then pure none
    else return reduce (c.f o) (← getDiag c none))
  readK c (.diagRed o)

/-! ## negativity flags -/

/-- the test of `has_negative_diagonal` -- graph.py:140-147 -/
def negDiagTest : M c Bool := do
  let np ← isB c (.neg .p) rfl true
  let mp := ((← peek c (.elem c.mn .p)).getD (some 0))
  let mm := ((← peek c (.elem c.mn .m)).getD (some 0))
  return (np && (← isB c (.neg .m) rfl false)) || (np && geZ mm) || (ltZ mp && oltB mp mm)

/-- `has_negative_diagonal` -- graph.py:134-151 -/
def getNegDiag : M c Bool := do
  fill c .negDiag (do
    if c.nonneg then pure false
    else if ← selfFalse c then pure false
    else if ← negDiagTest c then pure true
    else return decide ((← getDiagRed c c.mn).getD 0 < 0))
  readK c .negDiag

/-- the test of `has_negative_edges+` -- graph.py:160-166 -/
def negPTest : M c Bool := do
  let nm ← isB c (.neg .m) rfl true
  let mp := ((← peek c (.elem c.mn .p)).getD (some 0))
  let mm := ((← peek c (.elem c.mn .m)).getD (some 0))
  let md := ((← peek c (.diagRed c.mn)).getD (some 0))
  let nd ← isB c .negDiag rfl true
  return nm || ltZ mp || ltZ mm || ltZ md || nd

/-- `has_negative_edges+` -- graph.py:154-174 -/
def getNegP : M c Bool := do
  fill c (.neg .p) (do
    if c.nonneg then pure false
    else if ← negPTest c then pure true
    else match ← peek c .isoVal with
      | some (some x) => return decide (x < 0)
      | _ =>
        if ← isB c (.neg .m) rfl false then
          return decide ((← getDiagRed c c.mn).getD 0 < 0)
        else return decide ((← getElemP c c.mn).getD 0 < 0))
  readK c (.neg .p)

/-- `has_negative_edges-` -- graph.py:177-192 -/
def getNegM : M c Bool := do
  fill c (.neg .m) (do
    if c.nonneg then pure false
    else if ← andM c (isB c (.neg .p) rfl true) (do
        if ← selfFalse c then pure true else isB c .negDiag rfl false) then pure true
    else return decide ((← getElemM c c.mn).getD 0 < 0))
  readK c (.neg .m)

/-! ## iso values -/

/-- `is_iso` -- graph.py:217-227 -/
def getIsIso : M c Bool := do
  fill c .isIso (do
    if ← has c .isoVal then return (← readK c .isoVal).isSome
    else pure c.iso.isSome)
  readK c .isIso

/-- `get_iso_value` -- graph.py:230-249.  When `is_iso` is cached as `False` the code evaluates
`cache["iso_value"]` without assigning it. -/
def getIsoVal : M c (Option α) := do
  ifMissing c .isoVal (do
    if ← has c .isIso then
      if ← readK c .isIso then put c .isoVal c.iso
      else do
        let _ ← readK c .isoVal
        pure ()
    else if c.iso.isSome then do
      put c .isoVal c.iso
      put c .isIso true
    else do
      put c .isoVal none
      put c .isIso false)
  readK c .isoVal

/-! ## directed degrees -/

/-- `unary.one(diag)` -/
def oneOf (d : Vec c.n α) : Vec c.n Nat := vapply (fun _ => 1) d
/-- `pair(B & C).reduce_rowwise()` -/
def pairRow (B C : Mat c.n c.n α) : Vec c.n Nat := reduceRow (· + ·) (mmul pairN B C)
/-- `rv = minus(x | y); rv(rv.V, replace) << rv` -- digraph.py:178-181: counts, so natural
subtraction; a position with only one operand keeps it. -/
def minusDrop (x y : Vec c.n Nat) : Vec c.n Nat :=
  fun i => (vadd (fun a b => a - b) x y i).filter (· ≠ 0)

/-- compare with the other sign -- digraph.py:150-157, 227-234 -/
def recipSync (s t : Sign) : M c (Vec c.n Nat) := do
  sync c (andM c (has c (.recip t)) (do
      return decide (nvals (← readK c (.recip .m)) ≠ nvals (← readK c (.recip .p)))))
    (do put c (.recip t) (← readK c (.recip s)))
  readK c (.recip s)

/-- `get_recip_degreesp` -- digraph.py:119-158 -/
def getRecipP (mask : Option (VMask c.n)) : M c (Vec c.n Nat) := do
  let AT := (← peek c .AT).getD (transpose c.A)
  match mask with
  | some m =>
    if ← has c (.recip .p) then return vassignR m (← readK c (.recip .p))
    else if ← andM c (selfFalse c) (has c (.recip .m)) then
      put c (.recip .p) (← readK c (.recip .m))
      return vassignR m (← readK c (.recip .m))
    else if ← andM c (has c (.recip .m)) (has c .diag) then
      let d ← readK c .diag
      let r ← readK c (.recip .m)
      return vassignR m (vadd (· + ·) (oneOf c d) r)
    else if ← andM c (has c (.recip .m)) (notM c (getSelf c)) then
      return vassignR m (← readK c (.recip .m))
    else return vassignR m (pairRow c c.A AT)
  | none =>
    fill c (.recip .p) (do
      if ← andM c (selfFalse c) (has c (.recip .m)) then readK c (.recip .m)
      else if ← andM c (has c (.recip .m)) (has c .diag) then
        let d ← readK c .diag
        let r ← readK c (.recip .m)
        return vadd (· + ·) (oneOf c d) r
      else if ← andM c (has c (.recip .m)) (notM c (getSelf c)) then readK c (.recip .m)
      else return pairRow c c.A AT)
    recipSync c .p .m

/-- `get_recip_degreesm` -- digraph.py:161-235 -/
def getRecipM (mask : Option (VMask c.n)) : M c (Vec c.n Nat) := do
  let AT := (← peek c .AT).getD (transpose ((← peek c .offdiag).getD c.A))
  match mask with
  | some m =>
    if ← has c (.recip .m) then return vassignR m (← readK c (.recip .m))
    else if ← andM c (selfFalse c) (has c (.recip .p)) then
      put c (.recip .m) (← readK c (.recip .p))
      return vassignR m (← readK c (.recip .m))
    else if ← andM c (has c (.recip .p)) (has c .diag) then
      let d ← readK c .diag
      let r ← readK c (.recip .p)
      return fun i => (vassignR m (vadd (fun a b => a - b) r (oneOf c d)) i).filter (· ≠ 0)
    else if !(← getSelf c) then getRecipP c (some m)
    else if ← has c .offdiag then
      return vassignR m (pairRow c (← readK c .offdiag) AT)
    else if ← andM c (has c (.L .m)) (has c (.U .m)) then
      let l ← readK c (.L .m)
      let u ← readK c (.U .m)
      return vadd (· + ·) (vassignR m (pairRow c l AT)) (vassignR m (pairRow c u AT))
    else
      let d ← getDiag c (some m)
      return minusDrop c (vassignR m (pairRow c c.A AT)) (oneOf c d)
  | none =>
    fill c (.recip .m) (do
      if ← andM c (selfFalse c) (has c (.recip .p)) then readK c (.recip .p)
      else if ← andM c (has c (.recip .p)) (has c .diag) then
        let d ← readK c .diag
        let r ← readK c (.recip .p)
        return minusDrop c r (oneOf c d)
      else if !(← getSelf c) then getRecipP c none
      else if ← has c .offdiag then return pairRow c (← readK c .offdiag) AT
      else if ← andM c (has c (.L .m)) (has c (.U .m)) then
        let l ← readK c (.L .m)
        let u ← readK c (.U .m)
        return vadd (· + ·) (pairRow c l AT) (pairRow c u AT)
      else
        let d ← getDiag c none
        return minusDrop c (pairRow c c.A AT) (oneOf c d))
    recipSync c .m .p

/-- compare with the other sign -- digraph.py:257-264, 287-294 -/
def totdegSync (s t : Sign) : M c (Vec c.n Nat) := do
  sync c (andM c (has c (.totdeg t)) (do
      return decide (nvals (← readK c (.totdeg .m)) ≠ nvals (← readK c (.totdeg .p)))))
    (do put c (.totdeg t) (← readK c (.totdeg s)))
  readK c (.totdeg s)

/-- `row_degrees±` / `column_degrees±` of a `DiGraph` through the aliases -- digraph.py:509-514 -/
def degOf (s : Sign) (ax : Axis) (mask : Option (VMask c.n)) : M c (Vec c.n Nat) :=
  match s with
  | .p => getVecP c .count ax mask
  | .m => getVecM c false .count ax mask

/-- `get_total_degreesp` / `get_total_degreesm` -- digraph.py:238-295 (the two functions are
mirror images) -/
def getTotdeg (s t : Sign) (mask : Option (VMask c.n)) : M c (Vec c.n Nat) :=
  match mask with
  | some m => do
    if ← has c (.totdeg s) then return vassignR m (← readK c (.totdeg s))
    else if ← andM c (selfFalse c) (has c (.totdeg t)) then
      put c (.totdeg s) (← readK c (.totdeg t))
      return vassignR m (← readK c (.totdeg s))
    else return vadd (· + ·) (← degOf c s .row (some m)) (← degOf c s .col (some m))
  | none => do
    fill c (.totdeg s) (do
      if ← andM c (selfFalse c) (has c (.totdeg t)) then readK c (.totdeg t)
      else return vadd (· + ·) (← degOf c s .row none) (← degOf c s .col none))
    totdegSync c s t

/-- the last lines of the two functions below -- digraph.py:310-314, 325-329 -/
def totrecipSync (s t : Sign) : M c Nat := do
  whenM c (← andM c (notM c (has c .hasSelf)) (has c (.totrecip t))) (do
    put c .hasSelf (decide ((← readK c (.totrecip .p)) > (← readK c (.totrecip .m)))))
  whenM c (← selfFalse c) (do put c (.totrecip t) (← readK c (.totrecip s)))
  readK c (.totrecip s)

/-- `get_total_recipp` -- digraph.py:298-314 -/
def getTotrecipP : M c Nat := do
  fill c (.totrecip .p) (do
    if ← andM c (has c (.totrecip .m)) (selfFalse c) then readK c (.totrecip .m)
    else if ← has c (.recip .p) then
      return (reduce (· + ·) (← readK c (.recip .p))).getD 0
    else
      let AT := (← peek c .AT).getD (transpose c.A)
      return (reduceScalar (· + ·) (mmul pairN c.A AT)).getD 0)
  totrecipSync c .p .m

/-- `get_total_recipm` -- digraph.py:317-329 -/
def getTotrecipM : M c Nat := do
  fill c (.totrecip .m) (do
    if ← andM c (has c (.totrecip .p)) (selfFalse c) then readK c (.totrecip .p)
    else return (reduce (· + ·) (← getRecipM c none)).getD 0)
  totrecipSync c .m .p

/-! ## get_property -/

/-- `G.get_property(name, mask=mask)` -- _utils.py:37-38 with the tables graph.py:336-361 and
digraph.py:485-514.  `recip`/`totdeg`/`totrecip` are names of `DiGraph` only (`KeyError` from
`AutoDict.__missing__`, graph.py:276). -/
def getProp (al : Bool) (mask : Option (VMask c.n)) : (k : Key ι) → M c (Val c.n α k)
  | .A => pure c.A
  | .AT => getAT c
  | .offdiag => getOffdiag c
  | .U .p => if c.dir then upDir c else upUndir c
  | .U .m => if c.dir then umDir c else umUndir c
  | .L .p => if c.dir then lpDir c else lpUndir c
  | .L .m => if c.dir then lmDir c else lmUndir c
  | .diag => getDiag c mask
  | .vec r .p ax => getVecP c r ax mask
  | .vec r .m ax => getVecM c al r ax mask
  | .elem o .p => getElemP c o
  | .elem o .m => getElemM c o
  | .diagRed o => getDiagRed c o
  | .recip .p => if c.dir then getRecipP c mask else throw .keyError
  | .recip .m => if c.dir then getRecipM c mask else throw .keyError
  | .totdeg .p => if c.dir then getTotdeg c .p .m mask else throw .keyError
  | .totdeg .m => if c.dir then getTotdeg c .m .p mask else throw .keyError
  | .totrecip .p => if c.dir then getTotrecipP c else throw .keyError
  | .totrecip .m => if c.dir then getTotrecipM c else throw .keyError
  | .hasSelf => getSelf c
  | .negDiag => getNegDiag c
  | .neg .p => getNegP c
  | .neg .m => getNegM c
  | .isIso => getIsIso c
  | .isoVal => getIsoVal c

/-- one request: name, mask, and how the class-level table resolves nested column names -/
structure Req (ι : Type) (n : Nat) where
  key : Key ι
  mask : Option (VMask n) := none
  al : Bool := false

/-- run a request; an exception is caught by the caller, the cache keeps what was stored -/
def exec (r : Req ι c.n) (s : Store ι c.n α) : Store ι c.n α :=
  ((getProp c r.al r.mask r.key).run s).2

/-- the cache after a history of requests on a fresh graph (`self._cache = {}`, graph.py:382) -/
def after (h : List (Req ι c.n)) : Store ι c.n α :=
  h.foldl (fun s r => exec c r s) fun _ => none

/-- `G.get_property(name, mask=mask)` after the history `h` -/
def lookup (h : List (Req ι c.n)) (r : Req ι c.n) : Except Err (Val c.n α r.key) :=
  ((getProp c r.al r.mask r.key).run (after c h)).1

/-! ## get_properties -/

/-- `_property_priority`, doubled so that the default `priority["has_self_edges"] - 0.5` is a
number -- graph.py:309-335 and digraph.py:450-484 -/
def priority (dir : Bool) : Key ι → Nat
  | .A => 0 | .AT => 2 | .offdiag => 4 | .U .p => 6 | .L .p => 8 | .U .m => 10 | .L .m => 12
  | .diag => 14
  | .vec .count .p .row => 16
  | .vec .count .p .col => if dir then 18 else 31
  | .vec .count .m .row => if dir then 20 else 18
  | .vec .count .m .col => if dir then 22 else 31
  | .recip .p => 24 | .recip .m => 26 | .totdeg .p => 28 | .totdeg .m => 30
  | .totrecip .p => 32 | .totrecip .m => 34
  | .diagRed o => if dir then 36 else 20   -- only `min_diagonal`; the others get the default
  | .elem o .p => if dir then 38 else 22   -- only `min_element+`
  | .elem o .m => if dir then 40 else 24   -- only `min_element-`
  | .negDiag => if dir then 42 else 26
  | .neg .m => if dir then 44 else 28
  | .neg .p => if dir then 46 else 30
  | .hasSelf => if dir then 48 else 32
  | .vec (.mon _) _ _ | .isIso | .isoVal => if dir then 47 else 31

/-- the dict comprehension `{name: self._get_property[name](self, mask) for name in ...}` -/
def evalAll (al : Bool) (mask : Option (VMask c.n)) :
    List (Key ι) → Store ι c.n α → M c (Store ι c.n α)
  | [], d => pure d
  | k :: ks, d => do
    let v ← getProp c al mask k
    evalAll al mask ks (Function.update d k (some v))

/-- `results[name]` -/
def pick (d : Store ι c.n α) (k : Key ι) : M c (Σ k : Key ι, Val c.n α k) :=
  match d k with
  | some v => pure ⟨k, v⟩
  | none => throw .keyError

/-- `[results[name] for name in names]` -/
def pickAll (d : Store ι c.n α) : List (Key ι) → M c (List (Σ k : Key ι, Val c.n α k))
  | [] => pure []
  | k :: ks => do
    let x ← pick c d k
    let xs ← pickAll d ks
    pure (x :: xs)

/-- `G.get_properties(names, mask=mask)` -- _utils.py:41-55, after splitting the string and
resolving aliases; `prio` is the sort key (`sorted` is stable, and so is `insertionSort`) -/
def getProps (prio : Key ι → Nat) (al : Bool) (mask : Option (VMask c.n)) (names : List (Key ι)) :
    M c (List (Σ k : Key ι, Val c.n α k)) := do
  let d ← evalAll c al mask (names.insertionSort fun a b => prio a ≤ prio b) fun _ => none
  pickAll c d names

/-- `G.get_properties(names, mask=mask)` after the history `h` -/
def lookups (h : List (Req ι c.n)) (al : Bool) (mask : Option (VMask c.n)) (names : List (Key ι)) :
    Except Err (List (Σ k : Key ι, Val c.n α k)) :=
  ((getProps c (priority c.dir) al mask names).run (after c h)).1

end Model.Cache
