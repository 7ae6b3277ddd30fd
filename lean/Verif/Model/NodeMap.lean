import Verif.Model.Convert

/-!
# classes/nodemap.py and classes/nodeset.py as state machines

The graph part of a map (`_key_to_id`, `_id_to_key`) never changes; it is the parameter `G` (its
matrix is not used).  Every operation returns what Python returns or raises, and the new state.
Methods inherited from `collections.abc` (`pop`, the set operators) follow CPython's mixins.
-/

open GB

namespace Model

variable {K α U R : Type} [DecidableEq K]

/-! ## NodeMap -/

/-- how values are stored: `_values_are_keys` translates keys to ids and back.  `raw` is what
`vector[idx] = val` stores for an untranslated value (only `setdefault` does that). -/
structure Codec (U R : Type) where
  enc : U → Except Err R
  dec : R → Except Err U
  raw : U → Except Err R

/-- `values_are_keys=False` -/
def Codec.plain : Codec U U := ⟨.ok, .ok, .ok⟩

/-- `values_are_keys=True` -- nodemap.py:45-46, 67-68, 97-98; `raw` is the conversion of the bare key to the
integer dtype of the vector -/
def Codec.keys (G : Graph K α) (raw : K → Except Err Nat) : Codec K Nat :=
  { enc := fun u => match G.keyToId.lookup u with
      | some i => .ok i
      | none => .error .keyError
    dec := keyAt G
    raw := raw }

/-- the mutable part of a `NodeMap` -- nodemap.py:9-18 -/
structure NMap (n : Nat) (U R : Type) where
  vec : Vec n R
  fill : Option U

/-- the methods of a mapping -/
inductive MOp (K U : Type)
  | getitem (k : K)
  | get (k : K) (default : Option U)
  | setitem (k : K) (v : U)
  | delitem (k : K)
  | contains (k : K)
  | len
  | iter
  | clear
  | setdefault (k : K) (default : Option U)
  | popitem
  | pop (k : K)
  | popD (k : K) (default : Option U)

/-- what a method returns; `val none` is `None` -/
inductive MOut (K U : Type)
  | val (v : Option U)
  | bool (b : Bool)
  | nat (n : Nat)
  | keys (l : List K)
  | item (k : K) (v : U)
  | unit
  deriving DecidableEq

/-- `self.vector.get(idx)`, decoded -/
def nmLookup (c : Codec U R) {n : Nat} (s : NMap n U R) (i : Fin n) : Except Err (Option U) :=
  match s.vec i with
  | some r => (c.dec r).map some
  | none => .ok s.fill

/-- `NodeMap.__getitem__` -- nodemap.py:42-50 -/
def nmGetitem (G : Graph K α) (c : Codec U R) (s : NMap G.n U R) (k : K) : Except Err (MOut K U) := do
  let i ← G.getId k
  match ← nmLookup c s i with
  | some u => .ok (.val (some u))
  | none => .error .keyError

/-- `NodeMap.get` -- nodemap.py:90-99 -/
def nmGet (G : Graph K α) (c : Codec U R) (s : NMap G.n U R) (k : K) (d : Option U) :
    Except Err (MOut K U) := do
  let i ← G.getId k
  match ← nmLookup c s i with
  | some u => .ok (.val (some u))
  | none => .ok (.val d)

/-- `NodeMap.__iter__` (as a list) -- nodemap.py:52-58; `to_coo(sort=False)` modelled ascending -/
def nmIter (G : Graph K α) (s : NMap G.n U R) : Except Err (MOut K U) :=
  match s.fill with
  | some _ => .ok (.keys (G.keyToId.map Prod.fst))
  | none => (listToKeys G (indices s.vec)).map .keys

/-- `NodeMap.__len__` -- nodemap.py:60-63 -/
def nmLen (G : Graph K α) (s : NMap G.n U R) : Nat :=
  match s.fill with
  | some _ => G.keyToId.length
  | none => nvals s.vec

/-- `NodeMap.__delitem__` -- nodemap.py:38-40 (`del v[i]` of an absent entry does nothing) -/
def nmDel (G : Graph K α) (s : NMap G.n U R) (k : K) : Except Err (MOut K U) × NMap G.n U R :=
  match G.getId k with
  | .error e => (.error e, s)
  | .ok i => (.ok .unit, { s with vec := vdel s.vec i })

/-- `NodeMap.__setitem__` -- nodemap.py:65-69 -/
def nmSet (G : Graph K α) (c : Codec U R) (s : NMap G.n U R) (k : K) (v : U) :
    Except Err (MOut K U) × NMap G.n U R :=
  match G.getId k with
  | .error e => (.error e, s)
  | .ok i =>
    match c.enc v with
    | .error e => (.error e, s)
    | .ok r => (.ok .unit, { s with vec := vset s.vec i r })

/-- `NodeMap.popitem` -- nodemap.py:105-114; the first stored entry -/
def nmPopitem (G : Graph K α) (c : Codec U R) (s : NMap G.n U R) :
    Except Err (MOut K U) × NMap G.n U R :=
  match tocoo s.vec with
  | [] => (.error .keyError, s)
  | (i, r) :: _ =>
    (do let u ← c.dec r
        let k ← keyAt G i.val
        .ok (.item k u), { s with vec := vdel s.vec i })

/-- `NodeMap.setdefault` -- nodemap.py:116-126 (NOTE: stores the default untranslated) -/
def nmSetdefault (G : Graph K α) (c : Codec U R) (s : NMap G.n U R) (k : K) (d : Option U) :
    Except Err (MOut K U) × NMap G.n U R :=
  match G.getId k with
  | .error e => (.error e, s)
  | .ok i =>
    match nmLookup c s i with
    | .error e => (.error e, s)
    | .ok (some u) => (.ok (.val (some u)), s)
    | .ok none =>
      match d with
      | none => (.ok (.val none), s)
      | some u =>
        match c.raw u with
        | .error e => (.error e, s)
        | .ok r => (.ok (.val (some u)), { s with vec := vset s.vec i r })

/-- `MutableMapping.pop` (CPython): `self[key]`, then `del self[key]` -/
def nmPop (G : Graph K α) (c : Codec U R) (s : NMap G.n U R) (k : K) :
    Except Err (MOut K U) × NMap G.n U R :=
  match nmGetitem G c s k with
  | .error e => (.error e, s)
  | .ok o => (.ok o, (nmDel (U := U) G s k).2)

/-- `MutableMapping.pop` with a default: a KeyError of `self[key]` gives the default -/
def nmPopD (G : Graph K α) (c : Codec U R) (s : NMap G.n U R) (k : K) (d : Option U) :
    Except Err (MOut K U) × NMap G.n U R :=
  match nmGetitem G c s k with
  | .error .keyError => (.ok (.val d), s)
  | .error e => (.error e, s)
  | .ok o => (.ok o, (nmDel (U := U) G s k).2)

/-- one method call on a `NodeMap` -/
def nmStep (G : Graph K α) (c : Codec U R) (s : NMap G.n U R) :
    MOp K U → Except Err (MOut K U) × NMap G.n U R
  | .getitem k => (nmGetitem G c s k, s)
  | .get k d => (nmGet G c s k d, s)
  | .setitem k v => nmSet G c s k v
  | .delitem k => nmDel G s k
  -- nodemap.py:72-74
  | .contains k => ((G.getId k).map fun i => .bool (s.fill.isSome || (s.vec i).isSome), s)
  | .len => (.ok (.nat (nmLen G s)), s)
  | .iter => (nmIter G s, s)
  -- nodemap.py:86-88
  | .clear => (.ok .unit, ⟨vempty, none⟩)
  | .setdefault k d => nmSetdefault G c s k d
  | .popitem => nmPopitem G c s
  | .pop k => nmPop G c s k
  | .popD k d => nmPopD G c s k d

/-- a sequence of calls: all results, and the final state -/
def nmRun (G : Graph K α) (c : Codec U R) (s : NMap G.n U R) :
    List (MOp K U) → List (Except Err (MOut K U)) × NMap G.n U R
  | [] => ([], s)
  | op :: ops =>
    let r := nmStep G c s op
    let rest := nmRun G c r.2 ops
    (r.1 :: rest.1, rest.2)

/-! ## VectorNodeMap and NodeNodeMap -/

/-- the mutable part: matrix, lazily built `_rows`, and `_fill_value` (always none for
`VectorNodeMap`) -- nodemap.py:198-205, 312-321 -/
structure RMap (n m : Nat) (R : Type) where
  A : Mat n m R
  rows : Option (Vec n Nat)
  fill : Option R

/-- methods; the value of `setitem` is `none` when it is neither a map nor a dict -/
inductive ROp (K : Type) (m : Nat) (R : Type)
  | getitem (k : K)
  | get (k : K)
  | setitem (k : K) (v : Option (Vec m R))
  | delitem (k : K)
  | contains (k : K)
  | len
  | iter
  | clear
  | popitem

/-- results; `row v` is a map around the vector `v` -/
inductive ROut (K : Type) (m : Nat) (R : Type)
  | row (v : Vec m R)
  | none
  | bool (b : Bool)
  | nat (n : Nat)
  | keys (l : List K)
  | item (k : K) (v : Vec m R)
  | unit

variable {n m : Nat}

/-- `_get_rows()`: the row index and the state with the cache filled -- nodemap.py:207-211, 323-327 -/
def rmRows (s : RMap n m R) : Vec n Nat × RMap n m R :=
  match s.rows with
  | some r => (r, s)
  | none =>
    let r : Vec n Nat := vapply (fun _ => 1) (reduceRow any' s.A)
    (r, { s with rows := some r })

/-- `del self.matrix[idx, :]; if self._rows is not None: del self._rows[idx]` -- nodemap.py:232-236, 348-352 -/
def rmDelRow (s : RMap n m R) (i : Fin n) : RMap n m R :=
  { s with
    A := fun a b => if a = i then .none else s.A a b
    rows := s.rows.map fun r => vdel r i }

/-- `self.matrix[idx, :] = val; self._rows[idx] = 1` -- nodemap.py:267-269, 392-394 -/
def rmSetRow (s : RMap n m R) (i : Fin n) (v : Vec m R) : RMap n m R :=
  { s with
    A := fun a b => if a = i then v b else s.A a b
    rows := s.rows.map fun r => vset r i 1 }

/-- one method call.  `nodeNode`: the class is `NodeNodeMap` (whose `get` forgets to return the row,
nodemap.py:416-424); otherwise `VectorNodeMap`. -/
def rmStep (G : Graph K α) (nodeNode : Bool) (s : RMap G.n m R) :
    ROp K m R → Except Err (ROut K m R) × RMap G.n m R
  -- nodemap.py:238-242, 354-362
  | .getitem k => match G.getId k with
    | .error e => (.error e, s)
    | .ok i =>
      if s.fill.isSome then (.ok (.row (s.A i)), s)
      else
        let (r, s') := rmRows s
        if (r i).isSome then (.ok (.row (s'.A i)), s') else (.error .keyError, s')
  -- nodemap.py:285-289, 416-424
  | .get k => match G.getId k with
    | .error e => (.error e, s)
    | .ok i =>
      if s.fill.isSome then (.ok .none, s)
      else
        let (r, s') := rmRows s
        if (r i).isSome then (.ok (if nodeNode then .none else .row (s'.A i)), s') else (.ok .none, s')
  -- nodemap.py:254-269, 378-394
  | .setitem k v => match G.getId k with
    | .error e => (.error e, s)
    | .ok i => match v with
      | .none => (.error .typeError, s)
      | some v => (.ok .unit, if nvals v = 0 then rmDelRow s i else rmSetRow s i v)
  | .delitem k => match G.getId k with
    | .error e => (.error e, s)
    | .ok i => (.ok .unit, rmDelRow s i)
  -- nodemap.py:272-274, 397-399
  | .contains k => match G.getId k with
    | .error e => (.error e, s)
    | .ok i =>
      if s.fill.isSome then (.ok (.bool true), s)
      else
        let (r, s') := rmRows s
        (.ok (.bool (r i).isSome), s')
  -- nodemap.py:251-252, 373-376
  | .len =>
    if s.fill.isSome then (.ok (.nat G.keyToId.length), s)
    else
      let (r, s') := rmRows s
      (.ok (.nat (nvals r)), s')
  -- nodemap.py:244-249, 364-371
  | .iter =>
    if s.fill.isSome then (.ok (.keys (G.keyToId.map Prod.fst)), s)
    else
      let (r, s') := rmRows s
      ((listToKeys G (indices r)).map .keys, s')
  -- nodemap.py:281-283, 411-414
  | .clear => (.ok .unit, ⟨mempty, .none, .none⟩)
  -- nodemap.py:295-304, 430-443
  | .popitem =>
    let (r, s') := rmRows s
    match indices r with
    | [] => (.error .keyError, s')
    | i :: _ => ((keyAt G i.val).map fun k => .item k (s'.A i), rmDelRow s' i)

/-- a sequence of calls -/
def rmRun (G : Graph K α) (nodeNode : Bool) (s : RMap G.n m R) :
    List (ROp K m R) → List (Except Err (ROut K m R)) × RMap G.n m R
  | [] => ([], s)
  | op :: ops =>
    let r := rmStep G nodeNode s op
    let rest := rmRun G nodeNode r.2 ops
    (r.1 :: rest.1, rest.2)

omit [DecidableEq K] in
/-- `VectorMap.__getitem__` -- nodemap.py:140-141: `self.vector.get(key)`, no KeyError -/
def vmGetitem (v : Vec m R) (i : Fin m) : Option R := v i

/-! ## NodeSet -/

/-- methods of a mutable set -/
inductive SOp (K : Type)
  | add (k : K)
  | discard (k : K)
  | remove (k : K)
  | pop
  | clear
  | contains (k : K)
  | len
  | iter

/-- results -/
inductive SOut (K : Type)
  | unit
  | bool (b : Bool)
  | nat (n : Nat)
  | keys (l : List K)
  | key (k : K)

/-- one method call on a `NodeSet` whose vector is `v` -- nodeset.py:36-55, 75-76, 83-95 -/
def nsStep (G : Graph K α) (v : Vec G.n Bool) : SOp K → Except Err (SOut K) × Vec G.n Bool
  | .add k => match G.getId k with
    | .error e => (.error e, v)
    | .ok i => (.ok .unit, vset v i true)
  | .discard k => match G.getId k with
    | .error e => (.error e, v)
    | .ok i => (.ok .unit, vdel v i)
  | .remove k => match G.getId k with
    | .error e => (.error e, v)
    | .ok i => if (v i).isSome then (.ok .unit, vdel v i) else (.error .keyError, v)
  | .pop => match indices v with
    | [] => (.error .keyError, v)
    | i :: _ => ((keyAt G i.val).map .key, vdel v i)
  | .clear => (.ok .unit, vempty)
  | .contains k => ((G.getId k).map fun i => .bool (v i).isSome, v)
  | .len => (.ok (.nat (nvals v)), v)
  | .iter => ((listToKeys G (indices v)).map .keys, v)

/-- a sequence of calls -/
def nsRun (G : Graph K α) (v : Vec G.n Bool) :
    List (SOp K) → List (Except Err (SOut K)) × Vec G.n Bool
  | [] => ([], v)
  | op :: ops =>
    let r := nsStep G v op
    let rest := nsRun G r.2 ops
    (r.1 :: rest.1, rest.2)

/-- `NodeSet.__eq__` of two node sets -- nodeset.py:58-68; `plus_pair(a @ b).get(0)` -/
def nsEq {H : Graph K α} (G : Graph K α) (v : Vec G.n Bool) (w : Vec H.n Bool) : Bool :=
  if h : G.n = H.n then
    let w' : Vec G.n Bool := fun i => w (i.cast h)
    decide (nvals v = nvals w') &&
    decide ((dot (· + ·) pairN v w').getD 0 = nvals v) &&
    ((G.keyToId.all fun p => H.keyToId.lookup p.1 == some p.2) &&
     (H.keyToId.all fun p => G.keyToId.lookup p.1 == some p.2))
  else false

/-- `NodeSet.isdisjoin(other)` (sic) -- nodeset.py:78-81 -/
def nsIsdisjoin (v w : Vec n Bool) : Bool := !((dot any' pairB v w).getD false)

/-- `self._from_iterable(it)` -- nodeset.py:97-103 -/
def nsFromIterable (G : Graph K α) (it : List K) : Except Err (Vec G.n Bool) := setToVector G it false

/-- `x in self`, as used by the mixin operators -/
def nsContains (G : Graph K α) (v : Vec G.n Bool) (k : K) : Except Err Bool :=
  (G.getId k).map fun i => (v i).isSome

/-- the members of an iterable that satisfy a test that may raise -/
def filterE (p : K → Except Err Bool) : List K → Except Err (List K)
  | [] => .ok []
  | k :: ks => do
    let b ← p k
    let r ← filterE p ks
    .ok (if b then k :: r else r)

/-- `self & other` (`collections.abc.Set.__and__`) for an iterable `other` -/
def nsAnd (G : Graph K α) (v : Vec G.n Bool) (other : List K) : Except Err (Vec G.n Bool) := do
  let l ← filterE (nsContains G v) other
  nsFromIterable G l

/-- `self | other` (`Set.__or__`) -/
def nsOr (G : Graph K α) (v : Vec G.n Bool) (other : List K) : Except Err (Vec G.n Bool) := do
  let l ← listToKeys G (indices v)
  nsFromIterable G (l ++ other)

/-- `self - other` (`Set.__sub__`) for another node set -/
def nsSub (G : Graph K α) (v w : Vec G.n Bool) : Except Err (Vec G.n Bool) := do
  let l ← listToKeys G (indices v)
  let l' ← filterE (fun k => (nsContains G w k).map (!·)) l
  nsFromIterable G l'

/-- `self ^ other` (`Set.__xor__`): `(self - other) | (other - self)` -/
def nsXor (G : Graph K α) (v w : Vec G.n Bool) : Except Err (Vec G.n Bool) := do
  let a ← nsSub G v w
  let b ← nsSub G w v
  let l ← listToKeys G (indices b)
  nsOr G a l

/-! ### objects and copies -/

/-- a store of vectors; a `NodeSet` object is a reference to one of them -/
abbrev Heap (n : Nat) := List (Vec n Bool)

/-- a method call on the set object `r` -/
def heapStep (G : Graph K α) (h : Heap G.n) (r : Nat) (op : SOp K) : Except Err (SOut K) × Heap G.n :=
  match h[r]? with
  | none => (.error .runtimeError, h)
  | some v => ((nsStep G v op).1, h.set r (nsStep G v op).2)

/-- `NodeSet.copy()` -- nodeset.py:109-112: a new object around a duplicate of the vector -/
def heapCopy (h : Heap n) (r : Nat) : Option (Nat × Heap n) :=
  h[r]?.map fun v => (h.length, h ++ [v])

/-- calls on several set objects -/
def heapRun (G : Graph K α) (h : Heap G.n) : List (Nat × SOp K) → List (Except Err (SOut K)) × Heap G.n
  | [] => ([], h)
  | (r, op) :: ops =>
    let x := heapStep G h r op
    let rest := heapRun G x.2 ops
    (x.1 :: rest.1, rest.2)

end Model
