import Verif.Model.NodeMap
import Verif.Model.Operators

/-!
# classes/nodemap.py: equality of maps, `VectorMap`, and row assignment from a dict
-/

open GB

namespace Model

variable {K α U R : Type}

/-- `v.isequal(w)`: same size, same stored indices, equal values (dtypes are not compared) -/
def isequal [DecidableEq R] {m n : Nat} (v : Vec m R) (w : Vec n R) : Bool :=
  if h : m = n then decide (∀ i : Fin m, v i = w (i.cast h)) else false

/-- `A.isequal(B)` for matrices -/
def misequal [DecidableEq R] {m n m' n' : Nat} (A : Mat m n R) (B : Mat m' n' R) : Bool :=
  if h : m = m' ∧ n = n' then decide (∀ (i : Fin m) (j : Fin n), A i j = B (i.cast h.1) (j.cast h.2)) else false

/-- `NodeMap.__eq__` for another `NodeMap` -- nodemap.py:76-84; `sameMode` is
`self._values_are_keys == other._values_are_keys` -/
def nmEq [DecidableEq K] [DecidableEq U] [DecidableEq R] (G H : Graph K α) (sameMode : Bool)
    (s : NMap G.n U R) (t : NMap H.n U R) : Bool :=
  sameMode && decide (s.fill = t.fill) && isequal s.vec t.vec && sameDict G H

/-- the items of a `NodeMap`: `for key in self: (key, self[key])` (`collections.abc.ItemsView`) -/
def nmItems [DecidableEq K] (G : Graph K α) (c : Codec U R) (s : NMap G.n U R) :
    Except Err (List (K × Option U)) :=
  match nmIter (U := U) G s with
  | .ok (.keys l) => l.mapM fun k =>
      match nmGetitem G c s k with
      | .ok (.val v) => .ok (k, v)
      | .ok _ => .error .runtimeError
      | .error e => .error e
  | .ok _ => .error .runtimeError
  | .error e => .error e

/-- `NodeMap.__eq__` for a `dict` -- nodemap.py:84: `super().__eq__`, i.e.
`dict(self.items()) == dict(other.items())` -/
def nmEqDict [DecidableEq K] [DecidableEq U] (G : Graph K α) (c : Codec U R) (s : NMap G.n U R)
    (d : List (K × U)) : Except Err Bool := do
  let l ← nmItems G c s
  .ok ((l.all fun p => d.lookup p.1 == p.2) && d.all fun p => l.lookup p.1 == some (some p.2))

/-- `VectorMap.__eq__` for a `NodeMap` -- nodemap.py:162-165 (NOTE: `_fill_value` and `_values_are_keys` of the
other map are ignored) -/
def vmEqNm [DecidableEq R] {m : Nat} (v : Vec m R) (G : Graph Nat α) (t : NMap G.n U R) : Bool :=
  isequal v t.vec &&
  ((G.keyToId.all fun p => decide (p.1 = p.2 ∧ p.1 < m)) && (List.range m).all fun i => G.keyToId.lookup i == some i)

/-- `VectorNodeMap.__eq__` -- nodemap.py:276-279 -/
def vnmEq [DecidableEq K] [DecidableEq R] {m : Nat} (G H : Graph K α) (s : RMap G.n m R) (t : RMap H.n m R) : Bool :=
  misequal s.A t.A && sameDict G H

/-- `NodeNodeMap.__eq__` -- nodemap.py:401-409 -/
def nnmEq [DecidableEq K] [DecidableEq R] {m : Nat} (G H : Graph K α) (sameMode : Bool)
    (s : RMap G.n m R) (t : RMap H.n m R) : Bool :=
  decide (s.fill = t.fill) && sameMode && misequal s.A t.A && sameDict G H

/-! ## VectorMap -/

/-- one method call on a `VectorMap` around a vector of size `m` -- nodemap.py:132-191, CPython's
`MutableMapping.pop`.  Keys are indices in range (any other raises in the library and is not modelled), a
`setdefault` without default is not modelled. -/
def vmStep {m : Nat} (v : Vec m R) : MOp (Fin m) R → Except Err (MOut (Fin m) R) × Vec m R
  -- nodemap.py:140-141: `self.vector.get(key)`, no KeyError
  | .getitem k => (.ok (.val (v k)), v)
  -- nodemap.py:171-172
  | .get k d => (.ok (.val ((v k).orElse fun _ => d)), v)
  -- nodemap.py:150-151
  | .setitem k r => (.ok .unit, vset v k r)
  -- nodemap.py:137-138
  | .delitem k => (.ok .unit, vdel v k)
  -- nodemap.py:154-155
  | .contains k => (.ok (.bool (v k).isSome), v)
  -- nodemap.py:147-148
  | .len => (.ok (.nat (nvals v)), v)
  -- nodemap.py:143-145
  | .iter => (.ok (.keys (indices v)), v)
  -- nodemap.py:168-169
  | .clear => (.ok .unit, vempty)
  -- nodemap.py:187-191
  | .setdefault k d => match v k, d with
    | some r, _ => (.ok (.val (some r)), v)
    | none, some r => (.ok (.val (some r)), vset v k r)
    | none, none => (.error .typeError, v)
  -- nodemap.py:178-185
  | .popitem => match tocoo v with
    | [] => (.error .keyError, v)
    | (i, r) :: _ => (.ok (.item i r), vdel v i)
  -- `self[key]` never raises, so neither does `pop`
  | .pop k => (.ok (.val (v k)), vdel v k)
  | .popD k _ => (.ok (.val (v k)), vdel v k)

/-- a sequence of calls -/
def vmRun {m : Nat} (v : Vec m R) : List (MOp (Fin m) R) → List (Except Err (MOut (Fin m) R)) × Vec m R
  | [] => ([], v)
  | op :: ops =>
    let r := vmStep v op
    let rest := vmRun r.2 ops
    (r.1 :: rest.1, rest.2)

/-! ## Assigning a dict to a row -/

/-- `Vector.from_dict(d, dtype, size=m)`: the keys of the dict are used as positions -/
def fromDict (m : Nat) (d : List (Nat × R)) : Except Err (Vec m R) :=
  if d.all fun p => decide (p.1 < m) then .ok fun i => d.lookup i.val else .error .indexError

/-- `M[key] = d` for a dict `d` -- nodemap.py:258-269, 383-394 -/
def rmSetDict {G : Graph Nat α} (nodeNode : Bool) (s : RMap G.n G.n R) (k : Nat) (d : List (Nat × R)) :
    Except Err (ROut Nat G.n R) × RMap G.n G.n R :=
  match G.getId k with
  | .error e => (.error e, s)
  | .ok _ =>
    match fromDict G.n d with
    | .error e => (.error e, s)
    | .ok v => rmStep G nodeNode s (.setitem k (some v))

end Model
