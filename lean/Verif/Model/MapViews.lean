import Verif.Model.SetOps
import Verif.Model.Maps

/-!
# classes/nodemap.py: reading a `NodeMap` as a whole, and `update`

`NodeMap` is a `collections.abc.MutableMapping` (nodemap.py:8): `keys()`, `items()`, `values()`, their membership tests and
set operators, `dict(m)` and `update` are CPython's (`_collections_abc.py`), over `__iter__`, `__len__`, `__getitem__`,
`__contains__` and `__setitem__` of nodemap.py.
-/

open GB

namespace Model

variable {K α U R : Type} [DecidableEq K]

/-- `list(m)`, `list(m.keys())` -- nodemap.py:52-58 -/
def nmKeys (G : Graph K α) (s : NMap G.n U R) : Except Err (List K) :=
  match nmIter (U := U) G s with
  | .ok (.keys l) => .ok l
  | .ok _ => .error .runtimeError
  | .error e => .error e

/-- `m[k]` as a value -- nodemap.py:42-50 -/
def nmAt (G : Graph K α) (c : Codec U R) (s : NMap G.n U R) (k : K) : Except Err U :=
  match nmGetitem G c s k with
  | .ok (.val (some u)) => .ok u
  | .ok _ => .error .runtimeError
  | .error e => .error e

/-- `dict(m)` and `list(m.items())` (`ItemsView.__iter__`): `(key, m[key])` for the keys -/
def nmDict (G : Graph K α) (c : Codec U R) (s : NMap G.n U R) : Except Err (List (K × U)) :=
  nmKeys G s >>= fun l => l.mapM fun k => (nmAt G c s k).map fun u => (k, u)

/-- `list(m.values())` (`ValuesView.__iter__`) -/
def nmValues (G : Graph K α) (c : Codec U R) (s : NMap G.n U R) : Except Err (List U) :=
  nmKeys G s >>= fun l => l.mapM (nmAt G c s)

/-- `k in m.keys()` (`KeysView.__contains__`): `k in m` -- nodemap.py:72-74 -/
def nmKeysContains (G : Graph K α) (s : NMap G.n U R) (k : K) : Except Err Bool :=
  (G.getId k).map fun i => s.fill.isSome || (s.vec i).isSome

/-- `(k, u) in m.items()` (`ItemsView.__contains__`): a KeyError of `m[k]` means False -/
def nmItemsContains [DecidableEq U] (G : Graph K α) (c : Codec U R) (s : NMap G.n U R) (k : K) (u : U) :
    Except Err Bool :=
  match nmAt G c s k with
  | .error .keyError => .ok false
  | .error e => .error e
  | .ok v => .ok (decide (v = u))

/-- `u in m.values()` (`ValuesView.__contains__`): `for key in m: if m[key] == u: return True` -/
def nmValuesContains [DecidableEq U] (G : Graph K α) (c : Codec U R) (s : NMap G.n U R) (u : U) : Except Err Bool :=
  nmKeys G s >>= fun l => (allE (fun k => (nmAt G c s k).map fun v => !decide (v = u)) l).map (!·)

/-- `m.keys() & other` (`Set.__and__`): a builtin set of `value for value in other if value in m.keys()` -/
def nmKeysAnd (G : Graph K α) (s : NMap G.n U R) (other : List K) : Except Err (List K) :=
  (filterE (nmKeysContains G s) other).map List.dedup

/-- `m.keys() - other` for a builtin set (`Set.__sub__`): `value for value in m.keys() if value not in other` -/
def nmKeysSub (G : Graph K α) (s : NMap G.n U R) (other : List K) : Except Err (List K) :=
  (nmKeys G s).map fun l => l.filter fun k => !decide (k ∈ other)

/-- `m.update(pairs)` (`MutableMapping.update`): `for key, value in pairs: m[key] = value` -- nodemap.py:65-69; on an error the
pairs before have been stored -/
def nmUpdate (G : Graph K α) (c : Codec U R) (s : NMap G.n U R) : List (K × U) → Except Err Unit × NMap G.n U R
  | [] => (.ok (), s)
  | p :: ps =>
    match nmSet G c s p.1 p.2 with
    | (.error e, s') => (.error e, s')
    | (.ok _, s') => nmUpdate G c s' ps

/-- `m.update(other)` for another `NodeMap`: `for key in other: m[key] = other[key]` -/
def nmUpdateFrom {β : Type} {H : Graph K β} (G : Graph K α) (c : Codec U R) (s : NMap G.n U R) {R' : Type} (c' : Codec U R')
    (t : NMap H.n U R') : Except Err Unit × NMap G.n U R :=
  match nmDict H c' t with
  | .error e => (.error e, s)
  | .ok l => nmUpdate G c s l

end Model
