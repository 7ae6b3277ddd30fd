import Verif.Model.NodeMap

/-!
# classes/nodeset.py: the set protocol that `NodeSet` inherits

`NodeSet` is a `collections.abc.MutableSet` (nodeset.py:8): comparisons, operators and in-place operators come from
CPython's `_collections_abc.py` (classes `Set`, `MutableSet`) and call back `__contains__`, `__iter__`, `__len__`, `add`,
`discard`, `clear` and `_from_iterable` of `NodeSet`.  These mixin methods are modelled here as they are written in CPython,
with the callbacks as they are written in nodeset.py, for an operand that is a builtin set, a `NodeSet` of this or of
another graph, or any other iterable.
-/

open GB

namespace Model

variable {K α : Type} [DecidableEq K]

/-- the right operand of a set operation -/
inductive Operand (K α : Type)
  /-- a builtin `set`/`frozenset`: its distinct elements in iteration order -/
  | set (l : List K)
  /-- a `NodeSet` of some graph -/
  | nodeset (H : Graph K α) (w : Vec H.n Bool)
  /-- any other iterable (a list, a generator): not a `Set` -/
  | iter (l : List K)

namespace Operand

/-- `isinstance(other, collections.abc.Set)` -/
def isSet : Operand K α → Bool
  | .iter _ => false
  | _ => true

/-- `for value in other` -- for a node set nodeset.py:39-43 -/
def elems : Operand K α → Except Err (List K)
  | .set l => .ok l
  | .nodeset H w => listToKeys H (indices w)
  | .iter l => .ok l

/-- `len(other)` -- for a node set nodeset.py:45-46 -/
def len : Operand K α → Nat
  | .set l => l.length
  | .nodeset _ w => nvals w
  | .iter l => l.length

/-- `value in other` -- for a node set nodeset.py:35-37, which raises for a value that is not a node -/
def contains : Operand K α → K → Except Err Bool
  | .set l, k => .ok (decide (k ∈ l))
  | .nodeset H w, k => nsContains H w k
  | .iter l, k => .ok (decide (k ∈ l))

end Operand

omit [DecidableEq K] in
/-- `for k in l: if not p(k): return False` / `return True` -/
def allE (p : K → Except Err Bool) : List K → Except Err Bool
  | [] => .ok true
  | k :: ks => match p k with
    | .error e => .error e
    | .ok false => .ok false
    | .ok true => allE p ks

/-- `self <= other` (`Set.__le__`): not defined for an operand that is no set; sizes first, then `elem in other` for the
elements of self; nodeset.py:39-46 -/
def nsLe (G : Graph K α) (v : Vec G.n Bool) (o : Operand K α) : Except Err Bool :=
  if !o.isSet then .error .typeError
  else if nvals v > o.len then .ok false
  else listToKeys G (indices v) >>= fun l => allE o.contains l

/-- `self >= other` (`Set.__ge__`): sizes first, then `elem in self` for the elements of other; nodeset.py:35-37 -/
def nsGe (G : Graph K α) (v : Vec G.n Bool) (o : Operand K α) : Except Err Bool :=
  if !o.isSet then .error .typeError
  else if nvals v < o.len then .ok false
  else o.elems >>= fun l => allE (nsContains G v) l

/-- `self < other` (`Set.__lt__`): `len(self) < len(other) and self.__le__(other)` -/
def nsLt (G : Graph K α) (v : Vec G.n Bool) (o : Operand K α) : Except Err Bool :=
  if !o.isSet then .error .typeError
  else if nvals v < o.len then nsLe G v o else .ok false

/-- `self > other` (`Set.__gt__`): `len(self) > len(other) and self.__ge__(other)` -/
def nsGt (G : Graph K α) (v : Vec G.n Bool) (o : Operand K α) : Except Err Bool :=
  if !o.isSet then .error .typeError
  else if nvals v > o.len then nsGe G v o else .ok false

/-- `self == other` -- nodeset.py:58-68: the override for a `NodeSet`, else `Set.__eq__`:
`len(self) == len(other) and self.__le__(other)`; an operand that is no set is unequal -/
def nsEqO (G : Graph K α) (v : Vec G.n Bool) : Operand K α → Except Err Bool
  | .nodeset H w => .ok (nsEq (H := H) G v w)
  | .set l => if nvals v = l.length then nsLe G v (.set l) else .ok false
  | .iter _ => .ok false

/-- `self.isdisjoint(other)` (`Set.isdisjoint`; nodeset.py:78-81 overrides `isdisjoin`, so this one is inherited):
`for value in other: if value in self: return False` -/
def nsIsdisjoint (G : Graph K α) (v : Vec G.n Bool) (o : Operand K α) : Except Err Bool :=
  o.elems >>= fun l => allE (fun k => (nsContains G v k).map (!·)) l

/-- `self & other` and `other & self` (`Set.__and__`, `__rand__`): `_from_iterable` (nodeset.py:97-103) of
`value for value in other if value in self` -/
def nsAndO (G : Graph K α) (v : Vec G.n Bool) (o : Operand K α) : Except Err (Vec G.n Bool) :=
  o.elems >>= fun l => filterE (nsContains G v) l >>= fun l' => nsFromIterable G l'

/-- `self | other` and `other | self` (`Set.__or__`, `__ror__`) -/
def nsOrO (G : Graph K α) (v : Vec G.n Bool) (o : Operand K α) : Except Err (Vec G.n Bool) :=
  listToKeys G (indices v) >>= fun l => o.elems >>= fun l' => nsFromIterable G (l ++ l')

/-- `if not isinstance(other, Set): other = self._from_iterable(other)`, as `__sub__`, `__rsub__` and `__xor__` begin;
the result is a `NodeSet` of the graph of self (nodeset.py:97-103) -/
def nsCoerce (G : Graph K α) (o : Operand K α) : Except Err (Operand K α) :=
  match o with
  | .iter l => (nsFromIterable G l).map fun w => .nodeset G w
  | o => .ok o

/-- `self - other` (`Set.__sub__`): `_from_iterable` of `value for value in self if value not in other` -/
def nsSubO (G : Graph K α) (v : Vec G.n Bool) (o : Operand K α) : Except Err (Vec G.n Bool) :=
  nsCoerce G o >>= fun o => listToKeys G (indices v) >>= fun l =>
    filterE (fun k => (o.contains k).map (!·)) l >>= fun l' => nsFromIterable G l'

/-- `other - self` for an operand whose own `-` does not know node sets (`Set.__rsub__`): `_from_iterable` of
`value for value in other if value not in self` -/
def nsRsub (G : Graph K α) (v : Vec G.n Bool) (o : Operand K α) : Except Err (Vec G.n Bool) :=
  nsCoerce G o >>= fun o => o.elems >>= fun l =>
    filterE (fun k => (nsContains G v k).map (!·)) l >>= fun l' => nsFromIterable G l'

/-- `self ^ other` and `other ^ self` (`Set.__xor__`): `(self - other) | (other - self)`.  The second difference is
`__rsub__` of self when other is a builtin set, and `__sub__` of other, a set of other's graph, when it is a `NodeSet` -/
def nsXorO (G : Graph K α) (v : Vec G.n Bool) (o : Operand K α) : Except Err (Vec G.n Bool) :=
  nsCoerce G o >>= fun o => nsSubO G v o >>= fun a =>
    match o with
    | .nodeset H w => nsSubO H w (.nodeset G v) >>= fun b => nsOrO G a (.nodeset H b)
    | o => nsRsub G v o >>= fun b => nsOrO G a (.nodeset G b)

/-- `for value in l: self.add(value)` -- nodeset.py:48-50; on an error the elements before have been added -/
def addAll (G : Graph K α) (v : Vec G.n Bool) : List K → Except Err Unit × Vec G.n Bool
  | [] => (.ok (), v)
  | k :: ks => match G.getId k with
    | .error e => (.error e, v)
    | .ok i => addAll G (vset v i true) ks

/-- `for value in l: self.discard(value)` -- nodeset.py:52-54 -/
def discardAll (G : Graph K α) (v : Vec G.n Bool) : List K → Except Err Unit × Vec G.n Bool
  | [] => (.ok (), v)
  | k :: ks => match G.getId k with
    | .error e => (.error e, v)
    | .ok i => discardAll G (vdel v i) ks

/-- `for value in l: if value in self: self.discard(value) else: self.add(value)` -- nodeset.py:35-37, 48-54 -/
def toggleAll (G : Graph K α) (v : Vec G.n Bool) : List K → Except Err Unit × Vec G.n Bool
  | [] => (.ok (), v)
  | k :: ks => match G.getId k with
    | .error e => (.error e, v)
    | .ok i => toggleAll G (if (v i).isSome then vdel v i else vset v i true) ks

omit [DecidableEq K] in
/-- run a state change over a list that may fail to be produced; then the set is left alone -/
def overE {S : Type} (v : S) (l : Except Err (List K)) (f : List K → Except Err Unit × S) : Except Err Unit × S :=
  match l with
  | .error e => (.error e, v)
  | .ok l => f l

/-- the right operand of an in-place operator: the set itself or something else -/
inductive InOperand (K α : Type)
  | self
  | other (o : Operand K α)

/-- the operand as an iterable (the iterator over a node set has read the whole vector before the first element,
nodeset.py:39-43, so that changing the set meanwhile does not matter) -/
def InOperand.get (G : Graph K α) (v : Vec G.n Bool) : InOperand K α → Operand K α
  | .self => .nodeset G v
  | .other o => o

/-- `self |= it` (`MutableSet.__ior__`) -/
def nsIor (G : Graph K α) (v : Vec G.n Bool) (it : InOperand K α) : Except Err Unit × Vec G.n Bool :=
  overE v (it.get G v).elems (addAll G v)

/-- `self &= it` (`MutableSet.__iand__`): `for value in (self - it): self.discard(value)` -/
def nsIand (G : Graph K α) (v : Vec G.n Bool) (it : InOperand K α) : Except Err Unit × Vec G.n Bool :=
  overE v (nsSubO G v (it.get G v) >>= fun d => listToKeys G (indices d)) (discardAll G v)

/-- `self -= it` (`MutableSet.__isub__`): `clear()` (nodeset.py:75-76) for the set itself -/
def nsIsub (G : Graph K α) (v : Vec G.n Bool) : InOperand K α → Except Err Unit × Vec G.n Bool
  | .self => (.ok (), vempty)
  | .other o => overE v o.elems (discardAll G v)

/-- `self ^= it` (`MutableSet.__ixor__`): anything but a `NodeSet` is converted with `_from_iterable` first -/
def nsIxor (G : Graph K α) (v : Vec G.n Bool) : InOperand K α → Except Err Unit × Vec G.n Bool
  | .self => (.ok (), vempty)
  | .other (.nodeset H w) => overE v (listToKeys H (indices w)) (toggleAll G v)
  | .other o => overE v (o.elems >>= fun l => nsFromIterable G l >>= fun w => listToKeys G (indices w)) (toggleAll G v)

/-- `self.union(*args)` -- nodeset.py:105-107: `set(self).union(*args)`, a builtin set -/
def nsUnion (G : Graph K α) (v : Vec G.n Bool) (args : List (Operand K α)) : Except Err (List K) :=
  listToKeys G (indices v) >>= fun l => args.mapM Operand.elems >>= fun ls => .ok (l ++ ls.flatten).dedup

end Model
