import Verif.Model.Cache

/-!
# Property names

The names a user passes to `get_property` are strings.  `_cache_aliases` renames some of them, the class-level
dict `_get_property` maps names to getters, and `AutoDict.__missing__` adds getters for names such as
`"plus_rowwise-"` when they are first asked for.  That dict belongs to the *class*: lookups on any graph object
(and lookups that getters make themselves) extend it.

Strings are lists of characters.  A getter is represented by the property it computes; for the getters of
`get_reduce_to_vector`/`get_reduce_to_scalar` this is the name captured by the closure.
-/

open Spec.Prop

namespace Model.Names

abbrev Name := List Char

/-- what a name leads to: a property of the cache model, or a reduction of `count` to a scalar (which the cache
model leaves out) -/
inductive Getter (ι : Type)
  | key (k : Key ι)
  | countElem (s : Sign)
  | countDiag
  deriving DecidableEq

variable {ι : Type}

/-- `op.from_string(opname)`: the operators that can be used in a reduction.  `none`: `ValueError`.
(Simplification: names of operators that are no monoids are treated as unknown; the code finds them and fails
later, in `reduce`.) -/
abbrev Ops (ι : Type) := Name → Option (VOp ι)

/-- `l[:-len(suf)]` if `l.endswith(suf)` -/
def strip (suf l : Name) : Option Name :=
  if suf.isSuffixOf l then some (l.take (l.length - suf.length)) else none

/-- the last character as a sign -/
def sign? : Char → Option Sign
  | '+' => some .p
  | '-' => some .m
  | _ => none

/-- `key[-1]`: `IndexError` for the empty string -/
def lastChar (key : Name) : Except Err Char :=
  match key.getLast? with
  | none => .error .indexError
  | some c => .ok c

/-- `op.from_string(opname)` and the closure for a vector -- classes/_caching.py:7-9 -/
def vecGetter (ops : Ops ι) (op : Name) (s : Sign) (ax : Axis) : Except Err (Getter ι) :=
  match ops op with
  | none => .error .valueError
  | some r => .ok (.key (.vec r s ax))

/-- the closure for `"{op}_element±"` -- classes/_caching.py:101-103 -/
def elemGetter (ops : Ops ι) (op : Name) (s : Sign) : Except Err (Getter ι) :=
  match ops op with
  | none => .error .valueError
  | some (.mon o) => .ok (.key (.elem o s))
  | some .count => .ok (.countElem s)

/-- the closure for `"{op}_diagonal"` -- classes/_caching.py:101-103 -/
def diagGetter (ops : Ops ι) (op : Name) : Except Err (Getter ι) :=
  match ops op with
  | none => .error .valueError
  | some (.mon o) => .ok (.key (.diagRed o))
  | some .count => .ok .countDiag

/-- the class-level dict -/
abbrev Table (ι : Type) := Name → Option (Getter ι)

/-- `self[key] = getter` -/
def set (T : Table ι) (key : Name) (g : Getter ι) : Table ι := Function.update T key (some g)

/-- store the getter of a vector reduction; a `Graph` stores it under the column name as well
-- graph.py:291-292, 299; digraph.py:433, 440 -/
def setVec (dir : Bool) (T : Table ι) (key op : Name) (c : Char) (g : Getter ι) : Table ι :=
  if dir then set T key g
  else set (set T (op ++ "_columnwise".toList ++ [c]) g) key g

/-- the branches of `__missing__` for a name ending in a sign -- graph.py:275-292, digraph.py:417-433 -/
def missingSigned (dir : Bool) (ops : Ops ι) (T : Table ι) (key : Name) (c : Char) (s : Sign) :
    Except Err (Getter ι × Table ι) :=
  match strip "_rowwise".toList key.dropLast with
  | some op => (vecGetter ops op s .row).map fun g => (g, setVec dir T key op c g)
  | none =>
    match strip "_columnwise".toList key.dropLast with
    | some op => (vecGetter ops op s .col).map fun g => (g, setVec dir T key op c g)
    | none =>
      match strip "_element".toList key.dropLast with
      | some op => (elemGetter ops op s).map fun g => (g, set T key g)
      | none => .error .keyError

/-- `AutoDict.__missing__(key)` -- graph.py:272-300 (`Graph`), digraph.py:414-441 (`DiGraph`) -/
def missing (dir : Bool) (ops : Ops ι) (T : Table ι) (key : Name) : Except Err (Getter ι × Table ι) :=
  match lastChar key with
  | .error e => .error e
  | .ok c =>
    match sign? c with
    | some s => missingSigned dir ops T key c s
    | none =>
      match strip "_diagonal".toList key with
      | some op => (diagGetter ops op).map fun g => (g, set T key g)
      | none => .error .keyError

/-- `self._get_property[key]`: a failing `__missing__` stores nothing -/
def find (dir : Bool) (ops : Ops ι) (T : Table ι) (key : Name) : Except Err (Getter ι) × Table ι :=
  match T key with
  | some g => (.ok g, T)
  | none =>
    match missing dir ops T key with
    | .ok (g, T') => (.ok g, T')
    | .error e => (.error e, T)

/-- the entries written in the source -- graph.py:336-353, digraph.py:485-508 -/
def literals (dir : Bool) : List (Name × Key ι) :=
  [("A".toList, .A), ("AT".toList, .AT), ("offdiag".toList, .offdiag), ("U+".toList, .U .p), ("L+".toList, .L .p),
   ("U-".toList, .U .m), ("L-".toList, .L .m), ("diag".toList, .diag), ("is_iso".toList, .isIso),
   ("iso_value".toList, .isoVal), ("has_negative_diagonal".toList, .negDiag), ("has_negative_edges-".toList, .neg .m),
   ("has_negative_edges+".toList, .neg .p), ("has_self_edges".toList, .hasSelf)] ++
  if dir then
    [("recip_degrees+".toList, .recip .p), ("recip_degrees-".toList, .recip .m),
     ("total_degrees+".toList, .totdeg .p), ("total_degrees-".toList, .totdeg .m),
     ("total_recip+".toList, .totrecip .p), ("total_recip-".toList, .totrecip .m)]
  else []

/-- the dict when the class is defined -/
def initial (dir : Bool) : Table ι := fun key => ((literals dir).lookup key).map Getter.key

/-- `_cache_aliases` -- graph.py:354-361, digraph.py:509-514 -/
def aliases (dir : Bool) : List (Name × Name) :=
  if dir then
    [("row_degrees+".toList, "count_rowwise+".toList), ("column_degrees+".toList, "count_columnwise+".toList),
     ("row_degrees-".toList, "count_rowwise-".toList), ("column_degrees-".toList, "count_columnwise-".toList)]
  else
    [("degrees+".toList, "count_rowwise+".toList), ("degrees-".toList, "count_rowwise-".toList),
     ("row_degrees+".toList, "count_rowwise+".toList), ("row_degrees-".toList, "count_rowwise-".toList),
     ("column_degrees+".toList, "count_rowwise+".toList), ("column_degrees-".toList, "count_rowwise-".toList)]

/-- `self._cache_aliases.get(name, name)` -- _utils.py:38 -/
def unalias (dir : Bool) (name : Name) : Name := ((aliases dir).lookup name).getD name

/-- `get_property(name)` up to the call of the getter -- _utils.py:37-38 -/
def resolve (dir : Bool) (ops : Ops ι) (T : Table ι) (name : Name) : Except Err (Getter ι) × Table ι :=
  find dir ops T (unalias dir name)

/-- the class-level dict after the names `h` were looked up, on whatever graph objects -/
def tableAfter (dir : Bool) (ops : Ops ι) (h : List Name) : Table ι :=
  h.foldl (fun T name => (resolve dir ops T name).2) (initial dir)

/-- `names.replace(" ", ",").split(",")` without the empty strings -- _utils.py:42-48 -/
def splitNames (s : Name) : List Name :=
  ((s.map fun c => if c = ' ' then ',' else c).splitOn ',').filter fun w => !w.isEmpty

end Model.Names

namespace Model.Names
open Model.Cache

variable {ι α : Type} [DecidableEq ι] [LinearOrder α] [Zero α]

/-- `G.get_property(name, mask=mask)` -- _utils.py:37-38; `T` is the class-level dict at the time of the call.
The result is tagged with the property that was computed.  (`count` reduced to a scalar is not modelled.) -/
def getByName (c : Ctx ι α) (ops : Ops ι) (T : Table ι) (al : Bool) (mask : Option (GB.VMask c.n)) (name : Name) :
    M c (Σ k : Key ι, Val c.n α k) :=
  match (resolve c.dir ops T name).1 with
  | .ok (.key k) => do
    let v ← getProp c al mask k
    pure ⟨k, v⟩
  | .ok _ => throw .runtimeError
  | .error e => throw e

end Model.Names
