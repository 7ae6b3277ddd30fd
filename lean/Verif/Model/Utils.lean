import Mathlib.Data.Rat.Floor
import Verif.Model.Graph

/-!
# nxapi/_utils.py: chunking helpers
-/

namespace Model

/-- what a `yield` of `partition` produces: a list, or (bug-prone case `chunksize == 1`) a bare
element -/
inductive Piece (α : Type*)
  | chunk (l : List α)
  | elem (a : α)
  deriving DecidableEq, Repr

/-- `L[a:b]` for non-negative `a`, `b` -/
def slice {α : Type*} (L : List α) (a b : Nat) : List α := (L.take b).drop a

/-- loop of `split_evenly` -- nxapi/_utils.py:121-127; `is` is what is left of `range(1, k)` -/
def splitLoop {α : Type*} (L : List α) (k : Nat) : List Nat → Nat → Nat → List (List α)
  | [], _start, stop => if stop ≠ L.length then [L.drop stop] else []
  | i :: is, start, _stop =>
    let stop' := (L.length * i + k - 1) / k
    if stop' ≠ start then slice L start stop' :: splitLoop L k is stop' stop'
    else splitLoop L k is start stop'

/-- `split_evenly(k, L)` -- nxapi/_utils.py:111-127.  `k` is already an integer (`int(k)`). -/
def splitEvenly {α : Type*} (k : Int) (L : List α) : List (List α) :=
  if L.length = 0 then []
  else if k ≤ 1 then [L]
  else splitLoop L k.toNat (List.range' 1 (k.toNat - 1)) 0 0

/-- `for start, stop in pairwise(range(0, N + c, c)): yield L[start:stop]`
-- nxapi/_utils.py:107-108.  The starts are `0, c, 2c, ...` below `N`. -/
def strideChunks {α : Type*} (c : Nat) (L : List α) : List (List α) :=
  (List.range ((L.length + c - 1) / c)).map fun t => slice L (c * t) (c * (t + 1))

/-- `partition(chunksize, L, evenly=evenly)` -- nxapi/_utils.py:90-108.
`ceil(len(L) / chunksize)` is computed exactly here (Python goes through a float, exact below
2^53). -/
def partition {α : Type*} (chunksize : Int) (L : List α) (evenly : Bool := true) :
    List (Piece α) :=
  let N := L.length
  if N = 0 then []
  else if chunksize ≤ 0 ∨ chunksize ≥ N then [.chunk L]
  else if chunksize = 1 then L.map .elem
  else
    let c := chunksize.toNat
    let k := (N + c - 1) / c
    if evenly ∧ k * c ≠ N then (splitEvenly k L).map .chunk
    else (strideChunks c L).map .chunk

/-! ## normalize_chunksize -/

/-- the argument of `normalize_chunksize` -/
inductive ChunkArg
  | none
  | num (q : ℚ)            -- any `numbers.Number`, exactly
  | str (s : List Char)
  | other
  deriving DecidableEq

/-- `BYTES_UNITS` -- nxapi/_utils.py:16-33 -/
def bytesUnits : List (List Char × Nat) :=
  [("".toList, 1), ("b".toList, 1), ("kb".toList, 1000), ("mb".toList, 1000^2),
   ("gb".toList, 1000^3), ("tb".toList, 1000^4), ("pb".toList, 1000^5), ("eb".toList, 1000^6),
   ("zb".toList, 1000^7), ("kib".toList, 1024), ("mib".toList, 1024^2), ("gib".toList, 1024^3),
   ("tib".toList, 1024^4), ("pib".toList, 1024^5), ("eib".toList, 1024^6), ("zib".toList, 1024^7)]

/-- `int(x)` on a number: truncation towards zero -/
def pyInt (q : ℚ) : Int := if 0 ≤ q then ⌊q⌋ else ⌈q⌉

/-- `round(x)`: nearest integer, ties to even -/
def pyRound (q : ℚ) : Int :=
  let f := ⌊q⌋
  if q - f < 1/2 then f else if q - f > 1/2 then f + 1 else if f % 2 = 0 then f else f + 1

/-- `chunksize.replace(" ", "").replace("_", "").lower()` -- nxapi/_utils.py:46 -/
def cleanChunk (s : List Char) : List Char :=
  ((s.filter (· ≠ ' ')).filter (· ≠ '_')).map Char.toLower

/-- `rv <= 0 or N is not None and rv >= N` -/
def badSize (rv : Int) (N : Option Nat) : Bool :=
  rv ≤ 0 || match N with
    | Option.none => false
    | some N => decide (rv ≥ N)

/-- final check -- nxapi/_utils.py:41-43 and 85-87 -/
def finishSize (rv : Int) (N : Option Nat) : Option Int := if badSize rv N then Option.none else some rv

/-- index just after the last digit -- nxapi/_utils.py:49-55 (0 when there is none) -/
def lastDigit (s : List Char) : Nat := s.length - (s.reverse.takeWhile fun c => !c.isDigit).length

/-- `normalize_chunksize(chunksize, itemsize, N)` -- nxapi/_utils.py:36-87.
`parseFloat` stands for `float(prefix)` (external; `none` = ValueError); arithmetic is exact
rational instead of double precision. -/
def normalizeChunksize (parseFloat : List Char → Option ℚ) (arg : ChunkArg) (itemsize : Nat := 1)
    (N : Option Nat := Option.none) : Except Err (Option Int) :=
  match arg with
  | .none => .ok Option.none
  | .num q => .ok (finishSize (pyInt q) N)
  | .other => .error .typeError
  | .str s =>
    let cs := cleanChunk s
    if cs = [] ∨ cs = "all".toList then .ok Option.none
    else
      let cs' := if cs.any Char.isDigit then cs else '1' :: cs
      let index := lastDigit cs'
      let pre := cs'.take index
      let suf := cs'.drop index
      match parseFloat pre with
      | Option.none => .error .valueError
      | some number =>
        if suf = "chunk".toList ∨ suf = "chunks".toList then
          if number ≤ 1 then .ok Option.none
          else match N with
            | Option.none => .error .typeError
            | some N' => .ok (finishSize ⌈(N' : ℚ) / number⌉ N)
        else match bytesUnits.lookup suf with
          | Option.none => .error .valueError
          | some scale =>
            let number := number * scale
            let number := if cs'.getLast? = some 'b' then max 1 (number / itemsize) else number
            .ok (finishSize (pyRound number) N)

end Model
