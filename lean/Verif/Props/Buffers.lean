import Verif.Proofs.Buffers

/-!
# C120: the in-place power iterations compute what the pure ones do, and touch nothing else

`pagerank`, `katz_centrality`, `eigenvector_centrality` and `hits` work on two or three vectors that they
overwrite in place; the two vectors of an iteration exchange their roles at every pass and the convergence
test overwrites the older one.  For every number of passes and every contents of the heap the result is
that of the pure iteration (about which the other claims speak), it is a new object, and no object that
existed before the call (start vector, personalization, dangling weights, `beta`, the cached row sums of
the graph) is changed, not even when the call raises.
-/

open GB Model Model.Buffers Spec.Buf

namespace Props

variable {F : Type} {n : Nat} [Field F] [LinearOrder F]

/-- **C120** pagerank.  The vector arguments and the (cached) row sums are existing objects. -/
theorem pagerank_in_place (A : Mat n n F) (iso : Option F) (alpha : F) (pers : Option Nat)
    (maxIter : Int) (tol : F) (nstart dangling : Option Nat) (rowDegrees : Nat) (h : Heap n F)
    (hp : ∀ a, pers = some a → a < h.next) (hs : ∀ a, nstart = some a → a < h.next)
    (hd : ∀ a, dangling = some a → a < h.next) (hr : rowDegrees < h.next)
    (hrd : h.cell rowDegrees = reduceRow (· + ·) A) :
    Yields (pagerankB A iso alpha pers maxIter tol nstart dangling rowDegrees) h
      (pagerankV A iso alpha (pers.map h.cell) maxIter tol (nstart.map h.cell) (dangling.map h.cell)) :=
  Proofs.Buf.pagerankB_yields A iso alpha pers maxIter tol nstart dangling rowDegrees h hp hs hd hr hrd

/-- **C120** katz_centrality -/
theorem katz_in_place (fill : Bool) (sqrt : F → F) (A : Mat n n F) (iso : Option F) (alpha : F)
    (beta : F ⊕ Nat) (maxIter : Int) (tol : F) (nstart : Option Nat) (normalized : Bool) (h : Heap n F)
    (hb : ∀ a, beta = .inr a → a < h.next) (hs : ∀ a, nstart = some a → a < h.next) :
    Yields (katzB fill sqrt A iso alpha beta maxIter tol nstart normalized) h
      (katzV fill sqrt A iso alpha (beta.map id h.cell) maxIter tol (nstart.map h.cell) normalized) :=
  Proofs.Buf.katzB_yields fill sqrt A iso alpha beta maxIter tol nstart normalized h hb hs

/-- **C120** eigenvector_centrality -/
theorem eigenvector_in_place (sqrt : F → F) (A : Mat n n F) (maxIter : Int) (tol : F)
    (nstart : Option Nat) (h : Heap n F) (hs : ∀ a, nstart = some a → a < h.next) :
    Yields (eigB sqrt A maxIter tol nstart) h (eigV sqrt A maxIter tol (nstart.map h.cell)) :=
  Proofs.Buf.eigB_yields sqrt A maxIter tol nstart h hs

/-- **C120** hits: the hubs and the authorities are two different new vectors -/
theorem hits_in_place (sqrt : F → F) (A : Mat n n F) (maxIter : Int) (tol : F) (nstart : Option Nat)
    (normalized : Bool) (h : Heap n F) (hs : ∀ a, nstart = some a → a < h.next) :
    Yields₂ (hitsB sqrt A maxIter tol nstart normalized false) h
      (hitsV A maxIter tol (nstart.map h.cell) normalized) :=
  Proofs.Buf.hitsB_yields sqrt A maxIter tol nstart normalized false h hs

/-- **C120** hits with the authority matrix -/
theorem hits_authority_in_place (sqrt : F → F) (A : Mat n n F) (maxIter : Int) (tol : F)
    (nstart : Option Nat) (normalized : Bool) (h : Heap n F) (hs : ∀ a, nstart = some a → a < h.next) :
    Yields₂ (hitsB sqrt A maxIter tol nstart normalized true) h
      (hitsAuthV A maxIter tol (nstart.map h.cell) normalized) :=
  Proofs.Buf.hitsB_yields sqrt A maxIter tol nstart normalized true h hs

/-- **C120** Two calls in a row: the second call sees the same arguments as the first, so both results hold
the same numbers, the first result is still intact, and the results are different objects. -/
theorem eigenvector_twice (sqrt : F → F) (A : Mat n n F) (maxIter : Int) (tol : F)
    (nstart : Option Nat) (h : Heap n F) (hs : ∀ a, nstart = some a → a < h.next)
    {a : Nat} {h1 : Heap n F} (h1e : eigB sqrt A maxIter tol nstart h = (.ok a, h1)) :
    ∃ b h2, eigB sqrt A maxIter tol nstart h1 = (.ok b, h2) ∧ b ≠ a ∧ h2.cell b = h1.cell a ∧
      h2.cell a = h1.cell a := by
  have y1 := eigenvector_in_place sqrt A maxIter tol nstart h hs
  have hv : ∃ v, eigV sqrt A maxIter tol (nstart.map h.cell) = .ok v := by
    cases hq : eigV sqrt A maxIter tol (nstart.map h.cell) with
    | ok v => exact ⟨v, rfl⟩
    | error e => have := y1.raises e hq; rw [h1e] at this; cases this
  obtain ⟨v, hv⟩ := hv
  obtain ⟨a', ha, hl, hn, hc⟩ := y1.returns v hv
  rw [h1e] at ha hn hc
  cases ha
  have hs1 : ∀ x, nstart = some x → x < h1.next := fun x hx => lt_trans (lt_of_lt_of_le (hs x hx) hl) hn
  have y2 := eigenvector_in_place sqrt A maxIter tol nstart h1 hs1
  have heq : nstart.map h1.cell = nstart.map h.cell := by
    rcases nstart with _ | s
    · rfl
    · have := y1.untouched s (hs s rfl)
      rw [h1e] at this
      exact congrArg some this
  rw [heq] at y2
  obtain ⟨b, hb, hbl, _, hbc⟩ := y2.returns v hv
  refine ⟨b, (eigB sqrt A maxIter tol nstart h1).2, Prod.ext hb rfl, ?_, hbc.trans hc.symm, y2.untouched a hn⟩
  have hn' : a < h1.next := hn
  omega

/-! ### A concrete case: a triangle with a tail, over the rationals -/

section Example

/-- 0 → 1 → 2 → 0 and 2 → 3; node 3 dangles -/
def bufA : Mat 4 4 ℚ := fun i j =>
  if (i.val, j.val) ∈ [(0, 1), (1, 2), (2, 0), (2, 3)] then some 1 else none

/-- a start vector at 0, the row sums at 1, a personalization at 2 -/
def bufHeap : Heap 4 ℚ where
  next := 3
  cell a := if a = 0 then fun i => some (i.val + 1) else if a = 1 then reduceRow (· + ·) bufA
    else fun i => if i.val = 0 then some 1 else none

/-- the hypotheses hold -/
example : bufHeap.cell 1 = reduceRow (· + ·) bufA ∧ 1 < bufHeap.next := ⟨rfl, by decide⟩

/-- pagerank with start vector and personalization (new vectors: `x` 3, `p` 4, `S` 5, mask 6, weights 7,
`x_prev` 8, `w` 9): after an even number of passes the result is the vector that was allocated as `x` -/
example : (pagerankB bufA (some 1) (1 / 2) (some 2) 5 (1 / 5) (some 0) none 1 bufHeap).1 = .ok 3 := by
  decide +kernel

/-- one pass more: it is the vector that was allocated as `x_prev` -/
example : (pagerankB bufA (some 1) (1 / 2) (some 2) 5 (1 / 10) (some 0) none 1 bufHeap).1 = .ok 8 := by
  decide +kernel

/-- too few passes -/
example : (pagerankB bufA (some 1) (1 / 2) (some 2) 1 (1 / 1000) (some 0) none 1 bufHeap).1 =
    .error .convergence := by decide +kernel

/-- hits: `h` and `a` -/
example : (hitsB id bufA 1 1 (some 0) true false bufHeap).1 = .ok (5, 4) := by decide +kernel
example : (hitsB id bufA 1 1 (some 0) true true bufHeap).1 = .ok (4, 5) := by decide +kernel

end Example

end Props
