import Verif.Model.Lazy

/-!
# Using a generator that hands out mutable vectors

The consumer holds some vectors: those that existed before, those the generator handed out, those it made
itself.  Between two `next()` it may do to them whatever it likes.  It cannot touch vectors it was never
given.
-/

open GB Model Model.Buffers

namespace Spec.Lazy

variable {F P : Type} {n : Nat}

/-- the state of the generator: suspended, or finished (with an exception, or by returning) -/
inductive Status (P : Type) where
  | suspended (p : P)
  | finished (e : Option Err)

/-- the generator and its surroundings -/
structure World (n : Nat) (F P : Type) where
  heap : Heap n F
  /-- the vectors the consumer holds -/
  known : Nat → Prop
  status : Status P
  /-- what was handed out so far: the object, and what it held at that moment -/
  given : List (Nat × Vec n F)

/-- one event: the consumer does something, or it calls `next()` -/
inductive Event (step : P → HM n F (Option (Nat × P))) : World n F P → World n F P → Prop
  /-- the consumer makes vectors and changes vectors that it holds -/
  | consumer {w : World n F P} {h : Heap n F} (hn : w.heap.next ≤ h.next)
      (hc : ∀ a < w.heap.next, ¬ w.known a → h.cell a = w.heap.cell a) :
      Event step w { w with heap := h, known := fun a => w.known a ∨ w.heap.next ≤ a ∧ a < h.next }
  /-- `next()` hands out a vector -/
  | gives {w : World n F P} {p p' : P} {a : Nat} {h : Heap n F} (hs : w.status = .suspended p)
      (hr : step p w.heap = (.ok (some (a, p')), h)) :
      Event step w { heap := h, known := fun b => w.known b ∨ b = a, status := .suspended p',
                     given := w.given ++ [(a, h.cell a)] }
  /-- `next()` ends with StopIteration -/
  | returns {w : World n F P} {p : P} {h : Heap n F} (hs : w.status = .suspended p)
      (hr : step p w.heap = (.ok none, h)) :
      Event step w { w with heap := h, status := .finished none }
  /-- `next()` ends with another exception -/
  | raises {w : World n F P} {p : P} {e : Err} {h : Heap n F} (hs : w.status = .suspended p)
      (hr : step p w.heap = (.error e, h)) :
      Event step w { w with heap := h, status := .finished (some e) }

/-- the world just after the call, before the first `next()` -/
def World.init (h : Heap n F) (p : P) : World n F P :=
  { heap := h, known := fun a => a < h.next, status := .suspended p, given := [] }

/-- the worlds that can arise -/
inductive Reaches (step : P → HM n F (Option (Nat × P))) (w0 : World n F P) : World n F P → Prop
  | refl : Reaches step w0 w0
  | tail {w w' : World n F P} : Reaches step w0 w → Event step w w' → Reaches step w0 w'

end Spec.Lazy
