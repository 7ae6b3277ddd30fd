import Verif.Model.Buffers

/-!
# What a routine on mutable vectors may do

Said of a routine that runs on a heap of vectors: what it returns or raises, that what it returns is a
new object, and that no object that existed before the call is changed.
-/

open GB Model Model.Buffers

namespace Spec.Buf

variable {F : Type} {n : Nat}

/-- Called when the vectors of `h` exist, `m` returns a new vector that holds `v` (`out = .ok v`), or
raises `e` (`out = .error e`); in both cases every vector that existed before still holds what it held. -/
structure Yields (m : HM n F Nat) (h : Heap n F) (out : Except Err (Vec n F)) : Prop where
  returns : ∀ v, out = .ok v →
    ∃ a, (m h).1 = .ok a ∧ h.next ≤ a ∧ a < (m h).2.next ∧ (m h).2.cell a = v
  raises : ∀ e, out = .error e → (m h).1 = .error e
  untouched : ∀ a < h.next, (m h).2.cell a = h.cell a

/-- The same for a routine that returns two vectors: they are two different new objects. -/
structure Yields₂ (m : HM n F (Nat × Nat)) (h : Heap n F) (out : Except Err (Vec n F × Vec n F)) :
    Prop where
  returns : ∀ v w, out = .ok (v, w) →
    ∃ a b, (m h).1 = .ok (a, b) ∧ a ≠ b ∧ h.next ≤ a ∧ a < (m h).2.next ∧ h.next ≤ b ∧
      b < (m h).2.next ∧ (m h).2.cell a = v ∧ (m h).2.cell b = w
  raises : ∀ e, out = .error e → (m h).1 = .error e
  untouched : ∀ a < h.next, (m h).2.cell a = h.cell a

end Spec.Buf
