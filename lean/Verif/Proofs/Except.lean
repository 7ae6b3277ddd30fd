import Mathlib.Data.List.Basic
import Mathlib.Data.List.Forall2

/-! `Except` plumbing -/

namespace Proofs

variable {ε α β : Type}

theorem mapM_ok {f : α → Except ε β} {g : α → β} {l : List α} (h : ∀ x ∈ l, f x = .ok (g x)) :
    l.mapM f = .ok (l.map g) := by
  induction l with
  | nil => rfl
  | cons x xs ih =>
    rw [List.mapM_cons, h x (by simp), ih fun y hy => h y (by simp [hy])]
    rfl

theorem mapM_forall₂ {f : α → Except ε β} {l : List α} {r : List β} (h : l.mapM f = .ok r) :
    List.Forall₂ (fun a b => f a = .ok b) l r := by
  induction l generalizing r with
  | nil => cases h; exact .nil
  | cons x xs ih =>
    rw [List.mapM_cons] at h
    cases hx : f x with
    | error e => rw [hx] at h; cases h
    | ok y =>
      rw [hx] at h
      cases hxs : xs.mapM f with
      | error e => rw [hxs] at h; cases h
      | ok ys =>
        rw [hxs] at h
        cases h
        exact .cons hx (ih hxs)

theorem mapM_error {f : α → Except ε β} {l : List α} {x} (hx : x ∈ l) {e : ε}
    (hf : f x = .error e) (hall : ∀ y ∈ l, ∀ e', f y = .error e' → e' = e) :
    l.mapM f = .error e := by
  induction l with
  | nil => cases hx
  | cons y ys ih =>
    rw [List.mapM_cons]
    cases hy : f y with
    | error e' => rw [hall y (by simp) e' hy]; rfl
    | ok b =>
      rcases List.mem_cons.1 hx with rfl | hx
      · rw [hf] at hy; cases hy
      · rw [ih hx fun z hz => hall z (by simp [hz])]
        rfl

end Proofs
