import Verif.GB.Basic
import Mathlib.Algebra.BigOperators.Fin
import Mathlib.Order.Lattice
import Mathlib.Order.Defs.LinearOrder

/-! Lemmas about the GraphBLAS layer: what reductions and products compute. -/

namespace GB

variable {α β γ : Type*} {m n k : Nat}

@[simp] theorem omerge_none_left (f : α → α → α) (b) : omerge f none b = b := by
  cases b <;> rfl
@[simp] theorem omerge_none_right (f : α → α → α) (a) : omerge f a none = a := by
  cases a <;> rfl
@[simp] theorem omerge_some (f : α → α → α) (a b) : omerge f (some a) (some b) = some (f a b) := rfl
@[simp] theorem ointer_none_left (f : α → β → γ) (b) : ointer f none b = none := by
  cases b <;> rfl
@[simp] theorem ointer_none_right (f : α → β → γ) (a) : ointer f a none = none := by
  cases a <;> rfl
@[simp] theorem ointer_some (f : α → β → γ) (a b) : ointer f (some a) (some b) = some (f a b) := rfl
@[simp] theorem isSome_omerge (f : α → α → α) (a b) :
    (omerge f a b).isSome = (a.isSome || b.isSome) := by
  cases a <;> cases b <;> rfl
@[simp] theorem isSome_ointer (f : α → β → γ) (a b) :
    (ointer f a b).isSome = (a.isSome && b.isSome) := by
  cases a <;> cases b <;> rfl
@[simp] theorem isSome_ounion (f : α → β → γ) (da db a b) :
    (ounion f da db a b).isSome = (a.isSome || b.isSome) := by
  cases a <;> cases b <;> rfl

theorem ointer_eq_some {f : α → β → γ} {a b c} :
    ointer f a b = some c ↔ ∃ x y, a = some x ∧ b = some y ∧ f x y = c := by
  cases a <;> cases b <;> simp

/-- fold over an arbitrary list -/
theorem foldl_omerge_isSome (f : α → α → α) {ι : Type*} (g : ι → Option α) (l : List ι) (a) :
    (l.foldl (fun acc i => omerge f acc (g i)) a).isSome = (a.isSome || l.any fun i => (g i).isSome) := by
  induction l generalizing a with
  | nil => simp
  | cons x xs ih => simp [ih, Bool.or_assoc]

theorem reduce_isSome (f : α → α → α) (v : Vec n α) :
    (reduce f v).isSome ↔ ∃ i, (v i).isSome := by
  simp [reduce, foldl_omerge_isSome]

theorem reduce_eq_none (f : α → α → α) (v : Vec n α) :
    reduce f v = none ↔ ∀ i, v i = none := by
  have := reduce_isSome f v
  rw [← not_iff_not]
  simpa only [← Option.isSome_iff_ne_none, not_forall] using this

theorem foldl_omerge_selective (f : α → α → α) (hf : ∀ a b, f a b = a ∨ f a b = b) {ι : Type*}
    (g : ι → Option α) (l : List ι) (a) (c)
    (h : l.foldl (fun acc i => omerge f acc (g i)) a = some c) :
    a = some c ∨ ∃ i ∈ l, g i = some c := by
  induction l generalizing a with
  | nil => left; simpa using h
  | cons x xs ih =>
    simp only [List.foldl_cons] at h
    rcases ih _ h with h1 | ⟨i, hi, hc⟩
    · cases ha : a with
      | none => rw [ha] at h1; simp at h1; exact Or.inr ⟨x, by simp, h1⟩
      | some a' =>
        cases hg : g x with
        | none => rw [ha, hg] at h1; simp at h1; left; simp [h1]
        | some b =>
          rw [ha, hg] at h1
          simp at h1
          rcases hf a' b with h2 | h2
          · left; rw [← h1, h2]
          · right; exact ⟨x, by simp, by rw [hg, ← h1, h2]⟩
    · right; exact ⟨i, by simp [hi], hc⟩

/-- for a selective operation (`min`, `max`, `any`, ...) the reduction is one of the entries -/
theorem reduce_selective {f : α → α → α} (hf : ∀ a b, f a b = a ∨ f a b = b) {v : Vec n α} {c}
    (h : reduce f v = some c) : ∃ i, v i = some c := by
  rcases foldl_omerge_selective f hf v _ none c h with h | ⟨i, -, hi⟩
  · simp at h
  · exact ⟨i, hi⟩

theorem foldl_omerge_min [LinearOrder α] {ι : Type*} (g : ι → Option α) (l : List ι) (a) (c)
    (h : l.foldl (fun acc i => omerge min acc (g i)) a = some c) :
    (∀ b, a = some b → c ≤ b) ∧ ∀ i ∈ l, ∀ b, g i = some b → c ≤ b := by
  induction l generalizing a with
  | nil =>
    simp only [List.foldl_nil] at h
    subst h
    simp
  | cons x xs ih =>
    simp only [List.foldl_cons] at h
    obtain ⟨h1, h2⟩ := ih _ h
    constructor
    · intro b hb
      subst hb
      cases hg : g x with
      | none => exact h1 b (by simp [hg])
      | some d => exact le_trans (h1 (min b d) (by simp [hg])) (min_le_left _ _)
    · intro i hi b hb
      rcases List.mem_cons.1 hi with rfl | hi
      · cases a with
        | none => exact h1 b (by simp [hb])
        | some d => exact le_trans (h1 (min d b) (by simp [hb])) (min_le_right _ _)
      · exact h2 i hi b hb

/-- `min` reductions return the least stored value -/
theorem reduce_min [LinearOrder α] {v : Vec n α} {c} :
    reduce min v = some c ↔ (∃ i, v i = some c) ∧ ∀ i b, v i = some b → c ≤ b := by
  constructor
  · intro h
    exact ⟨reduce_selective (fun a b => min_choice a b) h,
      fun i b hb => (foldl_omerge_min v _ none c h).2 i (List.mem_finRange i) b hb⟩
  · rintro ⟨⟨i, hi⟩, hle⟩
    have hs : (reduce min v).isSome := (reduce_isSome _ _).2 ⟨i, by simp [hi]⟩
    obtain ⟨d, hd⟩ := Option.isSome_iff_exists.1 hs
    obtain ⟨j, hj⟩ := reduce_selective (fun a b => min_choice a b) hd
    have h1 := (foldl_omerge_min v _ none d hd).2 i (List.mem_finRange i) c hi
    have h2 := hle j d hj
    rw [hd, le_antisymm h1 h2]

theorem foldl_omerge_max [LinearOrder α] {ι : Type*} (g : ι → Option α) (l : List ι) (a) (c)
    (h : l.foldl (fun acc i => omerge max acc (g i)) a = some c) :
    (∀ b, a = some b → b ≤ c) ∧ ∀ i ∈ l, ∀ b, g i = some b → b ≤ c :=
  foldl_omerge_min (α := αᵒᵈ) g l a c h

theorem reduce_max [LinearOrder α] {v : Vec n α} {c} :
    reduce max v = some c ↔ (∃ i, v i = some c) ∧ ∀ i b, v i = some b → b ≤ c :=
  reduce_min (α := αᵒᵈ)

theorem foldl_omerge_add [AddCommMonoid α] {ι : Type*} (g : ι → Option α) (l : List ι) (a) :
    (l.foldl (fun acc i => omerge (· + ·) acc (g i)) a).getD 0 =
      a.getD 0 + (l.map fun i => (g i).getD 0).sum := by
  induction l generalizing a with
  | nil => simp
  | cons x xs ih =>
    simp only [List.foldl_cons, ih, List.map_cons, List.sum_cons, ← add_assoc]
    congr 1
    cases a <;> cases g x <;> simp

/-- `plus` reductions are sums with absent entries counting 0 -/
theorem reduce_add [AddCommMonoid α] (v : Vec n α) :
    (reduce (· + ·) v).getD 0 = ∑ i, (v i).getD 0 := by
  rw [reduce, foldl_omerge_add]
  simp [Fin.sum_univ_def]

theorem reduce_add_of_isSome [AddCommMonoid α] {v : Vec n α} {i} (h : (v i).isSome) :
    reduce (· + ·) v = some (∑ i, (v i).getD 0) := by
  have hs := (reduce_isSome (· + ·) v).2 ⟨i, h⟩
  rw [← reduce_add]
  obtain ⟨d, hd⟩ := Option.isSome_iff_exists.1 hs
  simp [hd]

theorem foldl_omerge_or {ι : Type*} (g : ι → Option Bool) (l : List ι) (a) :
    (l.foldl (fun acc i => omerge (· || ·) acc (g i)) a).getD false =
      (a.getD false || l.any fun i => (g i).getD false) := by
  induction l generalizing a with
  | nil => simp
  | cons x xs ih =>
    simp only [List.foldl_cons, ih, List.any_cons, ← Bool.or_assoc]
    congr 1
    cases a <;> cases g x <;> simp

/-! ## products: patterns -/

theorem any_choice (a b : α) : any' a b = a ∨ any' a b = b := Or.inl rfl

theorem vxm_isSome (add : γ → γ → γ) (mul : α → β → γ) (q : Vec m α) (A : Mat m n β) (j) :
    (vxm add mul q A j).isSome ↔ ∃ i, (q i).isSome ∧ (A i j).isSome := by
  simp [vxm, reduce_isSome]

theorem mxv_isSome (add : γ → γ → γ) (mul : α → β → γ) (A : Mat m n α) (v : Vec n β) (i) :
    (mxv add mul A v i).isSome ↔ ∃ j, (A i j).isSome ∧ (v j).isSome := by
  simp [mxv, reduce_isSome]

theorem mxm_isSome (add : γ → γ → γ) (mul : α → β → γ) (A : Mat m k α) (B : Mat k n β) (i j) :
    (mxm add mul A B i j).isSome ↔ ∃ l, (A i l).isSome ∧ (B l j).isSome := by
  simp [mxm, reduce_isSome]

theorem dot_isSome (add : γ → γ → γ) (mul : α → β → γ) (u : Vec n α) (v : Vec n β) :
    (dot add mul u v).isSome ↔ ∃ i, (u i).isSome ∧ (v i).isSome := by
  simp [dot, reduce_isSome]

theorem nvals_eq_zero {v : Vec n α} : nvals v = 0 ↔ ∀ i, v i = none := by
  simp [nvals, Finset.filter_eq_empty_iff]

theorem nvals_pos {v : Vec n α} : 0 < nvals v ↔ ∃ i, (v i).isSome := by
  rw [Nat.pos_iff_ne_zero, ne_eq, nvals_eq_zero]
  simp [Option.isSome_iff_ne_none]

theorem mem_indices {v : Vec n α} {i} : i ∈ indices v ↔ (v i).isSome := by
  simp [indices]

theorem indices_nodup (v : Vec n α) : (indices v).Nodup :=
  (List.nodup_finRange n).filter _

theorem indices_length (v : Vec n α) : (indices v).length = nvals v := by
  rw [nvals, ← List.toFinset_card_of_nodup (indices_nodup v)]
  congr 1
  ext i
  simp [mem_indices]

theorem mnvals_eq_zero {A : Mat m n α} : mnvals A = 0 ↔ ∀ i j, A i j = none := by
  simp [mnvals, Finset.filter_eq_empty_iff]

theorem mnvals_eq_sum (A : Mat m n α) : mnvals A = ∑ i, nvals (A i) := by
  simp only [mnvals, nvals, Finset.card_filter]
  rw [← Finset.univ_product_univ, Finset.sum_product]

theorem nvals_le (v : Vec n α) : nvals v ≤ n := by
  unfold nvals
  exact (Finset.card_le_univ _).trans (by simp)

end GB
