import Verif.Spec.Walk
import Mathlib.Data.Fintype.Card
import Mathlib.Tactic.Ring

/-! Facts about walks and hop distances. -/

namespace Spec
variable {V U : Type*} {E : V → V → Prop}

theorem walk_zero {u v : V} : Walk E 0 u v ↔ u = v :=
  ⟨fun h => by cases h; rfl, fun h => h ▸ Walk.nil u⟩

theorem walk_succ {k : Nat} {u w : V} : Walk E (k+1) u w ↔ ∃ v, Walk E k u v ∧ E v w :=
  ⟨fun h => by cases h with | snoc h e => exact ⟨_, h, e⟩, fun ⟨_, h, e⟩ => Walk.snoc h e⟩

theorem Walk.append {a b : Nat} {u v w : V} (h : Walk E a u v) (h' : Walk E b v w) :
    Walk E (a + b) u w := by
  induction h' with
  | nil => exact h
  | snoc _ e ih => exact Walk.snoc (ih h) e

theorem Walk.cons {k : Nat} {u v w : V} (e : E u v) (h : Walk E k v w) : Walk E (k+1) u w := by
  have := (Walk.snoc (Walk.nil u) e).append h
  rwa [Nat.add_comm, Nat.zero_add] at this

theorem Walk.split {a b : Nat} {u w : V} (h : Walk E (a + b) u w) :
    ∃ v, Walk E a u v ∧ Walk E b v w := by
  induction b generalizing w with
  | zero => exact ⟨w, h, Walk.nil w⟩
  | succ b ih =>
    obtain ⟨x, hx, e⟩ := walk_succ.1 (show Walk E ((a+b)+1) u w from h)
    obtain ⟨v, h1, h2⟩ := ih hx
    exact ⟨v, h1, h2.snoc e⟩

theorem walk_succ' {k : Nat} {u w : V} : Walk E (k+1) u w ↔ ∃ v, E u v ∧ Walk E k v w := by
  constructor
  · intro h
    rw [Nat.add_comm] at h
    obtain ⟨v, h1, h2⟩ := h.split
    obtain ⟨x, hx, e⟩ := walk_succ.1 h1
    rw [walk_zero] at hx
    exact ⟨v, hx ▸ e, h2⟩
  · rintro ⟨v, e, h⟩; exact Walk.cons e h

theorem Walk.rev {k : Nat} {u v : V} (h : Walk E k u v) : Walk (Rev E) k v u := by
  induction h with
  | nil => exact Walk.nil _
  | snoc _ e ih => exact Walk.cons (E := Rev E) e ih

theorem walk_rev {k : Nat} {u v : V} : Walk (Rev E) k u v ↔ Walk E k v u :=
  ⟨fun h => h.rev, fun h => h.rev⟩

theorem Walk.mono {E' : V → V → Prop} (hE : ∀ a b, E a b → E' a b) {k : Nat} {u v : V}
    (h : Walk E k u v) : Walk E' k u v := by
  induction h with
  | nil => exact Walk.nil _
  | snoc _ e ih => exact ih.snoc (hE _ _ e)

theorem walk_congr {E' : V → V → Prop} (hE : ∀ a b, E a b ↔ E' a b) {k : Nat} {u v : V} :
    Walk E k u v ↔ Walk E' k u v :=
  ⟨Walk.mono fun a b => (hE a b).1, Walk.mono fun a b => (hE a b).2⟩

theorem isDist_congr {E' : V → V → Prop} (hE : ∀ a b, E a b ↔ E' a b) {k : Nat} {u v : V} :
    IsDist E u k v ↔ IsDist E' u k v := by
  simp only [IsDist, walk_congr hE]

theorem Reach.refl (u : V) : Reach E u u := ⟨0, Walk.nil u⟩
theorem Reach.trans {u v w : V} : Reach E u v → Reach E v w → Reach E u w :=
  fun ⟨a, h⟩ ⟨b, h'⟩ => ⟨a + b, h.append h'⟩
theorem Reach.edge {u v : V} (h : E u v) : Reach E u v := ⟨1, Walk.cons h (Walk.nil v)⟩
theorem Reach.tail {u v w : V} (h : Reach E u v) (e : E v w) : Reach E u w := h.trans (.edge e)
theorem Reach.head {u v w : V} (e : E u v) (h : Reach E v w) : Reach E u w := (Reach.edge e).trans h
theorem Reach.mono {E' : V → V → Prop} (hE : ∀ a b, E a b → E' a b) {u v : V}
    (h : Reach E u v) : Reach E' u v := let ⟨k, hk⟩ := h; ⟨k, hk.mono hE⟩
theorem reach_rev {u v : V} : Reach (Rev E) u v ↔ Reach E v u := by
  simp only [Reach, walk_rev]

theorem isDist_iff_from {s : V} {d : Nat} {v : V} :
    IsDist E s d v ↔ IsDistFrom E (· = s) d v := by
  simp [IsDist, IsDistFrom]

theorem exists_distFrom {S : V → Prop} {s v : V} {k : Nat} (hs : S s) (h : Walk E k s v) :
    ∃ d, d ≤ k ∧ IsDistFrom E S d v := by
  classical
  have hex : ∃ d, ∃ s, S s ∧ Walk E d s v := ⟨k, s, hs, h⟩
  exact ⟨Nat.find hex, Nat.find_min' hex ⟨s, hs, h⟩, Nat.find_spec hex,
    fun m s' hs' hw => Nat.find_min' hex ⟨s', hs', hw⟩⟩

theorem exists_dist {s v : V} {k : Nat} (h : Walk E k s v) : ∃ d, d ≤ k ∧ IsDist E s d v := by
  obtain ⟨d, hd, h⟩ := exists_distFrom (S := (· = s)) rfl h
  exact ⟨d, hd, isDist_iff_from.2 h⟩

theorem distFrom_unique {S : V → Prop} {a b : Nat} {v : V} (h : IsDistFrom E S a v)
    (h' : IsDistFrom E S b v) : a = b := by
  obtain ⟨⟨s, hs, hw⟩, hm⟩ := h
  obtain ⟨⟨s', hs', hw'⟩, hm'⟩ := h'
  exact le_antisymm (hm _ _ hs' hw') (hm' _ _ hs hw)

theorem dist_unique {s : V} {a b : Nat} {v : V} (h : IsDist E s a v) (h' : IsDist E s b v) :
    a = b := le_antisymm (h.2 _ h'.1) (h'.2 _ h.1)

theorem distFrom_zero {S : V → Prop} {v : V} : IsDistFrom E S 0 v ↔ S v := by
  constructor
  · rintro ⟨⟨s, hs, hw⟩, -⟩; rw [walk_zero] at hw; exact hw ▸ hs
  · intro h; exact ⟨⟨v, h, Walk.nil v⟩, fun _ _ _ _ => Nat.zero_le _⟩

/-- one step of breadth-first search -/
theorem distFrom_succ {S : V → Prop} {k : Nat} {v : V} :
    IsDistFrom E S (k+1) v ↔
      (∃ u, IsDistFrom E S k u ∧ E u v) ∧ ¬ ∃ m, m ≤ k ∧ IsDistFrom E S m v := by
  constructor
  · rintro ⟨⟨s, hs, hw⟩, hm⟩
    obtain ⟨u, hu, e⟩ := walk_succ.1 hw
    refine ⟨⟨u, ⟨⟨s, hs, hu⟩, ?_⟩, e⟩, ?_⟩
    · intro j s' hs' hw'
      have := hm _ _ hs' (hw'.snoc e)
      omega
    · rintro ⟨m, hmk, ⟨⟨s', hs', hw'⟩, -⟩⟩
      have := hm _ _ hs' hw'
      omega
  · rintro ⟨⟨u, ⟨⟨s, hs, hw⟩, -⟩, e⟩, hno⟩
    refine ⟨⟨s, hs, hw.snoc e⟩, ?_⟩
    intro j s' hs' hw'
    by_contra hlt
    obtain ⟨d, hd, hD⟩ := exists_distFrom hs' hw'
    exact hno ⟨d, by omega, hD⟩

/-- an empty level is followed by empty levels only -/
theorem distFrom_empty {S : V → Prop} {k : Nat} (h : ∀ v, ¬ IsDistFrom E S k v) {m : Nat}
    (hm : k ≤ m) (v : V) : ¬ IsDistFrom E S m v := by
  induction m generalizing v with
  | zero => obtain rfl : k = 0 := by omega
            exact h v
  | succ m ih =>
    rcases Nat.lt_or_ge m k with hlt | hge
    · obtain rfl : k = m + 1 := by omega
      exact h v
    · rw [distFrom_succ]
      rintro ⟨⟨u, hu, -⟩, -⟩
      exact ih hge u hu

theorem distFrom_pred {S : V → Prop} {k : Nat} {v : V} (h : IsDistFrom E S k v) {m : Nat}
    (hm : m ≤ k) : ∃ u, IsDistFrom E S m u := by
  by_contra hno
  exact distFrom_empty (not_exists.1 hno) hm v h

/-- pigeonhole: distances are smaller than the number of nodes -/
theorem distFrom_lt_card [Fintype V] {S : V → Prop} {k : Nat} {v : V}
    (h : IsDistFrom E S k v) : k < Fintype.card V := by
  classical
  choose f hf using fun m : Fin (k+1) => distFrom_pred h (Nat.lt_succ_iff.1 m.2)
  have hinj : Function.Injective f := by
    intro a b hab
    have ha := hf a
    rw [hab] at ha
    exact Fin.ext (distFrom_unique ha (hf b))
  have := Fintype.card_le_of_injective f hinj
  rw [Fintype.card_fin] at this
  exact this

theorem dist_lt_card [Fintype V] {s : V} {k : Nat} {v : V}
    (h : IsDist E s k v) : k < Fintype.card V := distFrom_lt_card (isDist_iff_from.1 h)

/-! ### self-loops do not matter for distances -/

def OffLoop (E : V → V → Prop) : V → V → Prop := fun u v => u ≠ v ∧ E u v

theorem walk_offLoop {k : Nat} {u v : V} (h : Walk E k u v) :
    ∃ m, m ≤ k ∧ Walk (OffLoop E) m u v := by
  induction h with
  | nil => exact ⟨0, le_rfl, Walk.nil _⟩
  | @snoc k u v w _ e ih =>
    obtain ⟨m, hm, hw⟩ := ih
    by_cases hvw : v = w
    · exact ⟨m, by omega, hvw ▸ hw⟩
    · exact ⟨m+1, by omega, hw.snoc ⟨hvw, e⟩⟩

theorem distFrom_offLoop {S : V → Prop} {k : Nat} {v : V} :
    IsDistFrom (OffLoop E) S k v ↔ IsDistFrom E S k v := by
  constructor
  · rintro ⟨⟨s, hs, hw⟩, hm⟩
    refine ⟨⟨s, hs, hw.mono fun _ _ h => h.2⟩, fun j s' hs' hw' => ?_⟩
    obtain ⟨m, hmj, hw''⟩ := walk_offLoop hw'
    exact (hm _ _ hs' hw'').trans hmj
  · rintro ⟨⟨s, hs, hw⟩, hm⟩
    obtain ⟨m, hmk, hw'⟩ := walk_offLoop hw
    have h1 := hm _ _ hs (hw'.mono fun _ _ h => h.2)
    obtain rfl : m = k := by omega
    exact ⟨⟨s, hs, hw'⟩, fun j s' hs' h' => hm _ _ hs' (h'.mono fun _ _ h => h.2)⟩

theorem isDist_offLoop {s : V} {k : Nat} {v : V} : IsDist (OffLoop E) s k v ↔ IsDist E s k v := by
  rw [isDist_iff_from, isDist_iff_from, distFrom_offLoop]

theorem reach_offLoop {s v : V} : Reach (OffLoop E) s v ↔ Reach E s v := by
  constructor
  · exact Reach.mono fun _ _ h => h.2
  · rintro ⟨k, h⟩; obtain ⟨m, -, h⟩ := walk_offLoop h; exact ⟨m, h⟩

/-! ### transport along a one-to-one correspondence -/

theorem walk_transport {E' : U → U → Prop} {R : V → U → Prop}
    (hl : ∀ v v' u, R v u → R v' u → v = v') (hr : ∀ v u u', R v u → R v u' → u = u')
    (hs : ∀ u, ∃ v, R v u)
    (hE : ∀ a b, E a b ↔ ∃ i j, R a i ∧ R b j ∧ E' i j)
    {k : Nat} {a b : V} {i j : U} (ha : R a i) (hb : R b j) :
    Walk E k a b ↔ Walk E' k i j := by
  induction k generalizing b j with
  | zero =>
    rw [walk_zero, walk_zero]
    exact ⟨fun h => hr _ _ _ ha (h ▸ hb), fun h => hl _ _ _ ha (h ▸ hb)⟩
  | succ k ih =>
    rw [walk_succ, walk_succ]
    constructor
    · rintro ⟨c, hw, e⟩
      obtain ⟨x, y, hx, hy, e'⟩ := (hE _ _).1 e
      exact ⟨x, (ih hx).1 hw, hr _ _ _ hb hy ▸ e'⟩
    · rintro ⟨x, hw, e⟩
      obtain ⟨c, hc⟩ := hs x
      exact ⟨c, (ih hc).2 hw, (hE _ _).2 ⟨x, j, hc, hb, e⟩⟩

end Spec
