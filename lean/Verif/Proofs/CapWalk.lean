import Verif.Spec.CapWalk
import Verif.Proofs.BellmanFord

/-! Bellman-Ford with a cutoff and weights of any sign. -/

open GB Spec Model

namespace Proofs.Cap
open Proofs.BF

section basic
variable {V U α : Type*} [Zero α] [Add α] [LE α] {W : V → V → α → Prop} {x : α}

theorem zero_iff {c : α} {u v : V} : CapWalk W x 0 c u v ↔ c = 0 ∧ u = v := by
  constructor
  · intro h; cases h; exact ⟨rfl, rfl⟩
  · rintro ⟨rfl, rfl⟩; exact .nil _

theorem succ_iff {k : Nat} {c : α} {u w : V} :
    CapWalk W x (k+1) c u w ↔ ∃ v c' a, CapWalk W x k c' u v ∧ W v w a ∧ c = c' + a ∧ c ≤ x := by
  constructor
  · intro h; cases h with | snoc h e hx => exact ⟨_, _, _, h, e, rfl, hx⟩
  · rintro ⟨v, c', a, h, e, rfl, hx⟩; exact h.snoc e hx

theorem toWalk {k : Nat} {c : α} {u v : V} (h : CapWalk W x k c u v) : WWalk W k c u v := by
  induction h with
  | nil => exact .nil _
  | snoc _ e _ ih => exact ih.snoc e

theorem mono {W' : V → V → α → Prop} (hW : ∀ a b w, W a b w → W' a b w) {k : Nat} {c : α} {u v : V}
    (h : CapWalk W x k c u v) : CapWalk W' x k c u v := by
  induction h with
  | nil => exact .nil _
  | snoc _ e hx ih => exact ih.snoc (hW _ _ _ e) hx

theorem transport {W' : U → U → α → Prop} {R : V → U → Prop}
    (hl : ∀ v v' u, R v u → R v' u → v = v') (hr : ∀ v u u', R v u → R v u' → u = u')
    (hs : ∀ u, ∃ v, R v u)
    (hE : ∀ a b w, W a b w ↔ ∃ i j, R a i ∧ R b j ∧ W' i j w)
    {k : Nat} {c : α} {a b : V} {i j : U} (ha : R a i) (hb : R b j) :
    CapWalk W x k c a b ↔ CapWalk W' x k c i j := by
  induction k generalizing b j c with
  | zero =>
    rw [zero_iff, zero_iff]
    exact and_congr_right fun _ =>
      ⟨fun h => hr _ _ _ ha (h ▸ hb), fun h => hl _ _ _ ha (h ▸ hb)⟩
  | succ k ih =>
    rw [succ_iff, succ_iff]
    constructor
    · rintro ⟨c, d, w, hw, e, rfl, hx⟩
      obtain ⟨x, y, hx', hy, e'⟩ := (hE _ _ _).1 e
      exact ⟨x, d, w, (ih hx').1 hw, hr _ _ _ hb hy ▸ e', rfl, hx⟩
    · rintro ⟨x, d, w, hw, e, rfl, hx⟩
      obtain ⟨y, hc⟩ := hs x
      exact ⟨y, d, w, (ih hc).2 hw, (hE _ _ _).2 ⟨x, j, hc, hb, e⟩, rfl, hx⟩

end basic

/-! ### walks with at most `k` edges -/

section order
variable {V α : Type*} [Zero α] [Add α] [LinearOrder α] {W : V → V → α → Prop} {x : α} {s : V}

/-- a capped walk from `s` to `v` with at most `k` edges and weight `c` -/
def CLe (W : V → V → α → Prop) (x : α) (s : V) (k : Nat) (c : α) (v : V) : Prop :=
  ∃ m, m ≤ k ∧ CapWalk W x m c s v

/-- the least weight of these -/
def CBest (W : V → V → α → Prop) (x : α) (s : V) (k : Nat) (c : α) (v : V) : Prop :=
  CLe W x s k c v ∧ ∀ c', CLe W x s k c' v → c ≤ c'

theorem CLe.mono {k k' : Nat} (h : k ≤ k') {c : α} {v : V} : CLe W x s k c v → CLe W x s k' c v :=
  fun ⟨m, hm, r⟩ => ⟨m, hm.trans h, r⟩

theorem CLe.snoc {k : Nat} {c a : α} {v w : V} (h : CLe W x s k c v) (e : W v w a) (hx : c + a ≤ x) :
    CLe W x s (k+1) (c + a) w := by
  obtain ⟨m, hm, hw⟩ := h
  exact ⟨m+1, by omega, hw.snoc e hx⟩

theorem cle_zero {c : α} {v : V} : CLe W x s 0 c v ↔ v = s ∧ c = 0 := by
  constructor
  · rintro ⟨m, hm, hw⟩
    obtain rfl : m = 0 := by omega
    obtain ⟨rfl, rfl⟩ := zero_iff.1 hw
    exact ⟨rfl, rfl⟩
  · rintro ⟨rfl, rfl⟩; exact ⟨0, le_rfl, .nil _⟩

theorem cle_succ {k : Nat} {c : α} {v : V} :
    CLe W x s (k+1) c v ↔ CLe W x s k c v ∨ ∃ u c' a, CLe W x s k c' u ∧ W u v a ∧ c = c' + a ∧ c ≤ x := by
  constructor
  · rintro ⟨m, hm, hw⟩
    rcases Nat.lt_or_ge k m with hlt | hge
    · obtain rfl : m = k + 1 := by omega
      obtain ⟨u, c', a, h1, h2, h3, h4⟩ := succ_iff.1 hw
      exact Or.inr ⟨u, c', a, ⟨k, le_rfl, h1⟩, h2, h3, h4⟩
    · exact Or.inl ⟨m, hge, hw⟩
  · rintro (h | ⟨u, c', a, h, e, rfl, hx⟩)
    · exact h.mono (by omega)
    · exact h.snoc e hx

theorem cbest_exists [Finite V] (hfin : ∀ u v, {a | W u v a}.Finite) {k : Nat} {c : α} {v : V}
    (h : CLe W x s k c v) : ∃ b, b ≤ c ∧ CBest W x s k b v := by
  have hf : ∀ k v, {c | CLe W x s k c v}.Finite := by
    intro k
    induction k with
    | zero =>
      intro v
      refine (Set.finite_singleton (0:α)).subset ?_
      intro c hc
      exact (cle_zero.1 hc).2
    | succ k ih =>
      intro v
      have : {c | CLe W x s (k+1) c v} ⊆ {c | CLe W x s k c v} ∪
          ⋃ u, (fun p : α × α => p.1 + p.2) '' ({c | CLe W x s k c u} ×ˢ {a | W u v a}) := by
        intro c hc
        rcases cle_succ.1 hc with h | ⟨u, c', a, h1, h2, rfl, -⟩
        · exact Or.inl h
        · exact Or.inr (Set.mem_iUnion.2 ⟨u, (c', a), ⟨h1, h2⟩, rfl⟩)
      refine Set.Finite.subset ((ih v).union (Set.finite_iUnion fun u => ?_)) this
      exact (((ih u).prod (hfin u v)).image _)
  obtain ⟨b, hb, hb'⟩ := ((hf k v).inter_of_left {y | y ≤ c}).exists_minimal ⟨c, h, le_rfl⟩
  refine ⟨b, hb.2, hb.1, fun c' hc' => ?_⟩
  rcases le_total c' c with h1 | h1
  · rcases le_total b c' with h2 | h2
    · exact h2
    · exact hb' ⟨hc', h1⟩ h2
  · exact hb.2.trans h1

/-- nothing improves from `k` to `k+1` edges -/
def CStable (W : V → V → α → Prop) (x : α) (s : V) (k : Nat) : Prop :=
  ∀ c v, CLe W x s (k+1) c v → ∃ c', c' ≤ c ∧ CLe W x s k c' v

theorem CStable.all [MonoAdd α] {k : Nat} (h : CStable W x s k) {m : Nat} {c : α} {v : V}
    (hw : CapWalk W x m c s v) : ∃ c', c' ≤ c ∧ CLe W x s k c' v := by
  induction hw with
  | nil => exact ⟨0, le_rfl, 0, Nat.zero_le _, .nil _⟩
  | @snoc _ c a _ _ _ _ e hx ih =>
    obtain ⟨d, hd, hd'⟩ := ih h
    have hle : d + a ≤ c + a := MonoAdd.add_mono a hd
    obtain ⟨f, hf, hf'⟩ := h _ _ (hd'.snoc e (hle.trans hx))
    exact ⟨f, hf.trans hle, hf'⟩

theorem CStable.best [MonoAdd α] {k : Nat} (h : CStable W x s k) {c : α} {v : V} :
    CBest W x s k c v ↔ IsCapDist W x s c v := by
  constructor
  · rintro ⟨⟨m, _, hw⟩, hb⟩
    refine ⟨⟨m, hw⟩, fun m' c' hw' => ?_⟩
    obtain ⟨c'', h1, h2⟩ := h.all hw'
    exact (hb _ h2).trans h1
  · rintro ⟨⟨m, hw⟩, hb⟩
    obtain ⟨c'', h1, m', h2, h3⟩ := h.all hw
    obtain rfl := le_antisymm h1 (hb _ _ h3)
    exact ⟨⟨m', h2, h3⟩, fun c' ⟨m'', _, hw''⟩ => hb _ _ hw''⟩

theorem CStable.bounded [MonoAdd α] [Finite V] (hfin : ∀ u v, {a | W u v a}.Finite) {k : Nat}
    (h : CStable W x s k) : ¬ CapUnbounded W x s := by
  rintro ⟨v, ⟨m, c, hw⟩, hno⟩
  obtain ⟨c', -, h'⟩ := h.all hw
  obtain ⟨b, -, hb⟩ := cbest_exists hfin h'
  exact hno ⟨b, h.best.1 hb⟩

/-- dropping non-negative self-loops -/
theorem offLoop [MonoAdd α] {k : Nat} {c : α} {v : V} (h : CapWalk W x k c s v)
    (hl : ∀ y a, CapReach (WOffLoop W) x s y → W y y a → 0 ≤ a) :
    ∃ m c', c' ≤ c ∧ CapWalk (WOffLoop W) x m c' s v := by
  induction h with
  | nil => exact ⟨0, 0, le_rfl, .nil _⟩
  | @snoc k c a u v w hw e hx ih =>
    obtain ⟨m, c', h2, h3⟩ := ih hl
    by_cases hvw : v = w
    · subst hvw
      exact ⟨m, c', h2.trans (MonoAdd.le_add _ (hl v a ⟨_, _, h3⟩ e)), h3⟩
    · exact ⟨m+1, c' + a, MonoAdd.add_mono _ h2,
        h3.snoc ⟨hvw, e⟩ ((MonoAdd.add_mono _ h2).trans hx)⟩

theorem capDist_offLoop [MonoAdd α] (hl : ∀ y a, CapReach (WOffLoop W) x s y → W y y a → 0 ≤ a) {d : α} {v : V} :
    IsCapDist (WOffLoop W) x s d v ↔ IsCapDist W x s d v := by
  constructor
  · rintro ⟨⟨k, h⟩, hm⟩
    refine ⟨⟨k, mono (fun _ _ _ h => h.2) h⟩, fun m c hw => ?_⟩
    obtain ⟨m', c', h2, h3⟩ := offLoop hw hl
    exact (hm _ _ h3).trans h2
  · rintro ⟨⟨k, h⟩, hm⟩
    obtain ⟨m', c', h2, h3⟩ := offLoop h hl
    have := hm _ _ (mono (fun _ _ _ h => h.2) h3)
    obtain rfl := le_antisymm h2 this
    exact ⟨⟨_, h3⟩, fun m c hw => hm _ _ (mono (fun _ _ _ h => h.2) hw)⟩

end order

/-! ### closed walks -/

section group
variable {V α : Type*} [AddCommGroup α] [LinearOrder α] [IsOrderedAddMonoid α] {W : V → V → α → Prop} {x : α}

/-- one step of a capped walk, on vertices with running totals -/
def Step (W : V → V → α → Prop) (x : α) (f : ℕ → V) (g : ℕ → α) (i : ℕ) : Prop :=
  W (f i) (f (i+1)) (g (i+1) - g i) ∧ g (i+1) ≤ x

omit [IsOrderedAddMonoid α] in
theorem seq {k : Nat} {c : α} {u v : V} (h : CapWalk W x k c u v) :
    ∃ (f : ℕ → V) (g : ℕ → α), f 0 = u ∧ g 0 = 0 ∧ f k = v ∧ g k = c ∧ ∀ i < k, Step W x f g i := by
  induction h with
  | nil u => exact ⟨fun _ => u, fun _ => 0, rfl, rfl, rfl, rfl, by simp⟩
  | @snoc k c a u v w _ e hx ih =>
    obtain ⟨f, g, h0, hg0, hk, hgk, hs⟩ := ih
    refine ⟨fun i => if i ≤ k then f i else w, fun i => if i ≤ k then g i else c + a, by simpa using h0,
      by simpa using hg0, by simp, by simp, ?_⟩
    intro i hi
    unfold Step
    rcases Nat.lt_succ_iff_lt_or_eq.1 hi with hi | rfl
    · have h1 : i ≤ k := hi.le
      have h2 : i + 1 ≤ k := hi
      simp only [h1, h2, if_true]
      exact hs i hi
    · simp only [le_refl, if_true, Nat.not_succ_le_self, if_false, hk, hgk, add_sub_cancel_left]
      exact ⟨e, hx⟩

/-- follow steps `a … b` after a walk to `f a` that is no heavier than `g a` -/
theorem extend {f : ℕ → V} {g : ℕ → α} {a b m : ℕ} {c : α} {u : V} (hab : a ≤ b)
    (hs : ∀ i, a ≤ i → i < b → Step W x f g i) (h : CapWalk W x m c u (f a)) (hc : c ≤ g a) :
    CapWalk W x (m + (b - a)) (c + (g b - g a)) u (f b) := by
  induction b, hab using Nat.le_induction with
  | base => simpa using h
  | succ b hab ih =>
    have h1 := ih fun i h1 h2 => hs i h1 (by omega)
    obtain ⟨e, hx⟩ := hs b hab (by omega)
    have h2 := h1.snoc e (by
      have : c + (g b - g a) + (g (b+1) - g b) = c + (g (b+1) - g a) := by abel
      rw [this]
      have h3 : c + (g (b+1) - g a) ≤ g a + (g (b+1) - g a) := add_le_add_left hc _
      have h4 : g a + (g (b+1) - g a) = g (b+1) := by abel
      exact (h3.trans_eq h4).trans hx)
    have e1 : c + (g b - g a) + (g (b+1) - g b) = c + (g (b+1) - g a) := by abel
    have e2 : m + (b - a) + 1 = m + (b + 1 - a) := by omega
    rwa [e1, e2] at h2

/-- a negative closed stretch of a capped walk makes the totals unbounded -/
theorem unbounded_of_cycle {f : ℕ → V} {g : ℕ → α} {u : V} {k a b : ℕ} (h0 : f 0 = u) (hg0 : g 0 = 0)
    (hs : ∀ i < k, Step W x f g i) (hab : a ≤ b) (hb : b ≤ k) (hf : f a = f b) (hg : g b < g a) :
    CapUnbounded W x u := by
  have start : ∀ i, i ≤ k → CapWalk W x i (g i) u (f i) := by
    intro i hi
    have := extend (f := f) (g := g) (a := 0) (b := i) (m := 0) (c := 0) (u := u) (x := x) (W := W)
      (by omega) (fun j _ h2 => hs j (by omega)) (h0 ▸ .nil _) (by rw [hg0])
    simpa [hg0] using this
  refine ⟨f a, ⟨a, g a, start a (by omega)⟩, ?_⟩
  rintro ⟨d, ⟨m, hw⟩, hd⟩
  have hda : d ≤ g a := hd _ _ (start a (by omega))
  have := extend hab (fun i _ h2 => hs i (by omega)) hw hda
  rw [← hf] at this
  have h1 := hd _ _ this
  have h2 : d + (g b - g a) < d := by
    rw [← add_zero d, add_assoc]
    exact add_lt_add_of_le_of_lt le_rfl (by simpa using hg)
  exact absurd h1 (not_le.2 h2)

/-- without it, a shorter walk is at least as light -/
theorem shortcut {f : ℕ → V} {g : ℕ → α} {u : V} {k a b : ℕ} (h0 : f 0 = u) (hg0 : g 0 = 0)
    (hs : ∀ i < k, Step W x f g i) (hab : a ≤ b) (hb : b ≤ k) (hf : f a = f b) (hg : g a ≤ g b) :
    ∃ c, c ≤ g k ∧ CapWalk W x (a + (k - b)) c u (f k) := by
  have h1 : CapWalk W x a (g a) u (f a) := by
    have := extend (f := f) (g := g) (a := 0) (b := a) (m := 0) (c := 0) (u := u) (x := x) (W := W)
      (by omega) (fun j _ h2 => hs j (by omega)) (h0 ▸ .nil _) (by rw [hg0])
    simpa [hg0] using this
  have := extend hb (fun i _ h2 => hs i h2) (hf ▸ h1) hg
  refine ⟨_, ?_, this⟩
  have : g a + (g k - g b) ≤ g b + (g k - g b) := add_le_add_left hg _
  simpa using this

theorem pigeon [Fintype V] {f : ℕ → V} {k : ℕ} (hk : Fintype.card V ≤ k) :
    ∃ a b, a < b ∧ b ≤ k ∧ f a = f b := by
  obtain ⟨i, j, hij, hf⟩ : ∃ i j : Fin (k+1), i ≠ j ∧ f i = f j := by
    apply Fintype.exists_ne_map_eq_of_card_lt (fun i : Fin (k+1) => f i)
    simp; omega
  rcases lt_or_gt_of_ne hij with h | h
  · exact ⟨i, j, h, by omega, hf⟩
  · exact ⟨j, i, h, by omega, hf.symm⟩

/-- an improvement beyond the number of nodes comes from a negative closed walk -/
theorem unbounded_of_improve [Fintype V] {s v : V} {k : ℕ} {c : α} (hk : Fintype.card V ≤ k + 1)
    (h : CLe W x s (k+1) c v) (hnew : ∀ c', CLe W x s k c' v → c < c') : CapUnbounded W x s := by
  obtain ⟨m, hm, hw⟩ := h
  have hmk : m = k + 1 := by
    by_contra hne
    exact absurd (hnew c ⟨m, by omega, hw⟩) (lt_irrefl _)
  subst hmk
  obtain ⟨f, g, h0, hg0, hfk, hgk, hs⟩ := seq hw
  obtain ⟨a, b, hab, hb, hf⟩ := pigeon (f := f) hk
  by_cases hg : g b < g a
  · exact unbounded_of_cycle h0 hg0 hs hab.le hb hf hg
  · obtain ⟨c', h1, h2⟩ := shortcut h0 hg0 hs hab.le hb hf (not_lt.1 hg)
    rw [hfk] at h2
    exact absurd (hnew c' ⟨_, by omega, h2⟩) (not_lt.2 (h1.trans_eq hgk))

/-- if no total of a node already reached improves, then no further node is reached either -/
theorem stable_of_no_improve [Fintype V] (hfin : ∀ u v, {a | W u v a}.Finite) {s : V} {k : ℕ}
    (hk : Fintype.card V ≤ k + 1)
    (H : ∀ v c b, CLe W x s (k+1) c v → CBest W x s k b v → b ≤ c) : CStable W x s k := by
  intro c v hw
  by_cases hr : ∃ c', CLe W x s k c' v
  · obtain ⟨c', hc'⟩ := hr
    obtain ⟨b, -, hb⟩ := cbest_exists hfin hc'
    exact ⟨b, H v c b hw hb, hb.1⟩
  exfalso
  obtain ⟨m, hm, hw⟩ := hw
  have hmk : m = k + 1 := by
    by_contra hne
    exact hr ⟨c, m, by omega, hw⟩
  subst hmk
  obtain ⟨f, g, h0, hg0, hfk, hgk, hs⟩ := seq hw
  have start : ∀ i, i ≤ k + 1 → CapWalk W x i (g i) s (f i) := by
    intro i hi
    have := extend (f := f) (g := g) (a := 0) (b := i) (m := 0) (c := 0) (u := s) (x := x) (W := W)
      (by omega) (fun j _ h2 => hs j (by omega)) (h0 ▸ .nil _) (by rw [hg0])
    simpa [hg0] using this
  obtain ⟨a, b, hab, hb, hf⟩ := pigeon (f := f) hk
  by_cases hg : g b < g a
  · have hbk : b ≤ k := by
      by_contra hlt
      obtain rfl : b = k + 1 := by omega
      exact hr ⟨g a, a, by omega, by have := start a (by omega); rwa [hf, hfk] at this⟩
    -- the best totals along the stretch
    obtain ⟨Da, -, hDa⟩ := cbest_exists hfin (⟨a, by omega, start a (by omega)⟩ : CLe W x s k (g a) (f a))
    have key : ∀ i, a ≤ i → i ≤ b → ∀ D, CBest W x s k D (f i) → D - g i ≤ Da - g a := by
      intro i hai
      induction i, hai using Nat.le_induction with
      | base =>
        intro _ D hD
        rw [le_antisymm (hD.2 _ hDa.1) (hDa.2 _ hD.1)]
      | succ i hai ih =>
        intro hi D hD
        obtain ⟨E, hE', hE⟩ := cbest_exists hfin (⟨i, by omega, start i (by omega)⟩ : CLe W x s k (g i) (f i))
        have h1 := ih (by omega) E hE
        obtain ⟨e, hx⟩ := hs i (by omega)
        have hle : E + (g (i+1) - g i) ≤ g (i+1) := by
          have : E + (g (i+1) - g i) ≤ g i + (g (i+1) - g i) := add_le_add_left hE' _
          simpa using this
        have h2 := H _ _ D (hE.1.snoc e (hle.trans hx)) hD
        have h3 : D - g (i+1) ≤ E + (g (i+1) - g i) - g (i+1) := sub_le_sub_right h2 _
        have h4 : E + (g (i+1) - g i) - g (i+1) = E - g i := by abel
        exact (h3.trans_eq h4).trans h1
    have h1 := key b hab.le le_rfl Da (hf ▸ hDa)
    exact absurd (sub_le_sub_iff_left Da |>.1 h1) (not_le.2 hg)
  · obtain ⟨c', h1, h2⟩ := shortcut h0 hg0 hs hab.le hb hf (not_lt.1 hg)
    rw [hfk] at h2
    exact hr ⟨c', _, by omega, h2⟩

end group

/-! ### the loop -/

section loop
variable {α : Type} [Zero α] [Add α] [LinearOrder α] [MonoAdd α] {n : Nat}
  {A : Mat n n α} {s : Fin n} {k : Nat} {x : α} {d cur : Vec n α}

structure CInv (A : Mat n n α) (s : Fin n) (x : α) (k : Nat) (d cur : Vec n α) : Prop where
  sound : ∀ j c, d j = some c → CLe (MW A) x s k c j
  best : ∀ j c, CBest (MW A) x s k c j → d j = some c
  cur_d : ∀ j c, cur j = some c → d j = some c
  fresh : ∀ j c, CBest (MW A) x s k c j →
    (∀ m, m < k → ∀ c', CLe (MW A) x s m c' j → c < c') → cur j = some c

omit [MonoAdd α] in
theorem relax_sound (h : CInv A s x k d cur) {j : Fin n} {c : α}
    (hr : bfRelax A (some x) cur j = some c) : CLe (MW A) x s (k+1) c j := by
  obtain ⟨⟨i, y, a, hx, ha, rfl⟩, hok⟩ := relax_mem hr
  exact (h.sound i y (h.cur_d i y hx)).snoc ha (hok x rfl)

theorem relax_improve (h : CInv A s x k d cur) {j : Fin n} {c : α}
    (hb : CBest (MW A) x s (k+1) c j)
    (hnew : ∀ c', CLe (MW A) x s k c' j → c < c') : bfRelax A (some x) cur j = some c := by
  rcases cle_succ.1 hb.1 with hold | ⟨i, c0, a, h0, e, rfl, hx⟩
  · exact absurd (hnew c hold) (lt_irrefl _)
  obtain ⟨c1, hc1, hb1⟩ := cbest_exists (mw_fin A) h0
  have hle1 : c1 + a ≤ c0 + a := MonoAdd.add_mono a hc1
  have hca : c0 + a = c1 + a := le_antisymm (hb.2 _ (hb1.1.snoc e (hle1.trans hx))) hle1
  rw [hca] at hb hx hnew ⊢
  have hcur : cur i = some c1 := by
    refine h.fresh i c1 hb1 fun m hm c' hc' => ?_
    by_contra hle
    have h3 : c' + a ≤ c1 + a := MonoAdd.add_mono a (not_lt.1 hle)
    have h2 := hnew (c' + a) ((hc'.snoc e (h3.trans hx)).mono (by omega))
    exact absurd h2 (not_lt.2 h3)
  rw [bfRelax_some]
  refine ⟨?_, fun y hy => by cases hy; exact hx⟩
  have hcand : ointer (· + ·) (cur i) (A i j) = some (c1 + a) := by
    have e' : A i j = some a := e
    rw [hcur, e']; rfl
  have hsome : (vxm min (· + ·) cur A j).isSome := by
    rw [vxm_isSome]; exact ⟨i, by simp [hcur], by have e' : A i j = some a := e; simp [e']⟩
  obtain ⟨b, hb'⟩ := Option.isSome_iff_exists.1 hsome
  have hle : b ≤ c1 + a := (reduce_min.1 hb').2 i _ hcand
  have hge : c1 + a ≤ b := by
    obtain ⟨⟨i', hi'⟩, -⟩ := reduce_min.1 hb'
    obtain ⟨y, z, hy, hz, rfl⟩ := ointer_eq_some.1 hi'
    exact hb.2 _ ((h.sound i' y (h.cur_d i' y hy)).snoc hz (hle.trans hx))
  rw [hb', le_antisymm hle hge]

theorem step (h : CInv A s x k d cur) :
    CInv A s x (k+1) (upd d (bfRound A (some x) d cur)) (bfRound A (some x) d cur) := by
  refine ⟨?_, ?_, ?_, ?_⟩
  · intro j c hc
    cases hr : bfRound A (some x) d cur j with
    | none => rw [upd_of_none hr] at hc; exact (h.sound j c hc).mono (by omega)
    | some y =>
      rw [upd_of_some hr] at hc; cases hc
      exact relax_sound h (bfRound_some.1 hr).1
  · intro j c hb
    by_cases hex : ∃ c', CLe (MW A) x s k c' j ∧ c' ≤ c
    · obtain ⟨c', h1, h2⟩ := hex
      have : c' = c := le_antisymm h2 (hb.2 _ (h1.mono (by omega)))
      subst this
      have hd := h.best j c' ⟨h1, fun y hy => hb.2 _ (hy.mono (by omega))⟩
      cases hr : bfRound A (some x) d cur j with
      | none => rw [upd_of_none hr]; exact hd
      | some y =>
        obtain ⟨h3, h4⟩ := bfRound_some.1 hr
        have := hb.2 _ (relax_sound h h3)
        exact absurd (h4 _ hd) (not_lt.2 this)
    · push Not at hex
      have hr : bfRound A (some x) d cur j = some c := by
        rw [bfRound_some]
        exact ⟨relax_improve h hb hex, fun b hb' => hex b (h.sound j b hb')⟩
      exact upd_of_some hr
  · intro j c hc; exact upd_of_some hc
  · intro j c hb hfr
    rw [bfRound_some]
    have hex := hfr k (by omega)
    exact ⟨relax_improve h hb hex, fun b hb' => hex b (h.sound j b hb')⟩

theorem loop_spec (m : Nat) {k d cur} (h : CInv A s x k d cur) :
    (bfLoop A none m (some x) d cur).cut = some x ∧
    ∃ k', k ≤ k' ∧ k' ≤ k + m ∧
      (∀ j c, (bfLoop A none m (some x) d cur).d j = some c ↔ CBest (MW A) x s k' c j) ∧
      ((bfLoop A none m (some x) d cur).broke = true → CStable (MW A) x s k') ∧
      ((bfLoop A none m (some x) d cur).broke = false → k' = k + m ∧
        CInv A s x k' (bfLoop A none m (some x) d cur).d (bfLoop A none m (some x) d cur).cur) := by
  have hval : ∀ {k d cur}, CInv A s x k d cur → ∀ j c, d j = some c ↔ CBest (MW A) x s k c j := by
    intro k d cur h j c
    refine ⟨fun hd => ?_, h.best j c⟩
    obtain ⟨b, -, hb⟩ := cbest_exists (mw_fin A) (h.sound j c hd)
    have := h.best j b hb
    rw [hd] at this; cases this; exact hb
  induction m generalizing k d cur with
  | zero => exact ⟨rfl, k, le_rfl, le_rfl, hval h, by simp [bfLoop], fun _ => ⟨rfl, h⟩⟩
  | succ m ih =>
    unfold bfLoop
    simp only
    split
    · rename_i hz
      refine ⟨rfl, k, le_rfl, by omega, hval h, fun _ => ?_, by simp⟩
      intro c v hw
      obtain ⟨b, hb, hbest⟩ := cbest_exists (mw_fin A) hw
      by_contra hcon
      push Not at hcon
      have hnew : ∀ c', CLe (MW A) x s k c' v → b < c' := by
        intro c' hc'
        by_contra hle
        exact hcon c' ((not_lt.1 hle).trans hb) hc'
      have : bfRound A (some x) d cur v = some b := by
        rw [bfRound_some]; exact ⟨relax_improve h hbest hnew, fun y hy => hnew y (h.sound v y hy)⟩
      rw [nvals_eq_zero.1 hz v] at this; cases this
    · obtain ⟨h0, k', h1, h2, h3, h4, h5⟩ := ih (step h)
      refine ⟨h0, k', by omega, by omega, h3, h4, fun hb => ?_⟩
      obtain ⟨e, hi⟩ := h5 hb
      exact ⟨by omega, hi⟩

omit [MonoAdd α] in
theorem init (s : Fin n) : CInv A s x 0 (vset vempty s 0) (vset vempty s 0) :=
  ⟨fun j c h => cle_zero.2 ((src_init s j c).1 h), fun j c h => (src_init s j c).2 (cle_zero.1 h.1),
    fun _ _ h => h, fun j c h _ => (src_init s j c).2 (cle_zero.1 h.1)⟩

end loop

section core
variable {α : Type} [AddCommGroup α] [LinearOrder α] [IsOrderedAddMonoid α] {n : Nat}

theorem core_off (A : Mat n n α) (s : Fin n) (x : α) :
    let P := CapUnbounded (MW (offdiag A)) x s ∨
      ∃ y a, CapReach (MW (offdiag A)) x s y ∧ A y y = some a ∧ a < 0
    (P ∧ bfCore A s none (some x) = .error .unbounded) ∨
    (¬ P ∧ ∃ d, bfCore A s none (some x) = .ok d ∧ ∀ j c, d j = some c ↔ IsCapDist (MW (offdiag A)) x s c j) := by
  intro P
  obtain ⟨hcut, k, -, hk, hval, hbr, hnb⟩ := loop_spec (A := offdiag A) (x := x) (n-1) (init s)
  have hn : n - 1 + 1 = n := by have := s.isLt; omega
  unfold bfCore
  simp only [ite_self]
  generalize hst : bfLoop (offdiag A) none (n-1) (some x) (vset vempty s 0) (vset vempty s 0) = st at *
  obtain ⟨d, cur, cut, broke⟩ := st
  simp only at hcut hval hbr hnb ⊢
  subst hcut
  by_cases himp : (!broke && (reduce (· || ·) (bfImproved (offdiag A) (some x) d cur)).getD false) = true
  · left
    refine ⟨?_, if_pos himp⟩
    cases broke with
    | true => simp at himp
    | false =>
      obtain ⟨hk', hi⟩ := hnb rfl
      simp only [Bool.not_false, Bool.true_and] at himp
      rw [reduce_or] at himp
      obtain ⟨j, hj⟩ := himp
      obtain ⟨c, b, h1, h2, h3⟩ := improved_iff.1 hj
      have hb := (hval j b).1 h2
      refine .inl (unbounded_of_improve (k := k) (by rw [Fintype.card_fin]; omega) (relax_sound hi h1) ?_)
      exact fun c' hc' => h3.trans_le (hb.2 _ hc')
  · rw [if_neg himp]
    have hstable : CStable (MW (offdiag A)) x s k := by
      cases broke with
      | true => exact hbr rfl
      | false =>
        obtain ⟨hk', hi⟩ := hnb rfl
        refine stable_of_no_improve (mw_fin _) (by rw [Fintype.card_fin]; omega) fun v c b hw hb => ?_
        by_contra hlt
        rw [not_le] at hlt
        apply himp
        simp only [Bool.not_false, Bool.true_and]
        rw [reduce_or]
        obtain ⟨c', hc', hb'⟩ := cbest_exists (mw_fin _) hw
        exact ⟨v, improved_iff.2 ⟨c', b, relax_improve hi hb' fun y hy => (hc'.trans_lt hlt).trans_le (hb.2 _ hy),
          (hval v b).2 hb, hc'.trans_lt hlt⟩⟩
    have hdist : ∀ j c, d j = some c ↔ IsCapDist (MW (offdiag A)) x s c j := fun j c => by
      rw [hval, hstable.best]
    have hreach : ∀ y, (d y).isSome ↔ CapReach (MW (offdiag A)) x s y := by
      intro y
      constructor
      · intro h
        obtain ⟨c, hc⟩ := Option.isSome_iff_exists.1 h
        obtain ⟨⟨m, hm⟩, -⟩ := (hdist y c).1 hc
        exact ⟨m, c, hm⟩
      · rintro ⟨m, c, hw⟩
        obtain ⟨c', -, h'⟩ := hstable.all hw
        obtain ⟨b, -, hb⟩ := cbest_exists (mw_fin _) h'
        rw [(hval y b).2 hb]; rfl
    have hbd := hstable.bounded (mw_fin _)
    have hdiag := diagCheck_iff (A := A) (d := d)
    simp only [hreach] at hdiag
    by_cases h2 : ∃ y a, CapReach (MW (offdiag A)) x s y ∧ A y y = some a ∧ a < 0
    · exact .inl ⟨.inr h2, if_pos (hdiag.2 h2)⟩
    · exact .inr ⟨fun h => h.elim hbd h2, d, if_neg (by rw [hdiag]; exact h2), hdist⟩

omit [IsOrderedAddMonoid α] in
/-- a capped walk with an edge ends at most at the cutoff -/
theorem le_of_succ {V : Type*} {W : V → V → α → Prop} {x c : α} {k : Nat} {u v : V} (h : CapWalk W x (k+1) c u v) :
    c ≤ x := by
  obtain ⟨_, _, _, _, _, _, hx⟩ := succ_iff.1 h; exact hx

/-- self-loops can be put back -/
theorem loops {V : Type*} {W : V → V → α → Prop} {x : α} {s : V} :
    ((CapUnbounded (WOffLoop W) x s ∨ ∃ y a, CapReach (WOffLoop W) x s y ∧ W y y a ∧ a < 0) ↔
      (CapUnbounded W x s ∨ ∃ a, W s s a ∧ a < 0)) := by
  constructor
  · intro h
    by_cases hl : ∃ y a, CapReach (WOffLoop W) x s y ∧ W y y a ∧ a < 0
    · obtain ⟨y, a, ⟨m, c, hw⟩, e, ha⟩ := hl
      have hw' := mono (W' := W) (fun _ _ _ h => h.2) hw
      cases m with
      | zero =>
        obtain ⟨-, rfl⟩ := zero_iff.1 hw
        exact .inr ⟨a, e, ha⟩
      | succ m =>
        refine .inl ⟨y, ⟨_, _, hw'⟩, ?_⟩
        rintro ⟨d, ⟨k, hd⟩, hmin⟩
        have hdx : d ≤ x := (hmin _ _ hw').trans (le_of_succ hw)
        have hlt : d + a < d := by simpa using add_lt_add_right ha d
        exact absurd (hmin _ _ (hd.snoc e (hlt.le.trans hdx))) (not_le.2 hlt)
    · have hl' : ∀ y a, CapReach (WOffLoop W) x s y → W y y a → 0 ≤ a := by
        intro y a h1 h2
        by_contra h3
        exact hl ⟨y, a, h1, h2, not_le.1 h3⟩
      rcases h with ⟨v, ⟨m, c, hw⟩, hno⟩ | h
      · refine .inl ⟨v, ⟨m, c, mono (fun _ _ _ h => h.2) hw⟩, ?_⟩
        rintro ⟨d, hd⟩
        exact hno ⟨d, (capDist_offLoop hl').2 hd⟩
      · exact absurd h hl
  · intro h
    by_cases hl : ∃ y a, CapReach (WOffLoop W) x s y ∧ W y y a ∧ a < 0
    · exact .inr hl
    · have hl' : ∀ y a, CapReach (WOffLoop W) x s y → W y y a → 0 ≤ a := by
        intro y a h1 h2
        by_contra h3
        exact hl ⟨y, a, h1, h2, not_le.1 h3⟩
      rcases h with ⟨v, ⟨m, c, hw⟩, hno⟩ | ⟨a, e, ha⟩
      · obtain ⟨m', c', -, hw'⟩ := offLoop hw hl'
        refine .inl ⟨v, ⟨m', c', hw'⟩, ?_⟩
        rintro ⟨d, hd⟩
        exact hno ⟨d, (capDist_offLoop hl').1 hd⟩
      · exact absurd ⟨s, a, ⟨0, 0, .nil s⟩, e, ha⟩ hl

theorem core_cap (A : Mat n n α) (s : Fin n) (x : α) :
    let P := CapUnbounded (MW A) x s ∨ ∃ a, A s s = some a ∧ a < 0
    (P ∧ bfCore A s none (some x) = .error .unbounded) ∨
    (¬ P ∧ ∃ d, bfCore A s none (some x) = .ok d ∧ ∀ j c, d j = some c ↔ IsCapDist (MW A) x s c j) := by
  intro P
  have hP : (CapUnbounded (MW (offdiag A)) x s ∨
      ∃ y a, CapReach (MW (offdiag A)) x s y ∧ A y y = some a ∧ a < 0) ↔ P := by
    rw [mw_offdiag']
    exact loops (W := MW A)
  rcases core_off A s x with ⟨h1, h2⟩ | ⟨h1, d, h2, h3⟩
  · exact .inl ⟨hP.1 h1, h2⟩
  · refine .inr ⟨fun h => h1 (hP.2 h), d, h2, fun j c => ?_⟩
    rw [h3, mw_offdiag', capDist_offLoop]
    intro y a hr e
    by_contra hlt
    refine h1 (.inr ⟨y, a, ?_, e, not_le.1 hlt⟩)
    rw [mw_offdiag']; exact hr

/-- with non-negative weights nothing is unbounded, and the capped totals are the distances within the cutoff -/
theorem nonneg_dist {V : Type*} {W : V → V → α → Prop} {x : α} {s v : V} {d : α}
    (hW : ∀ a b w, W a b w → 0 ≤ w) (hx : 0 ≤ x) : IsCapDist W x s d v ↔ IsWDist W s d v ∧ d ≤ x := by
  have hcap : ∀ {k c}, WWalk W k c s v → c ≤ x → CapWalk W x k c s v := by
    intro k c h
    induction h with
    | nil => exact fun _ => .nil _
    | snoc _ e ih =>
      intro hle
      exact (ih ((le_add_of_nonneg_right (hW _ _ _ e)).trans hle)).snoc e hle
  have hle : ∀ {k c}, CapWalk W x k c s v → c ≤ x := by
    intro k c h
    cases k with
    | zero => rw [(zero_iff.1 h).1]; exact hx
    | succ k => exact le_of_succ h
  constructor
  · rintro ⟨⟨k, h⟩, hm⟩
    refine ⟨⟨⟨k, toWalk h⟩, fun k' c' h' => ?_⟩, hle h⟩
    rcases le_total c' x with h1 | h1
    · exact hm _ _ (hcap h' h1)
    · exact (hle h).trans h1
  · rintro ⟨⟨⟨k, h⟩, hm⟩, hdx⟩
    exact ⟨⟨k, hcap h hdx⟩, fun k' c' h' => hm _ _ (toWalk h')⟩

theorem nonneg_neg {V : Type*} {W : V → V → α → Prop} {x : α} {s v : V} {d : α}
    (hW : ∀ a b w, W a b w → 0 ≤ w) (hx : x < 0) : IsCapDist W x s d v ↔ v = s ∧ d = 0 := by
  have key : ∀ {k c u}, CapWalk W x k c s u → k = 0 ∧ c = 0 ∧ s = u := by
    intro k c u h
    induction h with
    | nil => exact ⟨rfl, rfl, rfl⟩
    | snoc _ e hle ih =>
      obtain ⟨-, rfl, -⟩ := ih
      rw [zero_add] at hle
      exact absurd (hW _ _ _ e) (not_le.2 (hle.trans_lt hx))
  constructor
  · rintro ⟨⟨k, h⟩, -⟩
    obtain ⟨-, rfl, rfl⟩ := key h
    exact ⟨rfl, rfl⟩
  · rintro ⟨rfl, rfl⟩
    exact ⟨⟨0, .nil _⟩, fun k c h => by rw [(key h).2.1]⟩

theorem nonneg_bounded (A : Mat n n α) (hA : Nonneg A) (s : Fin n) (x : α) : ¬ CapUnbounded (MW A) x s := by
  rintro ⟨v, ⟨m, c, hw⟩, hno⟩
  have hW : ∀ a b w, MW A a b w → 0 ≤ w := hA
  rcases le_or_gt 0 x with hx | hx
  · have hle : c ≤ x := by
      cases m with
      | zero => rw [(zero_iff.1 hw).1]; exact hx
      | succ m => exact le_of_succ hw
    obtain ⟨d, hd⟩ := exists_wdist_nonneg (mw_fin A) hW (toWalk hw)
    exact hno ⟨d, (nonneg_dist hW hx).2 ⟨hd, (hd.2 _ _ (toWalk hw)).trans hle⟩⟩
  · cases m with
    | zero =>
      obtain ⟨rfl, rfl⟩ := zero_iff.1 hw
      exact hno ⟨0, (nonneg_neg hW hx).2 ⟨rfl, rfl⟩⟩
    | succ m =>
      have h0 : ∀ {k c s u}, WWalk (MW A) k c s u → 0 ≤ c := by
        intro k c s u h
        clear hw hno
        induction h with
        | nil => exact le_rfl
        | snoc _ e ih => exact add_nonneg ih (hW _ _ _ e)
      exact absurd (h0 (toWalk hw)) (not_le.2 ((le_of_succ hw).trans_lt hx))

end core

end Proofs.Cap
