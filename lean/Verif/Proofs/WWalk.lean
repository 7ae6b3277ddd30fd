import Verif.Spec.WWalk
import Verif.Proofs.Walk
import Verif.GB.Lemmas
import Mathlib.Algebra.Order.Group.Defs
import Mathlib.Algebra.Order.BigOperators.Group.Finset
import Mathlib.Algebra.BigOperators.Intervals
import Mathlib.Data.Fintype.Pigeonhole
import Mathlib.Data.Set.Finite.Lattice
import Mathlib.Order.Preorder.Finite
import Mathlib.Tactic.Abel

/-! Facts about weighted walks. -/

namespace Spec
variable {V U α : Type*} {W : V → V → α → Prop}

/-- what is needed of the addition of weights: it preserves `≤` in its left argument, and adding a
non-negative weight does not decrease a value.  True in every ordered group, and of rounded addition. -/
class MonoAdd (α : Type*) [Zero α] [Add α] [LE α] : Prop where
  add_mono : ∀ {a b : α} (c : α), a ≤ b → a + c ≤ b + c
  le_add : ∀ (x : α) {a : α}, 0 ≤ a → x ≤ x + a

instance (priority := 100) [AddCommGroup α] [LinearOrder α] [IsOrderedAddMonoid α] : MonoAdd α where
  add_mono c h := add_le_add_left h c
  le_add _ _ h := le_add_of_nonneg_right h

section basic
variable [Zero α] [Add α]

theorem wwalk_zero {c : α} {u v : V} : WWalk W 0 c u v ↔ c = 0 ∧ u = v :=
  ⟨fun h => by cases h; exact ⟨rfl, rfl⟩, fun ⟨h, h'⟩ => h ▸ h' ▸ WWalk.nil u⟩

theorem wwalk_succ {k : Nat} {c : α} {u w : V} :
    WWalk W (k+1) c u w ↔ ∃ v c' a, WWalk W k c' u v ∧ W v w a ∧ c = c' + a :=
  ⟨fun h => by cases h with | snoc h e => exact ⟨_, _, _, h, e, rfl⟩,
   fun ⟨_, _, _, h, e, hc⟩ => hc ▸ WWalk.snoc h e⟩

theorem WWalk.walk {k : Nat} {c : α} {u v : V} (h : WWalk W k c u v) :
    Walk (fun x y => ∃ a, W x y a) k u v := by
  induction h with
  | nil => exact .nil _
  | snoc _ e ih => exact ih.snoc ⟨_, e⟩

theorem Walk.wwalk {k : Nat} {u v : V} (h : Walk (fun x y => ∃ a, W x y a) k u v) :
    ∃ c : α, WWalk W k c u v := by
  induction h with
  | nil => exact ⟨0, .nil _⟩
  | snoc _ e ih =>
    obtain ⟨c, hc⟩ := ih
    obtain ⟨a, ha⟩ := e
    exact ⟨_, hc.snoc ha⟩

theorem WWalk.mono {W' : V → V → α → Prop} (hW : ∀ x y a, W x y a → W' x y a) {k : Nat} {c : α}
    {u v : V} (h : WWalk W k c u v) : WWalk W' k c u v := by
  induction h with
  | nil => exact .nil _
  | snoc _ e ih => exact ih.snoc (hW _ _ _ e)

theorem wreach_iff {u v : V} : WReach W u v ↔ Reach (fun x y => ∃ a, W x y a) u v :=
  ⟨fun ⟨k, _, h⟩ => ⟨k, h.walk⟩, fun ⟨k, h⟩ => let ⟨c, hc⟩ := h.wwalk; ⟨k, c, hc⟩⟩

theorem WReach.refl (u : V) : WReach W u u := ⟨0, 0, .nil u⟩
/-! transport along a one-to-one correspondence -/

theorem wwalk_transport {W' : U → U → α → Prop} {R : V → U → Prop}
    (hl : ∀ v v' u, R v u → R v' u → v = v') (hr : ∀ v u u', R v u → R v u' → u = u')
    (hs : ∀ u, ∃ v, R v u)
    (hE : ∀ a b w, W a b w ↔ ∃ i j, R a i ∧ R b j ∧ W' i j w)
    {k : Nat} {c : α} {a b : V} {i j : U} (ha : R a i) (hb : R b j) :
    WWalk W k c a b ↔ WWalk W' k c i j := by
  induction k generalizing b j c with
  | zero =>
    rw [wwalk_zero, wwalk_zero]
    exact and_congr_right fun _ =>
      ⟨fun h => hr _ _ _ ha (h ▸ hb), fun h => hl _ _ _ ha (h ▸ hb)⟩
  | succ k ih =>
    rw [wwalk_succ, wwalk_succ]
    constructor
    · rintro ⟨c, d, w, hw, e, rfl⟩
      obtain ⟨x, y, hx, hy, e'⟩ := (hE _ _ _).1 e
      exact ⟨x, d, w, (ih hx).1 hw, hr _ _ _ hb hy ▸ e', rfl⟩
    · rintro ⟨x, d, w, hw, e, rfl⟩
      obtain ⟨y, hc⟩ := hs x
      exact ⟨y, d, w, (ih hc).2 hw, (hE _ _ _).2 ⟨x, j, hc, hb, e⟩, rfl⟩

end basic

section group
variable [AddCommGroup α]

theorem WWalk.append {a b : Nat} {c d : α} {u v w : V} (h : WWalk W a c u v)
    (h' : WWalk W b d v w) : WWalk W (a + b) (c + d) u w := by
  induction h' with
  | nil => simpa using h
  | snoc _ e ih => rw [← add_assoc c]; exact WWalk.snoc (ih h) e

theorem WWalk.single {u v : V} {a : α} (e : W u v a) : WWalk W 1 a u v := by
  have := (WWalk.nil (W := W) u).snoc e
  simpa using this

theorem WWalk.cons {k : Nat} {a c : α} {u v w : V} (e : W u v a) (h : WWalk W k c v w) :
    WWalk W (k+1) (a + c) u w := by
  have := (WWalk.single e).append h
  rwa [Nat.add_comm] at this

theorem WReach.trans {u v w : V} : WReach W u v → WReach W v w → WReach W u w :=
  fun ⟨a, c, h⟩ ⟨b, d, h'⟩ => ⟨a + b, c + d, h.append h'⟩

/-- vertex and weight sequences of a walk -/
theorem WWalk.seq {k : Nat} {c : α} {u v : V} (h : WWalk W k c u v) :
    ∃ (f : ℕ → V) (g : ℕ → α), f 0 = u ∧ f k = v ∧ (∀ i < k, W (f i) (f (i+1)) (g i)) ∧
      c = ∑ i ∈ Finset.range k, g i := by
  induction h with
  | nil u => exact ⟨fun _ => u, fun _ => 0, rfl, rfl, by simp, by simp⟩
  | @snoc k c a u v w _ e ih =>
    obtain ⟨f, g, h0, hk, hs, hc⟩ := ih
    refine ⟨fun i => if i ≤ k then f i else w, fun i => if i < k then g i else a, ?_, ?_, ?_, ?_⟩
    · simpa using h0
    · simp
    · intro i hi
      rcases Nat.lt_succ_iff_lt_or_eq.1 hi with hi | rfl
      · have h1 : i ≤ k := hi.le
        have h2 : i + 1 ≤ k := hi
        simp only [h1, h2, hi, if_true]
        exact hs i hi
      · simp only [le_refl, if_true, Nat.not_succ_le_self, if_false, lt_irrefl, hk]
        exact e
    · rw [Finset.sum_range_succ]
      simp only [lt_irrefl, if_false]
      rw [hc]
      congr 1
      apply Finset.sum_congr rfl
      intro i hi
      simp [Finset.mem_range.1 hi]

theorem wwalk_of_seq {f : ℕ → V} {g : ℕ → α} {a b : ℕ} (hab : a ≤ b)
    (hs : ∀ i, a ≤ i → i < b → W (f i) (f (i+1)) (g i)) :
    WWalk W (b - a) (∑ i ∈ Finset.Ico a b, g i) (f a) (f b) := by
  induction b, hab using Nat.le_induction with
  | base => simp only [Nat.sub_self, Finset.Ico_self, Finset.sum_empty]; exact .nil _
  | succ b hab ih =>
    rw [Nat.succ_sub hab, Finset.sum_Ico_succ_top hab]
    exact (ih fun i h1 h2 => hs i h1 (by omega)).snoc (hs b hab (by omega))

theorem WWalk.split {a b : Nat} {c : α} {u w : V} (h : WWalk W (a + b) c u w) :
    ∃ v c1 c2, WWalk W a c1 u v ∧ WWalk W b c2 v w ∧ c = c1 + c2 := by
  induction b generalizing w c with
  | zero => exact ⟨w, c, 0, h, .nil w, by simp⟩
  | succ b ih =>
    obtain ⟨x, c', y, hx, e, rfl⟩ := wwalk_succ.1 (show WWalk W ((a+b)+1) c u w from h)
    obtain ⟨v, c1, c2, h1, h2, rfl⟩ := ih hx
    exact ⟨v, c1, c2 + y, h1, h2.snoc e, by abel⟩

/-- pigeonhole: a walk with at least as many edges as nodes contains a closed walk -/
theorem WWalk.pigeon [Fintype V] {k : Nat} {c : α} {u v : V} (h : WWalk W k c u v)
    (hk : Fintype.card V ≤ k) :
    ∃ x a m b c1 c2 c3, a + m + b = k ∧ 0 < m ∧ WWalk W a c1 u x ∧ WWalk W m c2 x x ∧
      WWalk W b c3 x v ∧ c = c1 + c2 + c3 := by
  obtain ⟨f, g, h0, hk', hs, hc⟩ := h.seq
  obtain ⟨i, j, hij, hf⟩ : ∃ i j : Fin (k+1), i ≠ j ∧ f i = f j := by
    apply Fintype.exists_ne_map_eq_of_card_lt (fun i : Fin (k+1) => f i)
    simp; omega
  wlog hlt : i < j generalizing i j
  · exact this j i hij.symm hf.symm (by omega)
  have hj := j.2
  have hlt' : i.val < j.val := hlt
  refine ⟨f i, i, j - i, k - j, ∑ t ∈ Finset.Ico 0 i.val, g t, ∑ t ∈ Finset.Ico i.val j.val, g t,
    ∑ t ∈ Finset.Ico j.val k, g t, by omega, by omega, ?_, ?_, ?_, ?_⟩
  · have := wwalk_of_seq (W := W) (f := f) (g := g) (a := 0) (b := i) (by omega)
      fun t _ h2 => hs t (by omega)
    rwa [h0, Nat.sub_zero] at this
  · have := wwalk_of_seq (W := W) (f := f) (g := g) (a := i) (b := j) (by omega)
      fun t _ h2 => hs t (by omega)
    rwa [← hf] at this
  · have := wwalk_of_seq (W := W) (f := f) (g := g) (a := j) (b := k) (by omega)
      fun t _ h2 => hs t (by omega)
    rwa [hk', ← hf] at this
  · rw [hc, Finset.sum_Ico_consecutive _ (by omega) (by omega),
      Finset.sum_Ico_consecutive _ (by omega) (by omega), Finset.range_eq_Ico]

end group

section order
variable [Zero α] [Add α] [LinearOrder α]

/-- a walk from `S` to `v` with at most `k` edges and weight `c` -/
def LeW (W : V → V → α → Prop) (S : V → Prop) (k : Nat) (c : α) (v : V) : Prop :=
  ∃ m, m ≤ k ∧ ∃ s, S s ∧ WWalk W m c s v

/-- minimum weight over walks from `S` to `v` with at most `k` edges -/
def Best (W : V → V → α → Prop) (S : V → Prop) (k : Nat) (c : α) (v : V) : Prop :=
  LeW W S k c v ∧ ∀ c', LeW W S k c' v → c ≤ c'

variable {S : V → Prop}

theorem LeW.mono {k k' : Nat} (h : k ≤ k') {c : α} {v : V} : LeW W S k c v → LeW W S k' c v :=
  fun ⟨m, hm, r⟩ => ⟨m, hm.trans h, r⟩

theorem LeW.snoc {k : Nat} {c a : α} {v w : V} (h : LeW W S k c v) (e : W v w a) :
    LeW W S (k+1) (c + a) w := by
  obtain ⟨m, hm, s, hs, hw⟩ := h
  exact ⟨m+1, by omega, s, hs, hw.snoc e⟩

theorem leW_zero {c : α} {v : V} : LeW W S 0 c v ↔ S v ∧ c = 0 := by
  constructor
  · rintro ⟨m, hm, s, hs, hw⟩
    obtain rfl : m = 0 := by omega
    obtain ⟨rfl, rfl⟩ := wwalk_zero.1 hw
    exact ⟨hs, rfl⟩
  · rintro ⟨hs, rfl⟩; exact ⟨0, le_rfl, v, hs, .nil v⟩

theorem leW_succ {k : Nat} {c : α} {v : V} :
    LeW W S (k+1) c v ↔ LeW W S k c v ∨ ∃ u c' a, LeW W S k c' u ∧ W u v a ∧ c = c' + a := by
  constructor
  · rintro ⟨m, hm, s, hs, hw⟩
    rcases Nat.lt_or_ge k m with hlt | hge
    · obtain rfl : m = k + 1 := by omega
      obtain ⟨u, c', a, h1, h2, h3⟩ := wwalk_succ.1 hw
      exact Or.inr ⟨u, c', a, ⟨k, le_rfl, s, hs, h1⟩, h2, h3⟩
    · exact Or.inl ⟨m, hge, s, hs, hw⟩
  · rintro (h | ⟨u, c', a, h, e, rfl⟩)
    · exact h.mono (by omega)
    · exact h.snoc e

theorem Best.unique {k : Nat} {c c' : α} {v : V} (h : Best W S k c v) (h' : Best W S k c' v) :
    c = c' := le_antisymm (h.2 _ h'.1) (h'.2 _ h.1)

theorem best_exists [Finite V] (hfin : ∀ u v, {a | W u v a}.Finite) {k : Nat} {c : α} {v : V}
    (h : LeW W S k c v) : ∃ b, b ≤ c ∧ Best W S k b v := by
  have hf : ∀ k v, {c | LeW W S k c v}.Finite := by
    intro k
    induction k with
    | zero =>
      intro v
      refine (Set.finite_singleton (0:α)).subset ?_
      intro c hc
      exact (leW_zero.1 hc).2
    | succ k ih =>
      intro v
      have : {c | LeW W S (k+1) c v} ⊆ {c | LeW W S k c v} ∪
          ⋃ u, (fun p : α × α => p.1 + p.2) '' ({c | LeW W S k c u} ×ˢ {a | W u v a}) := by
        intro c hc
        rcases leW_succ.1 hc with h | ⟨u, c', a, h1, h2, rfl⟩
        · exact Or.inl h
        · exact Or.inr (Set.mem_iUnion.2 ⟨u, (c', a), ⟨h1, h2⟩, rfl⟩)
      refine Set.Finite.subset ((ih v).union (Set.finite_iUnion fun u => ?_)) this
      exact (((ih u).prod (hfin u v)).image _)
  obtain ⟨b, hb, hb'⟩ := ((hf k v).inter_of_left {x | x ≤ c}).exists_minimal ⟨c, h, le_rfl⟩
  refine ⟨b, hb.2, hb.1, fun c' hc' => ?_⟩
  rcases le_total c' c with h1 | h1
  · rcases le_total b c' with h2 | h2
    · exact h2
    · exact hb' ⟨hc', h1⟩ h2
  · exact hb.2.trans h1

/-- no negative cycle in reach of `S` -/
def NoNeg (W : V → V → α → Prop) (S : V → Prop) : Prop :=
  ∀ s x, S s → WReach W s x → ¬ NegCycleAt W x

/-- nothing improves from `k` to `k+1` edges -/
def Stable (W : V → V → α → Prop) (S : V → Prop) (k : Nat) : Prop :=
  ∀ c v, LeW W S (k+1) c v → ∃ c', c' ≤ c ∧ LeW W S k c' v

theorem Stable.all [MonoAdd α] {k : Nat} (h : Stable W S k) {m : Nat} {c : α} {v : V}
    (hw : LeW W S m c v) : ∃ c', c' ≤ c ∧ LeW W S k c' v := by
  induction m generalizing c v with
  | zero => exact ⟨c, le_rfl, hw.mono (Nat.zero_le _)⟩
  | succ m ih =>
    rcases leW_succ.1 hw with hw | ⟨u, c', a, h1, e, rfl⟩
    · exact ih hw
    · obtain ⟨d, hd, hd'⟩ := ih h1
      obtain ⟨f, hf, hf'⟩ := h _ _ (hd'.snoc e)
      exact ⟨f, hf.trans (MonoAdd.add_mono _ hd), hf'⟩

/-! ### self-loops -/

def WOffLoop (W : V → V → α → Prop) : V → V → α → Prop := fun u v a => u ≠ v ∧ W u v a

theorem WWalk.of_offLoop {k : Nat} {c : α} {u v : V} (h : WWalk (WOffLoop W) k c u v) :
    WWalk W k c u v := h.mono fun _ _ _ h => h.2

/-- dropping non-negative self-loops does not increase the weight -/
theorem WWalk.offLoop [MonoAdd α] {k : Nat} {c : α} {u v : V} (h : WWalk W k c u v)
    (hloop : ∀ x a, WReach W u x → W x x a → 0 ≤ a) :
    ∃ m c', m ≤ k ∧ c' ≤ c ∧ WWalk (WOffLoop W) m c' u v := by
  induction h with
  | nil => exact ⟨0, 0, le_rfl, le_rfl, .nil _⟩
  | @snoc k c a u v w hw e ih =>
    obtain ⟨m, c', h1, h2, h3⟩ := ih hloop
    by_cases hvw : v = w
    · subst hvw
      exact ⟨m, c', by omega, h2.trans (MonoAdd.le_add _ (hloop v a ⟨_, _, hw⟩ e)), h3⟩
    · exact ⟨m+1, c' + a, by omega, MonoAdd.add_mono _ h2, h3.snoc ⟨hvw, e⟩⟩

theorem wreach_offLoop {u v : V} : WReach (WOffLoop W) u v ↔ WReach W u v := by
  constructor
  · rintro ⟨k, c, h⟩; exact ⟨k, c, h.of_offLoop⟩
  · rintro ⟨k, c, h⟩
    induction h with
    | nil => exact .refl _
    | @snoc k c a u v w hw e ih =>
      by_cases hvw : v = w
      · exact hvw ▸ ih
      · obtain ⟨m, d, h⟩ := ih
        exact ⟨_, _, h.snoc ⟨hvw, e⟩⟩

theorem isWDist_offLoop [MonoAdd α] {u v : V} (hloop : ∀ x a, WReach W u x → W x x a → 0 ≤ a) {d : α} :
    IsWDist (WOffLoop W) u d v ↔ IsWDist W u d v := by
  constructor
  · rintro ⟨⟨k, h⟩, hm⟩
    refine ⟨⟨k, h.of_offLoop⟩, fun m c hw => ?_⟩
    obtain ⟨m', c', -, h2, h3⟩ := hw.offLoop hloop
    exact (hm _ _ h3).trans h2
  · rintro ⟨⟨k, h⟩, hm⟩
    obtain ⟨m', c', -, h2, h3⟩ := h.offLoop hloop
    have := hm _ _ h3.of_offLoop
    obtain rfl := le_antisymm h2 this
    exact ⟨⟨_, h3⟩, fun m c hw => hm _ _ hw.of_offLoop⟩

theorem noNeg_single {s : V} : NoNeg W (· = s) ↔ ¬ NegCycleFrom W s := by
  constructor
  · rintro h ⟨x, hr, hn⟩; exact h s x rfl hr hn
  · rintro h s' x rfl hr hn; exact h ⟨x, hr, hn⟩

/-! ### walks that visit no vertex twice -/

/-- a walk from `u` to `v` of weight `c`, with the vertices it visits (last one first), all distinct -/
inductive SWalk (W : V → V → α → Prop) : List V → α → V → V → Prop
  | nil (u : V) : SWalk W [u] 0 u u
  | snoc {l : List V} {c a : α} {u v w : V} :
      SWalk W l c u v → W v w a → w ∉ l → SWalk W (w :: l) (c + a) u w

theorem SWalk.nodup {l : List V} {c : α} {u v : V} (h : SWalk W l c u v) : l.Nodup := by
  induction h with
  | nil => simp
  | snoc _ _ hn ih => exact List.nodup_cons.2 ⟨hn, ih⟩

theorem SWalk.wwalk {l : List V} {c : α} {u v : V} (h : SWalk W l c u v) :
    ∃ k, l.length = k + 1 ∧ WWalk W k c u v := by
  induction h with
  | nil u => exact ⟨0, rfl, .nil u⟩
  | snoc _ e _ ih =>
    obtain ⟨k, h1, h2⟩ := ih
    exact ⟨k + 1, by simp [h1], h2.snoc e⟩

theorem SWalk.to [MonoAdd α] (hW : ∀ x y a, W x y a → 0 ≤ a) {l : List V} {c : α} {u v : V}
    (h : SWalk W l c u v) {x : V} (hx : x ∈ l) :
    ∃ l' c', l'.length ≤ l.length ∧ c' ≤ c ∧ SWalk W l' c' u x := by
  induction h with
  | nil u => obtain rfl := List.mem_singleton.1 hx; exact ⟨[x], 0, le_rfl, le_rfl, .nil x⟩
  | @snoc l c a u v w hw e hn ih =>
    rcases List.mem_cons.1 hx with rfl | hx
    · exact ⟨_, _, le_rfl, le_rfl, hw.snoc e hn⟩
    · obtain ⟨l', c', h1, h2, h3⟩ := ih hx
      exact ⟨l', c', h1.trans (by simp), h2.trans (MonoAdd.le_add _ (hW _ _ _ e)), h3⟩

theorem WWalk.simple [MonoAdd α] (hW : ∀ x y a, W x y a → 0 ≤ a) {k : Nat} {c : α} {u v : V}
    (h : WWalk W k c u v) : ∃ l c', l.length ≤ k + 1 ∧ c' ≤ c ∧ SWalk W l c' u v := by
  induction h with
  | nil u => exact ⟨[u], 0, le_rfl, le_rfl, .nil u⟩
  | @snoc k c a u v w hw e ih =>
    obtain ⟨l, c', h1, h2, h3⟩ := ih
    by_cases hn : w ∈ l
    · obtain ⟨l', c'', h4, h5, h6⟩ := h3.to hW hn
      exact ⟨l', c'', by omega, (h5.trans h2).trans (MonoAdd.le_add _ (hW _ _ _ e)), h6⟩
    · exact ⟨w :: l, c' + a, by simpa using h1, MonoAdd.add_mono _ h2, h3.snoc e hn⟩

/-- with non-negative weights short walks suffice -/
theorem shorten_nonneg [MonoAdd α] [Fintype V] (hW : ∀ x y a, W x y a → 0 ≤ a) {k : Nat} {c : α}
    {u v : V} (h : WWalk W k c u v) :
    ∃ k' c', k' < Fintype.card V ∧ k' ≤ k ∧ c' ≤ c ∧ WWalk W k' c' u v := by
  obtain ⟨l, c', h1, h2, h3⟩ := h.simple hW
  obtain ⟨k', h4, h5⟩ := h3.wwalk
  have := h3.nodup.length_le_card
  exact ⟨k', c', by omega, by omega, h2, h5⟩

theorem stable_nonneg [MonoAdd α] [Fintype V] (hW : ∀ x y a, W x y a → 0 ≤ a) {k : Nat}
    (hk : Fintype.card V ≤ k + 1) : Stable W S k := by
  rintro c v ⟨m, hm, s, hs, hw⟩
  obtain ⟨k', c', h1, h2, h3, h4⟩ := shorten_nonneg hW hw
  exact ⟨c', h3, k', by omega, s, hs, h4⟩

theorem exists_wdist_nonneg [MonoAdd α] [Fintype V] (hfin : ∀ u v, {a | W u v a}.Finite)
    (hW : ∀ x y a, W x y a → 0 ≤ a) {k : Nat} {c : α} {u v : V} (h : WWalk W k c u v) :
    ∃ d, IsWDist W u d v := by
  have key : ∀ {k c}, WWalk W k c u v → ∃ c', c' ≤ c ∧ LeW W (· = u) (Fintype.card V - 1) c' v := by
    intro k c h
    obtain ⟨k', c', h1, -, h3, h4⟩ := shorten_nonneg hW h
    exact ⟨c', h3, k', by omega, u, rfl, h4⟩
  obtain ⟨c', -, h1⟩ := key h
  obtain ⟨b, -, hb⟩ := best_exists hfin h1
  obtain ⟨m, -, _, rfl, hm⟩ := id hb.1
  refine ⟨b, ⟨m, hm⟩, fun k c hw => ?_⟩
  obtain ⟨c'', h2, h3⟩ := key hw
  exact (hb.2 _ h3).trans h2

end order

section orderedGroup
variable [AddCommGroup α] [LinearOrder α] [IsOrderedAddMonoid α] {S : V → Prop}

theorem noNeg_cycle (h : NoNeg W S) {s x : V} (hs : S s) (hr : WReach W s x) {k : Nat} {c : α}
    (hw : WWalk W k c x x) : 0 ≤ c := by
  by_contra hc
  exact h s x hs hr ⟨k, c, hw, not_le.1 hc⟩

/-- without negative cycles, short walks suffice -/
theorem shorten [Fintype V] (h : NoNeg W S) {s v : V} (hs : S s) {k : Nat} {c : α}
    (hw : WWalk W k c s v) :
    ∃ k' c', k' < Fintype.card V ∧ k' ≤ k ∧ c' ≤ c ∧ WWalk W k' c' s v := by
  induction k using Nat.strong_induction_on generalizing c with
  | _ k ih =>
    rcases Nat.lt_or_ge k (Fintype.card V) with hlt | hge
    · exact ⟨k, c, hlt, le_rfl, le_rfl, hw⟩
    · obtain ⟨x, a, m, b, c1, c2, c3, hsum, hm, h1, h2, h3, rfl⟩ := hw.pigeon hge
      have hc2 : 0 ≤ c2 := noNeg_cycle h hs ⟨a, c1, h1⟩ h2
      obtain ⟨k', c', ha, hb, hc, hd⟩ := ih (a + b) (by omega) (h1.append h3)
      refine ⟨k', c', ha, by omega, hc.trans ?_, hd⟩
      have : c1 + c3 ≤ c1 + c2 + c3 := by
        rw [add_assoc, add_comm c2, ← add_assoc]
        exact le_add_of_nonneg_right hc2
      exact this

/-- a stable stage excludes reachable negative cycles -/
theorem Stable.noNeg [Finite V] (hfin : ∀ u v, {a | W u v a}.Finite) {k : Nat}
    (h : Stable W S k) : NoNeg W S := by
  rintro s x hs ⟨m, c, hw⟩ ⟨l, d, hd, hneg⟩
  obtain ⟨b, -, hb⟩ := best_exists hfin (S := S) (k := k)
    (h.all (m := m) ⟨m, le_rfl, s, hs, hw⟩).choose_spec.2
  obtain ⟨m', -, s', hs', hw'⟩ := hb.1
  obtain ⟨f, hf, hf'⟩ := h.all (m := m' + l) ⟨m' + l, le_rfl, s', hs', hw'.append hd⟩
  have := (hb.2 _ hf').trans hf
  exact absurd this (not_le.2 (add_lt_of_neg_right b hneg))

/-- without negative cycles, stage `card - 1` is stable -/
theorem NoNeg.stable [Fintype V] (h : NoNeg W S) {k : Nat} (hk : Fintype.card V ≤ k + 1) :
    Stable W S k := by
  rintro c v ⟨m, hm, s, hs, hw⟩
  obtain ⟨k', c', h1, h2, h3, h4⟩ := shorten h hs hw
  exact ⟨c', h3, k', by omega, s, hs, h4⟩

/-- an improvement at stage `card` shows a negative cycle in reach of `S` that reaches `v` -/
theorem improve_neg [Fintype V] {k : Nat} (hk : Fintype.card V ≤ k + 1) {c : α} {v : V}
    (hw : LeW W S (k+1) c v) (hno : ∀ c', LeW W S k c' v → c < c') :
    ∃ s x, S s ∧ WReach W s x ∧ NegCycleAt W x ∧ WReach W x v := by
  obtain ⟨m, hm, s, hs, hw⟩ := hw
  rcases Nat.lt_or_ge k m with hlt | hge
  · obtain rfl : m = k + 1 := by omega
    obtain ⟨x, a, m, b, c1, c2, c3, hsum, hm', h1, h2, h3, rfl⟩ := hw.pigeon hk
    refine ⟨s, x, hs, ⟨a, c1, h1⟩, ⟨m, c2, h2, ?_⟩, ⟨b, c3, h3⟩⟩
    have := hno (c1 + c3) ⟨a + b, by omega, s, hs, h1.append h3⟩
    rw [add_assoc, add_comm c2, ← add_assoc] at this
    exact (add_lt_iff_neg_left (a := c1 + c3)).1 this
  · exact absurd (hno c ⟨m, hge, s, hs, hw⟩) (lt_irrefl _)

/-- a negative cycle through `x`: a negative self-loop in reach, or one without self-loops -/
theorem negCycleFrom_iff {u : V} : NegCycleFrom W u ↔
    (∃ x a, WReach W u x ∧ W x x a ∧ a < 0) ∨ NegCycleFrom (WOffLoop W) u := by
  constructor
  · rintro ⟨x, hr, k, c, hw, hc⟩
    by_cases hl : ∀ y a, WReach W u y → W y y a → 0 ≤ a
    · right
      obtain ⟨m, c', -, h2, h3⟩ := hw.offLoop fun y a hy => hl y a (hr.trans hy)
      exact ⟨x, wreach_offLoop.2 hr, m, c', h3, h2.trans_lt hc⟩
    · push Not at hl
      exact Or.inl (by obtain ⟨y, a, h1, h2, h3⟩ := hl; exact ⟨y, a, h1, h2, h3⟩)
  · rintro (⟨x, a, hr, e, ha⟩ | ⟨x, hr, k, c, hw, hc⟩)
    · exact ⟨x, hr, 1, a, .single e, ha⟩
    · exact ⟨x, wreach_offLoop.1 hr, k, c, hw.of_offLoop, hc⟩

end orderedGroup
end Spec
