import Verif.Spec.FloatRank
import Verif.Proofs.PageRank
import Mathlib.Tactic.Linarith
import Mathlib.Tactic.Positivity
import Mathlib.Algebra.Order.Ring.Abs
import Mathlib.Algebra.Order.BigOperators.Ring.Finset

/-! Error analysis of `pagerank` with rounding (C127). -/

open GB Spec Model Model.Graph Proofs Proofs.Power

namespace Proofs.Fr

variable {K F : Type} [Field F] [LinearOrder F] [IsStrictOrderedRing F] {g : F}

/-- `y` is `z` up to `k` factors `g` and an absolute error `t` -/
def Near (g : F) (k : Nat) (t y z : F) : Prop := y ≤ g ^ k * z + t ∧ z ≤ g ^ k * (y + t)

theorem near_refl (z : F) : Near g 0 0 z z := by simp [Near]

theorem near_trans (hg : 1 ≤ g) {k l : Nat} {s t x y z : F} (ht : 0 ≤ t)
    (h1 : Near g k s x y) (h2 : Near g l t y z) : Near g (k + l) (s + g ^ k * t) x z := by
  have hk : 1 ≤ g ^ k := one_le_pow₀ hg
  have hl : 1 ≤ g ^ l := one_le_pow₀ hg
  have hk0 : 0 ≤ g ^ k := by linarith
  have hl0 : 0 ≤ g ^ l := by linarith
  obtain ⟨a1, a2⟩ := h1
  obtain ⟨b1, b2⟩ := h2
  constructor
  · have := mul_le_mul_of_nonneg_left b1 hk0
    rw [pow_add]; linarith
  · have e1 : g ^ l * (y + t) ≤ g ^ l * (g ^ k * (x + s) + t) :=
      mul_le_mul_of_nonneg_left (by linarith) hl0
    have e2 : t ≤ g ^ k * (g ^ k * t) := by
      have : t ≤ g ^ k * t := le_mul_of_one_le_left ht hk
      exact this.trans (mul_le_mul_of_nonneg_left this hk0)
    have e3 : g ^ l * (g ^ k * (x + s) + t) ≤ g ^ l * (g ^ k * (x + s) + g ^ k * (g ^ k * t)) :=
      mul_le_mul_of_nonneg_left (by linarith) hl0
    calc z ≤ _ := b2
      _ ≤ _ := e1
      _ ≤ _ := e3
      _ = _ := by rw [pow_add]; ring

theorem near_weaken (hg : 1 ≤ g) {k l : Nat} {s t y z : F} (hkl : k ≤ l) (hst : s ≤ t) (hz : 0 ≤ z)
    (hy : 0 ≤ y) (hs : 0 ≤ s) (h : Near g k s y z) : Near g l t y z := by
  have hp : g ^ k ≤ g ^ l := pow_le_pow_right₀ hg hkl
  have hk0 : 0 ≤ g ^ k := by have := one_le_pow₀ hg (n := k); linarith
  have hl0 : 0 ≤ g ^ l := by linarith
  obtain ⟨a, b⟩ := h
  constructor
  · have := mul_le_mul_of_nonneg_right hp hz
    linarith
  · calc z ≤ g ^ k * (y + s) := b
      _ ≤ g ^ l * (y + s) := mul_le_mul_of_nonneg_right hp (by linarith)
      _ ≤ _ := mul_le_mul_of_nonneg_left (by linarith) hl0

theorem near_add {k : Nat} {s t x y z w : F} (h1 : Near g k s x z) (h2 : Near g k t y w) :
    Near g k (s + t) (x + y) (z + w) := by
  obtain ⟨a1, a2⟩ := h1
  obtain ⟨b1, b2⟩ := h2
  exact ⟨by linarith [mul_add (g ^ k) z w], by
    have : g ^ k * (x + y + (s + t)) = g ^ k * (x + s) + g ^ k * (y + t) := by ring
    linarith⟩

theorem near_sum {ι : Type} (I : Finset ι) {k : Nat} {t y z : ι → F} (h : ∀ i ∈ I, Near g k (t i) (y i) (z i)) :
    Near g k (∑ i ∈ I, t i) (∑ i ∈ I, y i) (∑ i ∈ I, z i) := by
  constructor
  · rw [Finset.mul_sum, ← Finset.sum_add_distrib]
    exact Finset.sum_le_sum fun i hi => (h i hi).1
  · rw [← Finset.sum_add_distrib, Finset.mul_sum]
    exact Finset.sum_le_sum fun i hi => (h i hi).2

theorem near_mul (hg : 1 ≤ g) {k l : Nat} {t x y z w : F} (h1 : Near g k t x z) (h2 : Near g l 0 y w)
    (hx : 0 ≤ x) (hy : 0 ≤ y) (hz : 0 ≤ z) (hw : 0 ≤ w) (ht : 0 ≤ t) : Near g (k + l) (t * y) (x * y) (z * w) := by
  have hk0 : 0 ≤ g ^ k := by have := one_le_pow₀ hg (n := k); linarith
  obtain ⟨a1, a2⟩ := h1
  obtain ⟨b1, b2⟩ := h2
  rw [add_zero] at b1 b2
  constructor
  · calc x * y ≤ (g ^ k * z + t) * y := mul_le_mul_of_nonneg_right a1 hy
      _ = g ^ k * z * y + t * y := by ring
      _ ≤ g ^ k * z * (g ^ l * w) + t * y := by
        have := mul_le_mul_of_nonneg_left b1 (mul_nonneg hk0 hz)
        linarith
      _ = _ := by rw [pow_add]; ring
  · calc z * w ≤ g ^ k * (x + t) * w := mul_le_mul_of_nonneg_right a2 hw
      _ ≤ g ^ k * (x + t) * (g ^ l * y) :=
        mul_le_mul_of_nonneg_left b2 (mul_nonneg hk0 (by linarith))
      _ = _ := by rw [pow_add]; ring

theorem near_div {k : Nat} {a x z : F} (h : Near g k 0 x z) (ha : 0 ≤ a) (hx : 0 < x) (hz : 0 < z) :
    Near g k 0 (a / x) (a / z) := by
  obtain ⟨h1, h2⟩ := h
  rw [add_zero] at h1 h2
  constructor
  · rw [add_zero, ← mul_div_assoc, div_le_div_iff₀ hx hz]
    calc a * z ≤ a * (g ^ k * x) := mul_le_mul_of_nonneg_left h2 ha
      _ = _ := by ring
  · rw [add_zero, ← mul_div_assoc, div_le_div_iff₀ hz hx]
    calc a * x ≤ a * (g ^ k * z) := mul_le_mul_of_nonneg_left h1 ha
      _ = _ := by ring

theorem near_dist (hg : 1 ≤ g) {k : Nat} {t y z : F} (hz : 0 ≤ z) (h : Near g k t y z) :
    |y - z| ≤ (g ^ k - 1) * z + t := by
  obtain ⟨h1, h2⟩ := h
  have hk : 1 ≤ g ^ k := one_le_pow₀ hg
  rw [abs_le]
  constructor
  · by_contra hc
    rw [not_le] at hc
    have hyt : y + t < z - (g ^ k - 1) * z := by linarith
    have h3 : g ^ k * (y + t) < g ^ k * (z - (g ^ k - 1) * z) := by
      exact mul_lt_mul_of_pos_left hyt (by linarith)
    have h4 : g ^ k * (z - (g ^ k - 1) * z) ≤ z := by
      have : z - g ^ k * (z - (g ^ k - 1) * z) = (g ^ k - 1) ^ 2 * z := by ring
      have h5 : 0 ≤ (g ^ k - 1) ^ 2 * z := mul_nonneg (sq_nonneg _) hz
      linarith
    linarith
  · linarith

/-! ### rounded operations -/

variable {o : Arith F} {Rep : F → Prop} {u η : F} (R : Rounded o Rep u η)

include R

theorem one_le_growth : 1 ≤ growth u := by
  have h1 := R.u1
  have h0 := R.u0
  unfold growth
  rw [le_div_iff₀ (by linarith)]
  linarith

/-- an operation with relative error `u` and absolute error `t` -/
theorem near_of_err {t y z : F} (hz : 0 ≤ z) (ht : 0 ≤ t) (h : |y - z| ≤ u * z + t) : Near (growth u) 1 t y z := by
  have h1 := R.u1
  have h0 := R.u0
  obtain ⟨ha, hb⟩ := abs_le.1 h
  have hs : 0 < 1 - u := by linarith
  have hgs : growth u * (1 - u) = 1 := by unfold growth; field_simp
  have hg := one_le_growth R
  have hg1 : 1 + u ≤ growth u := by
    unfold growth
    rw [le_div_iff₀ hs]
    nlinarith
  refine ⟨?_, ?_⟩
  · have := mul_le_mul_of_nonneg_right hg1 hz
    rw [pow_one]; linarith
  · have : (1 - u) * z ≤ y + t := by linarith
    have := mul_le_mul_of_nonneg_left this (by linarith : 0 ≤ growth u)
    rw [← mul_assoc, hgs, one_mul] at this
    rwa [pow_one]

theorem add_near {x y : F} (hx : Rep x) (hy : Rep y) (hx0 : 0 ≤ x) (hy0 : 0 ≤ y) :
    Rep (o.add x y) ∧ 0 ≤ o.add x y ∧ Near (growth u) 1 0 (o.add x y) (x + y) := by
  obtain ⟨h1, h2⟩ := R.add x y hx hy hx0 hy0
  refine ⟨h1, ?_, near_of_err R (by linarith) le_rfl (by linarith)⟩
  have := (abs_le.1 h2).1
  have h3 : u * (x + y) ≤ 1 * (x + y) := mul_le_mul_of_nonneg_right R.u1.le (by linarith)
  linarith

theorem mul_near {x y : F} (hx : Rep x) (hy : Rep y) (hx0 : 0 ≤ x) (hy0 : 0 ≤ y) :
    Rep (o.mul x y) ∧ 0 ≤ o.mul x y ∧ Near (growth u) 1 η (o.mul x y) (x * y) := by
  obtain ⟨h1, h2, h3⟩ := R.mul x y hx hy hx0 hy0
  exact ⟨h1, h2, near_of_err R (mul_nonneg hx0 hy0) R.eta0 h3⟩

theorem div_near {x y : F} (hx : Rep x) (hy : Rep y) (hx0 : 0 ≤ x) (hy0 : 0 < y) :
    Rep (o.div x y) ∧ 0 ≤ o.div x y ∧ Near (growth u) 1 η (o.div x y) (x / y) := by
  obtain ⟨h1, h2, h3⟩ := R.div x y hx hy hx0 hy0
  exact ⟨h1, h2, near_of_err R (div_nonneg hx0 hy0.le) R.eta0 h3⟩

theorem nat_near (k : Nat) : Rep (o.nat k) ∧ 0 ≤ o.nat k ∧ Near (growth u) 1 0 (o.nat k) k := by
  obtain ⟨h1, h2, h3⟩ := R.nat k
  exact ⟨h1, h2, near_of_err R (Nat.cast_nonneg k) le_rfl (by linarith)⟩

theorem sub_near {x y : F} (hx : Rep x) (hy : Rep y) (hx0 : 0 ≤ x) (hy0 : 0 ≤ y) :
    Rep (o.abs (o.sub x y)) ∧ Near (growth u) 1 0 (o.abs (o.sub x y)) |x - y| := by
  obtain ⟨h1, -, h2⟩ := R.sub x y hx hy hx0 hy0
  refine ⟨h1, near_of_err R (abs_nonneg _) le_rfl ?_⟩
  rw [R.abs, add_zero]
  exact (abs_abs_sub_abs_le_abs_sub _ _).trans h2

omit [IsStrictOrderedRing F] in
omit R in
theorem treeSum_length {l : List F} {s : F} {add : F → F → F} (h : TreeSum add l s) : 1 ≤ l.length := by
  induction h with
  | one => simp
  | add _ _ ih1 ih2 => simp; omega
  | perm hp _ ih => rwa [← hp.length_eq]

theorem treeSum_near {l : List F} {s : F} (h : TreeSum o.add l s) (hl : ∀ x ∈ l, Rep x ∧ 0 ≤ x) :
    Rep s ∧ 0 ≤ s ∧ ∀ k, l.length ≤ k + 1 → Near (growth u) k 0 s l.sum := by
  have hg := one_le_growth R
  induction h with
  | one a =>
    obtain ⟨h1, h2⟩ := hl a (by simp)
    refine ⟨h1, h2, fun k _ => ?_⟩
    simp only [List.sum_cons, List.sum_nil, add_zero]
    exact near_weaken hg (Nat.zero_le k) le_rfl h2 h2 le_rfl (near_refl a)
  | @add l m s t hs ht ih1 ih2 =>
    obtain ⟨a1, a2, a3⟩ := ih1 fun x hx => hl x (by simp [hx])
    obtain ⟨b1, b2, b3⟩ := ih2 fun x hx => hl x (by simp [hx])
    obtain ⟨c1, c2, c3⟩ := add_near R a1 b1 a2 b2
    refine ⟨c1, c2, fun k hk => ?_⟩
    have hs' := treeSum_length hs
    have ht' := treeSum_length ht
    rw [List.length_append] at hk
    obtain ⟨k, rfl⟩ : ∃ k', k = 1 + k' := ⟨k - 1, by omega⟩
    have := near_trans hg (by norm_num) c3 (near_add (a3 k (by omega)) (b3 k (by omega)))
    simpa using this
  | @perm l m s hp _ ih =>
    obtain ⟨a1, a2, a3⟩ := ih fun x hx => hl x (hp.mem_iff.1 hx)
    refine ⟨a1, a2, fun k hk => ?_⟩
    rw [← hp.sum_eq]
    exact a3 k (by rw [hp.length_eq]; exact hk)

/-- all stored values are representable and not negative -/
def Good (Rep : F → Prop) {n : Nat} (v : Vec n F) : Prop := ∀ i a, v i = some a → Rep a ∧ 0 ≤ a

omit R in
theorem Good.val {n : Nat} {v : Vec n F} (h : Good Rep v) (i : Fin n) : 0 ≤ (v i).getD 0 := by
  cases hv : v i with
  | none => simp
  | some a => simpa using (h i a hv).2

omit [LinearOrder F] [IsStrictOrderedRing F] R in
theorem entries_sum {n : Nat} (v : Vec n F) : (Model.Fr.entries v).sum = ∑ i, (v i).getD 0 := by
  rw [Fin.sum_univ_def]
  unfold Model.Fr.entries
  generalize List.finRange n = l
  induction l with
  | nil => rfl
  | cons i l ih => cases hv : v i <;> simp [hv, ih]

omit [IsStrictOrderedRing F] [LinearOrder F] [Field F] R in
theorem entries_nil {n : Nat} (v : Vec n F) : Model.Fr.entries v = [] ↔ ∀ i, v i = none := by
  unfold Model.Fr.entries
  simp [List.filterMap_eq_nil_iff]

omit [IsStrictOrderedRing F] [LinearOrder F] [Field F] R in
theorem entries_length {n : Nat} (v : Vec n F) : (Model.Fr.entries v).length ≤ n := by
  unfold Model.Fr.entries
  exact (List.length_filterMap_le _ _).trans (by simp)

omit [IsStrictOrderedRing F] [LinearOrder F] [Field F] R in
theorem fsum_isSome {n : Nat} (o : Arith F) (v : Vec n F) :
    (Model.Fr.fsum o v).isSome = true ↔ ∃ i, (v i).isSome = true := by
  unfold Model.Fr.fsum
  by_cases h : Model.Fr.entries v = []
  · rw [if_pos h]
    have := (entries_nil v).1 h
    simp [this]
  · rw [if_neg h]
    rw [entries_nil] at h
    push Not at h
    simpa [Option.isSome_iff_ne_none] using h

/-- a sum of stored values -/
theorem fsum_near {n : Nat} {v : Vec n F} (hv : Good Rep v) :
    (∀ a, Model.Fr.fsum o v = some a → Rep a ∧ 0 ≤ a) ∧
    Near (growth u) n 0 ((Model.Fr.fsum o v).getD 0) (∑ i, (v i).getD 0) := by
  have hg := one_le_growth R
  rw [← entries_sum]
  unfold Model.Fr.fsum
  by_cases h : Model.Fr.entries v = []
  · rw [if_pos h, h]
    simp [Near]
  · rw [if_neg h]
    have hm : ∀ x ∈ Model.Fr.entries v, Rep x ∧ 0 ≤ x := by
      intro x hx
      unfold Model.Fr.entries at hx
      obtain ⟨i, -, hi⟩ := List.mem_filterMap.1 hx
      exact hv i x hi
    obtain ⟨h1, h2, h3⟩ := treeSum_near R (R.sum _ h fun x hx => (hm x hx).1) hm
    refine ⟨fun a ha => ?_, h3 n ((entries_length v).trans (Nat.le_succ n))⟩
    cases ha; exact ⟨h1, h2⟩

theorem vsum_near {n : Nat} {v : Vec n F} (hv : Good Rep v) :
    Rep (Model.Fr.vsum o v) ∧ 0 ≤ Model.Fr.vsum o v ∧
    Near (growth u) n 0 (Model.Fr.vsum o v) (∑ i, (v i).getD 0) := by
  obtain ⟨h1, h2⟩ := fsum_near R hv
  unfold Model.Fr.vsum
  rw [R.zero]
  refine ⟨?_, ?_, h2⟩
  · cases hf : Model.Fr.fsum o v with
    | none => have := (R.nat 0).1; rw [R.zero] at this; exact this
    | some a => exact (h1 a hf).1
  · cases hf : Model.Fr.fsum o v with
    | none => simp
    | some a => exact (h1 a hf).2

/-- `x += y` on one position -/
theorem omerge_near {a b : Option F} (ha : ∀ x, a = some x → Rep x ∧ 0 ≤ x) (hb : ∀ x, b = some x → Rep x ∧ 0 ≤ x) :
    (∀ x, omerge o.add a b = some x → Rep x ∧ 0 ≤ x) ∧
    Near (growth u) 1 0 ((omerge o.add a b).getD 0) (a.getD 0 + b.getD 0) := by
  have hg := one_le_growth R
  cases a with
  | none =>
    cases b with
    | none => simp [omerge, Near]
    | some y =>
      refine ⟨fun x hx => hb x hx, ?_⟩
      have := near_weaken hg (Nat.zero_le 1) le_rfl (hb y rfl).2 (hb y rfl).2 le_rfl (near_refl y)
      simpa [omerge] using this
  | some x =>
    cases b with
    | none =>
      refine ⟨fun x hx => ha x hx, ?_⟩
      have := near_weaken hg (Nat.zero_le 1) le_rfl (ha x rfl).2 (ha x rfl).2 le_rfl (near_refl x)
      simpa [omerge] using this
    | some y =>
      obtain ⟨h1, h2, h3⟩ := add_near R (ha x rfl).1 (hb y rfl).1 (ha x rfl).2 (hb y rfl).2
      refine ⟨?_, by simpa [omerge] using h3⟩
      intro z hz
      cases hz
      exact ⟨h1, h2⟩


/-- a rounded product of two numbers that carry errors -/
theorem omul_near {k l : Nat} {t x y z w : F} (h1 : Near (growth u) k t x z) (h2 : Near (growth u) l 0 y w)
    (hx : Rep x ∧ 0 ≤ x) (hy : Rep y ∧ 0 ≤ y) (hz : 0 ≤ z) (hw : 0 ≤ w) (ht : 0 ≤ t) :
    (Rep (o.mul x y) ∧ 0 ≤ o.mul x y) ∧ Near (growth u) (1 + (k + l)) (η + growth u * (t * y)) (o.mul x y) (z * w) := by
  have hg := one_le_growth R
  obtain ⟨m1, m2, m3⟩ := mul_near R hx.1 hy.1 hx.2 hy.2
  have := near_trans hg (mul_nonneg ht hy.2) m3 (near_mul hg h1 h2 hx.2 hy.2 hz hw ht)
  rw [pow_one] at this
  exact ⟨⟨m1, m2⟩, this⟩

theorem omul_near' {k l : Nat} {t x y z w : F} (h1 : Near (growth u) k 0 x z) (h2 : Near (growth u) l t y w)
    (hx : Rep x ∧ 0 ≤ x) (hy : Rep y ∧ 0 ≤ y) (hz : 0 ≤ z) (hw : 0 ≤ w) (ht : 0 ≤ t) :
    (Rep (o.mul x y) ∧ 0 ≤ o.mul x y) ∧ Near (growth u) (1 + (l + k)) (η + growth u * (t * x)) (o.mul x y) (z * w) := by
  have hg := one_le_growth R
  obtain ⟨m1, m2, m3⟩ := mul_near R hx.1 hy.1 hx.2 hy.2
  have := near_trans hg (mul_nonneg ht hx.2) m3
    (by rw [mul_comm x y]; exact near_mul hg h2 h1 hy.2 hx.2 hw hz ht)
  rw [pow_one, mul_comm w z] at this
  exact ⟨⟨m1, m2⟩, this⟩

/-- a rounded quotient by a number with relative error -/
theorem odiv_near {k : Nat} {a x z : F} (h : Near (growth u) k 0 x z) (ha : Rep a ∧ 0 ≤ a) (hx : Rep x) (hx0 : 0 < x)
    (hz : 0 < z) : (Rep (o.div a x) ∧ 0 ≤ o.div a x) ∧ Near (growth u) (1 + k) η (o.div a x) (a / z) := by
  have hg := one_le_growth R
  obtain ⟨m1, m2, m3⟩ := div_near R ha.1 hx ha.2 hx0
  have := near_trans hg le_rfl m3 (near_div h ha.2 hx0 hz)
  rw [mul_zero, add_zero] at this
  exact ⟨⟨m1, m2⟩, this⟩

theorem pos_of_near {k : Nat} {x z : F} (h : Near (growth u) k 0 x z) (hz : 0 < z) : 0 < x := by
  have hg := one_le_growth R
  have hk : 0 < growth u ^ k := pow_pos (by linarith) k
  have h2 := h.2
  rw [add_zero] at h2
  by_contra hc
  have := mul_nonpos_of_nonneg_of_nonpos hk.le (not_lt.1 hc)
  linarith

/-! ### the matrix part -/

variable {n : Nat} [DecidableEq F]

/-- the contribution of one edge -/
theorem term_near {D alpha r r' x a : F} (hr : 0 < r) (hr' : Rep r') (hn : Near (growth u) n 0 r' r)
    (hal : Rep alpha ∧ 0 ≤ alpha) (hx : Rep x ∧ 0 ≤ x) (hx2 : x ≤ 2) (ha : Rep a ∧ 0 ≤ a) (haD : a ≤ D) :
    let S := o.div alpha r'
    (∀ y, y = o.mul (o.mul x S) a ∨ y = o.mul x (o.mul S a) ∨ (y = o.mul x S ∧ a = 1) → (Rep y ∧ 0 ≤ y) ∧
      Near (growth u) (n + 3) (3 * growth u ^ 2 * η * (1 + D)) y (alpha * (x * (a / r)))) := by
  intro S y hy
  have hg := one_le_growth R
  have he := R.eta0
  have hg0 : 0 ≤ growth u := by linarith
  have hr0 := pos_of_near R hn hr
  obtain ⟨s1, s2⟩ := odiv_near R hn hal hr' hr0 hr
  have hz : 0 ≤ alpha / r := div_nonneg hal.2 hr.le
  have e1 : η ≤ growth u * η := le_mul_of_one_le_left he hg
  have e2 : growth u * η ≤ growth u ^ 2 * η := by
    have := le_mul_of_one_le_left (mul_nonneg hg0 he) hg
    rw [pow_two, mul_assoc]; exact this
  have e0 : 0 ≤ growth u ^ 2 * η := by linarith
  have hD : 0 ≤ D := ha.2.trans haD
  have f1 : growth u * η * a ≤ growth u ^ 2 * η * D :=
    mul_le_mul e2 haD ha.2 e0
  have f2 : growth u * η * x ≤ growth u ^ 2 * η * 2 := mul_le_mul e2 hx2 hx.2 e0
  have f3 : growth u ^ 2 * η * (x * a) ≤ growth u ^ 2 * η * (2 * D) :=
    mul_le_mul_of_nonneg_left (mul_le_mul hx2 haD ha.2 (by norm_num)) e0
  have f4 : 0 ≤ growth u ^ 2 * η * D := mul_nonneg e0 hD
  have hzz : 0 ≤ alpha * (x * (a / r)) := mul_nonneg hal.2 (mul_nonneg hx.2 (div_nonneg ha.2 hr.le))
  rcases hy with rfl | rfl | ⟨rfl, h1⟩
  · obtain ⟨w1, w2⟩ := omul_near' R (near_refl x) s2 hx s1 hx.2 hz he
    obtain ⟨t1, t2⟩ := omul_near R w2 (near_refl a) w1 ha (mul_nonneg hx.2 hz) ha.2
      (by have := mul_nonneg hg0 (mul_nonneg he hx.2); linarith)
    have ez : x * (alpha / r) * a = alpha * (x * (a / r)) := by field_simp
    rw [ez] at t2
    refine ⟨t1, near_weaken hg (by omega) ?_ hzz t1.2 ?_ t2⟩
    · have : η + growth u * ((η + growth u * (η * x)) * a) = η + growth u * η * a + growth u ^ 2 * η * (x * a) := by
        ring
      rw [this]
      linarith
    · have := mul_nonneg hg0 (mul_nonneg (add_nonneg he (mul_nonneg hg0 (mul_nonneg he hx.2))) ha.2)
      linarith
  · obtain ⟨w1, w2⟩ := omul_near R s2 (near_refl a) s1 ha hz ha.2 he
    obtain ⟨t1, t2⟩ := omul_near' R (near_refl x) w2 hx w1 hx.2 (mul_nonneg hz ha.2)
      (by have := mul_nonneg hg0 (mul_nonneg he ha.2); linarith)
    have ez : x * (alpha / r * a) = alpha * (x * (a / r)) := by field_simp
    rw [ez] at t2
    refine ⟨t1, near_weaken hg (by omega) ?_ hzz t1.2 ?_ t2⟩
    · have : η + growth u * ((η + growth u * (η * a)) * x) = η + growth u * η * x + growth u ^ 2 * η * (x * a) := by
        ring
      rw [this]
      linarith
    · have := mul_nonneg hg0 (mul_nonneg (add_nonneg he (mul_nonneg hg0 (mul_nonneg he ha.2))) hx.2)
      linarith
  · obtain ⟨w1, w2⟩ := omul_near' R (near_refl x) s2 hx s1 hx.2 hz he
    have ez : x * (alpha / r) = alpha * (x * (a / r)) := by rw [h1]; field_simp
    rw [ez] at w2
    refine ⟨w1, near_weaken hg (by omega) ?_ hzz w1.2 ?_ w2⟩
    · have : η + growth u * (η * x) = η + growth u * η * x := by ring
      rw [this]
      linarith
    · have := mul_nonneg hg0 (mul_nonneg he hx.2)
      linarith

/-- the sum over the edges into a node -/
theorem matrix_near {A : Mat n n F} {D alpha : F} {iso : Option F} {x : Vec n F}
    (hA : ∀ i j a, A i j = some a → (Rep a ∧ 0 ≤ a) ∧ a ≤ D) (hD : 0 ≤ D)
    (hrow : ∀ i, (∃ j, (A i j).isSome = true) → 0 < ∑ j, (A i j).getD 0)
    (hiso : ∀ c, iso = some c → ∀ i j a, A i j = some a → a = c)
    (hal : Rep alpha ∧ 0 ≤ alpha) (hx : Good Rep x) (hx2 : ∑ i, (x i).getD 0 ≤ 2) (j : Fin n) :
    let y := Model.Fr.vxm o (Model.Fr.semiringMul o iso)
      (vmul o.mul x (Model.Fr.prS o alpha (Model.Fr.rowSums o A) iso)) A j
    (∀ b, y = some b → Rep b ∧ 0 ≤ b) ∧
    Near (growth u) (2 * n + 3) (growth u ^ n * (n * (3 * growth u ^ 2 * η * (1 + D)))) (y.getD 0)
      (∑ i, if ∀ j, A i j = none then 0
        else alpha * ((x i).getD 0 * ((A i j).getD 0 / ∑ l, (A i l).getD 0))) := by
  intro y
  have hg := one_le_growth R
  have he := R.eta0
  have hg0 : 0 ≤ growth u := by linarith
  have hτ : 0 ≤ 3 * growth u ^ 2 * η * (1 + D) := by positivity
  have hxi : ∀ i, (x i).getD 0 ≤ 2 := fun i =>
    (Finset.single_le_sum (f := fun i => (x i).getD 0) (fun i _ => hx.val i) (Finset.mem_univ i)).trans hx2
  have key : ∀ i, (∀ b, ointer (Model.Fr.semiringMul o iso)
        (vmul o.mul x (Model.Fr.prS o alpha (Model.Fr.rowSums o A) iso) i) (A i j) = some b → Rep b ∧ 0 ≤ b) ∧
      Near (growth u) (n + 3) (3 * growth u ^ 2 * η * (1 + D))
        ((ointer (Model.Fr.semiringMul o iso)
          (vmul o.mul x (Model.Fr.prS o alpha (Model.Fr.rowSums o A) iso) i) (A i j)).getD 0)
        (if ∀ j, A i j = none then 0
          else alpha * ((x i).getD 0 * ((A i j).getD 0 / ∑ l, (A i l).getD 0))) := by
    intro i
    have zero : Near (growth u) (n + 3) (3 * growth u ^ 2 * η * (1 + D)) 0 0 :=
      near_weaken hg (Nat.zero_le _) hτ le_rfl le_rfl le_rfl (near_refl 0)
    cases hAi : A i j with
    | none =>
      have : (if ∀ j, A i j = none then (0 : F)
          else alpha * ((x i).getD 0 * ((none : Option F).getD 0 / ∑ l, (A i l).getD 0))) = 0 := by
        split <;> simp
      rw [this]
      refine ⟨fun b hb => ?_, ?_⟩
      · unfold ointer at hb; split at hb <;> simp_all
      · have : (ointer (Model.Fr.semiringMul o iso)
          (vmul o.mul x (Model.Fr.prS o alpha (Model.Fr.rowSums o A) iso) i) none).getD 0 = 0 := by
          unfold ointer; split <;> simp_all
        rw [this]; exact zero
    | some a =>
      have hne : ¬ ∀ j, A i j = none := fun hc => by rw [hc j] at hAi; cases hAi
      rw [if_neg hne]
      cases hxx : x i with
      | none =>
        refine ⟨fun b hb => ?_, ?_⟩
        · simp [vmul, hxx, ointer] at hb
        · simpa [vmul, hxx, ointer] using zero
      | some b =>
        have hAG : Good Rep (A i) := fun l a hl => (hA i l a hl).1
        obtain ⟨g1, g2⟩ := fsum_near R hAG
        have hs : (Model.Fr.fsum o (A i)).isSome = true := (fsum_isSome o _).2 ⟨j, by simp [hAi]⟩
        obtain ⟨r', hr'⟩ := Option.isSome_iff_exists.1 hs
        rw [hr'] at g2
        have hb2 : b ≤ 2 := by have := hxi i; rw [hxx] at this; simpa using this
        have ht := term_near R (hrow i ⟨j, by simp [hAi]⟩) (g1 r' hr').1 g2 hal (hx i b hxx) hb2
          (hA i j a hAi).1 (hA i j a hAi).2
        have hy : ∃ y', ointer (Model.Fr.semiringMul o iso)
            (vmul o.mul x (Model.Fr.prS o alpha (Model.Fr.rowSums o A) iso) i) (some a) = some y' ∧
            (y' = o.mul (o.mul b (o.div alpha r')) a ∨ y' = o.mul b (o.mul (o.div alpha r') a) ∨
              (y' = o.mul b (o.div alpha r') ∧ a = 1)) := by
          unfold Model.Fr.prS Model.Fr.semiringMul vmul
          cases iso with
          | none => exact ⟨_, by simp [vapply, Model.Fr.rowSums, hr', hxx, ointer], Or.inl rfl⟩
          | some c =>
            have hc := hiso c rfl i j a hAi
            subst hc
            by_cases h1 : a = o.nat 1
            · refine ⟨o.mul b (o.div alpha r'), ?_, Or.inr (Or.inr ⟨rfl, by rw [h1, R.one]⟩)⟩
              simp [vapply, Model.Fr.rowSums, hr', hxx, ointer, h1, first]
            · refine ⟨o.mul b (o.mul (o.div alpha r') a), ?_, Or.inr (Or.inl rfl)⟩
              simp [vapply, Model.Fr.rowSums, hr', hxx, ointer, h1, first]
        obtain ⟨y', hy1, hy2⟩ := hy
        obtain ⟨t1, t2⟩ := ht y' hy2
        rw [hy1]
        exact ⟨fun b hb => by cases hb; exact t1, t2⟩
  obtain ⟨f1, f2⟩ := fsum_near (n := n) R (v := fun i => ointer (Model.Fr.semiringMul o iso)
    (vmul o.mul x (Model.Fr.prS o alpha (Model.Fr.rowSums o A) iso) i) (A i j)) (fun i b hb => (key i).1 b hb)
  refine ⟨f1, ?_⟩
  have hsum := near_sum Finset.univ (fun i _ => (key i).2)
  have := near_trans hg (Finset.sum_nonneg fun _ _ => hτ) f2 hsum
  simp only [Finset.sum_const, Finset.card_univ, Fintype.card_fin, nsmul_eq_mul, zero_add] at this
  rw [show 2 * n + 3 = n + (n + 3) by omega]
  exact this


/-! ### personalization and dangling nodes -/

/-- the number or vector `p` holds `px` up to `k` roundings and `η` -/
def PNear (Rep : F → Prop) (u η : F) (k : Nat) (p : F ⊕ Vec n F) (px : Fin n → F) : Prop :=
  match p with
  | .inl c => (Rep c ∧ 0 ≤ c) ∧ ∀ i, Near (growth u) k η c (px i)
  | .inr v => Good Rep v ∧ ∀ i, Near (growth u) k η ((v i).getD 0) (px i)

theorem oneMinus_near {alpha : F} (hal : Rep alpha ∧ 0 ≤ alpha) (h1 : alpha ≤ 1) :
    (Rep (o.sub (o.nat 1) alpha) ∧ 0 ≤ o.sub (o.nat 1) alpha) ∧
    Near (growth u) 1 0 (o.sub (o.nat 1) alpha) (1 - alpha) ∧ o.sub (o.nat 1) alpha ≤ growth u := by
  have hg := one_le_growth R
  have hone := (R.nat 1).1
  obtain ⟨-, s1, s2⟩ := R.sub (o.nat 1) alpha hone hal.1 (R.nat 1).2.1 hal.2
  rw [R.one] at s1 s2 ⊢
  rw [abs_of_nonneg (by linarith : 0 ≤ 1 - alpha)] at s2
  have h3 := near_of_err R (by linarith : 0 ≤ 1 - alpha) le_rfl (by rw [add_zero]; exact s2)
  have h4 : 0 ≤ o.sub 1 alpha := by
    have := (abs_le.1 s2).1
    have h5 : u * (1 - alpha) ≤ 1 * (1 - alpha) := mul_le_mul_of_nonneg_right R.u1.le (by linarith)
    linarith
  refine ⟨⟨s1, h4⟩, h3, ?_⟩
  have h6 := h3.1
  rw [pow_one, add_zero] at h6
  have : growth u * (1 - alpha) ≤ growth u * 1 := mul_le_mul_of_nonneg_left (by linarith [hal.2]) (by linarith)
  linarith

/-- `x << p` -/
theorem base_near {alpha : F} (hal : Rep alpha ∧ 0 ≤ alpha) (h1 : alpha ≤ 1) {p : F ⊕ Vec n F} {px : Fin n → F}
    (hpx : ∀ i, 0 ≤ px i) (hp : PNear Rep u η (n + 1) p px) (j : Fin n) :
    let y := Model.Fr.base (Model.Fr.scaleP o alpha p) j
    (∀ b, y = some b → Rep b ∧ 0 ≤ b) ∧ Near (growth u) (n + 3) (2 * growth u ^ 2 * η) (y.getD 0) ((1 - alpha) * px j) := by
  intro y
  have hg := one_le_growth R
  have he := R.eta0
  have hg0 : 0 ≤ growth u := by linarith
  obtain ⟨s1, s2, s3⟩ := oneMinus_near R hal h1
  have hz : 0 ≤ (1 - alpha) * px j := mul_nonneg (by linarith) (hpx j)
  have hτ : η + growth u * (η * o.sub (o.nat 1) alpha) ≤ 2 * growth u ^ 2 * η := by
    have e1 : growth u * (η * o.sub (o.nat 1) alpha) ≤ growth u * (η * growth u) :=
      mul_le_mul_of_nonneg_left (mul_le_mul_of_nonneg_left s3 he) hg0
    have e2 : 1 * η ≤ growth u ^ 2 * η := mul_le_mul_of_nonneg_right (one_le_pow₀ hg) he
    have e3 : growth u * (η * growth u) = growth u ^ 2 * η := by ring
    linarith
  have hτ0 : 0 ≤ η + growth u * (η * o.sub (o.nat 1) alpha) := by
    have := mul_nonneg hg0 (mul_nonneg he s1.2); linarith
  have gen : ∀ c, Rep c ∧ 0 ≤ c → Near (growth u) (n + 1) η c (px j) →
      (Rep (o.mul c (o.sub (o.nat 1) alpha)) ∧ 0 ≤ o.mul c (o.sub (o.nat 1) alpha)) ∧
      Near (growth u) (n + 3) (2 * growth u ^ 2 * η) (o.mul c (o.sub (o.nat 1) alpha)) ((1 - alpha) * px j) := by
    intro c hc hn
    obtain ⟨m1, m2⟩ := omul_near R hn s2 hc s1 (hpx j) (by linarith) he
    rw [mul_comm (px j)] at m2
    exact ⟨m1, near_weaken hg (by omega) hτ hz m1.2 hτ0 m2⟩
  cases p with
  | inl c =>
    obtain ⟨hc, hn⟩ := hp
    obtain ⟨m1, m2⟩ := gen c hc (hn j)
    refine ⟨fun b hb => ?_, m2⟩
    have : b = o.mul c (o.sub (o.nat 1) alpha) := by simpa [y, Model.Fr.base, Model.Fr.scaleP] using hb.symm
    rw [this]; exact m1
  | inr v =>
    obtain ⟨hv, hn⟩ := hp
    have hnj := hn j
    cases hvj : v j with
    | none =>
      have hy : y = none := by simp [y, Model.Fr.base, Model.Fr.scaleP, vapply, hvj]
      rw [hy]
      refine ⟨by simp, ?_⟩
      rw [hvj] at hnj
      obtain ⟨a1, a2⟩ := hnj
      simp only [Option.getD_none, zero_add] at a1 a2 ⊢
      refine ⟨?_, ?_⟩
      · have : 0 ≤ growth u ^ (n + 3) * ((1 - alpha) * px j) := mul_nonneg (pow_nonneg hg0 _) hz
        have : 0 ≤ 2 * growth u ^ 2 * η := by positivity
        linarith
      · have e1 : (1 - alpha) * px j ≤ 1 * px j := mul_le_mul_of_nonneg_right (by linarith [hal.2]) (hpx j)
        have e2 : growth u ^ (n + 1) * η ≤ growth u ^ (n + 3) * (2 * growth u ^ 2 * η) := by
          refine mul_le_mul (pow_le_pow_right₀ hg (by omega)) ?_ he (pow_nonneg hg0 _)
          have : 1 * η ≤ growth u ^ 2 * η := mul_le_mul_of_nonneg_right (one_le_pow₀ hg) he
          linarith
        rw [zero_add]
        linarith
    | some c =>
      rw [hvj] at hnj
      obtain ⟨m1, m2⟩ := gen c (hv j c hvj) hnj
      have hy : y = some (o.mul c (o.sub (o.nat 1) alpha)) := by
        simp [y, Model.Fr.base, Model.Fr.scaleP, vapply, hvj]
      rw [hy]
      exact ⟨fun b hb => by cases hb; exact m1, m2⟩

/-- the absolute error of the dangling part -/
def danglingErr (u η D : F) (n : Nat) : F := growth u ^ (n + 2) * η * (n + 4 + 2 * (1 + D))

theorem pow_mul_le {a b : Nat} (hab : a ≤ b) {c : F} (hc : 0 ≤ c) : growth u ^ a * c ≤ growth u ^ b * c :=
  mul_le_mul_of_nonneg_right (pow_le_pow_right₀ (one_le_growth R) hab) hc

/-- what is added for the dangling nodes -/
theorem dangling_near {A : Mat n n F} {D alpha : F} (hD : 1 ≤ D) (hal : Rep alpha ∧ 0 ≤ alpha) (h1 : alpha ≤ 1)
    {S : Vec n F} (hS : ∀ i, (S i).isSome = true ↔ ¬ ∀ j, A i j = none)
    {p : F ⊕ Vec n F} {px : Fin n → F} (hpx : ∀ i, 0 ≤ px i) (hp : PNear Rep u η (n + 1) p px)
    {d : Option (Vec n F)} {dx : Fin n → F} (hdx : ∀ i, 0 ≤ dx i)
    (hd : ∀ v, d = some v → Good Rep v ∧ (∀ i a, v i = some a → a ≤ D) ∧ 0 < ∑ i, (v i).getD 0 ∧
      ∀ i, dx i = (v i).getD 0 / ∑ i, (v i).getD 0)
    (hdn : d = none → dx = px) :
    ∃ md, Model.Fr.dangling o alpha S p d = .ok md ∧
      ∀ x : Vec n F, Good Rep x → ∑ i, (x i).getD 0 ≤ 2 → ∀ j,
        let y := Model.Fr.addDangling o md x (Model.Fr.base (Model.Fr.scaleP o alpha p)) j
        (∀ b, y = some b → Rep b ∧ 0 ≤ b) ∧
        Near (growth u) (2 * n + 4) (growth u * (2 * growth u ^ 2 * η + danglingErr u η D n)) (y.getD 0)
          ((1 - alpha) * px j + ∑ i, if ∀ l, A i l = none then alpha * ((x i).getD 0 * dx j) else 0) := by
  have hg := one_le_growth R
  have he := R.eta0
  have hg0 : 0 ≤ growth u := by linarith
  have hn0 : (0 : F) ≤ n := Nat.cast_nonneg n
  have hP0 : 0 ≤ growth u ^ (n + 2) * η := mul_nonneg (pow_nonneg hg0 _) he
  have hP : η ≤ growth u ^ (n + 2) * η := le_mul_of_one_le_left he (one_le_pow₀ hg)
  have hτd0 : 0 ≤ danglingErr u η D n := mul_nonneg hP0 (by linarith)
  have hτp0 : 0 ≤ 2 * growth u ^ 2 * η := by positivity
  have hzd : ∀ (x : Vec n F), Good Rep x → ∀ j,
      0 ≤ ∑ i, if ∀ l, A i l = none then alpha * ((x i).getD 0 * dx j) else 0 := by
    intro x hx j
    refine Finset.sum_nonneg fun i _ => ?_
    split
    · exact mul_nonneg hal.2 (mul_nonneg (hx.val i) (hdx j))
    · exact le_rfl
  by_cases hlt : nvals S < n
  · have hmask : ∀ i, Model.Fr.mask o S i = if ∀ j, A i j = none then some (o.nat 1) else none := by
      intro i
      have := hS i
      unfold Model.Fr.mask vassignC vnot vS vempty
      by_cases hdi : ∀ j, A i j = none
      · have : (S i).isSome = false := by simpa [hdi] using this
        simp [this, hdi]
      · have : (S i).isSome = true := this.2 hdi
        simp only [this]
        rw [if_neg hdi]; simp
    have hslow : ∀ (dw : Vec n F), Good Rep dw →
        (∀ j, Near (growth u) (n + 2) (growth u * η * (1 + D)) ((dw j).getD 0) (alpha * dx j)) →
        ∀ x : Vec n F, Good Rep x → ∑ i, (x i).getD 0 ≤ 2 → ∀ j,
        let y := Model.Fr.addDangling o (some (Model.Fr.mask o S), some dw) x
          (Model.Fr.base (Model.Fr.scaleP o alpha p)) j
        (∀ b, y = some b → Rep b ∧ 0 ≤ b) ∧
        Near (growth u) (2 * n + 4) (growth u * (2 * growth u ^ 2 * η + danglingErr u η D n)) (y.getD 0)
          ((1 - alpha) * px j + ∑ i, if ∀ l, A i l = none then alpha * ((x i).getD 0 * dx j) else 0) := by
      intro dw hdwG hdw x hx hx2 j
      have hterm : ∀ i, ointer first (x i) (Model.Fr.mask o S i) = if ∀ l, A i l = none then x i else none := by
        intro i
        rw [hmask i]
        by_cases hdi : ∀ j, A i j = none
        · rw [if_pos hdi, if_pos hdi]; cases x i <;> simp [ointer, first]
        · rw [if_neg hdi, if_neg hdi]; cases x i <;> simp [ointer]
      have hG : Good Rep (fun i => ointer first (x i) (Model.Fr.mask o S i)) := by
        intro i a ha
        dsimp only at ha
        rw [hterm i] at ha
        split at ha
        · exact hx i a ha
        · cases ha
      obtain ⟨q1, q2, q3⟩ := vsum_near R hG
      have hdot : Model.Fr.dot o first x (Model.Fr.mask o S) =
          Model.Fr.vsum o (fun i => ointer first (x i) (Model.Fr.mask o S i)) := rfl
      rw [← hdot] at q1 q2 q3
      have hsum : ∑ i, (ointer first (x i) (Model.Fr.mask o S i)).getD 0 =
          ∑ i, if ∀ l, A i l = none then (x i).getD 0 else 0 := by
        refine Finset.sum_congr rfl fun i _ => ?_
        rw [hterm i]
        split <;> simp
      rw [hsum] at q3
      have hsum2 : ∑ i, (if ∀ l, A i l = none then (x i).getD 0 else 0) ≤ 2 := by
        refine (Finset.sum_le_sum fun i _ => ?_).trans hx2
        split
        · exact le_rfl
        · exact hx.val i
      have hsum0 : 0 ≤ ∑ i, (if ∀ l, A i l = none then (x i).getD 0 else 0) := by
        refine Finset.sum_nonneg fun i _ => ?_
        split
        · exact hx.val i
        · exact le_rfl
      have hq : Model.Fr.dot o first x (Model.Fr.mask o S) ≤ growth u ^ n * 2 := by
        have := q3.1
        rw [add_zero] at this
        exact this.trans (mul_le_mul_of_nonneg_left hsum2 (pow_nonneg hg0 _))
      have htd0 : 0 ≤ growth u * η * (1 + D) := mul_nonneg (mul_nonneg hg0 he) (by linarith)
      have hez : (∑ i, if ∀ l, A i l = none then (x i).getD 0 else 0) * (alpha * dx j) =
          ∑ i, if ∀ l, A i l = none then alpha * ((x i).getD 0 * dx j) else 0 := by
        rw [Finset.sum_mul]
        refine Finset.sum_congr rfl fun i _ => ?_
        split
        · ring
        · ring
      have hτ : η + growth u * (growth u * η * (1 + D) * Model.Fr.dot o first x (Model.Fr.mask o S)) ≤
          danglingErr u η D n := by
        have e1 : growth u * (growth u * η * (1 + D) * Model.Fr.dot o first x (Model.Fr.mask o S)) ≤
            growth u * (growth u * η * (1 + D) * (growth u ^ n * 2)) :=
          mul_le_mul_of_nonneg_left (mul_le_mul_of_nonneg_left hq htd0) hg0
        have e2 : growth u * (growth u * η * (1 + D) * (growth u ^ n * 2)) =
            growth u ^ (n + 2) * η * (2 * (1 + D)) := by rw [pow_add]; ring
        have e3 : danglingErr u η D n = growth u ^ (n + 2) * η * n + growth u ^ (n + 2) * η * 4 +
          growth u ^ (n + 2) * η * (2 * (1 + D)) := by unfold danglingErr; ring
        have e4 := mul_nonneg hP0 hn0
        linarith
      have hpart : (∀ b, vapply (fun a => o.mul (Model.Fr.dot o first x (Model.Fr.mask o S)) a) dw j = some b →
            Rep b ∧ 0 ≤ b) ∧
          Near (growth u) (2 * n + 3) (danglingErr u η D n)
            ((vapply (fun a => o.mul (Model.Fr.dot o first x (Model.Fr.mask o S)) a) dw j).getD 0)
            (∑ i, if ∀ l, A i l = none then alpha * ((x i).getD 0 * dx j) else 0) := by
        have hdj := hdw j
        cases hj : dw j with
        | none =>
          refine ⟨by simp [vapply, hj], ?_⟩
          rw [hj] at hdj
          obtain ⟨a1, a2⟩ := hdj
          simp only [Option.getD_none, zero_add] at a1 a2
          simp only [vapply, hj, Option.map_none, Option.getD_none]
          rw [← hez]
          refine ⟨?_, ?_⟩
          · have := mul_nonneg (pow_nonneg hg0 (2 * n + 3)) (mul_nonneg hsum0 (mul_nonneg hal.2 (hdx j)))
            linarith
          · calc (∑ i, if ∀ l, A i l = none then (x i).getD 0 else 0) * (alpha * dx j)
                ≤ 2 * (growth u ^ (n + 2) * (growth u * η * (1 + D))) :=
                  mul_le_mul hsum2 a2 (mul_nonneg hal.2 (hdx j)) (by norm_num)
              _ = growth u ^ (n + 3) * (η * (2 * (1 + D))) := by rw [pow_add, pow_add]; ring
              _ ≤ growth u ^ (2 * n + 3) * (η * (2 * (1 + D))) :=
                  pow_mul_le R (by omega) (mul_nonneg he (by linarith))
              _ ≤ growth u ^ (2 * n + 3) * (0 + danglingErr u η D n) := by
                  refine mul_le_mul_of_nonneg_left ?_ (pow_nonneg hg0 _)
                  have e5 : η * (2 * (1 + D)) ≤ growth u ^ (n + 2) * η * (2 * (1 + D)) :=
                    mul_le_mul_of_nonneg_right hP (by linarith)
                  have e3 : danglingErr u η D n = growth u ^ (n + 2) * η * n + growth u ^ (n + 2) * η * 4 +
                    growth u ^ (n + 2) * η * (2 * (1 + D)) := by unfold danglingErr; ring
                  have e4 := mul_nonneg hP0 hn0
                  linarith
        | some a =>
          rw [hj] at hdj
          obtain ⟨m1, m2⟩ := omul_near' R q3 hdj ⟨q1, q2⟩ (hdwG j a hj) hsum0 (mul_nonneg hal.2 (hdx j)) htd0
          rw [hez] at m2
          refine ⟨fun b hb => ?_, ?_⟩
          · have : b = o.mul (Model.Fr.dot o first x (Model.Fr.mask o S)) a := by
              simpa [vapply, hj] using hb.symm
            rw [this]; exact m1
          · have : (vapply (fun a => o.mul (Model.Fr.dot o first x (Model.Fr.mask o S)) a) dw j).getD 0 =
                o.mul (Model.Fr.dot o first x (Model.Fr.mask o S)) a := by simp [vapply, hj]
            rw [this]
            exact near_weaken hg (by omega) hτ (hzd x hx j) m1.2
              (add_nonneg he (mul_nonneg hg0 (mul_nonneg htd0 q2))) m2
      obtain ⟨b1, b2⟩ := base_near R hal h1 hpx hp j
      obtain ⟨c1, c2⟩ := omerge_near R b1 hpart.1
      refine ⟨c1, ?_⟩
      have hbz : 0 ≤ (1 - alpha) * px j := mul_nonneg (by linarith) (hpx j)
      have hb0 : 0 ≤ (Model.Fr.base (Model.Fr.scaleP o alpha p) j).getD 0 := by
        cases hb : Model.Fr.base (Model.Fr.scaleP o alpha p) j with
        | none => simp
        | some b => exact (b1 b hb).2
      have := near_trans hg (add_nonneg hτp0 hτd0) c2
        (near_add (near_weaken hg (by omega : n + 3 ≤ 2 * n + 3) le_rfl hbz hb0 hτp0 b2) hpart.2)
      rw [zero_add, pow_one] at this
      rw [show 2 * n + 4 = 1 + (2 * n + 3) by omega]
      exact this
    cases hdg : d with
    | some v =>
      obtain ⟨v1, v2, v3, v4⟩ := hd v hdg
      obtain ⟨s1, s2, s3⟩ := vsum_near R v1
      have s4 := pos_of_near R s3 v3
      have hnz : ¬ o.isZero (Model.Fr.vsum o v) = true := by
        rw [R.isZero]; exact ne_of_gt s4
      obtain ⟨d1, d2⟩ := odiv_near R s3 hal s1 s4 v3
      have hz : 0 ≤ alpha / ∑ i, (v i).getD 0 := div_nonneg hal.2 v3.le
      have term : ∀ j a, v j = some a →
          (Rep (o.mul (o.div alpha (Model.Fr.vsum o v)) a) ∧ 0 ≤ o.mul (o.div alpha (Model.Fr.vsum o v)) a) ∧
          Near (growth u) (n + 2) (growth u * η * (1 + D)) (o.mul (o.div alpha (Model.Fr.vsum o v)) a)
            (alpha * dx j) := by
        intro j a hj
        obtain ⟨m1, m2⟩ := omul_near R d2 (near_refl a) d1 (v1 j a hj) hz (v1 j a hj).2 he
        have e : alpha / (∑ i, (v i).getD 0) * a = alpha * dx j := by
          rw [v4 j, hj]; simp; ring
        rw [e] at m2
        refine ⟨m1, near_weaken hg (by omega) ?_ (mul_nonneg hal.2 (hdx j)) m1.2
          (add_nonneg he (mul_nonneg hg0 (mul_nonneg he (v1 j a hj).2))) m2⟩
        have e1 : growth u * (η * a) ≤ growth u * (η * D) :=
          mul_le_mul_of_nonneg_left (mul_le_mul_of_nonneg_left (v2 j a hj) he) hg0
        have e2 : η ≤ growth u * η := le_mul_of_one_le_left he hg
        calc η + growth u * (η * a) ≤ growth u * η + growth u * (η * D) := by linarith
          _ = _ := by ring
      refine ⟨(some (Model.Fr.mask o S), some (vapply (fun a => o.mul (o.div alpha (Model.Fr.vsum o v)) a) v)), ?_,
        hslow (vapply (fun a => o.mul (o.div alpha (Model.Fr.vsum o v)) a) v) ?_ ?_⟩
      · unfold Model.Fr.dangling
        rw [if_pos hlt]
        dsimp only
        rw [if_neg hnz]
      · intro j b hb
        cases hj : v j with
        | none => simp [vapply, hj] at hb
        | some a =>
          have : b = o.mul (o.div alpha (Model.Fr.vsum o v)) a := by simpa [vapply, hj] using hb.symm
          rw [this]; exact (term j a hj).1
      · intro j
        cases hj : v j with
        | none =>
          have e0 : dx j = 0 := by rw [v4 j, hj]; simp
          rw [e0, mul_zero]
          have : (vapply (fun a => o.mul (o.div alpha (Model.Fr.vsum o v)) a) v j).getD 0 = 0 := by
            simp [vapply, hj]
          rw [this]
          exact near_weaken hg (Nat.zero_le _) (mul_nonneg (mul_nonneg hg0 he) (by linarith)) le_rfl le_rfl le_rfl
            (near_refl 0)
        | some a =>
          have : (vapply (fun a => o.mul (o.div alpha (Model.Fr.vsum o v)) a) v j).getD 0 =
              o.mul (o.div alpha (Model.Fr.vsum o v)) a := by simp [vapply, hj]
          rw [this]; exact (term j a hj).2
    | none =>
      have hdp := hdn hdg
      subst hdp
      cases p with
      | inr v =>
        obtain ⟨v1, v2⟩ := hp
        have hb1 : η + growth u * (η * alpha) ≤ growth u * η * (1 + D) := by
          have e1 : growth u * (η * alpha) ≤ growth u * (η * D) :=
            mul_le_mul_of_nonneg_left (mul_le_mul_of_nonneg_left (h1.trans hD) he) hg0
          have e2 : η ≤ growth u * η := le_mul_of_one_le_left he hg
          calc η + growth u * (η * alpha) ≤ growth u * η + growth u * (η * D) := by linarith
            _ = _ := by ring
        have term : ∀ j a, v j = some a → (Rep (o.mul alpha a) ∧ 0 ≤ o.mul alpha a) ∧
            Near (growth u) (n + 2) (growth u * η * (1 + D)) (o.mul alpha a) (alpha * dx j) := by
          intro j a hj
          have hv2 := v2 j
          rw [hj] at hv2
          obtain ⟨m1, m2⟩ := omul_near' R (near_refl alpha) hv2 hal (v1 j a hj) hal.2 (hpx j) he
          exact ⟨m1, near_weaken hg (by omega) hb1 (mul_nonneg hal.2 (hdx j)) m1.2
            (add_nonneg he (mul_nonneg hg0 (mul_nonneg he hal.2))) m2⟩
        refine ⟨(some (Model.Fr.mask o S), some (vapply (fun a => o.mul alpha a) v)), ?_,
          hslow (vapply (fun a => o.mul alpha a) v) ?_ ?_⟩
        · unfold Model.Fr.dangling
          rw [if_pos hlt]
        · intro j b hb
          cases hj : v j with
          | none => simp [vapply, hj] at hb
          | some a =>
            have : b = o.mul alpha a := by simpa [vapply, hj] using hb.symm
            rw [this]; exact (term j a hj).1
        · intro j
          cases hj : v j with
          | none =>
            have : (vapply (fun a => o.mul alpha a) v j).getD 0 = 0 := by simp [vapply, hj]
            rw [this]
            have hv2 := v2 j
            rw [hj] at hv2
            obtain ⟨-, a2⟩ := hv2
            simp only [Option.getD_none, zero_add] at a2
            refine ⟨?_, ?_⟩
            · have := mul_nonneg (pow_nonneg hg0 (n + 2)) (mul_nonneg hal.2 (hdx j))
              have := mul_nonneg (mul_nonneg hg0 he) (by linarith : 0 ≤ 1 + D)
              linarith
            · calc alpha * dx j ≤ 1 * (growth u ^ (n + 1) * η) := mul_le_mul h1 a2 (hdx j) (by norm_num)
                _ ≤ growth u ^ (n + 2) * η := by rw [one_mul]; exact pow_mul_le R (by omega) he
                _ ≤ growth u ^ (n + 2) * (0 + growth u * η * (1 + D)) := by
                  refine mul_le_mul_of_nonneg_left ?_ (pow_nonneg hg0 _)
                  have := mul_nonneg hg0 (mul_nonneg he hal.2)
                  linarith
          | some a =>
            have : (vapply (fun a => o.mul alpha a) v j).getD 0 = o.mul alpha a := by simp [vapply, hj]
            rw [this]; exact (term j a hj).2
      | inl c =>
        obtain ⟨hc, hcn⟩ := hp
        refine ⟨(some (vassignC (vS (Model.Fr.mask o S)) (Model.Fr.mask o S) (o.mul alpha c)), none), ?_, ?_⟩
        · unfold Model.Fr.dangling
          rw [if_pos hlt]
        · intro x hx hx2 j
          have hm2 : ∀ i, vassignC (vS (Model.Fr.mask o S)) (Model.Fr.mask o S) (o.mul alpha c) i =
              if ∀ j, A i j = none then some (o.mul alpha c) else none := by
            intro i
            unfold vassignC vS
            rw [hmask i]
            by_cases hdi : ∀ j, A i j = none
            · rw [if_pos hdi]; simp [hdi]
            · rw [if_neg hdi, if_neg hdi]; simp
          set m := vassignC (vS (Model.Fr.mask o S)) (Model.Fr.mask o S) (o.mul alpha c) with hm
          obtain ⟨m1, m2⟩ := omul_near' R (near_refl alpha) (hcn j) hal hc hal.2 (hpx j) he
          have hmt0 : 0 ≤ η + growth u * (η * alpha) := add_nonneg he (mul_nonneg hg0 (mul_nonneg he hal.2))
          have hmt : η + growth u * (η * alpha) ≤ 2 * (growth u * η) := by
            have e1 : growth u * (η * alpha) ≤ growth u * (η * 1) :=
              mul_le_mul_of_nonneg_left (mul_le_mul_of_nonneg_left h1 he) hg0
            have e2 : η ≤ growth u * η := le_mul_of_one_le_left he hg
            rw [mul_one] at e1
            linarith
          have term : ∀ i, (∀ b, ointer o.mul (x i) (m i) = some b → Rep b ∧ 0 ≤ b) ∧
              Near (growth u) (n + 3) (η + 2 * growth u ^ 2 * η * (x i).getD 0) ((ointer o.mul (x i) (m i)).getD 0)
                (if ∀ l, A i l = none then alpha * ((x i).getD 0 * dx j) else 0) := by
            intro i
            have ht0 : 0 ≤ η + 2 * growth u ^ 2 * η * (x i).getD 0 := add_nonneg he (mul_nonneg hτp0 (hx.val i))
            rw [hm2 i]
            by_cases hdi : ∀ j, A i j = none
            · rw [if_pos hdi, if_pos hdi]
              cases hxi : x i with
              | none =>
                refine ⟨by simp [ointer], ?_⟩
                rw [hxi] at ht0
                have e : (ointer o.mul (none : Option F) (some (o.mul alpha c))).getD 0 = 0 := by simp [ointer]
                have e' : alpha * ((none : Option F).getD 0 * dx j) = 0 := by simp
                rw [e, e']
                exact near_weaken hg (Nat.zero_le _) ht0 le_rfl le_rfl le_rfl (near_refl 0)
              | some b =>
                obtain ⟨t1, t2⟩ := omul_near' R (near_refl b) m2 (hx i b hxi) m1 (hx i b hxi).2
                  (mul_nonneg hal.2 (hdx j)) hmt0
                refine ⟨fun z hz => ?_, ?_⟩
                · have : z = o.mul b (o.mul alpha c) := by simpa [ointer] using hz.symm
                  rw [this]; exact t1
                · have e : (ointer o.mul (some b) (some (o.mul alpha c))).getD 0 = o.mul b (o.mul alpha c) := by
                    simp [ointer]
                  have e' : b * (alpha * dx j) = alpha * ((some b).getD 0 * dx j) := by simp; ring
                  rw [e]
                  rw [e'] at t2
                  refine near_weaken hg (by omega) ?_
                    (mul_nonneg hal.2 (mul_nonneg (hx i b hxi).2 (hdx j))) t1.2
                    (add_nonneg he (mul_nonneg hg0 (mul_nonneg hmt0 (hx i b hxi).2))) t2
                  have e3 : growth u * ((η + growth u * (η * alpha)) * b) ≤ growth u * (2 * (growth u * η) * b) :=
                    mul_le_mul_of_nonneg_left (mul_le_mul_of_nonneg_right hmt (hx i b hxi).2) hg0
                  have e4 : growth u * (2 * (growth u * η) * b) = 2 * growth u ^ 2 * η * b := by ring
                  simp only [Option.getD_some]
                  linarith
            · rw [if_neg hdi, if_neg hdi]
              refine ⟨fun b hb => by cases hxi : x i <;> simp [ointer, hxi] at hb, ?_⟩
              have e : (ointer o.mul (x i) (none : Option F)).getD 0 = 0 := by cases x i <;> simp [ointer]
              rw [e]
              exact near_weaken hg (Nat.zero_le _) ht0 le_rfl le_rfl le_rfl (near_refl 0)
          obtain ⟨q1, q2, q3⟩ := vsum_near R (v := fun i => ointer o.mul (x i) (m i)) (fun i b hb => (term i).1 b hb)
          have hdot : Model.Fr.dot o o.mul x m = Model.Fr.vsum o (fun i => ointer o.mul (x i) (m i)) := rfl
          rw [← hdot] at q1 q2 q3
          have hts := near_sum Finset.univ (fun i _ => (term i).2)
          have hsum : ∑ i, (η + 2 * growth u ^ 2 * η * (x i).getD 0) ≤ n * η + 4 * (growth u ^ 2 * η) := by
            rw [Finset.sum_add_distrib, ← Finset.mul_sum]
            simp only [Finset.sum_const, Finset.card_univ, Fintype.card_fin, nsmul_eq_mul]
            have := mul_le_mul_of_nonneg_left hx2 hτp0
            linarith
          have hsum0 : 0 ≤ ∑ i, (η + 2 * growth u ^ 2 * η * (x i).getD 0) :=
            Finset.sum_nonneg fun i _ => add_nonneg he (mul_nonneg hτp0 (hx.val i))
          have q4 := near_trans hg hsum0 q3 hts
          rw [zero_add] at q4
          have q5 : Near (growth u) (2 * n + 3) (danglingErr u η D n) (Model.Fr.dot o o.mul x m)
              (∑ i, if ∀ l, A i l = none then alpha * ((x i).getD 0 * dx j) else 0) := by
            refine near_weaken hg (by omega) ?_ (hzd x hx j) q2 (mul_nonneg (pow_nonneg hg0 _) hsum0) q4
            have e1 := mul_le_mul_of_nonneg_left hsum (pow_nonneg hg0 n)
            have e2 : growth u ^ n * (n * η + 4 * (growth u ^ 2 * η)) =
                growth u ^ n * η * n + growth u ^ (n + 2) * η * 4 := by rw [pow_add]; ring
            have e3 : danglingErr u η D n = growth u ^ (n + 2) * η * n + growth u ^ (n + 2) * η * 4 +
              growth u ^ (n + 2) * η * (2 * (1 + D)) := by unfold danglingErr; ring
            have e4 : growth u ^ n * η * n ≤ growth u ^ (n + 2) * η * n :=
              mul_le_mul_of_nonneg_right (pow_mul_le R (by omega) he) hn0
            have e5 := mul_nonneg hP0 (by linarith : 0 ≤ 2 * (1 + D))
            linarith
          obtain ⟨b1, b2⟩ := base_near R hal h1 hpx (p := .inl c) ⟨hc, hcn⟩ j
          have hbv : Model.Fr.base (Model.Fr.scaleP o alpha (.inl c)) j =
            some (o.mul c (o.sub (o.nat 1) alpha)) := rfl
          rw [hbv] at b1 b2
          obtain ⟨a1, a2, a3⟩ := add_near R (b1 _ rfl).1 q1 (b1 _ rfl).2 q2
          have hbz : 0 ≤ (1 - alpha) * dx j := mul_nonneg (by linarith) (hpx j)
          have := near_trans hg (add_nonneg hτp0 hτd0) a3
            (near_add (near_weaken hg (by omega : n + 3 ≤ 2 * n + 3) le_rfl hbz (b1 _ rfl).2 hτp0 b2) q5)
          rw [zero_add, pow_one] at this
          have hy : Model.Fr.addDangling o (some m, none) x (Model.Fr.base (Model.Fr.scaleP o alpha (.inl c))) j =
              some (o.add (o.mul c (o.sub (o.nat 1) alpha)) (Model.Fr.dot o o.mul x m)) := by
            simp [Model.Fr.addDangling, vapply, hbv]
          dsimp only
          rw [hy]
          rw [show 2 * n + 4 = 1 + (2 * n + 3) by omega]
          refine ⟨fun b hb => ?_, this⟩
          cases hb
          exact ⟨a1, a2⟩
  · refine ⟨(none, none), by unfold Model.Fr.dangling; rw [if_neg hlt], ?_⟩
    intro x hx hx2 j
    have hnd : ∀ i, ¬ ∀ l, A i l = none := by
      rw [nvals_lt] at hlt
      push Not at hlt
      intro i
      exact (hS i).1 (Option.isSome_iff_ne_none.2 (hlt i))
    have e0 : (∑ i, if ∀ l, A i l = none then alpha * ((x i).getD 0 * dx j) else 0) = 0 :=
      Finset.sum_eq_zero fun i _ => if_neg (hnd i)
    rw [e0, add_zero]
    obtain ⟨b1, b2⟩ := base_near R hal h1 hpx hp j
    refine ⟨b1, ?_⟩
    have hbz : 0 ≤ (1 - alpha) * px j := mul_nonneg (by linarith) (hpx j)
    have hb0 : 0 ≤ (Model.Fr.base (Model.Fr.scaleP o alpha p) j).getD 0 := by
      cases hb : Model.Fr.base (Model.Fr.scaleP o alpha p) j with
      | none => simp
      | some b => exact (b1 b hb).2
    refine near_weaken hg (by omega) ?_ hbz hb0 hτp0 b2
    have := le_mul_of_one_le_left (add_nonneg hτp0 hτd0) hg
    linarith


/-! ### one pass, the start vector, the test -/

theorem step_near {A : Mat n n F} {D alpha : F} (hn : n ≠ 0) (hD : 1 ≤ D) (hal : Rep alpha ∧ 0 ≤ alpha) (h1 : alpha ≤ 1)
    (hA : ∀ i j a, A i j = some a → (Rep a ∧ 0 ≤ a) ∧ a ≤ D)
    (hrow : ∀ i, (∃ j, (A i j).isSome = true) → 0 < ∑ j, (A i j).getD 0)
    {iso : Option F} (hiso : ∀ c, iso = some c → ∀ i j a, A i j = some a → a = c)
    {p : F ⊕ Vec n F} {px : Fin n → F} (hpx : ∀ i, 0 ≤ px i) (hp : PNear Rep u η (n + 1) p px)
    {d : Option (Vec n F)} {dx : Fin n → F} (hdx : ∀ i, 0 ≤ dx i)
    (hd : ∀ v, d = some v → Good Rep v ∧ (∀ i a, v i = some a → a ≤ D) ∧ 0 < ∑ i, (v i).getD 0 ∧
      ∀ i, dx i = (v i).getD 0 / ∑ i, (v i).getD 0)
    (hdn : d = none → dx = px) :
    ∃ md, Model.Fr.dangling o alpha (Model.Fr.prS o alpha (Model.Fr.rowSums o A) iso) p d = .ok md ∧
      ∀ x : Vec n F, Good Rep x → ∑ i, (x i).getD 0 ≤ 2 →
        let y := Model.Fr.step o A (Model.Fr.prS o alpha (Model.Fr.rowSums o A) iso) (Model.Fr.semiringMul o iso) md
          (Model.Fr.scaleP o alpha p) x
        Good Rep y ∧ ∀ j, Near (growth u) (2 * n + 5) (9 * n * (D + 1) * growth u ^ (2 * n + 5) * η) ((y j).getD 0)
          ((1 - alpha) * px j + (∑ i, if ∀ l, A i l = none then alpha * ((x i).getD 0 * dx j) else 0) +
            ∑ i, if ∀ l, A i l = none then 0
              else alpha * ((x i).getD 0 * ((A i j).getD 0 / ∑ l, (A i l).getD 0))) := by
  have hg := one_le_growth R
  have he := R.eta0
  have hg0 : 0 ≤ growth u := by linarith
  have hn1 : (1 : F) ≤ n := by exact_mod_cast Nat.one_le_iff_ne_zero.2 hn
  have hS : ∀ i, (Model.Fr.prS o alpha (Model.Fr.rowSums o A) iso i).isSome = true ↔ ¬ ∀ j, A i j = none := by
    intro i
    have e : (Model.Fr.prS o alpha (Model.Fr.rowSums o A) iso i).isSome = (Model.Fr.rowSums o A i).isSome := by
      unfold Model.Fr.prS
      cases iso with
      | none => simp [vapply]
      | some c => dsimp only; split <;> simp [vapply]
    rw [e]
    unfold Model.Fr.rowSums
    rw [fsum_isSome]
    push Not
    simp [Option.isSome_iff_ne_none]
  obtain ⟨md, hmd, hx'⟩ := dangling_near R hD hal h1 hS hpx hp hdx hd hdn
  refine ⟨md, hmd, fun x hx hx2 => ?_⟩
  intro y
  have key : ∀ j, (∀ b, y j = some b → Rep b ∧ 0 ≤ b) ∧
      Near (growth u) (2 * n + 5) (9 * n * (D + 1) * growth u ^ (2 * n + 5) * η) ((y j).getD 0)
          ((1 - alpha) * px j + (∑ i, if ∀ l, A i l = none then alpha * ((x i).getD 0 * dx j) else 0) +
            ∑ i, if ∀ l, A i l = none then 0
              else alpha * ((x i).getD 0 * ((A i j).getD 0 / ∑ l, (A i l).getD 0))) := by
    intro j
    obtain ⟨a1, a2⟩ := hx' x hx hx2 j
    obtain ⟨b1, b2⟩ := matrix_near R hA (by linarith) hrow hiso hal hx hx2 j
    obtain ⟨c1, c2⟩ := omerge_near R a1 b1
    refine ⟨c1, ?_⟩
    have hP0 : 0 ≤ growth u ^ (n + 2) * η := mul_nonneg (pow_nonneg hg0 _) he
    have hτd0 : 0 ≤ danglingErr u η D n := mul_nonneg hP0 (by have : (0 : F) ≤ n := by linarith
                                                              linarith)
    have hτp0 : 0 ≤ 2 * growth u ^ 2 * η := by positivity
    have hτ1 : 0 ≤ growth u * (2 * growth u ^ 2 * η + danglingErr u η D n) := mul_nonneg hg0 (by linarith)
    have hτ2 : 0 ≤ growth u ^ n * (n * (3 * growth u ^ 2 * η * (1 + D))) := by
      have : 0 ≤ 1 + D := by linarith
      positivity
    have hz : ∀ i, 0 ≤ alpha * ((x i).getD 0 * ((A i j).getD 0 / ∑ l, (A i l).getD 0)) := by
      intro i
      have hv : ∀ l, 0 ≤ (A i l).getD 0 := by
        intro l
        cases hl : A i l with
        | none => simp
        | some a => simpa using (hA i l a hl).1.2
      exact mul_nonneg hal.2 (mul_nonneg (hx.val i) (div_nonneg (hv j) (Finset.sum_nonneg fun l _ => hv l)))
    have hz2 : 0 ≤ ∑ i, if ∀ l, A i l = none then 0
        else alpha * ((x i).getD 0 * ((A i j).getD 0 / ∑ l, (A i l).getD 0)) := by
      refine Finset.sum_nonneg fun i _ => ?_
      split
      · exact le_rfl
      · exact hz i
    have hz1 : 0 ≤ (1 - alpha) * px j + ∑ i, if ∀ l, A i l = none then alpha * ((x i).getD 0 * dx j) else 0 := by
      refine add_nonneg (mul_nonneg (by linarith) (hpx j)) (Finset.sum_nonneg fun i _ => ?_)
      split
      · exact mul_nonneg hal.2 (mul_nonneg (hx.val i) (hdx j))
      · exact le_rfl
    have val0 : ∀ {a : Option F}, (∀ b, a = some b → Rep b ∧ 0 ≤ b) → 0 ≤ a.getD 0 := by
      intro a ha
      cases a with
      | none => simp
      | some b => exact (ha b rfl).2
    have := near_trans hg (add_nonneg hτ1 hτ2) c2 (near_add a2
      (near_weaken hg (by omega : 2 * n + 3 ≤ 2 * n + 4) le_rfl hz2 (val0 b1) hτ2 b2))
    rw [zero_add, pow_one] at this
    refine near_weaken hg (by omega) ?_ (add_nonneg hz1 hz2) (val0 c1) (mul_nonneg hg0 (add_nonneg hτ1 hτ2)) this
    have hQ : growth u ^ (n + 4) * η ≤ growth u ^ (2 * n + 5) * η := pow_mul_le R (by omega) he
    have hq : growth u ^ 4 * η ≤ growth u ^ (n + 4) * η := pow_mul_le R (by omega) he
    have hr : growth u ^ (n + 3) * η ≤ growth u ^ (n + 4) * η := pow_mul_le R (by omega) he
    have hW0 : 0 ≤ growth u ^ (n + 4) * η := mul_nonneg (pow_nonneg hg0 _) he
    have e1 : growth u * (growth u * (2 * growth u ^ 2 * η + danglingErr u η D n) +
        growth u ^ n * (n * (3 * growth u ^ 2 * η * (1 + D)))) =
        2 * (growth u ^ 4 * η) + growth u ^ (n + 4) * η * (n + 4 + 2 * (1 + D)) +
          growth u ^ (n + 3) * η * (3 * n * (1 + D)) := by
      unfold danglingErr
      rw [show n + 4 = n + 2 + 2 by omega, show n + 3 = n + 2 + 1 by omega, pow_add _ (n + 2) 2, pow_add _ (n + 2) 1,
        pow_add _ n 2]
      ring
    rw [e1]
    have hm0 : 0 ≤ 3 * (n : F) * (1 + D) := by
      have : 0 ≤ 1 + D := by linarith
      positivity
    have e2 := mul_le_mul_of_nonneg_right hr hm0
    have e3 : (2 : F) + (n + 4 + 2 * (1 + D)) + 3 * n * (1 + D) ≤ 9 * n * (D + 1) := by
      nlinarith [mul_nonneg (by linarith : (0 : F) ≤ n - 1) (by linarith : (0 : F) ≤ D - 1)]
    calc 2 * (growth u ^ 4 * η) + growth u ^ (n + 4) * η * (n + 4 + 2 * (1 + D)) +
          growth u ^ (n + 3) * η * (3 * n * (1 + D))
        ≤ growth u ^ (n + 4) * η * (2 + (n + 4 + 2 * (1 + D)) + 3 * n * (1 + D)) := by
          rw [mul_add, mul_add]; linarith
      _ ≤ growth u ^ (n + 4) * η * (9 * n * (D + 1)) := mul_le_mul_of_nonneg_left e3 hW0
      _ ≤ growth u ^ (2 * n + 5) * η * (9 * n * (D + 1)) :=
          mul_le_mul_of_nonneg_right hQ (by
            have : 0 ≤ D + 1 := by linarith
            have : (0 : F) ≤ n := by linarith
            positivity)
      _ = _ := by ring
  exact ⟨fun j b hb => (key j).1 b hb, fun j => (key j).2⟩

/-- `1.0 / N` -/
theorem uniform_near (hn : n ≠ 0) : (Rep (o.div (o.nat 1) (o.nat n)) ∧ 0 ≤ o.div (o.nat 1) (o.nat n)) ∧
    Near (growth u) (n + 1) η (o.div (o.nat 1) (o.nat n)) (1 / n) := by
  have hg := one_le_growth R
  have hn0 : (0 : F) < n := by exact_mod_cast Nat.pos_of_ne_zero hn
  obtain ⟨n1, n2, n3⟩ := nat_near R n
  obtain ⟨d1, d2⟩ := odiv_near R n3 (a := o.nat 1) ⟨(R.nat 1).1, (R.nat 1).2.1⟩ n1 (pos_of_near R n3 hn0) hn0
  rw [R.one] at d1 d2 ⊢
  exact ⟨d1, near_weaken hg (by have := Nat.pos_of_ne_zero hn; omega) le_rfl (by positivity) d1.2 R.eta0 d2⟩

/-- a dict divided by its sum -/
theorem quotient_near {v : Vec n F} (hv : Good Rep v) (hs : 0 < ∑ i, (v i).getD 0) :
    ¬ o.isZero (Model.Fr.vsum o v) = true ∧ Good Rep (vapply (fun a => o.div a (Model.Fr.vsum o v)) v) ∧
    ∀ i, Near (growth u) (n + 1) η ((vapply (fun a => o.div a (Model.Fr.vsum o v)) v i).getD 0)
      ((v i).getD 0 / ∑ i, (v i).getD 0) := by
  have hg := one_le_growth R
  obtain ⟨s1, s2, s3⟩ := vsum_near R hv
  have s4 := pos_of_near R s3 hs
  refine ⟨by rw [R.isZero]; exact ne_of_gt s4, ?_, ?_⟩
  · intro i b hb
    cases hi : v i with
    | none => simp [vapply, hi] at hb
    | some a =>
      have : b = o.div a (Model.Fr.vsum o v) := by simpa [vapply, hi] using hb.symm
      rw [this]
      exact (odiv_near R s3 (hv i a hi) s1 s4 hs).1
  · intro i
    cases hi : v i with
    | none =>
      simp only [vapply, hi, Option.map_none, Option.getD_none, zero_div]
      exact near_weaken hg (Nat.zero_le _) R.eta0 le_rfl le_rfl le_rfl (near_refl 0)
    | some a =>
      simp only [vapply, hi, Option.map_some, Option.getD_some]
      rw [add_comm n 1]
      exact (odiv_near R s3 (hv i a hi) s1 s4 hs).2

/-- the computed size of the last change -/
theorem change_near {x y : Vec n F} (hx : Good Rep x) (hy : Good Rep y) :
    Near (growth u) (n + 1) 0 (Model.Fr.vsum o (vapply o.abs (vadd o.sub x y)))
      (∑ i, |(x i).getD 0 - (y i).getD 0|) := by
  have hg := one_le_growth R
  have key : ∀ i, (∀ b, vapply o.abs (vadd o.sub x y) i = some b → Rep b ∧ 0 ≤ b) ∧
      Near (growth u) 1 0 ((vapply o.abs (vadd o.sub x y) i).getD 0) |(x i).getD 0 - (y i).getD 0| := by
    intro i
    unfold vapply vadd
    cases hxi : x i with
    | none =>
      cases hyi : y i with
      | none => simp [omerge, Near]
      | some b =>
        obtain ⟨r1, r2⟩ := hy i b hyi
        have ab : o.abs b = b := by rw [R.abs, abs_of_nonneg r2]
        simp only [omerge, Option.map_some, ab, Option.getD_some, Option.getD_none, zero_sub, abs_neg, abs_of_nonneg r2]
        refine ⟨fun z hz => ?_, near_weaken hg (Nat.zero_le 1) le_rfl r2 r2 le_rfl (near_refl b)⟩
        cases hz; exact ⟨r1, r2⟩
    | some a =>
      obtain ⟨r1, r2⟩ := hx i a hxi
      cases hyi : y i with
      | none =>
        have ab : o.abs a = a := by rw [R.abs, abs_of_nonneg r2]
        simp only [omerge, Option.map_some, ab, Option.getD_some, Option.getD_none, sub_zero, abs_of_nonneg r2]
        refine ⟨fun z hz => ?_, near_weaken hg (Nat.zero_le 1) le_rfl r2 r2 le_rfl (near_refl a)⟩
        cases hz; exact ⟨r1, r2⟩
      | some b =>
        obtain ⟨r3, r4⟩ := hy i b hyi
        obtain ⟨s1, s2⟩ := sub_near R r1 r3 r2 r4
        simp only [omerge, Option.map_some, Option.getD_some]
        refine ⟨fun z hz => ?_, s2⟩
        cases hz
        exact ⟨s1, by rw [R.abs]; exact abs_nonneg _⟩
  obtain ⟨-, -, q3⟩ := vsum_near R (v := vapply o.abs (vadd o.sub x y)) (fun i b hb => (key i).1 b hb)
  have := near_trans hg (Finset.sum_nonneg fun _ _ => le_rfl) q3 (near_sum Finset.univ fun i _ => (key i).2)
  simpa using this

/-- `N * tol` -/
theorem bound_near {tol : F} (ht : Rep tol ∧ 0 ≤ tol) : Near (growth u) 2 η (o.mul (o.nat n) tol) (n * tol) := by
  obtain ⟨n1, n2, n3⟩ := nat_near R n
  obtain ⟨-, m2⟩ := omul_near R n3 (near_refl tol) ⟨n1, n2⟩ ht (Nat.cast_nonneg n) ht.2 le_rfl
  simpa using m2

end Proofs.Fr
