import Verif.Model.Float
import Verif.Spec.Float
import Verif.Proofs.MachineFW

/-! Rounded addition is monotone, and its error along a walk. -/

open GB Model Spec Proofs.BF

namespace Proofs.Flt

section mono
variable {R : Type} [AddCommMonoid R] [LinearOrder R] [IsOrderedAddMonoid R] {r : Rounding R}

instance : MonoAdd (Fl r) where
  add_mono c h := r.mono (add_le_add_left (show Fl.val _ ≤ Fl.val _ from h) c.1)
  le_add x a h := by
    have h' : (0 : R) ≤ a.1 := h
    show x.1 ≤ r.fl (x.1 + a.1)
    calc x.1 = r.fl x.1 := x.2.symm
      _ ≤ _ := r.mono (le_add_of_nonneg_right h')

instance : AddCommMagma (Fl r) where
  add_comm x y := by
    apply Subtype.ext
    show r.fl (x.1 + y.1) = r.fl (y.1 + x.1)
    rw [add_comm]

omit [IsOrderedAddMonoid R] in
theorem le_iff {x y : Fl r} : x ≤ y ↔ x.val ≤ y.val := Iff.rfl
omit [IsOrderedAddMonoid R] in
theorem val_zero : (0 : Fl r).val = 0 := rfl
omit [IsOrderedAddMonoid R] in
theorem val_inj {x y : Fl r} (h : x.val = y.val) : x = y := Subtype.ext h

end mono

section err
variable {R : Type} [Field R] [LinearOrder R] [IsStrictOrderedRing R] {r : Rounding R} {S : R → Prop} {u B M : R}

/-- one rounded addition of two approximations -/
theorem add_err (acc : Accurate r S u B) {k : Nat} {x y : Fl r} {e f : R} (sx : S x.val) (sy : S y.val) (he : 0 ≤ e) (hf : 0 ≤ f)
    (hx : (1 - u) ^ k * e ≤ x.val ∧ x.val ≤ (1 + u) ^ k * e)
    (hy : (1 - u) ^ k * f ≤ y.val ∧ y.val ≤ (1 + u) ^ k * f) (hB : (1 + u) ^ k * (e + f) ≤ B) :
    S (x + y).val ∧ (1 - u) ^ (k + 1) * (e + f) ≤ (x + y).val ∧ (x + y).val ≤ (1 + u) ^ (k + 1) * (e + f) := by
  have h1 : 0 ≤ 1 - u := by linarith [acc.u_le]
  have h2 : 0 ≤ 1 + u := by linarith [acc.u_nonneg]
  have hx0 : 0 ≤ x.val := le_trans (mul_nonneg (pow_nonneg h1 _) he) hx.1
  have hy0 : 0 ≤ y.val := le_trans (mul_nonneg (pow_nonneg h1 _) hf) hy.1
  have hs : x.val + y.val ≤ (1 + u) ^ k * (e + f) := by rw [mul_add]; linarith [hx.2, hy.2]
  have hl : (1 - u) ^ k * (e + f) ≤ x.val + y.val := by rw [mul_add]; linarith [hx.1, hy.1]
  obtain ⟨hS, hacc⟩ := acc.add x y sx sy hx0 hy0 (hs.trans hB)
  replace hacc := abs_le.1 hacc
  refine ⟨hS, ?_, ?_⟩
  · calc (1 - u) ^ (k + 1) * (e + f) = (1 - u) * ((1 - u) ^ k * (e + f)) := by ring
      _ ≤ (1 - u) * (x.val + y.val) := mul_le_mul_of_nonneg_left hl h1
      _ ≤ _ := by linarith [hacc.1]
  · calc (x + y).val ≤ (1 + u) * (x.val + y.val) := by linarith [hacc.2]
      _ ≤ (1 + u) * ((1 + u) ^ k * (e + f)) := mul_le_mul_of_nonneg_left hs h2
      _ = _ := by ring

theorem pow_up (hu : 0 ≤ u) {a b : Nat} (h : a ≤ b) : (1 + u) ^ a ≤ (1 + u) ^ b :=
  pow_le_pow_right₀ (by linarith) h

theorem pow_down (h0 : 0 ≤ u) (hu : u ≤ 1) {a b : Nat} (h : a ≤ b) : (1 - u) ^ b ≤ (1 - u) ^ a :=
  pow_le_pow_of_le_one (by linarith) (by linarith) h

theorem weaken (h0 : 0 ≤ u) (hu : u ≤ 1) {a b : Nat} (h : a ≤ b) {x e : R} (he : 0 ≤ e)
    (hx : (1 - u) ^ a * e ≤ x ∧ x ≤ (1 + u) ^ a * e) :
    (1 - u) ^ b * e ≤ x ∧ x ≤ (1 + u) ^ b * e :=
  ⟨(mul_le_mul_of_nonneg_right (pow_down h0 hu h) he).trans hx.1,
   hx.2.trans (mul_le_mul_of_nonneg_right (pow_up h0 h) he)⟩

/-- the same edges with their exact weights -/
def RW {V : Type*} (W : V → V → Fl r → Prop) : V → V → R → Prop := fun x y a => ∃ w, W x y w ∧ w.val = a

section walk
variable {V : Type*} {W : V → V → Fl r → Prop} (acc : Accurate r S u B)
  (hW : ∀ x y w, W x y w → 0 ≤ w.val ∧ w.val ≤ M) (hS : ∀ x y w, W x y w → S w.val)
include acc hW hS

/-- the sum along a walk, both ways round -/
theorem walk_err {N : Nat} (hB : (1 + u) ^ N * (N * M) ≤ B) {k : Nat} (hk : k ≤ N) {x y : V} :
    (∀ c, WWalk W k c x y → ∃ e, WWalk (RW W) k e x y ∧ 0 ≤ e ∧ e ≤ k * M ∧
      S c.val ∧ (1 - u) ^ k * e ≤ c.val ∧ c.val ≤ (1 + u) ^ k * e) ∧
    (∀ e, WWalk (RW W) k e x y → ∃ c, WWalk W k c x y ∧ 0 ≤ e ∧ e ≤ k * M ∧
      S c.val ∧ (1 - u) ^ k * e ≤ c.val ∧ c.val ≤ (1 + u) ^ k * e) := by
  induction k generalizing y with
  | zero =>
    constructor
    · intro c h
      obtain ⟨rfl, rfl⟩ := wwalk_zero.1 h
      exact ⟨0, .nil _, le_rfl, by simp, acc.zero, by simp [val_zero], by simp [val_zero]⟩
    · intro c h
      obtain ⟨rfl, rfl⟩ := wwalk_zero.1 h
      exact ⟨0, .nil _, le_rfl, by simp, acc.zero, by simp [val_zero], by simp [val_zero]⟩
  | succ k ih =>
    have key : ∀ {c w : Fl r} {e : R} {z : V}, W z y w → 0 ≤ e → e ≤ k * M →
        (S c.val ∧ (1 - u) ^ k * e ≤ c.val ∧ c.val ≤ (1 + u) ^ k * e) →
        0 ≤ e + w.val ∧ e + w.val ≤ ((k + 1 : Nat) : R) * M ∧
        S (c + w).val ∧ (1 - u) ^ (k + 1) * (e + w.val) ≤ (c + w).val ∧ (c + w).val ≤ (1 + u) ^ (k + 1) * (e + w.val) := by
      intro c w e z hw h0 he hc
      obtain ⟨w0, wM⟩ := hW _ _ _ hw
      have hM : e + w.val ≤ ((k + 1 : Nat) : R) * M := by push_cast; linarith
      have hM0 : 0 ≤ M := w0.trans wM
      refine ⟨add_nonneg h0 w0, hM, add_err acc hc.1 (hS _ _ _ hw) h0 w0 hc.2 ?_ ?_⟩
      · simpa using weaken acc.u_nonneg acc.u_le (Nat.zero_le k) w0 (x := w.val) (by simp)
      · refine le_trans ?_ hB
        refine mul_le_mul (pow_up acc.u_nonneg (by omega)) (hM.trans ?_) (add_nonneg h0 w0)
          (pow_nonneg (by linarith [acc.u_nonneg]) _)
        exact mul_le_mul_of_nonneg_right (Nat.cast_le.2 hk) hM0
    constructor
    · intro c h
      obtain ⟨z, c', w, h1, h2, rfl⟩ := wwalk_succ.1 h
      obtain ⟨e, h3, h4, h5, h6⟩ := (ih (by omega)).1 c' h1
      exact ⟨e + w.val, h3.snoc ⟨w, h2, rfl⟩, key h2 h4 h5 h6⟩
    · intro e h
      obtain ⟨z, e', a, h1, ⟨w, h2, rfl⟩, rfl⟩ := wwalk_succ.1 h
      obtain ⟨c, h3, h4, h5, h6⟩ := (ih (by omega)).2 e' h1
      exact ⟨c + w, h3.snoc h2, key h2 h4 h5 h6⟩

/-- minima of rounded sums are close to exact distances -/
theorem dist_err [Fintype V] (hfin : ∀ a b, {w | W a b w}.Finite) {N : Nat} (hN : Fintype.card V ≤ N + 1) (hB : (1 + u) ^ N * (N * M) ≤ B) {x y : V} :
    (∀ d, IsWDist W x d y → ∃ e, IsWDist (RW W) x e y) ∧
    (∀ e, IsWDist (RW W) x e y → ∃ d, IsWDist W x d y) ∧
    ∀ d e, IsWDist W x d y → IsWDist (RW W) x e y →
      0 ≤ e ∧ (1 - u) ^ N * e ≤ d.val ∧ d.val ≤ (1 + u) ^ N * e := by
  have hW0 : ∀ a b w, W a b w → 0 ≤ w := fun a b w h => (hW a b w h).1
  have hR0 : ∀ a b w, RW W a b w → 0 ≤ w := by
    rintro a b _ ⟨w, hw, rfl⟩; exact (hW a b w hw).1
  refine ⟨?_, ?_, ?_⟩
  · rintro d ⟨⟨k, hk⟩, -⟩
    obtain ⟨k', d', k1, -, -, k4⟩ := shorten_nonneg hW0 hk
    obtain ⟨e, e1, -⟩ := (walk_err acc hW hS hB (k := k') (by omega)).1 _ k4
    refine exists_wdist_nonneg (fun a b => ?_) hR0 e1
    exact ((hfin a b).image Fl.val).subset fun _ ⟨w, hw, h⟩ => ⟨w, hw, h⟩
  · rintro e ⟨⟨k, hk⟩, -⟩
    obtain ⟨k', d', k1, -, -, k4⟩ := shorten_nonneg hR0 hk
    obtain ⟨e, e1, -⟩ := (walk_err acc hW hS hB (k := k') (by omega)).2 _ k4
    exact exists_wdist_nonneg hfin hW0 e1
  · rintro d e ⟨⟨k, hk⟩, hd⟩ ⟨⟨l, hl⟩, he⟩
    obtain ⟨k', d', k1, -, k3, k4⟩ := shorten_nonneg hW0 hk
    obtain rfl := le_antisymm k3 (hd _ _ k4)
    obtain ⟨l', e', l1, -, l3, l4⟩ := shorten_nonneg hR0 hl
    obtain rfl := le_antisymm l3 (he _ _ l4)
    obtain ⟨f, f1, f2, f3, -, f4, f5⟩ := (walk_err acc hW hS hB (k := k') (by omega)).1 _ k4
    obtain ⟨c, c1, c2, c3, -, c4, c5⟩ := (walk_err acc hW hS hB (k := l') (by omega)).2 _ l4
    refine ⟨c2, ?_, ?_⟩
    · refine le_trans ?_ f4
      exact mul_le_mul (pow_down acc.u_nonneg acc.u_le (by omega)) (he _ _ f1) c2
        (pow_nonneg (by linarith [acc.u_le]) _)
    · refine le_trans (le_iff.1 (hd _ _ c1)) (c5.trans ?_)
      exact mul_le_mul_of_nonneg_right (pow_up acc.u_nonneg (by omega)) c2

end walk

/-! ### Floyd-Warshall -/

section fw
open Proofs.FW Proofs.Mach
variable {n : Nat}

/-- the rounded matrix follows the exact one, `k` roundings deep -/
def Sim (S : R → Prop) (u : R) (k : Nat) (D : Mat n n (Fl r)) (E : Mat n n R) : Prop := ∀ a b,
  (D a b = none ∧ E a b = none) ∨ ∃ d e, D a b = some d ∧ E a b = some e ∧ 0 ≤ e ∧
    S d.val ∧ (1 - u) ^ k * e ≤ d.val ∧ d.val ≤ (1 + u) ^ k * e

theorem sim_vals {A : Mat n n (Fl r)} (hA : ∀ a b w, A a b = some w → 0 ≤ w.val)
    (hS : ∀ a b w, A a b = some w → S w.val) :
    Sim S u 0 A (mapply Fl.val A) := by
  intro a b
  cases h : A a b with
  | none => exact Or.inl ⟨rfl, by simp [mapply, h]⟩
  | some w => exact Or.inr ⟨w, w.val, rfl, by simp [mapply, h], hA _ _ _ h, hS _ _ _ h, by simp, by simp⟩

theorem fwStep_sim (acc : Accurate r S u B) {k : Nat} {D : Mat n n (Fl r)} {E : Mat n n R}
    (h : Sim S u k D E) {T : R} (hT : ∀ a b e, E a b = some e → e ≤ T) (hB : (1 + u) ^ k * (2 * T) ≤ B)
    (choose choose') (x : Fin n) :
    Sim S u (k + 1) (fwStep true choose D x) (fwStep true choose' E x) := by
  have h1u : 0 ≤ 1 - u := by linarith [acc.u_le]
  have h2u : 0 ≤ 1 + u := by linarith [acc.u_nonneg]
  have hout : Sim S u (k + 1) (offdiag (fwOuter D x)) (offdiag (fwOuter E x)) := by
    intro a b
    unfold offdiag
    split
    · exact Or.inl ⟨rfl, rfl⟩
    · unfold fwOuter
      rcases h a x with ⟨p1, p2⟩ | ⟨d, e, p1, p2, p3, p4⟩
      · exact Or.inl ⟨by rw [p1]; rfl, by rw [p2]; rfl⟩
      · rcases h x b with ⟨q1, q2⟩ | ⟨d', e', q1, q2, q3, q4⟩
        · exact Or.inl ⟨by rw [p1, q1]; rfl, by rw [p2, q2]; rfl⟩
        · refine Or.inr ⟨d + d', e + e', by rw [p1, q1]; rfl, by rw [p2, q2]; rfl,
            add_nonneg p3 q3, add_err acc p4.1 q4.1 p3 q3 p4.2 q4.2 (le_trans ?_ hB)⟩
          refine mul_le_mul_of_nonneg_left ?_ (pow_nonneg h2u _)
          linarith [hT _ _ _ p2, hT _ _ _ q2]
  intro a b
  show (omerge min (D a b) _ = none ∧ omerge min (E a b) _ = none) ∨
    ∃ d e, omerge min (D a b) _ = some d ∧ omerge min (E a b) _ = some e ∧ _
  rcases h a b with ⟨p1, p2⟩ | ⟨d, e, p1, p2, p3, p4⟩
  · rcases hout a b with ⟨q1, q2⟩ | ⟨d', e', q1, q2, q3⟩
    · exact Or.inl ⟨by rw [p1, q1]; rfl, by rw [p2, q2]; rfl⟩
    · exact Or.inr ⟨d', e', by rw [p1, q1]; rfl, by rw [p2, q2]; rfl, q3⟩
  · have p5 := weaken acc.u_nonneg acc.u_le (Nat.le_succ k) p3 p4.2
    rcases hout a b with ⟨q1, q2⟩ | ⟨d', e', q1, q2, q3, sq, q4⟩
    · exact Or.inr ⟨d, e, by rw [p1, q1]; rfl, by rw [p2, q2]; rfl, p3, p4.1, p5⟩
    · refine Or.inr ⟨min d d', min e e', by rw [p1, q1]; rfl, by rw [p2, q2]; rfl, le_min p3 q3, ?_, ?_, ?_⟩
      · rcases min_choice d d' with hm | hm <;> rw [hm]
        exacts [p4.1, sq]
      · have hmin : (min d d').val = min d.val d'.val := by
          rcases le_total d d' with hle | hle
          · rw [min_eq_left hle, min_eq_left (le_iff.1 hle)]
          · rw [min_eq_right hle, min_eq_right (le_iff.1 hle)]
        rw [hmin]
        refine le_min (le_trans ?_ p5.1) (le_trans ?_ q4.1)
        · exact mul_le_mul_of_nonneg_left (min_le_left _ _) (pow_nonneg h1u _)
        · exact mul_le_mul_of_nonneg_left (min_le_right _ _) (pow_nonneg h1u _)
      · rcases le_total e e' with hle | hle
        · rw [min_eq_left hle]
          exact le_trans (le_iff.1 (min_le_left d d')) p5.2
        · rw [min_eq_right hle]
          exact le_trans (le_iff.1 (min_le_right d d')) q4.2

theorem fwFold_sim (acc : Accurate r S u B) {W : Fin n → Fin n → R → Prop}
    (hW : ∀ a b w, W a b w → 0 ≤ w ∧ w ≤ M) (hM : 0 ≤ M)
    {N : Nat} (hB : (1 + u) ^ N * (2 * ((n - 1 : R) * M)) ≤ B) (hno : ∀ x, ¬ NegCycleAt W x)
    (choose choose') (l : List (Fin n)) {k : Nat} (hk : k + l.length ≤ N) {I : Fin n → Prop}
    {D : Mat n n (Fl r)} {E : Mat n n R} (h : Sim S u k D E) (hE : Inv2 W I E) :
    Sim S u (k + l.length) (l.foldl (fwStep true choose) D) (l.foldl (fwStep true choose') E) := by
  induction l generalizing k I D E with
  | nil => exact h
  | cons x l ih =>
    rw [List.length_cons] at hk ⊢
    rw [List.foldl_cons, List.foldl_cons, show k + (l.length + 1) = (k + 1) + l.length by omega]
    have hT : ∀ a b e, E a b = some e → e ≤ (n - 1 : R) * M := fun a b e he =>
      (hE.bounds hno hW le_rfl hM he).2
    refine ih (by omega) (fwStep_sim acc h hT ?_ choose choose' x) (hE.step hno choose' x)
    refine le_trans (mul_le_mul_of_nonneg_right (pow_up acc.u_nonneg (by omega)) ?_) hB
    have : (0 : R) ≤ n - 1 := by
      have : ((1 : Nat) : R) ≤ n := Nat.cast_le.2 x.pos
      simpa using this
    exact mul_nonneg zero_le_two (mul_nonneg this hM)

/-- distances of Floyd-Warshall -/
theorem fwDist_sim (acc : Accurate r S u B) {A : Mat n n (Fl r)}
    (hA : ∀ a b w, A a b = some w → 0 ≤ w.val ∧ w.val ≤ M)
    (hS : ∀ a b w, A a b = some w → S w.val) (hM : 0 ≤ M)
    (hB : (1 + u) ^ n * (2 * ((n - 1 : R) * M)) ≤ B)
    (directed : Bool) (hs : directed = false → ∀ i j, A i j = A j i) (choose choose') :
    Sim S u n (fwDist directed choose A) (fwDist directed choose' (mapply Fl.val A)) := by
  have hO : ∀ a b w, offdiag A a b = some w → 0 ≤ w.val ∧ w.val ≤ M := by
    intro a b w h
    unfold offdiag at h
    split at h
    · cases h
    · exact hA _ _ _ h
  have hOS : ∀ a b w, offdiag A a b = some w → S w.val := by
    intro a b w h
    unfold offdiag at h
    split at h
    · cases h
    · exact hS _ _ _ h
  have hW : ∀ a b w, MW (offdiag (mapply Fl.val A)) a b w → 0 ≤ w ∧ w ≤ M := by
    intro a b w h
    rw [← offdiag_apply, mw_val] at h
    obtain ⟨w', h1, rfl⟩ := h
    exact hO _ _ _ h1
  have hno : ∀ x, ¬ NegCycleAt (MW (offdiag (mapply Fl.val A))) x := by
    rintro x ⟨k, c, hw, hc⟩
    exact absurd (wwalk_nonneg (fun a b w h => (hW a b w h).1) hw) (not_le.2 hc)
  have hstart : Inv2 (MW (offdiag (mapply Fl.val A))) (fun _ => False) (mapply Fl.val (offdiag A)) := by
    rw [offdiag_apply]
    exact ⟨inv_start _, fun u v c hc => ⟨c, .single hc⟩⟩
  have hfold : ∀ l : List (Fin n), l.length ≤ n →
      Sim S u n (l.foldl (fwStep true choose) (offdiag A))
        (l.foldl (fwStep true choose') (offdiag (mapply Fl.val A))) := by
    intro l hl
    have := fwFold_sim acc hW hM hB hno choose choose' l (k := 0) (by omega)
      (sim_vals (fun a b w h => (hO a b w h).1) hOS) hstart
    rw [offdiag_apply] at this
    intro a b
    rcases this a b with h | ⟨d, e, h1, h2, h3, hs, h4⟩
    · exact Or.inl h
    · exact Or.inr ⟨d, e, h1, h2, h3, hs, weaken acc.u_nonneg acc.u_le (by omega) h3 h4⟩
  have hlen : ∀ p : Fin n → Bool, ((List.finRange n).filter p).length ≤ n := fun p =>
    (List.length_filter_le _ _).trans (by simp)
  intro a b
  by_cases hab : a = b
  · refine Or.inr ⟨0, 0, by simp [fwDist, fwFinish, hab], by simp [fwDist, fwFinish, hab], le_rfl, acc.zero, ?_, ?_⟩
    <;> simp [val_zero]
  cases directed with
  | true =>
    have := hfold _ (hlen (fwNonempty true A)) a b
    simp only [fwDist, fwFinish, fwStart, if_true, fwLoop, if_neg hab]
    rw [fwNonempty_val]
    exact this
  | false =>
    have hs' : ∀ i j, mapply Fl.val A i j = mapply Fl.val A j i := fun i j => by
      simp [mapply, hs rfl i j]
    have := hfold _ (hlen (fwNonempty false A)) a b
    simp only [fwDist, fwFinish, fwStart, Bool.false_eq_true, if_false, fwLoop, if_neg hab]
    rw [fwNonempty_val]
    generalize (List.finRange n).filter (fwNonempty false A) = l at *
    obtain ⟨h1, h2⟩ := loopU (upper_triu1 A) choose l
    obtain ⟨h3, h4⟩ := loopU (upper_triu1 (mapply Fl.val A)) choose' l
    rw [symU_triu1 (hs rfl)] at h2
    rw [symU_triu1 hs'] at h4
    have e1 : madd choose (l.foldl (fwStep false choose) (triu1 A))
        (transpose (l.foldl (fwStep false choose) (triu1 A))) a b = symU _ a b :=
      merge_upper h1 choose a b
    have e2 : madd choose' (l.foldl (fwStep false choose') (triu1 (mapply Fl.val A)))
        (transpose (l.foldl (fwStep false choose') (triu1 (mapply Fl.val A)))) a b = symU _ a b :=
      merge_upper h3 choose' a b
    rw [e1, e2, h2, h4]
    exact this

end fw
end err
end Proofs.Flt
