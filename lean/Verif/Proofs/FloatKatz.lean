import Verif.Proofs.FloatRank
import Verif.Model.FloatKatz

/-! # Rounding errors of one pass of `katz_centrality` -/

open GB Spec Model

namespace Proofs.Fr

variable {F : Type} [Field F] [LinearOrder F] [IsStrictOrderedRing F] {n : Nat} {o : Arith F} {Rep : F → Prop} {u η : F}
  (R : Rounded o Rep u η)

include R

/-- the underflow error of one value -/
def katzTiny (u η alpha B : F) (n : Nat) : F := growth u ^ (n + 2) * (η * (1 + n * alpha + B))

/-- `alpha * (xprev @ A)` at one node -/
theorem katz_product_near {A : Mat n n F} {alpha B : F} {iso : Option F} {x : Vec n F}
    (hA : ∀ i j a, A i j = some a → Rep a ∧ 0 ≤ a)
    (hiso : ∀ c, iso = some c → ∀ i j a, A i j = some a → a = c)
    (hcr : ∀ c, iso = some c → Rep c ∧ 0 ≤ c)
    (hal : Rep alpha ∧ 0 ≤ alpha) (hx : Good Rep x) (hB : ∑ i, (x i).getD 0 ≤ B) (j : Fin n) :
    let m := vapply (fun a => o.mul a (Model.Fk.katzAlpha o iso alpha))
      (Model.Fr.vxm o (Model.Fr.semiringMul o iso) x A) j
    (∀ b, m = some b → Rep b ∧ 0 ≤ b) ∧
    Near (growth u) (n + 2) (growth u ^ (n + 1) * (η * (1 + n * alpha + B))) (m.getD 0)
      (alpha * ∑ i, (x i).getD 0 * (A i j).getD 0) := by
  intro m
  have hg := one_le_growth R
  have hg0 : 0 ≤ growth u := by linarith
  have he := R.eta0
  have hAv : ∀ i, 0 ≤ (A i j).getD 0 := by
    intro i
    cases hij : A i j with
    | none => simp
    | some a => simpa using (hA i j a hij).2
  have hS0 : 0 ≤ ∑ i, (x i).getD 0 := Finset.sum_nonneg fun i _ => hx.val i
  have hB0 : 0 ≤ B := hS0.trans hB
  have hgn : 1 ≤ growth u ^ (n + 1) := one_le_pow₀ hg
  have ht : 0 ≤ growth u ^ (n + 1) * (η * (1 + n * alpha + B)) := by
    have := hal.2
    positivity
  have hz : 0 ≤ alpha * ∑ i, (x i).getD 0 * (A i j).getD 0 :=
    mul_nonneg hal.2 (Finset.sum_nonneg fun i _ => mul_nonneg (hx.val i) (hAv i))
  -- the sum
  have hsome : ∀ s, m = some s → ∃ s', Model.Fr.vxm o (Model.Fr.semiringMul o iso) x A j = some s' ∧
      s = o.mul s' (Model.Fk.katzAlpha o iso alpha) := by
    intro s hs
    obtain ⟨s', h1, h2⟩ := Option.map_eq_some_iff.1 hs
    exact ⟨s', h1, h2.symm⟩
  have hnone : m = none → Model.Fr.vxm o (Model.Fr.semiringMul o iso) x A j = none := by
    intro hs
    exact Option.map_eq_none_iff.1 hs
  cases iso with
  | none =>
    have key : ∀ i, (∀ b, ointer o.mul (x i) (A i j) = some b → Rep b ∧ 0 ≤ b) ∧
        Near (growth u) 1 η ((ointer o.mul (x i) (A i j)).getD 0) ((x i).getD 0 * (A i j).getD 0) := by
      intro i
      have zero : Near (growth u) 1 η 0 0 := near_weaken hg (Nat.zero_le _) he le_rfl le_rfl le_rfl (near_refl 0)
      cases hxx : x i with
      | none => simpa [ointer] using zero
      | some b =>
        cases hij : A i j with
        | none => simpa [ointer] using zero
        | some a =>
          obtain ⟨m1, m2, m3⟩ := mul_near R (hx i b hxx).1 (hA i j a hij).1 (hx i b hxx).2 (hA i j a hij).2
          exact ⟨fun c hc => by simp [ointer] at hc; subst hc; exact ⟨m1, m2⟩, by simpa [ointer] using m3⟩
    obtain ⟨f1, f2⟩ := fsum_near (n := n) R (v := fun i => ointer o.mul (x i) (A i j)) (fun i b hb => (key i).1 b hb)
    have hsum := near_sum Finset.univ (fun i _ => (key i).2)
    have f3 := near_trans hg (Finset.sum_nonneg fun _ _ => he) f2 hsum
    simp only [Finset.sum_const, Finset.card_univ, Fintype.card_fin, nsmul_eq_mul, zero_add] at f3
    have hgk : 0 ≤ growth u ^ n := pow_nonneg hg0 n
    have ht3 : 0 ≤ growth u ^ n * (n * η) := by positivity
    cases hm : m with
    | none =>
      refine ⟨by simp, ?_⟩
      have hv : Model.Fr.fsum o (fun i => ointer o.mul (x i) (A i j)) = none := hnone hm
      rw [hv] at f3
      -- the exact sum is tiny
      have f4 := near_mul hg f3 (near_refl alpha) le_rfl hal.2 (Finset.sum_nonneg fun i _ =>
        mul_nonneg (hx.val i) (hAv i)) hal.2 ht3
      rw [Option.getD_none, zero_mul, mul_comm (∑ i, (x i).getD 0 * (A i j).getD 0) alpha] at f4
      refine near_weaken (k := n + 1 + 0) (s := growth u ^ n * (n * η) * alpha) hg (by omega) ?_ hz le_rfl (by have := hal.2; positivity) f4
      have g1 : growth u ^ n ≤ growth u ^ (n + 1) := pow_le_pow_right₀ hg (by omega)
      calc growth u ^ n * (n * η) * alpha = growth u ^ n * (n * η * alpha) := by ring
        _ ≤ growth u ^ (n + 1) * (n * η * alpha) := mul_le_mul_of_nonneg_right g1 (by have := hal.2; positivity)
        _ ≤ growth u ^ (n + 1) * (η * (1 + n * alpha + B)) := by
          refine mul_le_mul_of_nonneg_left ?_ (by linarith)
          have e : η * (1 + n * alpha + B) = n * η * alpha + η * (1 + B) := by ring
          rw [e]
          have : 0 ≤ η * (1 + B) := by positivity
          linarith
    | some s =>
      obtain ⟨s', h1, rfl⟩ := hsome s hm
      have h1' : Model.Fr.fsum o (fun i => ointer o.mul (x i) (A i j)) = some s' := h1
      rw [h1'] at f3
      obtain ⟨p1, p2⟩ := omul_near R f3 (near_refl alpha) (f1 s' h1') hal (Finset.sum_nonneg fun i _ =>
        mul_nonneg (hx.val i) (hAv i)) hal.2 ht3
      rw [mul_comm (∑ i, (x i).getD 0 * (A i j).getD 0) alpha] at p2
      refine ⟨fun b hb => by cases hb; exact p1, ?_⟩
      refine near_weaken (k := 1 + (n + 1 + 0)) (s := η + growth u * (growth u ^ n * (n * η) * alpha)) hg (by omega) ?_ hz p1.2 (by have := hal.2; positivity) p2
      calc η + growth u * (growth u ^ n * (n * η) * alpha)
          = η * 1 + growth u ^ (n + 1) * (n * η * alpha) := by ring
        _ ≤ growth u ^ (n + 1) * η + growth u ^ (n + 1) * (n * η * alpha) := by
          have := mul_le_mul_of_nonneg_right hgn he
          linarith
        _ ≤ growth u ^ (n + 1) * (η * (1 + n * alpha + B)) := by
          have e : growth u ^ (n + 1) * (η * (1 + n * alpha + B)) =
            growth u ^ (n + 1) * η + growth u ^ (n + 1) * (n * η * alpha) + growth u ^ (n + 1) * (η * B) := by ring
          rw [e]
          have : 0 ≤ growth u ^ (n + 1) * (η * B) := by positivity
          linarith
  | some c =>
    obtain ⟨c1, c2⟩ := hcr c rfl
    have hval : ∀ i, (ointer first (x i) (A i j)).getD 0 * c = (x i).getD 0 * (A i j).getD 0 := by
      intro i
      cases hxx : x i with
      | none => simp [ointer]
      | some b =>
        cases hij : A i j with
        | none => simp [ointer]
        | some a => simp [ointer, first, hiso c rfl i j a hij]
    have hgd : Good Rep (fun i => ointer (first : F → F → F) (x i) (A i j)) := by
      intro i b hb
      cases hxx : x i with
      | none => simp [hxx, ointer] at hb
      | some b' =>
        cases hij : A i j with
        | none => simp [hij, hxx, ointer] at hb
        | some a =>
          simp [hij, hxx, ointer, first] at hb
          subst hb
          exact hx i b' hxx
    have hle : ∑ i, (ointer (first : F → F → F) (x i) (A i j)).getD 0 ≤ B := by
      refine le_trans (Finset.sum_le_sum fun i _ => ?_) hB
      cases hxx : x i with
      | none => simp [ointer]
      | some b =>
        have := (hx i b hxx).2
        cases hij : A i j <;> simpa [ointer, first] using this
    obtain ⟨f1, f2⟩ := fsum_near (n := n) R hgd
    have hS1 : 0 ≤ ∑ i, (ointer (first : F → F → F) (x i) (A i j)).getD 0 := Finset.sum_nonneg fun i _ => hgd.val i
    have e : (∑ i, (ointer (first : F → F → F) (x i) (A i j)).getD 0) * (alpha * c) =
        alpha * ∑ i, (x i).getD 0 * (A i j).getD 0 := by
      rw [← Finset.sum_congr rfl fun i _ => hval i, ← Finset.sum_mul]; ring
    cases hm : m with
    | none =>
      refine ⟨by simp, ?_⟩
      have hv : Model.Fr.fsum o (fun i => ointer (first : F → F → F) (x i) (A i j)) = none := hnone hm
      have : ∑ i, (ointer (first : F → F → F) (x i) (A i j)).getD 0 = 0 := by
        have hn : ¬ (Model.Fr.fsum o fun i => ointer (first : F → F → F) (x i) (A i j)).isSome = true := by
          rw [hv]; simp
        rw [fsum_isSome] at hn
        have hn : ∀ i, ¬ (ointer (first : F → F → F) (x i) (A i j)).isSome = true := fun i h => hn ⟨i, h⟩
        refine Finset.sum_eq_zero fun i _ => ?_
        rw [Option.not_isSome_iff_eq_none.1 (hn i)]; rfl
      rw [← e, this, zero_mul]
      exact near_weaken hg (Nat.zero_le _) ht le_rfl le_rfl le_rfl (near_refl 0)
    | some s =>
      obtain ⟨s', h1, rfl⟩ := hsome s hm
      have h1' : Model.Fr.fsum o (fun i => ointer (first : F → F → F) (x i) (A i j)) = some s' := h1
      rw [h1'] at f2
      obtain ⟨a1, a2, a3⟩ := mul_near R hal.1 c1 hal.2 c2
      obtain ⟨p1, p2⟩ := omul_near' R f2 a3 (f1 s' h1') ⟨a1, a2⟩ hS1 (mul_nonneg hal.2 c2) he
      rw [e] at p2
      refine ⟨fun b hb => by cases hb; exact p1, ?_⟩
      have hs' : s' ≤ growth u ^ n * B := by
        have := f2.1
        rw [add_zero] at this
        exact (show s' ≤ _ from this).trans (mul_le_mul_of_nonneg_left hle (pow_nonneg hg0 n))
      have hs0 := (f1 s' h1').2
      refine near_weaken (k := 1 + (1 + n)) (s := η + growth u * (η * s')) hg (by omega) ?_ hz p1.2 (by positivity) p2
      calc η + growth u * (η * s') ≤ η * 1 + growth u * (η * (growth u ^ n * B)) := by
            have := mul_le_mul_of_nonneg_left (mul_le_mul_of_nonneg_left hs' he) hg0
            linarith
        _ = η * 1 + growth u ^ (n + 1) * (η * B) := by ring
        _ ≤ growth u ^ (n + 1) * η + growth u ^ (n + 1) * (η * B) := by
          have := mul_le_mul_of_nonneg_right hgn he
          linarith
        _ ≤ growth u ^ (n + 1) * (η * (1 + n * alpha + B)) := by
          have e : growth u ^ (n + 1) * (η * (1 + n * alpha + B)) =
            growth u ^ (n + 1) * η + growth u ^ (n + 1) * (n * η * alpha) + growth u ^ (n + 1) * (η * B) := by ring
          rw [e]
          have : 0 ≤ growth u ^ (n + 1) * (n * η * alpha) := by have := hal.2; positivity
          linarith

/-- one pass -/
theorem katz_step_near {A : Mat n n F} {alpha B : F} {iso : Option F} {x : Vec n F} {fill : Bool} {b : F ⊕ Vec n F}
    {bv : Fin n → F} (hbv : ∀ j, Rep (bv j) ∧ 0 ≤ bv j)
    (hb : (∃ c, b = .inl c ∧ ∀ j, bv j = c) ∨ ∃ v, b = .inr v ∧ ∀ j, v j = some (bv j))
    (hfill : fill = true ∨ (∃ v, b = .inr v) ∨ ∀ j, ∃ i, (x i).isSome = true ∧ (A i j).isSome = true)
    (hA : ∀ i j a, A i j = some a → Rep a ∧ 0 ≤ a)
    (hiso : ∀ c, iso = some c → ∀ i j a, A i j = some a → a = c)
    (hcr : ∀ c, iso = some c → Rep c ∧ 0 ≤ c)
    (hal : Rep alpha ∧ 0 ≤ alpha) (hx : Good Rep x) (hB : ∑ i, (x i).getD 0 ≤ B) :
    let y := Model.Fk.katzStep o fill A iso alpha b x
    Good Rep y ∧ (∀ j, (y j).isSome = true) ∧
    ∀ j, Near (growth u) (n + 3) (katzTiny u η alpha B n) ((y j).getD 0)
      (alpha * (∑ i, (x i).getD 0 * (A i j).getD 0) + bv j) := by
  intro y
  have hg := one_le_growth R
  have hg0 : 0 ≤ growth u := by linarith
  have he := R.eta0
  have hS0 : 0 ≤ ∑ i, (x i).getD 0 := Finset.sum_nonneg fun i _ => hx.val i
  have hB0 : 0 ≤ B := hS0.trans hB
  set m := vapply (fun a => o.mul a (Model.Fk.katzAlpha o iso alpha))
    (Model.Fr.vxm o (Model.Fr.semiringMul o iso) x A) with hm
  have hy : ∀ j, y j = omerge o.add (m j) (some (bv j)) := by
    intro j
    show Model.Fk.katzAdd o fill b m j = _
    rcases hb with ⟨c, rfl, hc⟩ | ⟨v, rfl, hv⟩
    · show Model.Fk.addScalar o fill c m j = _
      unfold Model.Fk.addScalar
      cases hmj : m j with
      | some a => simp [omerge, hc]
      | none =>
        rcases hfill with rfl | ⟨v, hv⟩ | hd
        · simp [omerge, hc]
        · cases hv
        · exfalso
          obtain ⟨i, h1, h2⟩ := hd j
          have : (Model.Fr.vxm o (Model.Fr.semiringMul o iso) x A j).isSome = true := by
            unfold Model.Fr.vxm
            rw [fsum_isSome]
            refine ⟨i, ?_⟩
            obtain ⟨a, ha⟩ := Option.isSome_iff_exists.1 h1
            obtain ⟨c', hc'⟩ := Option.isSome_iff_exists.1 h2
            simp [ha, hc', ointer]
          obtain ⟨s, hs⟩ := Option.isSome_iff_exists.1 this
          rw [hm] at hmj
          simp [vapply, hs] at hmj
    · show vadd o.add m v j = _
      unfold vadd
      rw [hv j]
  have main : ∀ j, (∀ z, y j = some z → Rep z ∧ 0 ≤ z) ∧
      Near (growth u) (n + 3) (katzTiny u η alpha B n) ((y j).getD 0)
        (alpha * (∑ i, (x i).getD 0 * (A i j).getD 0) + bv j) := by
    intro j
    obtain ⟨k1, k2⟩ := katz_product_near R hA hiso hcr hal hx hB j
    have ht : 0 ≤ growth u ^ (n + 1) * (η * (1 + n * alpha + B)) := by
      have := hal.2
      positivity
    obtain ⟨o1, o2⟩ := omerge_near R (a := m j) (b := some (bv j)) k1 (by rintro z ⟨⟩; exact hbv j)
    rw [hy j]
    refine ⟨o1, ?_⟩
    have hb0 : Near (growth u) (n + 2) 0 (bv j) (bv j) :=
      near_weaken hg (Nat.zero_le _) le_rfl (hbv j).2 (hbv j).2 le_rfl (near_refl _)
    have a1 := near_add k2 hb0
    rw [add_zero] at a1
    have a2 := near_trans hg ht o2 a1
    rw [zero_add, pow_one] at a2
    have e : growth u * (growth u ^ (n + 1) * (η * (1 + n * alpha + B))) = katzTiny u η alpha B n := by
      unfold katzTiny; ring
    rw [e, show 1 + (n + 2) = n + 3 by omega] at a2
    exact a2
  refine ⟨fun j z hz => (main j).1 z hz, fun j => ?_, fun j => (main j).2⟩
  rw [hy j]
  cases m j <;> rfl

end Proofs.Fr
