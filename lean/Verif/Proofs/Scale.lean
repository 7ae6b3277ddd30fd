import Verif.Proofs.Units
import Verif.GB.Lemmas
import Verif.Proofs.Weights
import Verif.Model.Linalg
import Verif.Model.ClusterW
import Mathlib.Algebra.Order.Field.Basic
import Mathlib.Tactic.Ring
import Mathlib.Algebra.Order.BigOperators.Group.Finset
import Mathlib.Tactic.FieldSimp

/-! # The numeric functions on a graph with every weight multiplied by a constant -/

open GB Model Spec Proofs.Un

namespace Proofs.Sc

variable {K F : Type} {m n k : Nat}

section ring
variable [Field F] (c : F)

/-- multiplication of every stored value -/
abbrev sv (v : Vec n F) : Vec n F := vapply (fun x => c * x) v
abbrev sm (A : Mat m n F) : Mat m n F := mapply (fun x => c * x) A

theorem reduce_add (v : Vec n F) : reduce (· + ·) (sv c v) = (reduce (· + ·) v).map (fun x => c * x) :=
  reduce_vapply _ (fun a b => mul_add c a b) v

theorem getD_map (x : Option F) : (x.map (fun y => c * y)).getD 0 = c * x.getD 0 := by
  cases x <;> simp

theorem vsum_sv [LinearOrder F] (v : Vec n F) : vsum (sv c v) = c * vsum v := by
  unfold vsum; rw [reduce_add, getD_map]

theorem reduceRow_sm (A : Mat m n F) : reduceRow (· + ·) (sm c A) = sv c (reduceRow (· + ·) A) := by
  funext i; exact reduce_add c (A i)
theorem reduceCol_sm (A : Mat m n F) : reduceCol (· + ·) (sm c A) = sv c (reduceCol (· + ·) A) :=
  reduceRow_sm c (transpose A)
theorem reduceScalar_sm (A : Mat m n F) :
    reduceScalar (· + ·) (sm c A) = (reduceScalar (· + ·) A).map (fun x => c * x) := by
  simp only [reduceScalar, reduceRow_sm, reduce_add]

theorem ointer_mul_right (x y : Option F) :
    ointer (· * ·) x (y.map fun a => c * a) = (ointer (· * ·) x y).map fun a => c * a := by
  cases x <;> cases y <;> simp [ointer]; ring
theorem ointer_mul_left (x y : Option F) :
    ointer (· * ·) (x.map fun a => c * a) y = (ointer (· * ·) x y).map fun a => c * a := by
  cases x <;> cases y <;> simp [ointer]; ring

theorem vxm_right (x : Vec m F) (A : Mat m n F) : vxm (· + ·) (· * ·) x (sm c A) = sv c (vxm (· + ·) (· * ·) x A) := by
  funext j
  simp only [vxm, mapply, ointer_mul_right]
  exact reduce_add c _
theorem vxm_left (x : Vec m F) (A : Mat m n F) : vxm (· + ·) (· * ·) (sv c x) A = sv c (vxm (· + ·) (· * ·) x A) := by
  funext j
  simp only [vxm, vapply, ointer_mul_left]
  exact reduce_add c _
theorem mxv_right (A : Mat m n F) (x : Vec n F) : mxv (· + ·) (· * ·) A (sv c x) = sv c (mxv (· + ·) (· * ·) A x) := by
  funext j
  simp only [mxv, vapply, ointer_mul_right]
  exact reduce_add c _
theorem mxv_left (A : Mat m n F) (x : Vec n F) : mxv (· + ·) (· * ·) (sm c A) x = sv c (mxv (· + ·) (· * ·) A x) := by
  funext j
  simp only [mxv, mapply, ointer_mul_left]
  exact reduce_add c _
theorem mxm_right (A : Mat m k F) (B : Mat k n F) : mxm (· + ·) (· * ·) A (sm c B) = sm c (mxm (· + ·) (· * ·) A B) := by
  funext i j
  simp only [mxm, mapply, ointer_mul_right]
  exact reduce_add c _
theorem mxm_left (A : Mat m k F) (B : Mat k n F) : mxm (· + ·) (· * ·) (sm c A) B = sm c (mxm (· + ·) (· * ·) A B) := by
  funext i j
  simp only [mxm, mapply, ointer_mul_left]
  exact reduce_add c _

theorem first_any {α β γ : Type} (x : Option α) (y : Option β) (f : β → γ) :
    ointer first x (y.map f) = ointer first x y := by cases x <;> cases y <;> rfl

theorem vxm_first_right (x : Vec m F) (A : Mat m n F) : vxm (· + ·) first x (sm c A) = vxm (· + ·) first x A := by
  funext j; simp only [vxm, mapply, first_any]

theorem sv_sv (d : F) (v : Vec n F) : sv c (sv d v) = sv (c * d) v := by
  funext i; simp only [vapply, Option.map_map]; congr 1; funext a; simp [mul_assoc]
theorem sm_sm (d : F) (A : Mat m n F) : sm c (sm d A) = sm (c * d) A := by
  funext i j; simp only [mapply, Option.map_map]; congr 1; funext a; simp [mul_assoc]
theorem sv_one (v : Vec n F) : sv 1 v = v := by
  funext i; simp only [vapply, one_mul]; exact Option.map_id'
theorem sm_one (A : Mat m n F) : sm 1 A = A := by
  funext i j; simp only [mapply, one_mul]; exact Option.map_id'

/-- scaling is a change of weights -/
theorem sm_eq_mre {α β : Type} (f : α → β) (b : β) (A : Mat m n α) :
    mapply f A = Wt.mre (fun i j => ((A i j).map f).getD b) A := by
  funext i j; simp only [mapply, Wt.mre]; cases A i j <;> simp

end ring

section field
variable [Field F] [LinearOrder F] {c : F} (hc : c ≠ 0)
include hc

theorem prS_scale (alpha : F) (d : Vec n F) (k : F) :
    prS alpha (sv c d) (some (c * k)) = prS alpha d (some k) := by
  have e : ∀ k : F, prS alpha d (some k) = vapply (fun x => alpha / x * k) d := by
    intro k
    simp only [prS]
    split
    · funext i; simp [vapply]; rfl
    · rename_i h; simp only [ne_eq, not_not] at h; subst h; simp
  have e' : ∀ k : F, prS alpha (sv c d) (some k) = vapply (fun x => alpha / (c * x) * k) d := by
    intro k
    simp only [prS]
    split
    · funext i; simp [vapply]; rfl
    · rename_i h; simp only [ne_eq, not_not] at h; subst h; funext i; simp [vapply]; rfl
  rw [e, e']
  funext i
  simp only [vapply]
  congr 1
  funext x
  by_cases hx : x = 0
  · simp [hx]
  · field_simp

theorem prS_none (alpha : F) (d : Vec n F) : prS alpha (sv c d) none = sv c⁻¹ (prS alpha d none) := by
  funext i
  simp only [prS, vapply, Option.map_map]
  congr 1
  funext x
  simp only [Function.comp]
  by_cases hx : x = 0
  · simp [hx]
  · field_simp

theorem prS_isSome (alpha : F) (d : Vec n F) (iso : Option F) (i) :
    (prS alpha (sv c d) (iso.map (fun x => c * x)) i).isSome = (prS alpha d iso i).isSome := by
  cases iso with
  | none => simp [prS, vapply]
  | some k => rw [Option.map_some, prS_scale hc]

theorem prStep_scale (A : Mat n n F) (alpha : F) (d : Vec n F) (iso : Option F) (mask dw : Option (Vec n F))
    (p : F ⊕ Vec n F) (x : Vec n F) :
    prStep (sm c A) ⟨prS alpha (sv c d) (iso.map (fun x => c * x)), prMul (iso.map (fun x => c * x)), mask, dw, p⟩ x =
      prStep A ⟨prS alpha d iso, prMul iso, mask, dw, p⟩ x := by
  have ha : ∀ (S S' : Vec n F) (mu mu' : F → F → F) (y : Vec n F),
      prAddDangling ⟨S, mu, mask, dw, p⟩ x y = prAddDangling ⟨S', mu', mask, dw, p⟩ x y := by
    intros; rfl
  simp only [prStep]
  rw [ha (prS alpha d iso) (prS alpha (sv c d) (iso.map (fun x => c * x))) (prMul iso)
    (prMul (iso.map (fun x => c * x)))]
  congr 1
  cases iso with
  | none =>
    simp only [Option.map_none, prMul]
    rw [prS_none hc, vxm_right]
    have : vmul (· * ·) x (sv c⁻¹ (prS alpha d none)) = sv c⁻¹ (vmul (· * ·) x (prS alpha d none)) := by
      funext i; exact ointer_mul_right c⁻¹ _ _
    rw [this, vxm_left, sv_sv, mul_inv_cancel₀ hc, sv_one]
  | some k =>
    simp only [Option.map_some, prMul]
    rw [prS_scale hc, vxm_first_right]

theorem pagerankV_scale (A : Mat n n F) (iso : Option F) (alpha : F) (pers : Option (Vec n F)) (maxIter : Int)
    (tol : F) (nstart dangling : Option (Vec n F)) :
    pagerankV (sm c A) (iso.map (fun x => c * x)) alpha pers maxIter tol nstart dangling =
      pagerankV A iso alpha pers maxIter tol nstart dangling := by
  have hS : vS (prS alpha (reduceRow (· + ·) (sm c A)) (iso.map (fun x => c * x))) =
      vS (prS alpha (reduceRow (· + ·) A) iso) := by
    funext i; simp only [vS]; rw [reduceRow_sm]; exact prS_isSome hc _ _ _ _
  have hd : ∀ p, prDangling alpha (prS alpha (reduceRow (· + ·) (sm c A)) (iso.map (fun x => c * x))) p dangling =
      prDangling alpha (prS alpha (reduceRow (· + ·) A) iso) p dangling := by
    intro p
    have hn : nvals (prS alpha (reduceRow (· + ·) (sm c A)) (iso.map (fun x => c * x))) =
      nvals (prS alpha (reduceRow (· + ·) A) iso) := by
      simp only [nvals]
      congr 1
      refine Finset.filter_congr fun i _ => ?_
      exact Eq.to_iff (congrArg (· = true) (congrFun hS i))
    simp only [prDangling, hn, prMask, hS]
  simp only [pagerankV, mnvals_mapply, hd]
  split
  · rfl
  · congr 1; funext x; congr 1; funext p; congr 1; funext md
    rw [reduceRow_sm]
    congr 1
    funext y
    exact prStep_scale hc A alpha _ iso _ _ _ y

/-! ## google matrix -/

theorem gmScale_scale (alpha : F) (e : Fin n → Bool) (fill : Fin n → Option F) (A : Mat n n F)
    (he : ∀ i, e i = true → ∀ j, A i j = none) (p : F ⊕ Vec n F) :
    gmScale alpha (gmFill e fill (sm c A)) p = gmScale alpha (gmFill e fill A) p := by
  have key : ∀ i j, ointer (· * ·) (vapply (fun s => alpha / s) (reduceRow (· + ·) (gmFill e fill (sm c A))) i)
      (gmFill e fill (sm c A) i j) =
      ointer (· * ·) (vapply (fun s => alpha / s) (reduceRow (· + ·) (gmFill e fill A)) i) (gmFill e fill A i j) := by
    intro i j
    by_cases h : e i = true
    · have hr : gmFill e fill (sm c A) i = gmFill e fill A i := by
        funext l; simp [gmFill, mapply, he i h l]
      simp only [vapply, reduceRow, hr]
    · have hr : gmFill e fill (sm c A) i = sv c (gmFill e fill A i) := by
        funext l; simp only [gmFill, h, mapply, vapply]; cases A i l <;> simp [omerge]
      simp only [vapply, reduceRow, hr, reduce_add, Option.map_map]
      cases reduce (· + ·) (gmFill e fill A i) with
      | none => rfl
      | some s =>
        cases gmFill e fill A i j with
        | none => rfl
        | some a =>
          simp only [Option.map_some, ointer, Function.comp]
          by_cases hs : s = 0
          · simp [hs]
          · congr 1; field_simp
  unfold gmScale
  simp only [key]

theorem gmBody_scale (alpha : F) (A : Mat n n F) (pers dangling : Option (Vec n F)) (e : Fin n → Bool)
    (he : ∀ i, e i = true → ∀ j, A i j = none) :
    gmBody alpha (sm c A) pers dangling e = gmBody alpha A pers dangling e := by
  simp only [gmBody, gmScale_scale hc _ _ _ _ he]

omit hc [LinearOrder F] in
theorem countRow_sm (A : Mat m n F) : countRow (sm c A) = countRow A := by
  have := sm_eq_mre (fun x => c * x) 0 A
  show countRow (mapply (fun x => c * x) A) = _
  rw [this, Wt.countRow_mre]

omit hc [Field F] [LinearOrder F] in
theorem countRow_none (A : Mat m n F) (i : Fin m) (h : (!(countRow A i).isSome) = true) (j) : A i j = none := by
  simp only [Bool.not_eq_true', Option.isSome_eq_false_iff, Option.isNone_iff_eq_none, countRow] at h
  split at h
  · rename_i h0
    simp only [nvals, Finset.card_eq_zero, Finset.filter_eq_empty_iff] at h0
    have := h0 (Finset.mem_univ j)
    simpa using this
  · simp at h

/-! ## katz -/

theorem katzStep_scale (fill : Bool) (A : Mat n n F) (iso : Option F) (alpha : F) (b : F ⊕ Vec n F) (x : Vec n F) :
    katzStep fill (sm c A) (iso.map (fun x => c * x)) (alpha / c) b x = katzStep fill A iso alpha b x := by
  simp only [katzStep]
  congr 1
  cases iso with
  | none =>
    simp only [Option.map_none, prMul, katzAlpha, vxm_right]
    funext i
    simp only [vapply, Option.map_map]
    congr 1; funext a; simp only [Function.comp]; field_simp
  | some k =>
    simp only [Option.map_some, prMul, katzAlpha, vxm_first_right]
    have : alpha / c * (c * k) = alpha * k := by field_simp
    rw [this]

theorem katzV_scale (fill : Bool) (sqrt : F → F) (A : Mat n n F) (iso : Option F) (alpha : F) (beta : F ⊕ Vec n F)
    (maxIter : Int) (tol : F) (nstart : Option (Vec n F)) (normalized : Bool) :
    katzV fill sqrt (sm c A) (iso.map (fun x => c * x)) (alpha / c) beta maxIter tol nstart normalized =
      katzV fill sqrt A iso alpha beta maxIter tol nstart normalized := by
  have : katzStep fill (sm c A) (iso.map (fun x => c * x)) (alpha / c) beta = katzStep fill A iso alpha beta :=
    funext fun x => katzStep_scale hc fill A iso alpha beta x
  simp only [katzV, this]

end field

section ordered
variable [Field F] [LinearOrder F] [IsStrictOrderedRing F] {c : F} (hc : 0 < c)
include hc

/-! ## hits -/

theorem reduce_max (v : Vec n F) : reduce max (sv c v) = (reduce max v).map (fun x => c * x) :=
  reduce_vapply _ (fun a b => (monotone_mul_left_of_nonneg hc.le).map_max) v

theorem scaleBy_sv (d : F) (v : Vec n F) (hv : d = 0 → ∀ i, v i = none ∨ v i = some 0) :
    scaleBy (c * d) (sv c v) = scaleBy d v := by
  simp only [scaleBy, mul_eq_zero, hc.ne', false_or]
  split
  · rename_i h
    funext i
    rcases hv h i with h | h <;> simp [vapply, h]
  · funext i
    simp only [vapply, Option.map_map]
    congr 1; funext a; simp only [Function.comp]
    have := hc.ne'
    field_simp


omit hc
/-- no stored value is negative -/
def NonNeg (v : Vec n F) : Prop := ∀ i a, v i = some a → 0 ≤ a

theorem reduce_nonneg {v : Vec n F} (h : NonNeg v) {a : F} (ha : reduce (· + ·) v = some a) : 0 ≤ a := by
  unfold reduce at ha
  suffices ∀ (l : List (Fin n)) (acc : Option F), (∀ b, acc = some b → 0 ≤ b) →
      ∀ b, l.foldl (fun acc i => omerge (· + ·) acc (v i)) acc = some b → 0 ≤ b from
    this _ none (by simp) a ha
  intro l
  induction l with
  | nil => intro acc hacc b hb; exact hacc b hb
  | cons i is ih =>
    intro acc hacc b hb
    refine ih _ (fun b hb => ?_) b hb
    dsimp only at hb
    cases hacc' : acc with
    | none => rw [hacc'] at hb; cases hv : v i <;> rw [hv] at hb <;> simp [omerge] at hb; exact hb ▸ h i _ hv
    | some x =>
      rw [hacc'] at hb
      cases hv : v i with
      | none => rw [hv] at hb; simp [omerge] at hb; exact hb ▸ hacc _ hacc'
      | some y =>
        rw [hv] at hb; simp [omerge] at hb
        exact hb ▸ add_nonneg (hacc _ hacc') (h i _ hv)

theorem ointer_nonneg {x y : Option F} (hx : ∀ a, x = some a → 0 ≤ a) (hy : ∀ a, y = some a → 0 ≤ a) (a : F)
    (h : ointer (· * ·) x y = some a) : 0 ≤ a := by
  cases x with
  | none => simp [ointer] at h
  | some p =>
    cases y with
    | none => simp [ointer] at h
    | some q => simp [ointer] at h; exact h ▸ mul_nonneg (hx p rfl) (hy q rfl)

theorem vxm_nonneg {x : Vec m F} {A : Mat m n F} (hx : NonNeg x) (hA : ∀ i, NonNeg (A i)) :
    NonNeg (vxm (· + ·) (· * ·) x A) := fun j _ h =>
  reduce_nonneg (v := fun i => ointer (· * ·) (x i) (A i j)) (fun i a => ointer_nonneg (hx i) (hA i j) a) h

theorem mxv_nonneg {x : Vec n F} {A : Mat m n F} (hA : ∀ i, NonNeg (A i)) (hx : NonNeg x) :
    NonNeg (mxv (· + ·) (· * ·) A x) := fun i _ h =>
  reduce_nonneg (v := fun j => ointer (· * ·) (A i j) (x j)) (fun j a => ointer_nonneg (hA i j) (hx j) a) h

theorem mxm_nonneg {A : Mat m k F} {B : Mat k n F} (hA : ∀ i, NonNeg (A i)) (hB : ∀ i, NonNeg (B i)) (i) :
    NonNeg (mxm (· + ·) (· * ·) A B i) := fun j _ h =>
  reduce_nonneg (v := fun l => ointer (· * ·) (A i l) (B l j)) (fun l a => ointer_nonneg (hA i l) (hB l j) a) h

theorem scaleBy_nonneg {d : F} (hd : 0 ≤ d) {v : Vec n F} (hv : NonNeg v) : NonNeg (scaleBy d v) := by
  intro i a h
  unfold scaleBy at h
  split at h
  · exact hv i a h
  · simp only [vapply, Option.map_eq_some_iff] at h
    obtain ⟨b, hb, rfl⟩ := h
    exact mul_nonneg (hv i b hb) (one_div_nonneg.2 hd)

theorem max_nonneg {v : Vec n F} (hv : NonNeg v) : 0 ≤ (reduce max v).getD 0 := by
  cases h : reduce max v with
  | none => exact le_rfl
  | some b =>
    obtain ⟨⟨i, hi⟩, -⟩ := GB.reduce_max.1 h
    exact hv i b hi

theorem max_zero {v : Vec n F} (hv : NonNeg v) (h0 : (reduce max v).getD 0 = 0) (i) : v i = none ∨ v i = some 0 := by
  cases hvi : v i with
  | none => exact Or.inl rfl
  | some a =>
    right
    cases h : reduce max v with
    | none =>
      have := (reduce_isSome max v).2 ⟨i, by simp [hvi]⟩
      rw [h] at this; cases this
    | some b =>
      rw [h] at h0
      have hb : b = 0 := h0
      have := (GB.reduce_max.1 h).2 i a hvi
      rw [hb] at this
      rw [le_antisymm this (hv i a hvi)]

theorem sum_zero {v : Vec n F} (hv : NonNeg v) (h0 : vsum v = 0) (i) : v i = none ∨ v i = some 0 := by
  have hle : ∀ a, v i = some a → a ≤ vsum v := by
    intro a ha
    have e := GB.reduce_add v
    unfold vsum
    rw [e]
    have := Finset.single_le_sum (f := fun j => (v j).getD 0) (s := Finset.univ) (fun j _ => by
      show 0 ≤ (v j).getD 0
      cases hj : v j with
      | none => exact le_rfl
      | some b => exact hv j b hj) (Finset.mem_univ i)
    rw [show a = (v i).getD 0 by rw [ha]; rfl]
    exact this
  cases hvi : v i with
  | none => exact Or.inl rfl
  | some a =>
    have := hle a hvi
    rw [h0] at this
    exact Or.inr (by rw [le_antisymm this (hv i a hvi)])

include hc

theorem normalizeLinf_scale {v : Vec n F} (hv : NonNeg v) : normalizeLinf (sv c v) = normalizeLinf v := by
  unfold normalizeLinf
  rw [reduce_max hc, getD_map]
  exact scaleBy_sv hc _ v (max_zero hv)

theorem normalizeL1_scale {v : Vec n F} (hv : NonNeg v) : normalizeL1 (sv c v) = normalizeL1 v := by
  unfold normalizeL1
  rw [vsum_sv]
  exact scaleBy_sv hc _ v (sum_zero hv)

theorem hitsStep_scale {A : Mat n n F} (hA : ∀ i, NonNeg (A i)) {h a : Vec n F} (a' : Vec n F) (hh : NonNeg h) :
    hitsStep (sm c A) (h, a') = ((hitsStep A (h, a)).1, sv c (hitsStep A (h, a)).2) := by
  simp only [hitsStep, hitsA, vxm_right, mxv_left, mxv_right]
  rw [normalizeLinf_scale hc, normalizeLinf_scale hc]
  · exact mxv_nonneg hA (vxm_nonneg hh hA)
  · intro i a h
    simp only [vapply, Option.map_eq_some_iff] at h
    obtain ⟨b, hb, rfl⟩ := h
    exact mul_nonneg hc.le (mxv_nonneg hA (vxm_nonneg hh hA) i b hb)

omit hc in
theorem hitsStep_nonneg {A : Mat n n F} (hA : ∀ i, NonNeg (A i)) {s : Vec n F × Vec n F} (hh : NonNeg s.1) :
    NonNeg (hitsStep A s).1 ∧ NonNeg (hitsStep A s).2 :=
  ⟨scaleBy_nonneg (max_nonneg (mxv_nonneg hA (vxm_nonneg hh hA))) (mxv_nonneg hA (vxm_nonneg hh hA)),
    vxm_nonneg hh hA⟩

omit hc in
/-- the loop returns the result of a step from a state that satisfies the invariant -/
theorem powerIter_inv {σ : Type} {step : σ → σ} {conv : σ → σ → Bool} {I : σ → Prop} (hI : ∀ s, I s → I (step s)) :
    ∀ k s, I s → ∀ r, powerIter step conv k s = .ok r → I r
  | 0, _, _, r, h => by simp [powerIter] at h
  | k + 1, s, hs, r, h => by
    simp only [powerIter] at h
    split at h
    · cases h; exact hI s hs
    · exact powerIter_inv hI k _ (hI s hs) r h

omit hc in
/-- two loops whose states stay related -/
theorem powerIter_rel {σ τ : Type} {step : σ → σ} {conv : σ → σ → Bool} {step' : τ → τ} {conv' : τ → τ → Bool}
    {R : σ → τ → Prop} (hR : ∀ s t, R s t → R (step s) (step' t))
    (hc : ∀ s t, R s t → conv s (step s) = conv' t (step' t)) :
    ∀ k s t, R s t → (∃ e, powerIter step conv k s = .error e ∧ powerIter step' conv' k t = .error e) ∨
      ∃ r r', powerIter step conv k s = .ok r ∧ powerIter step' conv' k t = .ok r' ∧ R r r'
  | 0, s, t, _ => Or.inl ⟨_, rfl, rfl⟩
  | k + 1, s, t, h => by
    simp only [powerIter, ← hc s t h]
    split
    · exact Or.inr ⟨_, _, rfl, rfl, hR s t h⟩
    · exact powerIter_rel hR hc k _ _ (hR s t h)

omit hc in
theorem hitsInit_nonneg {nstart : Option (Vec n F)} (hs : ∀ v, nstart = some v → NonNeg v) {x : Vec n F}
    (h : hitsInit nstart = .ok x) : NonNeg x := by
  cases nstart with
  | none =>
    simp only [hitsInit] at h
    cases h
    intro i a ha
    cases ha
    positivity
  | some v =>
    simp only [hitsInit] at h
    split at h
    · cases h
    · cases h
      have hv := hs v rfl
      have : 0 ≤ vsum v := by
        unfold vsum
        cases h : reduce (· + ·) v with
        | none => exact le_rfl
        | some b => exact reduce_nonneg hv h
      intro i a ha
      simp only [vapply, Option.map_eq_some_iff] at ha
      obtain ⟨b, hb, rfl⟩ := ha
      exact mul_nonneg (hv i b hb) (one_div_nonneg.2 this)

theorem hitsV_scale {A : Mat n n F} (hA : ∀ i, NonNeg (A i)) (maxIter : Int) (tol : F) {nstart : Option (Vec n F)}
    (hs : ∀ v, nstart = some v → NonNeg v) (normalized : Bool) :
    hitsV (sm c A) maxIter tol nstart normalized = hitsV A maxIter tol nstart normalized := by
  simp only [hitsV]
  split
  · rfl
  · cases hx : hitsInit nstart with
    | error e => rfl
    | ok x =>
      simp only [bind, Except.bind]
      have h0 := hitsInit_nonneg hs hx
      rcases powerIter_rel (step := hitsStep (sm c A)) (step' := hitsStep A)
        (conv := fun s t => isConverged tol s.1 t.1) (conv' := fun s t => isConverged tol s.1 t.1)
        (R := fun s t => s.1 = t.1 ∧ s.2 = sv c t.2 ∧ NonNeg t.1 ∧ NonNeg t.2)
        (fun s t hst => by
          obtain ⟨s1, s2⟩ := s
          obtain ⟨t1, t2⟩ := t
          obtain ⟨rfl, -, ht, -⟩ := hst
          have := hitsStep_scale hc hA (h := s1) (a := t2) s2 ht
          have hn := hitsStep_nonneg hA (s := (s1, t2)) ht
          exact ⟨(congrArg Prod.fst this :), (congrArg Prod.snd this :), hn.1, hn.2⟩)
        (fun s t hst => by
          obtain ⟨s1, s2⟩ := s
          obtain ⟨t1, t2⟩ := t
          obtain ⟨rfl, -, ht, -⟩ := hst
          have := hitsStep_scale hc hA (h := s1) (a := t2) s2 ht
          rw [this]) maxIter.toNat (x, vempty) (x, vempty)
          ⟨rfl, rfl, h0, fun i a h => by simp [vempty] at h⟩ with ⟨e, h1, h2⟩ | ⟨r, r', h1, h2, hr1, hr2, hr3, hr4⟩
      · rw [h1, h2]
      · rw [h1, h2]
        simp only [pure, Except.pure, hr1, hr2, normalizeL1_scale hc hr4, normalizeLinf_scale hc hr4]

theorem hitsAuthV_scale {A : Mat n n F} (hA : ∀ i, NonNeg (A i)) (maxIter : Int) (tol : F)
    {nstart : Option (Vec n F)} (hs : ∀ v, nstart = some v → NonNeg v) (normalized : Bool) :
    hitsAuthV (sm c A) maxIter tol nstart normalized = hitsAuthV A maxIter tol nstart normalized := by
  have hT : ∀ i, NonNeg (transpose A i) := fun i j a h => hA j i a h
  have hM : ∀ i, NonNeg (authMatrix A i) := mxm_nonneg hT hA
  have hstep : ∀ a, NonNeg a → hitsAuthStep (sm c A) a = hitsAuthStep A a := by
    intro a ha
    simp only [hitsAuthStep, authMatrix]
    rw [show transpose (sm c A) = sm c (transpose A) from rfl, mxm_left, mxm_right, mxv_left, mxv_left,
      normalizeLinf_scale hc, normalizeLinf_scale hc]
    · exact mxv_nonneg hM ha
    · intro i b h
      simp only [vapply, Option.map_eq_some_iff] at h
      obtain ⟨b', hb, rfl⟩ := h
      exact mul_nonneg hc.le (mxv_nonneg hM ha i b' hb)
  have hpos : ∀ a, NonNeg a → NonNeg (hitsAuthStep A a) := fun a ha =>
    scaleBy_nonneg (max_nonneg (mxv_nonneg hM ha)) (mxv_nonneg hM ha)
  simp only [hitsAuthV]
  split
  · rfl
  · cases hx : hitsInit nstart with
    | error e => rfl
    | ok x =>
      simp only [bind, Except.bind]
      rcases powerIter_rel (step := hitsAuthStep (sm c A)) (step' := hitsAuthStep A)
        (conv := isConverged tol) (conv' := isConverged tol) (R := fun s t => s = t ∧ NonNeg t)
        (fun s t hst => by obtain ⟨rfl, ht⟩ := hst; exact ⟨hstep s ht, hpos s ht⟩)
        (fun s t hst => by obtain ⟨rfl, ht⟩ := hst; rw [hstep s ht]) maxIter.toNat x x
          ⟨rfl, hitsInit_nonneg hs hx⟩ with ⟨e, h1, h2⟩ | ⟨r, r', h1, h2, rfl, hr⟩
      · rw [h1, h2]
      · rw [h1, h2]
        have hh := mxv_nonneg hA hr
        simp only [mxv_left, pure, Except.pure, normalizeL1_scale hc hh, normalizeLinf_scale hc hh]

end ordered

end Proofs.Sc
