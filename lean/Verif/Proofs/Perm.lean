import Verif.Props.Relabel3
import Verif.Proofs.CacheMath
import Mathlib.Data.List.Perm.Basic

/-!
# Renumbering the rows commutes with the GraphBLAS operations

For exact arithmetic: `reduce` needs a commutative and associative operator.
-/

open GB Spec Model Model.Graph

namespace Proofs.Perm

variable {α β γ F : Type} {n : Nat} (σ : Equiv.Perm (Fin n))

/-- the vector with its entries renumbered -/
def pv (v : Vec n α) : Vec n α := fun i => v (σ i)
/-- the matrix with rows and columns renumbered -/
def pm (A : Mat n n α) : Mat n n α := fun i j => A (σ i) (σ j)

theorem finRange_perm : ((List.finRange n).map σ).Perm (List.finRange n) := by
  refine (List.perm_ext_iff_of_nodup ((List.nodup_finRange n).map σ.injective) (List.nodup_finRange n)).2 ?_
  intro a
  simp only [List.mem_map, List.mem_finRange, true_and, iff_true]
  exact ⟨σ.symm a, by simp⟩

theorem reduce_pv {op : α → α → α} (hc : ∀ a b, op a b = op b a) (ha : ∀ a b c, op (op a b) c = op a (op b c))
    (v : Vec n α) : reduce op (fun i => v (σ i)) = reduce op v := by
  unfold reduce
  rw [← List.Perm.foldl_eq' (finRange_perm σ) (f := fun acc i => omerge op acc (v i)), List.foldl_map]
  intro x _ y _ z
  rw [CacheMath.omerge_assoc ha, CacheMath.omerge_assoc ha, CacheMath.omerge_comm hc (v x)]

theorem nvals_pv (v : Vec n α) : nvals (fun i => v (σ i)) = nvals v := by
  unfold nvals
  refine Finset.card_bij (fun i _ => σ i) ?_ ?_ ?_
  · intro i hi; simpa using hi
  · intro i _ j _ h; exact σ.injective h
  · intro j hj; exact ⟨σ.symm j, by simpa using hj, by simp⟩

theorem mnvals_pm (A : Mat n n α) : mnvals (pm σ A) = mnvals A := by
  unfold mnvals
  refine Finset.card_bij (fun p _ => (σ p.1, σ p.2)) ?_ ?_ ?_
  · intro p hp
    simp only [Finset.mem_filter, Finset.mem_univ, true_and] at hp ⊢
    exact hp
  · rintro ⟨a, b⟩ _ ⟨c, d⟩ _ h
    simp only [Prod.mk.injEq, σ.injective.eq_iff] at h
    exact Prod.ext h.1 h.2
  · rintro ⟨a, b⟩ hj
    exact ⟨(σ.symm a, σ.symm b), Finset.mem_filter.2 ⟨Finset.mem_univ _, by
      have := (Finset.mem_filter.1 hj).2
      simpa only [pm, Equiv.apply_symm_apply] using this⟩, by simp⟩

theorem countRow_pm (A : Mat n n α) : countRow (pm σ A) = pv σ (countRow A) := by
  funext i
  unfold countRow pv
  have e : nvals (pm σ A i) = nvals (A (σ i)) := nvals_pv σ (A (σ i))
  rw [e]

section
variable [Field F] [LinearOrder F]

theorem red (v : Vec n F) : reduce (· + ·) (fun i => v (σ i)) = reduce (· + ·) v :=
  reduce_pv σ add_comm add_assoc v

theorem vsum_pv (v : Vec n F) : vsum (pv σ v) = vsum v := by
  unfold vsum; exact congrArg (·.getD 0) (red σ v)

theorem reduceRow_pm (A : Mat n n F) : reduceRow (· + ·) (pm σ A) = pv σ (reduceRow (· + ·) A) := by
  funext i; exact red σ (A (σ i))

theorem vapply_pv (g : α → β) (v : Vec n α) : vapply g (pv σ v) = pv σ (vapply g v) := rfl
theorem vadd_pv (g : α → α → α) (v w : Vec n α) : vadd g (pv σ v) (pv σ w) = pv σ (vadd g v w) := rfl
theorem vmul_pv (g : α → β → γ) (v : Vec n α) (w : Vec n β) : vmul g (pv σ v) (pv σ w) = pv σ (vmul g v w) := rfl
theorem transpose_pm (A : Mat n n α) : transpose (pm σ A) = pm σ (transpose A) := rfl

theorem vxm_pv (mul : α → β → F) (v : Vec n α) (A : Mat n n β) :
    vxm (· + ·) mul (pv σ v) (pm σ A) = pv σ (vxm (· + ·) mul v A) := by
  funext j; exact red σ (fun i => ointer mul (v i) (A i (σ j)))

theorem mxv_pv (mul : α → β → F) (A : Mat n n α) (v : Vec n β) :
    mxv (· + ·) mul (pm σ A) (pv σ v) = pv σ (mxv (· + ·) mul A v) := by
  funext j; exact red σ (fun i => ointer mul (A (σ j) i) (v i))

theorem mxm_pm (mul : α → β → F) (A : Mat n n α) (B : Mat n n β) :
    mxm (· + ·) mul (pm σ A) (pm σ B) = pm σ (mxm (· + ·) mul A B) := by
  funext i j; exact red σ (fun l => ointer mul (A (σ i) l) (B l (σ j)))

theorem dot_pv (mul : α → β → F) (v : Vec n α) (w : Vec n β) :
    dot (· + ·) mul (pv σ v) (pv σ w) = dot (· + ·) mul v w :=
  red σ (fun i => ointer mul (v i) (w i))

theorem isConverged_pv (tol : F) (x y : Vec n F) : isConverged tol (pv σ x) (pv σ y) = isConverged tol x y := by
  unfold isConverged
  rw [vadd_pv, vapply_pv, vsum_pv]

theorem scaleBy_pv (d : F) (x : Vec n F) : scaleBy d (pv σ x) = pv σ (scaleBy d x) := by
  unfold scaleBy; split_ifs <;> rfl

theorem normalizeL1_pv (x : Vec n F) : normalizeL1 (pv σ x) = pv σ (normalizeL1 x) := by
  unfold normalizeL1; rw [vsum_pv, scaleBy_pv]

theorem normalizeL2_pv (sqrt : F → F) (x : Vec n F) : normalizeL2 sqrt (pv σ x) = pv σ (normalizeL2 sqrt x) := by
  unfold normalizeL2; rw [dot_pv, scaleBy_pv]

theorem normalizeLinf_pv (x : Vec n F) : normalizeLinf (pv σ x) = pv σ (normalizeLinf x) := by
  unfold normalizeLinf
  rw [show reduce max (pv σ x) = reduce max x from reduce_pv σ max_comm max_assoc x, scaleBy_pv]

/-! ## loops -/

omit [Field F] [LinearOrder F] in
theorem powerIter_map {S : Type} (g : S → S) {step step' : S → S} {conv conv' : S → S → Bool}
    (hs : ∀ x, step' (g x) = g (step x)) (hc : ∀ x y, conv' (g x) (g y) = conv x y) (k : Nat) (x : S) :
    powerIter step' conv' k (g x) = (powerIter step conv k x).map g := by
  induction k generalizing x with
  | zero => rfl
  | succ k ih =>
    unfold powerIter
    rw [hs, hc, ih]
    split_ifs <;> rfl

/-- a number, or a vector renumbered -/
def ps : F ⊕ Vec n F → F ⊕ Vec n F
  | .inl c => .inl c
  | .inr v => .inr (pv σ v)

theorem prInit_pv (s : Option (Vec n F)) : prInit (s.map (pv σ)) = (prInit s).map (pv σ) := by
  cases s with
  | none => rfl
  | some s =>
    simp only [Option.map_some, prInit, vsum_pv]
    split_ifs <;> rfl

theorem hitsInit_pv (s : Option (Vec n F)) : hitsInit (s.map (pv σ)) = (hitsInit s).map (pv σ) := by
  cases s with
  | none => rfl
  | some s =>
    simp only [Option.map_some, hitsInit, vsum_pv]
    split_ifs <;> rfl

theorem eigInit_pv (s : Option (Vec n F)) : eigInit (s.map (pv σ)) = (eigInit s).map (pv σ) := by
  cases s with
  | none => rfl
  | some s =>
    simp only [Option.map_some, eigInit, vsum_pv]
    split_ifs <;> rfl

theorem prP_pv (s : Option (Vec n F)) : prP (s.map (pv σ)) = (prP s).map (ps σ) := by
  cases s with
  | none => rfl
  | some s =>
    simp only [Option.map_some, prP, vsum_pv]
    split_ifs <;> rfl

theorem prS_pv (alpha : F) (r : Vec n F) (iso : Option F) : prS alpha (pv σ r) iso = pv σ (prS alpha r iso) := by
  cases iso with
  | none => rfl
  | some c => simp only [prS]; split_ifs <;> rfl

theorem prMask_pv (S : Vec n F) : prMask (pv σ S) = pv σ (prMask S) := rfl

theorem prDangling_pv (alpha : F) (S : Vec n F) (p : F ⊕ Vec n F) (d : Option (Vec n F)) :
    prDangling alpha (pv σ S) (ps σ p) (d.map (pv σ)) =
      (prDangling alpha S p d).map fun q => (q.1.map (pv σ), q.2.map (pv σ)) := by
  unfold prDangling
  rw [show nvals (pv σ S) = nvals S from nvals_pv σ S]
  split_ifs
  · cases d with
    | some d =>
      simp only [Option.map_some, vsum_pv]
      split_ifs <;> rfl
    | none => cases p <;> rfl
  · rfl

theorem prScaleP_pv (alpha : F) (p : F ⊕ Vec n F) : prScaleP alpha (ps σ p) = ps σ (prScaleP alpha p) := by
  cases p <;> rfl

theorem prStep_pv (A : Mat n n F) (S : Vec n F) (mul : F → F → F) (m d : Option (Vec n F)) (p : F ⊕ Vec n F)
    (x : Vec n F) :
    prStep (pm σ A) ⟨pv σ S, mul, m.map (pv σ), d.map (pv σ), ps σ p⟩ (pv σ x) =
      pv σ (prStep A ⟨S, mul, m, d, p⟩ x) := by
  have hb : prBase (ps σ p) = pv σ (prBase p) := by cases p <;> rfl
  have ha : prAddDangling ⟨pv σ S, mul, m.map (pv σ), d.map (pv σ), ps σ p⟩ (pv σ x) (prBase (ps σ p)) =
      pv σ (prAddDangling ⟨S, mul, m, d, p⟩ x (prBase p)) := by
    rw [hb]
    cases m with
    | none => rfl
    | some m =>
      cases d with
      | none => simp only [prAddDangling, Option.map_some, Option.map_none, dot_pv]; rfl
      | some d => simp only [prAddDangling, Option.map_some, dot_pv]; rfl
  unfold prStep
  simp only [ha, vmul_pv, vxm_pv, vadd_pv]

theorem pagerankV_pv (A : Mat n n F) (iso : Option F) (alpha : F) (pers : Option (Vec n F)) (maxIter : Int)
    (tol : F) (nstart dangling : Option (Vec n F)) :
    pagerankV (pm σ A) iso alpha (pers.map (pv σ)) maxIter tol (nstart.map (pv σ)) (dangling.map (pv σ)) =
      (pagerankV A iso alpha pers maxIter tol nstart dangling).map (pv σ) := by
  unfold pagerankV
  rw [mnvals_pm, prInit_pv, prP_pv, reduceRow_pm, prS_pv]
  split_ifs
  · rfl
  · cases prInit nstart with
    | error e => rfl
    | ok x =>
      cases prP pers with
      | error e => rfl
      | ok p =>
        simp only [bind, Except.bind, Except.map, prDangling_pv, prScaleP_pv]
        cases prDangling alpha (prS alpha (reduceRow (· + ·) A) iso) p dangling with
        | error e => rfl
        | ok q =>
          exact powerIter_map (pv σ) (fun x => prStep_pv σ A _ _ _ _ _ x) (isConverged_pv σ tol) _ x

theorem katzStep_pv (fill : Bool) (A : Mat n n F) (iso : Option F) (alpha : F) (b : F ⊕ Vec n F) (x : Vec n F) :
    katzStep fill (pm σ A) iso alpha (ps σ b) (pv σ x) = pv σ (katzStep fill A iso alpha b x) := by
  unfold katzStep
  rw [vxm_pv, vapply_pv]
  cases b <;> rfl

theorem katzV_pv (fill : Bool) (sqrt : F → F) (A : Mat n n F) (iso : Option F) (alpha : F) (b : F ⊕ Vec n F)
    (maxIter : Int) (tol : F) (nstart : Option (Vec n F)) (normalized : Bool) :
    katzV fill sqrt (pm σ A) iso alpha (ps σ b) maxIter tol (nstart.map (pv σ)) normalized =
      (katzV fill sqrt A iso alpha b maxIter tol nstart normalized).map (pv σ) := by
  unfold katzV
  have h1 : katzCheck (ps σ b) = katzCheck b := by
    cases b with
    | inl c => rfl
    | inr v => simp only [ps, katzCheck]; rw [show nvals (pv σ v) = nvals v from nvals_pv σ v]
  have h2 : katzInit (nstart.map (pv σ)) = pv σ (katzInit nstart) := by cases nstart <;> rfl
  rw [h1, h2, powerIter_map (pv σ) (katzStep_pv σ fill A iso alpha b) (isConverged_pv σ tol)]
  cases katzCheck b with
  | error e => rfl
  | ok u =>
    cases powerIter (katzStep fill A iso alpha b) (isConverged tol) maxIter.toNat (katzInit nstart) with
    | error e => rfl
    | ok x =>
      simp only [bind, Except.bind, Except.map, pure, Except.pure]
      split_ifs
      · rw [normalizeL2_pv]
      · rfl

theorem eigV_pv (sqrt : F → F) (A : Mat n n F) (maxIter : Int) (tol : F) (nstart : Option (Vec n F)) :
    eigV sqrt (pm σ A) maxIter tol (nstart.map (pv σ)) = (eigV sqrt A maxIter tol nstart).map (pv σ) := by
  unfold eigV
  rw [eigInit_pv]
  split_ifs
  · rfl
  · cases eigInit nstart with
    | error e => rfl
    | ok x =>
      refine powerIter_map (pv σ) (fun x => ?_) (isConverged_pv σ tol) _ x
      unfold eigStep
      rw [vxm_pv, vadd_pv, normalizeL2_pv]

theorem hitsV_pv (A : Mat n n F) (maxIter : Int) (tol : F) (nstart : Option (Vec n F)) (normalized : Bool) :
    hitsV (pm σ A) maxIter tol (nstart.map (pv σ)) normalized =
      (hitsV A maxIter tol nstart normalized).map fun s => (pv σ s.1, pv σ s.2) := by
  unfold hitsV
  rw [hitsInit_pv]
  by_cases hn : n = 0
  · rw [if_pos hn, if_pos hn]; rfl
  rw [if_neg hn, if_neg hn]
  · cases hitsInit nstart with
    | error e => rfl
    | ok x =>
      have e := powerIter_map (fun s : Vec n F × Vec n F => (pv σ s.1, pv σ s.2))
        (step := hitsStep A) (step' := hitsStep (pm σ A)) (conv := fun s t => isConverged tol s.1 t.1)
        (conv' := fun s t => isConverged tol s.1 t.1)
        (fun s => by
          unfold hitsStep hitsA
          simp only [vxm_pv, mxv_pv, normalizeLinf_pv])
        (fun s t => isConverged_pv σ tol _ _) maxIter.toNat (x, vempty)
      simp only [bind, Except.bind, Except.map] at e ⊢
      rw [show (pv σ x, vempty) = (pv σ x, pv σ (vempty : Vec n F)) from rfl, e]
      cases powerIter (hitsStep A) (fun s t => isConverged tol s.1 t.1) maxIter.toNat (x, vempty) with
      | error e => rfl
      | ok s =>
        simp only [pure, Except.pure]
        split_ifs
        · rw [normalizeL1_pv, normalizeL1_pv]
        · rw [normalizeLinf_pv]

theorem hitsAuthV_pv (A : Mat n n F) (maxIter : Int) (tol : F) (nstart : Option (Vec n F)) (normalized : Bool) :
    hitsAuthV (pm σ A) maxIter tol (nstart.map (pv σ)) normalized =
      (hitsAuthV A maxIter tol nstart normalized).map fun s => (pv σ s.1, pv σ s.2) := by
  unfold hitsAuthV
  rw [hitsInit_pv]
  by_cases hn : n = 0
  · rw [if_pos hn, if_pos hn]; rfl
  rw [if_neg hn, if_neg hn]
  · cases hitsInit nstart with
    | error e => rfl
    | ok x =>
      have e := powerIter_map (pv σ) (step := hitsAuthStep A) (step' := hitsAuthStep (pm σ A))
        (conv := isConverged tol) (conv' := isConverged tol)
        (fun s => by
          unfold hitsAuthStep authMatrix
          rw [transpose_pm, mxm_pm, mxv_pv, normalizeLinf_pv])
        (isConverged_pv σ tol) maxIter.toNat x
      simp only [bind, Except.bind, Except.map] at e ⊢
      rw [e]
      cases powerIter (hitsAuthStep A) (isConverged tol) maxIter.toNat x with
      | error e => rfl
      | ok s =>
        simp only [pure, Except.pure]
        split_ifs
        · rw [mxv_pv, normalizeL1_pv, normalizeL1_pv]
        · rw [mxv_pv, normalizeLinf_pv]

end

end Proofs.Perm
