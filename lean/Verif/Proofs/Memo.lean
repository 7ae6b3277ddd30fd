import Verif.Model.Memo
import Verif.Proofs.Cache

open GB Spec.Prop Model Model.Cache Model.Memo Proofs.CacheMath

namespace Proofs.Memo
open Proofs.Cache

variable {ι α : Type} [DecidableEq ι] [LinearOrder α] [Zero α] {c : Ctx ι α}
  {E : Err → Prop} {S : Key ι → Prop} {b : Type} {T : b → Key ι → Prop} {Q : b → Prop}
  {strict ex : Prop}

/-- a lookup followed by code that uses the defined value -/
theorem sat_getThen (hv : c.Valid) {al : Bool} {mask : Option (VMask c.n)} {k : Key ι}
    {f : Val c.n α k → M c b}
    (h1 : k ≠ .hasSelf) (h2 : k ≠ .negDiag)
    (h3 : c.dir = true → k = .totdeg .p → mask = none → NoSelf c.A)
    (hE : ∀ e, Allowed c strict k e → E e)
    (h : Sat (good c strict ex) E S (f (restrict mask k (value c k))) T Q)
    (h4 : k = .neg .p ∨ k = .elem c.mn .p → ex → MinOK c := by simp) :
    Sat (good c strict ex) E S (getProp c al mask k >>= f) T Q := by
  refine sat_callT ((sat_getProp (S := S) hv al mask k (by simp [h2]) h3 (fun a b => h4 b a)).conseq (fun _ h => h) hE
    (fun _ h => h) (by mem)) fun x hx => ?_
  rw [hx.1 h1 h2]
  exact h

/-- what `nx.transitivity` computes from the matrix -/
def transVal (c : Ctx ι α) : ℚ :=
  if c.dir then
    let A := offdiag c.A
    let numerator := (reduceScalar (· + ·) (massignR (mS A) (mxm (· + ·) pairN A (transpose A)))).getD 0
    if numerator = 0 then 0
    else numerator / ((reduce (· + ·) (degDenom (countRow A))).getD 0 : Int)
  else
    if totalTriangles c.A = 0 then 0
    else 6 * totalTriangles c.A / ((reduce (· + ·) (degDenom (countRow (offdiag c.A)))).getD 0 : Int)

theorem sat_transitivity (hv : c.Valid) :
    Sat (good c strict ex) (fun _ => False) S (if c.dir then transitivityDirM c else transitivityM c) noK
      (fun v => v = transVal c) := by
  unfold transVal
  cases hd : c.dir
  · simp only [Bool.false_eq_true, if_false]
    unfold transitivityM totalTrianglesM
    simp only [bind_assoc]
    refine sat_getThen hv (by simp) (by simp) (by simp) (by simp [Allowed]) ?_
    refine sat_getThen hv (by simp) (by simp) (by simp) (by simp [Allowed]) ?_
    rw [pure_bind]
    change Sat _ _ _ (if totalTriangles c.A = 0 then _ else _) _ _
    split_ifs with h0
    · exact sat_pure rfl (by mem)
    · refine sat_getThen hv (by simp) (by simp) (by simp) (by simp [Allowed]) ?_
      exact sat_pure rfl (by mem)
  · simp only [if_true]
    unfold transitivityDirM
    refine sat_getThen hv (by simp) (by simp) (by simp) (by simp [Allowed]) ?_
    refine sat_getThen hv (by simp) (by simp) (by simp) (by simp [Allowed]) ?_
    change Sat _ _ _ (if (reduceScalar (· + ·) (massignR (mS (offdiag c.A))
      (mxm (· + ·) pairN (offdiag c.A) (transpose (offdiag c.A))))).getD 0 = 0 then _ else _) _ _
    dsimp only
    split_ifs with h0
    · exact sat_pure rfl (by mem)
    · refine sat_getThen hv (by simp) (by simp) (by simp) (by simp [Allowed]) ?_
      exact sat_pure rfl (by mem)

/-- the clustering coefficients computed from the matrix -/
def clustVal (c : Ctx ι α) (mx : ι) (f : Norm α) (w : Bool) (mask : NodeMask c.n) : Vec c.n ℚ :=
  let maxval := reduceScalar (c.f mx) (offdiag c.A)
  if c.dir then
    vmul (fun (t : ℚ) (d : Int) => t / d)
      (if w then dirTriW (f maxval) (offdiag c.A) (transpose c.A) mask
        else vapply Nat.cast (dirTri c.A mask))
      (dirDenom (maskNew mask (totalDegreesM c.A)) (maskNew mask (recipDegreesM c.A)))
  else
    vmul (fun (t : ℚ) (d : Int) => 2 * t / d)
      (if w then triW (f maxval) (tril1 c.A) (triu1 c.A) mask
        else vapply Nat.cast (trianglesVec c.A mask))
      (degDenom (countRow (offdiag c.A)))

/-- the exceptions of `average_clustering` -/
def AvgErr (c : Ctx ι α) (strict : Prop) (mx : ι) (f : Norm α) (w cz : Bool) (mask : NodeMask c.n) (e : Err) : Prop :=
  (w = true ∧ (strict → ¬ NoSelf c.A) ∧ e = .attributeError) ∨ averageOf (clustVal c mx f w mask) cz mask = .error e

theorem sat_average (hv : c.Valid) (mx : ι) (f : Norm α) (w cz : Bool) (mask : NodeMask c.n) :
    Sat (good c strict ex)
      (AvgErr c strict mx f w cz mask) S
      (averageM c mx f w cz mask) noK
      (fun v => averageOf (clustVal c mx f w mask) cz mask = .ok v) := by
  have fin : ∀ (S : Key ι → Prop) (v : Vec c.n ℚ), v = clustVal c mx f w mask → Sat (good c strict ex)
      (AvgErr c strict mx f w cz mask)
      S (raise c (averageOf v cz mask)) noK
      (fun v => averageOf (clustVal c mx f w mask) cz mask = .ok v) := by
    rintro S v rfl
    unfold raise
    cases h : averageOf (clustVal c mx f w mask) cz mask with
    | error e => exact sat_throw (Or.inr h)
    | ok v => exact sat_pure rfl (by mem)
  unfold averageM
  cases hd : c.dir
  · simp only [Bool.false_eq_true, if_false]
    unfold clusteringM trianglesM
    simp only [bind_assoc]
    refine sat_getThen hv (by simp) (by simp) (by simp) (by simp [Allowed]) ?_
    refine sat_getThen hv (by simp) (by simp) (by simp) (by simp [Allowed]) ?_
    cases w
    · simp only [Bool.false_eq_true, if_false, pure_bind]
      refine sat_getThen hv (by simp) (by simp) (by simp) (by simp [Allowed]) ?_
      refine fin _ _ ?_
      simp only [clustVal, hd, Bool.false_eq_true, if_false]
      rfl
    · simp only [if_true, bind_assoc, pure_bind]
      refine sat_getThen hv (by simp) (by simp) (by simp) (by simp +contextual [Allowed, AvgErr]) ?_
      refine sat_getThen hv (by simp) (by simp) (by simp) (by simp [Allowed]) ?_
      refine fin _ _ ?_
      simp only [clustVal, hd, Bool.false_eq_true, if_false, if_true]
      rfl
  · simp only [if_true]
    unfold clusteringDirM dirTriM
    simp only [bind_assoc]
    refine sat_getThen hv (by simp) (by simp) (by simp) (by simp [Allowed]) ?_
    refine sat_getThen hv (by simp) (by simp) (by simp) (by simp [Allowed]) ?_
    cases w
    · simp only [Bool.false_eq_true, if_false, pure_bind]
      refine sat_getThen hv (by simp) (by simp) (by simp) (by simp [Allowed, hd]) ?_
      refine sat_getThen hv (by simp) (by simp) (by simp) (by simp [Allowed, hd]) ?_
      refine fin _ _ ?_
      simp only [clustVal, hd, if_true, Bool.false_eq_true, if_false, restrict]
      cases mask <;> rfl
    · simp only [if_true, bind_assoc, pure_bind]
      refine sat_getThen hv (by simp) (by simp) (by simp) (by simp +contextual [Allowed, AvgErr]) ?_
      refine sat_getThen hv (by simp) (by simp) (by simp) (by simp [Allowed, hd]) ?_
      refine sat_getThen hv (by simp) (by simp) (by simp) (by simp [Allowed, hd]) ?_
      refine fin _ _ ?_
      simp only [clustVal, hd, if_true, restrict]
      cases mask <;> rfl

end Proofs.Memo
