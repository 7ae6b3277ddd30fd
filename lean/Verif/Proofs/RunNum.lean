import Verif.Model.RunNum
import Verif.Proofs.Run

/-! Numeric programs: their evaluation is their pure model, and their lookups are polite. -/

open GB Spec.Prop Model Model.Cache Model.Memo Proofs.CacheMath Proofs.Cache Proofs.Prog
open Model.Run (NumEnv)

namespace Proofs.Run

theorem isSome_reduce_count {n m : Nat} {α : Type} (f : α → α → α) (A : Mat n m α) (i : Fin n) :
    (reduceRow f A i).isSome = (countRow A i).isSome := by
  unfold reduceRow countRow
  rw [Bool.eq_iff_iff, reduce_isSome]
  by_cases h : nvals (A i) = 0
  · rw [if_pos h]
    have := nvals_eq_zero.1 h
    simp [this]
  · rw [if_neg h]
    rw [nvals_eq_zero] at h
    push Not at h
    simpa [Option.isSome_iff_ne_none] using h

section
variable {ι K F : Type} [DecidableEq ι] [Field F] [LinearOrder F] (e : NumEnv ι F) (G : Graph K F)

theorem eval_plusRowwise : (Run.plusRowwise e G).eval = .ok (reduceRow (· + ·) G.A) := by
  change Except.ok (reduceRow (e.toEnv.f e.pl) G.A) = _
  rw [e.plus]

variable {a : Type}

theorem eval_plusRowwise_bind (f : Vec G.n F → Prog (e.toEnv.of G) a) :
    (Run.plusRowwise e G >>= f).eval = (f (reduceRow (· + ·) G.A)).eval := by
  rw [eval_bind, eval_plusRowwise]; rfl

theorem eval_pagerankV (alpha : F) (pers : Option (Vec G.n F)) (maxIter : Int) (tol : F)
    (nstart dangling : Option (Vec G.n F)) :
    (Run.pagerankV e G alpha pers maxIter tol nstart dangling (reduceRow (· + ·) G.A)).eval =
      Model.pagerankV G.A e.iso alpha pers maxIter tol nstart dangling := by
  unfold Run.pagerankV Model.pagerankV
  split_ifs
  · rfl
  · rw [eval_bind]
    refine congrArg (fun f => prInit nstart >>= f) (funext fun x => ?_)
    rw [eval_bind]
    rfl

theorem eval_degreeCentrality : (Run.degreeCentrality e G).eval = .ok (Model.degreeCentrality G) := by
  unfold Run.degreeCentrality
  rw [eval_bind, eval_degrees]
  rfl

theorem eval_inDegreeCentrality : (Run.inDegreeCentrality e G).eval = Model.inDegreeCentrality G := by
  unfold Run.inDegreeCentrality Model.inDegreeCentrality
  split_ifs <;> rfl

theorem eval_outDegreeCentrality : (Run.outDegreeCentrality e G).eval = Model.outDegreeCentrality G := by
  unfold Run.outDegreeCentrality Model.outDegreeCentrality
  split_ifs <;> rfl

theorem eval_degreesProp : (Run.degreesProp e G).eval = Model.degreesProp G := by
  unfold Run.degreesProp Model.degreesProp
  split_ifs <;> rfl

theorem eval_betheR (r : Option F) : (Run.betheR e G r).eval = Model.betheR G r := by
  cases r with
  | some r => rfl
  | none =>
    unfold Run.betheR Model.betheR
    dsimp only
    rw [eval_bind, eval_degreesProp]
    refine congrArg (fun f => Model.degreesProp G >>= f) (funext fun d => ?_)
    split_ifs <;> rfl

variable [DecidableEq K]

theorem eval_pagerank (alpha : F) (pers : Option (List (K × F))) (maxIter : Int) (tol : F)
    (nstart dangling : Option (List (K × F))) :
    (Run.pagerank e G alpha pers maxIter tol nstart dangling).eval =
      Model.pagerank G e.iso alpha pers maxIter tol nstart dangling := by
  unfold Run.pagerank Model.pagerank
  by_cases h0 : G.n = 0
  · rw [if_pos h0, if_pos h0]; rfl
  rw [if_neg h0, if_neg h0, eval_bind]
  refine congrArg (fun f => dictToVector? G nstart >>= f) (funext fun x => ?_)
  rw [eval_bind]
  refine congrArg (fun f => dictToVector? G pers >>= f) (funext fun p => ?_)
  rw [eval_plusRowwise_bind, eval_bind]
  rw [eval_lift]
  refine congrArg (fun f => dictToVector? G (if nvals (reduceRow (· + ·) G.A) < G.n then dangling else none) >>= f)
    (funext fun d => ?_)
  rw [eval_bind, eval_pagerankV]
  cases Model.pagerankV G.A e.iso alpha p maxIter tol x d <;> rfl

theorem eval_gmDangling (dangling : Option (List (K × F))) :
    (Run.gmDangling e G dangling).eval =
      dictToVector? G (if nvals (countRow G.A) < G.n then dangling else none) := by
  cases dangling with
  | none => rw [ite_self]; rfl
  | some d => rfl

theorem eval_googleMatrix (alpha : F) (pers dangling : Option (List (K × F))) :
    (Run.googleMatrix e G alpha pers dangling).eval = Model.googleMatrix G alpha pers dangling := by
  unfold Run.googleMatrix Model.googleMatrix
  rw [eval_bind]
  refine congrArg (fun f => dictToVector? G pers >>= f) (funext fun p => ?_)
  rw [eval_bind, eval_gmDangling]
  refine congrArg (fun f => dictToVector? G _ >>= f) (funext fun d => ?_)
  split_ifs
  · rfl
  · change gmBody alpha G.A p d _ = _
    congr 1
    funext i
    exact congrArg not (isSome_reduce_count (e.f e.an) G.A i)

theorem eval_googleMatrixList (alpha : F) (pers : Option (List (K × F))) (nodelist : List K)
    (dangling : Option (List (K × F))) :
    (Run.googleMatrixList e G alpha pers nodelist dangling).eval =
      Model.googleMatrixList G alpha pers nodelist dangling := by
  unfold Run.googleMatrixList Model.googleMatrixList
  rw [eval_bind]
  refine congrArg (fun f => dictToVector? G pers >>= f) (funext fun p => ?_)
  rw [eval_bind, eval_gmDangling]
  refine congrArg (fun f => dictToVector? G _ >>= f) (funext fun d => ?_)
  rw [eval_bind]
  refine congrArg (fun f => listToIds G nodelist >>= f) (funext fun ids => ?_)
  by_cases h0 : ids.length = 0
  · rw [if_pos h0]; dsimp only; rw [if_pos h0]; rfl
  · rw [if_neg h0]; dsimp only; rw [if_neg h0]
    have key : ∀ v : Vec G.n F, (ids.length = G.n → ∀ i, (v i).isSome = (countRow G.A i).isSome) →
        Run.gmEmptyRows G.A v ids = Model.gmEmptyRows G.A ids := by
      intro v hv
      funext i
      unfold Run.gmEmptyRows Model.gmEmptyRows
      split_ifs with h
      · rw [hv h]
      · rfl
    split_ifs with h
    · rw [eval_get_bind, eval_lift]
      unfold Run.gmListFinish
      rw [key]
      exact fun _ i => isSome_reduce_count (e.f e.an) G.A i
    · rw [eval_lift]
      unfold Run.gmListFinish
      rw [key]
      exact fun h' => absurd h' h

theorem eval_katzCentrality (fill : Bool) (sqrt : F → F) (alpha : F) (beta : F ⊕ List (K × F)) (maxIter : Int)
    (tol : F) (nstart : Option (List (K × F))) (normalized : Bool) :
    (Run.katzCentrality e G fill sqrt alpha beta maxIter tol nstart normalized).eval =
      Model.katzCentrality fill sqrt G e.iso alpha beta maxIter tol nstart normalized := by
  unfold Run.katzCentrality Model.katzCentrality
  split_ifs
  · rfl
  · rfl
  rw [eval_bind]
  refine congrArg (fun f => dictToVector? G nstart >>= f) (funext fun x => ?_)
  rw [eval_bind]
  refine congrArg (fun f => katzBeta G beta >>= f) (funext fun b => ?_)
  unfold Model.katzV
  rw [eval_bind, eval_lift]
  cases katzCheck b with
  | error er => rfl
  | ok u =>
    change ((Prog.get .isoVal >>= _).eval : Except Err _) = (Except.map some (Run.katzFinish fill sqrt G.A e.iso alpha b maxIter tol x normalized))
    rw [eval_get_bind, eval_bind, eval_lift, look_isoVal]
    cases Run.katzFinish fill sqrt G.A e.iso alpha b maxIter tol x normalized <;> rfl

theorem eval_laplacianHelper (nodelist : Option (List K)) (w : Bool) :
    (Run.laplacianHelper e G nodelist w).eval = Model.laplacianHelper G nodelist w := by
  cases nodelist with
  | some L => rfl
  | none =>
    unfold Run.laplacianHelper Model.laplacianHelper
    dsimp only
    split_ifs
    · rw [eval_plusRowwise_bind]; rfl
    · rw [eval_bind, eval_degreesProp]; rfl

theorem eval_laplacianMatrix (nodelist : Option (List K)) (w : Bool) :
    (Run.laplacianMatrix e G nodelist w).eval = Model.laplacianMatrix G nodelist w := by
  unfold Run.laplacianMatrix Model.laplacianMatrix
  rw [eval_bind, eval_laplacianHelper]; rfl

theorem eval_normalizedLaplacianMatrix (sqrt : F → F) (nodelist : Option (List K)) (w : Bool) :
    (Run.normalizedLaplacianMatrix e G sqrt nodelist w).eval =
      Model.normalizedLaplacianMatrix sqrt G nodelist w := by
  unfold Run.normalizedLaplacianMatrix Model.normalizedLaplacianMatrix
  rw [eval_bind, eval_laplacianHelper]; rfl

theorem eval_modularityMatrix (nodelist : Option (List K)) (w : Bool) :
    (Run.modularityMatrix e G nodelist w).eval = Model.modularityMatrix G nodelist w := by
  unfold Run.modularityMatrix Model.modularityMatrix
  split_ifs
  · rfl
  · rw [eval_bind, eval_laplacianHelper]; rfl

theorem eval_directedModularityMatrix (nodelist : Option (List K)) (w : Bool) :
    (Run.directedModularityMatrix e G nodelist w).eval = Model.directedModularityMatrix G nodelist w := by
  unfold Run.directedModularityMatrix
  by_cases h : (!G.directed || G.multi) = true
  · unfold Model.directedModularityMatrix
    rw [if_pos h, if_pos h]; rfl
  rw [if_neg h]
  cases nodelist with
  | some L => rfl
  | none =>
    unfold Model.directedModularityMatrix
    rw [if_neg h]
    dsimp only
    split_ifs
    · rw [eval_plusRowwise_bind, eval_get_bind]
      change Except.ok (⟨G.n, modBody _ (reduceCol (e.toEnv.f e.pl) G.A) G.A⟩ : Σ m, Mat m m F) = _
      rw [e.plus]
    · rfl

theorem eval_betheHessianMatrix (r : Option F) (nodelist : Option (List K)) :
    (Run.betheHessianMatrix e G r nodelist).eval = Model.betheHessianMatrix G r nodelist := by
  unfold Run.betheHessianMatrix Model.betheHessianMatrix
  split_ifs
  · rfl
  cases nodelist with
  | some L =>
    dsimp only
    rw [eval_bind]
    refine congrArg (fun f => listToIds G L >>= f) (funext fun ids => ?_)
    rw [eval_bind, eval_betheR]; rfl
  | none =>
    dsimp only
    rw [eval_plusRowwise_bind, eval_bind, eval_betheR]; rfl

end

/-! ## politeness -/

section
variable {ι K F : Type} [DecidableEq ι] [Field F] [LinearOrder F] (e : NumEnv ι F) (G : Graph K F)
variable {risky : Err → Prop} {off : Prop}

theorem polite_plusRowwise : Polite (e.toEnv.of G) risky off (Run.plusRowwise e G).path :=
  polite_get (okReq_of_plain trivial)

theorem polite_pagerankV (h : e.iso = none → risky .keyError) (alpha : F) (pers : Option (Vec G.n F))
    (maxIter : Int) (tol : F) (nstart dangling : Option (Vec G.n F)) (rowDegrees : Vec G.n F) :
    Polite (e.toEnv.of G) risky off (Run.pagerankV e G alpha pers maxIter tol nstart dangling rowDegrees).path :=
  polite_ite (fun _ => polite_pure) fun _ => polite_lift_bind fun _ _ => polite_lift_bind fun _ _ =>
    polite_get_bind (ok_isoVal' h) polite_lift

theorem polite_degreeCentrality (hl : LoopFree G) :
    Polite (e.toEnv.of G) risky off (Run.degreeCentrality e G).path :=
  polite_bind (polite_degrees e.toEnv G hl) fun _ _ => polite_pure

theorem polite_inDegreeCentrality : Polite (e.toEnv.of G) risky off (Run.inDegreeCentrality e G).path :=
  polite_ite (fun _ => polite_lift) fun _ => polite_get_bind (okReq_of_plain trivial) polite_pure

theorem polite_outDegreeCentrality : Polite (e.toEnv.of G) risky off (Run.outDegreeCentrality e G).path :=
  polite_ite (fun _ => polite_lift) fun _ => polite_get_bind (okReq_of_plain trivial) polite_pure

theorem polite_degreesProp : Polite (e.toEnv.of G) risky off (Run.degreesProp e G).path :=
  polite_ite (fun _ => polite_lift) fun _ => polite_get_bind (okReq_of_plain trivial) polite_pure

theorem polite_betheR (r : Option F) : Polite (e.toEnv.of G) risky off (Run.betheR e G r).path := by
  cases r with
  | some r => exact polite_pure
  | none => exact polite_bind (polite_degreesProp e G) fun _ _ => polite_ite (fun _ => polite_lift) fun _ => polite_pure

variable [DecidableEq K]

theorem polite_pagerank (h : e.iso = none → risky .keyError) (alpha : F) (pers : Option (List (K × F)))
    (maxIter : Int) (tol : F) (nstart dangling : Option (List (K × F))) :
    Polite (e.toEnv.of G) risky off (Run.pagerank e G alpha pers maxIter tol nstart dangling).path :=
  polite_ite (fun _ => polite_pure) fun _ => polite_lift_bind fun _ _ => polite_lift_bind fun _ _ =>
    polite_bind (polite_plusRowwise e G) fun _ _ => polite_lift_bind fun _ _ =>
      polite_bind (polite_pagerankV e G h _ _ _ _ _ _ _) fun _ _ => polite_pure

theorem polite_gmDangling (d : Option (List (K × F))) :
    Polite (e.toEnv.of G) risky off (Run.gmDangling e G d).path := by
  cases d with
  | none => exact polite_pure
  | some d => exact polite_get_bind (okReq_of_plain trivial) polite_lift

theorem polite_googleMatrix (alpha : F) (pers dangling : Option (List (K × F))) :
    Polite (e.toEnv.of G) risky off (Run.googleMatrix e G alpha pers dangling).path :=
  polite_lift_bind fun _ _ => polite_bind (polite_gmDangling e G _) fun _ _ =>
    polite_ite (fun _ => polite_pure) fun _ => polite_get_bind (okReq_of_plain trivial) polite_lift

theorem polite_googleMatrixList (alpha : F) (pers : Option (List (K × F))) (nodelist : List K)
    (dangling : Option (List (K × F))) :
    Polite (e.toEnv.of G) risky off (Run.googleMatrixList e G alpha pers nodelist dangling).path :=
  polite_lift_bind fun _ _ => polite_bind (polite_gmDangling e G _) fun _ _ => polite_lift_bind fun _ _ =>
    polite_ite (fun _ => polite_pure) fun _ => polite_ite
      (fun _ => polite_get_bind (okReq_of_plain trivial) polite_lift) fun _ => polite_lift

theorem polite_katzCentrality (h : e.iso = none → risky .keyError) (fill : Bool) (sqrt : F → F) (alpha : F)
    (beta : F ⊕ List (K × F)) (maxIter : Int) (tol : F) (nstart : Option (List (K × F))) (normalized : Bool) :
    Polite (e.toEnv.of G) risky off
      (Run.katzCentrality e G fill sqrt alpha beta maxIter tol nstart normalized).path :=
  polite_ite (fun _ => polite_lift) fun _ => polite_ite (fun _ => polite_pure) fun _ =>
    polite_lift_bind fun _ _ => polite_lift_bind fun _ _ => polite_lift_bind fun _ _ =>
      polite_get_bind (ok_isoVal' h) (polite_lift_bind fun _ _ => polite_pure)

theorem polite_laplacianHelper (nodelist : Option (List K)) (w : Bool) :
    Polite (e.toEnv.of G) risky off (Run.laplacianHelper e G nodelist w).path := by
  cases nodelist with
  | some L => exact polite_lift
  | none =>
    exact polite_ite (fun _ => polite_bind (polite_plusRowwise e G) fun _ _ => polite_pure)
      fun _ => polite_bind (polite_degreesProp e G) fun _ _ => polite_pure

theorem polite_laplacianMatrix (nodelist : Option (List K)) (w : Bool) :
    Polite (e.toEnv.of G) risky off (Run.laplacianMatrix e G nodelist w).path :=
  polite_bind (polite_laplacianHelper e G _ _) fun _ _ => polite_pure

theorem polite_normalizedLaplacianMatrix (sqrt : F → F) (nodelist : Option (List K)) (w : Bool) :
    Polite (e.toEnv.of G) risky off (Run.normalizedLaplacianMatrix e G sqrt nodelist w).path :=
  polite_bind (polite_laplacianHelper e G _ _) fun _ _ => polite_pure

theorem polite_modularityMatrix (nodelist : Option (List K)) (w : Bool) :
    Polite (e.toEnv.of G) risky off (Run.modularityMatrix e G nodelist w).path :=
  polite_ite (fun _ => polite_lift) fun _ =>
    polite_bind (polite_laplacianHelper e G _ _) fun _ _ => polite_pure

theorem polite_directedModularityMatrix (nodelist : Option (List K)) (w : Bool) :
    Polite (e.toEnv.of G) risky off (Run.directedModularityMatrix e G nodelist w).path := by
  refine polite_ite (fun _ => polite_lift) fun _ => ?_
  cases nodelist with
  | some L => exact polite_lift
  | none =>
    exact polite_ite (fun _ => polite_bind (polite_plusRowwise e G) fun _ _ =>
        polite_get_bind (okReq_of_plain trivial) polite_pure)
      fun _ => polite_get_bind (okReq_of_plain trivial) (polite_get_bind (okReq_of_plain trivial) polite_pure)

theorem polite_betheHessianMatrix (r : Option F) (nodelist : Option (List K)) :
    Polite (e.toEnv.of G) risky off (Run.betheHessianMatrix e G r nodelist).path := by
  refine polite_ite (fun _ => polite_lift) fun _ => ?_
  cases nodelist with
  | some L => exact polite_lift_bind fun _ _ => polite_bind (polite_betheR e G r) fun _ _ => polite_pure
  | none =>
    exact polite_bind (polite_plusRowwise e G) fun _ _ => polite_bind (polite_betheR e G r) fun _ _ => polite_pure

end
end Proofs.Run
