import Verif.Proofs.Programs
import Verif.Model.Run
import Verif.Props.Memo

/-! The library functions as programs: `eval` is the pure model, and the lookups are polite. -/

open GB Spec.Prop Model Model.Cache Model.Memo Proofs.CacheMath Proofs.Cache

namespace Proofs.Run
open Proofs.Prog

variable {ι α K : Type} {a b : Type} {c : Ctx ι α}

section
variable [DecidableEq ι] [LinearOrder α] [Zero α]

theorem eval_mapResult (f : Except Err a → Except Err b) (p : Prog c a) :
    (Run.mapResult f p).eval = f p.eval := by
  induction p with
  | done x => rfl
  | ask r k ih => exact ih _

theorem path_mapResult (f : Except Err a → Except Err b) (p : Prog c a) :
    (Run.mapResult f p).path = p.path := by
  induction p with
  | done x => rfl
  | ask r k ih => exact congrArg (List.cons r) (ih _)

end

/-! ## breadth-first search -/

section
variable [DecidableEq ι] [LinearOrder α] [Zero α] [DecidableEq K] (e : Env ι α) (G : Graph K α)
variable {risky : Err → Prop} {off : Prop}

omit [DecidableEq K] in
@[simp] theorem eval_bfsMatrix (tr : Bool) : (Run.bfsMatrix e G tr).eval = .ok (bfsMatrix G tr) := rfl

theorem eval_bfsPlain (s : K) (cut : Option Int) (tr : Bool) :
    (Run.bfsPlain e G s cut tr).eval = bfsPlain G s cut tr := by
  unfold Run.bfsPlain bfsPlain
  cases G.getId s <;> rfl

theorem targetId_eq (t : Option K) : Run.targetId G t = (match t with
    | none => pure none
    | some t => do let d ← G.getId t; pure (some d)) := by cases t <;> rfl

theorem eval_bfsLevel (s : K) (t : Option K) (cut : Option Int) (tr : Bool) :
    (Run.bfsLevel e G s t cut tr).eval = bfsLevel G s t cut tr := by
  unfold Run.bfsLevel bfsLevel
  cases G.getId s with
  | error => rfl
  | ok i =>
    cases t with
    | none => rfl
    | some t =>
      change (Prog.lift (G.getId t >>= fun d => pure (some d)) >>= _ : Prog _ _).eval = _
      cases h : G.getId t with
      | error => simp only [h]; rfl
      | ok i => simp only [h]; rfl

theorem eval_bfsParent (s : K) (t : Option K) (cut : Option Int) (tr : Bool) :
    (Run.bfsParent e G s t cut tr).eval = bfsParent G s t cut tr := by
  unfold Run.bfsParent bfsParent
  cases G.getId s with
  | error => rfl
  | ok i =>
    cases t with
    | none => rfl
    | some t =>
      change (Prog.lift (G.getId t >>= fun d => pure (some d)) >>= _ : Prog _ _).eval = _
      cases h : G.getId t with
      | error => simp only [h]; rfl
      | ok i => simp only [h]; rfl

omit [DecidableEq K] in
theorem eval_bfsLevels {k : Nat} (ids : Fin k → Fin G.n) (cut : Option Int) :
    (Run.bfsLevels e G ids cut).eval = .ok (bfsLevelsFrom (offdiag G.A) ids cut) := rfl

theorem eval_allPairsSPL (cut cs : Option Int) :
    (Run.allPairsSPL e G cut cs).eval = allPairsSPL G cut cs := by
  unfold Run.allPairsSPL allPairsSPL
  cases cs with
  | none => rfl
  | some k =>
    simp only
    split_ifs
    · rw [eval_mapM]
      congr 1
      funext s
      rw [eval_bind, eval_bfsLevel]
      rfl
    · rw [eval_bind, eval_mapM]
      refine congrArg (fun f => (List.mapM f _ : Except Err _) >>= _) (funext fun p => ?_)
      cases p with
      | elem x => rfl
      | chunk l =>
        unfold Run.splChunk
        simp only
        cases listToIds G l <;> rfl

theorem eval_bidirectionalSPL (s t : K) :
    (Run.bidirectionalSPL e G s t).eval = bidirectionalSPL G s t := by
  unfold Run.bidirectionalSPL bidirectionalSPL
  split_ifs
  · rfl
  · cases G.getId s with
    | error => rfl
    | ok i =>
      cases G.getId t with
      | error => rfl
      | ok j =>
        change (if i = j then _ else _ : Prog _ _).eval = if i = j then _ else _
        split_ifs <;> rfl

theorem hasPath_eq (s t : K) : hasPath G s t = Run.hasPathOf (bidirectionalSPL G s t) := by
  unfold hasPath Run.hasPathOf
  cases bidirectionalSPL G s t with
  | ok => rfl
  | error e => cases e <;> rfl

theorem eval_hasPath (s t : K) : (Run.hasPath e G s t).eval = hasPath G s t := by
  unfold Run.hasPath
  rw [eval_mapResult, eval_bidirectionalSPL, hasPath_eq]

theorem eval_reachable (s : K) (tr : Bool) :
    (Run.reachable e G s tr).eval = if tr then ancestors G s else descendants G s := by
  unfold Run.reachable ancestors descendants
  rw [eval_bind, eval_bfsPlain]
  cases tr
  · refine congrArg (fun f => (bfsPlain G s none false) >>= f) (funext fun v => ?_)
    cases G.getId s <;> rfl
  · refine congrArg (fun f => (bfsPlain G s none true) >>= f) (funext fun v => ?_)
    cases G.getId s <;> rfl

theorem eval_isConnected : (Run.isConnected e G).eval = isConnected G := by
  unfold Run.isConnected isConnected
  split_ifs
  · rfl
  · cases G.firstNode with
    | none => rfl
    | some u =>
      simp only
      rw [eval_bind, eval_bfsPlain]
      rfl

theorem eval_bfsLayers (l : List K) : (Run.bfsLayers e G l).eval = bfsLayers G l := by
  unfold Run.bfsLayers bfsLayers
  rw [eval_bind]
  refine congrArg (fun f => (listToIds G l) >>= f) (funext fun v => ?_)
  split_ifs <;> rfl

theorem eval_descendantsAtDistance (s : K) (d : Int) :
    (Run.descendantsAtDistance e G s d).eval = descendantsAtDistance G s d := by
  unfold Run.descendantsAtDistance descendantsAtDistance
  rw [eval_bind]
  refine congrArg (fun f => (G.getId s) >>= f) (funext fun v => ?_)
  rw [eval_get_bind]
  split_ifs <;> rfl

theorem eval_bfsPlainBidirectional (s : K) :
    (Run.bfsPlainBidirectional e G s).eval = bfsPlainBidirectional G s := by
  unfold Run.bfsPlainBidirectional bfsPlainBidirectional
  cases G.getId s <;> rfl

theorem eval_isWeaklyConnected : (Run.isWeaklyConnected e G).eval = isWeaklyConnected G := by
  unfold Run.isWeaklyConnected isWeaklyConnected
  split_ifs
  · rfl
  · cases G.firstNode with
    | none => rfl
    | some u =>
      simp only
      rw [eval_bind, eval_bfsPlainBidirectional]
      rfl

theorem eval_lowestCommonAncestor (u v : K) :
    (Run.lowestCommonAncestor e G u v).eval = lowestCommonAncestor G u v := by
  unfold Run.lowestCommonAncestor lowestCommonAncestor
  rw [eval_bind, eval_bfsPlain]
  refine congrArg (fun f => (bfsPlain G u none true) >>= f) (funext fun ca => ?_)
  rw [eval_bind, eval_bfsPlain]
  refine congrArg (fun f => (bfsPlain G v none true) >>= f) (funext fun oa => ?_)
  rw [eval_lift]
  unfold Run.lcaOf
  simp only
  split_ifs
  · rfl
  · cases (indices (vassignR (vnot (vS (vassignR (vS (vmul pairB ca oa))
      (mxv any' pairB G.A (vmul pairB ca oa))))) (vmul pairB ca oa))).head? with
    | none => rfl
    | some i => cases h : G.keyOf i.val <;> simp only [h] <;> rfl

theorem eval_egoGraph (choose : α → α → α) (u : K) (r : Int) (center : Bool) :
    (Run.egoGraph e G u r center).eval = egoGraph choose G u r center false := by
  unfold Run.egoGraph egoGraph
  rw [eval_bind, eval_bfsPlain]
  rfl

/-! ### politeness -/

omit [DecidableEq K] in
theorem polite_bfsMatrix (tr : Bool) : Polite (e.of G) risky off (Run.bfsMatrix e G tr).path :=
  polite_get_bind (okReq_of_plain trivial) polite_pure

theorem polite_bfsPlain (s : K) (cut : Option Int) (tr : Bool) :
    Polite (e.of G) risky off (Run.bfsPlain e G s cut tr).path :=
  polite_lift_bind fun _ _ => polite_bind (polite_bfsMatrix e G tr) fun _ _ => polite_pure

theorem polite_bfsLevel (s : K) (t : Option K) (cut : Option Int) (tr : Bool) :
    Polite (e.of G) risky off (Run.bfsLevel e G s t cut tr).path :=
  polite_lift_bind fun _ _ => polite_lift_bind fun _ _ =>
    polite_bind (polite_bfsMatrix e G tr) fun _ _ => polite_pure

theorem polite_bfsParent (s : K) (t : Option K) (cut : Option Int) (tr : Bool) :
    Polite (e.of G) risky off (Run.bfsParent e G s t cut tr).path :=
  polite_lift_bind fun _ _ => polite_lift_bind fun _ _ =>
    polite_bind (polite_bfsMatrix e G tr) fun _ _ => polite_pure

omit [DecidableEq K] in
theorem polite_bfsLevels {k : Nat} (ids : Fin k → Fin G.n) (cut : Option Int) :
    Polite (e.of G) risky off (Run.bfsLevels e G ids cut).path :=
  polite_get_bind (okReq_of_plain trivial) polite_pure

theorem polite_allPairsSPL (cut cs : Option Int) :
    Polite (e.of G) risky off (Run.allPairsSPL e G cut cs).path := by
  unfold Run.allPairsSPL
  cases cs with
  | none => exact polite_bind (polite_bfsLevels e G _ _) fun _ _ => polite_lift
  | some k =>
    simp only
    split_ifs
    · exact polite_mapM fun s _ => polite_bind (polite_bfsLevel e G _ _ _ _) fun _ _ => polite_pure
    · refine polite_bind (polite_mapM fun p _ => ?_) fun _ _ => polite_pure
      cases p with
      | elem x => exact polite_lift
      | chunk l =>
        exact polite_lift_bind fun _ _ => polite_bind (polite_bfsLevels e G _ _) fun _ _ => polite_pure

theorem polite_bidirectionalSPL (s t : K) :
    Polite (e.of G) risky off (Run.bidirectionalSPL e G s t).path := by
  unfold Run.bidirectionalSPL
  split_ifs
  · exact polite_lift
  · refine polite_lift_bind fun i _ => polite_lift_bind fun j _ => ?_
    split_ifs
    · exact polite_pure
    · exact polite_get_bind (okReq_of_plain trivial) polite_lift

theorem polite_hasPath (s t : K) : Polite (e.of G) risky off (Run.hasPath e G s t).path := by
  unfold Run.hasPath
  rw [path_mapResult]
  exact polite_bidirectionalSPL e G s t

theorem polite_reachable (s : K) (tr : Bool) : Polite (e.of G) risky off (Run.reachable e G s tr).path :=
  polite_bind (polite_bfsPlain e G _ _ _) fun _ _ => polite_lift_bind fun _ _ => polite_pure

theorem polite_isConnected : Polite (e.of G) risky off (Run.isConnected e G).path := by
  unfold Run.isConnected
  split_ifs
  · exact polite_lift
  · cases G.firstNode with
    | none => exact polite_lift
    | some u => exact polite_bind (polite_bfsPlain e G _ _ _) fun _ _ => polite_pure

theorem polite_bfsLayers (l : List K) : Polite (e.of G) risky off (Run.bfsLayers e G l).path := by
  refine polite_lift_bind fun ids _ => ?_
  split_ifs
  · exact polite_pure
  · exact polite_get_bind (okReq_of_plain trivial) polite_pure

theorem polite_descendantsAtDistance (s : K) (d : Int) :
    Polite (e.of G) risky off (Run.descendantsAtDistance e G s d).path := by
  refine polite_lift_bind fun ids _ => polite_get_bind (okReq_of_plain trivial) ?_
  split_ifs <;> exact polite_pure

theorem polite_bfsPlainBidirectional (s : K) :
    Polite (e.of G) risky off (Run.bfsPlainBidirectional e G s).path :=
  polite_lift_bind fun _ _ => polite_get_bind (okReq_of_plain trivial) polite_pure

theorem polite_isWeaklyConnected : Polite (e.of G) risky off (Run.isWeaklyConnected e G).path := by
  unfold Run.isWeaklyConnected
  split_ifs
  · exact polite_lift
  · cases G.firstNode with
    | none => exact polite_lift
    | some u => exact polite_bind (polite_bfsPlainBidirectional e G _) fun _ _ => polite_pure

theorem polite_lowestCommonAncestor (u v : K) :
    Polite (e.of G) risky off (Run.lowestCommonAncestor e G u v).path :=
  polite_bind (polite_bfsPlain e G _ _ _) fun _ _ =>
    polite_bind (polite_bfsPlain e G _ _ _) fun _ _ => polite_lift

theorem polite_egoGraph (u : K) (r : Int) (center : Bool) :
    Polite (e.of G) risky off (Run.egoGraph e G u r center).path :=
  polite_bind (polite_bfsPlain e G _ _ _) fun _ _ => polite_lift

/-! ## triangles, clustering, trusses -/

omit [DecidableEq K] [DecidableEq ι] in
theorem deg_row (s : Sign) : value (e.of G) (.vec .count s .row) = countRow (part s G.A) := rfl

omit [DecidableEq K] [DecidableEq ι] in
theorem value_hasSelf : value (e.of G) .hasSelf = decide (∃ i, (G.A i i).isSome) := rfl

omit [DecidableEq K] [LinearOrder α] [Zero α] in
theorem rowOff_eq (i : Fin G.n) :
    (if decide (∃ i, (G.A i i).isSome) then vdel (G.A i) i else G.A i) = rowOff G.A i := by
  unfold rowOff
  split_ifs with h
  · rfl
  · funext j
    unfold vdel
    split_ifs with hj
    · subst hj
      have : ¬ ∃ i, (G.A i i).isSome := by simpa using h
      push Not at this
      have := this j
      cases hg : G.A j j
      · rfl
      · rw [hg] at this; exact absurd rfl this
    · rfl

omit [DecidableEq K] in
theorem eval_singleTriangleAt (i : Fin G.n) :
    (Run.singleTriangleAt e G i).eval = .ok (singleTriangleAt G.A i) := by
  unfold Run.singleTriangleAt singleTriangleAt
  rw [← rowOff_eq]
  rfl

theorem eval_singleTriangle (u : K) : (Run.singleTriangle e G u).eval = singleTriangle G u := by
  unfold Run.singleTriangle singleTriangle
  rw [eval_bind]
  exact congrArg (fun f => (G.getId u) >>= f) (funext fun i => eval_singleTriangleAt e G i)

omit [DecidableEq K] in
theorem eval_trianglesVec (mask : NodeMask G.n) :
    (Run.trianglesVec e G mask).eval = .ok (trianglesVec G.A mask) := rfl

theorem eval_triangles (nodes : Option (List K)) : (Run.triangles e G nodes).eval = triangles G nodes := by
  unfold Run.triangles triangles
  rw [eval_bind]
  rfl

theorem eval_clustering (nodes : Option (List K)) : (Run.clustering e G nodes).eval = clustering G nodes := by
  unfold Run.clustering clustering
  rw [eval_bind]
  rfl

omit [DecidableEq K] in
theorem eval_singleDegree (i : Fin G.n) :
    (Run.singleDegree e G i).eval = .ok (singleDegree G.A i) := by
  change Except.ok ((nvals (G.A i) : Int) -
    (if decide (∃ i, (G.A i i).isSome) && (G.A i i).isSome then 1 else 0)) = _
  unfold singleDegree
  congr 2
  refine if_congr ?_ rfl rfl
  simp only [Bool.and_eq_true, decide_eq_true_eq]
  exact ⟨fun h => h.2, fun h => ⟨⟨i, h⟩, h⟩⟩

theorem eval_singleClustering (u : K) : (Run.singleClustering e G u).eval = singleClustering G u := by
  unfold Run.singleClustering singleClustering
  rw [eval_bind]
  refine congrArg (fun f => (G.getId u) >>= f) (funext fun i => ?_)
  rw [eval_bind, eval_singleTriangleAt]
  unfold singleClusteringAt
  change (if singleTriangleAt G.A i = 0 then _ else _ : Prog _ _).eval = _
  simp only
  split_ifs
  · rfl
  · rw [eval_bind, eval_singleDegree]
    rfl

theorem eval_clusteringDirected (nodes : Option (List K)) :
    (Run.clusteringDirected e G nodes).eval = clusteringDirected G nodes := by
  unfold Run.clusteringDirected clusteringDirected
  rw [eval_bind]
  refine congrArg (fun f => (listToMask G nodes) >>= f) (funext fun mask => ?_)
  cases mask <;> rfl

theorem eval_singleClusteringDirected (u : K) :
    (Run.singleClusteringDirected e G u).eval = singleClusteringDirected G u := by
  unfold Run.singleClusteringDirected singleClusteringDirected
  rw [eval_get_bind, eval_bind]
  rfl

theorem eval_generalizedDegree (nodes : Option (List K)) :
    (Run.generalizedDegree e G nodes).eval = generalizedDegree G nodes := by
  unfold Run.generalizedDegree generalizedDegree
  rw [eval_bind]
  rfl

omit [DecidableEq K] in
theorem eval_kTruss (k : Int) : (Run.kTruss e G k).eval = kTruss G k := by
  unfold Run.kTruss kTruss
  rw [eval_get_bind, eval_bind]
  have : Run.trussOf (offdiag G.A) k = trussMat G.A k := by
    unfold Run.trussOf trussMat
    simp only
    split_ifs
    · rfl
    · cases trussLoop k (mnvals (offdiag G.A) + 1) (trussStep k (offdiag G.A)) (mnvals (offdiag G.A)) <;> rfl
  exact congrArg (fun x => x >>= _) this

omit [DecidableEq K] in
theorem polite_singleTriangleAt (i : Fin G.n) :
    Polite (e.of G) risky off (Run.singleTriangleAt e G i).path :=
  polite_get_bind (okReq_of_plain trivial) (polite_get_bind (okReq_of_plain trivial) polite_pure)

theorem polite_singleTriangle (u : K) : Polite (e.of G) risky off (Run.singleTriangle e G u).path :=
  polite_lift_bind fun _ _ => polite_singleTriangleAt e G _

omit [DecidableEq K] in
theorem polite_trianglesVec (mask : NodeMask G.n) :
    Polite (e.of G) risky off (Run.trianglesVec e G mask).path :=
  polite_get_bind (okReq_of_plain trivial) (polite_get_bind (okReq_of_plain trivial) polite_pure)

theorem polite_triangles (nodes : Option (List K)) :
    Polite (e.of G) risky off (Run.triangles e G nodes).path :=
  polite_lift_bind fun _ _ => polite_bind (polite_trianglesVec e G _) fun _ _ => polite_pure

theorem polite_clustering (nodes : Option (List K)) :
    Polite (e.of G) risky off (Run.clustering e G nodes).path :=
  polite_lift_bind fun _ _ => polite_bind (polite_trianglesVec e G _) fun _ _ =>
    polite_get_bind (okReq_of_plain trivial) polite_pure

theorem polite_singleClustering (u : K) :
    Polite (e.of G) risky off (Run.singleClustering e G u).path := by
  refine polite_lift_bind fun _ _ => polite_bind (polite_singleTriangleAt e G _) fun t _ => ?_
  split_ifs
  · exact polite_pure
  · exact polite_bind (polite_get_bind (okReq_of_plain trivial) polite_pure) fun _ _ => polite_pure

theorem polite_clusteringDirected (hd : G.directed = true) (nodes : Option (List K)) :
    Polite (e.of G) risky off (Run.clusteringDirected e G nodes).path :=
  polite_lift_bind fun _ _ => polite_get_bind (okReq_of_plain trivial)
    (polite_get_bind (okReq_of_plain trivial) (polite_get_bind (okReq_of_plain hd)
      (polite_get_bind (okReq_of_plain hd) polite_pure)))

theorem polite_singleClusteringDirected (u : K) :
    Polite (e.of G) risky off (Run.singleClusteringDirected e G u).path :=
  polite_get_bind (okReq_of_plain trivial) (polite_lift_bind fun _ _ => polite_pure)

theorem polite_generalizedDegree (nodes : Option (List K)) :
    Polite (e.of G) risky off (Run.generalizedDegree e G nodes).path :=
  polite_lift_bind fun _ _ => polite_get_bind (okReq_of_plain trivial) polite_lift

omit [DecidableEq K] in
theorem polite_kTruss (k : Int) : Polite (e.of G) risky off (Run.kTruss e G k).path :=
  polite_get_bind (okReq_of_plain trivial) (polite_lift_bind fun _ _ => polite_lift)

/-! ## degrees and the like -/

omit [DecidableEq K] in
theorem eval_degrees : (Run.degrees e G).eval = .ok (degreesP G) := by
  unfold Run.degrees degreesP
  split_ifs <;> rfl

theorem eval_isIsolate (u : K) : (Run.isIsolate e G u).eval = isIsolate G u := by
  unfold Run.isIsolate isIsolate
  rw [eval_bind, eval_degrees]
  change (Prog.lift (G.getId u) >>= _ : Prog _ _).eval = _
  rw [eval_bind]
  rfl

omit [DecidableEq K] in
theorem eval_isolates : (Run.isolates e G).eval = .ok (isolates G) := by
  unfold Run.isolates
  rw [eval_bind, eval_degrees]
  rfl

omit [DecidableEq K] in
theorem eval_numberOfIsolates : (Run.numberOfIsolates e G).eval = .ok (numberOfIsolates G) := by
  unfold Run.numberOfIsolates
  rw [eval_bind, eval_degrees]
  rfl

omit [DecidableEq K] in
theorem eval_sMetric : (Run.sMetric e G).eval = .ok (sMetric G) := by
  unfold Run.sMetric
  rw [eval_bind, eval_degrees]
  rfl

omit [DecidableEq K] in
theorem eval_isRegular : (Run.isRegular e G).eval = isRegular G := by
  unfold Run.isRegular isRegular isRegularD isRegularU
  by_cases hd : G.directed = true
  · rw [if_pos hd, if_pos hd, eval_get_bind]
    by_cases h1 : nvals (countRow G.A) ≠ G.n
    · simp only [if_pos h1]
      exact (congrArg Prog.eval (if_pos h1)).trans rfl
    · simp only [if_neg h1]
      refine (congrArg Prog.eval (if_neg h1)).trans ?_
      rw [eval_get_bind]
      by_cases h2 : nvals (countRow (transpose G.A)) ≠ G.n
      · rw [if_pos h2]
        exact (congrArg Prog.eval (if_pos h2)).trans rfl
      · rw [if_neg h2]
        refine (congrArg Prog.eval (if_neg h2)).trans ?_
        rw [eval_bind]
        refine congrArg (fun f => (getFirst (countRow G.A)) >>= f) (funext fun d => ?_)
        by_cases h3 : allEq (countRow G.A) d = false
        · rw [if_pos h3]
          exact (congrArg Prog.eval (if_pos h3)).trans rfl
        · rw [if_neg h3]
          exact (congrArg Prog.eval (if_neg h3)).trans rfl
  · rw [if_neg hd, if_neg hd, eval_get_bind]
    by_cases h1 : nvals (countRow G.A) ≠ G.n
    · simp only [if_pos h1]
      exact (congrArg Prog.eval (if_pos h1)).trans rfl
    · simp only [if_neg h1]
      exact (congrArg Prog.eval (if_neg h1)).trans rfl

omit [DecidableEq K] in
theorem eval_isKRegular (k : Int) : (Run.isKRegular e G k).eval = isKRegular G k := by
  unfold Run.isKRegular isKRegular
  split_ifs
  · rfl
  · rw [eval_get_bind]
    change (if nvals (countRow G.A) ≠ G.n then _ else _ : Prog _ _).eval = if nvals (countRow G.A) ≠ G.n then _ else _
    split_ifs <;> rfl

omit [DecidableEq K] in
theorem eval_isTournament : (Run.isTournament e G).eval = isTournament G := by
  unfold Run.isTournament isTournament
  by_cases hd : G.directed = false
  · rw [if_pos hd, if_pos hd]; rfl
  · rw [if_neg hd, if_neg hd]
    by_cases hm : mnvals G.A ≠ G.n * (G.n - 1) / 2
    · rw [if_pos hm, if_pos (Or.inl hm)]; rfl
    · rw [if_neg hm, eval_get_bind]
      by_cases hs : ∃ i, (G.A i i).isSome
      · rw [if_pos (Or.inr hs), if_pos (show restrict none .hasSelf (value (e.of G) .hasSelf) = true from decide_eq_true hs)]; rfl
      · rw [if_neg (not_or.2 ⟨hm, hs⟩),
          if_neg (show ¬ restrict none .hasSelf (value (e.of G) .hasSelf) = true from fun h =>
            hs (of_decide_eq_true h))]; rfl

omit [DecidableEq K] in
theorem eval_scoreSequence : (Run.scoreSequence e G).eval = scoreSequence G := by
  unfold Run.scoreSequence scoreSequence
  split_ifs <;> rfl

omit [DecidableEq K] in
theorem eval_isTriad : (Run.isTriad e G).eval = .ok (isTriad G) := by
  unfold Run.isTriad isTriad
  by_cases h : (G.directed && decide (G.n = 3)) = true
  · rw [if_pos h, h]; rfl
  · rw [if_neg h]
    have : (G.directed && decide (G.n = 3)) = false := by simpa using h
    rw [this]; rfl

omit [DecidableEq K] in
theorem eval_reciprocityV (mask : NodeMask G.n) :
    (Run.reciprocityV e G mask).eval = .ok (reciprocityV G.A mask) := by
  unfold Run.reciprocityV
  rw [eval_get_bind, eval_get_bind]
  cases mask <;> rfl

theorem eval_reciprocityNodes (nodes : List K) :
    (Run.reciprocityNodes e G nodes).eval = reciprocityNodes G nodes := by
  unfold Run.reciprocityNodes reciprocityNodes
  split_ifs
  · rfl
  · rw [eval_bind]
    refine congrArg (fun f => (listToMask G (some nodes)) >>= f) (funext fun mask => ?_)
    rw [eval_reciprocityV]; rfl

omit [DecidableEq K] in
theorem eval_overallReciprocity : (Run.overallReciprocity e G).eval = overallReciprocity G := by
  unfold Run.overallReciprocity overallReciprocity
  by_cases hd : G.directed = false
  · rw [if_pos hd, if_pos hd]; rfl
  rw [if_neg hd, if_neg hd]
  by_cases hm : mnvals G.A = 0
  · rw [if_pos hm, if_pos hm]; rfl
  rw [if_neg hm, if_neg hm, eval_get_bind, eval_get_bind]
  by_cases hs : ∃ i, (G.A i i).isSome
  · rw [if_pos (show restrict none .hasSelf (value (e.of G) .hasSelf) = true from decide_eq_true hs), eval_get_bind]
    simp only [if_pos hs]
    rfl
  · rw [if_neg (show ¬ restrict none .hasSelf (value (e.of G) .hasSelf) = true from fun h =>
      hs (of_decide_eq_true h))]
    simp only [if_neg hs]
    rfl

/-- when the unmasked `total_degrees+` may be looked up -/
def LoopFree (G : Graph K α) : Prop := G.directed = true → ∀ i, G.A i i = none

omit [DecidableEq K] in
theorem not_selfEdge (hl : LoopFree G) (hd : G.directed = true) : ¬ Props.SelfEdge (e.of G) := by
  rintro ⟨i, hi⟩
  have := hl hd i
  change (G.A i i).isSome = true at hi
  rw [this] at hi
  cases hi

omit [DecidableEq K] in
theorem polite_degrees (hl : LoopFree G) : Polite (e.of G) risky off (Run.degrees e G).path := by
  unfold Run.degrees
  split_ifs with hd
  · exact polite_get (ok_totdegP hd fun _ => not_selfEdge e G hl hd)
  · exact polite_get (okReq_of_plain trivial)

theorem polite_isIsolate (hl : LoopFree G) (u : K) :
    Polite (e.of G) risky off (Run.isIsolate e G u).path :=
  polite_bind (polite_degrees e G hl) fun _ _ => polite_lift_bind fun _ _ => polite_pure

omit [DecidableEq K] in
theorem polite_isolates (hl : LoopFree G) : Polite (e.of G) risky off (Run.isolates e G).path :=
  polite_bind (polite_degrees e G hl) fun _ _ => polite_pure

omit [DecidableEq K] in
theorem polite_numberOfIsolates (hl : LoopFree G) :
    Polite (e.of G) risky off (Run.numberOfIsolates e G).path :=
  polite_bind (polite_degrees e G hl) fun _ _ => polite_pure

omit [DecidableEq K] in
theorem polite_sMetric (hl : LoopFree G) : Polite (e.of G) risky off (Run.sMetric e G).path :=
  polite_bind (polite_degrees e G hl) fun _ _ => polite_pure

omit [DecidableEq K] in
theorem polite_isRegular : Polite (e.of G) risky off (Run.isRegular e G).path := by
  unfold Run.isRegular
  split_ifs
  · refine polite_get_bind (okReq_of_plain trivial) ?_
    split_ifs
    · exact polite_pure
    · refine polite_get_bind (okReq_of_plain trivial) ?_
      split_ifs
      · exact polite_pure
      · refine polite_lift_bind fun d _ => ?_
        split_ifs
        · exact polite_pure
        · exact polite_lift
  · refine polite_get_bind (okReq_of_plain trivial) ?_
    split_ifs
    · exact polite_pure
    · exact polite_lift

omit [DecidableEq K] in
theorem polite_isKRegular (k : Int) : Polite (e.of G) risky off (Run.isKRegular e G k).path := by
  unfold Run.isKRegular
  split_ifs
  · exact polite_lift
  · refine polite_get_bind (okReq_of_plain trivial) ?_
    split_ifs <;> exact polite_pure

omit [DecidableEq K] in
theorem polite_isTournament : Polite (e.of G) risky off (Run.isTournament e G).path := by
  unfold Run.isTournament
  split_ifs
  · exact polite_lift
  · exact polite_pure
  · refine polite_get_bind (okReq_of_plain trivial) ?_
    split_ifs <;> exact polite_pure

omit [DecidableEq K] in
theorem polite_scoreSequence : Polite (e.of G) risky off (Run.scoreSequence e G).path := by
  unfold Run.scoreSequence
  split_ifs
  · exact polite_lift
  · exact polite_get_bind (okReq_of_plain trivial) polite_pure

omit [DecidableEq K] in
theorem polite_isTriad : Polite (e.of G) risky off (Run.isTriad e G).path := by
  unfold Run.isTriad
  split_ifs
  · exact polite_get_bind (okReq_of_plain trivial) polite_pure
  · exact polite_pure

omit [DecidableEq K] in
theorem polite_reciprocityV (hd : G.directed = true) (mask : NodeMask G.n)
    (hl : mask = none → LoopFree G) : Polite (e.of G) risky off (Run.reciprocityV e G mask).path :=
  polite_get_bind (okReq_of_plain hd) (polite_get_bind (ok_totdegP hd fun h => not_selfEdge e G (hl (by
    cases mask
    · rfl
    · cases h)) hd) polite_pure)

theorem polite_reciprocityNodes (nodes : List K) :
    Polite (e.of G) risky off (Run.reciprocityNodes e G nodes).path := by
  unfold Run.reciprocityNodes
  split_ifs with hd
  · exact polite_lift
  · refine polite_lift_bind fun mask hm => polite_reciprocityV e G (by simpa using hd) mask ?_
    rintro rfl
    unfold listToMask at hm
    simp only at hm
    cases h : listToIds G nodes <;> rw [h] at hm <;> cases hm

omit [DecidableEq K] in
theorem polite_overallReciprocity : Polite (e.of G) risky off (Run.overallReciprocity e G).path := by
  unfold Run.overallReciprocity
  split_ifs with hd
  · exact polite_lift
  · exact polite_lift
  · refine polite_get_bind (okReq_of_plain (show G.directed = true by simpa using hd)) (polite_get_bind (okReq_of_plain trivial) ?_)
    split_ifs
    · exact polite_get_bind (okReq_of_plain trivial) polite_pure
    · exact polite_pure

/-! ## cuts -/

omit [DecidableEq K] in
theorem eval_edgeBoundaryU (S : Vec G.n Bool) (T : Option (Vec G.n Bool)) :
    (Run.edgeBoundaryU e G S T).eval = .ok (edgeBoundaryU G.A S T) := by
  cases T with
  | some t => rfl
  | none =>
    change Except.ok _ = Except.ok _
    congr 1
    unfold edgeBoundaryU boundaryCols
    funext i j
    simp only [vapply, vassignR]
    change ointer pairN _ (if vnot (vS S) j then countRow G.A j else none) = _
    unfold ointer
    cases (S i) <;> cases (G.A i j) <;> try rfl
    cases (if vnot (vS S) j = true then countRow G.A j else none) <;> rfl

omit [DecidableEq K] in
theorem polite_edgeBoundaryU (S : Vec G.n Bool) (T : Option (Vec G.n Bool)) :
    Polite (e.of G) risky off (Run.edgeBoundaryU e G S T).path := by
  cases T with
  | some t => exact polite_pure
  | none => exact polite_get_bind (okReq_of_plain trivial) polite_pure

omit [DecidableEq K] in
theorem eval_cutSizeU (S : Vec G.n Bool) (T : Option (Vec G.n Bool)) :
    (Run.cutSizeU e G S T).eval = cutSizeU G.directed G.A S T := by
  unfold Run.cutSizeU cutSizeU
  rw [eval_bind, eval_edgeBoundaryU]
  change (if G.directed = true then _ else _ : Prog _ _).eval = if G.directed = true then _ else _
  split_ifs
  · cases T with
    | none => rfl
    | some t => simp only; rw [eval_bind, eval_edgeBoundaryU]; rfl
  · rfl

omit [DecidableEq K] in
theorem polite_cutSizeU (S : Vec G.n Bool) (T : Option (Vec G.n Bool)) :
    Polite (e.of G) risky off (Run.cutSizeU e G S T).path := by
  refine polite_bind (polite_edgeBoundaryU e G S T) fun _ _ => ?_
  split_ifs
  · cases T with
    | none => exact polite_lift
    | some t => exact polite_bind (polite_edgeBoundaryU e G _ _) fun _ _ => polite_pure
  · exact polite_pure

theorem eval_cutSize (S : List K) (T : Option (List K)) : (Run.cutSize e G S T).eval = cutSize G S T := by
  unfold Run.cutSize cutSize
  rw [eval_bind]
  refine congrArg (fun f => (setToVector G S true) >>= f) (funext fun s => ?_)
  rw [eval_bind]
  exact congrArg (fun f => (setToVector? G T) >>= f) (funext fun t => eval_cutSizeU e G s t)

theorem polite_cutSize (S : List K) (T : Option (List K)) :
    Polite (e.of G) risky off (Run.cutSize e G S T).path :=
  polite_lift_bind fun _ _ => polite_lift_bind fun _ _ => polite_cutSizeU e G _ _

omit [DecidableEq K] in
theorem eval_volumeU (S : Vec G.n Bool) : (Run.volumeU e G S).eval = .ok (volumeU G.A S) := rfl

omit [DecidableEq K] in
theorem polite_volumeU (S : Vec G.n Bool) : Polite (e.of G) risky off (Run.volumeU e G S).path :=
  polite_get_bind (okReq_of_plain trivial) polite_pure

theorem eval_volume (S : List K) : (Run.volume e G S).eval = volume G S := by
  unfold Run.volume volume
  rw [eval_bind]
  rfl

theorem polite_volume (S : List K) : Polite (e.of G) risky off (Run.volume e G S).path :=
  polite_lift_bind fun _ _ => polite_volumeU e G _

theorem eval_normalizedCutSize (S : List K) (T : Option (List K)) :
    (Run.normalizedCutSize e G S T).eval = normalizedCutSize G S T := by
  unfold Run.normalizedCutSize normalizedCutSize
  rw [eval_bind]
  refine congrArg (fun f => (setToVector G S true) >>= f) (funext fun s => ?_)
  rw [eval_bind]
  refine congrArg (fun f => (otherSide G s T) >>= f) (funext fun t => ?_)
  rw [eval_bind, eval_cutSizeU]
  refine congrArg (fun f => (cutSizeU G.directed G.A s (some t)) >>= f) (funext fun k => ?_)
  rw [eval_bind, eval_volumeU]
  change (Run.volumeU e G t >>= _ : Prog _ _).eval = _
  rw [eval_bind, eval_volumeU]
  change (Prog.lift (pyDiv 1 (volumeU G.A s)) >>= _ : Prog _ _).eval = _
  rw [eval_bind]
  refine congrArg (fun f => (pyDiv 1 (volumeU G.A s)) >>= f) (funext fun x => ?_)
  rw [eval_bind]
  rfl

theorem polite_normalizedCutSize (S : List K) (T : Option (List K)) :
    Polite (e.of G) risky off (Run.normalizedCutSize e G S T).path :=
  polite_lift_bind fun _ _ => polite_lift_bind fun _ _ => polite_bind (polite_cutSizeU e G _ _) fun _ _ =>
    polite_bind (polite_volumeU e G _) fun _ _ => polite_bind (polite_volumeU e G _) fun _ _ =>
      polite_lift_bind fun _ _ => polite_lift_bind fun _ _ => polite_pure

theorem eval_conductance (S : List K) (T : Option (List K)) :
    (Run.conductance e G S T).eval = conductance G S T := by
  unfold Run.conductance conductance
  rw [eval_bind]
  refine congrArg (fun f => (setToVector G S true) >>= f) (funext fun s => ?_)
  rw [eval_bind]
  refine congrArg (fun f => (otherSide G s T) >>= f) (funext fun t => ?_)
  rw [eval_bind, eval_cutSizeU]
  rfl

theorem polite_conductance (S : List K) (T : Option (List K)) :
    Polite (e.of G) risky off (Run.conductance e G S T).path :=
  polite_lift_bind fun _ _ => polite_lift_bind fun _ _ => polite_bind (polite_cutSizeU e G _ _) fun _ _ =>
    polite_bind (polite_volumeU e G _) fun _ _ => polite_bind (polite_volumeU e G _) fun _ _ => polite_lift

end
/-! ## weighted shortest paths -/

section
variable [DecidableEq ι] [AddCommGroup α] [LinearOrder α] (e : Env ι α) (G : Graph K α)
variable {risky : Err → Prop} {off : Prop}

omit [DecidableEq ι] in
theorem look_offdiag (m : Option (VMask G.n)) :
    restrict m .offdiag (value (e.of G) .offdiag) = offdiag G.A := rfl

omit [DecidableEq ι] in
theorem look_diag : restrict none .diag (value (e.of G) .diag) = diagVec G.A := rfl

theorem look_negP (m : Option (VMask G.n)) :
    restrict m (.neg .p) (value (e.of G) (.neg .p)) = hasNegEdgesP G.A := by
  change value (e.of G) (.neg .p) = _
  rw [Bool.eq_iff_iff, Proofs.BF.hasNegEdgesP_iff, value_neg]
  unfold Proofs.Cache.Neg
  simp only [Option.any_eq_true, decide_eq_true_eq]
  exact Iff.rfl

theorem look_negM (m : Option (VMask G.n)) :
    restrict m (.neg .m) (value (e.of G) (.neg .m)) = hasNegEdgesM G.A := by
  change value (e.of G) (.neg .m) = _
  rw [Bool.eq_iff_iff, Proofs.BF.hasNegEdgesM_iff, value_neg]
  unfold Proofs.Cache.Neg
  simp only [Option.any_eq_true, decide_eq_true_eq]
  exact Iff.rfl

theorem look_negDiag (m : Option (VMask G.n)) :
    restrict m .negDiag (value (e.of G) .negDiag) = hasNegDiag G.A := by
  change value (e.of G) .negDiag = _
  rw [Bool.eq_iff_iff, Proofs.BF.hasNegDiag_iff, value_negD]
  unfold NegD
  simp only [Option.any_eq_true, decide_eq_true_eq]

omit [DecidableEq ι] in
theorem look_isIso (m : Option (VMask G.n)) :
    restrict m .isIso (value (e.of G) .isIso) = e.iso.isSome := rfl
omit [DecidableEq ι] in
theorem look_isoVal (m : Option (VMask G.n)) :
    restrict m .isoVal (value (e.of G) .isoVal) = e.iso := rfl

theorem ok_bind' {a b : Type} (x : a) (f : a → Except Err b) : ((Except.ok x : Except Err a) >>= f) = f x := rfl
theorem error_bind' {a b : Type} (x : Err) (f : a → Except Err b) :
    ((Except.error x : Except Err a) >>= f) = .error x := rfl

theorem eval_bfPrune (dst : Option (Fin G.n)) :
    (Run.bfPrune e G dst).eval = .ok (if hasNegEdgesM G.A then none else dst) := by
  cases dst with
  | none => simp [Run.bfPrune]
  | some t =>
    unfold Run.bfPrune
    simp only
    rw [eval_get_bind, look_negM]
    rfl

theorem eval_bfCore (src : Fin G.n) (dst : Option (Fin G.n)) (cutoff : Option α) :
    (Run.bfCore e G src dst cutoff).eval = bfCore G.A src dst cutoff := by
  unfold Run.bfCore bfCore
  rw [eval_get_bind, eval_get_bind, eval_bind, eval_bfPrune, ok_bind', look_offdiag, look_negDiag]
  simp only
  generalize bfLoop (offdiag G.A) (if hasNegEdgesM G.A = true then none else dst) (G.n - 1) cutoff
    (vset vempty src 0) (vset vempty src 0) = st
  cases dst with
  | none =>
    simp only
    by_cases h : (!st.broke && (reduce (· || ·) (bfImproved (offdiag G.A) st.cut st.d st.cur)).getD false) = true
    · rw [if_pos h, if_pos h]
      exact rfl
    · rw [if_neg h, if_neg h]
      cases hasNegDiag G.A
      · rfl
      · simp only [if_true, Bool.true_and]
        rw [eval_get_bind, look_diag]
        split_ifs <;> rfl
  | some t =>
    simp only
    by_cases h : (!st.broke && (bfImproved (offdiag G.A) st.cut st.d st.cur t).getD false) = true
    · rw [if_pos h, if_pos h]
      exact rfl
    · rw [if_neg h, if_neg h]
      cases hasNegDiag G.A
      · rfl
      · simp only [if_true, Bool.true_and]
        rw [eval_get_bind, look_diag]
        split_ifs <;> rfl

theorem eval_bfCoreM {k : Nat} (ids : Fin k → Fin G.n) :
    (Run.bfCoreM e G ids).eval = bfCoreM G.A ids := by
  unfold Run.bfCoreM bfCoreM
  rw [eval_get_bind, eval_get_bind, look_offdiag, look_negDiag]
  simp only
  generalize bfLoopM (offdiag G.A) (G.n - 1) (fun r j => if j = ids r then some (0 : α) else none)
    (fun r j => if j = ids r then some 0 else none) = st
  obtain ⟨D, Cur, broke⟩ := st
  simp only
  by_cases h : (!broke && (reduceScalar (· || ·)
      (fun r => bfImproved (offdiag G.A) none (D r) (Cur r) : Mat k G.n Bool)).getD false) = true
  · rw [if_pos h, if_pos h]
    exact rfl
  · rw [if_neg h, if_neg h]
    cases hasNegDiag G.A
    · rfl
    · simp only [if_true, Bool.true_and]
      rw [eval_get_bind, look_diag]
      split_ifs <;> rfl

theorem eval_bellmanFordPathLengths {k : Nat} (ids : Fin k → Fin G.n) :
    (Run.bellmanFordPathLengths e G ids).eval = bellmanFordPathLengths G e.iso ids := by
  unfold Run.bellmanFordPathLengths bellmanFordPathLengths
  rw [eval_get_bind, look_isIso]
  cases h : e.iso with
  | none => exact eval_bfCoreM e G ids
  | some c =>
    simp only [Option.isSome_some, if_true]
    rw [eval_get_bind, eval_get_bind, look_negP, look_isoVal, h]
    cases hasNegEdgesP G.A
    · rfl
    · simp only [Bool.not_true, Bool.false_eq_true, if_false]
      by_cases hm : (!G.directed && decide (mnvals (fun r => G.A (ids r)) > 0)) = true
      · rw [if_pos hm, if_pos hm]
        exact rfl
      · rw [if_neg hm, if_neg hm]
        exact (eval_bfCoreM e G ids)

variable [DecidableEq K]

theorem eval_singleSourceBF (fdiv : α → α → Int) (source : K) (cutoff : Option α) :
    (Run.singleSourceBF e G fdiv source cutoff).eval = singleSourceBF G e.iso fdiv source cutoff := by
  unfold Run.singleSourceBF singleSourceBF
  rw [eval_bind]
  refine congrArg (fun f => (G.getId source) >>= f) (funext fun src => ?_)
  rw [eval_get_bind, look_isIso]
  cases h : e.iso with
  | none => exact eval_bfCore e G src none cutoff
  | some c =>
    simp only [Option.isSome_some, if_true]
    rw [eval_get_bind, eval_get_bind, look_negP, look_isoVal, h]
    cases hasNegEdgesP G.A
    · simp only [Bool.not_false, if_true, Option.elim_some]
      rw [eval_bind, eval_lift, ok_bind', eval_bind, eval_lift]
      cases cutoff with
      | none =>
        change (Except.ok none >>= _) = _
        rw [ok_bind', eval_bind, eval_bfsLevel]
        rfl
      | some x =>
        unfold Run.isoCut
        simp only
        by_cases hc : c = 0
        · simp only [if_pos hc]
          rfl
        · simp only [if_neg hc]
          change (Except.ok (some (fdiv x c)) >>= _) = (Except.ok (some (fdiv x c)) >>= _)
          rw [ok_bind', ok_bind', eval_bind, eval_bfsLevel]
          rfl
    · simp only [Bool.not_true, Bool.false_eq_true, if_false]
      by_cases h1 : (G.A src src).isSome = true
      · rw [if_pos h1, if_pos h1]
        exact rfl
      · rw [if_neg h1, if_neg h1]
        by_cases hm : (!G.directed && decide (nvals (G.A src) > 0)) = true
        · rw [if_pos hm, if_pos hm]
          exact rfl
        · rw [if_neg hm, if_neg hm]
          exact (eval_bfCore e G src none cutoff)

theorem eval_bellmanFordPathLength (source target : K) :
    (Run.bellmanFordPathLength e G source target).eval = bellmanFordPathLength G e.iso source target := by
  have g : ∀ dst : Fin G.n, ∀ d : Vec G.n α, (match d dst with
      | none => Except.error Err.noPath
      | some x => .ok x : Except Err α) = Run.orNoPath (d dst) := by
    intro dst d
    unfold Run.orNoPath
    cases d dst <;> rfl
  unfold Run.bellmanFordPathLength bellmanFordPathLength
  rw [eval_bind]
  refine congrArg (fun f => (G.getId source) >>= f) (funext fun src => ?_)
  rw [eval_bind]
  refine congrArg (fun f => (G.getId target) >>= f) (funext fun dst => ?_)
  rw [eval_get_bind, look_isIso]
  have core : (Run.bfCore e G src (some dst) none >>= fun d => Prog.lift (Run.orNoPath (d dst))).eval =
      (bfCore G.A src (some dst) none >>= fun d => match d dst with
        | none => Except.error Err.noPath
        | some x => .ok x) := by
    rw [eval_bind, eval_bfCore]
    exact congrArg (fun f => (bfCore G.A src (some dst) none) >>= f) (funext fun d => (g dst d).symm)
  cases h : e.iso with
  | none => exact core
  | some c =>
    simp only [Option.isSome_some, if_true]
    rw [eval_get_bind, eval_get_bind, look_negP, look_isoVal, h]
    cases hasNegEdgesP G.A
    · simp only [Bool.not_false, if_true, Option.elim_some]
      rw [eval_bind, eval_lift, ok_bind', eval_bind, eval_bfsLevel]
      exact congrArg (fun f => (bfsLevel G source (some target) none) >>= f)
        (funext fun d => (g dst _).symm)
    · simp only [Bool.not_true, Bool.false_eq_true, if_false]
      by_cases h1 : (G.A src src).isSome = true
      · rw [if_pos h1, if_pos h1]
        exact rfl
      · rw [if_neg h1, if_neg h1]
        by_cases hm : (!G.directed && decide (nvals (G.A src) > 0)) = true
        · rw [if_pos hm, if_pos hm]
          exact rfl
        · rw [if_neg hm, if_neg hm]
          exact core

theorem eval_allPairsBF (fdiv : α → α → Int) (cs : Option Int) :
    (Run.allPairsBF e G fdiv cs).eval = allPairsBF G e.iso fdiv cs := by
  unfold Run.allPairsBF allPairsBF
  cases cs with
  | none =>
    simp only
    rw [eval_bind, eval_bellmanFordPathLengths]
    rfl
  | some k =>
    simp only
    split_ifs
    · rw [eval_mapM]
      congr 1
      funext s
      rw [eval_bind, eval_singleSourceBF]
      rfl
    · rw [eval_bind, eval_mapM]
      refine congrArg (fun f => (List.mapM f _ : Except Err _) >>= _) (funext fun p => ?_)
      cases p with
      | elem x => rfl
      | chunk l =>
        unfold Run.bfChunk
        simp only
        rw [eval_bind]
        refine congrArg (fun f => (listToIds G l) >>= f) (funext fun ids => ?_)
        rw [eval_bind, eval_bellmanFordPathLengths]
        rfl

omit [DecidableEq K] in
theorem eval_bfPathDiag (dst : Fin G.n) (path : List (Fin G.n)) (cur : Vec G.n α) :
    (Run.bfPathDiag e G dst path cur).eval = bfPathDiag G.A dst path cur := by
  unfold Run.bfPathDiag bfPathDiag
  simp only
  rw [eval_get_bind]
  have hd : restrict (some (vS (vofIds path true))) Key.diag (value (e.of G) .diag) =
    vassignR (vS (vofIds path true)) (diagVec G.A) := rfl
  rw [hd]
  split_ifs
  · rfl
  · generalize indices (vmul first (vofIds path true) cur) = l
    rcases l with _ | ⟨i, _ | ⟨j, _ | ⟨k, l⟩⟩⟩
    · rfl
    · rfl
    · simp only
      rw [eval_get_bind, look_offdiag]
      split_ifs <;> rfl
    · rfl
  · rfl

omit [DecidableEq K] in
theorem eval_bfPathCore (src dst : Fin G.n) :
    (Run.bfPathCore e G src dst).eval = bfPathCore G.A src dst := by
  unfold Run.bfPathCore bfPathCore
  rw [eval_get_bind, eval_get_bind, eval_get_bind, look_offdiag, look_negDiag, look_negM]
  simp only
  generalize bfPathLoop (offdiag G.A) (if hasNegEdgesM G.A = true then none else some dst) (G.n - 1) none
    (vset vempty src 0) (vset vempty src 0) (vset vempty src src) = st
  obtain ⟨st, p⟩ := st
  simp only
  by_cases h : (!st.broke && (bfImproved (offdiag G.A) st.cut st.d st.cur dst).getD false) = true
  · rw [if_pos h, if_pos h]
    exact rfl
  · rw [if_neg h, if_neg h]
    rw [eval_bind]
    refine congrArg (fun f => (reconstructPath p src dst) >>= f) (funext fun path => ?_)
    by_cases h2 : (hasNegDiag G.A && !path.isEmpty) = true
    · rw [if_pos h2, if_pos h2]
      rw [eval_bind, eval_bfPathDiag]
      rfl
    · rw [if_neg h2, if_neg h2]
      exact rfl

theorem eval_bfPathIds (source target : K) (src dst : Fin G.n) :
    (Run.bfPathIds e G source target src dst).eval = bfPathIds G e.iso source target src dst := by
  unfold Run.bfPathIds bfPathIds
  rw [eval_get_bind, look_isIso]
  cases h : e.iso with
  | none => exact eval_bfPathCore e G src dst
  | some c =>
    simp only [Option.isSome_some, if_true]
    rw [eval_get_bind, look_negP]
    cases hasNegEdgesP G.A
    · simp only [Bool.not_false, if_true]
      rw [eval_bind, eval_bfsParent]
      rfl
    · rfl

theorem eval_bellmanFordPath (source target : K) :
    (Run.bellmanFordPath e G source target).eval = bellmanFordPath G e.iso source target := by
  unfold Run.bellmanFordPath bellmanFordPath
  rw [eval_bind]
  refine congrArg (fun f => (G.getId source) >>= f) (funext fun src => ?_)
  rw [eval_bind]
  refine congrArg (fun f => (G.getId target) >>= f) (funext fun dst => ?_)
  rw [eval_bind, eval_bfPathIds]
  rfl

omit [DecidableEq K] in
theorem eval_negativeEdgeCycle : (Run.negativeEdgeCycle e G).eval = .ok (negativeEdgeCycle G) := by
  rw [Props.negativeEdgeCycle_eq_body (of := e.f) (mn := e.mn) (nonneg := e.nonneg) (iso := e.iso)]
  unfold Run.negativeEdgeCycle Run.necDegrees
  rw [eval_get_bind]
  by_cases hd : G.directed = true
  · simp only [if_pos hd]
    rfl
  · simp only [if_neg hd]
    rfl

omit [DecidableEq ι] [DecidableEq K] [AddCommGroup α] [LinearOrder α] in
theorem isSome_countRow (v : Mat G.n G.n α) (i : Fin G.n) :
    (countRow v i).isSome = decide (nvals (v i) ≠ 0) := by
  unfold countRow
  split_ifs with h <;> simp [h]

omit [DecidableEq K] in
theorem eval_fwInput : (Run.fwInput e G).eval = .ok (fwStart G.directed G.A, fwNonempty G.directed G.A) := by
  unfold Run.fwInput fwStart
  by_cases hd : G.directed = true
  · rw [if_pos hd, if_pos hd]
    change Except.ok (offdiag G.A, vS (vmul pairN (countRow (offdiag G.A)) (countRow (transpose (offdiag G.A))))) = _
    congr 2
    funext i
    unfold fwNonempty
    simp only [if_pos hd]
    rw [← isSome_countRow, ← isSome_countRow]
    unfold vS vmul ointer
    cases countRow (offdiag G.A) i <;> cases countRow (transpose (offdiag G.A)) i <;> rfl
  · rw [if_neg hd, if_neg hd]
    change Except.ok (triu1 G.A, vS (countRow (offdiag G.A))) = _
    congr 2
    funext i
    unfold fwNonempty
    simp only [if_neg hd]
    exact isSome_countRow G _ _

omit [DecidableEq K] in
theorem eval_floydWarshall (choose : α → α → α) :
    (Run.floydWarshall e G choose).eval = .ok (fwDist G.directed choose G.A) := by
  unfold Run.floydWarshall
  rw [eval_bind, eval_fwInput]
  rfl

omit [DecidableEq K] in
theorem eval_floydWarshallPred (choose : α → α → α) (chooseP : Fin G.n → Fin G.n → Fin G.n) :
    (Run.floydWarshallPred e G choose chooseP).eval = .ok (fwPred G.directed choose chooseP G.A) := by
  unfold Run.floydWarshallPred
  rw [eval_bind, eval_fwInput]
  rfl

/-! ### politeness -/

omit [DecidableEq K] in
theorem polite_bfPrune (dst : Option (Fin G.n)) (h : off) :
    Polite (e.of G) risky off (Run.bfPrune e G dst).path := by
  cases dst with
  | none => exact polite_pure
  | some t => exact polite_get_bind (ok_negM h) polite_pure

omit [DecidableEq K] in
theorem polite_bfCore (src : Fin G.n) (dst : Option (Fin G.n)) (cutoff : Option α) :
    Polite (e.of G) risky off (Run.bfCore e G src dst cutoff).path := by
  unfold Run.bfCore
  refine polite_get_bind (okReq_of_plain trivial) (polite_get_bind (ok_negDiag (Or.inr rfl)) ?_)
  refine polite_bind (polite_bfPrune e G dst (Or.inl (Or.inr rfl))) fun p _ => ?_
  simp only
  generalize (!(bfLoop _ p (G.n - 1) cutoff (vset vempty src 0) (vset vempty src 0)).broke && _) = nc
  cases nc
  · simp only [Bool.false_eq_true, if_false]
    split_ifs
    · refine polite_get_bind (okReq_of_plain trivial) ?_
      split_ifs
      · exact polite_lift
      · exact polite_pure
    · exact polite_pure
  · exact polite_lift

omit [DecidableEq K] in
theorem polite_bfCoreM {k : Nat} (ids : Fin k → Fin G.n) :
    Polite (e.of G) risky off (Run.bfCoreM e G ids).path := by
  unfold Run.bfCoreM
  refine polite_get_bind (okReq_of_plain trivial) (polite_get_bind (ok_negDiag (Or.inr rfl)) ?_)
  simp only
  split_ifs
  · exact polite_lift
  · refine polite_get_bind (okReq_of_plain trivial) ?_
    split_ifs
    · exact polite_lift
    · exact polite_pure
  · exact polite_pure

omit [DecidableEq K] in
theorem polite_bellmanFordPathLengths {k : Nat} (ids : Fin k → Fin G.n) :
    Polite (e.of G) risky off (Run.bellmanFordPathLengths e G ids).path :=
  polite_get_bind (okReq_of_plain trivial) (polite_ite
    (fun hi => polite_get_bind (ok_negP hi) (polite_get_bind (ok_isoVal hi) (polite_ite
      (fun _ => polite_lift_bind fun _ _ => polite_bind (polite_bfsLevels e G _ _) fun _ _ => polite_pure)
      (fun _ => polite_ite (fun _ => polite_lift) fun _ => polite_bfCoreM e G ids))))
    (fun _ => polite_bfCoreM e G ids))

theorem polite_singleSourceBF (fdiv : α → α → Int) (source : K) (cutoff : Option α) :
    Polite (e.of G) risky off (Run.singleSourceBF e G fdiv source cutoff).path :=
  polite_lift_bind fun src _ => polite_get_bind (okReq_of_plain trivial) (polite_ite
    (fun hi => polite_get_bind (ok_negP hi) (polite_get_bind (ok_isoVal hi) (polite_ite
      (fun _ => polite_lift_bind fun _ _ => polite_lift_bind fun _ _ =>
        polite_bind (polite_bfsLevel e G _ _ _ _) fun _ _ => polite_pure)
      (fun _ => polite_ite (fun _ => polite_lift) fun _ => polite_ite (fun _ => polite_lift)
        fun _ => polite_bfCore e G _ _ _))))
    (fun _ => polite_bfCore e G _ _ _))

theorem polite_bellmanFordPathLength (source target : K) :
    Polite (e.of G) risky off (Run.bellmanFordPathLength e G source target).path :=
  polite_lift_bind fun src _ => polite_lift_bind fun dst _ =>
    polite_get_bind (okReq_of_plain trivial) (polite_ite
    (fun hi => polite_get_bind (ok_negP hi) (polite_get_bind (ok_isoVal hi) (polite_ite
      (fun _ => polite_lift_bind fun _ _ =>
        polite_bind (polite_bfsLevel e G _ _ _ _) fun _ _ => polite_lift)
      (fun _ => polite_ite (fun _ => polite_lift) fun _ => polite_ite (fun _ => polite_lift)
        fun _ => polite_bind (polite_bfCore e G _ _ _) fun _ _ => polite_lift))))
    (fun _ => polite_bind (polite_bfCore e G _ _ _) fun _ _ => polite_lift))

theorem polite_allPairsBF (fdiv : α → α → Int) (cs : Option Int) :
    Polite (e.of G) risky off (Run.allPairsBF e G fdiv cs).path := by
  unfold Run.allPairsBF
  cases cs with
  | none => exact polite_bind (polite_bellmanFordPathLengths e G _) fun _ _ => polite_lift
  | some k =>
    simp only
    split_ifs
    · exact polite_mapM fun s _ => polite_bind (polite_singleSourceBF e G _ _ _) fun _ _ => polite_pure
    · refine polite_bind (polite_mapM fun p _ => ?_) fun _ _ => polite_pure
      cases p with
      | elem x => exact polite_lift
      | chunk l =>
        exact polite_lift_bind fun _ _ =>
          polite_bind (polite_bellmanFordPathLengths e G _) fun _ _ => polite_pure

omit [DecidableEq K] in
theorem polite_bfPathDiag (dst : Fin G.n) (path : List (Fin G.n)) (cur : Vec G.n α) :
    Polite (e.of G) risky off (Run.bfPathDiag e G dst path cur).path := by
  unfold Run.bfPathDiag
  simp only
  refine polite_get_bind (okReq_of_plain trivial) ?_
  split_ifs
  · exact polite_lift
  · generalize indices (vmul first (vofIds path true) cur) = l
    rcases l with _ | ⟨i, _ | ⟨j, _ | ⟨k, l⟩⟩⟩
    · exact polite_lift
    · exact polite_lift
    · refine polite_get_bind (okReq_of_plain trivial) ?_
      split_ifs
      · exact polite_lift
      · exact polite_pure
    · exact polite_lift
  · exact polite_pure

omit [DecidableEq K] in
theorem polite_bfPathCore (src dst : Fin G.n) :
    Polite (e.of G) risky off (Run.bfPathCore e G src dst).path := by
  unfold Run.bfPathCore
  refine polite_get_bind (okReq_of_plain trivial) (polite_get_bind (ok_negDiag (Or.inr rfl))
    (polite_get_bind (ok_negM (Or.inl (Or.inr rfl))) ?_))
  exact polite_ite (fun _ => polite_lift) fun _ => polite_lift_bind fun path _ => polite_ite
    (fun _ => polite_bind (polite_bfPathDiag e G _ _ _) fun _ _ => polite_pure) fun _ => polite_pure

theorem polite_bellmanFordPath (source target : K) :
    Polite (e.of G) risky off (Run.bellmanFordPath e G source target).path := by
  unfold Run.bellmanFordPath Run.bfPathIds
  refine polite_lift_bind fun src _ => polite_lift_bind fun dst _ =>
    polite_bind (polite_get_bind (okReq_of_plain trivial) ?_) fun _ _ => polite_lift
  rw [look_isIso]
  split_ifs with hi
  · refine polite_get_bind (ok_negP hi) ?_
    split_ifs
    · exact polite_bind (polite_bfsParent e G _ _ _ _) fun _ _ => polite_lift
    · exact polite_lift
  · exact polite_bfPathCore e G _ _

omit [DecidableEq K] in
theorem polite_negativeEdgeCycle :
    Polite (e.of G) risky off (Run.negativeEdgeCycle e G).path := by
  unfold Run.negativeEdgeCycle Run.necDegrees
  refine polite_get_bind (okReq_of_plain trivial) (polite_bind ?_ fun _ _ => ?_)
  · split_ifs with hd
    · exact polite_get_bind (okReq_of_plain hd) polite_pure
    · exact polite_get_bind (okReq_of_plain trivial) polite_pure
  · exact polite_get_bind (ok_negDiag (Or.inr rfl)) (polite_get_bind (ok_negM (Or.inl (Or.inr rfl))) polite_pure)

omit [DecidableEq K] in
theorem polite_fwInput : Polite (e.of G) risky off (Run.fwInput e G).path := by
  unfold Run.fwInput
  split_ifs
  · exact polite_get_bind (okReq_of_plain trivial) (polite_get_bind (okReq_of_plain trivial)
      (polite_get_bind (okReq_of_plain trivial) polite_pure))
  · exact polite_get_bind (okReq_of_plain trivial) (polite_get_bind (okReq_of_plain trivial) polite_pure)

omit [DecidableEq K] in
theorem polite_floydWarshall (choose : α → α → α) :
    Polite (e.of G) risky off (Run.floydWarshall e G choose).path :=
  polite_bind (polite_fwInput e G) fun _ _ => polite_pure

omit [DecidableEq K] in
theorem polite_floydWarshallPred (choose : α → α → α) (chooseP : Fin G.n → Fin G.n → Fin G.n) :
    Polite (e.of G) risky off (Run.floydWarshallPred e G choose chooseP).path :=
  polite_bind (polite_fwInput e G) fun _ _ => polite_pure

end
end Proofs.Run
