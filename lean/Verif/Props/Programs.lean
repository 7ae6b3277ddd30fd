import Verif.Proofs.Run
import Verif.Model.Square

/-!
# Results do not depend on earlier calls of any algorithms: C06

`Query` lists calls of library functions on one graph object.  `Query.prog` is the call run on the
object: it looks properties up, and each lookup reads and writes the cache of the object.
`Query.result` is what the function is defined to return, by its model without any cache (the
function that the other properties are about).  The theorems say that a call made after any sequence
of other calls returns its `result`.
-/

open GB Spec.Prop Model Model.Cache Model.Memo

namespace Props

/-- calls of library functions on a graph whose nodes are `K` and whose weights are `α` -/
inductive Query (K α : Type)
  | singleSourceShortestPathLength (source : K) (cutoff : Option Int)
  | singleTargetShortestPathLength (target : K) (cutoff : Option Int)
  | allPairsShortestPathLength (cutoff chunksize : Option Int)
  | bidirectionalShortestPathLength (source target : K)
  | hasPath (source target : K)
  | descendants (source : K)
  | ancestors (source : K)
  | isConnected
  | isWeaklyConnected
  | bfsLayers (sources : List K)
  | descendantsAtDistance (source : K) (distance : Int)
  | lowestCommonAncestor (node1 node2 : K)
  | egoGraph (node : K) (radius : Int) (center : Bool)
  | triangles (nodes : Option (List K))
  | trianglesOf (node : K)
  | clustering (nodes : Option (List K))
  | clusteringOf (node : K)
  | generalizedDegree (nodes : Option (List K))
  | kTruss (k : Int)
  | isIsolate (node : K)
  | isolates
  | numberOfIsolates
  | sMetric
  | isRegular
  | isKRegular (k : Int)
  | isTournament
  | scoreSequence
  | isTriad
  | reciprocity (nodes : List K)
  | overallReciprocity
  | cutSize (S : List K) (T : Option (List K))
  | volume (S : List K)
  | normalizedCutSize (S : List K) (T : Option (List K))
  | conductance (S : List K) (T : Option (List K))
  | singleSourceBellmanFordPathLength (source : K) (cutoff : Option α)
  | bellmanFordPathLength (source target : K)
  | allPairsBellmanFordPathLength (chunksize : Option Int)
  | bellmanFordPath (source target : K)
  | negativeEdgeCycle
  | floydWarshall
  | floydWarshallPredecessorAndDistance

variable {ι α K : Type}

/-- the type of the results -/
@[reducible] def Query.Out (G : Graph K α) : Query K α → Type
  | .singleSourceShortestPathLength _ _ | .singleTargetShortestPathLength _ _ => Vec G.n Nat
  | .allPairsShortestPathLength _ _ => List (K × Vec G.n Nat)
  | .bidirectionalShortestPathLength _ _ => Nat
  | .hasPath _ _ => Bool
  | .descendants _ | .ancestors _ => Vec G.n Bool
  | .isConnected | .isWeaklyConnected => Bool
  | .bfsLayers _ => List (Vec G.n Bool)
  | .descendantsAtDistance _ _ => Vec G.n Bool
  | .lowestCommonAncestor _ _ => Option K
  | .egoGraph _ _ _ => Graph K α
  | .triangles _ => Vec G.n Nat
  | .trianglesOf _ => Nat
  | .clustering _ => Vec G.n ℚ
  | .clusteringOf _ => ℚ
  | .generalizedDegree _ => Mat G.n (G.n - 1) Nat
  | .kTruss _ => Graph K (α ⊕ Nat)
  | .isIsolate _ => Bool
  | .isolates => Vec G.n Bool
  | .numberOfIsolates => Nat
  | .sMetric => ℚ
  | .isRegular | .isKRegular _ | .isTournament => Bool
  | .scoreSequence => List Nat
  | .isTriad => Bool
  | .reciprocity _ => Vec G.n ℚ
  | .overallReciprocity => ℚ
  | .cutSize _ _ | .volume _ => Nat
  | .normalizedCutSize _ _ | .conductance _ _ => ℚ
  | .singleSourceBellmanFordPathLength _ _ => Vec G.n α
  | .bellmanFordPathLength _ _ => α
  | .allPairsBellmanFordPathLength _ => List (K × Vec G.n α)
  | .bellmanFordPath _ _ => List K
  | .negativeEdgeCycle => Bool
  | .floydWarshall => Mat G.n G.n α
  | .floydWarshallPredecessorAndDistance => Mat G.n G.n (Fin G.n) × Mat G.n G.n α

/-- behaviour that the library leaves open: the `any` operator on weights and on row numbers, and
floor division of weights -/
structure Free (n : Nat) (α : Type) where
  choose : α → α → α
  chooseP : Fin n → Fin n → Fin n
  fdiv : α → α → Int

variable [DecidableEq ι] [AddCommGroup α] [LinearOrder α] [DecidableEq K]

/-- the call, run on the graph object -/
def Query.prog (e : Env ι α) (G : Graph K α) (o : Free G.n α) : (q : Query K α) → Prog (e.of G) (q.Out G)
  | .singleSourceShortestPathLength s c => Run.bfsLevel e G s none c false
  | .singleTargetShortestPathLength t c => Run.bfsLevel e G t none c true
  | .allPairsShortestPathLength c cs => Run.allPairsSPL e G c cs
  | .bidirectionalShortestPathLength s t => Run.bidirectionalSPL e G s t
  | .hasPath s t => Run.hasPath e G s t
  | .descendants s => Run.reachable e G s false
  | .ancestors s => Run.reachable e G s true
  | .isConnected => Run.isConnected e G
  | .isWeaklyConnected => Run.isWeaklyConnected e G
  | .bfsLayers l => Run.bfsLayers e G l
  | .descendantsAtDistance s d => Run.descendantsAtDistance e G s d
  | .lowestCommonAncestor u v => Run.lowestCommonAncestor e G u v
  | .egoGraph u r c => Run.egoGraph e G u r c
  | .triangles l => Run.triangles e G l
  | .trianglesOf u => Run.singleTriangle e G u
  | .clustering l => if G.directed then Run.clusteringDirected e G l else Run.clustering e G l
  | .clusteringOf u => if G.directed then Run.singleClusteringDirected e G u else Run.singleClustering e G u
  | .generalizedDegree l => Run.generalizedDegree e G l
  | .kTruss k => Run.kTruss e G k
  | .isIsolate u => Run.isIsolate e G u
  | .isolates => Run.isolates e G
  | .numberOfIsolates => Run.numberOfIsolates e G
  | .sMetric => Run.sMetric e G
  | .isRegular => Run.isRegular e G
  | .isKRegular k => Run.isKRegular e G k
  | .isTournament => Run.isTournament e G
  | .scoreSequence => Run.scoreSequence e G
  | .isTriad => Run.isTriad e G
  | .reciprocity l => Run.reciprocityNodes e G l
  | .overallReciprocity => Run.overallReciprocity e G
  | .cutSize S T => Run.cutSize e G S T
  | .volume S => Run.volume e G S
  | .normalizedCutSize S T => Run.normalizedCutSize e G S T
  | .conductance S T => Run.conductance e G S T
  | .singleSourceBellmanFordPathLength s c => Run.singleSourceBF e G o.fdiv s c
  | .bellmanFordPathLength s t => Run.bellmanFordPathLength e G s t
  | .allPairsBellmanFordPathLength cs => Run.allPairsBF e G o.fdiv cs
  | .bellmanFordPath s t => Run.bellmanFordPath e G s t
  | .negativeEdgeCycle => Run.negativeEdgeCycle e G
  | .floydWarshall => Run.floydWarshall e G o.choose
  | .floydWarshallPredecessorAndDistance => Run.floydWarshallPred e G o.choose o.chooseP

/-- what the call is defined to return -/
def Query.result (G : Graph K α) (iso : Option α) (o : Free G.n α) : (q : Query K α) → Except Err (q.Out G)
  | .singleSourceShortestPathLength s c => Model.singleSourceSPL G s c
  | .singleTargetShortestPathLength t c => Model.singleTargetSPL G t c
  | .allPairsShortestPathLength c cs => Model.allPairsSPL G c cs
  | .bidirectionalShortestPathLength s t => Model.bidirectionalSPL G s t
  | .hasPath s t => Model.hasPath G s t
  | .descendants s => Model.descendants G s
  | .ancestors s => Model.ancestors G s
  | .isConnected => Model.isConnected G
  | .isWeaklyConnected => Model.isWeaklyConnected G
  | .bfsLayers l => Model.bfsLayers G l
  | .descendantsAtDistance s d => Model.descendantsAtDistance G s d
  | .lowestCommonAncestor u v => Model.lowestCommonAncestor G u v
  | .egoGraph u r c => Model.egoGraph o.choose G u r c false
  | .triangles l => Model.triangles G l
  | .trianglesOf u => Model.singleTriangle G u
  | .clustering l => if G.directed then Model.clusteringDirected G l else Model.clustering G l
  | .clusteringOf u => if G.directed then Model.singleClusteringDirected G u else Model.singleClustering G u
  | .generalizedDegree l => Model.generalizedDegree G l
  | .kTruss k => Model.kTruss G k
  | .isIsolate u => Model.isIsolate G u
  | .isolates => .ok (Model.isolates G)
  | .numberOfIsolates => .ok (Model.numberOfIsolates G)
  | .sMetric => .ok (Model.sMetric G)
  | .isRegular => Model.isRegular G
  | .isKRegular k => Model.isKRegular G k
  | .isTournament => Model.isTournament G
  | .scoreSequence => Model.scoreSequence G
  | .isTriad => .ok (Model.isTriad G)
  | .reciprocity l => Model.reciprocityNodes G l
  | .overallReciprocity => Model.overallReciprocity G
  | .cutSize S T => Model.cutSize G S T
  | .volume S => Model.volume G S
  | .normalizedCutSize S T => Model.normalizedCutSize G S T
  | .conductance S T => Model.conductance G S T
  | .singleSourceBellmanFordPathLength s c => Model.singleSourceBF G iso o.fdiv s c
  | .bellmanFordPathLength s t => Model.bellmanFordPathLength (α := α) G iso s t
  | .allPairsBellmanFordPathLength cs => Model.allPairsBF G iso o.fdiv cs
  | .bellmanFordPath s t => Model.bellmanFordPath G iso s t
  | .negativeEdgeCycle => .ok (Model.negativeEdgeCycle G)
  | .floydWarshall => .ok (Model.fwDist G.directed o.choose G.A)
  | .floydWarshallPredecessorAndDistance => .ok (Model.fwPred G.directed o.choose o.chooseP G.A)

/-- the functions that look `total_degrees+` up without a mask: on a DiGraph with self-loops they leave
a wrong `has_self_edges` behind -/
def Query.LooksUpTotalDegrees : Query K α → Prop
  | .isIsolate _ | .isolates | .numberOfIsolates | .sMetric => True
  | _ => False

/-- some node has an edge to itself -/
def HasLoop (G : Graph K α) : Prop := ∃ i, (G.A i i).isSome

/-- excluded: `total_degrees+` users on DiGraphs with self-loops -/
def Query.Tame (G : Graph K α) (q : Query K α) : Prop :=
  q.LooksUpTotalDegrees → G.directed = true → ¬ HasLoop G

open Proofs.Run Proofs.Prog

theorem query_eval (e : Env ι α) (G : Graph K α) (o : Free G.n α) (q : Query K α) :
    (q.prog e G o).eval = q.result G e.iso o := by
  cases q with
  | singleSourceShortestPathLength s c => exact eval_bfsLevel e G s none c false
  | singleTargetShortestPathLength t c => exact eval_bfsLevel e G t none c true
  | allPairsShortestPathLength c cs => exact eval_allPairsSPL e G c cs
  | bidirectionalShortestPathLength s t => exact eval_bidirectionalSPL e G s t
  | hasPath s t => exact eval_hasPath e G s t
  | descendants s => exact eval_reachable e G s false
  | ancestors s => exact eval_reachable e G s true
  | isConnected => exact eval_isConnected e G
  | isWeaklyConnected => exact eval_isWeaklyConnected e G
  | bfsLayers l => exact eval_bfsLayers e G l
  | descendantsAtDistance s d => exact eval_descendantsAtDistance e G s d
  | lowestCommonAncestor u v => exact eval_lowestCommonAncestor e G u v
  | egoGraph u r c => exact eval_egoGraph e G _ u r c
  | triangles l => exact eval_triangles e G l
  | trianglesOf u => exact eval_singleTriangle e G u
  | clustering l =>
    change (if _ then _ else _ : Prog (e.of G) (Vec G.n ℚ)).eval = if _ then _ else _
    split_ifs
    · exact eval_clusteringDirected e G l
    · exact eval_clustering e G l
  | clusteringOf u =>
    change (if _ then _ else _ : Prog (e.of G) ℚ).eval = if _ then _ else _
    split_ifs
    · exact eval_singleClusteringDirected e G u
    · exact eval_singleClustering e G u
  | generalizedDegree l => exact eval_generalizedDegree e G l
  | kTruss k => exact eval_kTruss e G k
  | isIsolate u => exact eval_isIsolate e G u
  | isolates => exact eval_isolates e G
  | numberOfIsolates => exact eval_numberOfIsolates e G
  | sMetric => exact eval_sMetric e G
  | isRegular => exact eval_isRegular e G
  | isKRegular k => exact eval_isKRegular e G k
  | isTournament => exact eval_isTournament e G
  | scoreSequence => exact eval_scoreSequence e G
  | isTriad => exact eval_isTriad e G
  | reciprocity l => exact eval_reciprocityNodes e G l
  | overallReciprocity => exact eval_overallReciprocity e G
  | cutSize S T => exact eval_cutSize e G S T
  | volume S => exact eval_volume e G S
  | normalizedCutSize S T => exact eval_normalizedCutSize e G S T
  | conductance S T => exact eval_conductance e G S T
  | singleSourceBellmanFordPathLength s c => exact eval_singleSourceBF e G _ s c
  | bellmanFordPathLength s t => exact eval_bellmanFordPathLength e G s t
  | allPairsBellmanFordPathLength cs => exact eval_allPairsBF e G _ cs
  | bellmanFordPath s t => exact eval_bellmanFordPath e G s t
  | negativeEdgeCycle => exact eval_negativeEdgeCycle e G
  | floydWarshall => exact eval_floydWarshall e G _
  | floydWarshallPredecessorAndDistance => exact eval_floydWarshallPred e G _ _

omit [DecidableEq K] [AddCommGroup α] [LinearOrder α] in
theorem loopFree_of {G : Graph K α} (h : G.directed = true → ¬ HasLoop G) : LoopFree G := by
  intro hd i
  cases hi : G.A i i with
  | none => rfl
  | some w => exact absurd ⟨i, by rw [hi]; rfl⟩ (h hd)

theorem query_polite (e : Env ι α) (G : Graph K α) (o : Free G.n α) (q : Query K α) (hq : q.Tame G) :
    Polite (e.of G) (fun _ => False) False
      (q.prog e G o).path := by
  cases q with
  | singleSourceShortestPathLength s c => exact polite_bfsLevel e G s none c false
  | singleTargetShortestPathLength t c => exact polite_bfsLevel e G t none c true
  | allPairsShortestPathLength c cs => exact polite_allPairsSPL e G c cs
  | bidirectionalShortestPathLength s t => exact polite_bidirectionalSPL e G s t
  | hasPath s t => exact polite_hasPath e G s t
  | descendants s => exact polite_reachable e G s false
  | ancestors s => exact polite_reachable e G s true
  | isConnected => exact polite_isConnected e G
  | isWeaklyConnected => exact polite_isWeaklyConnected e G
  | bfsLayers l => exact polite_bfsLayers e G l
  | descendantsAtDistance s d => exact polite_descendantsAtDistance e G s d
  | lowestCommonAncestor u v => exact polite_lowestCommonAncestor e G u v
  | egoGraph u r c => exact polite_egoGraph e G u r c
  | triangles l => exact polite_triangles e G l
  | trianglesOf u => exact polite_singleTriangle e G u
  | clustering l => exact polite_ite (fun h => polite_clusteringDirected e G h l) fun _ => polite_clustering e G l
  | clusteringOf u =>
    exact polite_ite (fun _ => polite_singleClusteringDirected e G u) fun _ => polite_singleClustering e G u
  | generalizedDegree l => exact polite_generalizedDegree e G l
  | kTruss k => exact polite_kTruss e G k
  | isIsolate u => exact polite_isIsolate e G (loopFree_of (hq trivial)) u
  | isolates => exact polite_isolates e G (loopFree_of (hq trivial))
  | numberOfIsolates => exact polite_numberOfIsolates e G (loopFree_of (hq trivial))
  | sMetric => exact polite_sMetric e G (loopFree_of (hq trivial))
  | isRegular => exact polite_isRegular e G
  | isKRegular k => exact polite_isKRegular e G k
  | isTournament => exact polite_isTournament e G
  | scoreSequence => exact polite_scoreSequence e G
  | isTriad => exact polite_isTriad e G
  | reciprocity l => exact polite_reciprocityNodes e G l
  | overallReciprocity => exact polite_overallReciprocity e G
  | cutSize S T => exact polite_cutSize e G S T
  | volume S => exact polite_volume e G S
  | normalizedCutSize S T => exact polite_normalizedCutSize e G S T
  | conductance S T => exact polite_conductance e G S T
  | singleSourceBellmanFordPathLength s c => exact polite_singleSourceBF e G _ s c
  | bellmanFordPathLength s t => exact polite_bellmanFordPathLength e G s t
  | allPairsBellmanFordPathLength cs => exact polite_allPairsBF e G _ cs
  | bellmanFordPath s t => exact polite_bellmanFordPath e G s t
  | negativeEdgeCycle => exact polite_negativeEdgeCycle e G
  | floydWarshall => exact polite_floydWarshall e G _
  | floydWarshallPredecessorAndDistance => exact polite_floydWarshallPred e G _ _

/-! ## histories -/

/-- what may happen to a graph object: a call of a library function, a property lookup by the user, or a
call of one of the two functions that store their result in the object -/
inductive Event (ι K α : Type) (n : Nat)
  | query (q : Query K α)
  | lookup (r : Req ι n)
  | transitivity
  | average (mask : NodeMask n) (weighted countZeros : Bool)

/-- how the object changes; `mx` is the operator name `max`, `f` the normalisation of the weights -/
def Event.step (e : Env ι α) (G : Graph K α) (o : Free G.n α) (mx : ι) (f : Norm α) (x : Obj (e.of G)) :
    Event ι K α G.n → Obj (e.of G)
  | .query q => (onStore (e.of G) (q.prog e G o).run x).2
  | .lookup r => { x with store := exec (e.of G) r x.store }
  | .transitivity => (callTransitivity (e.of G) x).2
  | .average mask w cz => (callAverage (e.of G) mx f mask w cz x).2

/-- the object after the events `h` -/
def objectAfter (e : Env ι α) (G : Graph K α) (o : Free G.n α) (mx : ι) (f : Norm α)
    (h : List (Event ι K α G.n)) : Obj (e.of G) :=
  h.foldl (Event.step e G o mx f) (Obj.fresh (e.of G))

/-- the outcome of the call `q` on an object -/
def outcome (e : Env ι α) (G : Graph K α) (o : Free G.n α) (x : Obj (e.of G)) (q : Query K α) :
    Except Err (q.Out G) :=
  (onStore (e.of G) (q.prog e G o).run x).1

/-- excluded from histories: calls and lookups of `total_degrees+` (without mask) on DiGraphs with
self-loops, `has_negative_diagonal`, and, on graphs with self-loops that are not iso-valued,
`has_negative_edges+` and `min_element+`.  (Looked up by the user, these leave wrong answers behind.) -/
def Event.Tame (e : Env ι α) (G : Graph K α) : Event ι K α G.n → Prop
  | .query q => q.Tame G
  | .lookup r => (G.directed = true → r.key = .totdeg .p → r.mask = none → ¬ HasLoop G) ∧ r.key ≠ .negDiag ∧
      (r.key = .neg .p ∨ r.key = .elem e.mn .p → e.iso.isSome ∨ ¬ HasLoop G)
  | .transitivity | .average _ _ _ => True

open Proofs.Cache Proofs.Memo Proofs.CacheMath

variable {e : Env ι α} {G : Graph K α} {o : Free G.n α} {mx : ι} {f : Norm α}

/-- the part of the object invariant that does not depend on memoised averages -/
def Sound (e : Env ι α) (G : Graph K α) (x : Obj (e.of G)) : Prop :=
  Inv (good (e.of G) True True) x.store ∧
    ∀ v, x.memo .transitivity = some v → v = transVal (e.of G)

omit [DecidableEq K] in
theorem sound_average (hv : (e.of G).Valid) (mx : ι) (f : Norm α) {x : Obj (e.of G)} (hx : Sound e G x)
    (mask : NodeMask G.n) (w cz : Bool) : Sound e G (callAverage (e.of G) mx f mask w cz x).2 := by
  have hs := ((sat_average (strict := True) (ex := True) (S := fun _ => False) hv mx f w cz mask).run
    x.store hx.1 (by simp)).1
  unfold callAverage
  split_ifs
  · exact hx
  · cases mask with
    | some p => exact ⟨hs, hx.2⟩
    | none =>
      unfold cacheit
      cases hm : x.memo (.average cz) with
      | some v => exact hx
      | none =>
        dsimp only
        have h1 : (onStore (e.of G) (averageM (e.of G) mx f w cz none) x).2 =
            { x with store := ((averageM (e.of G) mx f w cz none).run x.store).2 } := rfl
        rcases hr : onStore (e.of G) (averageM (e.of G) mx f w cz none) x with ⟨_ | v, x'⟩ <;>
          rw [hr] at h1 <;> dsimp only at h1 <;> subst h1
        · exact ⟨hs, hx.2⟩
        · exact ⟨hs, fun u hu => hx.2 u (by
            dsimp only at hu
            rwa [Function.update_of_ne (by simp)] at hu)⟩

omit [DecidableEq K] in
theorem sound_transitivity (hv : (e.of G).Valid) {x : Obj (e.of G)} (hx : Sound e G x) :
    Sound e G (callTransitivity (e.of G) x).2 ∧
    (callTransitivity (e.of G) x).1 = .ok (if G.n = 0 then 0 else transVal (e.of G)) := by
  obtain ⟨hs, -, h3, h4⟩ := (sat_transitivity (strict := True) (ex := True) (S := fun _ => False) hv).run
    x.store hx.1 (by simp)
  unfold callTransitivity
  by_cases h0 : (e.of G).n = 0
  · rw [if_pos h0, if_pos h0]
    exact ⟨hx, rfl⟩
  · rw [if_neg h0, if_neg h0]
    revert hs h3 h4
    generalize (if (e.of G).dir = true then transitivityDirM (e.of G) else transitivityM (e.of G)) = m
    intro hs h3 h4
    unfold cacheit
    cases hm : x.memo .transitivity with
    | some v => exact ⟨hx, by rw [hx.2 v hm]⟩
    | none =>
      have h1 : onStore (e.of G) m x = ((m.run x.store).1, { x with store := (m.run x.store).2 }) := rfl
      cases hr : (m.run x.store).1 with
      | error er => exact (h4 er hr).elim
      | ok v =>
        have hval := (h3 v hr).1
        rw [h1, hr]
        dsimp only
        refine ⟨⟨hs, fun u hu => ?_⟩, by rw [hval]⟩
        dsimp only at hu
        rw [Function.update_self] at hu
        cases hu
        exact hval

omit [AddCommGroup α] [DecidableEq ι] [LinearOrder α] [DecidableEq K] in
theorem hasLoop_iff : HasLoop G ↔ SelfEdge (e.of G) := Iff.rfl

theorem sound_step (hv : (e.of G).Valid) {x : Obj (e.of G)} (hx : Sound e G x) (t : Event ι K α G.n)
    (ht : t.Tame e G) : Sound e G (t.step e G o mx f x) := by
  cases t with
  | query q => exact ⟨inv_run hv (query_polite e G o q ht) hx.1, hx.2⟩
  | lookup r =>
    obtain ⟨h1, h2, h3⟩ := ht
    refine ⟨?_, hx.2⟩
    exact ((sat_getProp (S := fun _ => False) (strict := True) (ex := True) hv r.al r.mask r.key (fun h => absurd h h2)
      (fun a b d => noSelf_iff_selfEdge.2 (h1 a b d))
      (fun _ a => (h3 a).imp_right noSelf_iff_selfEdge.2)).run x.store hx.1 (by simp)).1
  | transitivity => exact (sound_transitivity hv hx).1
  | average mask w cz => exact sound_average hv mx f hx mask w cz

theorem sound_objectAfter (hv : (e.of G).Valid) (h : List (Event ι K α G.n)) (ht : ∀ t ∈ h, t.Tame e G) :
    Sound e G (objectAfter e G o mx f h) := by
  unfold objectAfter
  have : ∀ x, Sound e G x → Sound e G (h.foldl (Event.step e G o mx f) x) := by
    induction h with
    | nil => exact fun _ h => h
    | cons t h ih =>
      intro x hx
      exact ih (fun t' ht' => ht t' (List.mem_cons_of_mem _ ht')) _
        (sound_step hv hx t (ht t (List.mem_cons_self ..)))
  exact this _ ⟨fun k v h => by simp [Obj.fresh] at h, by simp [Obj.fresh]⟩

/-! ## the theorems -/

/-- **C06** (graphs that may have self-loops): whatever was called on the graph object before -- any calls
of the listed functions, with any arguments, failing calls included, any property lookups and any
memoised averages -- a call returns what its definition says.
Partial: `total_degrees+` users on DiGraphs with self-loops are excluded (`isolates_poison_reciprocity`
shows why), as are user lookups of three property names. -/
theorem result_independent_of_history_partial (hv : (e.of G).Valid) (h : List (Event ι K α G.n))
    (ht : ∀ t ∈ h, t.Tame e G) (q : Query K α) (hq : q.Tame G) :
    outcome e G o (objectAfter e G o mx f h) q = q.result G e.iso o := by
  rw [← query_eval e G o q]
  rcases run_result hv (query_polite e G o q hq) (sound_objectAfter (o := o) (mx := mx) (f := f) hv h ht).1
    with h1 | ⟨er, -, h2⟩
  · exact h1
  · exact h2.elim

/-- **C06** for graphs without self-loops: every call of every listed function returns what its
definition says, whatever was called on the object before. -/
theorem result_independent_of_history (hv : (e.of G).Valid) (hl : ¬ HasLoop G) (h : List (Event ι K α G.n))
    (hn : ∀ r, Event.lookup r ∈ h → r.key ≠ .negDiag) (q : Query K α) :
    outcome e G o (objectAfter e G o mx f h) q = q.result G e.iso o := by
  refine result_independent_of_history_partial hv h (fun t ht => ?_) q fun _ _ => hl
  cases t with
  | query q => exact fun _ _ => hl
  | lookup r => exact ⟨fun _ _ _ => hl, hn r ht, fun _ => Or.inr hl⟩
  | transitivity => trivial
  | average => trivial

/-- **C06** for undirected graphs, with or without self-loops: every call returns what its definition
says, whatever other functions were called on the object before. -/
theorem result_independent_of_history_undirected (hv : (e.of G).Valid) (hd : G.directed = false)
    (h : List (Event ι K α G.n)) (hn : ∀ r, Event.lookup r ∉ h) (q : Query K α) :
    outcome e G o (objectAfter e G o mx f h) q = q.result G e.iso o := by
  refine result_independent_of_history_partial hv h (fun t ht => ?_) q fun _ h => by simp [hd] at h
  cases t with
  | query q => exact fun _ h => by simp [hd] at h
  | lookup r => exact absurd ht (hn r)
  | transitivity => trivial
  | average => trivial

/-- **C06** `nx.transitivity(G)`, which stores its result in the object, after any such history (weighted
and unweighted averages in any order included) -/
theorem transitivity_independent_of_history (hv : (e.of G).Valid) (h : List (Event ι K α G.n))
    (ht : ∀ t ∈ h, t.Tame e G) :
    (callTransitivity (e.of G) (objectAfter e G o mx f h)).1 =
      .ok (if G.directed then transitivityDirected G else transitivity G) := by
  rw [(sound_transitivity hv (sound_objectAfter hv h ht)).2]
  congr 1
  unfold transVal
  change (if G.n = 0 then (0 : ℚ) else if G.directed = true then _ else _) = _
  cases G.directed
  · simp only [Bool.false_eq_true, if_false]
    rfl
  · simp only [if_true]
    rfl

/-- the averages over all nodes in `h` use `weighted = w count_zeros` -/
def SameWeight (w : Bool → Bool) {n : Nat} (h : List (Event ι K α n)) : Prop :=
  ∀ wt cz, Event.average none wt cz ∈ h → wt = w cz

theorem objInv_objectAfter (hv : (e.of G).Valid) (h : List (Event ι K α G.n)) (ht : ∀ t ∈ h, t.Tame e G)
    {w : Bool → Bool} (hw : SameWeight w h) :
    ObjInv (e.of G) True True mx f w (objectAfter e G o mx f h) := by
  unfold objectAfter
  have : ∀ x, ObjInv (e.of G) True True mx f w x →
      ObjInv (e.of G) True True mx f w (h.foldl (Event.step e G o mx f) x) := by
    induction h with
    | nil => exact fun _ h => h
    | cons t h ih =>
      intro x hx
      refine ih (fun t' ht' => ht t' (List.mem_cons_of_mem _ ht'))
        (fun wt cz hm => hw wt cz (List.mem_cons_of_mem _ hm)) _ ?_
      have h1 := ht t (List.mem_cons_self ..)
      cases t with
      | query q => exact ⟨inv_run hv (query_polite e G o q h1) hx.1, hx.2⟩
      | lookup r =>
        obtain ⟨h1, h2, h3⟩ := h1
        refine ⟨?_, hx.2⟩
        exact ((sat_getProp (S := fun _ => False) hv r.al r.mask r.key (fun h => absurd h h2)
          (fun a b d => noSelf_iff_selfEdge.2 (h1 a b d))
          (fun _ a => (h3 a).imp_right noSelf_iff_selfEdge.2)).run x.store hx.1 (by simp)).1
      | transitivity => exact (callTransitivity_inv hv hx).1
      | average mask wt cz =>
        exact (callAverage_inv hv hx mask wt cz fun hm => hw wt cz (by
          subst hm; exact List.mem_cons_self ..)).1
  exact this _ ⟨fun k v h => by simp [Obj.fresh] at h, by simp [Obj.fresh], by simp [Obj.fresh]⟩

/-- **C06** the unweighted `nx.average_clustering(G, nodes, count_zeros)` after any such history in which
no *weighted* average over all nodes was requested (see `average_clustering_memo_ignores_weight`) -/
theorem average_clustering_independent_of_history_partial (hv : (e.of G).Valid)
    (h : List (Event ι K α G.n)) (ht : ∀ t ∈ h, t.Tame e G) (hw : ∀ cz, Event.average none true cz ∉ h)
    (nodes : Option (List K)) {mask : NodeMask G.n} (hm : listToMask G nodes = .ok mask) (cz : Bool) :
    (callAverage (e.of G) mx f mask false cz (objectAfter e G o mx f h)).1 =
      averageClustering G nodes cz := by
  have hc : SameWeight (fun _ => false) h := by
    intro wt cz hmem
    cases wt
    · rfl
    · exact absurd hmem (hw cz)
  rcases (callAverage_inv hv (objInv_objectAfter (o := o) hv h ht hc) mask false cz (fun _ => rfl)).2 with
    h | ⟨h, -⟩
  · rw [h]
    unfold averageClustering
    by_cases h0 : G.n = 0
    · rw [if_pos (show (e.of G).n = 0 from h0), if_pos h0]
    · rw [if_neg (show ¬ (e.of G).n = 0 from h0), if_neg h0, hm]
      change averageOf (clustVal (e.of G) mx f false mask) cz mask =
        averageOf (if G.directed then clusteringDirVec G.A mask else clusteringVec G.A mask) cz mask
      exact congrArg (fun v => averageOf v cz mask)
        (clustVal_unweighted (e.of G) mx f mask)
  · cases h

/-- **C06** the weighted `nx.average_clustering(G, nodes, weight, count_zeros)` of a graph without
self-loops returns what it returns on a new object, after any history in which no *unweighted* average
over all nodes was requested -/
theorem weighted_average_clustering_independent_of_history_partial (hv : (e.of G).Valid)
    (hl : ¬ HasLoop G) (h : List (Event ι K α G.n)) (ht : ∀ t ∈ h, t.Tame e G)
    (hw : ∀ cz, Event.average none false cz ∉ h) (mask : NodeMask G.n) (cz : Bool) :
    (callAverage (e.of G) mx f mask true cz (objectAfter e G o mx f h)).1 =
      (callAverage (e.of G) mx f mask true cz (Obj.fresh (e.of G))).1 := by
  have hc : SameWeight (fun _ => true) h := by
    intro wt cz hmem
    cases wt
    · exact absurd hmem (hw cz)
    · rfl
  have i1 := (callAverage_inv hv (objInv_objectAfter (o := o) (mx := mx) (f := f) hv h ht hc) mask true cz
    (fun _ => rfl)).2
  have i2 := (callAverage_inv hv (objInv_objectAfter (o := o) (mx := mx) (f := f) (w := fun _ => true) hv []
    (by simp) (by simp [SameWeight])) mask true cz (fun _ => rfl)).2
  rcases i1 with i1 | ⟨-, i1, -⟩
  · rcases i2 with i2 | ⟨-, i2, -⟩
    · rw [i1]; exact i2.symm
    · exact absurd (i2 trivial) hl
  · exact absurd (i1 trivial) hl

end Props

namespace Ex

/-- `mw` with the operators of `opf` -/
def eInt : Env Op Int where
  f := opf
  mn := .min
  nonneg := false
  iso := none

/-- one admissible behaviour of the library: `any` takes the first, floor division -/
def freeInt (n : Nat) : Props.Free n Int := ⟨fun a _ => a, fun a _ => a, Int.fdiv⟩

/-- `0 → 1`, `1 → 0`, and a self-loop at 0 -/
def loopd : Graph Nat Int where
  n := 2
  A := ofTriples 2 [(0,0,3),(0,1,1),(1,0,2)]
  keyToId := [(0,0),(1,1)]
  directed := true

theorem mw_env_valid : (eInt.of mw).Valid where
  assoc := opf_assoc
  comm := opf_comm
  min := fun _ _ => rfl
  nonneg := by simp [eInt]
  iso := by simp [eInt]
  symm := fun _ => by decide

theorem mwl_env_valid : (eInt.of mwl).Valid where
  assoc := opf_assoc
  comm := opf_comm
  min := fun _ _ => rfl
  nonneg := by simp [eInt]
  iso := by simp [eInt]
  symm := fun _ => by decide

theorem loopd_env_valid : (eInt.of loopd).Valid where
  assoc := opf_assoc
  comm := opf_comm
  min := fun _ _ => rfl
  nonneg := by simp [eInt]
  iso := by simp [eInt]
  symm := by simp [loopd]

end Ex

namespace Props
open _root_.Ex

/-- the object `G` after the calls `h`, in the examples -/
def objInt (G : Graph Nat Int) (h : List (Query Nat Int)) : Obj (eInt.of G) :=
  objectAfter eInt G (freeInt G.n) Op.max nrm (h.map Event.query)

-- the hypotheses of the theorems are met by a weighted graph and a history of several calls
example : ¬ HasLoop mw := by
  rintro ⟨i, hi⟩
  revert i
  decide
example : outcome eInt mw (freeInt _) (objInt mw [.triangles none, .floydWarshall,
    .negativeEdgeCycle, .bellmanFordPathLength 0 9, .clustering (some [0, 2])])
    (.bellmanFordPathLength 0 3) = (.ok 3 : Except Err Int) := by decide +kernel
example : Query.result mw none (freeInt _) (.bellmanFordPathLength 0 3) = (.ok 3 : Except Err Int) := by
  decide +kernel
example : outcome eInt mw (freeInt _) (objInt mw [.isolates, .bellmanFordPath 0 3, .kTruss 3])
    .negativeEdgeCycle = (.ok false : Except Err Bool) := by decide +kernel

/-- **C06 fails** on a DiGraph with self-loops after `isolates(G)` (or `is_isolate`,
`number_of_isolates`, `s_metric`, `degree_centrality`): `total_degrees+` leaves `has_self_edges = False`
behind (digraph.py:373-374), after which `overall_reciprocity` and `is_triad` take the graph to be free
of self-loops.  Here the overall reciprocity changes from 2/3 to 1. -/
theorem isolates_poison_reciprocity :
    outcome eInt loopd (freeInt _) (objInt loopd []) .overallReciprocity = (.ok (2/3) : Except Err ℚ) ∧
    outcome eInt loopd (freeInt _) (objInt loopd [.isolates]) .overallReciprocity = (.ok 1 : Except Err ℚ) := by
  decide +kernel

-- with self-loops, too: `has_negative_edges-` of a graph with the cached parts `L-` and `U-`
example : outcome eInt mwl (freeInt _) (objInt mwl [.triangles none]) (.bellmanFordPathLength 0 3) =
    (.ok 3 : Except Err Int) := by decide +kernel

end Props
