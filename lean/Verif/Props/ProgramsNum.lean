import Verif.Props.Programs
import Verif.Proofs.RunNum

/-!
# Results do not depend on earlier calls, numeric functions: C06

`Props/Programs.lean` continued: `NumQuery` lists calls of the functions with numeric results, for graphs
whose weights are elements of a field.  Histories mix both kinds of calls.
-/

open GB Spec.Prop Model Model.Cache Model.Memo
open Model.Run (NumEnv)

namespace Props

/-- calls of library functions with numeric results -/
inductive NumQuery (K F : Type)
  | pagerank (alpha : F) (personalization : Option (List (K × F))) (maxIter : Int) (tol : F)
      (nstart dangling : Option (List (K × F)))
  | googleMatrix (alpha : F) (personalization dangling : Option (List (K × F)))
  | googleMatrixOf (alpha : F) (personalization : Option (List (K × F))) (nodelist : List K)
      (dangling : Option (List (K × F)))
  | katzCentrality (alpha : F) (beta : F ⊕ List (K × F)) (maxIter : Int) (tol : F)
      (nstart : Option (List (K × F))) (normalized : Bool)
  | degreeCentrality
  | inDegreeCentrality
  | outDegreeCentrality
  | laplacianMatrix (nodelist : Option (List K)) (weighted : Bool)
  | normalizedLaplacianMatrix (nodelist : Option (List K)) (weighted : Bool)
  | modularityMatrix (nodelist : Option (List K)) (weighted : Bool)
  | directedModularityMatrix (nodelist : Option (List K)) (weighted : Bool)
  | betheHessianMatrix (r : Option F) (nodelist : Option (List K))

variable {ι F K : Type}

/-- the type of the results -/
@[reducible] def NumQuery.Out (G : Graph K F) : NumQuery K F → Type
  | .pagerank _ _ _ _ _ _ | .katzCentrality _ _ _ _ _ _ => Option (Vec G.n F)
  | .googleMatrix _ _ _ => Mat G.n G.n F
  | .degreeCentrality | .inDegreeCentrality | .outDegreeCentrality => Vec G.n F
  | _ => Σ m, Mat m m F

/-- parameters of the numeric functions: how a vector and a scalar are accumulated (`fill`, see
`Model.addScalar`) and the square root -/
structure NumFree (F : Type) where
  fill : Bool
  sqrt : F → F

variable [DecidableEq ι] [Field F] [LinearOrder F] [DecidableEq K]

/-- the call, run on the graph object -/
def NumQuery.prog (e : NumEnv ι F) (G : Graph K F) (o : NumFree F) :
    (q : NumQuery K F) → Prog (e.toEnv.of G) (q.Out G)
  | .pagerank a p m t s d => Run.pagerank e G a p m t s d
  | .googleMatrix a p d => Run.googleMatrix e G a p d
  | .googleMatrixOf a p l d => Run.googleMatrixList e G a p l d
  | .katzCentrality a b m t s n => Run.katzCentrality e G o.fill o.sqrt a b m t s n
  | .degreeCentrality => Run.degreeCentrality e G
  | .inDegreeCentrality => Run.inDegreeCentrality e G
  | .outDegreeCentrality => Run.outDegreeCentrality e G
  | .laplacianMatrix l w => Run.laplacianMatrix e G l w
  | .normalizedLaplacianMatrix l w => Run.normalizedLaplacianMatrix e G o.sqrt l w
  | .modularityMatrix l w => Run.modularityMatrix e G l w
  | .directedModularityMatrix l w => Run.directedModularityMatrix e G l w
  | .betheHessianMatrix r l => Run.betheHessianMatrix e G r l

/-- what the call is defined to return -/
def NumQuery.result (G : Graph K F) (iso : Option F) (o : NumFree F) : (q : NumQuery K F) → Except Err (q.Out G)
  | .pagerank a p m t s d => Model.pagerank G iso a p m t s d
  | .googleMatrix a p d => Model.googleMatrix G a p d
  | .googleMatrixOf a p l d => Model.googleMatrixList G a p l d
  | .katzCentrality a b m t s n => Model.katzCentrality o.fill o.sqrt G iso a b m t s n
  | .degreeCentrality => .ok (Model.degreeCentrality G)
  | .inDegreeCentrality => Model.inDegreeCentrality G
  | .outDegreeCentrality => Model.outDegreeCentrality G
  | .laplacianMatrix l w => Model.laplacianMatrix G l w
  | .normalizedLaplacianMatrix l w => Model.normalizedLaplacianMatrix o.sqrt G l w
  | .modularityMatrix l w => Model.modularityMatrix G l w
  | .directedModularityMatrix l w => Model.directedModularityMatrix G l w
  | .betheHessianMatrix r l => Model.betheHessianMatrix G r l

/-- the functions that look `iso_value` up without asking `is_iso` first -/
def NumQuery.LooksUpIsoValue : NumQuery K F → Prop
  | .pagerank _ _ _ _ _ _ | .katzCentrality _ _ _ _ _ _ => True
  | _ => False

/-- excluded: `total_degrees+` users on DiGraphs with self-loops -/
def NumQuery.Tame (G : Graph K F) (q : NumQuery K F) : Prop :=
  q = .degreeCentrality → G.directed = true → ¬ HasLoop G

open Proofs.Run Proofs.Prog

theorem numQuery_eval (e : NumEnv ι F) (G : Graph K F) (o : NumFree F) (q : NumQuery K F) :
    (q.prog e G o).eval = q.result G e.iso o := by
  cases q with
  | pagerank a p m t s d => exact eval_pagerank e G a p m t s d
  | googleMatrix a p d => exact eval_googleMatrix e G a p d
  | googleMatrixOf a p l d => exact eval_googleMatrixList e G a p l d
  | katzCentrality a b m t s n => exact eval_katzCentrality e G _ _ a b m t s n
  | degreeCentrality => exact eval_degreeCentrality e G
  | inDegreeCentrality => exact eval_inDegreeCentrality e G
  | outDegreeCentrality => exact eval_outDegreeCentrality e G
  | laplacianMatrix l w => exact eval_laplacianMatrix e G l w
  | normalizedLaplacianMatrix l w => exact eval_normalizedLaplacianMatrix e G _ l w
  | modularityMatrix l w => exact eval_modularityMatrix e G l w
  | directedModularityMatrix l w => exact eval_directedModularityMatrix e G l w
  | betheHessianMatrix r l => exact eval_betheHessianMatrix e G r l

theorem numQuery_polite (e : NumEnv ι F) (G : Graph K F) (o : NumFree F) (q : NumQuery K F) (hq : q.Tame G) :
    Polite (e.toEnv.of G) (fun er => er = .keyError ∧ q.LooksUpIsoValue ∧ e.iso = none) False
      (q.prog e G o).path := by
  cases q with
  | pagerank a p m t s d => exact polite_pagerank e G (fun h => ⟨rfl, trivial, h⟩) a p m t s d
  | googleMatrix a p d => exact polite_googleMatrix e G a p d
  | googleMatrixOf a p l d => exact polite_googleMatrixList e G a p l d
  | katzCentrality a b m t s n =>
    exact polite_katzCentrality e G (fun h => ⟨rfl, trivial, h⟩) _ _ a b m t s n
  | degreeCentrality => exact polite_degreeCentrality e G (loopFree_of (hq rfl))
  | inDegreeCentrality => exact polite_inDegreeCentrality e G
  | outDegreeCentrality => exact polite_outDegreeCentrality e G
  | laplacianMatrix l w => exact polite_laplacianMatrix e G l w
  | normalizedLaplacianMatrix l w => exact polite_normalizedLaplacianMatrix e G _ l w
  | modularityMatrix l w => exact polite_modularityMatrix e G l w
  | directedModularityMatrix l w => exact polite_directedModularityMatrix e G l w
  | betheHessianMatrix r l => exact polite_betheHessianMatrix e G r l

/-! ## histories -/

/-- an event of `Props/Programs.lean` or a numeric call -/
inductive NumEvent (ι K F : Type) (n : Nat)
  | old (t : Event ι K F n)
  | num (q : NumQuery K F)

/-- how the object changes -/
def NumEvent.step (e : NumEnv ι F) (G : Graph K F) (o : Free G.n F) (o' : NumFree F) (mx : ι) (f : Norm F)
    (x : Obj (e.toEnv.of G)) : NumEvent ι K F G.n → Obj (e.toEnv.of G)
  | .old t => t.step e.toEnv G o mx f x
  | .num q => (onStore (e.toEnv.of G) (q.prog e G o').run x).2

/-- the object after the events `h` -/
def numObjectAfter (e : NumEnv ι F) (G : Graph K F) (o : Free G.n F) (o' : NumFree F) (mx : ι) (f : Norm F)
    (h : List (NumEvent ι K F G.n)) : Obj (e.toEnv.of G) :=
  h.foldl (NumEvent.step e G o o' mx f) (Obj.fresh (e.toEnv.of G))

/-- the outcome of a numeric call on an object -/
def numOutcome (e : NumEnv ι F) (G : Graph K F) (o' : NumFree F) (x : Obj (e.toEnv.of G)) (q : NumQuery K F) :
    Except Err (q.Out G) :=
  (onStore (e.toEnv.of G) (q.prog e G o').run x).1

/-- the events of a history that the theorems allow -/
def NumEvent.Tame (e : NumEnv ι F) (G : Graph K F) : NumEvent ι K F G.n → Prop
  | .old t => t.Tame e.toEnv G
  | .num q => q.Tame G

variable {e : NumEnv ι F} {G : Graph K F} {o : Free G.n F} {o' : NumFree F} {mx : ι} {f : Norm F}

theorem sound_numObjectAfter (hv : (e.toEnv.of G).Valid) (h : List (NumEvent ι K F G.n))
    (ht : ∀ t ∈ h, t.Tame e G) : Sound e.toEnv G (numObjectAfter e G o o' mx f h) := by
  unfold numObjectAfter
  have : ∀ x, Sound e.toEnv G x → Sound e.toEnv G (h.foldl (NumEvent.step e G o o' mx f) x) := by
    induction h with
    | nil => exact fun _ h => h
    | cons t h ih =>
      intro x hx
      refine ih (fun t' ht' => ht t' (List.mem_cons_of_mem _ ht')) _ ?_
      have h1 := ht t (List.mem_cons_self ..)
      cases t with
      | old t => exact sound_step hv hx t h1
      | num q => exact ⟨inv_run hv (numQuery_polite e G o' q h1) hx.1, hx.2⟩
  exact this _ ⟨fun k v h => by simp [Obj.fresh] at h, by simp [Obj.fresh]⟩

/-- **C06** any of the functions of `Query` after a history of calls of functions of both kinds -/
theorem result_independent_of_numeric_history_partial (hv : (e.toEnv.of G).Valid)
    (h : List (NumEvent ι K F G.n)) (ht : ∀ t ∈ h, t.Tame e G) (q : Query K F) (hq : q.Tame G) :
    outcome e.toEnv G o (numObjectAfter e G o o' mx f h) q = q.result G e.iso o := by
  rw [← query_eval e.toEnv G o q]
  rcases run_result hv (query_polite e.toEnv G o q hq)
    (sound_numObjectAfter (o := o) (o' := o') (mx := mx) (f := f) hv h ht).1 with h1 | ⟨er, -, h2⟩
  · exact h1
  · exact h2.elim

/-- **C06** a numeric function after a history of calls of functions of both kinds returns what its
definition says; `pagerank` and `katz_centrality` may instead raise KeyError if the matrix is not
stored as iso-valued (`bellman_ford_breaks_pagerank` shows that they do).
Partial: see `result_independent_of_history_partial` for the excluded events. -/
theorem numeric_result_independent_of_history_partial (hv : (e.toEnv.of G).Valid)
    (h : List (NumEvent ι K F G.n)) (ht : ∀ t ∈ h, t.Tame e G) (q : NumQuery K F) (hq : q.Tame G) :
    numOutcome e G o' (numObjectAfter e G o o' mx f h) q = q.result G e.iso o' ∨
      (numOutcome e G o' (numObjectAfter e G o o' mx f h) q = .error .keyError ∧
        q.LooksUpIsoValue ∧ e.iso = none) := by
  rw [← numQuery_eval e G o' q]
  rcases run_result hv (numQuery_polite e G o' q hq)
    (sound_numObjectAfter (o := o) (o' := o') (mx := mx) (f := f) hv h ht).1 with h1 | ⟨er, h1, rfl, h2⟩
  · exact Or.inl h1
  · exact Or.inr ⟨h1, h2⟩

/-- **C06** the numeric functions that do not look `iso_value` up, and all of them on iso-valued graphs -/
theorem numeric_result_independent_of_history (hv : (e.toEnv.of G).Valid)
    (h : List (NumEvent ι K F G.n)) (ht : ∀ t ∈ h, t.Tame e G) (q : NumQuery K F) (hq : q.Tame G)
    (hi : q.LooksUpIsoValue → e.iso ≠ none) :
    numOutcome e G o' (numObjectAfter e G o o' mx f h) q = q.result G e.iso o' := by
  rcases numeric_result_independent_of_history_partial (o := o) (mx := mx) (f := f) hv h ht q hq with
    h1 | ⟨-, h1, h2⟩
  · exact h1
  · exact absurd h2 (hi h1)

end Props

namespace Ex

/-- the operators of `eQ` -/
inductive QOp | plus | any | min | max
  deriving DecidableEq

/-- their meaning -/
def qopf : QOp → ℚ → ℚ → ℚ
  | .plus, a, b => a + b
  | .any, a, b => min a b
  | .min, a, b => min a b
  | .max, a, b => max a b

/-- a graph object with weights of ℚ that is not iso-valued -/
def eQ : NumEnv QOp ℚ where
  f := qopf
  mn := .min
  nonneg := false
  iso := none
  pl := .plus
  an := .any
  plus := rfl

/-- `a → b` (weight 1), `b → a` (weight 2) -/
def twoQ : Graph Nat ℚ where
  n := 2
  A := ofTriples 2 [(0,1,1),(1,0,2)]
  keyToId := [(0,0),(1,1)]
  directed := true

theorem twoQ_env_valid : (eQ.toEnv.of twoQ).Valid where
  assoc := fun k a b c => by
    cases k
    · exact add_assoc a b c
    · exact min_assoc a b c
    · exact min_assoc a b c
    · exact max_assoc a b c
  comm := fun k a b => by
    cases k
    · exact add_comm a b
    · exact min_comm a b
    · exact min_comm a b
    · exact max_comm a b
  min := fun _ _ => rfl
  nonneg := by simp [eQ]
  iso := by simp [eQ]
  symm := by simp [twoQ]

end Ex

namespace Props
open _root_.Ex

/-- the object `twoQ` after the calls `h`, in the examples -/
def objQ (h : List (NumEvent QOp Nat ℚ 2)) : Obj (eQ.toEnv.of twoQ) :=
  numObjectAfter eQ twoQ ⟨fun a _ => a, fun a _ => a, fun a b => ⌊a / b⌋⟩ ⟨true, fun a => a⟩ .max (fun _ a => a) h

/-- the rank of row 0 -/
def rankOf0 (x : Except Err (Option (Vec 2 ℚ))) : Except Err (Option ℚ) := x.map fun o => o.bind fun v => v 0

/-- **C06 fails**: `pagerank(G)` of a weighted graph raises KeyError after
`bellman_ford_path_length(G, 0, 1)`: that call stores `is_iso = False`, after which the lookup of
`iso_value` reads a cache entry that was never written (graph.py:234-239). -/
theorem bellman_ford_breaks_pagerank :
    rankOf0 (numOutcome eQ twoQ ⟨true, fun a => a⟩ (objQ []) (.pagerank (1/2) none 100 1 none none)) = .ok (some (1/2)) ∧
    rankOf0 (numOutcome eQ twoQ ⟨true, fun a => a⟩ (objQ [.old (.query (.bellmanFordPathLength 0 1))])
      (.pagerank (1/2) none 100 1 none none)) = .error .keyError := by
  decide +kernel

-- a second `pagerank` is fine, as are other calls in between
example : rankOf0 (numOutcome eQ twoQ ⟨true, fun a => a⟩ (objQ [.num (.pagerank (1/2) none 100 1 none none),
    .old (.query (.bellmanFordPathLength 0 1)), .num (.laplacianMatrix none true), .num .degreeCentrality])
    (.pagerank (1/2) none 100 1 none none)) = .ok (some (1/2)) := by
  decide +kernel

end Props
