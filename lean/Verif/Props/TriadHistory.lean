import Verif.Props.Programs
import Verif.Props.Small2

/-!
# C64 `is_triad` after any history of the graph object
-/

open GB Spec.Prop Model Model.Cache Model.Memo _root_.Ex

namespace Props

section
variable {ι K α : Type} [DecidableEq ι] [DecidableEq K] [AddCommGroup α] [LinearOrder α] {e : Env ι α} {G : Graph K α} {o : Free G.n α} {mx : ι} {f : Norm α}

/-- **C64 after a history.** After any calls, lookups and memoised averages that C06 admits, `is_triad(G)` returns True
exactly for digraphs with three nodes and no self-loop.  Partial: histories in which `total_degrees+` of a digraph with
self-loops was computed are excluded, see `isolates_poison_is_triad`. -/
theorem is_triad_history_partial (hw : G.WF) (hv : (e.of G).Valid) (h : List (Event ι K α G.n))
    (ht : ∀ t ∈ h, t.Tame e G) :
    ∃ b : Bool, outcome e G o (objectAfter e G o mx f h) .isTriad = (.ok b : Except Err Bool) ∧
      (b = true ↔ G.directed = true ∧ G.nodes.length = 3 ∧ ∀ u, ¬ G.Edge u u) :=
  ⟨_, result_independent_of_history_partial hv h ht .isTriad (fun hh => hh.elim), is_triad_correct hw⟩

end

/-- three nodes `0 → 1 → 2` with a self-loop at 0 -/
def loopTri : Graph Nat Int where
  n := 3
  A := _root_.Ex.ofTriples 3 [(0,0,3),(0,1,1),(1,2,2)]
  keyToId := [(0,0),(1,1),(2,2)]
  directed := true

/-- **C64 fails after `isolates(G)`** (or `is_isolate`, `number_of_isolates`, `s_metric`, `degree_centrality`,
`total_degrees+`): a digraph with three nodes and a self-loop is then reported to be a triad. -/
theorem isolates_poison_is_triad :
    outcome eInt loopTri (freeInt _) (objInt loopTri []) .isTriad = (.ok false : Except Err Bool) ∧
    outcome eInt loopTri (freeInt _) (objInt loopTri [.isolates]) .isTriad = (.ok true : Except Err Bool) ∧
    loopTri.Edge 0 0 := by
  refine ⟨by decide +kernel, by decide +kernel, by decide⟩

end Props
