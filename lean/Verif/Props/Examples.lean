import Verif.Model.Graph

/-! Concrete graphs used by the non-vacuity examples. -/

open GB Model

namespace Ex

/-- matrix from a list of triples -/
def ofTriples {α : Type} (n : Nat) (l : List (Nat × Nat × α)) : Mat n n α :=
  fun i j => (l.find? fun t => t.1 == i.val && t.2.1 == j.val).map fun t => t.2.2

/-- directed: 10→20 (5), 20→30 (7), 30→30 (1), 30→20 (2); 40 isolated.  Keys are stored in an
order different from the row numbers. -/
def dg : Graph Nat Int where
  n := 4
  A := ofTriples 4 [(2,0,5), (0,1,7), (1,1,1), (1,0,2)]
  keyToId := [(10,2), (20,0), (30,1), (40,3)]
  directed := true

/-- undirected path 1 - 2 - 3 - 4 with a triangle 2-3-5 and a self-loop at 4. -/
def ug : Graph Nat Int where
  n := 5
  A := ofTriples 5 [(0,1,1),(1,0,1),(1,2,1),(2,1,1),(2,3,1),(3,2,1),(1,4,1),(4,1,1),(2,4,1),(4,2,1),
    (3,3,1)]
  keyToId := [(1,0),(2,1),(3,2),(4,3),(5,4)]

theorem dg_wf : dg.WF := ⟨by decide, by decide⟩
theorem ug_wf : ug.WF := ⟨by decide, by decide⟩
theorem ug_symm : ug.Symm := by unfold Graph.Symm; decide

end Ex
