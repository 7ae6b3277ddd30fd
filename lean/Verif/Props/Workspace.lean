import Verif.Proofs.Workspace

/-!
# C120: the work space of floyd_warshall and bellman_ford_path

The loops reuse their work space from pass to pass; names are shared (`P_row` and `Row`), are views
(`Col = Row.T`, `Col = P_row.T`) or are exchanged (`prev, cur = cur, prev`).  None of this shows in the
results: they are those of the pure passes, whatever the work space held before.
-/

open GB Model Model.Workspace

namespace Props

variable {V α : Type} {n : Nat}

/-- **C120** floyd_warshall without predecessors, for every earlier contents of the work space -/
theorem floyd_warshall_in_place [Zero V] [Add V] [LinearOrder V] (directed shared : Bool)
    (choose : V → V → V) (idx : Fin n → V) (A : Mat n n V)
    (Outer : Mat n n V) (Mask : Mat n n Bool) (vec : Nat → Vec n V) :
    (fwAll directed false shared choose idx A Outer Mask vec).2 = Model.fwDist directed choose A := by
  unfold fwAll fwRun Model.fwDist fwLoop
  rw [Proofs.Ws.close_dist, Proofs.Ws.run_dist directed shared choose _ _ (fun _ => rfl)]
  rfl

/-- **C120** floyd_warshall with predecessors, whether `P_row` and `Row` are one object or two.  `idx` says
how row numbers are stored, `chooseP` is what the library's `any` does on row numbers. -/
theorem floyd_warshall_pred_in_place [Zero V] [Add V] [LinearOrder V] (directed shared : Bool)
    (choose : V → V → V) (chooseP : Fin n → Fin n → Fin n) (idx : Fin n → V)
    (hch : ∀ a b, idx (chooseP a b) = choose (idx a) (idx b)) (A : Mat n n V)
    (Outer : Mat n n V) (Mask : Mat n n Bool) (vec : Nat → Vec n V) :
    fwAll directed true shared choose idx A Outer Mask vec =
      (mapply idx (Model.fwPred directed choose chooseP A).1, (Model.fwPred directed choose chooseP A).2) := by
  obtain ⟨h1, h2⟩ := Proofs.Ws.run_pred directed shared choose chooseP idx hch
    ((List.finRange n).filter (fwNonempty directed A))
    (fwAlloc idx (fwStart directed A) Outer Mask vec) (fun a b => (fwStart directed A a b).map fun _ => a)
    (by funext a b; simp only [fwAlloc, mapply, Option.map_map]; rfl) (fun _ => rfl)
  refine Prod.ext ?_ ?_
  · unfold fwAll fwRun Model.fwPred fwClose
    simp only
    rw [h2]
    cases directed
    · simp only [Bool.false_eq_true, if_false]
      funext a b
      simp only [madd, mapply, transpose]
      exact Proofs.Ws.omerge_map idx chooseP choose hch _ _
    · rfl
  · unfold fwAll fwRun
    rw [Proofs.Ws.close_dist, h1]
    rfl

/-- **C120** sharing `P_row` and `Row` makes no difference -/
theorem floyd_warshall_sharing [Zero V] [Add V] [LinearOrder V] (directed : Bool)
    (choose : V → V → V) (chooseP : Fin n → Fin n → Fin n) (idx : Fin n → V)
    (hch : ∀ a b, idx (chooseP a b) = choose (idx a) (idx b)) (A : Mat n n V)
    (Outer Outer' : Mat n n V) (Mask Mask' : Mat n n Bool) (vec vec' : Nat → Vec n V) :
    fwAll directed true true choose idx A Outer Mask vec =
      fwAll directed true false choose idx A Outer' Mask' vec' :=
  (floyd_warshall_pred_in_place directed true choose chooseP idx hch A Outer Mask vec).trans
    (floyd_warshall_pred_in_place directed false choose chooseP idx hch A Outer' Mask' vec').symm

/-- **C120** bellman_ford_path, for every earlier contents of the work space -/
theorem bellman_ford_path_in_place [Zero α] [Add α] [LinearOrder α] (A : Mat n n α) (src dst : Fin n)
    (w : BFP n α) : bfpCore A src dst w = bfPathCore A src dst :=
  Proofs.Ws.bfpCore_eq A src dst w

/-! ### concrete cases -/

section Example

/-- 0 → 1 (4), 0 → 2 (1), 2 → 1 (1), 1 → 3 (1) -/
def wsA : Mat 4 4 ℤ := fun i j =>
  if (i.val, j.val) = (0, 1) then some 4 else if (i.val, j.val) ∈ [(0, 2), (2, 1), (1, 3)] then some 1 else none

/-- the hypothesis on `any` holds when the first operand is taken -/
example : ∀ a b : Fin 4, ((first a b : Fin 4).val : ℤ) = first (a.val : ℤ) (b.val : ℤ) := fun _ _ => rfl

/-- with `P_row` and `Row` shared and a work space full of rubbish -/
example : (fwAll true true true first (fun i : Fin 4 => (i.val : ℤ)) wsA (fun _ _ => some 7)
    (fun _ _ => some true) (fun _ _ => some 9)).2 0 3 = some 3 := by decide +kernel
example : (fwAll true true true first (fun i : Fin 4 => (i.val : ℤ)) wsA (fun _ _ => some 7)
    (fun _ _ => some true) (fun _ _ => some 9)).1 0 3 = some 1 := by decide +kernel

/-- a work space full of rubbish -/
def wsW : BFP 4 ℤ where
  d := fun _ => some 5
  p := fun _ => some 0
  prev := fun _ => some 3
  cur := fun _ => some 2
  indices := fun _ => some 1
  mask := fun _ => some true
  B := fun _ _ => some 1
  Beq := fun _ _ => some true
  Indices := fun _ _ => some 3
  rows := [0, 1]
  cols := [2]
  cutoff := some 0
  broke := true

example : bfpCore wsA 0 3 wsW = .ok [0, 2, 1, 3] := by decide +kernel

end Example

end Props
