import Verif.Proofs.Units
import Verif.Props.Examples
import Mathlib.Algebra.Order.Field.Basic
import Mathlib.Algebra.Order.Ring.Int
import Mathlib.Algebra.Order.Ring.Rat
import Mathlib.Data.Rat.Cast.Order

/-!
# C116: weighted shortest paths in another unit or number type

`φ` respects 0, sums, multiples and the order (`Spec.Unit'`): multiplication by a positive constant, or the
inclusion of one number type in another.  `Spec.mapWeights φ G` is `G` with every weight converted.
-/

set_option linter.unusedSectionVars false

open GB Model Spec Proofs.Un

namespace Props

variable {K α β : Type} [DecidableEq K] [Zero α] [Add α] [SMul Nat α] [LinearOrder α] [Zero β] [Add β] [SMul Nat β]
  [LinearOrder β] {φ : α → β} (u : Unit' φ) (G : Graph K α)

include u

/-- **C116** the lengths are converted, errors are the same, also with a cutoff (converted too; `fdiv'` is the
integer division of the other number type). -/
theorem single_source_bellman_ford_units (iso : Option α) (fdiv : α → α → Int) (fdiv' : β → β → Int)
    (hf : ∀ x c, fdiv' (φ x) (φ c) = fdiv x c) (s : K) (cutoff : Option α) :
    singleSourceBF (mapWeights φ G) (iso.map φ) fdiv' s (cutoff.map φ) =
      (singleSourceBF G iso fdiv s cutoff).map (vapply φ) := by
  obtain ⟨n, A, k2i, d, m⟩ := G
  dsimp only [mapW_mk]
  simp only [singleSourceBF, getId_map]
  cases Graph.getId ⟨n, A, k2i, d, m⟩ s with
  | error _ => rfl
  | ok i =>
    simp only [bind, Except.bind]
    cases iso with
    | none => exact bfCore_map u A i none cutoff
    | some c =>
      simp only [Option.map_some, hasNegEdgesP_map u, bfsLevel_map, mapply_row, isSome_vapply, nvals_vapply]
      split
      · cases cutoff with
        | none =>
          simp only [Option.map_none, pure, Except.pure]
          cases bfsLevel ⟨n, A, k2i, d, m⟩ s with
          | error _ => rfl
          | ok l => exact congrArg Except.ok (vapply_smul u l c)
        | some x =>
          simp only [Option.map_some, zero_iff u, hf, pure, Except.pure]
          by_cases hc : c = 0
          · simp only [hc, if_true]; rfl
          · simp only [hc, if_false]
            cases bfsLevel ⟨n, A, k2i, d, m⟩ s none (some (fdiv x c)) with
            | error _ => rfl
            | ok l => exact congrArg Except.ok (vapply_smul u l c)
      · split
        · rfl
        · split
          · rfl
          · exact bfCore_map u A i none cutoff

/-- **C116** -/
theorem bellman_ford_path_length_units (iso : Option α) (s t : K) :
    bellmanFordPathLength (mapWeights φ G) (iso.map φ) s t = (bellmanFordPathLength G iso s t).map φ := by
  obtain ⟨n, A, k2i, d, m⟩ := G
  dsimp only [mapW_mk]
  simp only [bellmanFordPathLength, getId_map]
  cases Graph.getId ⟨n, A, k2i, d, m⟩ s with
  | error _ => rfl
  | ok i =>
    cases Graph.getId ⟨n, A, k2i, d, m⟩ t with
    | error _ => rfl
    | ok j =>
      simp only [bind, Except.bind]
      cases iso with
      | none =>
        have := bfCore_map u A i (some j) none
        simp only [Option.map_none] at this ⊢
        rw [this]
        cases bfCore A i (some j) none with
        | error _ => rfl
        | ok v => simp only [Except.map, vapply]; cases v j <;> rfl
      | some c =>
        simp only [Option.map_some, hasNegEdgesP_map u, bfsLevel_map, mapply_row, isSome_vapply, nvals_vapply]
        split
        · cases bfsLevel ⟨n, A, k2i, d, m⟩ s (some t) none with
          | error _ => rfl
          | ok l =>
            simp only [vapply_smul u l c]
            generalize vapply (fun l => l • c) l = v
            simp only [vapply]
            cases v j <;> rfl
        · split
          · rfl
          · split
            · rfl
            · have := bfCore_map u A i (some j) none
              simp only [Option.map_none] at this
              rw [this]
              cases bfCore A i (some j) none with
              | error _ => rfl
              | ok v => simp only [Except.map, vapply]; cases v j <;> rfl

/-- all sources at once -/
theorem bellmanFordPathLengths_units {k : Nat} (iso : Option α) (ids : Fin k → Fin G.n) :
    bellmanFordPathLengths (mapWeights φ G) (iso.map φ) ids =
      (bellmanFordPathLengths G iso ids).map (mapply φ) := by
  obtain ⟨n, A, k2i, d, m⟩ := G
  dsimp only [mapW_mk]
  cases iso with
  | none => exact bfCoreM_map u A ids
  | some c =>
    have hn : mnvals (fun r => mapply φ A (ids r)) = mnvals (fun r => A (ids r)) := mnvals_mapply φ (fun r => A (ids r))
    simp only [bellmanFordPathLengths, Option.map_some, hasNegEdgesP_map u, offdiag_mapply, bfsLevelsFrom_map, hn]
    split
    · exact congrArg Except.ok (mapply_smul u _ c)
    · split
      · rfl
      · exact bfCoreM_map u A ids

omit u in
theorem mapM_map_ok {ι γ δ : Type} (f : ι → Except Err γ) (g : ι → Except Err δ) (h : γ → δ)
    (H : ∀ a, g a = (f a).map h) (l : List ι) : l.mapM g = (l.mapM f).map (List.map h) := by
  induction l with
  | nil => rfl
  | cons a l ih =>
    simp only [List.mapM_cons, H, ih]
    cases f a with
    | error _ => rfl
    | ok x => cases l.mapM f <;> rfl

/-- **C116** for every chunk size -/
theorem all_pairs_bellman_ford_units (iso : Option α) (fdiv : α → α → Int) (fdiv' : β → β → Int)
    (hf : ∀ x c, fdiv' (φ x) (φ c) = fdiv x c) (chunksize : Option Int) :
    allPairsBF (mapWeights φ G) (iso.map φ) fdiv' chunksize =
      (allPairsBF G iso fdiv chunksize).map (List.map fun p => (p.1, vapply φ p.2)) := by
  have hs := fun s => single_source_bellman_ford_units u G iso fdiv fdiv' hf s none
  have hl := fun {k : Nat} (ids : Fin k → Fin G.n) => bellmanFordPathLengths_units u G iso ids
  have hk : ∀ i, (mapWeights φ G).keyOf i = G.keyOf i := fun _ => rfl
  simp only [Option.map_none] at hs
  cases chunksize with
  | none =>
    have h1 := hl (fun i => i)
    simp only [allPairsBF]
    refine (congrArg (fun x => x >>= _) h1).trans ?_
    cases bellmanFordPathLengths G iso (fun i => i) with
    | error _ => rfl
    | ok D =>
      show List.mapM _ _ = Except.map _ (List.mapM _ _)
      have hfil : ((List.finRange G.n).filter fun i : Fin G.n => decide (nvals (mapply φ D i) ≠ 0)) =
          (List.finRange G.n).filter fun i : Fin G.n => decide (nvals (D i) ≠ 0) := by
        simp only [mapply_row, nvals_vapply]
      have hm := mapM_map_ok (fun i : Fin G.n => match G.keyOf i.val with
          | none => (.error .keyError : Except Err (K × Vec G.n α))
          | some v => .ok (v, D i))
        (fun i : Fin G.n => match G.keyOf i.val with
          | none => (.error .keyError : Except Err (K × Vec G.n β))
          | some v => .ok (v, vapply φ (D i)))
        (fun p => (p.1, vapply φ p.2)) (fun i => by cases G.keyOf i.val <;> rfl)
        ((List.finRange G.n).filter fun i : Fin G.n => decide (nvals (D i) ≠ 0))
      refine Eq.trans ?_ hm
      exact congrArg (fun l => List.mapM (fun i : Fin G.n => match G.keyOf i.val with
          | none => (.error .keyError : Except Err (K × Vec G.n β))
          | some v => .ok (v, vapply φ (D i))) l) hfil
  | some c =>
    simp only [allPairsBF]
    by_cases hc : c < 2
    · simp only [hc, if_true]
      refine mapM_map_ok _ _ _ (fun s => ?_) _
      refine (congrArg (fun x => x >>= _) (hs s)).trans ?_
      cases singleSourceBF G iso fdiv s none <;> rfl
    · simp only [hc, if_false]
      have hp := mapM_map_ok (fun p : Piece K => match p with
          | .elem _ => (.error .typeError : Except Err (List (K × Vec G.n α)))
          | .chunk curNodes => do
            let ids ← listToIds G curNodes
            let D ← bellmanFordPathLengths G iso (fun r : Fin ids.length => ids.get r)
            return (curNodes.zipIdx.filterMap fun (u, r) =>
              if h : r < ids.length then some (u, D ⟨r, h⟩) else none))
        (fun p : Piece K => match p with
          | .elem _ => (.error .typeError : Except Err (List (K × Vec G.n β)))
          | .chunk curNodes => do
            let ids ← listToIds G curNodes
            let D ← bellmanFordPathLengths (mapWeights φ G) (iso.map φ) (fun r : Fin ids.length => ids.get r)
            return (curNodes.zipIdx.filterMap fun (u, r) =>
              if h : r < ids.length then some (u, D ⟨r, h⟩) else none))
        (List.map fun p => (p.1, vapply φ p.2)) (fun p => by
          cases p with
          | elem _ => rfl
          | chunk l =>
            dsimp only
            cases listToIds G l with
            | error _ => rfl
            | ok ids =>
              simp only [bind, Except.bind]
              rw [hl]
              cases bellmanFordPathLengths G iso (fun r : Fin ids.length => ids.get r) with
              | error _ => rfl
              | ok D =>
                simp only [Except.map, pure, Except.pure, List.map_filterMap]
                congr 2
                funext q
                by_cases h : q.2 < ids.length <;> simp [h, mapply_row]) (partition c (G.keyToId.map Prod.fst))
      have hfl : ∀ y : Except Err (List (List (K × Vec G.n α))),
          ((y.map (List.map (List.map fun p => (p.1, vapply φ p.2)))) >>= fun parts =>
            (pure parts.flatten : Except Err (List (K × Vec G.n β)))) =
          (y >>= fun parts => (pure parts.flatten : Except Err (List (K × Vec G.n α)))).map
            (List.map fun p => (p.1, vapply φ p.2)) := by
        intro y
        cases y with
        | error _ => rfl
        | ok ps => simp only [Except.map, bind, Except.bind, pure, Except.pure, List.map_flatten]
      exact (congrArg (fun x : Except Err (List (List (K × Vec G.n β))) =>
        x >>= fun parts => (pure parts.flatten : Except Err (List (K × Vec G.n β)))) hp).trans (hfl _)

/-- **C116** -/
theorem negative_edge_cycle_units : negativeEdgeCycle (mapWeights φ G) = negativeEdgeCycle G := by
  obtain ⟨n, A, k2i, d, m⟩ := G
  dsimp only [mapW_mk]
  simp only [negativeEdgeCycle, offdiag_mapply, transpose_mapply, mapply_row, nvals_vapply, hasNegDiag_map u,
    hasNegEdgesM_map u, necBody_map u]

/-- **C116** the very same path -/
theorem bellman_ford_path_units (iso : Option α) (s t : K) :
    bellmanFordPath (mapWeights φ G) (iso.map φ) s t = bellmanFordPath G iso s t := by
  obtain ⟨n, A, k2i, d, m⟩ := G
  dsimp only [mapW_mk]
  cases iso with
  | none => simp only [bellmanFordPath, getId_map, bfPathIds, bfPathCore_map u, keyOf_map, Option.map_none]
  | some c =>
    simp only [bellmanFordPath, getId_map, bfPathIds, bfsParent_map, keyOf_map, Option.map_some, hasNegEdgesP_map u]

/-- **C116** `choose`, `choose'`: which operand `any` returns in each computation. -/
theorem floyd_warshall_units {choose : α → α → α} {choose' : β → β → β}
    (hc : ∀ a b, φ (choose a b) = choose' (φ a) (φ b)) :
    fwDist G.directed choose' (mapWeights φ G).A = mapply φ (fwDist G.directed choose G.A) :=
  fwDist_map u hc G.directed G.A

/-- **C116** -/
theorem floyd_warshall_numpy_units {choose : α → α → α} {choose' : β → β → β}
    (hc : ∀ a b, φ (choose a b) = choose' (φ a) (φ b)) (nodelist : Option (List K)) :
    floydWarshallNumpy (mapWeights φ G) choose' nodelist =
      (floydWarshallNumpy G choose nodelist).map (mapply φ) := by
  obtain ⟨n, A, k2i, d, m⟩ := G
  dsimp only [mapW_mk]
  cases nodelist with
  | none => exact congrArg Except.ok (fwDist_map u hc d A)
  | some l =>
    simp only [floydWarshallNumpy, listToIds_map, Graph.len]
    split
    · rfl
    · cases listToIds ⟨n, A, k2i, d, m⟩ l with
      | error _ => rfl
      | ok ids =>
        simp only [bind, Except.bind]
        split
        · exact congrArg Except.ok (fwDistPerm_map u hc d A _)
        · rfl

/-- **C116** the predecessors are the same, the distances are converted. -/
theorem floyd_warshall_predecessor_units {choose : α → α → α} {choose' : β → β → β}
    (hc : ∀ a b, φ (choose a b) = choose' (φ a) (φ b)) (chooseP : Fin G.n → Fin G.n → Fin G.n) :
    fwPred G.directed choose' chooseP (mapWeights φ G).A =
      ((fwPred G.directed choose chooseP G.A).1, mapply φ (fwPred G.directed choose chooseP G.A).2) :=
  fwPred_map u hc G.directed chooseP G.A

omit u

/-! ### the intended conversions -/

/-- multiplication by a positive constant -/
theorem unit_mul {F : Type} [Field F] [LinearOrder F] [IsStrictOrderedRing F] (c : F) (hc : 0 < c) :
    Unit' (fun x : F => c * x) where
  zero := mul_zero c
  add := mul_add c
  smul k a := by simp only [nsmul_eq_mul]; ring
  mono := fun _ _ h => mul_lt_mul_of_pos_left h hc

/-- integers as elements of an ordered field (int weights stored as exact fractions or floats) -/
theorem unit_int {F : Type} [Field F] [LinearOrder F] [IsStrictOrderedRing F] : Unit' (fun x : Int => (x : F)) where
  zero := Int.cast_zero
  add := Int.cast_add
  smul k a := by simp
  mono := Int.cast_strictMono

/-- non-trivial instance: metres to kilometres on the example digraph -/
example (s t : Nat) : bellmanFordPathLength (mapWeights (fun x : ℚ => (1 / 1000) * x) (mapWeights (fun x : Int => (x : ℚ)) _root_.Ex.dg))
    none s t =
      ((bellmanFordPathLength _root_.Ex.dg none s t).map (fun x : Int => (x : ℚ))).map (fun x : ℚ => (1 / 1000) * x) := by
  have h := bellman_ford_path_length_units (unit_mul (1 / 1000 : ℚ) (by norm_num))
    (mapWeights (fun x : Int => (x : ℚ)) _root_.Ex.dg) none s t
  have h' := bellman_ford_path_length_units (unit_int (F := ℚ)) _root_.Ex.dg none s t
  simp only [Option.map_none] at h h'
  rw [h, h']

end Props
