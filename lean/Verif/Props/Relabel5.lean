import Verif.Proofs.Perm2

/-!
# C83 without conditions: centralities of a relabelled graph

The theorems of `Relabel3` go through the meaning of the results and ask for graphs and arguments for which that meaning
is defined.  Here the computations themselves are compared, step by step: nothing is asked of weights, arguments or
results.  Unknown keys, empty dicts, zero sums, negative weights and graphs without edges included, the relabelled call
raises the same exception or returns the same values, present at the same nodes.
-/

open GB Spec Model Model.Graph Proofs Proofs.Perm

namespace Props

section
variable {K K' F β : Type} {f : K → K'} {G : Graph K F} {H : Graph K' F}

/-- both calls return the empty dict, or both return values that agree -/
def SameDict [DecidableEq K] [DecidableEq K'] (f : K → K') (G : Graph K F) (H : Graph K' F) (R : Option (Vec G.n β))
    (R' : Option (Vec H.n β)) : Prop :=
  (R = none ∧ R' = none) ∨ ∃ r r', R = some r ∧ R' = some r' ∧ SameMap f G H r r'

/-- the same for a pair of dicts -/
def SameDicts [DecidableEq K] [DecidableEq K'] (f : K → K') (G : Graph K F) (H : Graph K' F)
    (R : Option (Vec G.n β × Vec G.n β)) (R' : Option (Vec H.n β × Vec H.n β)) : Prop :=
  (R = none ∧ R' = none) ∨
    ∃ p p', R = some p ∧ R' = some p' ∧ SameMap f G H p.1 p'.1 ∧ SameMap f G H p.2 p'.2

theorem agree_map {A B : Type} {rel : A → B → Prop} {x : Except Err A} {y : Except Err B} (g : A → B)
    (e : y = x.map g) (hr : ∀ a, rel a (g a)) : Agree rel x y := by
  subst e
  cases x with
  | error e => exact rfl
  | ok a => exact hr a

end

variable {K K' F : Type} [Field F] [LinearOrder F] [DecidableEq K] [DecidableEq K'] {f : K → K'}
  {G : Graph K F} {H : Graph K' F}

section
variable {n : Nat} {A : Mat n n F} {k : List (K × Nat)} {k' : List (K' × Nat)} {d m : Bool} {σ : Equiv.Perm (Fin n)}

omit [LinearOrder F] in
theorem dict?_pv (hid : Ids f A k k' d m σ) (l : Option (List (K × F))) :
    dictToVector? (⟨n, pm σ A, k', d, m⟩ : Graph K' F) (l.map (renameDict f)) =
      (dictToVector? (⟨n, A, k, d, m⟩ : Graph K F) l).map (Option.map (pv σ)) := by
  cases l with
  | none => rfl
  | some l =>
    simp only [Option.map_some, dictToVector?]
    rw [show dictToVector (⟨n, pm σ A, k', d, m⟩ : Graph K' F) (renameDict f l) = _ from dictToVector_pv hid l]
    cases dictToVector (⟨n, A, k, d, m⟩ : Graph K F) l <;> rfl

end

/-- **C83, pagerank of any graph with any arguments**: same values at corresponding nodes, or the same exception. -/
theorem relabel_pagerank_all (h : Relabels f G H) (hG : G.WF) (hH : H.WF) (iso : Option F) (alpha : F)
    (pers : Option (List (K × F))) (maxIter : Int) (tol : F) (nstart dangling : Option (List (K × F))) :
    Agree (SameDict f G H) (pagerank G iso alpha pers maxIter tol nstart dangling)
      (pagerank H iso alpha (pers.map (renameDict f)) maxIter tol (nstart.map (renameDict f))
        (dangling.map (renameDict f))) := by
  refine renumbered (P := fun G H => Agree (SameDict f G H) (pagerank G iso alpha pers maxIter tol nstart dangling)
      (pagerank H iso alpha (pers.map (renameDict f)) maxIter tol (nstart.map (renameDict f))
        (dangling.map (renameDict f)))) h hG hH ?_
  intro n A k k' d m σ hid
  refine agree_map (Option.map (pv σ)) ?_ ?_
  · unfold pagerank
    dsimp only
    by_cases hn : n = 0
    · rw [if_pos hn, if_pos hn]; rfl
    rw [if_neg hn, if_neg hn, dict?_pv hid, dict?_pv hid, reduceRow_pm]
    rw [show nvals (pv σ (reduceRow (· + ·) A)) = nvals (reduceRow (· + ·) A) from nvals_pv σ _]
    rw [show (if nvals (reduceRow (· + ·) A) < n then dangling.map (renameDict f) else none) =
      (if nvals (reduceRow (· + ·) A) < n then dangling else none).map (renameDict f) by split_ifs <;> rfl,
      dict?_pv hid]
    generalize dictToVector? (⟨n, A, k, d, m⟩ : Graph K F)
      (if nvals (reduceRow (· + ·) A) < n then dangling else none) = q
    cases dictToVector? (⟨n, A, k, d, m⟩ : Graph K F) nstart with
    | error e => rfl
    | ok x =>
      cases dictToVector? (⟨n, A, k, d, m⟩ : Graph K F) pers with
      | error e => rfl
      | ok p =>
        cases q with
        | error e => rfl
        | ok q =>
          simp only [bind, Except.bind, Except.map] at *
          rw [pagerankV_pv]
          cases pagerankV A iso alpha p maxIter tol x q <;> rfl
  · rintro (_ | r)
    · exact .inl ⟨rfl, rfl⟩
    · exact .inr ⟨r, pv σ r, rfl, rfl, fun u => view_pv hid r u⟩

/-- **C83, katz_centrality of any graph with any arguments.** -/
theorem relabel_katz_all (h : Relabels f G H) (hG : G.WF) (hH : H.WF) (fill : Bool) (sqrt : F → F) (iso : Option F)
    (alpha : F) (beta : F ⊕ List (K × F)) (maxIter : Int) (tol : F) (nstart : Option (List (K × F)))
    (normalized : Bool) :
    Agree (SameDict f G H) (katzCentrality fill sqrt G iso alpha beta maxIter tol nstart normalized)
      (katzCentrality fill sqrt H iso alpha (renameBeta f beta) maxIter tol (nstart.map (renameDict f)) normalized) := by
  refine renumbered (P := fun G H => Agree (SameDict f G H)
      (katzCentrality fill sqrt G iso alpha beta maxIter tol nstart normalized)
      (katzCentrality fill sqrt H iso alpha (renameBeta f beta) maxIter tol (nstart.map (renameDict f)) normalized))
      h hG hH ?_
  intro n A k k' d m σ hid
  refine agree_map (Option.map (pv σ)) ?_ ?_
  · unfold katzCentrality
    dsimp only
    by_cases hm : m = true
    · rw [if_pos hm, if_pos hm]; rfl
    rw [if_neg hm, if_neg hm]
    by_cases hn : n = 0
    · rw [if_pos hn, if_pos hn]; rfl
    have hb : katzBeta (⟨n, pm σ A, k', d, m⟩ : Graph K' F) (renameBeta f beta) =
        (katzBeta (⟨n, A, k, d, m⟩ : Graph K F) beta).map (ps σ) := by
      cases beta with
      | inl c => rfl
      | inr l =>
        simp only [katzBeta, renameBeta]
        rw [show dictToVector (⟨n, pm σ A, k', d, m⟩ : Graph K' F) (renameDict f l) = _ from dictToVector_pv hid l]
        cases dictToVector (⟨n, A, k, d, m⟩ : Graph K F) l <;> rfl
    rw [if_neg hn, if_neg hn, dict?_pv hid, hb]
    cases dictToVector? (⟨n, A, k, d, m⟩ : Graph K F) nstart with
    | error e => rfl
    | ok x =>
      cases katzBeta (⟨n, A, k, d, m⟩ : Graph K F) beta with
      | error e => rfl
      | ok b =>
        simp only [bind, Except.bind, Except.map] at *
        rw [katzV_pv]
        cases katzV fill sqrt A iso alpha b maxIter tol x normalized <;> rfl
  · rintro (_ | r)
    · exact .inl ⟨rfl, rfl⟩
    · exact .inr ⟨r, pv σ r, rfl, rfl, fun u => view_pv hid r u⟩

/-- **C83, eigenvector_centrality of any graph with any arguments**: also which nodes have a value. -/
theorem relabel_eigenvector_all (h : Relabels f G H) (hG : G.WF) (hH : H.WF) (sqrt : F → F) (maxIter : Int) (tol : F)
    (nstart : Option (List (K × F))) :
    Agree (SameMap f G H) (eigenvectorCentrality sqrt G maxIter tol nstart)
      (eigenvectorCentrality sqrt H maxIter tol (nstart.map (renameDict f))) := by
  refine renumbered (P := fun G H => Agree (SameMap f G H) (eigenvectorCentrality sqrt G maxIter tol nstart)
      (eigenvectorCentrality sqrt H maxIter tol (nstart.map (renameDict f)))) h hG hH ?_
  intro n A k k' d m σ hid
  refine agree_map (pv σ) ?_ (fun r u => view_pv hid r u)
  unfold eigenvectorCentrality
  dsimp only
  by_cases hm : m = true
  · rw [if_pos hm, if_pos hm]; rfl
  rw [if_neg hm, if_neg hm]
  by_cases hn : n = 0
  · rw [if_pos hn, if_pos hn]; rfl
  rw [if_neg hn, if_neg hn, dict?_pv hid]
  cases dictToVector? (⟨n, A, k, d, m⟩ : Graph K F) nstart with
  | error e => rfl
  | ok x => exact eigV_pv σ sqrt A maxIter tol x

/-- **C83, hits of any graph with any arguments**, negative weights included. -/
theorem relabel_hits_all (h : Relabels f G H) (hG : G.WF) (hH : H.WF) (maxIter : Int) (tol : F)
    (nstart : Option (List (K × F))) (normalized : Bool) :
    Agree (SameDicts f G H) (hits G maxIter tol nstart normalized)
      (hits H maxIter tol (nstart.map (renameDict f)) normalized) := by
  refine renumbered (P := fun G H => Agree (SameDicts f G H) (hits G maxIter tol nstart normalized)
      (hits H maxIter tol (nstart.map (renameDict f)) normalized)) h hG hH ?_
  intro n A k k' d m σ hid
  refine agree_map (Option.map fun s => (pv σ s.1, pv σ s.2)) ?_ ?_
  · unfold hits
    dsimp only
    by_cases hn : n = 0
    · rw [if_pos hn, if_pos hn]; rfl
    rw [if_neg hn, if_neg hn, dict?_pv hid]
    cases dictToVector? (⟨n, A, k, d, m⟩ : Graph K F) nstart with
    | error e => rfl
    | ok x =>
      simp only [bind, Except.bind, Except.map] at *
      rw [hitsV_pv]
      cases hitsV A maxIter tol x normalized <;> rfl
  · rintro (_ | r)
    · exact .inl ⟨rfl, rfl⟩
    · exact .inr ⟨r, (pv σ r.1, pv σ r.2), rfl, rfl, fun u => view_pv hid r.1 u, fun u => view_pv hid r.2 u⟩

/-- **C83, hits with the authority matrix.** -/
theorem relabel_hits_authority_all (h : Relabels f G H) (hG : G.WF) (hH : H.WF) (maxIter : Int) (tol : F)
    (nstart : Option (List (K × F))) (normalized : Bool) :
    Agree (fun p p' => SameMap f G H p.1 p'.1 ∧ SameMap f G H p.2 p'.2) (hitsAuthority G maxIter tol nstart normalized)
      (hitsAuthority H maxIter tol (nstart.map (renameDict f)) normalized) := by
  refine renumbered (P := fun G H => Agree (fun p p' => SameMap f G H p.1 p'.1 ∧ SameMap f G H p.2 p'.2)
      (hitsAuthority G maxIter tol nstart normalized)
      (hitsAuthority H maxIter tol (nstart.map (renameDict f)) normalized)) h hG hH ?_
  intro n A k k' d m σ hid
  refine agree_map (fun s => (pv σ s.1, pv σ s.2)) ?_ (fun r => ⟨fun u => view_pv hid r.1 u, fun u => view_pv hid r.2 u⟩)
  unfold hitsAuthority
  dsimp only
  rw [dict?_pv hid]
  cases dictToVector? (⟨n, A, k, d, m⟩ : Graph K F) nstart with
  | error e => rfl
  | ok x => exact hitsAuthV_pv σ A maxIter tol x normalized

/-! ## a case -/

/-- negative weights, a start vector naming an unknown node: the hypotheses are met -/
example : Relabels (· + 1) _root_.Ex.dg (relabelled (· + 1) _root_.Ex.dg (Fin.revPerm (n := 4))) ∧
    (relabelled (· + 1) _root_.Ex.dg (Fin.revPerm (n := 4))).WF :=
  relabels_relabelled (by intro a b h; simpa using h) _root_.Ex.dg_wf _

end Props
