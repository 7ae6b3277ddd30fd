import Verif.Proofs.Memo
import Verif.Props.Cache
import Verif.Props.BellmanFord

/-!
# Results do not depend on earlier calls: C06

`afterCalls c mx f h` is a graph object after the calls `h`: any property lookups (which is all the
other algorithms do to the object), and calls of the two memoising functions with any arguments.
-/

open GB Spec.Prop Model Model.Cache Model.Memo Proofs.CacheMath Proofs.Cache Proofs.Memo

namespace Props

variable {ι α K : Type} [DecidableEq ι] [LinearOrder α] [Zero α] [DecidableEq K]

/-- the cache context of a graph object: operator meanings `f`, what is reported about the dtype
and the iso value -/
@[reducible] def ctxOf (G : Graph K α) (f : ι → α → α → α) (mn : ι) (nonneg : Bool) (iso : Option α) :
    Ctx ι α :=
  { n := G.n, A := G.A, f := f, mn := mn, nonneg := nonneg, iso := iso, dir := G.directed }

/-- requests in the history that are subject to the `total_degrees+` finding of C02 -/
def SafeCall (c : Ctx ι α) : Call ι c.n → Prop
  | .request r => Safe c r
  | .transitivity | .average _ _ _ => True

variable {c : Ctx ι α} {strict ex : Prop}

/-- invariant of a graph object, for the argument `weighted` used with each `count_zeros` -/
def ObjInv (c : Ctx ι α) (strict ex : Prop) (mx : ι) (f : Norm α) (w : Bool → Bool) (o : Obj c) : Prop :=
  Inv (good c strict ex) o.store ∧
  (∀ v, o.memo .transitivity = some v → v = transVal c) ∧
  ∀ cz v, o.memo (.average cz) = some v →
    averageOf (clustVal c mx f (w cz) none) cz none = .ok v

theorem onStore_inv {mx : ι} {f : Norm α} {w : Bool → Bool} {E : Err → Prop} {Q : ℚ → Prop}
    {m : M c ℚ} (hm : Sat (good c strict ex) E (fun _ => False) m noK Q) {o : Obj c}
    (ho : ObjInv c strict ex mx f w o) :
    ObjInv c strict ex mx f w (onStore c m o).2 ∧ (∀ v, (onStore c m o).1 = .ok v → Q v) ∧
    (∀ e, (onStore c m o).1 = .error e → E e) := by
  obtain ⟨h1, _, h3, h4⟩ := hm.run o.store ho.1 (by simp)
  exact ⟨⟨h1, ho.2⟩, fun v hv => (h3 v hv).1, h4⟩

theorem callTransitivity_inv (hv : c.Valid) {mx : ι} {f : Norm α} {w : Bool → Bool} {o : Obj c}
    (ho : ObjInv c strict ex mx f w o) :
    ObjInv c strict ex mx f w (callTransitivity c o).2 ∧
    (callTransitivity c o).1 = .ok (if c.n = 0 then 0 else transVal c) := by
  unfold callTransitivity
  by_cases h0 : c.n = 0
  · rw [if_pos h0, if_pos h0]
    exact ⟨ho, rfl⟩
  · rw [if_neg h0, if_neg h0]
    have := onStore_inv (sat_transitivity (S := fun _ => False) hv) ho
    revert this
    generalize (if c.dir = true then transitivityDirM c else transitivityM c) = m
    intro this
    unfold cacheit
    cases hm : o.memo .transitivity with
    | some v => exact ⟨ho, by rw [ho.2.1 v hm]⟩
    | none =>
      dsimp only
      rcases hr : onStore c m o with ⟨_ | v, o'⟩ <;> rw [hr] at this
      · exact (this.2.2 _ rfl).elim
      · obtain ⟨⟨g1, g2, g3⟩, h2, -⟩ := this
        have e := h2 v rfl
        refine ⟨⟨g1, fun x hx => ?_, fun cz x hx => ?_⟩, by rw [e]⟩
        · dsimp only at hx
          rw [Function.update_self] at hx
          cases hx
          exact e
        · dsimp only at hx
          rw [Function.update_of_ne (by simp)] at hx
          exact g3 cz x hx

theorem callAverage_inv (hv : c.Valid) {mx : ι} {f : Norm α} {w : Bool → Bool} {o : Obj c}
    (ho : ObjInv c strict ex mx f w o) (mask : NodeMask c.n) (wt cz : Bool) (hw : mask = none → wt = w cz) :
    ObjInv c strict ex mx f w (callAverage c mx f mask wt cz o).2 ∧
    ((callAverage c mx f mask wt cz o).1 =
        (if c.n = 0 then .error .zeroDivision else averageOf (clustVal c mx f wt mask) cz mask) ∨
      (wt = true ∧ (strict → SelfEdge c) ∧ (callAverage c mx f mask wt cz o).1 = .error .attributeError)) := by
  unfold callAverage
  split_ifs with h0
  · exact ⟨ho, Or.inl rfl⟩
  · have := onStore_inv (sat_average (S := fun _ => False) hv mx f wt cz mask) ho
    cases mask with
    | some p =>
      refine ⟨this.1, ?_⟩
      dsimp only
      cases hr : (onStore c (averageM c mx f wt cz (some p)) o).1 with
      | ok v => exact Or.inl (this.2.1 v hr).symm
      | error e =>
        rcases this.2.2 e hr with ⟨a, b0, b⟩ | h
        · exact Or.inr ⟨a, fun hs => not_not.1 fun h => b0 hs (noSelf_iff_selfEdge.2 h), by rw [b]⟩
        · exact Or.inl h.symm
    | none =>
      have hw' := hw rfl
      subst hw'
      dsimp only [cacheit]
      cases hm : o.memo (.average cz) with
      | some v => exact ⟨ho, Or.inl (ho.2.2 cz v hm).symm⟩
      | none =>
        dsimp only
        rcases hr : onStore c (averageM c mx f (w cz) cz none) o with ⟨e | v, o'⟩ <;> rw [hr] at this
        · refine ⟨this.1, ?_⟩
          rcases this.2.2 e rfl with ⟨a, b0, b⟩ | h
          · exact Or.inr ⟨a, fun hs => not_not.1 fun h => b0 hs (noSelf_iff_selfEdge.2 h), by rw [b]⟩
          · exact Or.inl h.symm
        · obtain ⟨⟨g1, g2, g3⟩, h2, -⟩ := this
          have e := h2 v rfl
          refine ⟨⟨g1, fun x hx => ?_, fun cz' x hx => ?_⟩, Or.inl e.symm⟩
          · dsimp only at hx
            rw [Function.update_of_ne (by simp)] at hx
            exact g2 x hx
          · dsimp only at hx
            by_cases hc : cz' = cz
            · subst hc
              rw [Function.update_self] at hx
              cases hx
              exact e
            · rw [Function.update_of_ne (by simpa using hc)] at hx
              exact g3 cz' x hx

/-- the unmasked `average_clustering` calls of `h` use `weighted = w count_zeros` -/
def Consistent (w : Bool → Bool) {n : Nat} (h : List (Call ι n)) : Prop :=
  ∀ wt cz, Call.average none wt cz ∈ h → wt = w cz

theorem afterCalls_inv (hv : c.Valid) (mx : ι) (f : Norm α) {w : Bool → Bool}
    (h : List (Call ι c.n)) (hs : ∀ r ∈ h, SafeCall c r) (hw : Consistent w h) :
    ObjInv c False False mx f w (afterCalls c mx f h) := by
  unfold afterCalls
  have : ∀ o, ObjInv c False False mx f w o → ObjInv c False False mx f w (h.foldl (step c mx f) o) := by
    induction h with
    | nil => exact fun _ h => h
    | cons r h ih =>
      intro o ho
      refine ih (fun r' hr' => hs r' (List.mem_cons_of_mem _ hr'))
        (fun wt cz hm => hw wt cz (List.mem_cons_of_mem _ hm)) _ ?_
      have h1 := hs r (List.mem_cons_self ..)
      cases r with
      | request r =>
        exact ⟨((sat_getProp (S := fun _ => False) (strict := False) (ex := False) hv r.al r.mask r.key (by simp)
          (fun a b d => noSelf_iff_selfEdge.2 (h1 a b d)) (by simp)).run o.store ho.1 (by simp)).1, ho.2⟩
      | transitivity => exact (callTransitivity_inv hv ho).1
      | average mask wt cz =>
        exact (callAverage_inv hv ho mask wt cz fun hm => hw wt cz (by
          subst hm; exact List.mem_cons_self ..)).1
  exact this _ ⟨fun k v h => by simp [Obj.fresh] at h, by simp [Obj.fresh], by simp [Obj.fresh]⟩

variable {G : Graph K α} {of : ι → α → α → α} {mn : ι} {nonneg : Bool} {iso : Option α}

omit [DecidableEq K] in
/-- **C06**: whatever was called on the graph object before, `nx.transitivity(G)` returns the value
`Model.transitivity` computes from the graph (which is the transitivity of the graph by
`transitivity_correct` / `transitivity_directed_correct`). -/
theorem transitivity_history_independent (hv : (ctxOf G of mn nonneg iso).Valid) (mx : ι) (f : Norm α)
    (h : List (Call ι G.n)) (hs : ∀ r ∈ h, SafeCall (ctxOf G of mn nonneg iso) r)
    (w : Bool → Bool) (hw : Consistent w h) :
    (callTransitivity (ctxOf G of mn nonneg iso) (afterCalls _ mx f h)).1 =
      .ok (if G.directed then transitivityDirected G else transitivity G) := by
  rw [(callTransitivity_inv hv (afterCalls_inv hv mx f h hs hw)).2]
  congr 1
  unfold transVal
  change (if G.n = 0 then (0 : ℚ) else if G.directed = true then _ else _) = _
  cases G.directed
  · simp only [Bool.false_eq_true, if_false]
    rfl
  · simp only [if_true]
    rfl

theorem vmul_vapply {n : Nat} {β γ δ ε : Type} (g : γ → δ → ε) (f : β → γ) (v : Vec n β) (u : Vec n δ) :
    vmul g (vapply f v) u = vmul (fun x y => g (f x) y) v u := by
  funext i
  simp only [vmul, vapply, ointer]
  cases v i <;> cases u i <;> rfl

theorem clustVal_unweighted (c : Ctx ι α) (mx : ι) (f : Norm α) (mask : NodeMask c.n) :
    clustVal c mx f false mask =
      if c.dir then clusteringDirVec c.A mask else clusteringVec c.A mask := by
  unfold clustVal
  simp only [Bool.false_eq_true, if_false]
  split_ifs
  · rw [vmul_vapply]; rfl
  · rw [vmul_vapply]; rfl

/-- **C06**: the unweighted `nx.average_clustering(G, nodes, count_zeros)` likewise, provided no
*weighted* average over all nodes was requested before (see
`average_clustering_memo_ignores_weight`). -/
theorem average_clustering_history_independent_partial (hv : (ctxOf G of mn nonneg iso).Valid)
    (mx : ι) (f : Norm α) (h : List (Call ι G.n))
    (hs : ∀ r ∈ h, SafeCall (ctxOf G of mn nonneg iso) r)
    (hw : ∀ cz, Call.average none true cz ∉ h)
    (nodes : Option (List K)) {mask : NodeMask G.n} (hm : listToMask G nodes = .ok mask) (cz : Bool) :
    (callAverage (ctxOf G of mn nonneg iso) mx f mask false cz (afterCalls _ mx f h)).1 =
      averageClustering G nodes cz := by
  have hc : Consistent (fun _ => false) h := by
    intro wt cz hmem
    cases wt
    · rfl
    · exact absurd hmem (hw cz)
  rcases (callAverage_inv hv (afterCalls_inv hv mx f h hs hc) mask false cz (fun _ => rfl)).2 with
    h | ⟨h, -⟩
  · rw [h]
    unfold averageClustering
    by_cases h0 : G.n = 0
    · rw [if_pos (show (ctxOf G of mn nonneg iso).n = 0 from h0), if_pos h0]
    · rw [if_neg (show ¬ (ctxOf G of mn nonneg iso).n = 0 from h0), if_neg h0, hm]
      change averageOf (clustVal (ctxOf G of mn nonneg iso) mx f false mask) cz mask =
        averageOf (if G.directed then clusteringDirVec G.A mask else clusteringVec G.A mask) cz mask
      exact congrArg (fun v => averageOf v cz mask)
        (clustVal_unweighted (ctxOf G of mn nonneg iso) mx f mask)
  · cases h

/-- **C06**: two calls of `average_clustering` with the same arguments, after different histories,
return the same value (if neither raises), provided no average over all nodes with the other value
of `weighted` was requested before. -/
theorem average_clustering_agree_partial (hv : c.Valid) (mx : ι) (f : Norm α)
    (mask : NodeMask c.n) (wt cz : Bool) (h h' : List (Call ι c.n))
    (hs : ∀ r ∈ h ++ h', SafeCall c r) (hw : ∀ cz', Call.average none (!wt) cz' ∉ h ++ h') {v v'}
    (e1 : (callAverage c mx f mask wt cz (afterCalls c mx f h)).1 = .ok v)
    (e2 : (callAverage c mx f mask wt cz (afterCalls c mx f h')).1 = .ok v') : v = v' := by
  have hc : ∀ l : List (Call ι c.n), (∀ x ∈ l, x ∈ h ++ h') → Consistent (fun _ => wt) l := by
    intro l hl b cz hmem
    by_contra hb
    have : b = !wt := by cases b <;> cases wt <;> simp_all
    exact hw cz (this ▸ hl _ hmem)
  have i1 := (callAverage_inv hv (afterCalls_inv hv mx f h
    (fun r hr => hs r (List.mem_append_left _ hr)) (hc h fun x hx => List.mem_append_left _ hx))
    mask wt cz (fun _ => rfl)).2
  have i2 := (callAverage_inv hv (afterCalls_inv hv mx f h'
    (fun r hr => hs r (List.mem_append_right _ hr)) (hc h' fun x hx => List.mem_append_right _ hx))
    mask wt cz (fun _ => rfl)).2
  rw [e1] at i1
  rw [e2] at i2
  rcases i1 with i1 | ⟨_, _, i1⟩
  · rcases i2 with i2 | ⟨_, _, i2⟩
    · have := i1.trans i2.symm
      cases this; rfl
    · cases i2
  · cases i1

/-- **C06**: a call for some nodes neither reads nor writes the memo: whatever averages were
computed before, it returns what it returns on a fresh object. -/
theorem average_clustering_nodes_history_independent (hv : c.Valid) (mx : ι) (f : Norm α)
    (p : Vec c.n Bool) (cz : Bool) (h : List (Call ι c.n)) (hs : ∀ r ∈ h, SafeCall c r)
    (w : Bool → Bool) (hw : Consistent w h) :
    (callAverage c mx f (some p) false cz (afterCalls c mx f h)).1 =
      (callAverage c mx f (some p) false cz (Obj.fresh c)).1 := by
  have i1 := (callAverage_inv hv (afterCalls_inv hv mx f h hs hw) (some p) false cz (by simp)).2
  have i2 := (callAverage_inv hv (afterCalls_inv hv mx f (w := w) [] (by simp) (by simp [Consistent]))
    (some p) false cz (by simp)).2
  simp only [Bool.false_eq_true, false_and, or_false] at i1 i2
  rw [i1]
  exact i2.symm

section
variable {α : Type} [AddCommGroup α] [LinearOrder α] [IsOrderedAddMonoid α] {G : Graph K α}
  {of : ι → α → α → α} {mn : ι} {nonneg : Bool} {iso : Option α}

omit [DecidableEq K] [IsOrderedAddMonoid α] in
theorem negativeEdgeCycle_eq_body :
    negativeEdgeCycle G = necBody (offdiag G.A)
      (if G.directed then vS (value (ctxOf G of mn nonneg iso) (.totdeg .m))
        else vS (value (ctxOf G of mn nonneg iso) (.vec .count .m .row)))
      (value (ctxOf G of mn nonneg iso) .negDiag)
      (value (ctxOf G of mn nonneg iso) (.neg .m)) := by
  have e1 : hasNegDiag G.A = value (ctxOf G of mn nonneg iso) .negDiag := by
    rw [Bool.eq_iff_iff, Proofs.BF.hasNegDiag_iff, value_negD]
    unfold NegD
    simp only [Option.any_eq_true, decide_eq_true_eq]
  have e2 : hasNegEdgesM G.A = value (ctxOf G of mn nonneg iso) (.neg .m) := by
    rw [Bool.eq_iff_iff, Proofs.BF.hasNegEdgesM_iff, value_neg]
    unfold Proofs.Cache.Neg
    simp only [Option.any_eq_true, decide_eq_true_eq]
    exact Iff.rfl
  have cs : ∀ (v : Mat G.n G.n α) i, (countRow v i).isSome = decide (nvals (v i) ≠ 0) := by
    intro v i
    unfold countRow
    split_ifs with h <;> simp [h]
  have e3 : (if G.directed then fun i => decide (nvals (offdiag G.A i) ≠ 0) ||
        decide (nvals (transpose (offdiag G.A) i) ≠ 0)
      else fun i => decide (nvals (offdiag G.A i) ≠ 0) : VMask G.n) =
      (if G.directed then vS (value (ctxOf G of mn nonneg iso) (.totdeg .m))
        else vS (value (ctxOf G of mn nonneg iso) (.vec .count .m .row))) := by
    split_ifs
    · funext i
      change _ = (omerge _ (countRow (offdiag G.A) i) (countRow (transpose (offdiag G.A)) i)).isSome
      rw [GB.isSome_omerge, cs, cs]
    · funext i
      change _ = (countRow (offdiag G.A) i).isSome
      rw [cs]
  unfold negativeEdgeCycle
  rw [← e1, ← e2, ← e3]

/-- **C06/C31** `negative_edge_cycle(G)` after any safe history: `False` is always right, and `True`
is right unless the graph has a negative edge (see `negative_edge_cycle_depends_on_history` for a
graph where it is wrong). -/
theorem negative_edge_cycle_history_partial (h : G.WF) (hv : (ctxOf G of mn nonneg iso).Valid)
    (hist : List (Req ι G.n)) (hs : ∀ r ∈ hist, Safe (ctxOf G of mn nonneg iso) r) {b : Bool}
    (hb : ((negativeEdgeCycleM (ctxOf G of mn nonneg iso)).run (after _ hist)).1 = .ok b) :
    (b = false → ¬ ∃ u, G.Node u ∧ Spec.NegCycleAt G.WEdge u) ∧
    (b = true → (∃ u, G.Node u ∧ Spec.NegCycleAt G.WEdge u) ∨ ∃ u v w, G.WEdge u v w ∧ w < 0) := by
  have key : Sat (good (ctxOf G of mn nonneg iso) False False) (fun _ => True) (fun _ => False) (negativeEdgeCycleM (ctxOf G of mn nonneg iso)) noK
      (fun b => ∃ nd : Bool, (nd = false → value (ctxOf G of mn nonneg iso) .negDiag = false) ∧
        (nd = true → value (ctxOf G of mn nonneg iso) (.neg .p) = true) ∧
        b = necBody (offdiag G.A)
          (if G.directed then vS (value (ctxOf G of mn nonneg iso) (.totdeg .m)) else vS (value (ctxOf G of mn nonneg iso) (.vec .count .m .row)))
          nd (value (ctxOf G of mn nonneg iso) (.neg .m))) := by
    unfold negativeEdgeCycleM
    refine sat_getThen hv (by simp) (by simp) (by simp) (by simp) ?_
    have hd : Sat (good (ctxOf G of mn nonneg iso) False False) (fun _ => True) (fun _ => False) (necDegrees (ctxOf G of mn nonneg iso)) noK
        (fun m => m = if G.directed then vS (value (ctxOf G of mn nonneg iso) (.totdeg .m))
          else vS (value (ctxOf G of mn nonneg iso) (.vec .count .m .row))) := by
      unfold necDegrees
      change Sat _ _ _ (if G.directed = true then _ else _) _ _
      split_ifs
      · exact sat_getThen hv (by simp) (by simp) (by simp) (by simp) (sat_pure rfl (by simp))
      · exact sat_getThen hv (by simp) (by simp) (by simp) (by simp) (sat_pure rfl (by simp))
    refine sat_callT hd fun m hm => ?_
    refine sat_callT ((sat_getProp (S := fun _ => False) (strict := False) (ex := False) hv false none .negDiag (by simp)
      (by simp) (by simp)).conseq (fun _ h => h) (fun _ _ => trivial) (fun _ h => h)
        (T := noK) (by simp)) fun nd hnd => ?_
    refine sat_getThen hv (by simp) (by simp) (by simp) (by simp) ?_
    refine sat_pure ?_ (by simp)
    obtain ⟨-, g1, g2⟩ := hnd.2 (Or.inr rfl)
    exact ⟨nd, g1, g2, by subst hm; rfl⟩
  have := (key.run (after (ctxOf G of mn nonneg iso) hist) (after_inv hv False hist fun r hr => ⟨hs r hr, by simp⟩) (by simp)).2.2.1
    b hb
  obtain ⟨⟨nd, g1, g2, rfl⟩, -⟩ := this
  have hsym : G.directed = false → G.Symm := hv.symm
  have eb := negativeEdgeCycle_eq_body (G := G) (of := of) (mn := mn) (nonneg := nonneg) (iso := iso)
  rw [← negative_edge_cycle_correct h hsym, eb]
  by_cases hn : nd = value (ctxOf G of mn nonneg iso) .negDiag
  · rw [← hn]
    exact ⟨fun e h' => (by rw [h'] at e; cases e), fun e => Or.inl e⟩
  · have hnd : nd = true := by
      cases nd
      · exact absurd (g1 rfl).symm hn
      · rfl
    subst hnd
    refine ⟨fun e => by simp [necBody] at e, fun _ => Or.inr ?_⟩
    obtain ⟨i, j, hij⟩ := (value_neg .p).1 (g2 rfl)
    change (G.A i j).any _ = true at hij
    obtain ⟨w, hw, hlt⟩ := (Option.any_eq_true _ _).1 hij
    obtain ⟨u, hu⟩ := h.exists_key i
    obtain ⟨v, hv'⟩ := h.exists_key j
    exact ⟨u, v, w, ⟨i, j, hu, hv', hw⟩, by simpa using hlt⟩
end

end Props

namespace Ex

/-- `0 - 1 - 2 - 0` with weights 1, 2, 2, and `2 - 3` of weight 1 -/
def mw : Graph Nat Int where
  n := 4
  A := ofTriples 4 [(0,1,1),(1,0,1),(1,2,2),(2,1,2),(0,2,2),(2,0,2),(2,3,1),(3,2,1)]
  keyToId := [(0,0),(1,1),(2,2),(3,3)]

/-- the same with a self-loop at 3 -/
def mwl : Graph Nat Int :=
  { mw with A := ofTriples 4 [(0,1,1),(1,0,1),(1,2,2),(2,1,2),(0,2,2),(2,0,2),(2,3,1),(3,2,1),(3,3,1)] }

/-- its cache context -/
def cw : Ctx Op Int := Props.ctxOf mw opf .min false none
/-- its cache context -/
def cwl : Ctx Op Int := Props.ctxOf mwl opf .min false none

theorem cw_valid : cw.Valid where
  assoc := opf_assoc
  comm := opf_comm
  min := fun _ _ => rfl
  nonneg := by simp [cw]
  iso := by simp [cw]
  symm := fun _ => by decide

/-- normalisation used in the examples: `w / maxval` -/
def nrm : Norm Int := fun m w => (w : ℚ) / ((m.getD 1 : Int) : ℚ)

/-- `0 → 1` of weight -1, self-loop of weight 1 at 1 -/
def neg1 : Graph Nat Int where
  n := 2
  A := ofTriples 2 [(0,1,-1),(1,1,1)]
  keyToId := [(0,0),(1,1)]
  directed := true

theorem neg1_wf : neg1.WF := ⟨by decide, by decide⟩
theorem neg1_valid : (Props.ctxOf neg1 opf .min false none).Valid where
  assoc := opf_assoc
  comm := opf_comm
  min := fun _ _ => rfl
  nonneg := by simp
  iso := by simp
  symm := by simp [neg1]

end Ex

namespace Props
open _root_.Ex

-- the theorems apply to non-trivial histories
example : (callTransitivity cw (afterCalls cw Op.max nrm [.average none true true,
      .request { key := .U .m }, .average (some (vofIds [⟨2, by decide⟩, ⟨3, by decide⟩] true)) false true, .transitivity])).1
    = .ok (3/5) := by decide +kernel
example : (callAverage cw Op.max nrm none false true (afterCalls cw Op.max nrm
      [.transitivity, .average none false false, .average none false true])).1 = .ok (7/12) := by
  decide +kernel
example : (callAverage cw Op.max nrm (some (vofIds [⟨2, by decide⟩, ⟨3, by decide⟩] true)) false true
      (afterCalls cw Op.max nrm [.average none true true])).1 = .ok (1/6) := by decide +kernel
example : Consistent (fun _ => true) (n := 4) ([.average none true true, .transitivity] : List (Call Op 4)) := by
  simp [Consistent]
example : ((negativeEdgeCycleM cw).run (after cw [{ key := .neg .p }])).1 = .ok false := by
  decide +kernel

/-- **C06 fails for `average_clustering`**: the memo key leaves out `weight`
(nxapi/cluster.py:70-71), so after `average_clustering(G)` the call
`average_clustering(G, weight=...)` returns the unweighted average, and vice versa. -/
theorem average_clustering_memo_ignores_weight :
    (callAverage cw Op.max nrm none true true (Obj.fresh cw)).1 = .ok (7/24) ∧
    (callAverage cw Op.max nrm none false true (Obj.fresh cw)).1 = .ok (7/12) ∧
    (callAverage cw Op.max nrm none true true
      (afterCalls cw Op.max nrm [.average none false true])).1 = .ok (7/12) ∧
    (callAverage cw Op.max nrm none false true
      (afterCalls cw Op.max nrm [.average none true true])).1 = .ok (7/24) := by
  decide +kernel

/-- On a graph with a self-loop the weighted average raises `AttributeError` (from `max_element-`
with `L-` and `U-` cached) on a fresh object, but succeeds after the property `offdiag` was used. -/
theorem weighted_average_clustering_self_loop_attribute_error :
    (callAverage cwl Op.max nrm none true true (Obj.fresh cwl)).1 = .error .attributeError ∧
    (callAverage cwl Op.max nrm none true true (afterCalls cwl Op.max nrm [.request { key := .offdiag }])).1
      = .ok (7/24) := by
  decide +kernel

/-- **C06 fails for `negative_edge_cycle`**: on the digraph `0 → 1` of weight -1 with a self-loop of
weight 1 at node 1, which has no negative cycle, it returns `False` on a fresh object but `True`
after the property `has_negative_edges+` was looked up. -/
theorem negative_edge_cycle_depends_on_history :
    ((negativeEdgeCycleM (ctxOf neg1 opf .min false none)).run (after _ [])).1 = .ok false ∧
    ((negativeEdgeCycleM (ctxOf neg1 opf .min false none)).run
      (after _ [{ key := .neg .p }])).1 = .ok true ∧
    ¬ ∃ u, neg1.Node u ∧ Spec.NegCycleAt neg1.WEdge u := by
  refine ⟨by decide +kernel, by decide +kernel, ?_⟩
  rw [← negative_edge_cycle_correct neg1_wf (by simp [neg1])]
  decide +kernel

end Props
