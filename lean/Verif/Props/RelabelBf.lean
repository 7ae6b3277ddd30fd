import Verif.Props.BfExact
import Verif.Props.Relabel

/-!
# C81: bellman_ford_path_length with negative cycles

What the function returns then is specified by `bellman_ford_path_length_exact` / `_nonneg` only in part; here: it does
not depend on names or numbering, because every step of the loop commutes with a renumbering.
-/

open GB Spec Model Model.Graph Proofs Proofs.BF

namespace Props

variable {K K' α : Type} [DecidableEq K] [DecidableEq K'] {f : K → K'} {G : Graph K α} {H : Graph K' α}

/-- `v'` is `v` renumbered by `σ` -/
def Ren {m n : Nat} {β : Type} (σ : Fin n → Fin m) (v : Vec n β) (v' : Vec m β) : Prop := ∀ i, v' (σ i) = v i

omit [DecidableEq K] [DecidableEq K'] in
theorem exists_renumbering (h : Relabels f G H) (hG : G.WF) (hH : H.WF) :
    ∃ σ : Fin G.n → Fin H.n, Function.Bijective σ ∧ (∀ u i, G.At u i → H.At (f u) (σ i)) ∧
      ∀ i j, H.A (σ i) (σ j) = G.A i j := by
  have hex : ∀ i : Fin G.n, ∃ x : Fin H.n, ∀ u, G.At u i → H.At (f u) x := by
    intro i
    obtain ⟨u, hu⟩ := hG.exists_key i
    obtain ⟨x, hx⟩ := ((Relabel.node' h).2 hu.node).exists_id hH
    exact ⟨x, fun v hv => by rw [← At.key_unique hG hu hv]; exact hx⟩
  choose σ hσ using hex
  refine ⟨σ, ⟨?_, ?_⟩, fun u i hu => hσ i u hu, ?_⟩
  · intro i j e
    obtain ⟨u, hu⟩ := hG.exists_key i
    obtain ⟨v, hv⟩ := hG.exists_key j
    have h1 := hσ i u hu
    have h2 := hσ j v hv
    rw [e] at h1
    have := h.inj (At.key_unique hH h1 h2)
    subst this
    exact At.id_unique hG hu hv
  · intro x
    obtain ⟨y, hy⟩ := hH.exists_key x
    obtain ⟨u, hu, rfl⟩ := (h.node y).1 hy.node
    obtain ⟨i, hi⟩ := hu.exists_id hG
    exact ⟨i, At.id_unique hH (hσ i u hi) hy⟩
  · intro i j
    obtain ⟨u, hu⟩ := hG.exists_key i
    obtain ⟨v, hv⟩ := hG.exists_key j
    have h1 := hσ i u hu
    have h2 := hσ j v hv
    refine Option.ext fun w => ?_
    have hw := h.wedge u v w
    constructor
    · intro e
      obtain ⟨a, b, ha, hb, e'⟩ := hw.1 ⟨_, _, h1, h2, e⟩
      rwa [At.id_unique hG ha hu, At.id_unique hG hb hv] at e'
    · intro e
      obtain ⟨a, b, ha, hb, e'⟩ := hw.2 ⟨_, _, hu, hv, e⟩
      rwa [At.id_unique hH ha h1, At.id_unique hH hb h2] at e'

section ren
variable {m n : Nat} {β γ : Type} {σ : Fin n → Fin m} (hσ : Function.Bijective σ)
include hσ

theorem ren_reduce_min [LinearOrder β] {v : Vec n β} {v' : Vec m β} (h : Ren σ v v') :
    reduce min v' = reduce min v := by
  refine Option.ext fun c => ?_
  rw [reduce_min, reduce_min]
  constructor
  · rintro ⟨⟨x, hx⟩, hm⟩
    obtain ⟨i, rfl⟩ := hσ.2 x
    exact ⟨⟨i, by rw [← h i]; exact hx⟩, fun j a ha => hm (σ j) a (by rw [h j]; exact ha)⟩
  · rintro ⟨⟨i, hi⟩, hm⟩
    refine ⟨⟨σ i, by rw [h i]; exact hi⟩, fun x a ha => ?_⟩
    obtain ⟨j, rfl⟩ := hσ.2 x
    exact hm j a (by rw [← h j]; exact ha)

theorem ren_reduce_isSome {op : β → β → β} {v : Vec n β} {v' : Vec m β} (h : Ren σ v v') :
    (reduce op v').isSome = (reduce op v).isSome := by
  rw [Bool.eq_iff_iff, reduce_isSome, reduce_isSome]
  constructor
  · rintro ⟨x, hx⟩
    obtain ⟨i, rfl⟩ := hσ.2 x
    exact ⟨i, by rw [← h i]; exact hx⟩
  · rintro ⟨i, hi⟩
    exact ⟨σ i, by rw [h i]; exact hi⟩

theorem ren_nvals_zero {v : Vec n β} {v' : Vec m β} (h : Ren σ v v') : nvals v' = 0 ↔ nvals v = 0 := by
  rw [nvals_eq_zero, nvals_eq_zero]
  constructor
  · intro h0 i; rw [← h i]; exact h0 _
  · intro h0 x
    obtain ⟨i, rfl⟩ := hσ.2 x
    rw [h i]; exact h0 i

variable [AddCommGroup α] [LinearOrder α] {A : Mat n n α} {A' : Mat m m α} (hA : ∀ i j, A' (σ i) (σ j) = A i j)
include hA

omit [AddCommGroup α] [LinearOrder α] in
theorem ren_offdiag (i j : Fin n) : offdiag A' (σ i) (σ j) = offdiag A i j := by
  unfold offdiag
  simp only [hσ.1.eq_iff, hA]

theorem ren_relax (cut : Option α) {cur : Vec n α} {cur' : Vec m α} (h : Ren σ cur cur') :
    Ren σ (bfRelax A cut cur) (bfRelax A' cut cur') := by
  have h1 : Ren σ (vxm min (· + ·) cur A) (vxm min (· + ·) cur' A') := by
    intro j
    refine ren_reduce_min hσ fun i => ?_
    rw [h i, hA]
  intro j
  unfold bfRelax
  cases cut with
  | none => exact h1 j
  | some x =>
    show vselect _ _ _ = vselect _ _ _
    unfold vselect
    rw [h1 j]

theorem ren_round (cut : Option α) {d cur : Vec n α} {d' cur' : Vec m α} (hd : Ren σ d d') (h : Ren σ cur cur') :
    Ren σ (bfRound A cut d cur) (bfRound A' cut d' cur') := by
  intro j
  have hr := ren_relax hσ hA cut h j
  unfold bfRound bfMask vassignR vV vaccum vapply vmul
  simp only [hr, hd j]

theorem ren_loop (prune : Option (Fin n)) (k : Nat) : ∀ (cut : Option α) {d cur : Vec n α} {d' cur' : Vec m α},
    Ren σ d d' → Ren σ cur cur' →
    let a := bfLoop A prune k cut d cur
    let b := bfLoop A' (prune.map σ) k cut d' cur'
    Ren σ a.d b.d ∧ Ren σ a.cur b.cur ∧ b.cut = a.cut ∧ b.broke = a.broke := by
  induction k with
  | zero => intro cut d cur d' cur' hd hc; exact ⟨hd, hc, rfl, rfl⟩
  | succ k ih =>
    intro cut d cur d' cur' hd hc
    have hr := ren_round hσ hA cut hd hc
    simp only [bfLoop]
    by_cases h0 : nvals (bfRound A cut d cur) = 0
    · rw [if_pos h0, if_pos ((ren_nvals_zero hσ hr).2 h0)]
      exact ⟨hd, hr, rfl, rfl⟩
    · rw [if_neg h0, if_neg (fun x => h0 ((ren_nvals_zero hσ hr).1 x))]
      have hcut : bfNextCut (prune.map σ) cut (bfRound A' cut d' cur') = bfNextCut prune cut (bfRound A cut d cur) := by
        cases prune with
        | none => rfl
        | some t => show ((bfRound A' cut d' cur') (σ t)).or cut = _; rw [hr t]; rfl
      rw [hcut]
      refine ih _ ?_ hr
      intro i
      unfold vassign vS
      rw [hr i, hd i]

theorem ren_core (hmn : m = n) (s : Fin n) (t : Option (Fin n)) (cut : Option α) :
    (bfCore A' (σ s) (t.map σ) cut = .error .unbounded ∧ bfCore A s t cut = .error .unbounded) ∨
    ∃ d d', bfCore A' (σ s) (t.map σ) cut = .ok d' ∧ bfCore A s t cut = .ok d ∧ Ren σ d d' := by
  have hO := ren_offdiag hσ hA
  have hnegM : hasNegEdgesM A' = hasNegEdgesM A := by
    rw [Bool.eq_iff_iff, hasNegEdgesM_iff, hasNegEdgesM_iff]
    constructor
    · rintro ⟨x, y, a, e, ha⟩
      obtain ⟨i, rfl⟩ := hσ.2 x
      obtain ⟨j, rfl⟩ := hσ.2 y
      exact ⟨i, j, a, by rw [← hO]; exact e, ha⟩
    · rintro ⟨i, j, a, e, ha⟩
      exact ⟨σ i, σ j, a, by rw [hO]; exact e, ha⟩
  have h0 : Ren σ (vset vempty s 0 : Vec n α) (vset vempty (σ s) 0) := by
    intro i
    unfold vset vempty
    simp only [hσ.1.eq_iff]
  unfold bfCore
  simp only [hnegM]
  have hpr : (if hasNegEdgesM A then none else t.map σ : Option (Fin m)) =
      (if hasNegEdgesM A then none else t : Option (Fin n)).map σ := by split <;> rfl
  rw [hpr]
  generalize (if hasNegEdgesM A then none else t : Option (Fin n)) = prune
  obtain ⟨h1, h2, h3, h4⟩ := ren_loop hσ hO prune (n-1) cut h0 h0
  rw [show m - 1 = n - 1 by omega]
  generalize bfLoop (offdiag A) prune (n-1) cut (vset vempty s 0) (vset vempty s 0) = a at *
  generalize bfLoop (offdiag A') (prune.map σ) (n-1) cut (vset vempty (σ s) 0) (vset vempty (σ s) 0) = b at *
  have himp : Ren σ (bfImproved (offdiag A) a.cut a.d a.cur) (bfImproved (offdiag A') b.cut b.d b.cur) := by
    intro t
    unfold bfImproved vmul
    rw [h3, ren_relax hσ hO a.cut h2 t, h1 t]
  have htest : (reduce (· || ·) (bfImproved (offdiag A') b.cut b.d b.cur)).getD false =
      (reduce (· || ·) (bfImproved (offdiag A) a.cut a.d a.cur)).getD false := by
    rw [Bool.eq_iff_iff, reduce_or, reduce_or]
    constructor
    · rintro ⟨x, hx⟩
      obtain ⟨i, rfl⟩ := hσ.2 x
      exact ⟨i, by rw [← himp i]; exact hx⟩
    · rintro ⟨i, hi⟩
      exact ⟨σ i, by rw [himp i]; exact hi⟩
  have hdiag : (hasNegDiag A' && (dot any' pairB b.d (vselect (fun a => decide (a < 0)) (diagVec A'))).isSome) =
      (hasNegDiag A && (dot any' pairB a.d (vselect (fun a => decide (a < 0)) (diagVec A))).isSome) := by
    rw [Bool.eq_iff_iff, diagCheck_iff, diagCheck_iff]
    constructor
    · rintro ⟨x, w, e1, e2, e3⟩
      obtain ⟨i, rfl⟩ := hσ.2 x
      exact ⟨i, w, by rw [← h1 i]; exact e1, by rw [← hA]; exact e2, e3⟩
    · rintro ⟨i, w, e1, e2, e3⟩
      exact ⟨σ i, w, by rw [h1 i]; exact e1, by rw [hA]; exact e2, e3⟩
  cases t with
  | none =>
    simp only [Option.map_none, htest, hdiag, h4]
    split
    · exact .inl ⟨rfl, rfl⟩
    · split
      · exact .inl ⟨rfl, rfl⟩
      · exact .inr ⟨_, _, rfl, rfl, h1⟩
  | some t =>
    simp only [Option.map_some, himp t, hdiag, h4]
    split
    · exact .inl ⟨rfl, rfl⟩
    · split
      · exact .inl ⟨rfl, rfl⟩
      · exact .inr ⟨_, _, rfl, rfl, h1⟩

omit [AddCommGroup α] [LinearOrder α] in
theorem ren_bfsLoop (is : List Nat) : ∀ {v : Vec n Nat} {v' : Vec m Nat} {q : Vec n Bool} {q' : Vec m Bool},
    Ren σ v v' → Ren σ q q' → Ren σ (bfsLevelLoop A none is v q) (bfsLevelLoop A' none is v' q') := by
  induction is with
  | nil => intro v v' q q' hv _; exact hv
  | cons k is ih =>
    intro v v' q q' hv hq
    have hs : ∀ i, ((bfsStep A' v' q') (σ i)).isSome = ((bfsStep A v q) i).isSome := by
      intro i
      unfold bfsStep vassignR vnot vS
      rw [hv i]
      split
      · exact ren_reduce_isSome hσ fun j => by rw [hq j, hA]
      · rfl
    have hb : Ren σ (bfsStep A v q) (bfsStep A' v' q') := by
      have htrue : ∀ {k : Nat} {B : Mat k k α} {v : Vec k Nat} {q : Vec k Bool} {i x}, bfsStep B v q i = some x → x = true := by
        intro k B v q i x hx
        unfold bfsStep vassignR at hx
        split at hx
        · obtain ⟨j, hj⟩ := reduce_selective (f := any') (fun a b => .inl rfl) hx
          obtain ⟨_, _, _, _, rfl⟩ := ointer_eq_some.1 hj
          rfl
        · cases hx
      intro i
      have := hs i
      cases h1 : bfsStep A' v' q' (σ i) with
      | none =>
        cases h2 : bfsStep A v q i with
        | none => rfl
        | some y => rw [h1, h2] at this; cases this
      | some x =>
        cases h2 : bfsStep A v q i with
        | none => rw [h1, h2] at this; cases this
        | some y => rw [htrue h1, htrue h2]
    simp only [bfsLevelLoop, Option.any_none, Bool.false_eq_true, if_false]
    by_cases h0 : nvals (bfsStep A v q) = 0
    · rw [if_pos h0, if_pos ((ren_nvals_zero hσ hb).2 h0)]; exact hv
    · rw [if_neg h0, if_neg (fun x => h0 ((ren_nvals_zero hσ hb).1 x))]
      refine ih ?_ hb
      intro i
      unfold vassignC vS
      rw [hb i, hv i]

end ren


variable [AddCommGroup α] [LinearOrder α] [IsOrderedAddMonoid α]

/-- **C81.** `bellman_ford_path_length` of any graph, negative cycles or not -/
theorem relabel_bellman_ford_path_length_all (h : Relabels f G H) (hG : G.WF) (hH : H.WF)
    (hsym : G.directed = false → G.Symm) {iso : Option α} (hi : IsoValid G iso) (s t : K) :
    bellmanFordPathLength H iso (f s) (f t) = bellmanFordPathLength G iso s t := by
  by_cases hno : NegCycleFrom G.WEdge s
  swap
  · exact relabel_bellman_ford_path_length h hG hH hsym hi s t hno
  by_cases hst : G.Node s ∧ G.Node t
  swap
  · rw [bellman_ford_path_length_missing hG (by tauto),
      bellman_ford_path_length_missing hH (by rw [Relabel.node' h, Relabel.node' h]; tauto)]
  obtain ⟨σ, hσ, hat, hA⟩ := exists_renumbering h hG hH
  obtain ⟨i, his⟩ := hst.1.exists_id hG
  obtain ⟨j, hjt⟩ := hst.2.exists_id hG
  have hn : H.n = G.n := relabel_len h hG hH
  have hnegP : hasNegEdgesP G.A = true := by
    by_contra hc
    have hnn := hasNegEdgesP_false (by simpa using hc)
    obtain ⟨x, hr, k, c, hw, hc0⟩ := (negFrom_iff hG his).1 hno
    exact absurd (wwalk_nonneg hnn hw) (not_le.2 hc0)
  have hnegP' : hasNegEdgesP H.A = true := by
    obtain ⟨a, b, w, e, hw⟩ := hasNegEdgesP_iff.1 hnegP
    exact hasNegEdgesP_iff.2 ⟨σ a, σ b, w, by rw [hA]; exact e, hw⟩
  have hrow : Ren σ (G.A i) (H.A (σ i)) := fun x => hA i x
  have hrow0 : decide (nvals (H.A (σ i)) > 0) = decide (nvals (G.A i) > 0) := by
    have := ren_nvals_zero hσ hrow
    refine decide_eq_decide.2 ?_
    omega
  have hdir : H.directed = G.directed := h.directed
  unfold bellmanFordPathLength
  rw [(getId_eq_ok hG).2 his, (getId_eq_ok hG).2 hjt, (getId_eq_ok hH).2 (hat s i his), (getId_eq_ok hH).2 (hat t j hjt)]
  simp only [bind, Except.bind]
  rcases ren_core hσ hA hn i (some j) none with ⟨e1, e2⟩ | ⟨d, d', e1, e2, hd⟩
  · rw [Option.map_some] at e1
    simp only [e1, e2, hnegP, hnegP', hA, hdir, hrow0]
    cases iso <;> rfl
  · rw [Option.map_some] at e1
    simp only [e1, e2, hnegP, hnegP', hA, hdir, hrow0, hd j]
    cases iso <;> rfl


omit [IsOrderedAddMonoid α] [AddCommGroup α] [LinearOrder α] [DecidableEq K] [DecidableEq K'] in
theorem ren_view (hG : G.WF) (hH : H.WF) {σ : Fin G.n → Fin H.n} (h : Relabels f G H)
    (hat : ∀ u i, G.At u i → H.At (f u) (σ i)) {β : Type} {r : Vec G.n β} {r' : Vec H.n β} (hr : Ren σ r r') :
    ∀ [DecidableEq K] [DecidableEq K'], SameMap f G H r r' := by
  intro _ _ u
  apply Option.ext
  intro d
  show H.view r' (f u) = some d ↔ G.view r u = some d
  rw [view_eq_some hG, view_eq_some hH]
  constructor
  · rintro ⟨x, hx, e⟩
    obtain ⟨i, hi⟩ := ((Relabel.node' h).1 hx.node).exists_id hG
    refine ⟨i, hi, ?_⟩
    rw [← hr i, At.id_unique hH (hat u i hi) hx]; exact e
  · rintro ⟨i, hi, e⟩
    exact ⟨σ i, hat u i hi, by rw [hr i]; exact e⟩

omit [IsOrderedAddMonoid α] [AddCommGroup α] [LinearOrder α] in
/-- **C81.** `single_source_shortest_path_length` and `single_target_shortest_path_length`, any cutoff (negative ones
included) and any node -/
theorem relabel_bfs_level (h : Relabels f G H) (hG : G.WF) (hH : H.WF) (s : K) (c : Option Int) (tr : Bool) :
    Agree (SameMap f G H) (bfsLevel G s none c tr) (bfsLevel H (f s) none c tr) := by
  by_cases hs : G.Node s
  swap
  · have hs' : ¬ H.Node (f s) := fun h' => hs ((Relabel.node' h).1 h')
    refine Agree.errors (e := .keyError) ?_ ?_
    · unfold bfsLevel; rw [getId_eq_error hG hs]; rfl
    · unfold bfsLevel; rw [getId_eq_error hH hs']; rfl
  obtain ⟨σ, hσ, hat, hA⟩ := exists_renumbering h hG hH
  obtain ⟨i, his⟩ := hs.exists_id hG
  have hn : H.n = G.n := relabel_len h hG hH
  refine Agree.oks (a := bfsLevelFrom (bfsMatrix G tr) i none c) (b := bfsLevelFrom (bfsMatrix H tr) (σ i) none c) ?_ ?_ ?_
  · unfold bfsLevel; rw [(getId_eq_ok hG).2 his]; rfl
  · unfold bfsLevel; rw [(getId_eq_ok hH).2 (hat s i his)]; rfl
  refine ren_view hG hH h hat ?_
  have hM : ∀ a b, bfsMatrix H tr (σ a) (σ b) = bfsMatrix G tr a b := by
    intro a b
    unfold bfsMatrix
    rw [h.directed]
    split
    · exact ren_offdiag hσ hA b a
    · exact ren_offdiag hσ hA a b
  have h0 : ∀ {β : Type} (x : β), Ren σ (vset vempty i x) (vset vempty (σ i) x) := by
    intro β x j
    unfold vset vempty
    simp only [hσ.1.eq_iff]
  unfold bfsLevelFrom
  have hc : getCutoff H.n c = getCutoff G.n c := by rw [hn]
  rw [hc]
  exact ren_bfsLoop hσ hM _ (h0 0) (h0 true)

/-- **C81.** `single_source_bellman_ford_path_length` of any graph, for any node and any cutoff -/
theorem relabel_single_source_bellman_ford_all (h : Relabels f G H) (hG : G.WF) (hH : H.WF)
    (iso : Option α) (fdiv : α → α → Int) (s : K) (cutoff : Option α) :
    Agree (SameMap f G H) (singleSourceBF G iso fdiv s cutoff) (singleSourceBF H iso fdiv (f s) cutoff) := by
  by_cases hs : G.Node s
  swap
  · exact Agree.errors (single_source_bellman_ford_path_length_missing hG fdiv hs cutoff)
      (single_source_bellman_ford_path_length_missing hH fdiv (fun h' => hs ((Relabel.node' h).1 h')) cutoff)
  obtain ⟨σ, hσ, hat, hA⟩ := exists_renumbering h hG hH
  obtain ⟨i, his⟩ := hs.exists_id hG
  have hn : H.n = G.n := relabel_len h hG hH
  have hnegP : hasNegEdgesP H.A = hasNegEdgesP G.A := by
    rw [Bool.eq_iff_iff, hasNegEdgesP_iff, hasNegEdgesP_iff]
    constructor
    · rintro ⟨x, y, a, e, ha⟩
      obtain ⟨i, rfl⟩ := hσ.2 x
      obtain ⟨j, rfl⟩ := hσ.2 y
      exact ⟨i, j, a, by rw [← hA]; exact e, ha⟩
    · rintro ⟨i, j, a, e, ha⟩
      exact ⟨σ i, σ j, a, by rw [hA]; exact e, ha⟩
  have hrow : Ren σ (G.A i) (H.A (σ i)) := fun x => hA i x
  have hrow0 : decide (nvals (H.A (σ i)) > 0) = decide (nvals (G.A i) > 0) := by
    have := ren_nvals_zero hσ hrow
    refine decide_eq_decide.2 ?_
    omega
  have hcore : Agree (SameMap f G H) (bfCore G.A i none cutoff) (bfCore H.A (σ i) none cutoff) := by
    rcases ren_core hσ hA hn i none cutoff with ⟨e1, e2⟩ | ⟨d, d', e1, e2, hd⟩
    · exact Agree.errors e2 e1
    · exact Agree.oks e2 e1 (ren_view hG hH h hat hd)
  have hbfs : ∀ (c : α) (cut : Option Int), Agree (SameMap f G H)
      ((bfsLevel G s none cut) >>= fun d => (pure (vapply (fun l => l • c) d) : Except Err _))
      ((bfsLevel H (f s) none cut) >>= fun d => (pure (vapply (fun l => l • c) d) : Except Err _)) := by
    intro c cut
    have := relabel_bfs_level h hG hH s cut false
    revert this
    cases bfsLevel G s none cut <;> cases bfsLevel H (f s) none cut <;> intro this
    · exact this
    · exact this
    · exact this
    · intro u
      have hv : ∀ {K : Type} [DecidableEq K] {G : Graph K α} (d : Vec G.n Nat) (u : K),
          G.view (vapply (fun l => l • c) d) u = (G.view d u).map fun l => l • c := by
        intro K _ G d u
        unfold Graph.view vapply
        cases G.idOf u <;> rfl
      rw [hv, hv, this u]
  unfold singleSourceBF
  rw [(getId_eq_ok hG).2 his, (getId_eq_ok hH).2 (hat s i his)]
  cases iso with
  | none => exact hcore
  | some c =>
    simp only [bind, Except.bind, hnegP, hA, h.directed, hrow0]
    by_cases h1 : (!hasNegEdgesP G.A) = true
    · simp only [h1, if_true]
      cases cutoff with
      | none => exact hbfs c none
      | some x =>
        by_cases h0 : c = 0
        · simp only [h0, if_true]; exact Agree.errors rfl rfl
        · simp only [h0, if_false]; exact hbfs c _
    · simp only [h1, if_false]
      by_cases h2 : (G.A i i).isSome = true
      · simp only [h2, if_true]; exact Agree.errors rfl rfl
      · simp only [h2, if_false]
        by_cases h3 : (!G.directed && decide (nvals (G.A i) > 0)) = true
        · simp only [h3, if_true]; exact Agree.errors rfl rfl
        · simp only [h3, if_false]; exact hcore

end Props
