import Verif.Proofs.CapWalk
import Verif.Props.BfExact

/-!
# C114: `single_source_bellman_ford_path_length(G, source, cutoff=x)` with weights of any sign

The cutoff is applied to every partial sum.  With negative edges that is not the same as keeping the distances that
are at most `x`: the result is about the walks whose running total never exceeds `x` (`Spec.CapWalk`).
-/

open GB Spec Model Model.Graph Proofs Proofs.BF Proofs.Cap

namespace Props

variable {K α : Type} [DecidableEq K] [AddCommGroup α] [LinearOrder α] [IsOrderedAddMonoid α]
  {G : Graph K α}

omit [IsOrderedAddMonoid α] [DecidableEq K] in
theorem capWalk_iff (h : G.WF) {u v : K} {i j} (hu : G.At u i) (hv : G.At v j) {k : Nat} {x c : α} :
    CapWalk G.WEdge x k c u v ↔ CapWalk (MW G.A) x k c i j :=
  transport (R := G.At) (fun _ _ _ h1 h2 => At.key_unique h h1 h2) (fun _ _ _ h1 h2 => At.id_unique h h1 h2)
    (fun i => h.exists_key i) (fun _ _ _ => Iff.rfl) hu hv

omit [IsOrderedAddMonoid α] [DecidableEq K] in
theorem capDist_iff (h : G.WF) {u v : K} {i j} (hu : G.At u i) (hv : G.At v j) {x d : α} :
    IsCapDist G.WEdge x u d v ↔ IsCapDist (MW G.A) x i d j := by
  simp only [IsCapDist, capWalk_iff h hu hv]

omit [IsOrderedAddMonoid α] [DecidableEq K] in
theorem capUnbounded_iff (h : G.WF) {u : K} {i} (hu : G.At u i) {x : α} :
    CapUnbounded G.WEdge x u ↔ CapUnbounded (MW G.A) x i := by
  constructor
  · rintro ⟨v, ⟨k, c, hw⟩, hno⟩
    obtain ⟨j, hj⟩ := (WWalk_node hu.node (toWalk hw)).exists_id h
    refine ⟨j, ⟨k, c, (capWalk_iff h hu hj).1 hw⟩, ?_⟩
    simpa only [← capDist_iff h hu hj] using hno
  · rintro ⟨j, ⟨k, c, hw⟩, hno⟩
    obtain ⟨v, hv⟩ := h.exists_key j
    refine ⟨v, ⟨k, c, (capWalk_iff h hu hv).2 hw⟩, ?_⟩
    simpa only [capDist_iff h hu hv] using hno

/-- specification of Python's `int(x // c)` for positive `c` and any `x` -/
def FloorDivNeg (fdiv : α → α → Int) : Prop := FloorDiv fdiv ∧ ∀ x c, 0 < c → x < 0 → fdiv x c < 0

section core
omit [DecidableEq K]
variable {n : Nat}

omit [AddCommGroup α] [LinearOrder α] [IsOrderedAddMonoid α] in
/-- without edges the level search finds the source only -/
theorem level_no_edges (A : Mat n n α) (hA : ∀ i j, A i j = none) (i : Fin n) (z : Option Int) (j : Fin n) (l : Nat) :
    bfsLevelFrom A i none z j = some l ↔ j = i ∧ l = 0 := by
  have hset : (vset vempty i 0 : Vec n Nat) j = some l ↔ j = i ∧ l = 0 := by
    unfold vset vempty
    split
    · rename_i h; simp [h, eq_comm]
    · rename_i h; simp [h]
  by_cases hz : ∃ y, z = some y ∧ y < 0
  · obtain ⟨y, rfl, hy⟩ := hz
    rw [level_negative _ _ hy, hset]
  · have hz' : ∀ y, z = some y → 0 ≤ y := by
      intro y hy
      by_contra hlt
      exact hz ⟨y, hy, by omega⟩
    rw [Proofs.Bfs.levelFrom_spec A i z hz']
    have hw : ∀ {k v}, Walk (Adj A) k i v → k = 0 ∧ i = v := by
      intro k v h
      cases h with
      | nil => exact ⟨rfl, rfl⟩
      | snoc _ e => simp [Adj, hA] at e
    constructor
    · rintro ⟨⟨h1, -⟩, -⟩
      obtain ⟨rfl, rfl⟩ := hw h1
      exact ⟨rfl, rfl⟩
    · rintro ⟨rfl, rfl⟩
      exact ⟨⟨.nil _, fun k _ => Nat.zero_le k⟩, fun y hy => hz' y hy⟩

end core

/-- **C114.**  For weights of any sign and every cutoff `x`: Unbounded is raised exactly if some node can be reached
without exceeding `x` but has no least total of doing so, or the source has a negative self-loop, or all edges have the
same negative weight in an undirected graph in which the source has an edge.  Otherwise the result holds, for exactly
the nodes that can be reached without the running total ever exceeding `x`, the least such total. -/
theorem single_source_bellman_ford_path_length_cutoff_exact (h : G.WF) {iso : Option α}
    (hiso : IsoValid G iso) (h0 : iso = some 0 → ∃ u v w, G.WEdge u v w ∧ w < 0) {fdiv : α → α → Int}
    (hf : FloorDivNeg fdiv) {s : K} (hs : G.Node s) (x : α) :
    let P := CapUnbounded G.WEdge x s ∨ (∃ a, G.WEdge s s a ∧ a < 0) ∨
      (iso.isSome ∧ G.directed = false ∧ (∃ u v w, G.WEdge u v w ∧ w < 0) ∧ ∃ v, G.Edge s v)
    (P ∧ singleSourceBF G iso fdiv s (some x) = .error .unbounded) ∨
    (¬ P ∧ ∃ r, singleSourceBF G iso fdiv s (some x) = .ok r ∧
      ∀ u d, G.view r u = some d ↔ IsCapDist G.WEdge x s d u) := by
  intro P
  obtain ⟨i, hi⟩ := hs.exists_id h
  have hself : (∃ a, G.WEdge s s a ∧ a < 0) ↔ ∃ a, G.A i i = some a ∧ a < 0 := by
    constructor
    · rintro ⟨a, ⟨j, j', hj, hj', e⟩, ha⟩
      obtain rfl := At.id_unique h hj hi
      obtain rfl := At.id_unique h hj' hi
      exact ⟨a, e, ha⟩
    · rintro ⟨a, e, ha⟩; exact ⟨a, ⟨i, i, hi, hi, e⟩, ha⟩
  have hneg : (∃ u v w, G.WEdge u v w ∧ w < 0) ↔ hasNegEdgesP G.A = true := by
    rw [hasNegEdgesP_iff]
    constructor
    · rintro ⟨u, v, w, ⟨a, b, _, _, e⟩, hw⟩; exact ⟨a, b, w, e, hw⟩
    · rintro ⟨a, b, w, e, hw⟩
      obtain ⟨u, hu⟩ := h.exists_key a
      obtain ⟨v, hv⟩ := h.exists_key b
      exact ⟨u, v, w, ⟨a, b, hu, hv, e⟩, hw⟩
  have hedge : (∃ v, G.Edge s v) ↔ nvals (G.A i) > 0 := by
    rw [gt_iff_lt, Nat.pos_iff_ne_zero, ne_eq, nvals_eq_zero]
    constructor
    · rintro ⟨v, a, b, ha, hb, e⟩ h0
      obtain rfl := At.id_unique h ha hi
      rw [h0 b] at e; cases e
    · intro h0
      push Not at h0
      obtain ⟨b, hb⟩ := h0
      obtain ⟨v, hv⟩ := h.exists_key b
      exact ⟨v, i, b, hi, hv, by cases hx : G.A i b <;> simp_all⟩
  have hview : ∀ (d : Vec G.n α), (∀ j c, d j = some c ↔ IsCapDist (MW G.A) x i c j) →
      ∀ u y, G.view d u = some y ↔ IsCapDist G.WEdge x s y u := by
    intro d hd u y
    rw [view_eq_some h]
    constructor
    · rintro ⟨j, hj, e⟩; exact (capDist_iff h hi hj).2 ((hd j y).1 e)
    · intro e
      obtain ⟨k, hk⟩ := e.1
      obtain ⟨j, hj⟩ := (WWalk_node hs (toWalk hk)).exists_id h
      exact ⟨j, hj, (hd j y).2 ((capDist_iff h hi hj).1 e)⟩
  have hP : P ↔ (CapUnbounded (MW G.A) x i ∨ ∃ a, G.A i i = some a ∧ a < 0) ∨
      (iso.isSome ∧ G.directed = false ∧ hasNegEdgesP G.A = true ∧ nvals (G.A i) > 0) := by
    show _ ∨ _ ∨ _ ↔ _
    rw [capUnbounded_iff h hi, hself, hneg, hedge, or_assoc]
  have core : ¬ (iso.isSome ∧ G.directed = false ∧ hasNegEdgesP G.A = true ∧ nvals (G.A i) > 0) →
      ∀ r, r = bfCore G.A i none (some x) →
      (P ∧ r = .error .unbounded) ∨
      (¬ P ∧ ∃ d, r = .ok d ∧ ∀ u y, G.view d u = some y ↔ IsCapDist G.WEdge x s y u) := by
    rintro hno r rfl
    have hP' : P ↔ CapUnbounded (MW G.A) x i ∨ ∃ a, G.A i i = some a ∧ a < 0 := by
      rw [hP]; exact ⟨fun h => h.elim id fun h' => absurd h' hno, .inl⟩
    rw [hP']
    rcases core_cap G.A i x with h1 | ⟨h1, d, h2, h3⟩
    · exact .inl h1
    · exact .inr ⟨h1, d, h2, hview d h3⟩
  unfold singleSourceBF
  rw [(getId_eq_ok h).2 hi]
  simp only [bind, Except.bind]
  cases iso with
  | none => exact core (by simp) _ rfl
  | some c =>
    have hc := iso_mw h hiso rfl
    by_cases hnegP : hasNegEdgesP G.A = true
    · simp only [hnegP, Bool.not_true, Bool.false_eq_true, if_false]
      by_cases hl : (G.A i i).isSome
      · left
        rw [if_pos hl]
        refine ⟨hP.2 (.inl (.inr ?_)), rfl⟩
        obtain ⟨a, ha⟩ := Option.isSome_iff_exists.1 hl
        obtain ⟨y, z, w, e, hw⟩ := hasNegEdgesP_iff.1 hnegP
        exact ⟨a, ha, by rw [hc i i a ha, ← hc y z w e]; exact hw⟩
      · rw [if_neg hl]
        by_cases hu : G.directed = false ∧ nvals (G.A i) > 0
        · left
          rw [if_pos (by simp [hu.1, hu.2])]
          exact ⟨hP.2 (.inr ⟨rfl, hu.1, hnegP, hu.2⟩), rfl⟩
        · rw [if_neg (by
            simp only [Bool.and_eq_true, Bool.not_eq_true', decide_eq_true_eq]; exact hu)]
          exact core (fun hx => hu ⟨hx.2.1, hx.2.2.2⟩) _ rfl
    · have hA : Nonneg G.A := hasNegEdgesP_false (by simpa using hnegP)
      have hc0 : c ≠ 0 := by
        rintro rfl; exact hnegP (hneg.1 (h0 rfl))
      have hPn : ¬ P := by
        rw [hP]
        rintro ((hx | ⟨a, e, ha⟩) | hx)
        · exact nonneg_bounded G.A hA i x hx
        · exact absurd (hA _ _ _ e) (not_le.2 ha)
        · exact hnegP hx.2.2.1
      right
      refine ⟨hPn, ?_⟩
      have hnegP' : hasNegEdgesP G.A = false := by simpa using hnegP
      simp only [hnegP', Bool.not_false, if_true, hc0, if_false, pure, Except.pure]
      rw [Proofs.Bfs.bfsLevel_ok h hi]
      refine ⟨_, rfl, hview _ ?_⟩
      intro j y
      rw [vapply, Option.map_eq_some_iff]
      rcases lt_or_gt_of_ne hc0 with hneg | hpos
      · -- no edges at all
        have hnone : ∀ a b, G.A a b = none := by
          intro a b
          by_contra hne
          obtain ⟨w, e⟩ := Option.ne_none_iff_exists'.1 hne
          have := hA a b w e
          rw [hc a b w e] at this
          exact absurd this (not_le.2 hneg)
        have hoff : ∀ a b, bfsMatrix G false a b = none := by
          intro a b
          have := Proofs.Bfs.adj_bfsMatrix_false (G := G) a b
          by_contra hne
          obtain ⟨w, e⟩ := Option.ne_none_iff_exists'.1 hne
          have h1 := this.1 (by simp [Adj, e])
          have h2 : (G.A a b).isSome := h1.2
          simp [hnone] at h2
        simp only [level_no_edges _ hoff]
        constructor
        · rintro ⟨l, ⟨rfl, rfl⟩, rfl⟩
          refine ⟨⟨0, by simpa using CapWalk.nil _⟩, fun k c' hw => ?_⟩
          cases hw with
          | nil => simp
          | snoc _ e _ => have e' : G.A _ _ = some _ := e; rw [hnone] at e'; cases e'
        · rintro ⟨⟨k, hw⟩, -⟩
          cases hw with
          | nil => exact ⟨0, ⟨rfl, rfl⟩, by simp⟩
          | snoc _ e _ => have e' : G.A _ _ = some _ := e; rw [hnone] at e'; cases e'
      · rcases le_or_gt 0 x with hx | hx
        · obtain ⟨hfn, hfl⟩ := hf.1 x c hpos hx
          rw [nonneg_dist (W := MW G.A) hA hx, iso_dist hc hA]
          simp only [Proofs.Bfs.levelFrom_spec _ _ (some (fdiv x c)) (by intro z hz; cases hz; exact hfn),
            isDist_congr Proofs.Bfs.adj_bfsMatrix_false, isDist_offLoop]
          constructor
          · rintro ⟨l, ⟨h1, h2⟩, rfl⟩
            exact ⟨⟨l, h1, rfl⟩, (hfl l).1 (h2 _ rfl)⟩
          · rintro ⟨⟨l, h1, rfl⟩, h2⟩
            exact ⟨l, ⟨h1, fun z hz => by cases hz; exact (hfl l).2 h2⟩, rfl⟩
        · rw [nonneg_neg (W := MW G.A) hA hx, level_negative _ _ (hf.2 x c hpos hx)]
          have hset : ∀ l, (vset vempty i 0 : Vec G.n Nat) j = some l ↔ j = i ∧ l = 0 := by
            intro l
            unfold vset vempty
            split
            · rename_i h; simp [h, eq_comm]
            · rename_i h; simp [h]
          simp only [hset]
          constructor
          · rintro ⟨l, ⟨rfl, rfl⟩, rfl⟩; exact ⟨rfl, by simp⟩
          · rintro ⟨rfl, rfl⟩; exact ⟨0, ⟨rfl, rfl⟩, by simp⟩

/-- **C114 for cutoffs `x ≥ 0`.**  Unbounded exactly if some node can be reached without exceeding `x` but has no
least total of doing so; otherwise the least such totals. -/
theorem single_source_bellman_ford_path_length_cutoff_nonneg (h : G.WF) (hsym : G.directed = false → G.Symm)
    {iso : Option α} (hiso : IsoValid G iso) (h0 : iso = some 0 → ∃ u v w, G.WEdge u v w ∧ w < 0)
    {fdiv : α → α → Int} (hf : FloorDivNeg fdiv) {s : K} (hs : G.Node s) {x : α} (hx : 0 ≤ x) :
    (CapUnbounded G.WEdge x s ∧ singleSourceBF G iso fdiv s (some x) = .error .unbounded) ∨
    (¬ CapUnbounded G.WEdge x s ∧ ∃ r, singleSourceBF G iso fdiv s (some x) = .ok r ∧
      ∀ u d, G.view r u = some d ↔ IsCapDist G.WEdge x s d u) := by
  have hle : ∀ {k c u}, CapWalk G.WEdge x k c s u → c ≤ x := by
    intro k c u hw
    cases k with
    | zero => rw [(zero_iff.1 hw).1]; exact hx
    | succ k => exact le_of_succ hw
  rcases single_source_bellman_ford_path_length_cutoff_exact h hiso h0 hf hs x with ⟨hP, e⟩ | ⟨hP, e⟩
  · refine .inl ⟨?_, e⟩
    rcases hP with hP | ⟨a, ha, hlt⟩ | ⟨hi, hd, ⟨u, v, w, hw, hlt⟩, t, ht⟩
    · exact hP
    · refine ⟨s, ⟨0, 0, .nil s⟩, ?_⟩
      rintro ⟨d, ⟨k, hw⟩, hmin⟩
      have h1 : d + a < d := by simpa using add_lt_add_right hlt d
      exact absurd (hmin _ _ (hw.snoc ha (h1.le.trans (hle hw)))) (not_le.2 h1)
    · obtain ⟨c, rfl⟩ := Option.isSome_iff_exists.1 hi
      have hc : c < 0 := by rw [← hiso c rfl u v w hw]; exact hlt
      obtain ⟨i, j, hi', hj', e⟩ := ht
      obtain ⟨a, ha⟩ := Option.isSome_iff_exists.1 e
      have e1 : G.WEdge s t a := ⟨i, j, hi', hj', ha⟩
      obtain rfl := hiso c rfl s t a e1
      have e2 : G.WEdge t s a := by
        refine ⟨j, i, hj', hi', ?_⟩
        rw [← hsym hd i j]; exact ha
      refine ⟨s, ⟨0, 0, .nil s⟩, ?_⟩
      rintro ⟨d, ⟨k, hw⟩, hmin⟩
      have h1 : d + a < d := by simpa using add_lt_add_right hc d
      have h2 : d + a + a < d + a := by simpa using add_lt_add_right hc (d + a)
      have hw1 := hw.snoc e1 (h1.le.trans (hle hw))
      exact absurd (hmin _ _ (hw1.snoc e2 (h2.le.trans (hle hw1)))) (not_le.2 (h2.trans h1))
  · exact .inr ⟨fun hx' => hP (.inl hx'), e⟩

/-- **C114.** Unbounded under a cutoff `x ≥ 0` always comes from a negative cycle in reach (the converse fails: the
cutoff can keep the search away from the cycle, see below). -/
theorem capUnbounded_negCycle (h : G.WF) {s : K} (hs : G.Node s) {x : α} (hu : CapUnbounded G.WEdge x s) :
    NegCycleFrom G.WEdge s := by
  obtain ⟨i, hi⟩ := hs.exists_id h
  rw [negFrom_iff h hi]
  by_contra hno
  obtain ⟨j, ⟨m, c, hw⟩, hd⟩ := (capUnbounded_iff h hi).1 hu
  -- without a negative cycle, a walk with n edges or more can be shortened to a capped walk that is no heavier
  have key : ∀ k c v, CapWalk (MW G.A) x k c i v → ∃ c', c' ≤ c ∧ CLe (MW G.A) x i (G.n - 1) c' v := by
    intro k
    induction k using Nat.strong_induction_on with
    | _ k ih =>
      intro c v hw
      by_cases hk : k ≤ G.n - 1
      · exact ⟨c, le_rfl, k, hk, hw⟩
      obtain ⟨f, g, h0, hg0, hfk, hgk, hs⟩ := seq hw
      obtain ⟨a, b, hab, hb, hf⟩ := pigeon (f := f) (k := k) (by rw [Fintype.card_fin]; omega)
      have hg : g a ≤ g b := by
        by_contra hlt
        rw [not_le] at hlt
        refine hno ⟨f a, ?_, b - a, g b - g a, ?_, by simpa using hlt⟩
        · have := extend (f := f) (g := g) (a := 0) (b := a) (m := 0) (c := 0) (u := i) (x := x) (W := MW G.A)
            (by omega) (fun j _ h2 => hs j (by omega)) (h0 ▸ .nil _) (by rw [hg0])
          exact ⟨_, _, toWalk this⟩
        · have : ∀ t, a ≤ t → t ≤ b → WWalk (MW G.A) (t - a) (g t - g a) (f a) (f t) := by
            intro t hat
            induction t, hat using Nat.le_induction with
            | base => intro _; simpa using WWalk.nil _
            | succ t hat iht =>
              intro htb
              have := (iht (by omega)).snoc (hs t (by omega)).1
              rw [show g t - g a + (g (t+1) - g t) = g (t+1) - g a by abel] at this
              rwa [Nat.succ_sub hat]
          have := this b hab.le le_rfl
          rwa [← hf] at this
      obtain ⟨c', h1, h2⟩ := shortcut h0 hg0 hs hab.le hb hf hg
      rw [hfk] at h2
      obtain ⟨c'', h3, h4⟩ := ih _ (by omega) c' v h2
      exact ⟨c'', h3.trans (h1.trans_eq hgk), h4⟩
  obtain ⟨c', -, h'⟩ := key m c j hw
  obtain ⟨b, -, hb⟩ := cbest_exists (mw_fin G.A) h'
  obtain ⟨m', -, hm'⟩ := id hb.1
  refine hd ⟨b, ⟨m', hm'⟩, fun k c hw => ?_⟩
  obtain ⟨c'', h1, h2⟩ := key k c j hw
  exact (hb.2 _ h2).trans h1

/-- **C114.** iso weight 0 with a cutoff: `cutoff // 0` raises ZeroDivisionError -/
theorem single_source_bellman_ford_path_length_cutoff_zero (h : G.WF) {fdiv : α → α → Int}
    (hnn : ∀ u v w, G.WEdge u v w → 0 ≤ w) {s : K} (hs : G.Node s) (x : α) :
    singleSourceBF G (some 0) fdiv s (some x) = .error .zeroDivision := by
  obtain ⟨i, hi⟩ := hs.exists_id h
  have hP : hasNegEdgesP G.A = false := by
    rw [← Bool.not_eq_true, hasNegEdgesP_iff]
    rintro ⟨a, b, w, hw, hlt⟩
    obtain ⟨u, hu⟩ := h.exists_key a
    obtain ⟨v, hv⟩ := h.exists_key b
    exact absurd (hnn u v w ⟨a, b, hu, hv, hw⟩) (not_le.2 hlt)
  unfold singleSourceBF
  rw [(getId_eq_ok h).2 hi]
  simp [bind, Except.bind, hP]

theorem int_floorDivNeg : FloorDivNeg (α := ℤ) (fun x c => x / c) :=
  ⟨int_floorDiv, fun _ _ hc hx => Int.ediv_neg_of_neg_of_pos hx hc⟩

/-! ### the hypotheses are met, and the cutoff is not what one expects -/

/-- 0 → 1 of weight 5, 1 → 2 of weight -4, 0 → 3 of weight 1, and beyond the cutoff 1 → 4 → 1 of weight -1 -/
def Ex.capped : Graph Nat Int where
  n := 5
  A := Ex.ofTriples 5 [(0,1,5), (1,2,-4), (0,3,1), (1,4,1), (4,1,-2)]
  keyToId := [(0,0),(1,1),(2,2),(3,3),(4,4)]
  directed := true

/-- **C114, finding.** With `cutoff=2`, node 2 is missing although its distance without the negative cycle would be 1,
and the negative cycle through 1 and 4 is not noticed; with `cutoff=6` it is. -/
theorem single_source_bellman_ford_cutoff_hides :
    Ex.capped.WF ∧ WWalk Ex.capped.WEdge 2 1 0 2 ∧ NegCycleFrom Ex.capped.WEdge 0 ∧
    (∃ r, singleSourceBF Ex.capped none (fun x c => x / c) 0 (some 2) = .ok r ∧
      [0,1,2,3,4].map (Ex.capped.view r) = [some 0, none, none, some 1, none]) ∧
    singleSourceBF Ex.capped none (fun x c => x / c) 0 (some 6) = .error .unbounded ∧
    CapUnbounded Ex.capped.WEdge 6 0 ∧ ¬ CapUnbounded Ex.capped.WEdge 2 0 := by
  have hw : Ex.capped.WF := ⟨by decide, by decide⟩
  have e01 : Ex.capped.WEdge 0 1 5 := by decide +kernel
  have e12 : Ex.capped.WEdge 1 2 (-4) := by decide +kernel
  have e14 : Ex.capped.WEdge 1 4 1 := by decide +kernel
  have e41 : Ex.capped.WEdge 4 1 (-2) := by decide +kernel
  have hs : Ex.capped.Node 0 := by decide
  have b2 : ∃ r, singleSourceBF Ex.capped none (fun x c => x / c) 0 (some 2) = .ok r ∧
      [0,1,2,3,4].map (Ex.capped.view r) = [some 0, none, none, some 1, none] := by
    refine ⟨_, rfl, ?_⟩; decide +kernel
  have b6 : singleSourceBF Ex.capped none (fun x c => x / c) 0 (some 6) = .error .unbounded := by decide +kernel
  refine ⟨hw, (WWalk.single e01).snoc e12, ⟨1, ⟨1, 5, .single e01⟩, 2, 1 + -2, (WWalk.single e14).snoc e41, by decide⟩,
    b2, b6, ?_, ?_⟩
  · rcases single_source_bellman_ford_path_length_cutoff_nonneg hw (fun hd => by cases hd) (iso := none) (by intro c hc; cases hc)
      (by intro hc; cases hc) int_floorDivNeg hs (x := 6) (by decide) with ⟨hx, -⟩ | ⟨-, r, hr, -⟩
    · exact hx
    · rw [b6] at hr; cases hr
  · rcases single_source_bellman_ford_path_length_cutoff_nonneg hw (fun hd => by cases hd) (iso := none) (by intro c hc; cases hc)
      (by intro hc; cases hc) int_floorDivNeg hs (x := 2) (by decide) with ⟨-, hx⟩ | ⟨hx, -⟩
    · obtain ⟨r, hr, -⟩ := b2
      rw [hr] at hx; cases hx
    · exact hx

end Props
