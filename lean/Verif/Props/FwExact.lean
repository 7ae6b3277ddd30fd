import Verif.Props.FloydWarshall
import Mathlib.Data.Fintype.Prod

/-!
# Floyd-Warshall on undirected graphs: C33, C34

What the code does where C33 and C34 fail: the distances returned next to the predecessors are right
for every graph; the predecessor matrix of an undirected graph is symmetric, so it is wrong for at
least one pair of every graph with positive weights and an edge; `floyd_warshall_numpy` with a
nodelist is right for undirected graphs whenever the list keeps the order of the two ends of every
edge.
-/

open GB Spec Model Model.Graph Proofs Proofs.Bfs Proofs.BF Proofs.FW

namespace Props

section
variable {α : Type} {n : Nat} [AddCommGroup α] [LinearOrder α]

theorem improveU_some {Outer D : Mat n n α} {a b : Fin n} {c : α} (hD : Upper D) :
    fwImprove false Outer D a b = some c ↔
      a < b ∧ Outer a b = some c ∧ (D a b = none ∨ ∃ x, D a b = some x ∧ c < x) := by
  unfold fwImprove
  by_cases hab : a < b
  · cases Outer a b with
    | none => simp
    | some o =>
      cases D a b with
      | none => simp [hab]
      | some x =>
        by_cases hlt : o < x
        · simp only [omerge, ointer, second, Option.map_some, hlt, decide_true]
          constructor
          · intro e; cases e; exact ⟨hab, rfl, Or.inr ⟨x, rfl, hlt⟩⟩
          · rintro ⟨-, ⟨⟩, -⟩; rfl
        · simp only [omerge, ointer, second, Option.map_some, hlt, decide_false]
          constructor
          · intro e; cases e
          · rintro ⟨-, ⟨⟩, h⟩
            rcases h with h | ⟨y, ⟨⟩, h⟩
            · cases h
            · exact absurd h hlt
  · rw [hD a b hab]
    cases Outer a b <;> simp [hab]

/-- `(D, P)` after some rounds on an undirected graph -/
structure UInv (D : Mat n n α) (P : Mat n n (Fin n)) : Prop where
  upperD : Upper D
  upperP : ∀ a b, ¬ a < b → P a b = none

theorem stepPU {D : Mat n n α} {P : Mat n n (Fin n)} (h : UInv D P) (choose chooseP) (i : Fin n) :
    (fwStepP false choose chooseP (D, P) i).1 = fwStep false choose D i ∧
    UInv (fwStepP false choose chooseP (D, P) i).1 (fwStepP false choose chooseP (D, P) i).2 := by
  have e1 : (fwStepP false choose chooseP (D, P) i).1 = fwStep false choose D i := by
    funext a b
    simp only [fwStepP, fwStep, Bool.false_eq_true, if_false, madd]
    cases hi : fwImprove false (fwOuterU choose D i) D a b with
    | some c =>
      rw [massign_some hi, hi]
      obtain ⟨hab, h1, h2⟩ := (improveU_some h.upperD).1 hi
      simp only [triu1, hab, if_true, h1]
      rcases h2 with h3 | ⟨x, hx, hlt⟩
      · rw [h3]; rfl
      · rw [hx]; simp [min_eq_right hlt.le]
    | none =>
      rw [massign_none hi]
      unfold triu1
      split
      · rename_i hab
        cases ho : fwOuterU choose D i a b with
        | none => simp
        | some o =>
          cases hx : D a b with
          | none => rw [(improveU_some h.upperD).2 ⟨hab, ho, Or.inl hx⟩] at hi; cases hi
          | some x =>
            have : ¬ o < x := fun hlt => by
              rw [(improveU_some h.upperD).2 ⟨hab, ho, Or.inr ⟨x, hx, hlt⟩⟩] at hi; cases hi
            simp [min_eq_left (not_lt.1 this)]
      · simp
  refine ⟨e1, ?_, ?_⟩
  · rw [e1]; exact (stepU h.upperD choose i).1
  · intro a b hab
    simp only [fwStepP, Bool.false_eq_true, if_false]
    cases hi : fwImprove false (fwOuterU choose D i) D a b with
    | some c => exact absurd ((improveU_some h.upperD).1 hi).1 hab
    | none => rw [massign_none hi]; exact h.upperP a b hab

theorem loopPU {D : Mat n n α} {P : Mat n n (Fin n)} (h : UInv D P) (choose chooseP)
    (l : List (Fin n)) :
    (l.foldl (fwStepP false choose chooseP) (D, P)).1 = l.foldl (fwStep false choose) D ∧
    UInv (l.foldl (fwStepP false choose chooseP) (D, P)).1
      (l.foldl (fwStepP false choose chooseP) (D, P)).2 := by
  induction l generalizing D P with
  | nil => exact ⟨rfl, h⟩
  | cons x l ih =>
    obtain ⟨h1, h2⟩ := stepPU h choose chooseP x
    simp only [List.foldl_cons]
    obtain ⟨h3, h4⟩ := ih h2
    refine ⟨?_, h4⟩
    rw [← h1]; exact h3

omit [AddCommGroup α] [LinearOrder α] in
theorem uinv_start (A : Mat n n α) :
    UInv (triu1 A) (fun a b => (triu1 A a b).map fun _ => a) :=
  ⟨upper_triu1 A, fun a b hab => by simp [triu1, hab]⟩

theorem fwPred_undirected_symm (choose chooseP) (A : Mat n n α) (a b : Fin n) :
    (fwPred false choose chooseP A).1 a b = (fwPred false choose chooseP A).1 b a := by
  simp only [fwPred, fwStart, Bool.false_eq_true, if_false]
  have h := (loopPU (uinv_start A) choose chooseP ((List.finRange n).filter (fwNonempty false A))).2.upperP
  have e := merge_upper h chooseP
  show omerge chooseP _ _ = omerge chooseP _ _
  unfold transpose
  rw [e a b, e b a]
  rcases lt_trichotomy a b with hab | rfl | hab
  · rw [if_pos hab, if_neg hab.not_gt, if_pos hab]
  · rfl
  · rw [if_neg hab.not_gt, if_pos hab, if_pos hab]

theorem stepP_diag {D : Mat n n α} {P : Mat n n (Fin n)} (hd : ∀ u, D u u = none) (choose chooseP)
    (i : Fin n) : (fwStepP true choose chooseP (D, P) i).1 = fwStep true choose D i ∧
      ∀ u, fwStep true choose D i u u = none := by
  refine ⟨?_, fun u => by simp [fwStep, madd, offdiag, hd]⟩
  funext a b
  simp only [fwStepP, fwStep, if_true, madd]
  cases hi : fwImprove true (fwOuter D i) D a b with
  | some c =>
    rw [massign_some hi, hi]
    obtain ⟨h1, h2⟩ := improve_some.1 hi
    have hab : a ≠ b := by
      rcases h2 with ⟨-, h⟩ | ⟨x, hx, -⟩
      · exact h
      · rintro rfl; rw [hd a] at hx; cases hx
    simp only [offdiag, hab, if_false, h1]
    rcases h2 with ⟨h3, -⟩ | ⟨x, hx, hlt⟩
    · rw [h3]; rfl
    · rw [hx]; simp [min_eq_right hlt.le]
  | none =>
    rw [massign_none hi]
    unfold offdiag
    split
    · simp
    · rename_i hab
      cases ho : fwOuter D i a b with
      | none => simp
      | some o =>
        cases hx : D a b with
        | none => rw [improve_some.2 ⟨ho, Or.inl ⟨hx, hab⟩⟩] at hi; cases hi
        | some x =>
          have : ¬ o < x := fun hlt => by
            rw [improve_some.2 ⟨ho, Or.inr ⟨x, hx, hlt⟩⟩] at hi; cases hi
          simp [min_eq_left (not_lt.1 this)]

theorem loopP_diag {D : Mat n n α} {P : Mat n n (Fin n)} (hd : ∀ u, D u u = none) (choose chooseP)
    (l : List (Fin n)) :
    (l.foldl (fwStepP true choose chooseP) (D, P)).1 = l.foldl (fwStep true choose) D := by
  induction l generalizing D P with
  | nil => rfl
  | cons x l ih =>
    obtain ⟨h1, h2⟩ := stepP_diag (P := P) hd choose chooseP x
    simp only [List.foldl_cons]
    rw [← Prod.eta (fwStepP true choose chooseP (D, P) x), h1]
    exact ih h2

end

variable {K α : Type} [DecidableEq K] [AddCommGroup α] [LinearOrder α] {G : Graph K α}

omit [DecidableEq K] in
/-- **C33 (distances).** The distances `floyd_warshall_predecessor_and_distance(G)` returns are those
of `floyd_warshall(G)`: every graph, directed or not, negative cycles or not. -/
theorem floyd_warshall_predecessor_distances (choose chooseP) :
    (fwPred G.directed choose chooseP G.A).2 = fwDist G.directed choose G.A := by
  cases hd : G.directed with
  | true =>
    simp only [fwPred, fwStart, if_true, fwDist]
    rw [loopP_diag (by simp [offdiag])]
    rfl
  | false =>
    simp only [fwPred, fwStart, Bool.false_eq_true, if_false, fwDist]
    rw [(loopPU (uinv_start G.A) choose chooseP _).1]
    rfl

/-- **C33, what the code returns.** For every undirected graph the reported predecessor of `v` on a
shortest path from `u` is also the reported predecessor of `u` on a shortest path from `v`. -/
theorem floyd_warshall_predecessor_undirected_symmetric (h : G.WF) (hd : G.directed = false)
    (choose chooseP) (u v : K) :
    viewPred G (fwPred G.directed choose chooseP G.A).1 u v =
      viewPred G (fwPred G.directed choose chooseP G.A).1 v u := by
  rw [hd]
  have : G.view2 (fwPred false choose chooseP G.A).1 u v =
      G.view2 (fwPred false choose chooseP G.A).1 v u := by
    apply Option.ext
    intro b
    rw [view2_eq_some h, view2_eq_some h]
    constructor
    · rintro ⟨i, j, hi, hj, e⟩; exact ⟨j, i, hj, hi, (fwPred_undirected_symm ..).symm.trans e⟩
    · rintro ⟨i, j, hi, hj, e⟩; exact ⟨j, i, hj, hi, (fwPred_undirected_symm ..).symm.trans e⟩
  unfold viewPred
  rw [this]

/-- `p` is a node from which a shortest path from `u` enters `v` -/
def Spec.IsPred {V : Type} {α : Type} [Zero α] [Add α] [LE α] (W : V → V → α → Prop) (u v p : V) : Prop :=
  ∃ c c1 w, IsWDist W u c v ∧ IsWDist W u c1 p ∧ W p v w ∧ c1 + w = c

/-- **C33 is false of the code for every undirected graph** whose weights are positive and which has
an edge between two different nodes: for some reachable pair `u ≠ v` the reported value is not the
predecessor of `v` on any shortest path from `u`. -/
theorem floyd_warshall_predecessor_undirected_always_wrong [IsOrderedAddMonoid α] (h : G.WF) (hd : G.directed = false)
    (hs : G.Symm) (hpos : ∀ u v w, G.WEdge u v w → 0 < w) (he : ∃ u v, u ≠ v ∧ G.Edge u v)
    (choose chooseP) :
    ∃ u v, u ≠ v ∧ WReach G.WEdge u v ∧ ∀ p,
      viewPred G (fwPred G.directed choose chooseP G.A).1 u v = some p → ¬ Spec.IsPred G.WEdge u v p := by
  -- the lightest edge between different nodes
  have hw : ∃ u v w, u ≠ v ∧ G.WEdge u v w ∧ ∀ u' v' w', u' ≠ v' → G.WEdge u' v' w' → w ≤ w' := by
    classical
    obtain ⟨u, v, huv, i, j, hi, hj, hij⟩ := he
    let S : Finset (Fin G.n × Fin G.n) := Finset.univ.filter fun p => p.1 ≠ p.2 ∧ (G.A p.1 p.2).isSome
    have hne : S.Nonempty := ⟨(i, j), by
      simp only [S, Finset.mem_filter, Finset.mem_univ, true_and]
      exact ⟨fun e => huv (At.key_unique h hi (by rw [show i = j from e]; exact hj)), hij⟩⟩
    obtain ⟨q, hq, hm⟩ := S.exists_min_image (fun p => (G.A p.1 p.2).getD 0) hne
    simp only [S, Finset.mem_filter, Finset.mem_univ, true_and] at hq hm
    obtain ⟨a, ha⟩ := h.exists_key q.1
    obtain ⟨b, hb⟩ := h.exists_key q.2
    obtain ⟨w, hw⟩ := Option.isSome_iff_exists.1 hq.2
    refine ⟨a, b, w, fun e => hq.1 (At.id_unique h ha (by rw [e]; exact hb)),
      ⟨_, _, ha, hb, hw⟩, ?_⟩
    rintro u' v' w' hne' ⟨i', j', hi', hj', e'⟩
    have := hm (i', j') ⟨fun e => hne' (At.key_unique h hi' (by rw [show i' = j' from e]; exact hj')),
      by rw [e']; rfl⟩
    simpa [hw, e'] using this
  obtain ⟨u, v, w, huv, e, hmin⟩ := hw
  -- walks weigh at least 0, and at least `w` unless closed
  have hwalk : ∀ {k c a b}, WWalk G.WEdge k c a b → 0 ≤ c ∧ (a ≠ b → w ≤ c) := by
    intro k c a b hk
    induction hk with
    | nil => exact ⟨le_rfl, fun h => absurd rfl h⟩
    | @snoc k c x a y z hk' e' ih =>
      have h0 := hpos _ _ _ e'
      refine ⟨add_nonneg ih.1 h0.le, fun hne => ?_⟩
      by_cases hay : a = y
      · subst hay
        exact le_add_of_nonneg_of_le ih.1 (hmin _ _ _ hne e')
      · exact le_add_of_le_of_nonneg (ih.2 hay) h0.le
  have hdist : ∀ {a b}, a ≠ b → G.WEdge a b w → IsWDist G.WEdge a w b := fun hne e' =>
    ⟨⟨1, .single e'⟩, fun k c hk => (hwalk hk).2 hne⟩
  have huniq : ∀ {a b p}, a ≠ b → G.WEdge a b w → Spec.IsPred G.WEdge a b p → p = a := by
    rintro a b p hne e' ⟨c, c1, w', h1, ⟨⟨k, hk⟩, -⟩, h3, rfl⟩
    by_contra hpa
    have h4 : c1 + w' ≤ w := h1.2 1 w (.single e')
    have h5 := (hwalk hk).2 (Ne.symm hpa)
    have h6 := hpos _ _ _ h3
    exact absurd (lt_of_lt_of_le (lt_add_of_le_of_pos h5 h6) h4) (lt_irrefl _)
  have e2 : G.WEdge v u w := by
    obtain ⟨i, j, hi, hj, hij⟩ := e
    exact ⟨j, i, hj, hi, (hs j i).trans hij⟩
  by_contra hcon
  push Not at hcon
  obtain ⟨p, hp1, hp2⟩ := hcon u v huv ⟨1, w, .single e⟩
  obtain ⟨q, hq1, hq2⟩ := hcon v u huv.symm ⟨1, w, .single e2⟩
  rw [floyd_warshall_predecessor_undirected_symmetric h hd, hq1, huniq huv e hp2, huniq huv.symm e2 hq2] at hp1
  exact huv (Option.some.inj hp1).symm

-- the hypotheses hold for the path 0 - 1 of the witness theorem and for the undirected example graph
example : Ex.oneEdge.WF ∧ Ex.oneEdge.Symm ∧ ∃ u v, u ≠ v ∧ Ex.oneEdge.Edge u v :=
  ⟨⟨by decide, by decide⟩, by unfold Graph.Symm; decide, 0, 1, by decide, by decide +kernel⟩

/-- **C34 (undirected graphs).** `floyd_warshall_numpy(G, nodelist)` is right for an undirected graph
whenever the two ends of every edge appear in the nodelist in the order they have in the graph.
Missing: other orders, for which it is false in general (`floyd_warshall_numpy_nodelist_undirected_wrong`). -/
theorem floyd_warshall_numpy_nodelist_undirected_partial [IsOrderedAddMonoid α] (h : G.WF) (hd : G.directed = false)
    (hs : G.Symm) (hno : ∀ u, G.Node u → ¬ NegCycleAt G.WEdge u) (choose : α → α → α)
    {l : List K} (hl : l.Perm (G.keyToId.map Prod.fst))
    (hord : ∀ (p q : Nat) u v i j, l[p]? = some u → l[q]? = some v → G.Edge u v → G.At u i → G.At v j →
      p < q → i < j) :
    ∃ D, floydWarshallNumpy G choose (some l) = .ok D ∧
      ∀ (p q : Fin G.n) (u v : K), l[p.val]? = some u → l[q.val]? = some v →
        ∀ d, D p q = some d ↔ IsWDist G.WEdge u d v := by
  have hnd : l.Nodup := hl.nodup_iff.2 h.keys_nodup
  have hlen : l.length = G.n := by
    rw [hl.length_eq, List.length_map, ← List.length_map (f := Prod.snd), h.ids_perm.length_eq]
    simp
  have hnode : ∀ u ∈ l, G.Node u := fun u hu => hl.mem_iff.1 hu
  obtain ⟨ids, hids, hF⟩ := listToIds_ok h hnode
  have hilen : ids.length = G.n := by rw [← hF.length_eq, hlen]
  unfold floydWarshallNumpy
  simp only
  rw [if_neg (by
    rw [not_not]
    exact ⟨hlen, by rw [hnd.dedup, hlen]; rfl⟩), hids]
  simp only [bind, Except.bind]
  rw [dif_pos hilen]
  refine ⟨_, rfl, ?_⟩
  set perm : Fin G.n → Fin G.n := fun i => ids.get ⟨i, by omega⟩ with hperm
  have hat : ∀ i : Fin G.n, G.At (l.get ⟨i, by omega⟩) (perm i) := fun i =>
    (List.forall₂_iff_get.1 hF).2 i (by omega) (by omega)
  have hget : ∀ i : Fin G.n, l[i.val]? = some (l.get ⟨i, by omega⟩) := fun i => by
    rw [List.get_eq_getElem]; exact List.getElem?_eq_getElem _
  have hinj : Function.Injective perm := by
    intro a b hab
    have h1 := hat a
    rw [hab] at h1
    have := At.key_unique h h1 (hat b)
    have := List.nodup_iff_injective_get.1 hnd this
    simpa [Fin.ext_iff] using this
  have hbij : Function.Bijective perm := Finite.injective_iff_bijective.1 hinj
  intro p q u v hu hv d
  have hpu : G.At u (perm p) := by
    have h1 := hat p
    rw [hget p] at hu
    rw [Option.some.inj hu] at h1; exact h1
  have hqv : G.At v (perm q) := by
    have h1 := hat q
    rw [hget q] at hv
    rw [Option.some.inj hv] at h1; exact h1
  rw [isWDist_iff h hpu hqv, ← wdist_perm hbij]
  have hmono : ∀ a b, (G.A (perm a) (perm b)).isSome → a < b → perm a < perm b := fun a b hab hlt =>
    hord a b _ _ _ _ (hget a) (hget b) ⟨_, _, hat a, hat b, hab⟩ (hat a) (hat b) hlt
  have hnoB : ∀ x, ¬ NegCycleAt (MW (extract G.A perm perm)) x := by
    rintro x ⟨k, c, hw, hc⟩
    have : ∀ {k c x y}, WWalk (MW (extract G.A perm perm)) k c x y → WWalk (MW G.A) k c (perm x) (perm y) := by
      intro k c x y hw
      induction hw with
      | nil => exact .nil _
      | snoc _ e ih => exact ih.snoc e
    exact no_neg_cycle h hno _ ⟨k, c, this hw, hc⟩
  rw [← dist_spec (A := extract G.A perm perm) false (fun _ i j => hs _ _) hnoB choose, hd]
  have e1 : extract (triu1 G.A) perm perm = triu1 (extract G.A perm perm) := by
    funext a b
    simp only [extract, triu1]
    rcases lt_trichotomy a b with hab | rfl | hab
    · rw [if_pos hab]
      split
      · rfl
      · rename_i hn
        cases hx : G.A (perm a) (perm b) with
        | none => rfl
        | some x => exact absurd (hmono a b (by rw [hx]; rfl) hab) hn
    · simp
    · rw [if_neg hab.not_gt]
      split
      · rename_i hn
        cases hx : G.A (perm a) (perm b) with
        | none => rfl
        | some x => exact absurd (hmono b a (by rw [hs, hx]; rfl) hab) hn.not_gt
      · rfl
  have e2 : (fun i => fwNonempty false G.A (perm i)) = fwNonempty false (extract G.A perm perm) := by
    funext i
    have key : nvals (offdiag G.A (perm i)) ≠ 0 ↔ nvals (offdiag (extract G.A perm perm) i) ≠ 0 := by
      rw [← Nat.pos_iff_ne_zero, ← Nat.pos_iff_ne_zero, nvals_pos, nvals_pos]
      constructor
      · rintro ⟨j, hj⟩
        obtain ⟨j, rfl⟩ := hbij.2 j
        exact ⟨j, by simpa [offdiag, extract, hinj.eq_iff] using hj⟩
      · rintro ⟨j, hj⟩
        exact ⟨perm j, by simpa [offdiag, extract, hinj.eq_iff] using hj⟩
    simp only [fwNonempty, Bool.false_eq_true, if_false, decide_eq_decide]
    exact key
  have e3 : fwDistPerm false choose G.A perm = fwDist false choose (extract G.A perm perm) := by
    simp only [fwDistPerm, fwDist, fwStart, Bool.false_eq_true, if_false]
    rw [e1, e2]
  rw [e3]

-- a reordering that keeps the order along every edge: the star 0-1, 0-2 listed as [0, 2, 1]
private def Ex.star : Graph Nat Int where
  n := 3
  A := Ex.ofTriples 3 [(0,1,1),(1,0,1),(0,2,4),(2,0,4)]
  keyToId := [(0,0),(1,1),(2,2)]
example : ∃ D, floydWarshallNumpy Ex.star (fun a _ => a) (some [0,2,1]) = .ok D ∧
    entries D = [[some 0, some 4, some 1], [some 4, some 0, some 5], [some 1, some 5, some 0]] := by
  refine ⟨_, rfl, ?_⟩; decide +kernel
example : Ex.star.WF ∧ Ex.star.Symm ∧ [0,2,1].Perm (Ex.star.keyToId.map Prod.fst) ∧
    (∀ (p q : Nat) u v i j, [0,2,1][p]? = some u → [0,2,1][q]? = some v → Ex.star.Edge u v → Ex.star.At u i →
      Ex.star.At v j → p < q → i < j) ∧ ∀ u v w, Ex.star.WEdge u v w → 0 < w := by
  have hwf : Ex.star.WF := ⟨by decide, by decide⟩
  have a0 : Ex.star.At 0 (0 : Fin 3) := by unfold Graph.At; decide
  have a1 : Ex.star.At 1 (1 : Fin 3) := by unfold Graph.At; decide
  have a2 : Ex.star.At 2 (2 : Fin 3) := by unfold Graph.At; decide
  refine ⟨hwf, by unfold Graph.Symm; decide, by decide, ?_, ?_⟩
  · intro p q u v i j hp hq he hi hj hlt
    have hq3 : q < 3 := (List.getElem?_eq_some_iff.1 hq).1
    have h3 : (p = 0 ∧ q = 1) ∨ (p = 0 ∧ q = 2) ∨ (p = 1 ∧ q = 2) := by omega
    rcases h3 with ⟨rfl, rfl⟩ | ⟨rfl, rfl⟩ | ⟨rfl, rfl⟩ <;> cases hp <;> cases hq
    · rw [At.id_unique hwf hi a0, At.id_unique hwf hj a2]; decide
    · rw [At.id_unique hwf hi a0, At.id_unique hwf hj a1]; decide
    · exact absurd he (by decide +kernel)
  · rintro u v w ⟨i, j, -, -, e⟩
    have key : ∀ i j, ∀ w ∈ Ex.star.A i j, (0 : Int) < w := by decide +kernel
    exact key i j w e

end Props
