import Verif.Props.BellmanFordPath

/-!
# bellman_ford_path: what any returned list is (C30), for every weight type with a monotone addition
(exact or rounded)
-/

open GB Spec Model Model.Graph Proofs Proofs.Bfs Proofs.BF Proofs.BFP

namespace Props

variable {K α : Type} [DecidableEq K] [Zero α] [Add α] [LinearOrder α] [MonoAdd α]
  {G : Graph K α}

section core
omit [DecidableEq K]

variable {n : Nat} {A : Mat n n α} {S : Fin n → Prop}

omit [Zero α] [Add α] [LinearOrder α] [MonoAdd α] in
/-- the chase does not depend on the fuel left -/
theorem chase_unique {p : Vec n (Fin n)} {s : Fin n} : ∀ {f f' : Nat} {j : Fin n} {l l' : List (Fin n)},
    chaseParents p s f j = .ok l → chaseParents p s f' j = .ok l' → l = l' := by
  intro f
  induction f with
  | zero =>
    intro f' j l l' h h'
    unfold chaseParents at h h'
    by_cases hj : j = s
    · rw [if_pos hj] at h h'; cases h; cases h'; rfl
    · rw [if_neg hj] at h; cases h
  | succ f ih =>
    intro f' j l l' h h'
    unfold chaseParents at h h'
    by_cases hj : j = s
    · rw [if_pos hj] at h h'; cases h; cases h'; rfl
    · rw [if_neg hj] at h h'
      cases f' with
      | zero => cases h'
      | succ f' =>
        simp only at h h'
        cases hp : p j with
        | none => rw [hp] at h; cases h
        | some q =>
          rw [hp] at h h'
          simp only [bind, Except.bind, pure, Except.pure] at h h'
          cases hr : chaseParents p s f q with
          | error e => rw [hr] at h; cases h
          | ok r =>
            cases hr' : chaseParents p s f' q with
            | error e => rw [hr'] at h'; cases h'
            | ok r' =>
              rw [hr] at h; rw [hr'] at h'
              cases h; cases h'
              rw [ih hr hr']

omit [Zero α] [Add α] [LinearOrder α] [MonoAdd α] in
theorem chase_sound {p : Vec n (Fin n)} {s : Fin n} {E : Fin n → Fin n → Prop}
    (hE : ∀ j q, p j = some q → j ≠ s → E q j) : ∀ {f : Nat} {j : Fin n} {l : List (Fin n)},
    chaseParents p s f j = .ok l →
      l.head? = some j ∧ l.getLast? = some s ∧ l.IsChain (fun a b => E b a) ∧ l.Nodup ∧
      ∀ x ∈ l, ∃ f' l', chaseParents p s f' x = .ok l' ∧ l'.length ≤ l.length := by
  intro f
  induction f with
  | zero =>
    intro j l h
    unfold chaseParents at h
    by_cases hj : j = s
    · rw [if_pos hj] at h; cases h
      refine ⟨rfl, by simp [hj], by simp, by simp, ?_⟩
      intro x hx
      obtain rfl : x = j := by simpa using hx
      exact ⟨0, [x], by unfold chaseParents; rw [if_pos hj], le_rfl⟩
    · rw [if_neg hj] at h; cases h
  | succ f ih =>
    intro j l h
    have h0 := h
    unfold chaseParents at h
    by_cases hj : j = s
    · rw [if_pos hj] at h; cases h
      refine ⟨rfl, by simp [hj], by simp, by simp, ?_⟩
      intro x hx
      obtain rfl : x = j := by simpa using hx
      exact ⟨0, [x], by unfold chaseParents; rw [if_pos hj], le_rfl⟩
    · rw [if_neg hj] at h
      simp only at h
      cases hp : p j with
      | none => rw [hp] at h; cases h
      | some q =>
        rw [hp] at h
        simp only [bind, Except.bind, pure, Except.pure] at h
        cases hr : chaseParents p s f q with
        | error e => rw [hr] at h; cases h
        | ok r =>
          rw [hr] at h; cases h
          obtain ⟨h1, h2, h3, h4, h5⟩ := ih hr
          cases r with
          | nil => cases h1
          | cons y r =>
            cases h1
            refine ⟨rfl, by simpa using h2, ?_, ?_, ?_⟩
            · exact List.IsChain.cons_cons (hE j q hp hj) h3
            · refine List.nodup_cons.2 ⟨fun hmem => ?_, h4⟩
              obtain ⟨f', l', hl', hlen⟩ := h5 j hmem
              rw [← chase_unique h0 hl'] at hlen
              simp at hlen
            · intro x hx
              rcases List.mem_cons.1 hx with rfl | hx
              · exact ⟨f + 1, _, h0, le_rfl⟩
              · obtain ⟨f', l', hl', hlen⟩ := h5 x hx
                exact ⟨f', l', hl', by simp at hlen ⊢; omega⟩

omit [Zero α] [Add α] [LinearOrder α] [MonoAdd α] in
theorem reconstruct_sound {p : Vec n (Fin n)} {s t : Fin n} {E : Fin n → Fin n → Prop}
    (hE : ∀ j q, p j = some q → j ≠ s → E q j) {l : List (Fin n)} (h : reconstructPath p s t = .ok l) :
    (l = [] ∧ p t = none) ∨
    (l.head? = some s ∧ l.getLast? = some t ∧ l.IsChain E ∧ l.Nodup) := by
  unfold reconstructPath at h
  cases hp : p t with
  | none => rw [hp] at h; cases h; exact .inl ⟨rfl, rfl⟩
  | some q =>
    rw [hp] at h
    simp only [bind, Except.bind, pure, Except.pure] at h
    cases hr : chaseParents p s n t with
    | error e => rw [hr] at h; cases h
    | ok r =>
      rw [hr] at h; cases h
      obtain ⟨h1, h2, h3, h4, -⟩ := chase_sound hE hr
      right
      refine ⟨by rw [List.head?_reverse, h2], by rw [List.getLast?_reverse, h1], ?_, ?_⟩
      · rw [List.isChain_reverse]; exact h3
      · exact List.nodup_reverse.2 h4

/-- the target gets a value exactly when it is reachable, negative cycles or not -/
theorem target_found (A : Mat n n α) (s t : Fin n) :
    ((endState A s (if hasNegEdgesM A then none else some t) none).d t).isSome ↔ WReach (MW A) s t := by
  have hprune : Nonneg (offdiag A) ∨
      ((if hasNegEdgesM A then none else some t : Option (Fin n)) = none ∧ (none : Option α) = none) := by
    cases h : hasNegEdgesM A with
    | true => exact Or.inr ⟨rfl, rfl⟩
    | false => exact Or.inl (hasNegEdgesM_false h)
  generalize hpr : (if hasNegEdgesM A then none else some t : Option (Fin n)) = prune at *
  obtain ⟨k, hk, hinv, hp, hbr, hnb⟩ := end_spec A s prune none hprune
  refine ⟨fun hd => sound_reach hinv hd, fun hr => ?_⟩
  rw [← wreach_offLoop, ← mw_offdiag'] at hr
  obtain ⟨m, c, hw⟩ := hr
  by_contra hd
  have hcut : (endState A s prune none).cut = none := by
    cases prune with
    | none => exact hp
    | some t' =>
      have : t' = t := by
        split at hpr
        · cases hpr
        · cases hpr; rfl
      subst this
      rcases hp with hp | ⟨hp1, hp2⟩
      · exact hp
      · rw [hp2] at hd; exact absurd hp1 hd
  rw [hcut] at hinv hbr hnb
  have hle : ∃ c', LeW (MW (offdiag A)) (· = s) k c' t := by
    cases hb : (endState A s prune none).broke with
    | true =>
      obtain ⟨c', -, h'⟩ := stableC_all (Or.inr rfl) (hbr hb) ⟨m, le_rfl, s, rfl, hw⟩ (ok_none _)
      exact ⟨c', h'⟩
    | false => obtain ⟨rfl, -⟩ := hnb hb; exact leW_of_any ⟨m, le_rfl, s, rfl, hw⟩
  obtain ⟨c', hc'⟩ := hle
  obtain ⟨b, -, hb⟩ := best_exists (mw_fin _) hc'
  rw [hinv.best t b hb (ok_none _)] at hd
  exact hd rfl

theorem path_core_sound (A : Mat n n α) (s t : Fin n) {l : List (Fin n)} (h : bfPathCore A s t = .ok l) :
    (l = [] ∧ ¬ WReach (MW A) s t) ∨
    (l.head? = some s ∧ l.getLast? = some t ∧ l.IsChain (Adj A) ∧ l.Nodup) := by
  have hf := target_found A s t
  unfold bfPathCore at h
  simp only at h
  generalize hpr : (if hasNegEdgesM A then none else some t : Option (Fin n)) = prune at *
  obtain ⟨k', prev', r', hk', hP⟩ := pinv_loop (cut := none) prune (n-1) (pinv_init (offdiag A) s)
  have est : bfLoop (offdiag A) prune (n-1) none (vset vempty s 0) (vset vempty s 0) =
    endState A s prune none := rfl
  rw [← est, ← bfPathLoop_fst (p := vset vempty s s)] at hf
  generalize bfPathLoop (offdiag A) prune (n-1) none (vset vempty s 0) (vset vempty s 0)
    (vset vempty s s) = res at *
  obtain ⟨st, p⟩ := res
  simp only at *
  split at h
  · cases h
  have hE : ∀ j q, p j = some q → j ≠ s → Adj A q j := by
    intro j q hq hj
    obtain ⟨c, hc⟩ := Option.isSome_iff_exists.1 ((hP.pat j).1 (by rw [hq]; rfl))
    rcases hP.par j c hc with ⟨h1, -⟩ | ⟨i, a, c1, c1', h1, h2, -⟩
    · exact absurd h1 hj
    · rw [hq] at h1; cases h1
      have : MW (offdiag A) q j a := h2
      rw [mw_offdiag] at this
      unfold Adj
      have h3 : A q j = some a := this.2
      rw [h3]; rfl
  cases hr : reconstructPath p s t with
  | error e => rw [hr] at h; cases h
  | ok l' =>
    rw [hr] at h
    have hl : l' = l := by
      simp only [bind, Except.bind, pure, Except.pure] at h
      split at h
      · cases hb : bfPathDiag A t l' (if st.broke = true then st.cur else bfRelax (offdiag A) st.cut st.cur) with
        | error e => rw [hb] at h; cases h
        | ok u => rw [hb] at h; cases h; rfl
      · cases h; rfl
    subst hl
    rcases reconstruct_sound hE hr with ⟨h1, h2⟩ | h1
    · left
      refine ⟨h1, fun hc => ?_⟩
      have := (hP.pat t).2 (hf.2 hc)
      rw [h2] at this; cases this
    · exact .inr h1

end core

omit [DecidableEq K] [Zero α] [Add α] [LinearOrder α] [MonoAdd α] in
/-- a simple path of row indices, read as one of keys -/
theorem simple_keys (h : G.WF) {s t : K} {i j} (hi : G.At s i) (hj : G.At t j)
    {l : List (Fin G.n)} {ks : List K} (hf : List.Forall₂ (fun i u => G.At u i) l ks)
    (hp : l.head? = some i ∧ l.getLast? = some j ∧ l.IsChain (Adj G.A) ∧ l.Nodup) :
    ks.head? = some s ∧ ks.getLast? = some t ∧ ks.IsChain G.Edge ∧ ks.Nodup := by
  obtain ⟨h1, h2, h3, h4⟩ := hp
  refine ⟨?_, ?_, ?_, ?_⟩
  · cases hf with
    | nil => cases h1
    | cons ha _ =>
      simp only [List.head?_cons, Option.some.injEq] at h1 ⊢
      subst h1; exact At.key_unique h ha hi
  · have hr := List.rel_reverse hf
    rw [← List.head?_reverse] at h2 ⊢
    generalize l.reverse = l' at hr h2
    generalize ks.reverse = ks' at hr ⊢
    cases hr with
    | nil => cases h2
    | cons ha _ =>
      simp only [List.head?_cons, Option.some.injEq] at h2 ⊢
      subst h2; exact At.key_unique h ha hj
  · clear h1 h2 h4
    induction hf with
    | nil => simp
    | @cons x u l ks ha hf ih =>
      cases hf with
      | nil => simp
      | @cons y v l ks hb hf =>
        rw [List.isChain_cons_cons] at h3 ⊢
        exact ⟨⟨x, y, ha, hb, h3.1⟩, ih h3.2⟩
  · clear h1 h2 h3
    induction hf with
    | nil => simp
    | @cons x u l ks ha hf ih =>
      rw [List.nodup_cons] at h4 ⊢
      refine ⟨fun hmem => h4.1 ?_, ih h4.2⟩
      clear ih h4
      induction hf with
      | nil => cases hmem
      | @cons y v l ks hb hf ih' =>
        rcases List.mem_cons.1 hmem with rfl | hm
        · rw [At.id_unique h ha hb]; exact List.mem_cons_self ..
        · exact List.mem_cons_of_mem _ (ih' hm)

/-- **C30, any graph, negative cycles or not.**  Whatever list `bellman_ford_path(G, s, t)` returns is either empty --
and then `t` cannot be reached -- or a path from `s` to `t` along edges of the graph that repeats no node. -/
theorem bellman_ford_path_sound (h : G.WF) {iso : Option α} {s t : K} (hs : G.Node s) (ht : G.Node t)
    {l : List K} (hl : bellmanFordPath G iso s t = .ok l) :
    (l = [] ∧ ¬ WReach G.WEdge s t) ∨
    (l.head? = some s ∧ l.getLast? = some t ∧ l.IsChain G.Edge ∧ l.Nodup) := by
  obtain ⟨i, hi⟩ := hs.exists_id h
  obtain ⟨j, hj⟩ := ht.exists_id h
  unfold bellmanFordPath at hl
  rw [(getId_eq_ok h).2 hi, (getId_eq_ok h).2 hj] at hl
  simp only [bind, Except.bind] at hl
  cases hr : bfPathIds G iso s t i j with
  | error e => rw [hr] at hl; cases hl
  | ok l' =>
    rw [hr] at hl
    simp only at hl
    obtain ⟨ks, hk1, hk2⟩ := mapM_keys h l'
    obtain rfl : ks = l := Except.ok.inj (hk1.symm.trans hl)
    have fin : ((l' = [] ∧ ¬ WReach (MW G.A) i j) ∨
        (l'.head? = some i ∧ l'.getLast? = some j ∧ l'.IsChain (Adj G.A) ∧ l'.Nodup)) →
        (ks = [] ∧ ¬ WReach G.WEdge s t) ∨
        (ks.head? = some s ∧ ks.getLast? = some t ∧ ks.IsChain G.Edge ∧ ks.Nodup) := by
      rintro (⟨rfl, h2⟩ | h2)
      · cases hk2
        exact .inl ⟨rfl, by rwa [wreach_iff' h hi hj]⟩
      · exact .inr (simple_keys h hi hj hk2 h2)
    apply fin
    cases iso with
    | none => exact path_core_sound G.A i j hr
    | some c =>
      unfold bfPathIds at hr
      simp only at hr
      split at hr
      swap
      · cases hr
      have hinit : ∀ x, (vset (vempty : Vec G.n (Fin G.n)) i i x).isSome ↔
          IsDist (Adj (offdiag G.A)) i 0 x := by
        intro x; rw [vset_isSome, isDist_iff_from, distFrom_zero]
      obtain ⟨L, hst, hp⟩ := parentLoop_spec (A := offdiag G.A) (s := i) (some j) (G.n - 1) 0
        (parent_init _ i) hinit (by
          intro x p hp
          unfold vset vempty at hp
          split at hp
          · cases hp; simp_all
          · cases hp)
      have hb : bfsParent G s (some t) = .ok (bfsParentLoop (offdiag G.A) (some j)
          (List.range' (0+1) (G.n - 1)) (vset vempty i i) (vset vempty i i)) := by
        unfold bfsParent
        rw [(getId_eq_ok h).2 hi]
        simp only [bind, Except.bind]
        rw [(getId_eq_ok h).2 hj]
        show Except.ok (bfsParentLoop (bfsMatrix G false) _ (range1 (getCutoff G.n none)) _ _) = _
        unfold range1 getCutoff
        rw [Int.toNat_natCast]
        rfl
      rw [hb] at hr
      simp only [bind, Except.bind] at hr
      generalize bfsParentLoop (offdiag G.A) (some j)
          (List.range' (0+1) (G.n - 1)) (vset vempty i i) (vset vempty i i) = p at *
      have hE : ∀ x q, p x = some q → x ≠ i → Adj G.A q x := by
        intro x q hq hx
        obtain ⟨d, -, -, he⟩ := hp.par x q hq hx
        rw [adj_offdiag] at he
        exact he.2
      rcases reconstruct_sound hE hr with ⟨h1, h2⟩ | h1
      · left
        refine ⟨h1, ?_⟩
        rintro ⟨k, x, hw⟩
        obtain ⟨d, -, hd⟩ := exists_dist (walk_mw.2 ⟨x, hw⟩)
        have hd' : IsDist (Adj (offdiag G.A)) i d j := by
          rw [isDist_congr (adj_offdiag G.A), isDist_offLoop]; exact hd
        have hlt := dist_lt_card hd'
        rw [Fintype.card_fin] at hlt
        have := (hp.pat j).2 ⟨d, hst.complete (j := j) (Or.inr rfl) (by omega) (isDist_iff_from.1 hd'), hd'⟩
        rw [h2] at this; cases this
      · exact .inr h1

end Props
