import Verif.Props.BfPathSound
import Verif.Props.BellmanFordPath
import Verif.Props.BfExact

/-!
# C30: what bellman_ford_path returns on every graph

* every list it returns is a simple path along edges of the graph, negative cycles or not;
* when no negative cycle is reachable the result is given exactly: a shortest path, unless the graph
  has a negative self-loop somewhere else and a node of the path found has a self-loop (of any weight);
* iso-valued graphs of a negative weight are always rejected.
-/

open GB Spec Model Model.Graph Proofs Proofs.Bfs Proofs.BF Proofs.BFP

namespace Props

variable {K α : Type} [DecidableEq K] [AddCommGroup α] [LinearOrder α] [IsOrderedAddMonoid α]
  {G : Graph K α}

section core
omit [DecidableEq K]
variable {n : Nat} {A : Mat n n α} {S : Fin n → Prop}

/-- once nothing improves, the next round is empty -/
theorem round_empty {k : Nat} {cut : Option α} {d cur : Vec n α} (h : Inv A S k cut d cur)
    (hst : ∀ c v, LeW (MW A) S (k+1) c v → ∃ c', c' ≤ c ∧ LeW (MW A) S k c' v) :
    nvals (bfRound A cut d cur) = 0 := by
  rw [nvals_eq_zero]
  intro j
  by_contra hc
  obtain ⟨c, hc⟩ := Option.ne_none_iff_exists'.1 hc
  obtain ⟨h1, h2⟩ := bfRound_some.1 hc
  obtain ⟨c', hc', hw⟩ := hst c j (relax_sound h h1)
  obtain ⟨b, hb, hbest⟩ := best_exists (mw_fin A) hw
  have hok : Ok cut b := (relax_mem h1).2.le (hb.trans hc')
  exact absurd (h2 b (h.best j b hbest hok)) (not_lt.2 (hb.trans hc'))

/-- the loop ends by `break` if nothing improves after `k0` rounds and there are more rounds than that -/
theorem loop_breaks (prune : Option (Fin n)) (k0 : Nat)
    (hst : ∀ c v, LeW (MW A) S (k0+1) c v → ∃ c', c' ≤ c ∧ LeW (MW A) S k0 c' v)
    (hnn : Nonneg A ∨ prune = none) (m : Nat) {k cut d cur}
    (h : Inv A S k cut d cur) (hcut : Nonneg A ∨ cut = none) (hk : k ≤ k0) (hm : k0 < k + m) :
    (bfLoop A prune m cut d cur).broke = true := by
  induction m generalizing k cut d cur with
  | zero => omega
  | succ m ih =>
    unfold bfLoop
    simp only
    split
    · rfl
    · rename_i hne
      have hlt : k < k0 := by
        rcases Nat.lt_or_ge k k0 with hlt | hge
        · exact hlt
        · obtain rfl : k = k0 := by omega
          exact absurd (round_empty h hst) hne
      have hs := step h hcut
      have hok : ∀ c, Ok (bfNextCut prune cut (bfRound A cut d cur)) c → Ok cut c := by
        intro c hc
        unfold bfNextCut at hc
        cases prune with
        | none => exact hc
        | some t =>
          simp only at hc
          cases hr : bfRound A cut d cur t with
          | none => rw [hr] at hc; simpa using hc
          | some y =>
            rw [hr] at hc
            exact (relax_mem (bfRound_some.1 hr).1).2.le (hc y rfl)
      refine ih (hs.tighten hok) ?_ (by omega) (by omega)
      rcases hnn with hnn | rfl
      · exact .inl hnn
      · rcases hcut with hc | rfl
        · exact .inl hc
        · exact .inr rfl

/-- a node that cannot be reached: best walks have at most `n - 2` edges -/
theorem stable_of_unreachable {W : Fin n → Fin n → α → Prop} {s x : Fin n} (hno : ¬ NegCycleFrom W s)
    (hx : ¬ WReach W s x) :
    2 ≤ n ∧ ∀ c v, LeW W (· = s) (n - 2 + 1) c v → ∃ c', c' ≤ c ∧ LeW W (· = s) (n - 2) c' v := by
  classical
  let V := {y : Fin n // WReach W s y}
  let W' : V → V → α → Prop := fun a b w => W a.1 b.1 w
  have hs : WReach W s s := ⟨0, 0, .nil s⟩
  have hcard : Fintype.card V < n := by
    have := Fintype.card_subtype_lt (p := fun y => WReach W s y) hx
    rwa [Fintype.card_fin] at this
  have hpos : 0 < Fintype.card V := Fintype.card_pos_iff.2 ⟨⟨s, hs⟩⟩
  have down : ∀ {m c} {a b : V}, WWalk W' m c a b → WWalk W m c a.1 b.1 := by
    intro m c a b hw
    induction hw with
    | nil => exact .nil _
    | snoc _ e ih => exact ih.snoc e
  have up : ∀ {m c b}, WWalk W m c s b → ∃ hb : WReach W s b, WWalk W' m c ⟨s, hs⟩ ⟨b, hb⟩ := by
    intro m c b hw
    have key : ∀ {m c a b}, WWalk W m c a b → a = s →
        ∃ hb : WReach W s b, WWalk W' m c ⟨s, hs⟩ ⟨b, hb⟩ := by
      intro m c a b hw
      induction hw with
      | nil => rintro rfl; exact ⟨hs, .nil _⟩
      | @snoc k c a u v w hw' e ih =>
        intro hu
        obtain ⟨hb, hw2⟩ := ih hu
        exact ⟨⟨k + 1, c + a, hu ▸ hw'.snoc e⟩, hw2.snoc e⟩
    exact key hw rfl
  have hno' : NoNeg W' (· = ⟨s, hs⟩) := by
    rintro _ y rfl - ⟨k, c, hw, hc⟩
    exact hno ⟨y.1, y.2, k, c, down hw, hc⟩
  refine ⟨by omega, ?_⟩
  rintro c v ⟨m, -, _, rfl, hw⟩
  obtain ⟨hb, hw'⟩ := up hw
  obtain ⟨k', c', h1, -, h3, h4⟩ := shorten hno' rfl hw'
  exact ⟨c', h3, k', by omega, _, rfl, down h4⟩

omit [AddCommGroup α] [LinearOrder α] [IsOrderedAddMonoid α] in
theorem vofIds_isSome {β : Type} {l : List (Fin n)} {b : β} {i : Fin n} :
    (vofIds l b i).isSome = true ↔ i ∈ l := by
  unfold vofIds
  split <;> simp_all

/-- the final test, when `cur` is empty -/
theorem diag_empty (A : Mat n n α) (dst : Fin n) (path : List (Fin n)) {cur : Vec n α}
    (hc : ∀ j, cur j = none) :
    ((∃ i ∈ path, (A i i).isSome) ∧ bfPathDiag A dst path cur = .error .unbounded) ∨
    ((¬ ∃ i ∈ path, (A i i).isSome) ∧ bfPathDiag A dst path cur = .ok ()) := by
  unfold bfPathDiag
  simp only
  have h1 : nvals (vassignR (vS (vofIds path true)) (diagVec A)) > 0 ↔ ∃ i ∈ path, (A i i).isSome := by
    rw [gt_iff_lt, nvals_pos]
    constructor
    · rintro ⟨i, hi⟩
      unfold vassignR vS at hi
      split at hi
      · rename_i hm; exact ⟨i, vofIds_isSome.1 hm, hi⟩
      · cases hi
    · rintro ⟨i, hm, hi⟩
      refine ⟨i, ?_⟩
      unfold vassignR vS
      rw [if_pos (vofIds_isSome.2 hm)]; exact hi
  by_cases h : ∃ i ∈ path, (A i i).isSome
  · exact .inl ⟨h, if_pos (h1.2 h)⟩
  · right
    refine ⟨h, ?_⟩
    rw [if_neg (by rw [h1]; exact h), if_neg]
    rw [gt_iff_lt, nvals_pos]
    rintro ⟨i, hi⟩
    unfold vmul at hi
    rw [hc i] at hi
    cases vofIds path true i <;> simp at hi

omit [IsOrderedAddMonoid α] in
theorem broke_cur (prune : Option (Fin n)) (m : Nat) (cut d cur) (h : (bfLoop A prune m cut d cur).broke = true) (j) :
    (bfLoop A prune m cut d cur).cur j = none := by
  induction m generalizing cut d cur with
  | zero => cases h
  | succ m ih =>
    unfold bfLoop at h ⊢
    simp only at h ⊢
    split
    · rename_i hz; exact nvals_eq_zero.1 hz j
    · rename_i hz; rw [if_neg hz] at h; exact ih _ _ _ h

open Classical in
/-- the whole computation, when no negative cycle is reachable -/
theorem path_core_exact (A : Mat n n α) (s t : Fin n) (hno : ¬ NegCycleFrom (MW A) s) :
    (¬ WReach (MW A) s t ∧ bfPathCore A s t = .ok []) ∨
    (∃ l, IsShortestPath (MW A) s t l ∧ bfPathCore A s t =
      if hasNegDiag A = true ∧ ∃ i ∈ l, (A i i).isSome then .error .unbounded else .ok l) := by
  have hprune : Nonneg (offdiag A) ∨
      ((if hasNegEdgesM A then none else some t : Option (Fin n)) = none ∧ (none : Option α) = none) := by
    cases h : hasNegEdgesM A with
    | true => exact Or.inr ⟨rfl, rfl⟩
    | false => exact Or.inl (hasNegEdgesM_false h)
  obtain ⟨dc, hdc, hdc'⟩ := (target_spec A s t).2 hno
  obtain ⟨hn, hl⟩ := noNeg_split.1 hno
  unfold bfCore at hdc
  unfold bfPathCore
  simp only at hdc ⊢
  generalize hpr : (if hasNegEdgesM A then none else some t : Option (Fin n)) = prune at *
  have hbroke : hasNegDiag A = true → (endState A s prune none).broke = true := by
    intro hd
    obtain ⟨x, a, hx, ha⟩ := hasNegDiag_iff.1 hd
    have hxr : ¬ WReach (MW (offdiag A)) s x := by
      rintro ⟨m, c, hw⟩
      rw [mw_offdiag'] at hw
      exact hl ⟨x, a, ⟨m, c, hw.of_offLoop⟩, hx, ha⟩
    obtain ⟨h2, hst⟩ := stable_of_unreachable (noNeg_single.1 hn) hxr
    exact loop_breaks prune (n-2) hst (hprune.imp id fun h => h.1) (n-1)
      (inv_init (A := offdiag A) (src_init s) none) (.inr rfl) (Nat.zero_le _) (by omega)
  have hcur : (endState A s prune none).broke = true → ∀ j, (endState A s prune none).cur j = none :=
    fun h j => broke_cur _ _ _ _ _ h j
  obtain ⟨k, hk, hinv, -, -, -⟩ := end_spec A s prune none hprune
  have est : bfLoop (offdiag A) prune (n-1) none (vset vempty s 0) (vset vempty s 0) =
    endState A s prune none := rfl
  obtain ⟨k', prev', r', hk', hP⟩ := pinv_loop (cut := none) prune (n-1) (pinv_init (offdiag A) s)
  rw [est] at hdc
  rw [← est, ← bfPathLoop_fst (p := vset vempty s s)] at hinv hdc hbroke hcur
  generalize bfPathLoop (offdiag A) prune (n-1) none (vset vempty s 0) (vset vempty s 0)
    (vset vempty s s) = res at *
  obtain ⟨st, p⟩ := res
  simp only at *
  split at hdc
  · cases hdc
  · rename_i hneg
    split at hdc
    · cases hdc
    simp only [Except.ok.injEq] at hdc
    subst hdc
    rw [if_neg hneg]
    have hloop : ∀ x a, WReach (MW A) s x → MW A x x a → 0 ≤ a := by
      intro x a hx ha
      by_contra h0
      exact hl ⟨x, a, hx, ha, not_le.1 h0⟩
    cases hd : st.d t with
    | none =>
      left
      have hp : p t = none := by
        have := (hP.pat t).not.2 (by rw [hd]; simp)
        simpa using this
      refine ⟨?_, by simp [reconstructPath, hp, bind, Except.bind, pure, Except.pure]⟩
      rintro ⟨m, c, hw⟩
      obtain ⟨k', c', hk', -, -, hw'⟩ := shorten (noNeg_single.2 hno) rfl hw
      obtain ⟨b, -, hb⟩ := best_exists (S := (· = s)) (k := n) (mw_fin A)
        ⟨k', by rw [Fintype.card_fin] at hk'; omega, s, rfl, hw'⟩
      have : IsWDist (MW A) s b t := by
        rw [← distW_single]
        refine ⟨⟨_, hb.1⟩, ?_⟩
        rintro m c'' ⟨m', -, _, rfl, hw''⟩
        obtain ⟨k2, c2, h1, -, h2, h3⟩ := shorten (noNeg_single.2 hno) rfl hw''
        rw [Fintype.card_fin] at h1
        exact (hb.2 c2 ⟨k2, by omega, _, rfl, h3⟩).trans h2
      rw [(hdc' b).2 this] at hd; cases hd
    | some c =>
      right
      have hx := (hdc' c).1 hd
      have hxo : IsWDist (MW (offdiag A)) s c t := by
        rw [mw_offdiag', isWDist_offLoop hloop]; exact hx
      obtain ⟨l, h1, h2, h3⟩ := chase_exact hP
        (fun j c hc => by
          obtain ⟨m, -, _, rfl, hw⟩ := hinv.sound j c hc
          exact ⟨⟨m, c, hw⟩, m, hw⟩)
        (noNeg_single.1 hn) k' t c n (hP.le t) (by omega) hd hxo
      obtain ⟨q, hq⟩ := Option.isSome_iff_exists.1 ((hP.pat t).2 (by rw [hd]; rfl))
      have hrec : reconstructPath p s t = .ok (l ++ [s]).reverse := by
        simp [reconstructPath, hq, h1, bind, Except.bind, pure, Except.pure]
      refine ⟨(l ++ [s]).reverse, ⟨?_, ?_, c, ?_, hx⟩, ?_⟩
      · simp
      · rw [List.getLast?_reverse, h2]
      · have : ∀ l c, PathWeight (MW (offdiag A)) l c → PathWeight (MW A) l c := by
          intro l c h
          induction h with
          | single u => exact .single u
          | cons e _ ih =>
            rw [mw_offdiag] at e
            exact .cons e.2 ih
        simpa using this _ _ h3
      · rw [hrec]
        show (if (hasNegDiag A && !((l ++ [s]).reverse).isEmpty) = true then _ else _) = _
        cases hnd : hasNegDiag A with
        | false => simp; rfl
        | true =>
          have hb := hbroke hnd
          rw [if_pos (by simp), hb, if_pos rfl]
          rcases diag_empty A t (l ++ [s]).reverse (hcur hb) with ⟨h4, h5⟩ | ⟨h4, h5⟩
          · rw [h5, if_pos ⟨rfl, h4⟩]; rfl
          · rw [h5, if_neg fun hc => h4 hc.2]; rfl

/-! ### any path returned is simple and follows edges -/

end core

/-! ### the theorems about graphs -/

omit [DecidableEq K] [IsOrderedAddMonoid α] in
theorem negSelf_iff (h : G.WF) :
    (∃ u w, G.WEdge u u w ∧ w < 0) ↔ ∃ x a, G.A x x = some a ∧ a < 0 := by
  constructor
  · rintro ⟨u, w, ⟨i, j, hi, hj, e⟩, hw⟩
    obtain rfl := At.id_unique h hi hj
    exact ⟨i, w, e, hw⟩
  · rintro ⟨x, a, e, ha⟩
    obtain ⟨u, hu⟩ := h.exists_key x
    exact ⟨u, a, ⟨x, x, hu, hu, e⟩, ha⟩

omit [DecidableEq K] [AddCommGroup α] [LinearOrder α] [IsOrderedAddMonoid α] in
theorem selfEdges_iff (h : G.WF) {l : List (Fin G.n)} {ks : List K}
    (hf : List.Forall₂ (fun i u => G.At u i) l ks) :
    (∃ i ∈ l, (G.A i i).isSome) ↔ ∃ u ∈ ks, G.Edge u u := by
  induction hf with
  | nil => simp
  | @cons i u l ks ha _ ih =>
    simp only [List.mem_cons, exists_eq_or_imp, ih]
    refine or_congr_left ⟨fun hi => ⟨i, i, ha, ha, hi⟩, ?_⟩
    rintro ⟨a, b, h1, h2, e⟩
    obtain rfl := At.id_unique h h1 ha
    obtain rfl := At.id_unique h h2 h1
    exact e

open Classical in
/-- **C30, exactly, when no negative cycle is reachable** (and the stored values are not recognised as iso-valued).
If `t` cannot be reached the result is the empty list.  Otherwise the search finds a shortest path `l`, and the call
returns it -- unless some node of the graph, reachable or not, has a negative self-loop and some node of `l` has a
self-loop of any weight: then Unbounded is raised although the shortest path exists. -/
theorem bellman_ford_path_exact (h : G.WF) {s t : K} (hs : G.Node s) (ht : G.Node t)
    (hno : ¬ NegCycleFrom G.WEdge s) :
    (¬ WReach G.WEdge s t ∧ bellmanFordPath G none s t = .ok []) ∨
    (∃ l, IsShortestPath G.WEdge s t l ∧ bellmanFordPath G none s t =
      if (∃ u w, G.WEdge u u w ∧ w < 0) ∧ (∃ u ∈ l, G.Edge u u) then .error .unbounded else .ok l) := by
  obtain ⟨i, hi⟩ := hs.exists_id h
  obtain ⟨j, hj⟩ := ht.exists_id h
  rw [negFrom_iff h hi] at hno
  unfold bellmanFordPath
  rw [(getId_eq_ok h).2 hi, (getId_eq_ok h).2 hj]
  simp only [bind, Except.bind, bfPathIds]
  rcases path_core_exact G.A i j hno with ⟨h1, h2⟩ | ⟨l, h1, h2⟩
  · left
    rw [h2]
    exact ⟨by rwa [wreach_iff' h hi hj], rfl⟩
  · right
    obtain ⟨ks, hk1, hk2⟩ := mapM_keys h l
    refine ⟨ks, shortest_keys h hi hj hk2 h1, ?_⟩
    have hiff : ((∃ u w, G.WEdge u u w ∧ w < 0) ∧ ∃ u ∈ ks, G.Edge u u) ↔
        (hasNegDiag G.A = true ∧ ∃ i ∈ l, (G.A i i).isSome) := by
      rw [negSelf_iff h, ← hasNegDiag_iff, selfEdges_iff h hk2]
    rw [h2]
    by_cases hc : hasNegDiag G.A = true ∧ ∃ i ∈ l, (G.A i i).isSome
    · rw [if_pos hc, if_pos (hiff.2 hc)]
    · rw [if_neg hc, if_neg (mt hiff.1 hc)]; exact hk1

/-- **C30.**  On an iso-valued graph with a negative weight every query raises Unbounded ("Negative cycle detected"),
whatever the shape of the graph and whether or not the source reaches any edge. -/
theorem bellman_ford_path_iso_negative_always (h : G.WF) {c : α} {s t : K} (hs : G.Node s) (ht : G.Node t)
    (hneg : ∃ u v w, G.WEdge u v w ∧ w < 0) :
    bellmanFordPath G (some c) s t = .error .unbounded := by
  obtain ⟨i, hi⟩ := hs.exists_id h
  obtain ⟨j, hj⟩ := ht.exists_id h
  unfold bellmanFordPath
  rw [(getId_eq_ok h).2 hi, (getId_eq_ok h).2 hj]
  have hP : hasNegEdgesP G.A = true := by
    rw [hasNegEdgesP_iff]
    obtain ⟨u, v, w, ⟨x, y, -, -, e⟩, hw⟩ := hneg
    exact ⟨x, y, w, e, hw⟩
  unfold bfPathIds
  simp only [hP]
  rfl

/-- the hypothesis of `bellman_ford_path_exact` holds of `Ex.posLoop`, whose only negative cycle is the self-loop of a node
that cannot be reached from 1; the result falls under the `Unbounded` case -/
example : Ex.posLoop.WF ∧ Ex.posLoop.Node 1 ∧ Ex.posLoop.Node 2 ∧ ¬ NegCycleFrom Ex.posLoop.WEdge 1 ∧
    bellmanFordPath Ex.posLoop none 1 2 = .error .unbounded ∧
    bellmanFordPath Ex.posLoop none 2 2 = .ok [2] ∧ bellmanFordPath Ex.posLoop none 2 1 = .ok [] := by
  have hw : Ex.posLoop.WF := ⟨by decide, by decide⟩
  refine ⟨hw, by unfold Graph.Node; decide, (by unfold Graph.Node; decide), ?_, by decide +kernel,
    by decide +kernel, by decide +kernel⟩
  rintro ⟨x, ⟨m, c, h1⟩, k, c', h2, h3⟩
  have key : ∀ i j, ∀ w ∈ Ex.posLoop.A i j, i.val = 2 ∨ (j.val ≠ 2 ∧ 0 ≤ w) := by decide +kernel
  have hk : ∀ {k c x y}, WWalk Ex.posLoop.WEdge k c x y → x ≠ 3 → y ≠ 3 ∧ 0 ≤ c := by
    intro k c x y hwk
    induction hwk with
    | nil => intro h; exact ⟨h, le_rfl⟩
    | snoc hw' e ih =>
      intro hx
      obtain ⟨h4, h5⟩ := ih hx
      obtain ⟨a, b, ha, hb, hab⟩ := e
      have h3 : Ex.posLoop.At 3 (2 : Fin 3) := by unfold Graph.At; decide
      have ha2 : a ≠ (2 : Fin 3) := by rintro rfl; exact h4 (At.key_unique hw ha h3)
      obtain ⟨h6, h7⟩ := (key a b _ hab).resolve_left (fun e => ha2 (Fin.ext e))
      refine ⟨?_, Int.add_nonneg h5 h7⟩
      rintro rfl
      exact h6 (congrArg Fin.val (At.id_unique hw hb h3))
  have := (hk h2 (hk h1 (by decide)).1).2
  omega

/-- a graph with a reachable negative cycle on which `bellman_ford_path_sound` applies: the target lies before the cycle -/
example : bellmanFordPath Ex.spin none 0 1 = .ok [] ∧ bellmanFordPath Ex.spin none 0 0 = .ok [0] := by
  refine ⟨by decide +kernel, by decide +kernel⟩

/-- `bellman_ford_path_iso_negative_always` covers even the trivial query -/
example : bellmanFordPath Ex.isoNeg (some (-1)) 2 2 = .error .unbounded :=
  bellman_ford_path_iso_negative_always ⟨by decide, by decide⟩ (by unfold Graph.Node; decide)
    (by unfold Graph.Node; decide) ⟨1, 2, -1, by decide +kernel, by decide⟩

end Props
