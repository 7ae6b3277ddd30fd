import Verif.Proofs.BellmanFordPath
import Verif.Props.BellmanFord

/-!
# bellman_ford_path: C30
-/

open GB Spec Model Model.Graph Proofs Proofs.Bfs Proofs.BF Proofs.BFP

namespace Props

variable {K α : Type} [DecidableEq K] [AddCommGroup α] [LinearOrder α] [IsOrderedAddMonoid α]
  {G : Graph K α}

omit [DecidableEq K] [LinearOrder α] [IsOrderedAddMonoid α] in
/-- a path of row indices, read as a path of keys -/
theorem pathWeight_keys {l : List (Fin G.n)} {ks : List K} {c : α}
    (hf : List.Forall₂ (fun i u => G.At u i) l ks) (hp : PathWeight (MW G.A) l c) :
    PathWeight G.WEdge ks c := by
  induction hp generalizing ks with
  | single u =>
    cases hf with
    | cons h t => cases t; exact .single _
  | cons e _ ih =>
    cases hf with
    | cons h t =>
      cases t with
      | cons h' t' => exact .cons ⟨_, _, h, h', e⟩ (ih (.cons h' t'))

omit [DecidableEq K] [AddCommGroup α] [LinearOrder α] [IsOrderedAddMonoid α] in
theorem mapM_keys (h : G.WF) (l : List (Fin G.n)) :
    ∃ ks, (l.mapM fun i => match G.keyOf i.val with
      | none => (.error .keyError : Except Err K)
      | some u => .ok u) = .ok ks ∧ List.Forall₂ (fun i u => G.At u i) l ks := by
  choose key hkey using h.exists_key
  refine ⟨l.map key, ?_, ?_⟩
  · rw [mapM_ok (g := key)]
    intro i _
    rw [(keyOf_eq_some h).2 (hkey i)]
  · rw [List.forall₂_map_right_iff]
    exact List.forall₂_same.2 fun i _ => hkey i

omit [DecidableEq K] [IsOrderedAddMonoid α] in
theorem shortest_keys (h : G.WF) {s t : K} {i j} (hi : G.At s i) (hj : G.At t j)
    {l : List (Fin G.n)} {ks : List K} (hf : List.Forall₂ (fun i u => G.At u i) l ks)
    (hp : IsShortestPath (MW G.A) i j l) : IsShortestPath G.WEdge s t ks := by
  obtain ⟨h1, h2, c, h3, h4⟩ := hp
  refine ⟨?_, ?_, c, pathWeight_keys hf h3, (isWDist_iff h hi hj).2 h4⟩
  · cases hf with
    | nil => cases h1
    | cons ha _ =>
      simp only [List.head?_cons, Option.some.injEq] at h1 ⊢
      subst h1; exact At.key_unique h ha hi
  · have hr := List.rel_reverse hf
    rw [← List.head?_reverse] at h2 ⊢
    generalize l.reverse = l' at hr h2
    generalize ks.reverse = ks' at hr ⊢
    cases hr with
    | nil => cases h2
    | cons ha _ =>
      simp only [List.head?_cons, Option.some.injEq] at h2 ⊢
      subst h2; exact At.key_unique h ha hj

/-- following BFS parents from `j` at distance `d` -/
private theorem chase_bfs {n : Nat} {A : Mat n n α} {c : α} (hc : ∀ i j a, A i j = some a → a = c)
    {s : Fin n} {L : Nat} {p : Vec n (Fin n)} (hp : ParInv (Adj (offdiag A)) s L p) :
    ∀ (d : Nat) (j : Fin n) (f : Nat), d ≤ f → d ≤ L → IsDist (Adj (offdiag A)) s d j →
      ∃ l, chaseParents p s f j = .ok (l ++ [s]) ∧ (l ++ [s]).head? = some j ∧
        PathWeight (MW A) (s :: l.reverse) (d • c) := by
  intro d
  induction d with
  | zero =>
    intro j f _ _ hd
    obtain rfl := walk_zero.1 hd.1
    refine ⟨[], ?_, rfl, by simpa using PathWeight.single s⟩
    unfold chaseParents; simp
  | succ d ih =>
    intro j f hf hL hd
    have hne : j ≠ s := by
      rintro rfl
      have := hd.2 0 (Walk.nil _)
      omega
    obtain ⟨q, hq⟩ := Option.isSome_iff_exists.1 ((hp.pat j).2 ⟨_, hL, hd⟩)
    obtain ⟨d', hd1, hd2, he⟩ := hp.par j q hq hne
    obtain rfl : d' = d := by have := dist_unique hd hd2; omega
    obtain ⟨f, rfl⟩ : ∃ f', f = f' + 1 := ⟨f - 1, by omega⟩
    obtain ⟨l, hl, hh, hw⟩ := ih q f (by omega) (by omega) hd1
    refine ⟨j :: l, ?_, rfl, ?_⟩
    · unfold chaseParents
      rw [if_neg hne, hq]
      simp only [hl]
      rfl
    · obtain ⟨a, ha⟩ := Option.isSome_iff_exists.1 he
      have ha' : MW A q j a := by
        have : MW (offdiag A) q j a := ha
        rw [mw_offdiag] at this
        exact this.2
      have := hc _ _ _ ha'
      subst this
      rw [succ_nsmul, List.reverse_cons]
      cases l with
      | nil =>
        simp at hh; subst hh
        exact pathWeight_snoc (l := []) hw ha'
      | cons x l =>
        simp at hh; subst hh
        rw [List.reverse_cons] at hw ⊢
        have := pathWeight_snoc (l := s :: l.reverse) (by simpa using hw) ha'
        simpa using this

/-- **C30 (the part that holds).** If no negative cycle is reachable from `s`, no node of the
graph has a negative self-loop, and an iso-valued matrix is not negative, then
`bellman_ford_path(G, s, t)` returns a list of nodes from `s` to `t`, consecutive nodes adjacent,
whose total weight is the minimum over all walks from `s` to `t`; if `t` is unreachable it
returns the empty list.  In particular the parent chase terminates. -/
theorem bellman_ford_path_correct_partial (h : G.WF) {iso : Option α} (hiso : IsoValid G iso)
    {s t : K} (hs : G.Node s) (ht : G.Node t) (hno : ¬ NegCycleFrom G.WEdge s)
    (hloop : ∀ u w, G.WEdge u u w → 0 ≤ w)
    (hisoneg : iso.isSome → ∀ u v w, G.WEdge u v w → 0 ≤ w) :
    (∃ l, bellmanFordPath G iso s t = .ok l ∧ IsShortestPath G.WEdge s t l) ∨
    (¬ WReach G.WEdge s t ∧ bellmanFordPath G iso s t = .ok []) := by
  obtain ⟨i, hi⟩ := hs.exists_id h
  obtain ⟨j, hj⟩ := ht.exists_id h
  rw [negFrom_iff h hi] at hno
  have fin : ∀ r : Except Err (List (Fin G.n)),
      ((∃ l, r = .ok l ∧ IsShortestPath (MW G.A) i j l) ∨ (¬ WReach (MW G.A) i j ∧ r = .ok [])) →
      (∃ l, (r >>= fun path => path.mapM fun i => match G.keyOf i.val with
        | none => (.error .keyError : Except Err K)
        | some u => .ok u) = .ok l ∧ IsShortestPath G.WEdge s t l) ∨
      (¬ WReach G.WEdge s t ∧ (r >>= fun path => path.mapM fun i => match G.keyOf i.val with
        | none => (.error .keyError : Except Err K)
        | some u => .ok u) = .ok []) := by
    rintro r (⟨l, rfl, hl⟩ | ⟨hr, rfl⟩)
    · left
      obtain ⟨ks, h1, h2⟩ := mapM_keys h l
      exact ⟨ks, h1, shortest_keys h hi hj h2 hl⟩
    · right
      exact ⟨by rwa [wreach_iff' h hi hj], rfl⟩
  unfold bellmanFordPath
  rw [(getId_eq_ok h).2 hi, (getId_eq_ok h).2 hj]
  cases iso with
  | none =>
    apply fin
    apply path_core_spec _ _ _ hno
    rw [← Bool.not_eq_true, hasNegDiag_iff]
    rintro ⟨x, a, hx, ha⟩
    obtain ⟨u, hu⟩ := h.exists_key x
    exact absurd (hloop u a ⟨x, x, hu, hu, hx⟩) (not_le.2 ha)
  | some c =>
    have hc := iso_mw h hiso rfl
    have hnn : Nonneg G.A := by
      intro x y a ha
      obtain ⟨u, hu⟩ := h.exists_key x
      obtain ⟨v, hv⟩ := h.exists_key y
      exact hisoneg rfl u v a ⟨x, y, hu, hv, ha⟩
    have hP : hasNegEdgesP G.A = false := by
      rw [← Bool.not_eq_true, hasNegEdgesP_iff]
      rintro ⟨x, y, a, ha, h0⟩
      exact absurd (hnn _ _ _ ha) (not_le.2 h0)
    apply fin
    unfold bfPathIds
    simp only [hP, Bool.not_false, if_true]
    have hinit : ∀ x, (vset (vempty : Vec G.n (Fin G.n)) i i x).isSome ↔
        IsDist (Adj (offdiag G.A)) i 0 x := by
      intro x; rw [vset_isSome, isDist_iff_from, distFrom_zero]
    obtain ⟨L, hst, hp⟩ := parentLoop_spec (A := offdiag G.A) (s := i) (some j) (G.n - 1) 0
      (parent_init _ i) hinit (by
        intro x p hp
        unfold vset vempty at hp
        split at hp
        · cases hp; simp_all
        · cases hp)
    have hb : bfsParent G s (some t) = .ok (bfsParentLoop (offdiag G.A) (some j)
        (List.range' (0+1) (G.n - 1)) (vset vempty i i) (vset vempty i i)) := by
      unfold bfsParent
      rw [(getId_eq_ok h).2 hi]
      simp only [bind, Except.bind]
      rw [(getId_eq_ok h).2 hj]
      show Except.ok (bfsParentLoop (bfsMatrix G false) _ (range1 (getCutoff G.n none)) _ _) = _
      unfold range1 getCutoff
      rw [Int.toNat_natCast]
      rfl
    rw [hb]
    generalize bfsParentLoop (offdiag G.A) (some j)
        (List.range' (0+1) (G.n - 1)) (vset vempty i i) (vset vempty i i) = p at *
    -- the target is found iff it is reachable
    have hfound : ∀ d, IsDist (Adj (offdiag G.A)) i d j → d ≤ L := by
      intro d hd
      have hlt := dist_lt_card hd
      rw [Fintype.card_fin] at hlt
      exact hst.complete (j := j) (Or.inr rfl) (by omega) (isDist_iff_from.1 hd)
    have e : ∀ d, IsDist (Adj (offdiag G.A)) i d j ↔ IsDist (Adj G.A) i d j := by
      intro d; rw [isDist_congr (adj_offdiag G.A), isDist_offLoop]
    by_cases hr : ∃ d, IsDist (Adj (offdiag G.A)) i d j
    · left
      obtain ⟨d, hd⟩ := hr
      have hlt := dist_lt_card hd
      rw [Fintype.card_fin] at hlt
      obtain ⟨l, h1, h2, h3⟩ := chase_bfs hc hp d j G.n (by omega) (hfound d hd) hd
      obtain ⟨q, hq⟩ := Option.isSome_iff_exists.1 ((hp.pat j).2 ⟨d, hfound d hd, hd⟩)
      refine ⟨(l ++ [i]).reverse, ?_, ?_, ?_, d • c, ?_, ?_⟩
      · simp [reconstructPath, hq, h1, bind, Except.bind, pure, Except.pure]
      · simp
      · rw [List.getLast?_reverse, h2]
      · simpa using h3
      · rw [iso_dist hc hnn]; exact ⟨d, (e d).1 hd, rfl⟩
    · right
      refine ⟨?_, ?_⟩
      · rintro ⟨k, x, hw⟩
        obtain ⟨d, -, hd⟩ := exists_dist (walk_mw.2 ⟨x, hw⟩)
        exact hr ⟨d, (e d).2 hd⟩
      · have : p j = none := by
          by_contra hne
          obtain ⟨d, -, hd⟩ := (hp.pat j).1 (Option.isSome_iff_ne_none.2 hne)
          exact hr ⟨d, hd⟩
        simp [reconstructPath, this, bind, Except.bind]

/-- **C30.** Unknown nodes raise KeyError (NodeNotFound in the NetworkX API). -/
theorem bellman_ford_path_missing (h : G.WF) {iso : Option α} {s t : K}
    (hst : ¬ G.Node s ∨ ¬ G.Node t) : bellmanFordPath G iso s t = .error .keyError := by
  unfold bellmanFordPath
  by_cases hs : G.Node s
  · obtain ⟨i, hi⟩ := hs.exists_id h
    rw [(getId_eq_ok h).2 hi]
    rw [getId_eq_error h (hst.resolve_left (not_not.2 hs))]; rfl
  · rw [getId_eq_error h hs]; rfl

example : bellmanFordPath Ex.neg none 4 3 = .ok [4, 1, 2, 3] := by decide +kernel
example : bellmanFordPath Ex.neg none 3 4 = .ok [] := by decide +kernel
example : bellmanFordPath Ex.ug (some 1) 1 4 = .ok [1, 2, 3, 4] := by decide +kernel
/-- the hypotheses of `bellman_ford_path_correct_partial` hold of `Ex.neg` -/
example : Ex.neg.WF ∧ (∀ u w, Ex.neg.WEdge u u w → 0 ≤ w) := by
  refine ⟨⟨by decide, by decide⟩, ?_⟩
  have key : ∀ i, ∀ w ∈ Ex.neg.A i i, 0 ≤ w := by decide +kernel
  rintro u w ⟨i, j, h1, h2, hw⟩
  obtain rfl := At.id_unique (G := Ex.neg) ⟨by decide, by decide⟩ h1 h2
  exact key i w hw

/-! ### the parts of C30 that are false of the code -/

/-- 1 →(-1) 2, an acyclic graph whose stored values are all equal -/
def Ex.isoNeg : Graph Nat Int where
  n := 2
  A := Ex.ofTriples 2 [(0,1,-1)]
  keyToId := [(1,0),(2,1)]
  directed := true

/-- **C30, false part 1**: when the matrix is iso-valued and negative, Unbounded ("Negative cycle
detected") is raised even on an acyclic graph. -/
theorem bellman_ford_path_iso_negative_rejected :
    Ex.isoNeg.WF ∧ IsoValid Ex.isoNeg (some (-1)) ∧ (¬ ∃ u, NegCycleFrom Ex.isoNeg.WEdge u) ∧
    bellmanFordPath Ex.isoNeg (some (-1)) 1 2 = .error .unbounded ∧
    bellmanFordPath Ex.isoNeg none 1 2 = .ok [1, 2] := by
  have hw : Ex.isoNeg.WF := ⟨by decide, by decide⟩
  refine ⟨hw, ?_, ?_, by decide +kernel, by decide +kernel⟩
  · have key : ∀ i j, ∀ w ∈ Ex.isoNeg.A i j, w = -1 := by decide +kernel
    intro c hc u v w ⟨i, j, _, _, hw⟩; cases hc
    exact key i j w hw
  · have key : ∀ i j, ∀ w ∈ Ex.isoNeg.A i j, i < j := by decide +kernel
    rintro ⟨u, x, -, k, c, hwk, hc⟩
    have hk : ∀ {k c x y}, WWalk Ex.isoNeg.WEdge k c x y → ∀ i j, Ex.isoNeg.At x i →
        Ex.isoNeg.At y j → (k = 0 ∧ c = 0) ∨ i < j := by
      intro k c x y hwk
      induction hwk with
      | nil => intro i j _ _; exact Or.inl ⟨rfl, rfl⟩
      | snoc hw' e ih =>
        intro i j hi hj
        obtain ⟨a, b, ha, hb, hab⟩ := e
        obtain rfl := At.id_unique hw hb hj
        have h1 := key a b _ hab
        rcases ih i a hi ha with ⟨rfl, rfl⟩ | h2
        · have e0 := wwalk_zero.1 hw'
          obtain ⟨-, rfl⟩ := e0
          obtain rfl := At.id_unique hw hi ha
          exact Or.inr h1
        · exact Or.inr (h2.trans h1)
    have hx : Ex.isoNeg.Node x := by
      cases hwk with
      | nil => exact absurd hc (lt_irrefl _)
      | snoc _ e => obtain ⟨_, _, _, h, _⟩ := e; exact h.node
    obtain ⟨i, hi⟩ := hx.exists_id hw
    rcases hk hwk i i hi hi with ⟨-, rfl⟩ | h
    · exact absurd hc (lt_irrefl _)
    · exact absurd h (lt_irrefl _)

/-- 1 →(1) 2 with a *positive* self-loop at 1; node 3 is isolated but for a negative self-loop -/
def Ex.posLoop : Graph Nat Int where
  n := 3
  A := Ex.ofTriples 3 [(0,1,1), (0,0,5), (2,2,-1)]
  keyToId := [(1,0),(2,1),(3,2)]
  directed := true

/-- **C30, false part 2**: a negative self-loop anywhere makes a *positive* self-loop on the
returned path raise Unbounded, although the distance exists. -/
theorem bellman_ford_path_positive_loop_rejected :
    Ex.posLoop.WF ∧ bellmanFordPath Ex.posLoop none 1 2 = .error .unbounded ∧
    bellmanFordPathLength Ex.posLoop none 1 2 = .ok 1 := by
  refine ⟨⟨by decide, by decide⟩, by decide +kernel, by decide +kernel⟩

/-- 0 →(0) 3 and the negative cycle 3 →(-2) 2 →(-1) 3; node 1 is isolated -/
def Ex.spin : Graph Nat Int where
  n := 4
  A := Ex.ofTriples 4 [(0,3,0), (3,2,-2), (2,3,-1)]
  keyToId := [(0,0),(1,1),(2,2),(3,3)]
  directed := true

/-- **C30, false part 3**: with a reachable negative cycle the call may never return: the parent
vector contains a cycle avoiding the source, and the `while cur != src` loop runs for ever (no
amount of fuel makes the chase end). -/
theorem bellman_ford_path_may_not_terminate :
    Ex.spin.WF ∧ bellmanFordPath Ex.spin none 0 3 = .error .diverges ∧
    ∀ (n : Nat) (p : Vec n (Fin n)) (src dst : Fin n),
      chaseParents p src n dst = .error .diverges → ∀ f, chaseParents p src f dst = .error .diverges :=
  ⟨⟨by decide, by decide⟩, by decide +kernel, fun _ _ _ _ h f => chase_diverges h f⟩

end Props
