import Verif.Props.BellmanFord

/-!
# C28: what bellman_ford_path_length returns when there are negative cycles

The target-only test at the end of weighted.py:87-94 compares the best walk with at most `n` edges with the best one
with at most `n - 1` edges, at the target only.
-/

open GB Spec Model Model.Graph Proofs Proofs.BF

namespace Spec

variable {V α : Type*} [Zero α] [Add α] [LE α]

/-- there is a walk from `s` to `t` of weight `c` with at most `k` edges -/
def WalkIn (W : V → V → α → Prop) (k : Nat) (s : V) (c : α) (t : V) : Prop := ∃ m, m ≤ k ∧ WWalk W m c s t

/-- `c` is the least weight of the walks from `s` to `t` with at most `k` edges -/
def MinIn (W : V → V → α → Prop) (k : Nat) (s : V) (c : α) (t : V) : Prop :=
  WalkIn W k s c t ∧ ∀ c', WalkIn W k s c' t → c ≤ c'

end Spec

namespace Props

variable {K α : Type} [DecidableEq K] [AddCommGroup α] [LinearOrder α] [IsOrderedAddMonoid α]
  {G : Graph K α}

section core
omit [DecidableEq K]
variable {n : Nat}

omit [LinearOrder α] [IsOrderedAddMonoid α] in
theorem leW_single {V : Type} {W : V → V → α → Prop} {k : Nat} {c : α} {s t : V} :
    LeW W (· = s) k c t ↔ WalkIn W k s c t := by
  constructor
  · rintro ⟨m, hm, _, rfl, h⟩; exact ⟨m, hm, h⟩
  · rintro ⟨m, hm, h⟩; exact ⟨m, hm, s, rfl, h⟩

theorem best_single {V : Type} {W : V → V → α → Prop} {k : Nat} {c : α} {s t : V} :
    Best W (· = s) k c t ↔ MinIn W k s c t := by
  unfold Best MinIn
  simp only [leW_single]

/-- the walks may use one edge more to improve -/
def Improves {V : Type} (W : V → V → α → Prop) (k : Nat) (s t : V) : Prop :=
  ∃ c b, WalkIn W (k + 1) s c t ∧ MinIn W k s b t ∧ c < b

theorem improved_exact {A : Mat n n α} {d cur : Vec n α} {k : Nat} {s j : Fin n}
    (h : Inv A (· = s) k none d cur) :
    (bfImproved A none d cur j).getD false = true ↔ Improves (MW A) k s j := by
  rw [improved_iff]
  constructor
  · rintro ⟨c, b, h1, h2, h3⟩
    obtain ⟨b', -, hb⟩ := best_exists (mw_fin A) (h.sound j b h2)
    have hd := h.best j b' hb (ok_none _)
    rw [h2] at hd; cases hd
    exact ⟨c, b, leW_single.1 (relax_sound h h1), best_single.1 hb, h3⟩
  · rintro ⟨c, b, h1, h2, h3⟩
    obtain ⟨c', hc', hb'⟩ := best_exists (mw_fin A) (leW_single.2 h1)
    refine ⟨c', b, relax_improve h (.inr rfl) hb' (ok_none _) ?_, h.best j b (best_single.2 h2) (ok_none _),
      hc'.trans_lt h3⟩
    intro x hx
    exact (hc'.trans_lt h3).trans_le (h2.2 x (leW_single.1 hx))

theorem target_exact (A : Mat n n α) (s t : Fin n) (hneg : hasNegEdgesM A = true) :
    let P := (∃ x a, WReach (MW A) s x ∧ A x x = some a ∧ a < 0) ∨ Improves (MW (offdiag A)) (n-1) s t
    (P ∧ bfCore A s (some t) none = .error .unbounded) ∨
    (¬ P ∧ ∃ d, bfCore A s (some t) none = .ok d ∧ ∀ c, d t = some c ↔ MinIn (MW (offdiag A)) (n-1) s c t) := by
  intro P
  obtain ⟨k, hk, hinv, hp, hbr, hnb⟩ := end_spec A s none none (Or.inr ⟨rfl, rfl⟩)
  have hcut : (endState A s none none).cut = none := hp
  unfold bfCore
  simp only [hneg, if_true]
  have est : bfLoop (offdiag A) none (n-1) none (vset vempty s 0) (vset vempty s 0) =
    endState A s none none := rfl
  rw [est]
  generalize hst : endState A s none none = st at *
  obtain ⟨d, cur, cut, broke⟩ := st
  simp only at hcut hinv hbr hnb ⊢
  subst hcut
  have hall : ∀ {m c v}, LeW (MW (offdiag A)) (· = s) m c v →
      ∃ c', LeW (MW (offdiag A)) (· = s) k c' v := by
    intro m c v hw
    cases broke with
    | true =>
      obtain ⟨c', -, h'⟩ := stableC_all (Or.inr rfl) (hbr rfl) hw (ok_none _)
      exact ⟨c', h'⟩
    | false => obtain ⟨rfl, -⟩ := hnb rfl; exact leW_of_any hw
  -- the last test
  have himp : (!broke && (bfImproved (offdiag A) none d cur t).getD false) = true ↔
      Improves (MW (offdiag A)) (n-1) s t := by
    cases broke with
    | true =>
      simp only [Bool.not_true, Bool.false_and, Bool.false_eq_true, false_iff]
      rintro ⟨c, b, h1, h2, h3⟩
      obtain ⟨c', hc', h'⟩ := stableC_all (Or.inr rfl) (hbr rfl) (leW_single.2 h1) (ok_none _)
      exact absurd (h2.2 c' (leW_single.1 (h'.mono hk))) (not_le.2 (hc'.trans_lt h3))
    | false =>
      obtain ⟨rfl, hi⟩ := hnb rfl
      simp only [Bool.not_false, Bool.true_and]
      exact improved_exact hi
  have hmin : ∀ c, d t = some c ↔ MinIn (MW (offdiag A)) (n-1) s c t := by
    have hd : ∀ c, d t = some c ↔ Best (MW (offdiag A)) (· = s) k c t := by
      intro c
      constructor
      · intro h
        obtain ⟨b', -, hb⟩ := best_exists (mw_fin _) (hinv.sound t c h)
        have := hinv.best t b' hb (ok_none _)
        rw [h] at this; cases this; exact hb
      · intro h; exact hinv.best t c h (ok_none _)
    intro c
    rw [hd, ← best_single]
    cases broke with
    | false => obtain ⟨rfl, -⟩ := hnb rfl; rfl
    | true =>
      have hst := hbr rfl
      constructor
      · rintro ⟨h1, h2⟩
        refine ⟨h1.mono hk, fun c' hc' => ?_⟩
        obtain ⟨c'', h3, h4⟩ := stableC_all (Or.inr rfl) hst hc' (ok_none _)
        exact (h2 _ h4).trans h3
      · rintro ⟨h1, h2⟩
        obtain ⟨c'', h3, h4⟩ := stableC_all (Or.inr rfl) hst h1 (ok_none _)
        have := h2 c'' (h4.mono hk)
        obtain rfl := le_antisymm h3 this
        exact ⟨h4, fun c' hc' => h2 c' (hc'.mono hk)⟩
  have hdiag := diagCheck_iff (A := A) (d := d)
  simp only [reached_iff hinv hall] at hdiag
  by_cases h1 : Improves (MW (offdiag A)) (n-1) s t
  · exact .inl ⟨.inr h1, if_pos (himp.2 h1)⟩
  · rw [if_neg (by rw [himp]; exact h1)]
    by_cases h2 : ∃ x a, WReach (MW A) s x ∧ A x x = some a ∧ a < 0
    · exact .inl ⟨.inl h2, if_pos (hdiag.2 h2)⟩
    · refine .inr ⟨?_, d, if_neg (by rw [hdiag]; exact h2), hmin⟩
      rintro (h | h)
      · exact h2 h
      · exact h1 h

theorem target_nonneg (A : Mat n n α) (s t : Fin n) (hneg : hasNegEdgesM A = false) :
    (bfCore A s (some t) none = .error .unbounded ∧ ∃ x a, WReach (MW A) s x ∧ A x x = some a ∧ a < 0) ∨
    ((¬ ∃ x a dx, A x x = some a ∧ a < 0 ∧ IsWDist (MW (offdiag A)) s dx x ∧
        ∀ dt, IsWDist (MW (offdiag A)) s dt t → dx ≤ dt) ∧
      ∃ d, bfCore A s (some t) none = .ok d ∧ ∀ c, d t = some c ↔ IsWDist (MW (offdiag A)) s c t) := by
  have hA := hasNegEdgesM_false hneg
  have hno : NoNeg (MW (offdiag A)) (· = s) := hA.noNeg
  obtain ⟨k, hk, hinv, hp, hbr, hnb⟩ := end_spec A s (some t) none (Or.inl hA)
  unfold bfCore
  simp only [hneg, Bool.false_eq_true, if_false]
  have est : bfLoop (offdiag A) (some t) (n-1) none (vset vempty s 0) (vset vempty s 0) =
    endState A s (some t) none := rfl
  rw [est]
  generalize hst : endState A s (some t) none = st at *
  obtain ⟨d, cur, cut, broke⟩ := st
  simp only at hinv hbr hnb hp ⊢
  have hstb : StableC (offdiag A) (· = s) k cut := by
    cases broke with
    | true => exact hbr rfl
    | false => obtain ⟨rfl, -⟩ := hnb rfl; exact NoNeg.stableC hno _
  have hfin := fun j c (hok : Ok cut c) => final_dist (j := j) (c := c) hinv (.inl hA) hstb hok
  have hneg' : ¬ (!broke && (bfImproved (offdiag A) cut d cur t).getD false) = true := by
    cases broke with
    | true => simp
    | false =>
      obtain ⟨rfl, hi⟩ := hnb rfl
      intro h
      exact improved_none hi hno ⟨t, by simpa using h⟩
  rw [if_neg hneg']
  have huniq : ∀ {j a b}, IsWDist (MW (offdiag A)) s a j → IsWDist (MW (offdiag A)) s b j → a = b := by
    rintro j a b ⟨⟨m, h1⟩, h2⟩ ⟨⟨m', h3⟩, h4⟩
    exact le_antisymm (h2 _ _ h3) (h4 _ _ h1)
  have hdt : ∀ c, d t = some c ↔ IsWDist (MW (offdiag A)) s c t := by
    intro c
    rw [← distW_single]
    cases cut with
    | none => exact hfin t c (ok_none _)
    | some x =>
      have hdt : d t = some x := by
        rcases hp with hp | ⟨-, hp⟩
        · cases hp
        · exact hp
      have hx : Ok (some x) x := by intro y hy; cases hy; exact le_rfl
      have hd := (hfin t x hx).1 hdt
      rw [hdt]
      constructor
      · rintro ⟨⟩; exact hd
      · intro h; rw [huniq (distW_single.1 hd) (distW_single.1 h)]
  by_cases hc : (hasNegDiag A && (dot any' pairB d (vselect (fun a => decide (a < 0)) (diagVec A))).isSome) = true
  · left
    refine ⟨if_pos hc, ?_⟩
    obtain ⟨i, a, h1, h2, h3⟩ := diagCheck_iff.1 hc
    exact ⟨i, a, sound_reach hinv h1, h2, h3⟩
  · right
    refine ⟨?_, d, if_neg hc, hdt⟩
    rintro ⟨x, a, dx, h1, h2, h3, h4⟩
    apply hc
    rw [diagCheck_iff]
    refine ⟨x, a, ?_, h1, h2⟩
    have hok : Ok cut dx := by
      intro y hy
      rcases hp with hp | ⟨-, hp⟩
      · rw [hp] at hy; cases hy
      · exact h4 y ((hdt y).1 (by rw [hp, hy]))
    rw [(hfin x dx hok).2 (distW_single.2 h3)]
    rfl

/-- without a negative self-loop in reach, self-loops do not matter -/
theorem minIn_offLoop {V : Type} {W : V → V → α → Prop} {k : Nat} {s t : V} {c : α}
    (hl : ∀ x a, WReach W s x → W x x a → 0 ≤ a) : MinIn (WOffLoop W) k s c t ↔ MinIn W k s c t := by
  constructor
  · rintro ⟨⟨m, hm, h⟩, h2⟩
    refine ⟨⟨m, hm, h.of_offLoop⟩, ?_⟩
    rintro c' ⟨m', hm', h'⟩
    obtain ⟨m'', c'', h3, h4, h5⟩ := h'.offLoop hl
    exact (h2 c'' ⟨m'', h3.trans hm', h5⟩).trans h4
  · rintro ⟨⟨m, hm, h⟩, h2⟩
    obtain ⟨m'', c'', h3, h4, h5⟩ := h.offLoop hl
    obtain rfl := le_antisymm h4 (h2 c'' ⟨m'', h3.trans hm, h5.of_offLoop⟩)
    exact ⟨⟨m'', h3.trans hm, h5⟩, fun c' ⟨m', hm', h'⟩ => h2 c' ⟨m', hm', h'.of_offLoop⟩⟩

theorem improves_offLoop {V : Type} {W : V → V → α → Prop} {k : Nat} {s t : V}
    (hl : ∀ x a, WReach W s x → W x x a → 0 ≤ a) : Improves (WOffLoop W) k s t ↔ Improves W k s t := by
  unfold Improves
  simp only [minIn_offLoop hl]
  constructor
  · rintro ⟨c, b, ⟨m, hm, h⟩, h2⟩; exact ⟨c, b, ⟨m, hm, h.of_offLoop⟩, h2⟩
  · rintro ⟨c, b, ⟨m, hm, h⟩, h2, h3⟩
    obtain ⟨m'', c'', h4, h5, h6⟩ := h.offLoop hl
    exact ⟨c'', b, ⟨m'', h4.trans hm, h6⟩, h2, h5.trans_lt h3⟩

end core

omit [LinearOrder α] [IsOrderedAddMonoid α] [DecidableEq K] in
theorem walkIn_iff (h : G.WF) {u v : K} {i j} (hu : G.At u i) (hv : G.At v j) {k : Nat} {c : α} :
    WalkIn G.WEdge k u c v ↔ WalkIn (MW G.A) k i c j := by
  simp only [WalkIn, wwalk_iff h hu hv]

omit [IsOrderedAddMonoid α] [DecidableEq K] in
theorem minIn_iff (h : G.WF) {u v : K} {i j} (hu : G.At u i) (hv : G.At v j) {k : Nat} {c : α} :
    MinIn G.WEdge k u c v ↔ MinIn (MW G.A) k i c j := by
  simp only [MinIn, walkIn_iff h hu hv]

omit [IsOrderedAddMonoid α] [DecidableEq K] in
theorem negLoop_iff (h : G.WF) {s : K} {i} (hs : G.At s i) :
    (∃ x a, WReach G.WEdge s x ∧ G.WEdge x x a ∧ a < 0) ↔
    ∃ x a, WReach (MW G.A) i x ∧ G.A x x = some a ∧ a < 0 := by
  constructor
  · rintro ⟨x, a, hr, ⟨j, j', hj, hj', e⟩, ha⟩
    obtain rfl := At.id_unique h hj hj'
    exact ⟨j, a, (wreach_iff' h hs hj).1 hr, e, ha⟩
  · rintro ⟨j, a, hr, e, ha⟩
    obtain ⟨x, hj⟩ := h.exists_key j
    exact ⟨x, a, (wreach_iff' h hs hj).2 hr, ⟨j, j, hj, hj, e⟩, ha⟩


/-- a negative edge between different nodes -/
def HasNegEdge (G : Graph K α) : Prop := ∃ u v w, u ≠ v ∧ G.WEdge u v w ∧ w < 0

omit [IsOrderedAddMonoid α] [DecidableEq K] in
theorem hasNegEdge_iff (h : G.WF) : HasNegEdge G ↔ hasNegEdgesM G.A = true := by
  rw [hasNegEdgesM_iff]
  constructor
  · rintro ⟨u, v, w, hne, ⟨i, j, hi, hj, e⟩, hw⟩
    refine ⟨i, j, w, ?_, hw⟩
    unfold offdiag
    rw [if_neg, e]
    rintro rfl
    exact hne (At.key_unique h hi hj)
  · rintro ⟨i, j, a, e, ha⟩
    obtain ⟨u, hu⟩ := h.exists_key i
    obtain ⟨v, hv⟩ := h.exists_key j
    unfold offdiag at e
    split at e
    · cases e
    · rename_i hij
      refine ⟨u, v, a, ?_, ⟨i, j, hu, hv, e⟩, ha⟩
      rintro rfl
      exact hij (At.id_unique h hu hv)

/-- **C28, exactly, when some edge between different nodes is negative.**  Unbounded is raised if and only if a
negative self-loop is in reach, or walks with `n` edges to the target beat those with at most `n - 1`, or the graph is
undirected, has one weight on all edges, and the source has an edge.  Otherwise the least weight of the walks with at
most `n - 1` edges is returned, whether or not a negative cycle makes it meaningless. -/
theorem bellman_ford_path_length_exact (h : G.WF) {iso : Option α} (hiso : IsoValid G iso)
    {s t : K} (hs : G.Node s) (ht : G.Node t) (hneg : HasNegEdge G) :
    let P := (∃ x a, WReach G.WEdge s x ∧ G.WEdge x x a ∧ a < 0) ∨
      (∃ c b, WalkIn G.WEdge G.n s c t ∧ MinIn G.WEdge (G.n - 1) s b t ∧ c < b) ∨
      (iso.isSome ∧ G.directed = false ∧ ∃ v, G.Edge s v)
    (bellmanFordPathLength G iso s t = .error .unbounded ↔ P) ∧
    (¬ P → ∀ d, bellmanFordPathLength G iso s t = .ok d ↔ MinIn G.WEdge (G.n - 1) s d t) ∧
    (bellmanFordPathLength G iso s t = .error .noPath ↔ ¬ P ∧ ¬ WReach G.WEdge s t) := by
  obtain ⟨i, hi⟩ := hs.exists_id h
  obtain ⟨j, hj⟩ := ht.exists_id h
  have hn : G.n - 1 + 1 = G.n := by have := i.isLt; omega
  have hnegM := (hasNegEdge_iff h).1 hneg
  have hnegP : hasNegEdgesP G.A = true := by
    obtain ⟨a, b, w, e, hw⟩ := hasNegEdgesM_iff.1 hnegM
    refine hasNegEdgesP_iff.2 ⟨a, b, w, ?_, hw⟩
    unfold offdiag at e
    split at e
    · cases e
    · exact e
  simp only [negLoop_iff h hi, walkIn_iff h hi hj, minIn_iff h hi hj, wreach_iff' h hi hj]
  set N := ∃ x a, WReach (MW G.A) i x ∧ G.A x x = some a ∧ a < 0 with hN
  have hloop : ¬ N → ∀ x a, WReach (MW G.A) i x → MW G.A x x a → 0 ≤ a := by
    intro hno x a hx ha
    by_contra h0
    exact hno ⟨x, a, hx, ha, not_le.1 h0⟩
  have himp : ¬ N → (Improves (MW (offdiag G.A)) (G.n - 1) i j ↔
      ∃ c b, WalkIn (MW G.A) G.n i c j ∧ MinIn (MW G.A) (G.n - 1) i b j ∧ c < b) := by
    intro hno
    rw [mw_offdiag', improves_offLoop (hloop hno)]
    unfold Improves
    rw [hn]
  have hmin : ¬ N → ∀ c, MinIn (MW (offdiag G.A)) (G.n - 1) i c j ↔ MinIn (MW G.A) (G.n - 1) i c j := by
    intro hno c
    rw [mw_offdiag', minIn_offLoop (hloop hno)]
  have hreach : ¬ N → (WReach (MW G.A) i j ↔ ∃ c, MinIn (MW (offdiag G.A)) (G.n - 1) i c j) := by
    intro _
    constructor
    · intro hr
      rw [← wreach_offLoop, ← mw_offdiag'] at hr
      obtain ⟨k, c, hw⟩ := hr
      obtain ⟨c', hc'⟩ := leW_of_any (S := (· = i)) ⟨k, le_rfl, i, rfl, hw⟩
      obtain ⟨b, -, hb⟩ := best_exists (mw_fin _) hc'
      exact ⟨b, best_single.1 hb⟩
    · rintro ⟨c, ⟨m, -, hw⟩, -⟩
      rw [← wreach_offLoop, ← mw_offdiag']
      exact ⟨m, c, hw⟩
  -- the part after the early exits
  set P0 := N ∨ ∃ c b, WalkIn (MW G.A) G.n i c j ∧ MinIn (MW G.A) (G.n - 1) i b j ∧ c < b with hP0
  have core : ∀ r, r = (do
        let d ← bfCore G.A i (some j) none
        match d j with
        | none => (.error .noPath : Except Err α)
        | some x => .ok x) →
      (r = .error .unbounded ↔ P0) ∧ (¬ P0 → ∀ d, r = .ok d ↔ MinIn (MW G.A) (G.n - 1) i d j) ∧
      (r = .error .noPath ↔ ¬ P0 ∧ ¬ WReach (MW G.A) i j) := by
    rintro r rfl
    rcases target_exact G.A i j hnegM with ⟨hp, e⟩ | ⟨hp, d, e, hd⟩
    · have hp0 : P0 := by
        by_cases hno : N
        · exact .inl hno
        · exact .inr ((himp hno).1 (hp.resolve_left hno))
      rw [e]
      exact ⟨⟨fun _ => hp0, fun _ => rfl⟩, fun hx => absurd hp0 hx, ⟨fun hx => by simp [bind, Except.bind] at hx, fun hx => absurd hp0 hx.1⟩⟩
    · have hno : ¬ N := fun hx => hp (.inl hx)
      have hp0 : ¬ P0 := by
        rintro (hx | hx)
        · exact hno hx
        · exact hp (.inr ((himp hno).2 hx))
      rw [e]
      simp only [hmin hno] at hd
      cases hdj : d j with
      | some x =>
        refine ⟨⟨fun hx => ?_, fun hx => absurd hx hp0⟩, fun _ c => ?_, ⟨fun hx => ?_, fun hx => ?_⟩⟩
        · simp [bind, Except.bind, hdj] at hx
        · rw [← hd c, hdj]
          simp [bind, Except.bind, hdj]
        · simp [bind, Except.bind, hdj] at hx
        · refine absurd ((hreach hno).2 ⟨x, (hmin hno x).2 ((hd x).1 hdj)⟩) hx.2
      | none =>
        refine ⟨⟨fun hx => ?_, fun hx => absurd hx hp0⟩, fun _ c => ?_, ⟨fun _ => ⟨hp0, fun hr => ?_⟩, fun _ => ?_⟩⟩
        · simp [bind, Except.bind, hdj] at hx
        · rw [← hd c, hdj]
          simp [bind, Except.bind, hdj]
        · obtain ⟨x, hx⟩ := (hreach hno).1 hr
          rw [hmin hno, ← hd, hdj] at hx
          cases hx
        · simp [bind, Except.bind, hdj]
  unfold bellmanFordPathLength
  rw [(getId_eq_ok h).2 hi, (getId_eq_ok h).2 hj]
  simp only [bind, Except.bind]
  cases iso with
  | none =>
    simp only [Option.isSome_none, Bool.false_eq_true, false_and, or_false]
    exact core _ rfl
  | some c =>
    have hedge : (∃ v, G.Edge s v) ↔ nvals (G.A i) > 0 := by
      rw [gt_iff_lt, Nat.pos_iff_ne_zero, ne_eq, nvals_eq_zero]
      constructor
      · rintro ⟨v, a, b, ha, hb, e⟩ h0
        obtain rfl := At.id_unique h ha hi
        rw [h0 b] at e; cases e
      · intro h0
        push Not at h0
        obtain ⟨b, hb⟩ := h0
        obtain ⟨v, hv⟩ := h.exists_key b
        exact ⟨v, i, b, hi, hv, by cases hx : G.A i b <;> simp_all⟩
    have hc := iso_mw h hiso rfl
    simp only [hnegP, Bool.not_true, Bool.false_eq_true, if_false]
    by_cases hself : (G.A i i).isSome
    · have hN' : N := by
        obtain ⟨a, ha⟩ := Option.isSome_iff_exists.1 hself
        obtain ⟨x, y, w, e, hw⟩ := hasNegEdgesP_iff.1 hnegP
        refine ⟨i, a, .refl _, ha, ?_⟩
        rw [hc i i a ha, ← hc x y w e]; exact hw
      rw [if_pos hself]
      exact ⟨⟨fun _ => .inl hN', fun _ => rfl⟩, fun hx => absurd (.inl hN') hx,
        ⟨fun hx => by simp at hx, fun hx => absurd (.inl hN') hx.1⟩⟩
    · rw [if_neg hself]
      by_cases hu : G.directed = false ∧ ∃ v, G.Edge s v
      · rw [if_pos (by simp [hu.1, hedge.1 hu.2])]
        have hP : N ∨ (∃ c b, WalkIn (MW G.A) G.n i c j ∧ MinIn (MW G.A) (G.n - 1) i b j ∧ c < b) ∨
            (some c).isSome ∧ G.directed = false ∧ ∃ v, G.Edge s v := .inr (.inr ⟨rfl, hu⟩)
        exact ⟨⟨fun _ => hP, fun _ => rfl⟩, fun hx => absurd hP hx, ⟨fun hx => by simp at hx, fun hx => absurd hP hx.1⟩⟩
      · rw [if_neg (by
          simp only [Bool.and_eq_true, Bool.not_eq_true', decide_eq_true_eq]
          rintro ⟨h1, h2⟩
          exact hu ⟨h1, hedge.2 h2⟩)]
        have hP : (N ∨ (∃ c b, WalkIn (MW G.A) G.n i c j ∧ MinIn (MW G.A) (G.n - 1) i b j ∧ c < b) ∨
            (some c).isSome ∧ G.directed = false ∧ ∃ v, G.Edge s v) ↔ P0 := by
          rw [hP0]
          constructor
          · rintro (hx | hx | hx)
            · exact .inl hx
            · exact .inr hx
            · exact absurd hx.2 hu
          · rintro (hx | hx)
            · exact .inl hx
            · exact .inr (.inl hx)
        simp only [hP]
        exact core _ rfl


omit [LinearOrder α] [IsOrderedAddMonoid α] [DecidableEq K] in
theorem offWalk_iff (h : G.WF) {u v : K} {i j} (hu : G.At u i) (hv : G.At v j) {k : Nat} {c : α} :
    WWalk (WOffLoop G.WEdge) k c u v ↔ WWalk (MW (offdiag G.A)) k c i j := by
  let H : Graph K α := { G with A := offdiag G.A }
  have hW : H.WEdge = WOffLoop G.WEdge := by
    funext a b w
    refine propext ⟨?_, ?_⟩
    · rintro ⟨x, y, hx, hy, e⟩
      have e' : offdiag G.A x y = some w := e
      unfold offdiag at e'
      split at e'
      · cases e'
      · rename_i hxy
        refine ⟨?_, x, y, hx, hy, e'⟩
        rintro rfl
        exact hxy (At.id_unique h hx hy)
    · rintro ⟨hne, x, y, hx, hy, e⟩
      refine ⟨x, y, hx, hy, ?_⟩
      show offdiag G.A x y = some w
      unfold offdiag
      rw [if_neg, e]
      rintro rfl
      exact hne (At.key_unique h hx hy)
  rw [← hW]
  exact wwalk_iff (G := H) ⟨h.keys_nodup, h.ids_perm⟩ hu hv

omit [IsOrderedAddMonoid α] [DecidableEq K] in
theorem offDist_iff (h : G.WF) {u v : K} {i j} (hu : G.At u i) (hv : G.At v j) {c : α} :
    IsWDist (WOffLoop G.WEdge) u c v ↔ IsWDist (MW (offdiag G.A)) i c j := by
  simp only [IsWDist, offWalk_iff h hu hv]

/-- **C28, when no edge between different nodes is negative.**  Either Unbounded is raised, and then a negative
self-loop is in reach; or no node with a negative self-loop is as near to the source as the target is, and the result
is the least weight of the walks to the target that avoid self-loops (NoPath if there is none). -/
theorem bellman_ford_path_length_nonneg (h : G.WF)
    {s t : K} (hs : G.Node s) (ht : G.Node t) (hneg : ¬ HasNegEdge G) :
    (bellmanFordPathLength G none s t = .error .unbounded ∧
      ∃ x a, WReach G.WEdge s x ∧ G.WEdge x x a ∧ a < 0) ∨
    ((¬ ∃ x a dx, G.WEdge x x a ∧ a < 0 ∧ IsWDist (WOffLoop G.WEdge) s dx x ∧
        ∀ dt, IsWDist (WOffLoop G.WEdge) s dt t → dx ≤ dt) ∧
      (∀ d, bellmanFordPathLength G none s t = .ok d ↔ IsWDist (WOffLoop G.WEdge) s d t) ∧
      (bellmanFordPathLength G none s t = .error .noPath ↔ ¬ ∃ d, IsWDist (WOffLoop G.WEdge) s d t)) := by
  obtain ⟨i, hi⟩ := hs.exists_id h
  obtain ⟨j, hj⟩ := ht.exists_id h
  have hnegM : hasNegEdgesM G.A = false := by
    rw [hasNegEdge_iff h] at hneg; simpa using hneg
  simp only [offDist_iff h hi hj, negLoop_iff h hi]
  unfold bellmanFordPathLength
  rw [(getId_eq_ok h).2 hi, (getId_eq_ok h).2 hj]
  simp only [bind, Except.bind]
  rcases target_nonneg G.A i j hnegM with ⟨e, hx⟩ | ⟨hx, d, e, hd⟩
  · left
    rw [e]
    exact ⟨rfl, hx⟩
  · right
    refine ⟨?_, ?_⟩
    · rintro ⟨x, a, dx, ⟨y, y', hy, hy', ea⟩, ha, hdx, hdt⟩
      obtain rfl := At.id_unique h hy hy'
      exact hx ⟨y, a, dx, ea, ha, (offDist_iff h hi hy).1 hdx, hdt⟩
    · rw [e]
      simp only [← hd]
      cases hdj : d j <;> simp

/-! ### the hypotheses are met -/

/-- 0 → 1 → 2 of weight 1, a self-loop of weight -1 at 2 -/
def Ex.farLoop : Graph Nat Int where
  n := 3
  A := Ex.ofTriples 3 [(0,1,1), (1,2,1), (2,2,-1), (2,1,1)]
  keyToId := [(0,0),(1,1),(2,2)]
  directed := true

/-- **C28, finding.** a negative self-loop that can reach the target is not noticed when it is farther away than the
target: `bellman_ford_path_length(G, 0, 1)` is 1 although walks through the self-loop are arbitrarily light -/
theorem bellman_ford_path_length_misses_negative_self_loop :
    Ex.farLoop.WF ∧ ¬ HasNegEdge Ex.farLoop ∧ NegCycleAt Ex.farLoop.WEdge 2 ∧ WReach Ex.farLoop.WEdge 0 2 ∧
    WReach Ex.farLoop.WEdge 2 1 ∧ bellmanFordPathLength Ex.farLoop none 0 1 = .ok 1 ∧
    bellmanFordPathLength Ex.farLoop none 0 2 = .error .unbounded := by
  have hw : Ex.farLoop.WF := ⟨by decide, by decide⟩
  have e01 : Ex.farLoop.WEdge 0 1 1 := by decide +kernel
  have e12 : Ex.farLoop.WEdge 1 2 1 := by decide +kernel
  refine ⟨hw, ?_, ⟨1, -1, .single (by decide +kernel), by decide⟩,
    ⟨2, 1 + 1, (WWalk.single e01).snoc e12⟩,
    ⟨1, 1, .single (by decide +kernel)⟩, by decide +kernel, by decide +kernel⟩
  rw [hasNegEdge_iff hw]
  decide +kernel

example : Ex.missed.WF ∧ HasNegEdge Ex.missed ∧ bellmanFordPathLength Ex.missed none 0 2 = .ok (-1) ∧
    bellmanFordPathLength Ex.missed none 0 0 = .error .unbounded ∧
    bellmanFordPathLength Ex.missed none 0 3 = .error .noPath :=
  ⟨⟨by decide, by decide⟩, ⟨1, 0, -11, by decide, by decide +kernel, by decide⟩, by decide +kernel, by decide +kernel,
    by decide +kernel⟩

end Props
