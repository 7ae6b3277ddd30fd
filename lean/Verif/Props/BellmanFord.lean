import Verif.Proofs.BellmanFord
import Verif.Props.Bfs

/-!
# Weighted shortest paths: C27, C28, C29, C31

`G.WEdge u v w` is the weighted edge relation between node keys; `WWalk`, `IsWDist`,
`NegCycleFrom`, `NegCycleAt` are the independent notions of `Spec/WWalk.lean`.
Weights range over an arbitrary linearly ordered commutative group.
-/

open GB Spec Model Model.Graph Proofs Proofs.Bfs Proofs.BF

namespace Props

variable {K α : Type} {G : Graph K α}

/-- what `is_iso` / `iso_value` may report: a value only if every edge has that weight.  (The
converse is not required: SuiteSparse may not notice that a matrix is iso-valued.) -/
def IsoValid (G : Graph K α) (iso : Option α) : Prop :=
  ∀ c, iso = some c → ∀ u v w, G.WEdge u v w → w = c

/-- specification of Python's `int(x // c)` for positive `c` -/
def FloorDiv [AddCommGroup α] [LinearOrder α] (fdiv : α → α → Int) : Prop :=
  ∀ x c, 0 < c → 0 ≤ x → 0 ≤ fdiv x c ∧ ∀ l : Nat, (l : Int) ≤ fdiv x c ↔ l • c ≤ x

section transport
variable [Zero α] [Add α]

theorem wwalk_iff (h : G.WF) {u v : K} {i j} (hu : G.At u i) (hv : G.At v j) {k : Nat} {c : α} :
    WWalk G.WEdge k c u v ↔ WWalk (MW G.A) k c i j :=
  wwalk_transport (R := G.At) (fun _ _ _ h1 h2 => At.key_unique h h1 h2)
    (fun _ _ _ h1 h2 => At.id_unique h h1 h2) h.exists_key (fun _ _ _ => Iff.rfl) hu hv

theorem wreach_iff' (h : G.WF) {u v : K} {i j} (hu : G.At u i) (hv : G.At v j) :
    WReach G.WEdge u v ↔ WReach (MW G.A) i j := by
  simp only [WReach, wwalk_iff h hu hv]

theorem WWalk_node {k : Nat} {c : α} {u v : K} (hu : G.Node u) (h : WWalk G.WEdge k c u v) :
    G.Node v := by
  cases h with
  | nil => exact hu
  | snoc _ e => obtain ⟨_, _, _, h, _⟩ := e; exact h.node

variable [LinearOrder α]

theorem isWDist_iff (h : G.WF) {u v : K} {i j} (hu : G.At u i) (hv : G.At v j) {c : α} :
    IsWDist G.WEdge u c v ↔ IsWDist (MW G.A) i c j := by
  simp only [IsWDist, wwalk_iff h hu hv]

theorem negCycleAt_iff (h : G.WF) {u : K} {i} (hu : G.At u i) :
    NegCycleAt G.WEdge u ↔ NegCycleAt (MW G.A) i := by
  simp only [NegCycleAt, wwalk_iff h hu hu]

theorem negFrom_iff (h : G.WF) {u : K} {i} (hu : G.At u i) :
    NegCycleFrom G.WEdge u ↔ NegCycleFrom (MW G.A) i := by
  constructor
  · rintro ⟨x, hr, hx⟩
    obtain ⟨k, c, hw⟩ := id hr
    obtain ⟨j, hj⟩ := (WWalk_node hu.node hw).exists_id h
    exact ⟨j, (wreach_iff' h hu hj).1 hr, (negCycleAt_iff h hj).1 hx⟩
  · rintro ⟨j, hr, hx⟩
    obtain ⟨x, hj⟩ := h.exists_key j
    exact ⟨x, (wreach_iff' h hu hj).2 hr, (negCycleAt_iff h hj).2 hx⟩

end transport

theorem iso_mw (h : G.WF) {c : α} {iso : Option α} (hiso : IsoValid G iso) (hc : iso = some c) :
    ∀ i j a, G.A i j = some a → a = c := by
  intro i j a ha
  obtain ⟨u, hu⟩ := h.exists_key i
  obtain ⟨v, hv⟩ := h.exists_key j
  exact hiso c hc u v a ⟨i, j, hu, hv, ha⟩

theorem walk_mw [Zero α] [Add α] {n : Nat} {A : Mat n n α} {k : Nat} {i j : Fin n} :
    Walk (Adj A) k i j ↔ ∃ x, WWalk (MW A) k x i j := by
  have e : ∀ x y, Adj A x y ↔ ∃ a, MW A x y a := fun x y => Option.isSome_iff_exists
  rw [walk_congr e]
  exact ⟨fun h => h.wwalk, fun ⟨x, h⟩ => h.walk⟩

variable [DecidableEq K]

theorem target_level {n : Nat} {A : Mat n n α} {i j : Fin n} {l : Nat} :
    bfsLevelFrom (offdiag A) i (some j) none j = some l ↔ IsDist (Adj A) i l j := by
  have h0 : LInv (Adj (offdiag A)) (· = i) 0 (vset vempty i 0) := by
    intro j d
    unfold vset vempty
    constructor
    · intro h
      split at h
      · cases h; exact ⟨le_rfl, distFrom_zero.2 ‹_›⟩
      · cases h
    · rintro ⟨hd, h⟩
      obtain rfl : d = 0 := by omega
      rw [if_pos (distFrom_zero.1 h)]
  have hq : ∀ j, (vset (vempty : Vec n Bool) i true j).isSome ↔
      IsDistFrom (Adj (offdiag A)) (· = i) 0 j := by
    intro j; rw [vset_isSome, distFrom_zero]
  obtain ⟨L, h1, h2⟩ := levelLoop_spec' (some j) (n - 1) 0 h0 hq
  have e : bfsLevelFrom (offdiag A) i (some j) none =
    bfsLevelLoop (offdiag A) (some j) (List.range' (0+1) (n-1)) (vset vempty i 0)
      (vset vempty i true) := by
    unfold bfsLevelFrom range1 getCutoff; simp
  rw [e, h2 j l, ← isDist_offLoop, ← isDist_congr (adj_offdiag A), isDist_iff_from]
  constructor
  · rintro ⟨-, h⟩; exact h
  · intro h
    refine ⟨h1.complete (Or.inr rfl) ?_ h, h⟩
    have := distFrom_lt_card h
    rw [Fintype.card_fin] at this
    omega

variable [AddCommGroup α] [LinearOrder α] [IsOrderedAddMonoid α]

section iso
variable {n : Nat} {A : Mat n n α} {c : α}
omit [LinearOrder α] [IsOrderedAddMonoid α]

theorem iso_walk (hc : ∀ i j a, A i j = some a → a = c) {k : Nat} {x : α} {i j}
    (h : WWalk (MW A) k x i j) : x = k • c := by
  induction h with
  | nil => simp
  | snoc _ e ih => rw [ih, hc _ _ _ e, succ_nsmul]

variable [LinearOrder α] [IsOrderedAddMonoid α]

/-- on an iso-valued matrix without negative entries the weighted distance is hops times value -/
theorem iso_dist (hc : ∀ i j a, A i j = some a → a = c) (hnn : Nonneg A) {i j : Fin n}
    {x : α} : IsWDist (MW A) i x j ↔ ∃ l, IsDist (Adj A) i l j ∧ x = l • c := by
  have hmono : ∀ {l k : Nat} {x y}, WWalk (MW A) l x i j → WWalk (MW A) k y i j → l ≤ k → x ≤ y := by
    intro l k x y h1 h2 hlk
    rw [iso_walk hc h1, iso_walk hc h2]
    rcases Nat.eq_zero_or_pos k with rfl | hk
    · obtain rfl : l = 0 := by omega
      exact le_rfl
    · have : 0 ≤ c := by
        obtain ⟨k, rfl⟩ : ∃ k', k = k' + 1 := ⟨k-1, by omega⟩
        obtain ⟨_, _, a, -, e, -⟩ := wwalk_succ.1 h2
        have := hnn _ _ _ e
        rwa [hc _ _ _ e] at this
      exact nsmul_le_nsmul_left this hlk
  constructor
  · rintro ⟨⟨k, hk⟩, hm⟩
    obtain ⟨l, hlk, hl⟩ := exists_dist (walk_mw.2 ⟨x, hk⟩)
    obtain ⟨y, hy⟩ := walk_mw.1 hl.1
    refine ⟨l, hl, ?_⟩
    rw [← iso_walk hc hy]
    exact le_antisymm (hm _ _ hy) (hmono hy hk hlk)
  · rintro ⟨l, hl, rfl⟩
    obtain ⟨y, hy⟩ := walk_mw.1 hl.1
    rw [← iso_walk hc hy]
    exact ⟨⟨l, hy⟩, fun k z hz => hmono hy hz (hl.2 k (walk_mw.2 ⟨z, hz⟩))⟩

private theorem iso_neg (hc : ∀ i j a, A i j = some a → a = c) (hneg : hasNegEdgesP A = true) :
    c < 0 := by
  obtain ⟨i, j, a, ha, h0⟩ := hasNegEdgesP_iff.1 hneg
  rwa [hc _ _ _ ha] at h0

/-- the two early exits for iso-valued negative matrices are right -/
private theorem iso_exit (hc : ∀ i j a, A i j = some a → a = c) (hneg : hasNegEdgesP A = true)
    {s : Fin n} (hs : (A s s).isSome ∨ ((∀ i j, A i j = A j i) ∧ 0 < nvals (A s))) :
    NegCycleFrom (MW A) s := by
  have h0 := iso_neg hc hneg
  refine ⟨s, .refl s, ?_⟩
  rcases hs with hs | ⟨hsym, hs⟩
  · obtain ⟨a, ha⟩ := Option.isSome_iff_exists.1 hs
    refine ⟨1, a, .single ha, ?_⟩
    rwa [hc _ _ _ ha]
  · obtain ⟨j, hj⟩ := nvals_pos.1 hs
    obtain ⟨a, ha⟩ := Option.isSome_iff_exists.1 hj
    have ha' : MW A j s a := by show A j s = some a; rw [hsym j s, ha]
    refine ⟨2, a + a, (WWalk.single ha).snoc ha', ?_⟩
    rw [hc _ _ _ ha]
    exact add_neg h0 h0

end iso

/-! ### C27 -/

private theorem single_row (h : G.WF) (hsym : G.directed = false → G.Symm) {iso : Option α}
    (hiso : IsoValid G iso) (fdiv : α → α → Int) {s : K} {i} (hs : G.At s i) :
    (NegCycleFrom (MW G.A) i ∧ singleSourceBF G iso fdiv s none = .error .unbounded) ∨
    (¬ NegCycleFrom (MW G.A) i ∧ ∃ d, singleSourceBF G iso fdiv s none = .ok d ∧
      ∀ j c, d j = some c ↔ IsWDist (MW G.A) i c j) := by
  unfold singleSourceBF
  rw [(getId_eq_ok h).2 hs]
  simp only [bind, Except.bind]
  cases iso with
  | none => exact core_spec G.A i
  | some c =>
    have hc := iso_mw h hiso rfl
    simp only
    split
    · rename_i hneg
      have hnn : Nonneg G.A := hasNegEdgesP_false (by simpa using hneg)
      right
      refine ⟨noNeg_single.1 hnn.noNeg, ?_⟩
      simp only [pure, Except.pure]
      rw [bfsLevel_ok h hs]
      refine ⟨_, rfl, fun j x => ?_⟩
      rw [iso_dist hc hnn, vapply, Option.map_eq_some_iff]
      simp only [levelFrom_spec _ _ _ (by simp : ∀ x : Int, (none : Option Int) = some x → 0 ≤ x),
        isDist_congr adj_bfsMatrix_false, isDist_offLoop]
      constructor
      · rintro ⟨l, ⟨h1, -⟩, rfl⟩; exact ⟨l, h1, rfl⟩
      · rintro ⟨l, h1, rfl⟩; exact ⟨l, ⟨h1, within_none l⟩, rfl⟩
    · rename_i hneg
      have hneg : hasNegEdgesP G.A = true := by simpa using hneg
      split
      · rename_i hl
        exact Or.inl ⟨iso_exit hc hneg (Or.inl hl), rfl⟩
      · split
        · rename_i hu
          simp only [Bool.and_eq_true, Bool.not_eq_true', decide_eq_true_eq] at hu
          exact Or.inl ⟨iso_exit hc hneg (Or.inr ⟨hsym hu.1, hu.2⟩), rfl⟩
        · exact core_spec G.A i

/-- **C27.** `single_source_bellman_ford_path_length(G, s)` raises Unbounded exactly when a
negative cycle (self-loops included) is reachable from `s`; otherwise it has value `d` at `u`
exactly when `d` is the minimum total weight over all walks from `s` to `u` — whatever iso
information SuiteSparse reports. -/
theorem single_source_bellman_ford_path_length_correct (h : G.WF)
    (hsym : G.directed = false → G.Symm) {iso : Option α} (hiso : IsoValid G iso)
    (fdiv : α → α → Int) {s : K} (hs : G.Node s) :
    (NegCycleFrom G.WEdge s ∧ singleSourceBF G iso fdiv s none = .error .unbounded) ∨
    (¬ NegCycleFrom G.WEdge s ∧ ∃ r, singleSourceBF G iso fdiv s none = .ok r ∧
      ∀ u d, G.view r u = some d ↔ IsWDist G.WEdge s d u) := by
  obtain ⟨i, hi⟩ := hs.exists_id h
  rw [negFrom_iff h hi]
  refine (single_row h hsym hiso fdiv hi).imp id ?_
  rintro ⟨h1, d, h2, h3⟩
  refine ⟨h1, d, h2, fun u x => ?_⟩
  rw [view_eq_some h]
  constructor
  · rintro ⟨j, hj, hd⟩; exact (isWDist_iff h hi hj).2 ((h3 j x).1 hd)
  · intro hd
    obtain ⟨k, hk⟩ := hd.1
    obtain ⟨j, hj⟩ := (WWalk_node hs hk).exists_id h
    exact ⟨j, hj, (h3 j x).2 ((isWDist_iff h hi hj).1 hd)⟩

/-- **C27.** A source that is not a node raises. -/
theorem single_source_bellman_ford_path_length_missing (h : G.WF) {iso : Option α}
    (fdiv : α → α → Int) {s : K} (hs : ¬ G.Node s) (c : Option α) :
    singleSourceBF G iso fdiv s c = .error .keyError := by
  unfold singleSourceBF
  rw [getId_eq_error h hs]; rfl

/-- **C27, cutoff.** Without negative edges, a cutoff `x ≥ 0` keeps exactly the nodes at weighted
distance at most `x`. -/
theorem single_source_bellman_ford_path_length_cutoff (h : G.WF) {iso : Option α}
    (hiso : IsoValid G iso) (h0 : iso ≠ some 0) {fdiv : α → α → Int} (hf : FloorDiv fdiv)
    (hnn : ∀ u v w, G.WEdge u v w → 0 ≤ w) {s : K} (hs : G.Node s) {x : α} (hx : 0 ≤ x)
    (hpos : ∀ c, iso = some c → 0 ≤ c) :
    ∃ r, singleSourceBF G iso fdiv s (some x) = .ok r ∧
      ∀ u d, G.view r u = some d ↔ IsWDist G.WEdge s d u ∧ d ≤ x := by
  obtain ⟨i, hi⟩ := hs.exists_id h
  have hA : Nonneg G.A := by
    intro a b w hw
    obtain ⟨u, hu⟩ := h.exists_key a
    obtain ⟨v, hv⟩ := h.exists_key b
    exact hnn u v w ⟨a, b, hu, hv, hw⟩
  have key : ∃ d, singleSourceBF G iso fdiv s (some x) = .ok d ∧
      ∀ j c, d j = some c ↔ IsWDist (MW G.A) i c j ∧ c ≤ x := by
    unfold singleSourceBF
    rw [(getId_eq_ok h).2 hi]
    simp only [bind, Except.bind]
    cases iso with
    | none => exact cutoff_spec G.A i x hx hA
    | some c =>
      have hc := iso_mw h hiso rfl
      have hc0 : c ≠ 0 := by rintro rfl; exact h0 rfl
      have hcp : 0 < c := lt_of_le_of_ne (hpos c rfl) (Ne.symm hc0)
      have hP : hasNegEdgesP G.A = false := by
        rw [← Bool.not_eq_true, hasNegEdgesP_iff]
        rintro ⟨a, b, w, hw, hlt⟩
        exact absurd (hA _ _ _ hw) (not_le.2 hlt)
      simp only [hP, Bool.not_false, if_true, hc0, if_false, pure, Except.pure]
      obtain ⟨hfn, hfl⟩ := hf x c hcp hx
      rw [bfsLevel_ok h hi]
      refine ⟨_, rfl, fun j y => ?_⟩
      rw [iso_dist hc hA, vapply, Option.map_eq_some_iff]
      simp only [levelFrom_spec _ _ (some (fdiv x c)) (by intro z hz; cases hz; exact hfn),
        isDist_congr adj_bfsMatrix_false, isDist_offLoop]
      constructor
      · rintro ⟨l, ⟨h1, h2⟩, rfl⟩
        exact ⟨⟨l, h1, rfl⟩, (hfl l).1 (h2 _ rfl)⟩
      · rintro ⟨⟨l, h1, rfl⟩, h2⟩
        exact ⟨l, ⟨h1, fun z hz => by cases hz; exact (hfl l).2 h2⟩, rfl⟩
  obtain ⟨d, h1, h2⟩ := key
  refine ⟨d, h1, fun u y => ?_⟩
  rw [view_eq_some h]
  constructor
  · rintro ⟨j, hj, hd⟩
    obtain ⟨a, b⟩ := (h2 j y).1 hd
    exact ⟨(isWDist_iff h hi hj).2 a, b⟩
  · rintro ⟨hd, hle⟩
    obtain ⟨k, hk⟩ := hd.1
    obtain ⟨j, hj⟩ := (WWalk_node hs hk).exists_id h
    exact ⟨j, hj, (h2 j y).2 ⟨(isWDist_iff h hi hj).1 hd, hle⟩⟩

/-- integer floor division satisfies the specification of `//` used above -/
theorem int_floorDiv : FloorDiv (α := ℤ) (fun x c => x / c) := by
  intro x c hc hx
  refine ⟨Int.ediv_nonneg hx hc.le, fun l => ?_⟩
  rw [Int.le_ediv_iff_mul_le hc, nsmul_eq_mul]

example : ∃ r, singleSourceBF Ex.dg none (fun x c => x / c) 10 (some 11) = .ok r ∧
    [10,20,30,40].map (Ex.dg.view r) = [some 0, some 5, none, none] := by
  refine ⟨_, rfl, ?_⟩; decide +kernel
example : ∃ r, singleSourceBF Ex.ug (some 1) (fun x c => x / c) 1 none = .ok r ∧
    [1,2,3,4,5].map (Ex.ug.view r) = [some 0, some 1, some 2, some 3, some 2] := by
  refine ⟨_, rfl, ?_⟩; decide +kernel
example : IsoValid Ex.ug (some 1) := by
  have key : ∀ i j, ∀ w ∈ Ex.ug.A i j, w = 1 := by decide +kernel
  intro c hc u v w ⟨i, j, _, _, hw⟩; cases hc
  exact key i j w hw

/-- negative edges but no negative cycle: 1 →(4) 2 →(-3) 3, 1 →(2) 3, 4 →(-1) 1, 3 →(5) 3 -/
def Ex.neg : Graph Nat Int where
  n := 4
  A := Ex.ofTriples 4 [(0,1,4), (0,2,2), (1,2,-3), (3,0,-1), (2,2,5)]
  keyToId := [(1,0),(2,1),(3,2),(4,3)]
  directed := true

example : ∃ r, singleSourceBF Ex.neg none (fun x c => x / c) 4 none = .ok r ∧
    [1,2,3,4].map (Ex.neg.view r) = [some (-1), some 3, some 0, some 0] := by
  refine ⟨_, rfl, ?_⟩; decide +kernel

/-! ### C28 -/

/-- **C28 (exactness part).** When no negative cycle is reachable from `s`,
`bellman_ford_path_length(G, s, t)` returns the minimum total weight over all walks from `s` to
`t`, and raises NoPath exactly when `t` is unreachable. -/
theorem bellman_ford_path_length_correct_partial (h : G.WF)
    (hsym : G.directed = false → G.Symm) {iso : Option α} (hiso : IsoValid G iso)
    {s t : K} (hs : G.Node s) (ht : G.Node t) (hno : ¬ NegCycleFrom G.WEdge s) :
    (∃ d, IsWDist G.WEdge s d t ∧ bellmanFordPathLength G iso s t = .ok d) ∨
    (¬ WReach G.WEdge s t ∧ bellmanFordPathLength G iso s t = .error .noPath) := by
  obtain ⟨i, hi⟩ := hs.exists_id h
  obtain ⟨j, hj⟩ := ht.exists_id h
  rw [negFrom_iff h hi] at hno
  simp only [isWDist_iff h hi hj, wreach_iff' h hi hj]
  have hreach : WReach (MW G.A) i j → ∃ d, IsWDist (MW G.A) i d j := by
    intro hr
    rcases core_spec G.A i with ⟨hn, -⟩ | ⟨-, d, -, hd⟩
    · exact absurd hn hno
    · by_contra hcon
      push Not at hcon
      obtain ⟨k, c, hw⟩ := hr
      obtain ⟨k', c', hk', -, -, hw'⟩ := shorten (noNeg_single.2 hno) rfl hw
      rw [Fintype.card_fin] at hk'
      obtain ⟨b, -, hb⟩ := best_exists (S := (· = i)) (k := G.n) (mw_fin G.A)
        ⟨k', by omega, i, rfl, hw'⟩
      refine hcon b ?_
      rw [← distW_single]
      refine ⟨⟨_, hb.1⟩, ?_⟩
      rintro m c'' ⟨m', -, _, rfl, hw''⟩
      obtain ⟨k2, c2, h1, -, h2, h3⟩ := shorten (noNeg_single.2 hno) rfl hw''
      rw [Fintype.card_fin] at h1
      exact (hb.2 c2 ⟨k2, by omega, _, rfl, h3⟩).trans h2
  -- any vector that is right at the target gives the answer
  have fin : ∀ d : Vec G.n α, (∀ c, d j = some c ↔ IsWDist (MW G.A) i c j) →
      (∃ x, IsWDist (MW G.A) i x j ∧ (match d j with
        | none => (.error .noPath : Except Err α)
        | some x => .ok x) = .ok x) ∨
      (¬ WReach (MW G.A) i j ∧ (match d j with
        | none => (.error .noPath : Except Err α)
        | some x => .ok x) = .error .noPath) := by
    intro d hd
    cases hx : d j with
    | some x => exact Or.inl ⟨x, (hd x).1 hx, rfl⟩
    | none =>
      refine Or.inr ⟨fun hr => ?_, rfl⟩
      obtain ⟨x, hx'⟩ := hreach hr
      rw [(hd x).2 hx'] at hx; cases hx
  obtain ⟨dc, hdc, hdc'⟩ := (target_spec G.A i j).2 hno
  unfold bellmanFordPathLength
  rw [(getId_eq_ok h).2 hi, (getId_eq_ok h).2 hj]
  simp only [bind, Except.bind]
  cases iso with
  | none =>
    simp only [hdc]
    exact fin dc hdc'
  | some c =>
    have hc := iso_mw h hiso rfl
    simp only
    split
    · rename_i hneg
      have hnn : Nonneg G.A := hasNegEdgesP_false (by simpa using hneg)
      have hl : bfsLevel G s (some t) none = .ok (bfsLevelFrom (offdiag G.A) i (some j) none) := by
        unfold bfsLevel
        rw [(getId_eq_ok h).2 hi]
        simp only [bind, Except.bind]
        rw [(getId_eq_ok h).2 hj]
        rfl
      rw [hl]
      simp only
      apply fin
      intro x
      rw [iso_dist hc hnn, vapply, Option.map_eq_some_iff]
      simp only [target_level]
      constructor
      · rintro ⟨l, h1, rfl⟩; exact ⟨l, h1, rfl⟩
      · rintro ⟨l, h1, rfl⟩; exact ⟨l, h1, rfl⟩
    · rename_i hneg
      have hneg : hasNegEdgesP G.A = true := by simpa using hneg
      split
      · rename_i hl
        exact absurd (iso_exit hc hneg (Or.inl hl)) hno
      · split
        · rename_i hu
          simp only [Bool.and_eq_true, Bool.not_eq_true', decide_eq_true_eq] at hu
          exact absurd (iso_exit hc hneg (Or.inr ⟨hsym hu.1, hu.2⟩)) hno
        · simp only [hdc]
          exact fin dc hdc'

/-- **C28 (soundness of Unbounded).** Unbounded is raised only when a negative cycle is reachable
from the source. -/
theorem bellman_ford_path_length_unbounded_sound (h : G.WF)
    (hsym : G.directed = false → G.Symm) {iso : Option α} (hiso : IsoValid G iso)
    {s t : K} (hs : G.Node s) (ht : G.Node t)
    (hu : bellmanFordPathLength G iso s t = .error .unbounded) : NegCycleFrom G.WEdge s := by
  by_contra hno
  rcases bellman_ford_path_length_correct_partial h hsym hiso hs ht hno with ⟨d, -, e⟩ | ⟨-, e⟩ <;>
    rw [e] at hu <;> cases hu

/-- **C28.** Unknown nodes raise KeyError (NodeNotFound in the NetworkX API). -/
theorem bellman_ford_path_length_missing (h : G.WF) {iso : Option α} {s t : K}
    (hst : ¬ G.Node s ∨ ¬ G.Node t) : bellmanFordPathLength G iso s t = .error .keyError := by
  unfold bellmanFordPathLength
  by_cases hs : G.Node s
  · obtain ⟨i, hi⟩ := hs.exists_id h
    rw [(getId_eq_ok h).2 hi]
    rw [getId_eq_error h (hst.resolve_left (not_not.2 hs))]; rfl
  · rw [getId_eq_error h hs]; rfl

/-- nodes 0, 1, 2, 3: 0 →(10) 1 →(-11) 0 is a negative cycle, 0 →(0) 2; 3 is isolated -/
def Ex.missed : Graph Nat Int where
  n := 4
  A := Ex.ofTriples 4 [(0,1,10), (1,0,-11), (0,2,0)]
  keyToId := [(0,0),(1,1),(2,2),(3,3)]
  directed := true

/-- **C28, the missing part is false of the code**: with a target, only the target's own
improvement in the last round is looked at, so a negative cycle through the source that reaches
the target can go unnoticed; a finite "distance" is returned although walk weights are unbounded
below. -/
theorem bellman_ford_path_length_misses_negative_cycle :
    Ex.missed.WF ∧ NegCycleAt Ex.missed.WEdge 0 ∧ WReach Ex.missed.WEdge 0 2 ∧
    bellmanFordPathLength Ex.missed none 0 2 = .ok (-1) ∧
    ¬ ∃ d, IsWDist Ex.missed.WEdge 0 d 2 := by
  have e01 : Ex.missed.WEdge 0 1 10 := by decide +kernel
  have e10 : Ex.missed.WEdge 1 0 (-11) := by decide +kernel
  have e02 : Ex.missed.WEdge 0 2 0 := by decide +kernel
  have hcyc : WWalk Ex.missed.WEdge 2 (-1) 0 0 := (WWalk.single e01).snoc e10
  refine ⟨⟨by decide, by decide⟩, ⟨2, -1, hcyc, by decide⟩, ⟨1, 0, .single e02⟩, by decide +kernel,
    ?_⟩
  rintro ⟨d, ⟨k, hw⟩, hmin⟩
  have := hmin _ _ (hcyc.append hw)
  omega

example : bellmanFordPathLength Ex.neg none 4 3 = .ok 0 ∧
    bellmanFordPathLength Ex.neg none 3 4 = .error .noPath ∧
    bellmanFordPathLength Ex.ug (some 1) 1 4 = .ok 3 := by decide +kernel
example : ¬ NegCycleFrom Ex.neg.WEdge 4 := by
  rcases single_source_bellman_ford_path_length_correct (G := Ex.neg) ⟨by decide, by decide⟩
    (by intro h; cases h) (iso := none) (by intro c hc; cases hc) (fun x c => x / c) (s := 4) (by decide) with
    ⟨-, e⟩ | ⟨h, -⟩
  · have : ∃ r, singleSourceBF Ex.neg none (fun x c => x / c) 4 none = .ok r := ⟨_, rfl⟩
    obtain ⟨r, hr⟩ := this
    rw [hr] at e; cases e
  · exact h

/-! ### C29 -/

/-- the single-source answer as a total function (only used where it is `.ok`) -/
private def sp (G : Graph K α) (iso : Option α) (fdiv : α → α → Int) (u : K) : Vec G.n α :=
  match singleSourceBF G iso fdiv u none with
  | .ok d => d
  | .error _ => vempty

private theorem multi_row (h : G.WF) (hsym : G.directed = false → G.Symm) {iso : Option α}
    (hiso : IsoValid G iso) (fdiv : α → α → Int) {k : Nat} (ids : Fin k → Fin G.n)
    (key : Fin k → K) (hkey : ∀ r, G.At (key r) (ids r)) :
    ((∃ r, NegCycleFrom (MW G.A) (ids r)) ∧ bellmanFordPathLengths G iso ids = .error .unbounded) ∨
    ((∀ r, ¬ NegCycleFrom (MW G.A) (ids r)) ∧
      bellmanFordPathLengths G iso ids = .ok fun r => sp G iso fdiv (key r)) := by
  -- a matrix of exact distances is the matrix of single-source answers
  have uniq : ∀ D : Mat k G.n α, (∀ r, ¬ NegCycleFrom (MW G.A) (ids r)) →
      (∀ r j c, D r j = some c ↔ IsWDist (MW G.A) (ids r) c j) →
      D = fun r => sp G iso fdiv (key r) := by
    intro D hno hD
    funext r j
    apply Option.ext
    intro c
    rcases single_row h hsym hiso fdiv (hkey r) with ⟨hn, -⟩ | ⟨-, d, hd, hd'⟩
    · exact absurd hn (hno r)
    · have : sp G iso fdiv (key r) = d := by unfold sp; rw [hd]
      rw [this, hD, hd']
  have core : ((∃ r, NegCycleFrom (MW G.A) (ids r)) ∧ bfCoreM G.A ids = .error .unbounded) ∨
      ((∀ r, ¬ NegCycleFrom (MW G.A) (ids r)) ∧
        bfCoreM G.A ids = .ok fun r => sp G iso fdiv (key r)) := by
    rcases coreM_spec G.A ids with h1 | ⟨h1, D, h2, h3⟩
    · exact Or.inl h1
    · exact Or.inr ⟨h1, by rw [h2, uniq D h1 h3]⟩
  unfold bellmanFordPathLengths
  cases iso with
  | none => exact core
  | some c =>
    have hc := iso_mw h hiso rfl
    simp only
    split
    · rename_i hneg
      have hnn : Nonneg G.A := hasNegEdgesP_false (by simpa using hneg)
      have hno : ∀ r, ¬ NegCycleFrom (MW G.A) (ids r) := fun r => noNeg_single.1 hnn.noNeg
      right
      refine ⟨hno, ?_⟩
      congr 1
      apply uniq _ hno
      intro r j x
      rw [iso_dist hc hnn, mapply, Option.map_eq_some_iff, levelsFrom_eq]
      simp only [levelFrom_spec _ _ _ (by simp : ∀ x : Int, (none : Option Int) = some x → 0 ≤ x),
        isDist_congr (adj_offdiag G.A), isDist_offLoop]
      constructor
      · rintro ⟨l, ⟨h1, -⟩, rfl⟩; exact ⟨l, h1, rfl⟩
      · rintro ⟨l, h1, rfl⟩; exact ⟨l, ⟨h1, within_none l⟩, rfl⟩
    · rename_i hneg
      have hneg : hasNegEdgesP G.A = true := by simpa using hneg
      split
      · rename_i hu
        simp only [Bool.and_eq_true, Bool.not_eq_true', decide_eq_true_eq] at hu
        left
        have : ¬ mnvals (fun r => G.A (ids r)) = 0 := by omega
        rw [mnvals_eq_zero] at this
        push Not at this
        obtain ⟨r, j, hrj⟩ := this
        refine ⟨⟨r, iso_exit hc hneg (Or.inr ⟨hsym hu.1, nvals_pos.2 ⟨j, ?_⟩⟩)⟩, rfl⟩
        exact Option.isSome_iff_ne_none.2 hrj
      · exact core

/-- **C29 (batches).** `bellman_ford_path_lengths(G, nodes)` raises Unbounded exactly when some
listed source reaches a negative cycle; otherwise its rows are the single-source results. -/
theorem bellman_ford_path_lengths_batch (h : G.WF) (hsym : G.directed = false → G.Symm)
    {iso : Option α} (hiso : IsoValid G iso) (fdiv : α → α → Int) {k : Nat} (nodes : Fin k → K)
    (ids : Fin k → Fin G.n) (hids : ∀ r, G.At (nodes r) (ids r)) :
    ((∃ r, NegCycleFrom G.WEdge (nodes r)) ∧
      bellmanFordPathLengths G iso ids = .error .unbounded) ∨
    ((∀ r, ¬ NegCycleFrom G.WEdge (nodes r)) ∧ ∃ D, bellmanFordPathLengths G iso ids = .ok D ∧
      ∀ r, singleSourceBF G iso fdiv (nodes r) none = .ok (D r)) := by
  simp only [negFrom_iff h (hids _)]
  rcases multi_row h hsym hiso fdiv ids nodes hids with h1 | ⟨h1, h2⟩
  · exact Or.inl h1
  · refine Or.inr ⟨h1, _, h2, fun r => ?_⟩
    rcases single_row h hsym hiso fdiv (hids r) with ⟨hn, -⟩ | ⟨-, d, hd, -⟩
    · exact absurd hn (h1 r)
    · unfold sp; rw [hd]

private theorem zip_sp {nodes : List K} {m : Nat} (hlen : nodes.length = m) (f : K → Vec G.n α) (D : Fin m → Vec G.n α)
    (hD : ∀ (r : Nat) (hr : r < nodes.length) (hr' : r < m), D ⟨r, hr'⟩ = f nodes[r]) :
    (nodes.zipIdx.filterMap fun (u, r) =>
      if hr : r < m then some (u, D ⟨r, hr⟩) else none) = nodes.map fun u => (u, f u) := by
  have e : nodes.map (fun u => (u, f u)) = nodes.zipIdx.filterMap (fun p => some (p.1, f p.1)) := by
    conv_lhs => rw [← List.zipIdx_map_fst 0 nodes, List.map_map]
    rw [← List.filterMap_eq_map]; rfl
  rw [e]
  apply List.filterMap_congr
  rintro ⟨u, r⟩ hmem
  have hr := List.mem_zipIdx hmem
  simp only [Nat.zero_add, Nat.zero_le, Nat.sub_zero, true_and] at hr
  obtain ⟨hr1, hr2⟩ := hr
  have hr' : r < m := by omega
  simp only [hr', dite_true]
  rw [hD r hr1 hr', hr2]

/-- **C29.** For every (normalised) chunk size, consuming `all_pairs_bellman_ford_path_length(G)`
raises Unbounded exactly when the graph has a negative cycle (every node is a source); otherwise
it yields every node exactly once, with its single-source result. -/
theorem all_pairs_bellman_ford_path_length_chunksize_independent (h : G.WF)
    (hsym : G.directed = false → G.Symm) {iso : Option α} (hiso : IsoValid G iso)
    (fdiv : α → α → Int) (chunksize : Option Int) :
    ((∃ u, G.Node u ∧ NegCycleFrom G.WEdge u) ∧
      allPairsBF G iso fdiv chunksize = .error .unbounded) ∨
    ((∀ u, G.Node u → ¬ NegCycleFrom G.WEdge u) ∧ ∃ L, allPairsBF G iso fdiv chunksize = .ok L ∧
      (L.map Prod.fst).Perm (G.keyToId.map Prod.fst) ∧
      ∀ p ∈ L, singleSourceBF G iso fdiv p.1 none = .ok p.2) := by
  have hone : ∀ u, G.Node u →
      (NegCycleFrom G.WEdge u ∧ singleSourceBF G iso fdiv u none = .error .unbounded) ∨
      (¬ NegCycleFrom G.WEdge u ∧ singleSourceBF G iso fdiv u none = .ok (sp G iso fdiv u)) := by
    intro u hu
    rcases single_source_bellman_ford_path_length_correct h hsym hiso fdiv hu with h1 | ⟨h1, r, h2, -⟩
    · exact Or.inl h1
    · exact Or.inr ⟨h1, by unfold sp; rw [h2]⟩
  have hnode : ∀ u ∈ G.keyToId.map Prod.fst, G.Node u := fun u hu => hu
  have final : (∀ u, G.Node u → ¬ NegCycleFrom G.WEdge u) →
      ∃ L, L = (G.keyToId.map Prod.fst).map (fun u => (u, sp G iso fdiv u)) ∧
      (L.map Prod.fst).Perm (G.keyToId.map Prod.fst) ∧
      ∀ p ∈ L, singleSourceBF G iso fdiv p.1 none = .ok p.2 := by
    intro hno
    refine ⟨_, rfl, ?_, ?_⟩
    · rw [List.map_map]
      have : (Prod.fst ∘ fun u : K => (u, sp G iso fdiv u)) = id := rfl
      rw [this, List.map_id]
    · intro p hp
      obtain ⟨u, hu, rfl⟩ := List.mem_map.1 hp
      rcases hone u hu with ⟨hn, -⟩ | ⟨-, e⟩
      · exact absurd hn (hno u hu)
      · exact e
  cases chunksize with
  | none =>
    simp only [allPairsBF]
    choose key hkey using h.exists_key
    rcases multi_row h hsym hiso fdiv (fun i => i) key hkey with ⟨⟨i, hi⟩, h2⟩ | ⟨h1, h2⟩
    · left
      refine ⟨⟨key i, (hkey i).node, (negFrom_iff h (hkey i)).2 hi⟩, ?_⟩
      rw [h2]; rfl
    · right
      have hno : ∀ u, G.Node u → ¬ NegCycleFrom G.WEdge u := by
        intro u hu
        obtain ⟨i, hi⟩ := hu.exists_id h
        rw [negFrom_iff h hi]; exact h1 i
      refine ⟨hno, ?_⟩
      rw [h2]
      have hfil : ((List.finRange G.n).filter fun i : Fin G.n =>
          decide (nvals (sp G iso fdiv (key i)) ≠ 0)) = List.finRange G.n := by
        rw [List.filter_eq_self]
        intro i _
        simp only [decide_eq_true_eq]
        apply Nat.ne_of_gt
        rw [nvals_pos]
        refine ⟨i, ?_⟩
        rcases single_row h hsym hiso fdiv (hkey i) with ⟨hn, -⟩ | ⟨-, d, hd, hd'⟩
        · exact absurd hn (h1 i)
        · have e : sp G iso fdiv (key i) = d := by unfold sp; rw [hd]
          rw [e, (hd' i 0).2 ⟨⟨0, .nil i⟩, fun k c hw => noNeg_cycle (noNeg_single.2 (h1 i)) rfl
            (.refl i) hw⟩]
          rfl
      simp only [bind, Except.bind]
      rw [hfil, mapM_ok (g := fun i => (key i, sp G iso fdiv (key i)))]
      · refine ⟨_, rfl, ?_, ?_⟩
        · rw [List.map_map]
          have e1 : (Prod.fst ∘ fun i => (key i, sp G iso fdiv (key i))) = key := rfl
          rw [e1, List.perm_ext_iff_of_nodup]
          · intro u
            simp only [List.mem_map, List.mem_finRange, true_and]
            constructor
            · rintro ⟨i, rfl⟩; exact List.mem_map.1 (hkey i).node
            · intro hu
              obtain ⟨i, hi⟩ := (show G.Node u from List.mem_map.2 hu).exists_id h
              exact ⟨i, At.key_unique h (hkey i) hi⟩
          · refine (List.nodup_finRange _).map ?_
            intro a b hab
            have := hkey a
            rw [hab] at this
            exact At.id_unique h this (hkey b)
          · exact h.keys_nodup
        · intro p hp
          obtain ⟨i, -, rfl⟩ := List.mem_map.1 hp
          rcases hone (key i) (hkey i).node with ⟨hn, -⟩ | ⟨-, e⟩
          · exact absurd hn (hno _ (hkey i).node)
          · exact e
      · intro i _
        rw [(keyOf_eq_some h).2 (hkey i)]
  | some cs =>
    simp only [allPairsBF]
    split
    · by_cases hneg : ∃ u, G.Node u ∧ NegCycleFrom G.WEdge u
      · left
        refine ⟨hneg, ?_⟩
        obtain ⟨u, hu, hn⟩ := hneg
        refine mapM_error (x := u) hu (e := Err.unbounded) ?_ ?_
        · rcases hone u hu with ⟨-, e⟩ | ⟨hn', -⟩
          · rw [e]; rfl
          · exact absurd hn hn'
        · intro v hv e he
          rcases hone v hv with ⟨-, e'⟩ | ⟨-, e'⟩ <;> rw [e'] at he <;> cases he
          rfl
      · right
        push Not at hneg
        refine ⟨hneg, ?_⟩
        obtain ⟨L, rfl, h1, h2⟩ := final hneg
        refine ⟨_, ?_, h1, h2⟩
        apply mapM_ok
        intro u hu
        rcases hone u hu with ⟨hn, -⟩ | ⟨-, e⟩
        · exact absurd hn (hneg u hu)
        · rw [e]; rfl
    · rename_i hcs
      obtain ⟨ps, hp, hflat, -⟩ := partition_correct cs (G.keyToId.map Prod.fst) true (by omega)
      rw [hp, List.mapM_map]
      -- each chunk
      have hchunk : ∀ nodes ∈ ps, ∀ f : List K → Except Err (List (K × Vec G.n α)),
          (∀ ns, f ns = (do
            let ids ← listToIds G ns
            let D ← bellmanFordPathLengths G iso (fun r : Fin ids.length => ids.get r)
            return (ns.zipIdx.filterMap fun (u, r) =>
              if h : r < ids.length then some (u, D ⟨r, h⟩) else none))) →
          ((∃ u ∈ nodes, NegCycleFrom G.WEdge u) ∧ f nodes = .error .unbounded) ∨
          ((∀ u ∈ nodes, ¬ NegCycleFrom G.WEdge u) ∧
            f nodes = .ok (nodes.map fun u => (u, sp G iso fdiv u))) := by
        intro nodes hmem f hf
        have hn : ∀ u ∈ nodes, G.Node u := by
          intro u hu
          apply hnode
          rw [← hflat]
          exact List.mem_flatten.2 ⟨nodes, hmem, hu⟩
        obtain ⟨ids, hids, hF⟩ := listToIds_ok h hn
        have hlen := hF.length_eq
        rw [hf, hids]
        have hat : ∀ r : Fin ids.length, G.At (nodes.get ⟨r, by omega⟩) (ids.get r) := fun r =>
          (List.forall₂_iff_get.1 hF).2 r (by omega) r.2
        rcases multi_row h hsym hiso fdiv (fun r => ids.get r)
            (fun r => nodes.get ⟨r, by omega⟩) hat with ⟨⟨r, hr⟩, h2⟩ | ⟨h1, h2⟩
        · left
          refine ⟨⟨_, List.get_mem _ _, (negFrom_iff h (hat r)).2 hr⟩, ?_⟩
          show (bellmanFordPathLengths G iso (fun r => ids.get r) >>= _) = _
          rw [h2]; rfl
        · right
          refine ⟨?_, ?_⟩
          · intro u hu
            obtain ⟨r, hr⟩ := List.get_of_mem hu
            rw [← hr]
            have := (negFrom_iff h (hat ⟨r, by omega⟩)).not.2 (h1 ⟨r, by omega⟩)
            exact this
          · show (bellmanFordPathLengths G iso (fun r => ids.get r) >>= _) = _
            rw [h2]
            refine congrArg Except.ok ?_
            exact zip_sp (G := G) hlen (sp G iso fdiv)
              (fun r => sp G iso fdiv (nodes.get ⟨r, by omega⟩)) (fun r hr hr' => rfl)
      by_cases hneg : ∃ u, G.Node u ∧ NegCycleFrom G.WEdge u
      · left
        refine ⟨hneg, ?_⟩
        obtain ⟨u, hu, hn⟩ := hneg
        have hu' : u ∈ ps.flatten := by rw [hflat]; exact hu
        obtain ⟨nodes, hmem, hun⟩ := List.mem_flatten.1 hu'
        rw [mapM_error (x := nodes) hmem (e := Err.unbounded)]
        · rfl
        · rcases hchunk nodes hmem _ (fun _ => rfl) with ⟨-, e⟩ | ⟨e, -⟩
          · exact e
          · exact absurd hn (e u hun)
        · intro ns hns e he
          rcases hchunk ns hns _ (fun _ => rfl) with ⟨-, e'⟩ | ⟨-, e'⟩
          · have he' := e'.symm.trans he
            cases he'; rfl
          · have he' := e'.symm.trans he
            cases he'
      · right
        push Not at hneg
        refine ⟨hneg, ?_⟩
        obtain ⟨L, rfl, h1, h2⟩ := final hneg
        refine ⟨_, ?_, h1, h2⟩
        rw [mapM_ok (g := fun nodes => nodes.map fun u => (u, sp G iso fdiv u))]
        · conv_rhs => rw [← hflat, List.map_flatten]
          rfl
        · intro nodes hmem
          rcases hchunk nodes hmem _ (fun _ => rfl) with ⟨⟨u, hu, hn⟩, -⟩ | ⟨-, e⟩
          · refine absurd hn (hneg u ?_)
            apply hnode
            rw [← hflat]
            exact List.mem_flatten.2 ⟨nodes, hmem, hu⟩
          · exact e

example : ∃ L, allPairsBF Ex.neg none (fun x c => x / c) (some 3) = .ok L ∧ L.length = 4 := by
  refine ⟨_, rfl, ?_⟩; decide +kernel
example : (allPairsBF Ex.missed none (fun x c => x / c) none).isOk = false := by decide +kernel

/-! ### C31 -/

/-- **C31.** `negative_edge_cycle(G)` is True exactly when some node lies on a closed walk of
negative total weight (self-loops included). -/
theorem negative_edge_cycle_correct (h : G.WF) (hsym : G.directed = false → G.Symm) :
    negativeEdgeCycle G = true ↔ ∃ u, G.Node u ∧ NegCycleAt G.WEdge u := by
  have hkeys : (∃ u, G.Node u ∧ NegCycleAt G.WEdge u) ↔ ∃ i, NegCycleAt (MW G.A) i := by
    constructor
    · rintro ⟨u, hu, hn⟩
      obtain ⟨i, hi⟩ := hu.exists_id h
      exact ⟨i, (negCycleAt_iff h hi).1 hn⟩
    · rintro ⟨i, hn⟩
      obtain ⟨u, hu⟩ := h.exists_key i
      exact ⟨u, hu.node, (negCycleAt_iff h hu).2 hn⟩
  rw [hkeys]
  unfold negativeEdgeCycle necBody
  simp only
  split
  · rename_i hd
    simp only [true_iff]
    obtain ⟨i, a, ha, h0⟩ := hasNegDiag_iff.1 hd
    exact ⟨i, 1, a, .single ha, h0⟩
  · rename_i hd
    rw [hasNegDiag_iff] at hd
    have hloop : ∀ x a, MW G.A x x a → 0 ≤ a := by
      intro x a ha
      by_contra hc
      exact hd ⟨x, a, ha, not_le.1 hc⟩
    -- cycles without self-loops suffice
    have hoff : (∃ i, NegCycleAt (MW G.A) i) ↔ ∃ i, NegCycleAt (MW (offdiag G.A)) i := by
      rw [mw_offdiag']
      constructor
      · rintro ⟨i, k, c, hw, hc⟩
        obtain ⟨m, c', -, h1, h2⟩ := hw.offLoop fun x a _ ha => hloop x a ha
        exact ⟨i, m, c', h2, h1.trans_lt hc⟩
      · rintro ⟨i, k, c, hw, hc⟩; exact ⟨i, k, c, hw.of_offLoop, hc⟩
    rw [hoff]
    split
    · rename_i hneg
      have hnn : Nonneg (offdiag G.A) := hasNegEdgesM_false (by simpa using hneg)
      simp only [Bool.false_eq_true, false_iff, not_exists]
      rintro i ⟨k, c, hw, hc⟩
      exact absurd (wwalk_nonneg hnn hw) (not_le.2 hc)
    · generalize hS : (if G.directed then fun i => decide (nvals (offdiag G.A i) ≠ 0) ||
          decide (nvals (transpose (offdiag G.A) i) ≠ 0)
        else fun i => decide (nvals (offdiag G.A i) ≠ 0) : VMask G.n) = degS
      have hinit : ∀ j c, (vassignC degS vempty 0 : Vec G.n α) j = some c ↔
          (degS j = true) ∧ c = 0 := by
        intro j c
        unfold vassignC vempty
        split
        · rename_i hj; simp [hj, eq_comm]
        · rename_i hj; simp [hj]
      have := nec_spec (A := offdiag G.A) (S := fun j => degS j = true) hinit
      refine Iff.trans (b := ¬ NoNeg (MW (offdiag G.A)) fun j => degS j = true) (by
        convert this using 2
        rcases necLoop (offdiag G.A) (G.n - 1) (vassignC degS vempty 0)
          (vassignC degS vempty 0) with _ | ⟨_, _⟩ <;> rfl) ?_
      -- every node on a negative cycle has an edge, hence is a start node
      have hstart : ∀ i, NegCycleAt (MW (offdiag G.A)) i → degS i = true := by
        rintro i ⟨k, c, hw, hc⟩
        have hk : k ≠ 0 := by
          rintro rfl
          rw [(wwalk_zero.1 hw).1] at hc
          exact lt_irrefl _ hc
        obtain ⟨k, rfl⟩ : ∃ k', k = k' + 1 := ⟨k - 1, by omega⟩
        rw [Nat.add_comm] at hw
        obtain ⟨v, c1, c2, h1, -, -⟩ := hw.split
        obtain ⟨x, c', a, hx, e, -⟩ := wwalk_succ.1 (show WWalk _ (0+1) _ _ _ from h1)
        obtain ⟨-, rfl⟩ := wwalk_zero.1 hx
        have hpos : nvals (offdiag G.A i) ≠ 0 := by
          have : 0 < nvals (offdiag G.A i) := nvals_pos.2 ⟨v, by
            have e' : offdiag G.A i v = some a := e
            rw [e']; rfl⟩
          omega
        rw [← hS]
        split <;> simp [hpos]
      constructor
      · intro hno
        by_contra hcon
        push Not at hcon
        exact hno fun s x _ _ hx => hcon x hx
      · rintro ⟨i, hi⟩ hno
        exact hno i i (hstart i hi) (.refl i) hi

example : negativeEdgeCycle Ex.missed = true ∧ negativeEdgeCycle Ex.neg = false := by
  decide +kernel

end Props
