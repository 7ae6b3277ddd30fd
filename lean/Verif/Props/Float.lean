import Verif.Proofs.Float
import Verif.Props.Machine
import Verif.Props.BfPathSound
import Verif.Proofs.MachinePath
import Mathlib.Data.EReal.Operations
import Mathlib.Data.Rat.Floor

/-!
# C108: weighted shortest paths on floating-point weights

`Fl r` are the representable numbers of a floating-point format with rounding `r`; its addition rounds.
`IsWDist G.WEdge s d v` over `Fl r` says that `d` is the smallest *rounded* left-to-right sum over all
walks from `s` to `v`; `IsWDist (RealEdge G) s D v` that `D` is the smallest exact sum.
-/

open GB Spec Model Proofs Proofs.BF Proofs.Flt Proofs.Bfs Graph

namespace Props

variable {K R : Type} [DecidableEq K]

/-- the edges of a graph with floating-point weights, with the exact values of the weights -/
def RealEdge [Zero R] [LE R] {r : Rounding R} (G : Graph K (Fl r)) (u v : K) (x : R) : Prop :=
  ∃ w, G.WEdge u v w ∧ w.val = x

omit [DecidableEq K] in
theorem vals_wf [Zero R] [LE R] {r : Rounding R} {G : Graph K (Fl r)} (h : G.WF) : G.vals.WF :=
  ⟨h.keys_nodup, h.ids_perm⟩

omit [DecidableEq K] in
theorem vals_wedge [Zero R] [LE R] {r : Rounding R} {G : Graph K (Fl r)} : G.vals.WEdge = RealEdge G := by
  funext u v x
  apply propext
  constructor
  · rintro ⟨i, j, hi, hj, hx⟩
    have hx' : (G.A i j).map Fl.val = some x := hx
    obtain ⟨w, hw, rfl⟩ := Option.map_eq_some_iff.1 hx'
    exact ⟨w, ⟨i, j, hi, hj, hw⟩, rfl⟩
  · rintro ⟨w, ⟨i, j, hi, hj, hw⟩, rfl⟩
    exact ⟨i, j, hi, hj, by show (G.A i j).map Fl.val = _; rw [hw]; rfl⟩

omit [DecidableEq K] in
theorem mw_vals [Field R] [LinearOrder R] [IsStrictOrderedRing R] {r : Rounding R} {G : Graph K (Fl r)} :
    MW (mapply Fl.val G.A) = RW (MW G.A) := by
  funext i j x
  show ((G.A i j).map Fl.val = some x) = _
  rw [Option.map_eq_some_iff]; rfl

/-! ### the computed value, for any weights ordered like floating-point numbers -/

section mono
variable {α : Type} [Zero α] [Add α] [SMul Nat α] [LinearOrder α] [MonoAdd α] {G : Graph K α}

omit [Add α] [SMul Nat α] [MonoAdd α] [DecidableEq K] in
theorem nonneg_mat (h : G.WF) (hnn : ∀ u v w, G.WEdge u v w → 0 ≤ w) : Nonneg G.A := by
  intro a b w hw
  obtain ⟨u, hu⟩ := h.exists_key a
  obtain ⟨v, hv⟩ := h.exists_key b
  exact hnn u v w ⟨a, b, hu, hv, hw⟩

omit [SMul Nat α] [MonoAdd α] in
theorem view_dist (h : G.WF) {s : K} {i} (hi : G.At s i) {d : Vec G.n α} {P : α → Prop}
    (hd : ∀ j c, d j = some c ↔ IsWDist (MW G.A) i c j ∧ P c) (u : K) (c : α) :
    G.view d u = some c ↔ IsWDist G.WEdge s c u ∧ P c := by
  rw [view_eq_some h]
  constructor
  · rintro ⟨j, hj, hc⟩
    obtain ⟨a, b⟩ := (hd j c).1 hc
    exact ⟨(isWDist_iff h hi hj).2 a, b⟩
  · rintro ⟨hc, hP⟩
    obtain ⟨k, hk⟩ := hc.1
    obtain ⟨j, hj⟩ := (WWalk_node hi.node hk).exists_id h
    exact ⟨j, hj, (hd j c).2 ⟨(isWDist_iff h hi hj).1 hc, hP⟩⟩

/-- Whenever `single_source_bellman_ford_path_length` returns (and the matrix is not stored
iso-valued), negative weights or not, every value is the minimum of the rounded sums over all walks. -/
theorem rounded_single_source_sound (h : G.WF) (fdiv : α → α → Int) {s : K} (hs : G.Node s) {res : Vec G.n α}
    (hr : singleSourceBF G none fdiv s none = .ok res) (u : K) (d : α) :
    G.view res u = some d ↔ IsWDist G.WEdge s d u := by
  obtain ⟨i, hi⟩ := hs.exists_id h
  unfold singleSourceBF at hr
  rw [(getId_eq_ok h).2 hi] at hr
  have := view_dist h hi (P := fun _ => True) (fun j c => by
    rw [and_true]; exact core_sound hr j c) u d
  simpa using this

/-- Without negative weights it does return. -/
theorem rounded_single_source (h : G.WF) (hnn : ∀ u v w, G.WEdge u v w → 0 ≤ w) (fdiv : α → α → Int)
    {s : K} (hs : G.Node s) :
    ∃ res, singleSourceBF G none fdiv s none = .ok res ∧
      ∀ u d, G.view res u = some d ↔ IsWDist G.WEdge s d u := by
  obtain ⟨i, hi⟩ := hs.exists_id h
  obtain ⟨res, h1, -⟩ := core_nonneg (nonneg_mat h hnn) i
  have h2 : singleSourceBF G none fdiv s none = .ok res := by
    unfold singleSourceBF
    rw [(getId_eq_ok h).2 hi]
    exact h1
  exact ⟨res, h2, rounded_single_source_sound h fdiv hs h2⟩

/-- With a cutoff `x ≥ 0` exactly the nodes whose rounded distance is at most `x` are kept. -/
theorem rounded_single_source_cutoff (h : G.WF) (hnn : ∀ u v w, G.WEdge u v w → 0 ≤ w) (fdiv : α → α → Int)
    {s : K} (hs : G.Node s) {x : α} (hx : 0 ≤ x) :
    ∃ res, singleSourceBF G none fdiv s (some x) = .ok res ∧
      ∀ u d, G.view res u = some d ↔ IsWDist G.WEdge s d u ∧ d ≤ x := by
  obtain ⟨i, hi⟩ := hs.exists_id h
  obtain ⟨res, h1, h2⟩ := cutoff_spec G.A i x hx (nonneg_mat h hnn)
  refine ⟨res, ?_, view_dist h hi h2⟩
  unfold singleSourceBF
  rw [(getId_eq_ok h).2 hi]
  exact h1

/-- With a target: the same number, or NoPath exactly when the target is unreachable. -/
theorem rounded_target (h : G.WF) (hnn : ∀ u v w, G.WEdge u v w → 0 ≤ w) {s t : K} (hs : G.Node s)
    (ht : G.Node t) :
    (∀ d, bellmanFordPathLength G none s t = .ok d ↔ IsWDist G.WEdge s d t) ∧
    (bellmanFordPathLength G none s t = .error .noPath ↔ ¬ WReach G.WEdge s t) ∧
    (∀ e, bellmanFordPathLength G none s t = .error e → e = .noPath) := by
  obtain ⟨i, hi⟩ := hs.exists_id h
  obtain ⟨j, hj⟩ := ht.exists_id h
  have hA := nonneg_mat h hnn
  obtain ⟨d, h1, h2⟩ := target_nonneg hA i j
  have e : bellmanFordPathLength G none s t = match d j with
      | none => .error .noPath
      | some x => .ok x := by
    unfold bellmanFordPathLength
    rw [(getId_eq_ok h).2 hi, (getId_eq_ok h).2 hj]
    simp only [bind, Except.bind, h1]
    rfl
  have hreach : (d j).isSome ↔ WReach G.WEdge s t := by
    rw [wreach_iff' h hi hj]
    constructor
    · intro hd
      obtain ⟨c, hc⟩ := Option.isSome_iff_exists.1 hd
      obtain ⟨⟨k, hk⟩, -⟩ := (h2 c).1 hc
      exact ⟨k, c, hk⟩
    · rintro ⟨k, c, hk⟩
      obtain ⟨c', hc'⟩ := exists_wdist_nonneg (mw_fin G.A) hA hk
      rw [(h2 c').2 hc']; rfl
  rw [e]
  cases hd : d j with
  | none =>
    refine ⟨fun c => ?_, ?_, fun e he => by cases he; rfl⟩
    · rw [isWDist_iff h hi hj, ← h2, hd]; simp
    · rw [← hreach, hd]; simp
  | some x =>
    refine ⟨fun c => ?_, ?_, fun e he => by cases he⟩
    · rw [isWDist_iff h hi hj, ← h2, hd]; simp
    · rw [← hreach, hd]; simp

omit [SMul Nat α] [LinearOrder α] [MonoAdd α] [DecidableEq K] in
/-- a path of row indices, read as a path of keys -/
theorem runWeight_keys (h : G.WF) {l : List (Fin G.n)} {c : α} (hp : RunWeight (MW G.A) l c) :
    RunWeight G.WEdge (l.map (keyFn h)) c := by
  induction hp with
  | single u => exact .single _
  | snoc _ e ih =>
    rw [List.map_append, List.map_append] at *
    exact .snoc ih ⟨_, _, keyFn_at h _, keyFn_at h _, e⟩

/-- **C108, `bellman_ford_path`.** Without negative weights the function returns a list of nodes from
`s` to `t`, consecutive nodes adjacent, whose rounded left-to-right sum is the smallest rounded sum of
all walks, that is the number `bellman_ford_path_length` returns, bit for bit; or the empty list,
exactly when `t` is unreachable.  The parent chase ends although later rounds may improve a parent
without improving its child (a small weight is absorbed). -/
theorem rounded_bellman_ford_path (h : G.WF) (hnn : ∀ u v w, G.WEdge u v w → 0 ≤ w) {s t : K}
    (hs : G.Node s) (ht : G.Node t) :
    (∃ l c, bellmanFordPath G none s t = .ok l ∧ l.head? = some s ∧ l.getLast? = some t ∧
      RunWeight G.WEdge l c ∧ IsWDist G.WEdge s c t ∧ bellmanFordPathLength G none s t = .ok c) ∨
    (bellmanFordPath G none s t = .ok [] ∧ ¬ WReach G.WEdge s t) := by
  obtain ⟨i, hi⟩ := hs.exists_id h
  obtain ⟨j, hj⟩ := ht.exists_id h
  have e : ∀ l, bfPathCore G.A i j = .ok l → bellmanFordPath G none s t = .ok (l.map (keyFn h)) := by
    intro l hl
    unfold bellmanFordPath
    rw [(getId_eq_ok h).2 hi, (getId_eq_ok h).2 hj]
    simp only [bind, Except.bind, bfPathIds, hl]
    apply mapM_ok
    intro a _
    rw [(keyOf_eq_some h).2 (keyFn_at h a)]
  rcases BFP.path_core_nonneg G.A (nonneg_mat h hnn) i j with ⟨l, c, h1, h2, h3, h4, h5⟩ | ⟨h1, h2⟩
  · left
    have h5' := (isWDist_iff h hi hj).2 h5
    refine ⟨_, c, e l h1, ?_, ?_, runWeight_keys h h4, h5', ((rounded_target h hnn hs ht).1 c).2 h5'⟩
    · rw [List.head?_map, h2, Option.map_some, keyFn_eq h hi]
    · rw [List.getLast?_map, h3, Option.map_some, keyFn_eq h hj]
  · right
    exact ⟨e [] h2, by rwa [wreach_iff' h hi hj]⟩

end mono

/-! ### all sources at once -/

section rows
variable {α : Type} [Zero α] [Add α] [SMul Nat α] [LinearOrder α] [MonoAdd α] {G : Graph K α}

omit [MonoAdd α] [DecidableEq K] [SMul Nat α] in
theorem neg_false (h : G.WF) (hnn : ∀ u v w, G.WEdge u v w → 0 ≤ w) : hasNegEdgesP G.A = false := by
  rw [← Bool.not_eq_true, hasNegEdgesP_iff]
  rintro ⟨a, b, w, hw, hlt⟩
  exact absurd (nonneg_mat h hnn _ _ _ hw) (not_le.2 hlt)

omit [MonoAdd α] in
theorem iso_row (h : G.WF) (hnn : ∀ u v w, G.WEdge u v w → 0 ≤ w) (c : α) (fdiv : α → α → Int) {s : K} {i}
    (hi : G.At s i) :
    ∃ res, singleSourceBF G (some c) fdiv s none = .ok res ∧
      ∀ j d, res j = some d ↔ ∃ l, IsDist (Adj G.A) i l j ∧ d = l • c := by
  unfold singleSourceBF
  rw [(getId_eq_ok h).2 hi]
  simp only [bind, Except.bind, neg_false h hnn, Bool.not_false, if_true, pure, Except.pure]
  rw [bfsLevel_ok h hi]
  refine ⟨_, rfl, fun j x => ?_⟩
  rw [vapply, Option.map_eq_some_iff]
  simp only [levelFrom_spec _ _ _ (by simp : ∀ x : Int, (none : Option Int) = some x → 0 ≤ x),
    isDist_congr adj_bfsMatrix_false, isDist_offLoop]
  constructor
  · rintro ⟨l, ⟨h1, -⟩, rfl⟩; exact ⟨l, h1, rfl⟩
  · rintro ⟨l, h1, rfl⟩; exact ⟨l, ⟨h1, within_none l⟩, rfl⟩

omit [MonoAdd α] in
/-- On a matrix stored iso-valued the result is the hop count times the value, rounded once. -/
theorem rounded_iso (h : G.WF) (hnn : ∀ u v w, G.WEdge u v w → 0 ≤ w) (c : α) (fdiv : α → α → Int) {s : K}
    (hs : G.Node s) :
    ∃ res, singleSourceBF G (some c) fdiv s none = .ok res ∧
      ∀ u d, G.view res u = some d ↔ ∃ l, IsDist G.Edge s l u ∧ d = l • c := by
  obtain ⟨i, hi⟩ := hs.exists_id h
  obtain ⟨res, h1, h2⟩ := iso_row h hnn c fdiv hi
  refine ⟨res, h1, fun u d => ?_⟩
  rw [view_eq_some h]
  constructor
  · rintro ⟨j, hj, hd⟩
    obtain ⟨l, h3, h4⟩ := (h2 j d).1 hd
    exact ⟨l, (isDist_iff h hi hj).2 h3, h4⟩
  · rintro ⟨l, h3, h4⟩
    obtain ⟨j, hj⟩ := (Walk_node hs h3.1).exists_id h
    exact ⟨j, hj, (h2 j d).2 ⟨l, (isDist_iff h hi hj).1 h3, h4⟩⟩

/-- Every row of `bellman_ford_path_lengths` is the single-source result, bit for bit. -/
theorem rounded_batch (h : G.WF) (hnn : ∀ u v w, G.WEdge u v w → 0 ≤ w) (iso : Option α) (fdiv : α → α → Int)
    {k : Nat} (nodes : Fin k → K) (ids : Fin k → Fin G.n) (hids : ∀ r, G.At (nodes r) (ids r)) :
    ∃ D, bellmanFordPathLengths G iso ids = .ok D ∧
      ∀ r, singleSourceBF G iso fdiv (nodes r) none = .ok (D r) := by
  cases iso with
  | none =>
    obtain ⟨D, h1, h2⟩ := coreM_nonneg (nonneg_mat h hnn) ids
    refine ⟨D, h1, fun r => ?_⟩
    obtain ⟨d, h3, h4⟩ := core_nonneg (nonneg_mat h hnn) (ids r)
    have e : D r = d := by
      funext j; apply Option.ext; intro c
      rw [h2, h4]
    rw [e]
    unfold singleSourceBF
    rw [(getId_eq_ok h).2 (hids r)]
    exact h3
  | some c =>
    refine ⟨mapply (fun l => l • c) (bfsLevelsFrom (offdiag G.A) ids none), ?_, fun r => ?_⟩
    · unfold bellmanFordPathLengths
      simp only [neg_false h hnn, Bool.not_false, if_true]
    · obtain ⟨res, h1, h2⟩ := iso_row h hnn c fdiv (hids r)
      rw [h1]
      congr 1
      funext j; apply Option.ext; intro x
      rw [h2, mapply, Option.map_eq_some_iff, levelsFrom_eq]
      simp only [levelFrom_spec _ _ _ (by simp : ∀ x : Int, (none : Option Int) = some x → 0 ≤ x),
        isDist_congr (adj_offdiag G.A), isDist_offLoop]
      constructor
      · rintro ⟨l, h1, rfl⟩; exact ⟨l, ⟨h1, within_none l⟩, rfl⟩
      · rintro ⟨l, ⟨h1, -⟩, rfl⟩; exact ⟨l, h1, rfl⟩

/-- the single-source answer as a total function -/
private def sp1 (G : Graph K α) (iso : Option α) (fdiv : α → α → Int) (u : K) : Vec G.n α :=
  match singleSourceBF G iso fdiv u none with
  | .ok d => d
  | .error _ => vempty

omit [Zero α] [Add α] [SMul Nat α] [LinearOrder α] [MonoAdd α] [DecidableEq K] in
private theorem zip_rows1 {nodes : List K} {n m : Nat} (hlen : nodes.length = m) (f : K → Vec n α)
    (D : Fin m → Vec n α)
    (hD : ∀ (r : Nat) (hr : r < nodes.length) (hr' : r < m), D ⟨r, hr'⟩ = f nodes[r]) :
    (nodes.zipIdx.filterMap fun (u, r) =>
      if hr : r < m then some (u, D ⟨r, hr⟩) else none) = nodes.map fun u => (u, f u) := by
  have e : nodes.map (fun u => (u, f u)) = nodes.zipIdx.filterMap (fun p => some (p.1, f p.1)) := by
    conv_lhs => rw [← List.zipIdx_map_fst 0 nodes, List.map_map]
    rw [← List.filterMap_eq_map]; rfl
  rw [e]
  apply List.filterMap_congr
  rintro ⟨u, r⟩ hmem
  have hr := List.mem_zipIdx hmem
  simp only [Nat.zero_add, Nat.zero_le, Nat.sub_zero, true_and] at hr
  obtain ⟨hr1, hr2⟩ := hr
  have hr' : r < m := by omega
  simp only [hr', dite_true]
  rw [hD r hr1 hr', hr2]

/-- Every chunk size of `all_pairs_bellman_ford_path_length` yields every node once, with its
single-source result, bit for bit. -/
theorem rounded_all_pairs (h : G.WF) (hnn : ∀ u v w, G.WEdge u v w → 0 ≤ w) (iso : Option α)
    (fdiv : α → α → Int) (chunksize : Option Int) :
    ∃ L, allPairsBF G iso fdiv chunksize = .ok L ∧
      (L.map Prod.fst).Perm (G.keyToId.map Prod.fst) ∧
      ∀ p ∈ L, singleSourceBF G iso fdiv p.1 none = .ok p.2 := by
  have hone : ∀ u, G.Node u → singleSourceBF G iso fdiv u none = .ok (sp1 G iso fdiv u) ∧
      nvals (sp1 G iso fdiv u) ≠ 0 := by
    intro u hu
    obtain ⟨i, hi⟩ := hu.exists_id h
    have key : ∃ d, singleSourceBF G iso fdiv u none = .ok d ∧ (d i).isSome := by
      cases iso with
      | none =>
        obtain ⟨d, h1, h2⟩ := core_nonneg (nonneg_mat h hnn) i
        refine ⟨d, ?_, ?_⟩
        · unfold singleSourceBF
          rw [(getId_eq_ok h).2 hi]
          exact h1
        · obtain ⟨c, hc⟩ := exists_wdist_nonneg (mw_fin G.A) (nonneg_mat h hnn) (.nil i)
          rw [(h2 i c).2 hc]; rfl
      | some c =>
        obtain ⟨d, h1, h2⟩ := iso_row h hnn c fdiv hi
        refine ⟨d, h1, ?_⟩
        rw [(h2 i (0 • c)).2 ⟨0, ⟨.nil i, fun _ _ => Nat.zero_le _⟩, rfl⟩]; rfl
    obtain ⟨d, h1, h2⟩ := key
    have e : sp1 G iso fdiv u = d := by unfold sp1; rw [h1]
    rw [e]
    exact ⟨h1, Nat.ne_of_gt (nvals_pos.2 ⟨i, h2⟩)⟩
  have hmulti : ∀ {k : Nat} (ids : Fin k → Fin G.n) (key : Fin k → K), (∀ r, G.At (key r) (ids r)) →
      bellmanFordPathLengths G iso ids = .ok fun r => sp1 G iso fdiv (key r) := by
    intro k ids key hkey
    obtain ⟨D, h1, h2⟩ := rounded_batch h hnn iso fdiv key ids hkey
    rw [h1]
    congr 1
    funext r
    have := h2 r
    rw [(hone _ (hkey r).node).1] at this
    exact (Except.ok.inj this).symm
  have final : ∃ L, L = (G.keyToId.map Prod.fst).map (fun u => (u, sp1 G iso fdiv u)) ∧
      (L.map Prod.fst).Perm (G.keyToId.map Prod.fst) ∧
      ∀ p ∈ L, singleSourceBF G iso fdiv p.1 none = .ok p.2 := by
    refine ⟨_, rfl, ?_, ?_⟩
    · rw [List.map_map]
      have : (Prod.fst ∘ fun u : K => (u, sp1 G iso fdiv u)) = id := rfl
      rw [this, List.map_id]
    · intro p hp
      obtain ⟨u, hu, rfl⟩ := List.mem_map.1 hp
      exact (hone u hu).1
  cases chunksize with
  | none =>
    simp only [allPairsBF]
    choose key hkey using h.exists_key
    rw [hmulti (fun i => i) key hkey]
    have hfil : ((List.finRange G.n).filter fun i : Fin G.n =>
        decide (nvals (sp1 G iso fdiv (key i)) ≠ 0)) = List.finRange G.n := by
      rw [List.filter_eq_self]
      intro i _
      simpa using (hone _ (hkey i).node).2
    simp only [bind, Except.bind]
    rw [hfil, mapM_ok (g := fun i => (key i, sp1 G iso fdiv (key i)))]
    · refine ⟨_, rfl, ?_, ?_⟩
      · rw [List.map_map]
        have e1 : (Prod.fst ∘ fun i => (key i, sp1 G iso fdiv (key i))) = key := rfl
        rw [e1, List.perm_ext_iff_of_nodup]
        · intro u
          simp only [List.mem_map, List.mem_finRange, true_and]
          constructor
          · rintro ⟨i, rfl⟩; exact List.mem_map.1 (hkey i).node
          · intro hu
            obtain ⟨i, hi⟩ := (show G.Node u from List.mem_map.2 hu).exists_id h
            exact ⟨i, At.key_unique h (hkey i) hi⟩
        · refine (List.nodup_finRange _).map ?_
          intro a b hab
          have := hkey a
          rw [hab] at this
          exact At.id_unique h this (hkey b)
        · exact h.keys_nodup
      · intro p hp
        obtain ⟨i, -, rfl⟩ := List.mem_map.1 hp
        exact (hone _ (hkey i).node).1
    · intro i _
      rw [(keyOf_eq_some h).2 (hkey i)]
  | some cs =>
    simp only [allPairsBF]
    obtain ⟨L, rfl, h1, h2⟩ := final
    split
    · refine ⟨_, ?_, h1, h2⟩
      apply mapM_ok
      intro u hu
      rw [(hone u hu).1]; rfl
    · rename_i hcs
      obtain ⟨ps, hp, hflat, -⟩ := partition_correct cs (G.keyToId.map Prod.fst) true (by omega)
      rw [hp, List.mapM_map]
      have hchunk : ∀ nodes ∈ ps, (do
            let ids ← listToIds G nodes
            let D ← bellmanFordPathLengths G iso (fun r : Fin ids.length => ids.get r)
            return (nodes.zipIdx.filterMap fun (u, r) =>
              if h : r < ids.length then some (u, D ⟨r, h⟩) else none)) =
          (.ok (nodes.map fun u => (u, sp1 G iso fdiv u)) : Except Err (List (K × Vec G.n α))) := by
        intro nodes hmem
        have hn : ∀ u ∈ nodes, G.Node u := by
          intro u hu
          show u ∈ G.keyToId.map Prod.fst
          rw [← hflat]
          exact List.mem_flatten.2 ⟨nodes, hmem, hu⟩
        obtain ⟨ids, hids, hF⟩ := Bfs.listToIds_ok h hn
        have hlen := hF.length_eq
        rw [hids]
        have hat : ∀ r : Fin ids.length, G.At (nodes.get ⟨r, by omega⟩) (ids.get r) := fun r =>
          (List.forall₂_iff_get.1 hF).2 r (by omega) r.2
        show (bellmanFordPathLengths G iso (fun r => ids.get r) >>= _) = _
        rw [hmulti (fun r => ids.get r) (fun r => nodes.get ⟨r, by omega⟩) hat]
        refine congrArg Except.ok ?_
        exact zip_rows1 hlen (sp1 G iso fdiv)
          (fun r => sp1 G iso fdiv (nodes.get ⟨r, by omega⟩)) (fun r hr hr' => rfl)
      refine ⟨_, ?_, h1, h2⟩
      rw [mapM_ok (g := fun nodes => nodes.map fun u => (u, sp1 G iso fdiv u))]
      · conv_rhs => rw [← hflat, List.map_flatten]
        rfl
      · intro nodes hmem
        exact hchunk nodes hmem

end rows

/-! ### accuracy -/

section accuracy
variable [Field R] [LinearOrder R] [IsStrictOrderedRing R] {r : Rounding R} {S : R → Prop} {u B M : R} {G : Graph K (Fl r)}

omit [DecidableEq K] in
theorem mat_bound (h : G.WF) (hW : ∀ a b w, G.WEdge a b w → 0 ≤ w.val ∧ w.val ≤ M) :
    ∀ i j w, MW G.A i j w → 0 ≤ w.val ∧ w.val ≤ M := fun i j w hw => by
  obtain ⟨a, ha⟩ := h.exists_key i
  obtain ⟨b, hb⟩ := h.exists_key j
  exact hW a b w ⟨i, j, ha, hb, hw⟩

omit [DecidableEq K] [IsStrictOrderedRing R] [Field R] [LinearOrder R] in
theorem mat_all [Field R] [LinearOrder R] {r : Rounding R} {G : Graph K (Fl r)} (h : G.WF)
    (hS : ∀ a b w, G.WEdge a b w → S w.val) : ∀ i j w, MW G.A i j w → S w.val := fun i j w hw => by
  obtain ⟨a, ha⟩ := h.exists_key i
  obtain ⟨b, hb⟩ := h.exists_key j
  exact hS a b w ⟨i, j, ha, hb, hw⟩

omit [DecidableEq K] in
theorem realDist_iff (h : G.WF) {s v : K} {i j} (hs : G.At s i) (hv : G.At v j) {D : R} :
    IsWDist (RealEdge G) s D v ↔ IsWDist (RW (MW G.A)) i D j := by
  rw [← vals_wedge, ← mw_vals]
  exact isWDist_iff (G := G.vals) (vals_wf h) (u := s) (v := v) (i := i) (j := j) hs hv

/-- the smallest rounded sum against the smallest exact sum -/
theorem rounded_dist_accurate (h : G.WF) (hW : ∀ a b w, G.WEdge a b w → 0 ≤ w.val ∧ w.val ≤ M)
    (hS : ∀ a b w, G.WEdge a b w → S w.val) (acc : Accurate r S u B) (hB : (1 + u) ^ (G.n - 1) * ((G.n - 1 : Nat) * M) ≤ B) {s v : K} (hs : G.Node s)
    (hv : G.Node v) :
    (∀ d, IsWDist G.WEdge s d v → ∃ D, IsWDist (RealEdge G) s D v) ∧
    (∀ D, IsWDist (RealEdge G) s D v → ∃ d, IsWDist G.WEdge s d v) ∧
    ∀ d D, IsWDist G.WEdge s d v → IsWDist (RealEdge G) s D v →
      (1 - u) ^ (G.n - 1) * D ≤ d.val ∧ d.val ≤ (1 + u) ^ (G.n - 1) * D := by
  obtain ⟨i, hi⟩ := hs.exists_id h
  obtain ⟨j, hj⟩ := hv.exists_id h
  simp only [isWDist_iff h hi hj, realDist_iff h hi hj]
  obtain ⟨h1, h2, h3⟩ := dist_err acc (mat_bound h hW) (mat_all h hS) (mw_fin G.A) (N := G.n - 1)
    (by rw [Fintype.card_fin]; omega) hB (x := i) (y := j)
  exact ⟨h1, h2, fun d D hd hD => (h3 d D hd hD).2⟩

theorem isDist_hops (h : G.WF) {c : Fl r} (hiso : IsoValid G (some c))
    (hW : ∀ a b w, G.WEdge a b w → 0 ≤ w.val ∧ w.val ≤ M) {s v : K} (hs : G.Node s) {D : R} :
    IsWDist (RealEdge G) s D v ↔ ∃ l, IsDist G.Edge s l v ∧ D = l • c.val := by
  obtain ⟨i, hi⟩ := hs.exists_id h
  have hA : ∀ i j a, mapply Fl.val G.A i j = some a → a = c.val := by
    intro i j a ha
    obtain ⟨w, hw, rfl⟩ := Mach.mw_val.1 (show MW (mapply Fl.val G.A) i j a from ha)
    rw [iso_mw h hiso rfl i j w hw]
  have hnn : Nonneg (mapply Fl.val G.A) := by
    intro i j a ha
    obtain ⟨w, hw, rfl⟩ := Mach.mw_val.1 (show MW (mapply Fl.val G.A) i j a from ha)
    exact (mat_bound h hW i j w hw).1
  have hadj : ∀ a b, Adj (mapply Fl.val G.A) a b ↔ Adj G.A a b := by
    intro a b; simp [Adj, mapply]
  constructor
  · intro hd
    obtain ⟨k, hk⟩ := id hd.1
    rw [← vals_wedge] at hk
    obtain ⟨j, hj⟩ := (show G.Node v from WWalk_node (G := G.vals) hs hk).exists_id h
    rw [realDist_iff h hi hj, ← mw_vals, iso_dist hA hnn] at hd
    obtain ⟨l, h1, h2⟩ := hd
    exact ⟨l, (isDist_iff h hi hj).2 ((isDist_congr hadj).1 h1), h2⟩
  · rintro ⟨l, h1, rfl⟩
    obtain ⟨j, hj⟩ := (Walk_node hs h1.1).exists_id h
    rw [realDist_iff h hi hj, ← mw_vals, iso_dist hA hnn]
    exact ⟨l, (isDist_congr hadj).2 ((isDist_iff h hi hj).1 h1), rfl⟩

/-- **C108.** `single_source_bellman_ford_path_length` on non-negative floating-point weights, stored
iso-valued or not: it does not raise, has a value exactly at the reachable nodes, and each value is the
exact distance up to a factor between `(1 - u)^(n-1)` and `(1 + u)^(n-1)`, if `n - 1` weights of the
largest size do not overflow. -/
theorem float_single_source_accurate (h : G.WF) (hW : ∀ a b w, G.WEdge a b w → 0 ≤ w.val ∧ w.val ≤ M)
    (hS : ∀ a b w, G.WEdge a b w → S w.val) (acc : Accurate r S u B) (hB : (1 + u) ^ (G.n - 1) * ((G.n - 1 : Nat) * M) ≤ B) {iso : Option (Fl r)}
    (hiso : IsoValid G iso) (fdiv : Fl r → Fl r → Int) {s : K} (hs : G.Node s) :
    ∃ res, singleSourceBF G iso fdiv s none = .ok res ∧
      (∀ v D, IsWDist (RealEdge G) s D v → ∃ d, G.view res v = some d) ∧
      ∀ v d, G.view res v = some d → ∃ D, IsWDist (RealEdge G) s D v ∧
        (1 - u) ^ (G.n - 1) * D ≤ d.val ∧ d.val ≤ (1 + u) ^ (G.n - 1) * D := by
  have hnn : ∀ a b w, G.WEdge a b w → 0 ≤ w := fun a b w hw => (hW a b w hw).1
  cases iso with
  | none =>
    obtain ⟨res, h1, h2⟩ := rounded_single_source h hnn fdiv hs
    refine ⟨res, h1, fun v D hD => ?_, fun v d hd => ?_⟩
    · obtain ⟨k, hk⟩ := id hD.1
      rw [← vals_wedge] at hk
      have hv : G.Node v := WWalk_node (G := G.vals) hs hk
      obtain ⟨d, hd⟩ := (rounded_dist_accurate h hW hS acc hB hs hv).2.1 D hD
      exact ⟨d, (h2 v d).2 hd⟩
    · have hd' := (h2 v d).1 hd
      obtain ⟨k, hk⟩ := id hd'.1
      obtain ⟨p1, -, p3⟩ := rounded_dist_accurate h hW hS acc hB hs (WWalk_node hs hk)
      obtain ⟨D, hD⟩ := p1 d hd'
      exact ⟨D, hD, p3 d D hd' hD⟩
  | some c =>
    obtain ⟨res, h1, h2⟩ := rounded_iso h hnn c fdiv hs
    refine ⟨res, h1, fun v D hD => ?_, fun v d hd => ?_⟩
    · obtain ⟨l, h3, -⟩ := (isDist_hops h hiso hW hs).1 hD
      exact ⟨l • c, (h2 v _).2 ⟨l, h3, rfl⟩⟩
    · obtain ⟨l, h3, rfl⟩ := (h2 v d).1 hd
      refine ⟨l • c.val, (isDist_hops h hiso hW hs).2 ⟨l, h3, rfl⟩, ?_⟩
      obtain ⟨i, hi⟩ := hs.exists_id h
      obtain ⟨j, hj⟩ := (Walk_node hs h3.1).exists_id h
      have hlt : l < G.n := by simpa using dist_lt_card ((isDist_iff h hi hj).1 h3)
      rcases Nat.eq_zero_or_pos l with rfl | hl
      · have hz : ((0 : Nat) • c).val = 0 := by
          show r.fl ((0 : Nat) • c.1) = 0
          rw [zero_smul]; exact r.zero
        rw [hz]; simp
      · obtain ⟨⟨c0, cM⟩, cS⟩ : (0 ≤ c.val ∧ c.val ≤ M) ∧ S c.val := by
          obtain ⟨l', rfl⟩ : ∃ l', l = l' + 1 := ⟨l - 1, by omega⟩
          obtain ⟨x, -, hx⟩ := walk_succ.1 h3.1
          obtain ⟨w, hw⟩ := edge_iff_wedge.1 hx
          rw [← hiso c rfl _ _ w hw]
          exact ⟨hW _ _ w hw, hS _ _ w hw⟩
        have hlc : (l : R) * c.val ≤ ((G.n - 1 : Nat) : R) * M :=
          mul_le_mul (Nat.cast_le.2 (by omega)) cM c0 (Nat.cast_nonneg _)
        have hlc0 : 0 ≤ (l : R) * c.val := mul_nonneg (Nat.cast_nonneg _) c0
        have h1u : (1 : R) ≤ (1 + u) ^ (G.n - 1) := one_le_pow₀ (by linarith [acc.u_nonneg])
        have := abs_le.1 (acc.smul l c cS c0 (hlc.trans (le_trans (by
          have := mul_le_mul_of_nonneg_right h1u (hlc0.trans hlc)
          linarith) hB)))
        rw [nsmul_eq_mul]
        have e1 : (1 - u) ^ 1 * ((l : R) * c.val) ≤ (l • c).val ∧
            (l • c).val ≤ (1 + u) ^ 1 * ((l : R) * c.val) :=
          ⟨by linarith [this.1], by linarith [this.2]⟩
        exact weaken acc.u_nonneg acc.u_le (by omega) hlc0 e1

/-- **C108, target.** -/
theorem float_target_accurate (h : G.WF) (hW : ∀ a b w, G.WEdge a b w → 0 ≤ w.val ∧ w.val ≤ M)
    (hS : ∀ a b w, G.WEdge a b w → S w.val) (acc : Accurate r S u B) (hB : (1 + u) ^ (G.n - 1) * ((G.n - 1 : Nat) * M) ≤ B) {s t : K} (hs : G.Node s)
    (ht : G.Node t) :
    (∀ d, bellmanFordPathLength G none s t = .ok d → ∃ D, IsWDist (RealEdge G) s D t ∧
      (1 - u) ^ (G.n - 1) * D ≤ d.val ∧ d.val ≤ (1 + u) ^ (G.n - 1) * D) ∧
    ∀ D, IsWDist (RealEdge G) s D t → ∃ d, bellmanFordPathLength G none s t = .ok d := by
  have hnn : ∀ a b w, G.WEdge a b w → 0 ≤ w := fun a b w hw => (hW a b w hw).1
  obtain ⟨h1, -⟩ := rounded_target h hnn hs ht
  obtain ⟨p1, p2, p3⟩ := rounded_dist_accurate h hW hS acc hB hs ht
  constructor
  · intro d hd
    obtain ⟨D, hD⟩ := p1 d ((h1 d).1 hd)
    exact ⟨D, hD, p3 d D ((h1 d).1 hd) hD⟩
  · intro D hD
    obtain ⟨d, hd⟩ := p2 D hD
    exact ⟨d, (h1 d).2 hd⟩

omit [DecidableEq K] in
theorem unround {k : Nat} {X : R} {a b : K} (h : WWalk (RealEdge G) k X a b) : ∃ c, WWalk G.WEdge k c a b := by
  induction h with
  | nil => exact ⟨0, .nil _⟩
  | snoc _ e ih =>
    obtain ⟨c, hc⟩ := ih
    obtain ⟨w, hw, -⟩ := e
    exact ⟨c + w, hc.snoc hw⟩

theorem runWeight_pathWeight {V : Type} {W : V → V → R → Prop} {l : List V} {X : R} (h : RunWeight W l X) :
    PathWeight W l X := by
  induction h with
  | single x => exact .single x
  | snoc _ e ih => exact BFP.pathWeight_snoc ih e

omit [DecidableEq K] in
theorem runWeight_nodes {l : List K} {c : Fl r} {s : K} (hs : G.Node s) (h : RunWeight G.WEdge l c)
    (hh : l.head? = some s) : ∀ x ∈ l, G.Node x := by
  induction h with
  | single x =>
    obtain rfl : x = s := by simpa using hh
    intro y hy
    obtain rfl : y = x := by simpa using hy
    exact hs
  | @snoc l x y c w _ e ih =>
    have h3 : (l ++ [x]).head? = some s := by
      cases l with
      | nil => simpa using hh
      | cons z l => simpa using hh
    intro z hz
    rcases List.mem_append.1 hz with hz | hz
    · exact ih h3 z hz
    · obtain rfl : z = y := by simpa using hz
      exact (edge_iff_wedge.2 ⟨w, e⟩).node_right

omit [DecidableEq K] in
/-- the exact weight of a node list, from its rounded weight -/
theorem run_err (hW : ∀ a b w, G.WEdge a b w → 0 ≤ w.val ∧ w.val ≤ M) (hS : ∀ a b w, G.WEdge a b w → S w.val) (acc : Accurate r S u B) {N : Nat}
    (hB : (1 + u) ^ N * (N * M) ≤ B) {l : List K} {c : Fl r} (h : RunWeight G.WEdge l c) (hl : l.length ≤ N + 1) :
    ∃ X, RunWeight (RealEdge G) l X ∧ 0 ≤ X ∧ X ≤ (l.length - 1 : Nat) * M ∧
      S c.val ∧ (1 - u) ^ (l.length - 1) * X ≤ c.val ∧ c.val ≤ (1 + u) ^ (l.length - 1) * X := by
  induction h with
  | single x => exact ⟨0, .single x, le_rfl, by simp, acc.zero, by simp [val_zero], by simp [val_zero]⟩
  | @snoc l x y c w hr hw ih =>
    have e1 : (l ++ [x]).length - 1 = l.length := by simp
    have e2 : (l ++ [x] ++ [y]).length - 1 = l.length + 1 := by simp
    rw [e1] at ih
    rw [e2]
    have hk : l.length + 1 ≤ N := by simp at hl; omega
    obtain ⟨X, h1, h0, he, hc⟩ := ih (by simp; omega)
    obtain ⟨w0, wM⟩ := hW _ _ _ hw
    have hM : X + w.val ≤ ((l.length + 1 : Nat) : R) * M := by push_cast; linarith
    have hM0 : 0 ≤ M := w0.trans wM
    refine ⟨X + w.val, .snoc h1 ⟨w, hw, rfl⟩, add_nonneg h0 w0, hM, add_err acc hc.1 (hS _ _ _ hw) h0 w0 hc.2 ?_ ?_⟩
    · simpa using weaken acc.u_nonneg acc.u_le (Nat.zero_le l.length) w0 (x := w.val) (by simp)
    · refine le_trans ?_ hB
      refine mul_le_mul (pow_up acc.u_nonneg (by omega)) (hM.trans ?_) (add_nonneg h0 w0)
        (pow_nonneg (by linarith [acc.u_nonneg]) _)
      exact mul_le_mul_of_nonneg_right (Nat.cast_le.2 hk) hM0

/-- **C108, `bellman_ford_path`.** On non-negative floating-point weights, iso-valued or not, the call
returns a simple path from `s` to `t` whose exact weight `X` is the exact distance `D` up to a
factor `((1 + u)/(1 - u))^(n-1)`; or the empty list, exactly when there is no walk.  On an iso-valued
matrix the path is an exact shortest path. -/
theorem float_path_accurate (h : G.WF) (hW : ∀ a b w, G.WEdge a b w → 0 ≤ w.val ∧ w.val ≤ M)
    (hS : ∀ a b w, G.WEdge a b w → S w.val) (acc : Accurate r S u B) (hB : (1 + u) ^ (G.n - 1) * ((G.n - 1 : Nat) * M) ≤ B) {iso : Option (Fl r)}
    (hiso : IsoValid G iso) {s t : K} (hs : G.Node s) (ht : G.Node t) :
    (∃ l X D, bellmanFordPath G iso s t = .ok l ∧ l.head? = some s ∧ l.getLast? = some t ∧ l.Nodup ∧
      PathWeight (RealEdge G) l X ∧ IsWDist (RealEdge G) s D t ∧ D ≤ X ∧
      (1 - u) ^ (G.n - 1) * X ≤ (1 + u) ^ (G.n - 1) * D ∧ (iso.isSome → X = D)) ∨
    (bellmanFordPath G iso s t = .ok [] ∧ ¬ WReach (RealEdge G) s t) := by
  have hnn : ∀ a b w, G.WEdge a b w → 0 ≤ w := fun a b w hw => (hW a b w hw).1
  have h1u : 0 ≤ 1 - u := by linarith [acc.u_le]
  have h2u : 0 ≤ 1 + u := by linarith [acc.u_nonneg]
  cases iso with
  | none =>
    rcases rounded_bellman_ford_path h hnn hs ht with ⟨l, c, h1, h2, h3, h4, h5, -⟩ | ⟨h1, h2⟩
    · left
      obtain ⟨D, hD⟩ := (rounded_dist_accurate h hW hS acc hB hs ht).1 c h5
      have hc := (rounded_dist_accurate h hW hS acc hB hs ht).2.2 c D h5 hD
      have hnd : l.Nodup := by
        rcases bellman_ford_path_sound h hs ht h1 with ⟨rfl, -⟩ | ⟨-, -, -, h6⟩
        · cases h2
        · exact h6
      have hlen : l.length ≤ G.n := by
        have hsub : l ⊆ G.nodes := by
          intro x hx
          exact runWeight_nodes hs h4 h2 x hx
        have := (hnd.subperm hsub).length_le
        have e : G.nodes.length = G.n := by
          have := h.ids_perm.length_eq
          simpa [Graph.nodes] using this
        rwa [e] at this
      obtain ⟨X, h6, h7, -, -, h8, h9⟩ := run_err hW hS acc (N := G.n - 1) hB h4 (by omega)
      have h6' := runWeight_pathWeight h6
      have hDX : D ≤ X := by
        obtain ⟨k, hk⟩ := BFP.RunWeight.walk h6 h2 h3
        exact hD.2 k X hk
      refine ⟨l, X, D, h1, h2, h3, hnd, h6', hD, hDX, ?_, by simp⟩
      refine le_trans ?_ hc.2
      exact (weaken acc.u_nonneg acc.u_le (b := G.n - 1) (by omega) h7 ⟨h8, h9⟩).1
    · right
      refine ⟨h1, fun ⟨k, X, hk⟩ => h2 ?_⟩
      clear h1
      obtain ⟨c, hc⟩ := unround hk
      exact ⟨k, c, hc⟩
  | some c =>
    have hv : bellmanFordPath G (some c) s t = bellmanFordPath G.vals (some c.val) s t := by
      have hn1 : hasNegEdgesP G.A = false := neg_false h hnn
      have hn2 : hasNegEdgesP G.vals.A = false := neg_false (vals_wf h) (by
        rw [vals_wedge]; rintro a b x ⟨w, hw, rfl⟩; exact (hW a b w hw).1)
      have h2 : bfsParent G.vals s (some t) = bfsParent G s (some t) := Mach.bfsParent_pattern Fl.val G s (some t)
      have key : ∀ src dst : Fin G.n, bfPathIds G.vals (some c.val) s t src dst = bfPathIds G (some c) s t src dst := by
        intro src dst
        show (if !hasNegEdgesP G.vals.A then _ else _) = (if !hasNegEdgesP G.A then _ else _)
        refine if_congr (Eq.to_iff (by rw [hn1, hn2])) ?_ rfl
        exact congrArg (· >>= fun p => reconstructPath p src dst) h2
      symm
      show ((G.getId s) >>= fun src => (G.getId t) >>= fun dst =>
        bfPathIds G.vals (some c.val) s t src dst >>= fun path => path.mapM fun i => _) = _
      simp only [key]
      rfl
    have hiso' : IsoValid G.vals (some c.val) := by
      rintro x ⟨⟩ a b w hw
      rw [vals_wedge] at hw
      obtain ⟨w', hw', rfl⟩ := hw
      rw [hiso c rfl a b w' hw']
    have hnn' : ∀ a b w, G.vals.WEdge a b w → 0 ≤ w := by
      rw [vals_wedge]; rintro a b x ⟨w, hw, rfl⟩; exact (hW a b w hw).1
    have hpos : ∀ {k x a b}, WWalk G.vals.WEdge k x a b → 0 ≤ x := by
      intro k x a b hw
      induction hw with
      | nil => exact le_rfl
      | snoc _ e ih => exact add_nonneg ih (hnn' _ _ _ e)
    have hno : ¬ NegCycleFrom G.vals.WEdge s := by
      rintro ⟨x, -, k, y, hw, hy⟩
      exact absurd (hpos hw) (not_le.2 hy)
    have hc := bellman_ford_path_correct_partial (vals_wf h) hiso' (s := s) (t := t) hs ht hno
      (fun a w => hnn' a a w) (fun _ => hnn')
    rw [← hv, vals_wedge] at hc
    rcases hc with ⟨l, h1, h2, h3, X, h4, h5⟩ | ⟨h1, h2⟩
    · left
      have hnd : l.Nodup := by
        rcases bellman_ford_path_sound h hs ht h1 with ⟨rfl, -⟩ | ⟨-, -, -, h6⟩
        · cases h2
        · exact h6
      have hX : 0 ≤ X := by
        obtain ⟨k, hk⟩ := id h5.1
        rw [← vals_wedge] at hk
        exact hpos hk
      refine ⟨l, X, X, h1, h2, h3, hnd, h4, h5, le_rfl, ?_, fun _ => rfl⟩
      exact mul_le_mul_of_nonneg_right (pow_le_pow_left₀ h1u (by linarith [acc.u_nonneg]) _) hX
    · exact Or.inr ⟨h2, h1⟩

/-- **C108, `floyd_warshall`.** On non-negative floating-point weights: an entry exactly where a walk
exists, and each entry is the exact distance up to a factor between `(1 - u)^n` and `(1 + u)^n`. -/
theorem float_floyd_warshall_accurate (h : G.WF) (hsym : G.directed = false → G.Symm)
    (hW : ∀ a b w, G.WEdge a b w → 0 ≤ w.val ∧ w.val ≤ M) (hM : 0 ≤ M) (hS : ∀ a b w, G.WEdge a b w → S w.val) (acc : Accurate r S u B)
    (hB : (1 + u) ^ G.n * (2 * ((G.n - 1 : R) * M)) ≤ B) (choose : Fl r → Fl r → Fl r) {s v : K}
    (hs : G.Node s) (hv : G.Node v) :
    (∀ D, IsWDist (RealEdge G) s D v → ∃ d, G.view2 (fwDist G.directed choose G.A) s v = some d) ∧
    ∀ d, G.view2 (fwDist G.directed choose G.A) s v = some d → ∃ D, IsWDist (RealEdge G) s D v ∧
      (1 - u) ^ G.n * D ≤ d.val ∧ d.val ≤ (1 + u) ^ G.n * D := by
  obtain ⟨i, hi⟩ := hs.exists_id h
  obtain ⟨j, hj⟩ := hv.exists_id h
  have hsim := fwDist_sim acc (mat_bound h hW) (mat_all h hS) hM hB G.directed (fun hd => hsym hd) choose
    (fun a _ => a) i j
  have hno : ∀ x, ¬ NegCycleAt (MW (mapply Fl.val G.A)) x := by
    rintro x ⟨k, c, hw, hc⟩
    refine absurd (wwalk_nonneg ?_ hw) (not_le.2 hc)
    intro a b w hw
    obtain ⟨w', hw', rfl⟩ := Mach.mw_val.1 (show MW (mapply Fl.val G.A) a b w from hw)
    exact (mat_bound h hW a b w' hw').1
  have hex : ∀ D, fwDist G.directed (fun a _ => a) (mapply Fl.val G.A) i j = some D ↔
      IsWDist (RealEdge G) s D v := by
    intro D
    rw [realDist_iff h hi hj, ← mw_vals]
    exact FW.dist_spec G.directed (fun hd i j => by simp [mapply, hsym hd i j]) hno _
  have hview : ∀ d, G.view2 (fwDist G.directed choose G.A) s v = some d ↔
      fwDist G.directed choose G.A i j = some d := by
    intro d
    rw [view2_eq_some h]
    constructor
    · rintro ⟨i', j', hi', hj', hd⟩
      rw [At.id_unique h hi hi', At.id_unique h hj hj']; exact hd
    · intro hd; exact ⟨i, j, hi, hj, hd⟩
  simp only [hview, ← hex]
  rcases hsim with ⟨e1, e2⟩ | ⟨d, e, e1, e2, -, -, e3⟩
  · rw [e1, e2]; simp
  · rw [e1, e2]
    constructor
    · intro D _; exact ⟨d, rfl⟩
    · rintro d' ⟨⟩; exact ⟨e, rfl, e3⟩

end accuracy

/-! ### a format -/

/-- a toy format on the rationals: exact below 8, multiples of 4 from there on (ties up) -/
def toyRound : Rounding ℚ where
  fl x := if x < 8 then x else 4 * (⌊(x + 2) / 4⌋ : ℚ)
  mono := by
    intro x y hxy
    have key : ∀ z : ℚ, 8 ≤ z → (8 : ℚ) ≤ 4 * (⌊(z + 2) / 4⌋ : ℚ) := by
      intro z hz
      have : (2 : ℤ) ≤ ⌊(z + 2) / 4⌋ := Int.le_floor.2 (by push_cast; linarith)
      have : (2 : ℚ) ≤ (⌊(z + 2) / 4⌋ : ℚ) := by exact_mod_cast this
      linarith
    split_ifs with h1 h2 h2
    · exact hxy
    · linarith [key y (not_lt.1 h2)]
    · exact absurd (lt_of_le_of_lt hxy h2) h1
    · have : ⌊(x + 2) / 4⌋ ≤ ⌊(y + 2) / 4⌋ := Int.floor_mono (by linarith)
      have : (⌊(x + 2) / 4⌋ : ℚ) ≤ (⌊(y + 2) / 4⌋ : ℚ) := by exact_mod_cast this
      linarith
  idem := by
    intro x
    by_cases h : x < 8
    · rw [if_pos h, if_pos h]
    · rw [if_neg h]
      have h2 : (2 : ℤ) ≤ ⌊(x + 2) / 4⌋ := Int.le_floor.2 (by push_cast; linarith [not_lt.1 h])
      have h3 : (2 : ℚ) ≤ (⌊(x + 2) / 4⌋ : ℚ) := by exact_mod_cast h2
      rw [if_neg (by linarith)]
      congr 2
      rw [Int.floor_eq_iff]
      constructor <;> linarith
  zero := by norm_num

/-- its relative error is at most 1/4 -/
theorem toy_accurate (B : ℚ) : Accurate toyRound (fun _ => True) (1 / 4) B := by
  have key : ∀ x : ℚ, 0 ≤ x → |toyRound.fl x - x| ≤ 1 / 4 * x := by
    intro x hx
    show |(if x < 8 then x else 4 * (⌊(x + 2) / 4⌋ : ℚ)) - x| ≤ _
    split_ifs with h
    · rw [sub_self, abs_zero]; linarith
    · have h1 := Int.floor_le ((x + 2) / 4)
      have h2 := Int.lt_floor_add_one ((x + 2) / 4)
      rw [abs_le]
      constructor <;> linarith [not_lt.1 h]
  refine ⟨by norm_num, by norm_num, trivial, fun x y _ _ hx hy _ => ⟨trivial, key _ (add_nonneg hx hy)⟩, fun l x _ hx _ => ?_⟩
  have := key (l * x.val) (mul_nonneg (Nat.cast_nonneg l) hx)
  rw [← nsmul_eq_mul] at this ⊢
  exact this

/-- 7 is representable -/
def toy7 : Fl toyRound := ⟨7, by
  have h : (7 : ℚ) < 8 := by norm_num
  simp only [toyRound, if_pos h]⟩

/-- a path `1 - 2 - 3 - 4` with weights 7 -/
def Ex.floatPath : Graph Nat (Fl toyRound) where
  n := 4
  A := fun i j => if i.val + 1 = j.val ∨ j.val + 1 = i.val then some toy7 else none
  keyToId := [(1,0),(2,1),(3,2),(4,3)]
  directed := false

/-- the values of a result -/
def floatVals (res : Except Err (Vec 4 (Fl toyRound))) : Option (List (Option ℚ)) :=
  match res with
  | .ok d => some ((List.finRange 4).map fun i => (d i).map Fl.val)
  | .error _ => none

/-- The same graph gives different numbers depending on whether SuiteSparse stores the matrix iso-valued:
`7 + 7 + 7` rounds twice, `3 · 7` once. -/
theorem float_iso_storage_shows :
    floatVals (singleSourceBF Ex.floatPath none (fun _ _ => 0) 1 none) = some [some 0, some 7, some 16, some 24] ∧
    floatVals (singleSourceBF Ex.floatPath (some toy7) (fun _ _ => 0) 1 none) =
      some [some 0, some 7, some 16, some 20] := by
  constructor <;> decide +kernel

example : bellmanFordPath Ex.floatPath none 1 4 = .ok [1, 2, 3, 4] := by decide +kernel
example : bellmanFordPath Ex.floatPath (some toy7) 4 2 = .ok [4, 3, 2] := by decide +kernel

/-- the hypotheses of the accuracy theorems hold there -/
example : Ex.floatPath.WF ∧ IsoValid Ex.floatPath (some toy7) ∧
    (∀ a b w, Ex.floatPath.WEdge a b w → 0 ≤ w.val ∧ w.val ≤ 7) ∧
    ((1 + 1 / 4 : ℚ)) ^ (4 - 1) * ((4 - 1 : Nat) * 7) ≤ 100 := by
  have key : ∀ i j w, Ex.floatPath.A i j = some w → w = toy7 := by
    intro i j w hw
    simp only [Ex.floatPath] at hw
    split at hw
    · exact (Option.some.inj hw).symm
    · cases hw
  refine ⟨⟨by decide, by decide⟩, ?_, ?_, by norm_num⟩
  · rintro c ⟨⟩ u v w ⟨i, j, -, -, hw⟩
    exact key i j w hw
  · rintro a b w ⟨i, j, -, -, hw⟩
    rw [key i j w hw]
    exact ⟨by show (0 : ℚ) ≤ 7; norm_num, by show (7 : ℚ) ≤ 7; norm_num⟩

/-- sums may round to infinity: on the extended reals the theorems of the first part apply -/
example (r : Rounding EReal) (G : Graph K (Fl r)) (h : G.WF) (hnn : ∀ u v w, G.WEdge u v w → 0 ≤ w)
    {s : K} (hs : G.Node s) : ∃ res, singleSourceBF G none (fun _ _ => 0) s none = .ok res ∧
      ∀ u d, G.view res u = some d ↔ IsWDist G.WEdge s d u :=
  rounded_single_source h hnn _ hs

end Props
