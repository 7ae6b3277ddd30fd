import Verif.Proofs.MachineFW
import Verif.Props.BellmanFord
import Verif.Props.FloydWarshall
import Verif.Proofs.SubGraph

/-!
# C106: weighted shortest paths on integer dtypes

The code adds in the dtype of the matrix.  The theorems say when that is harmless; the examples at
the end of each block say that it is not always.
-/

open GB Spec Model Proofs Proofs.BF Proofs.Mach Proofs.Bfs Graph

namespace Props

variable {K β : Type} [DecidableEq K]

/-- the edges of a graph on machine integers, with the integers the weights stand for -/
def IntEdge (val : β → Int) (G : Graph K β) (u v : K) (x : Int) : Prop :=
  ∃ w, G.WEdge u v w ∧ val w = x

section generic
variable [AddCommGroup β] [LinearOrder β] {val : β → Int} {lo hi L U : Int}
  (hm : Machine β val lo hi) {G : Graph K β}

omit [DecidableEq K] [AddCommGroup β] [LinearOrder β] in
theorem ints_wf (h : G.WF) : (G.ints val).WF := ⟨h.keys_nodup, h.ids_perm⟩

omit [DecidableEq K] [AddCommGroup β] [LinearOrder β] in
theorem ints_wedge : (G.ints val).WEdge = IntEdge val G := by
  funext u v x
  apply propext
  constructor
  · rintro ⟨i, j, hi, hj, hx⟩
    have hx' : (G.A i j).map val = some x := hx
    obtain ⟨w, hw, rfl⟩ := Option.map_eq_some_iff.1 hx'
    exact ⟨w, ⟨i, j, hi, hj, hw⟩, rfl⟩
  · rintro ⟨w, ⟨i, j, hi, hj, hw⟩, rfl⟩
    exact ⟨i, j, hi, hj, by show (G.A i j).map val = _; rw [hw]; rfl⟩

omit [DecidableEq K] [AddCommGroup β] [LinearOrder β] in
theorem ints_symm (hs : G.directed = false → G.Symm) : (G.ints val).directed = false → (G.ints val).Symm := by
  intro hd
  intro i j
  have : G.A i j = G.A j i := hs hd i j
  show (G.A i j).map val = (G.A j i).map val
  rw [this]

omit [DecidableEq K] [AddCommGroup β] [LinearOrder β] in
theorem ints_isoValid {iso : Option β} (hi : IsoValid G iso) : IsoValid (G.ints val) (iso.map val) := by
  intro c hc u v w hw
  obtain ⟨c', hc', rfl⟩ := Option.map_eq_some_iff.1 hc
  rw [ints_wedge] at hw
  obtain ⟨w', hw', rfl⟩ := hw
  rw [hi c' hc' u v w' hw']

omit [DecidableEq K] [AddCommGroup β] [LinearOrder β] in
theorem inM_of_edges (h : G.WF) (hW : ∀ u v w, G.WEdge u v w → L ≤ val w ∧ val w ≤ U) : InM val L U G.A := by
  intro i j a ha
  exact hW (keyFn h i) (keyFn h j) a ⟨i, j, keyFn_at h i, keyFn_at h j, ha⟩

omit [DecidableEq K] in
theorem fits (h : G.WF) {iso : Option β} (hiso : IsoValid G iso)
    (hW : ∀ u v w, G.WEdge u v w → L ≤ val w ∧ val w ≤ U) (hL : L ≤ 0) (hU : 0 ≤ U)
    (hlo : lo ≤ G.n * L) (hhi : G.n * U ≤ hi) : Fits val lo hi L U G iso :=
  ⟨inM_of_edges h hW, hL, hU, hlo, hhi, fun c hc i j a ha =>
    hiso c hc (keyFn h i) (keyFn h j) a ⟨i, j, keyFn_at h i, keyFn_at h j, ha⟩⟩

omit [LinearOrder β] [AddCommGroup β] [DecidableEq K] in
theorem map_eq_ok {α γ : Type} {f : α → γ} {x : Except Err α} {y : γ} (h : x.map f = .ok y) :
    ∃ z, x = .ok z ∧ f z = y := by
  cases x with
  | error e => cases h
  | ok z => cases h; exact ⟨z, rfl, rfl⟩

omit [LinearOrder β] [AddCommGroup β] [DecidableEq K] in
theorem map_eq_error {α γ : Type} {f : α → γ} {x : Except Err α} {e : Err} (h : x.map f = .error e) :
    x = .error e := by
  cases x with
  | error e => cases h; rfl
  | ok z => cases h

omit [LinearOrder β] [AddCommGroup β] in
theorem ints_view (v : Vec G.n β) (u : K) :
    (G.ints val).view (vapply val v) u = (G.view v u).map val := by
  show (G.idOf u).bind (vapply val v) = ((G.idOf u).bind v).map val
  cases G.idOf u <;> rfl

theorem fdiv_irrelevant (iso : Option β) (fd fd' : β → β → Int) (s : K) :
    singleSourceBF G iso fd s none = singleSourceBF G iso fd' s none := by
  unfold singleSourceBF; rfl

include hm

theorem machine_single (h : G.WF) (hsym : G.directed = false → G.Symm) {iso : Option β}
    (hiso : IsoValid G iso) (fd : β → β → Int)
    (hW : ∀ u v w, G.WEdge u v w → L ≤ val w ∧ val w ≤ U) (hL : L ≤ 0) (hU : 0 ≤ U)
    (hlo : lo ≤ G.n * L) (hhi : G.n * U ≤ hi) {s : K} (hs : G.Node s) :
    (NegCycleFrom (IntEdge val G) s ∧ singleSourceBF G iso fd s none = .error .unbounded) ∨
    (¬ NegCycleFrom (IntEdge val G) s ∧ ∃ r, singleSourceBF G iso fd s none = .ok r ∧
      ∀ u d, (G.view r u).map val = some d ↔ IsWDist (IntEdge val G) s d u) := by
  rw [fdiv_irrelevant iso fd (fun x c => val x / val c)]
  have hv := single_val hm (fits h hiso hW hL hU hlo hhi) (fun x c => val x / val c) (fun x c => x / c)
    (fun _ _ => rfl) s none
  have hc := single_source_bellman_ford_path_length_correct (ints_wf (val := val) h) (ints_symm hsym)
    (ints_isoValid hiso) (fun x c => x / c) (s := s) hs
  rw [ints_wedge] at hc
  rcases hc with ⟨h1, h2⟩ | ⟨h1, r, h2, h3⟩
  · exact Or.inl ⟨h1, map_eq_error (hv.trans h2)⟩
  · obtain ⟨z, hz, hzr⟩ := map_eq_ok (hv.trans h2)
    refine Or.inr ⟨h1, z, hz, fun u d => ?_⟩
    subst hzr
    rw [← h3 u d]
    exact Iff.of_eq (congrArg (· = some d) (ints_view z u).symm)

theorem machine_single_cutoff (h : G.WF) {iso : Option β}
    (hiso : IsoValid G iso) (h0 : iso ≠ some 0) {fd : β → β → Int} (hfd : ∀ x c, fd x c = val x / val c)
    (hW : ∀ u v w, G.WEdge u v w → 0 ≤ val w ∧ val w ≤ U) (hU : 0 ≤ U)
    (hlo : lo ≤ 0) (hhi : G.n * U ≤ hi) {s : K} (hs : G.Node s) {x : β} (hx : 0 ≤ val x)
    (hpos : ∀ c, iso = some c → 0 ≤ val c) :
    ∃ r, singleSourceBF G iso fd s (some x) = .ok r ∧
      ∀ u d, (G.view r u).map val = some d ↔ IsWDist (IntEdge val G) s d u ∧ d ≤ val x := by
  have hv := single_val hm (fits h hiso hW le_rfl hU (by simpa using hlo) hhi) fd (fun x c => x / c)
    hfd s (some x)
  obtain ⟨r, h2, h3⟩ := single_source_bellman_ford_path_length_cutoff (ints_wf (val := val) h)
    (ints_isoValid hiso)
    (by
      intro h
      obtain ⟨c, hc, hc0⟩ := Option.map_eq_some_iff.1 h
      exact h0 (hc.trans (congrArg some ((inj hm.le_iff).1 (hc0.trans hm.zero.symm)))))
    int_floorDiv
    (by
      rw [ints_wedge]
      rintro u v w ⟨w', hw, rfl⟩
      exact (hW u v w' hw).1) (s := s) hs (x := val x) hx
    (by
      intro c hc
      obtain ⟨c', hc', rfl⟩ := Option.map_eq_some_iff.1 hc
      exact hpos c' hc')
  rw [ints_wedge] at h3
  obtain ⟨z, hz, hzr⟩ := map_eq_ok (hv.trans h2)
  refine ⟨z, hz, fun u d => ?_⟩
  subst hzr
  rw [← h3 u d]
  exact Iff.of_eq (congrArg (· = some d) (ints_view z u).symm)

theorem machine_target (h : G.WF) (hsym : G.directed = false → G.Symm) {iso : Option β}
    (hiso : IsoValid G iso)
    (hW : ∀ u v w, G.WEdge u v w → L ≤ val w ∧ val w ≤ U) (hL : L ≤ 0) (hU : 0 ≤ U)
    (hlo : lo ≤ G.n * L) (hhi : G.n * U ≤ hi) {s t : K} (hs : G.Node s) (ht : G.Node t)
    (hno : ¬ NegCycleFrom (IntEdge val G) s) :
    (∃ d, IsWDist (IntEdge val G) s (val d) t ∧ bellmanFordPathLength G iso s t = .ok d) ∨
    (¬ WReach (IntEdge val G) s t ∧ bellmanFordPathLength G iso s t = .error .noPath) := by
  have hv := target_val hm (fits h hiso hW hL hU hlo hhi) s t
  have hc := bellman_ford_path_length_correct_partial (ints_wf (val := val) h) (ints_symm hsym)
    (ints_isoValid hiso) (s := s) (t := t) hs ht (by rw [ints_wedge]; exact hno)
  rw [ints_wedge] at hc
  rcases hc with ⟨d, h1, h2⟩ | ⟨h1, h2⟩
  · obtain ⟨z, hz, rfl⟩ := map_eq_ok (hv.trans h2)
    exact Or.inl ⟨z, h1, hz⟩
  · exact Or.inr ⟨h1, map_eq_error (hv.trans h2)⟩

theorem machine_batch (h : G.WF) (hsym : G.directed = false → G.Symm) {iso : Option β}
    (hiso : IsoValid G iso)
    (hW : ∀ u v w, G.WEdge u v w → L ≤ val w ∧ val w ≤ U) (hL : L ≤ 0) (hU : 0 ≤ U)
    (hlo : lo ≤ G.n * L) (hhi : G.n * U ≤ hi) {k : Nat} (nodes : Fin k → K)
    (ids : Fin k → Fin G.n) (hids : ∀ r, G.At (nodes r) (ids r)) :
    ((∃ r, NegCycleFrom (IntEdge val G) (nodes r)) ∧
      bellmanFordPathLengths G iso ids = .error .unbounded) ∨
    ((∀ r, ¬ NegCycleFrom (IntEdge val G) (nodes r)) ∧ ∃ D, bellmanFordPathLengths G iso ids = .ok D ∧
      ∀ r u d, (G.view (D r) u).map val = some d ↔ IsWDist (IntEdge val G) (nodes r) d u) := by
  have hv := lengths_val hm (fits h hiso hW hL hU hlo hhi) ids
  have hc := bellman_ford_path_lengths_batch (ints_wf (val := val) h) (ints_symm hsym)
    (ints_isoValid hiso) (fun x c => x / c) nodes ids hids
  rcases hc with ⟨h1, h2⟩ | ⟨h1, D, h2, h3⟩
  · rw [ints_wedge] at h1
    exact Or.inl ⟨h1, map_eq_error (hv.trans h2)⟩
  · have hnode : ∀ r, G.Node (nodes r) := fun r => (hids r).node
    obtain ⟨z, hz, hzr⟩ := map_eq_ok (hv.trans h2)
    refine Or.inr ⟨by rw [ints_wedge] at h1; exact h1, z, hz, fun r u d => ?_⟩
    have hs := single_source_bellman_ford_path_length_correct (ints_wf (val := val) h) (ints_symm hsym)
      (ints_isoValid hiso) (fun x c => x / c) (s := nodes r) (hnode r)
    rcases hs with ⟨h4, -⟩ | ⟨-, r', h5, h6⟩
    · exact absurd h4 (h1 r)
    · rw [h3 r] at h5
      cases h5
      rw [ints_wedge] at h6
      subst hzr
      rw [← h6 u d]
      exact Iff.of_eq (congrArg (· = some d) (ints_view (z r) u).symm)

theorem machine_nec (h : G.WF) (hsym : G.directed = false → G.Symm)
    (hW : ∀ u v w, G.WEdge u v w → L ≤ val w ∧ val w ≤ U) (hL : L ≤ 0) (hU : 0 ≤ U)
    (hlo : lo ≤ G.n * L) (hhi : G.n * U ≤ hi) :
    negativeEdgeCycle G = true ↔ ∃ u, G.Node u ∧ NegCycleAt (IntEdge val G) u := by
  rw [nec_val hm (inM_of_edges h hW) hL hU hlo hhi,
    negative_edge_cycle_correct (ints_wf (val := val) h) (ints_symm hsym), ints_wedge]
  rfl

theorem machine_fw (h : G.WF) (hsym : G.directed = false → G.Symm)
    (hW : ∀ u v w, G.WEdge u v w → L ≤ val w ∧ val w ≤ U) (hL : L ≤ 0) (hU : 0 ≤ U)
    (hlo : lo ≤ 2 * ((G.n - 1 : Int) * L)) (hhi : 2 * ((G.n - 1 : Int) * U) ≤ hi)
    (hno : ∀ u, G.Node u → ¬ NegCycleAt (IntEdge val G) u) (choose : β → β → β) (u v : K) (d : Int) :
    (G.view2 (fwDist G.directed choose G.A) u v).map val = some d ↔
      G.Node u ∧ G.Node v ∧ IsWDist (IntEdge val G) u d v := by
  have hno' : ∀ u, (G.ints val).Node u → ¬ NegCycleAt (G.ints val).WEdge u := by
    rw [ints_wedge]; exact hno
  have hc := floyd_warshall_correct (ints_wf (val := val) h) (ints_symm hsym) hno' (fun a _ => a) u v d
  rw [ints_wedge] at hc
  refine Iff.trans ?_ hc
  have e : mapply val (fwDist G.directed choose G.A) =
      fwDist G.directed (fun a _ => a) (mapply val G.A) :=
    fwDist_val hm (inM_of_edges h hW) hL hU hlo hhi G.directed (fun hd i j => hsym hd i j)
      (no_neg_cycle (ints_wf (val := val) h) hno') choose (fun a _ => a)
  show _ ↔ ((G.idOf u).bind fun i => (G.idOf v).bind fun j =>
    fwDist G.directed (fun a _ => a) (mapply val G.A) i j) = some d
  rw [← e]
  show Option.map val ((G.idOf u).bind fun i => (G.idOf v).bind fun j => _) = some d ↔ _
  cases G.idOf u with
  | none => simp
  | some i =>
    cases G.idOf v with
    | none => simp
    | some j => rfl

end generic

/-! ### signed types -/

section signed
variable {b : Nat} (hb : 0 < b) {G : Graph K (SInt b)} {W : Nat}
include hb

private theorem abs_bounds {x : Int} (h : |x| ≤ W) : -(W : Int) ≤ x ∧ x ≤ W := abs_le.1 h

theorem signed_range (hfit : G.n * W < 2 ^ (b - 1)) :
    (-2 ^ (b - 1) : Int) ≤ G.n * (-(W : Int)) ∧ (G.n * W : Int) ≤ 2 ^ (b - 1) - 1 := by
  have h : ((G.n * W : Nat) : Int) < ((2 ^ (b - 1) : Nat) : Int) := by exact_mod_cast hfit
  push_cast at h
  constructor
  · rw [mul_neg]; omega
  · omega

theorem signed_range2 (hfit : 2 * ((G.n - 1) * W) < 2 ^ (b - 1)) (h1 : 1 ≤ G.n) :
    (-2 ^ (b - 1) : Int) ≤ 2 * ((G.n - 1 : Int) * (-(W : Int))) ∧
      2 * ((G.n - 1 : Int) * W) ≤ 2 ^ (b - 1) - 1 := by
  have h : ((2 * ((G.n - 1) * W) : Nat) : Int) < ((2 ^ (b - 1) : Nat) : Int) := by exact_mod_cast hfit
  push_cast [Nat.cast_sub h1] at h
  constructor
  · rw [mul_neg]; omega
  · omega

/-- **C106.** On a graph whose weights are `b`-bit signed integers of absolute value at most `W`
with `n·W < 2^(b-1)`, `single_source_bellman_ford_path_length(G, s)` is right about the integers the
weights stand for: it raises Unbounded exactly when a negative cycle is reachable, and otherwise
the value at `u` stands for the minimum total weight of a walk from `s` to `u` (and is absent when
there is none). -/
theorem int_single_source_bellman_ford_path_length (h : G.WF) (hsym : G.directed = false → G.Symm)
    {iso : Option (SInt b)} (hiso : IsoValid G iso) (fd : SInt b → SInt b → Int)
    (hW : ∀ u v w, G.WEdge u v w → |w.toInt| ≤ W) (hfit : G.n * W < 2 ^ (b - 1)) {s : K} (hs : G.Node s) :
    (NegCycleFrom (IntEdge SInt.toInt G) s ∧ singleSourceBF G iso fd s none = .error .unbounded) ∨
    (¬ NegCycleFrom (IntEdge SInt.toInt G) s ∧ ∃ r, singleSourceBF G iso fd s none = .ok r ∧
      ∀ u d, (G.view r u).map SInt.toInt = some d ↔ IsWDist (IntEdge SInt.toInt G) s d u) :=
  machine_single (SInt.machine hb) h hsym hiso fd (fun u v w e => abs_le.1 (hW u v w e))
    (by omega) (by omega) (signed_range hb hfit).1 (signed_range hb hfit).2 hs

/-- **C106**, with a cutoff (non-negative weights): exactly the distances up to the cutoff. -/
theorem int_single_source_bellman_ford_path_length_cutoff (h : G.WF) {iso : Option (SInt b)}
    (hiso : IsoValid G iso) (h0 : iso ≠ some 0) {fd : SInt b → SInt b → Int}
    (hfd : ∀ x c, fd x c = x.toInt / c.toInt)
    (hW : ∀ u v w, G.WEdge u v w → 0 ≤ w.toInt ∧ w.toInt ≤ W) (hfit : G.n * W < 2 ^ (b - 1))
    {s : K} (hs : G.Node s) {x : SInt b} (hx : 0 ≤ x.toInt) (hpos : ∀ c, iso = some c → 0 ≤ c.toInt) :
    ∃ r, singleSourceBF G iso fd s (some x) = .ok r ∧
      ∀ u d, (G.view r u).map SInt.toInt = some d ↔
        IsWDist (IntEdge SInt.toInt G) s d u ∧ d ≤ x.toInt :=
  machine_single_cutoff (SInt.machine hb) h hiso h0 hfd hW (by omega) (by simp)
    (signed_range hb hfit).2 hs hx hpos

/-- **C106**, `bellman_ford_path_length(G, s, t)` when no negative cycle is reachable. -/
theorem int_bellman_ford_path_length (h : G.WF) (hsym : G.directed = false → G.Symm)
    {iso : Option (SInt b)} (hiso : IsoValid G iso)
    (hW : ∀ u v w, G.WEdge u v w → |w.toInt| ≤ W) (hfit : G.n * W < 2 ^ (b - 1))
    {s t : K} (hs : G.Node s) (ht : G.Node t) (hno : ¬ NegCycleFrom (IntEdge SInt.toInt G) s) :
    (∃ d, IsWDist (IntEdge SInt.toInt G) s d.toInt t ∧ bellmanFordPathLength G iso s t = .ok d) ∨
    (¬ WReach (IntEdge SInt.toInt G) s t ∧ bellmanFordPathLength G iso s t = .error .noPath) :=
  machine_target (SInt.machine hb) h hsym hiso (fun u v w e => abs_le.1 (hW u v w e))
    (by omega) (by omega) (signed_range hb hfit).1 (signed_range hb hfit).2 hs ht hno

/-- **C106**, `bellman_ford_path_lengths(G, nodes)`: one row per node. -/
theorem int_bellman_ford_path_lengths (h : G.WF) (hsym : G.directed = false → G.Symm)
    {iso : Option (SInt b)} (hiso : IsoValid G iso)
    (hW : ∀ u v w, G.WEdge u v w → |w.toInt| ≤ W) (hfit : G.n * W < 2 ^ (b - 1)) {k : Nat}
    (nodes : Fin k → K) (ids : Fin k → Fin G.n) (hids : ∀ r, G.At (nodes r) (ids r)) :
    ((∃ r, NegCycleFrom (IntEdge SInt.toInt G) (nodes r)) ∧
      bellmanFordPathLengths G iso ids = .error .unbounded) ∨
    ((∀ r, ¬ NegCycleFrom (IntEdge SInt.toInt G) (nodes r)) ∧
      ∃ D, bellmanFordPathLengths G iso ids = .ok D ∧
      ∀ r u d, (G.view (D r) u).map SInt.toInt = some d ↔
        IsWDist (IntEdge SInt.toInt G) (nodes r) d u) :=
  machine_batch (SInt.machine hb) h hsym hiso (fun u v w e => abs_le.1 (hW u v w e))
    (by omega) (by omega) (signed_range hb hfit).1 (signed_range hb hfit).2 nodes ids hids

/-- **C106**, `negative_edge_cycle(G)`. -/
theorem int_negative_edge_cycle (h : G.WF) (hsym : G.directed = false → G.Symm)
    (hW : ∀ u v w, G.WEdge u v w → |w.toInt| ≤ W) (hfit : G.n * W < 2 ^ (b - 1)) :
    negativeEdgeCycle G = true ↔ ∃ u, G.Node u ∧ NegCycleAt (IntEdge SInt.toInt G) u :=
  machine_nec (SInt.machine hb) h hsym (fun u v w e => abs_le.1 (hW u v w e))
    (by omega) (by omega) (signed_range hb hfit).1 (signed_range hb hfit).2

/-- **C106**, `floyd_warshall(G, is_weighted=True)` when there is no negative cycle; it adds two
distances before comparing, so it needs twice the room. -/
theorem int_floyd_warshall (h : G.WF) (hsym : G.directed = false → G.Symm)
    (hW : ∀ u v w, G.WEdge u v w → |w.toInt| ≤ W) (hfit : 2 * ((G.n - 1) * W) < 2 ^ (b - 1))
    (hno : ∀ u, G.Node u → ¬ NegCycleAt (IntEdge SInt.toInt G) u) (choose : SInt b → SInt b → SInt b)
    (u v : K) (d : Int) :
    (G.view2 (fwDist G.directed choose G.A) u v).map SInt.toInt = some d ↔
      G.Node u ∧ G.Node v ∧ IsWDist (IntEdge SInt.toInt G) u d v := by
  by_cases h1 : 1 ≤ G.n
  · exact machine_fw (SInt.machine hb) h hsym (fun u v w e => abs_le.1 (hW u v w e))
      (by omega) (by omega) (signed_range2 hb hfit h1).1 (signed_range2 hb hfit h1).2 hno choose u v d
  · have hn : ∀ u, ¬ G.Node u := by
      intro u hu
      obtain ⟨i, hi⟩ := hu.exists_id h
      exact absurd i.2 (by omega)
    constructor
    · intro hv
      obtain ⟨x, hx, -⟩ := Option.map_eq_some_iff.1 hv
      obtain ⟨i, -⟩ := (view2_eq_some h).1 hx
      exact absurd i.2 (by omega)
    · rintro ⟨hu, -⟩; exact absurd hu (hn u)

end signed

/-! ### unsigned types -/

section unsigned
variable {b : Nat} {G : Graph K (UInt_ b)} {W : Nat}

private theorem unsigned_range (hfit : G.n * W < 2 ^ b) : (G.n * W : Int) ≤ 2 ^ b - 1 := by
  have h : ((G.n * W : Nat) : Int) < ((2 ^ b : Nat) : Int) := by exact_mod_cast hfit
  push_cast at h
  omega

private theorem unsigned_nonneg (x : UInt_ b) : 0 ≤ x.toInt := Int.natCast_nonneg _

/-- **C106**, unsigned weights: no cutoff.  Nothing is ever negative, so the result is always the
vector of distances. -/
theorem uint_single_source_bellman_ford_path_length (h : G.WF) (hsym : G.directed = false → G.Symm)
    {iso : Option (UInt_ b)} (hiso : IsoValid G iso) (fd : UInt_ b → UInt_ b → Int)
    (hW : ∀ u v w, G.WEdge u v w → w.toInt ≤ W) (hfit : G.n * W < 2 ^ b) {s : K} (hs : G.Node s) :
    ∃ r, singleSourceBF G iso fd s none = .ok r ∧
      ∀ u d, (G.view r u).map UInt_.toInt = some d ↔ IsWDist (IntEdge UInt_.toInt G) s d u := by
  have hnn : ∀ {k c u v}, WWalk (IntEdge UInt_.toInt G) k c u v → 0 ≤ c := by
    intro k c u v hw
    induction hw with
    | nil => exact le_rfl
    | snoc _ e ih =>
      obtain ⟨w, -, rfl⟩ := e
      exact add_nonneg ih (unsigned_nonneg w)
  rcases machine_single (L := 0) UInt_.machine h hsym hiso fd
    (fun u v w e => ⟨unsigned_nonneg w, hW u v w e⟩) le_rfl (by omega) (by simp)
    (unsigned_range hfit) hs with ⟨⟨x, -, k, c, hw, hc⟩, -⟩ | ⟨-, h2⟩
  · exact absurd (hnn hw) (by omega)
  · exact h2

/-- **C106**, unsigned weights: `floyd_warshall(G, is_weighted=True)`. -/
theorem uint_floyd_warshall (h : G.WF) (hsym : G.directed = false → G.Symm)
    (hW : ∀ u v w, G.WEdge u v w → w.toInt ≤ W) (hfit : 2 * (G.n * W) < 2 ^ b)
    (choose : UInt_ b → UInt_ b → UInt_ b) (u v : K) (d : Int) :
    (G.view2 (fwDist G.directed choose G.A) u v).map UInt_.toInt = some d ↔
      G.Node u ∧ G.Node v ∧ IsWDist (IntEdge UInt_.toInt G) u d v := by
  have hnn : ∀ {k c u v}, WWalk (IntEdge UInt_.toInt G) k c u v → 0 ≤ c := by
    intro k c u v hw
    induction hw with
    | nil => exact le_rfl
    | snoc _ e ih =>
      obtain ⟨w, -, rfl⟩ := e
      exact add_nonneg ih (unsigned_nonneg w)
  have hr : ((2 * (G.n * W) : Nat) : Int) < ((2 ^ b : Nat) : Int) := by exact_mod_cast hfit
  push_cast at hr
  refine machine_fw (L := 0) (U := W) UInt_.machine h hsym
    (fun u v w e => ⟨unsigned_nonneg w, hW u v w e⟩) le_rfl (by omega) (by simp) ?_ ?_ choose u v d
  · have : ((G.n : Int) - 1) * W = G.n * W - W := by ring
    omega
  · rintro u - ⟨k, c, hw, hc⟩
    exact absurd (hnn hw) (by omega)

end unsigned

/-! ### an INT8 graph within the bound, and INT8/UINT8 graphs beyond it -/

/-- INT8 weights given as integers -/
def Ex.i8 (l : List (Nat × Nat × Int)) (n : Nat) : Mat n n (SInt 8) :=
  fun i j => (_root_.Ex.ofTriples n l i j).map (SInt.ofInt 8)

/-- a path of INT8 weights and a shortcut of negative weight; `4·20 < 128` -/
def Ex.small8 : Graph Nat (SInt 8) where
  n := 4
  A := Ex.i8 [(0,1,20), (1,2,20), (2,3,20), (0,2,-5)] 4
  keyToId := [(0,0),(1,1),(2,2),(3,3)]
  directed := true

/-- hypotheses of the theorems above are met by `small8`, and here is what they give -/
example : Ex.small8.WF ∧ (∀ i j w, Ex.small8.A i j = some w → |w.toInt| ≤ (20 : Nat)) ∧
    Ex.small8.n * 20 < 2 ^ (8 - 1) ∧
    (∃ r, singleSourceBF Ex.small8 none (fun _ _ => 0) 0 none = .ok r ∧
      (List.finRange 4).map (fun i => (r i).map SInt.toInt) = [some 0, some 20, some (-5), some 15]) :=
  ⟨⟨by decide, by decide⟩, by decide +kernel, by decide, by
    refine ⟨_, rfl, ?_⟩; decide +kernel⟩

/-- `0 → 1 → 2` with weights 100 and 100, and a direct edge `0 → 2` of weight 1 -/
def Ex.wrap8 : Graph Nat (SInt 8) where
  n := 3
  A := Ex.i8 [(0,1,100), (1,2,100), (0,2,1)] 3
  keyToId := [(0,0),(1,1),(2,2)]
  directed := true

/-- **C106, negative part.**  All weights are positive, every distance fits in INT8 and the distance
from 0 to 2 is 1, but 100 + 100 wraps to -56, which both functions report as the distance. -/
theorem int8_distances_wrap :
    Ex.wrap8.WF ∧ IsWDist (IntEdge SInt.toInt Ex.wrap8) 0 1 2 ∧
    (∃ r, singleSourceBF Ex.wrap8 none (fun _ _ => 0) 0 none = .ok r ∧
      (Ex.wrap8.view r 2).map SInt.toInt = some (-56)) ∧
    ∀ choose, (Ex.wrap8.view2 (fwDist true choose Ex.wrap8.A) 0 2).map SInt.toInt = some (-56) := by
  have hwf : Ex.wrap8.WF := ⟨by decide, by decide⟩
  refine ⟨hwf, ?_, ⟨_, rfl, by decide +kernel⟩, fun choose => ?_⟩
  · rw [← ints_wedge]
    have := (floyd_warshall_correct (G := Ex.wrap8.ints SInt.toInt) (ints_wf hwf)
      (fun h => absurd h (by decide)) ?_ (fun a _ => a) 0 2 1).1 (by decide +kernel)
    · exact this.2.2
    · rintro u - hneg
      have hh := (negative_edge_cycle_correct (G := Ex.wrap8.ints SInt.toInt) (ints_wf hwf)
        (fun h => absurd h (by decide))).2
      have hu : (Ex.wrap8.ints SInt.toInt).Node u := by
        obtain ⟨k, c, hw, hc⟩ := hneg
        cases hw with
        | nil => exact absurd hc (by decide)
        | snoc _ e => exact (edge_iff_wedge.2 ⟨_, e⟩).node_right
      exact absurd (hh ⟨u, hu, hneg⟩) (by decide +kernel)
  · have : fwDist true choose Ex.wrap8.A = fwDist true (fun a _ => a) Ex.wrap8.A := by
      unfold fwDist fwLoop fwFinish
      rfl
    rw [this]
    decide +kernel

/-- a cycle `0 → 1 → 2 → 0` of weights 64, 64, 1 -/
def Ex.cyc8 : Graph Nat (SInt 8) where
  n := 3
  A := Ex.i8 [(0,1,64), (1,2,64), (2,0,1)] 3
  keyToId := [(0,0),(1,1),(2,2)]
  directed := true

/-- **C106, negative part.**  All weights are positive, yet the call raises Unbounded. -/
theorem int8_false_negative_cycle :
    (∀ u v w, Ex.cyc8.WEdge u v w → 0 < w.toInt) ∧
    singleSourceBF Ex.cyc8 none (fun _ _ => 0) 0 none = .error .unbounded := by
  constructor
  · have hall : ∀ i j w, Ex.cyc8.A i j = some w → 0 < w.toInt := by decide +kernel
    rintro u v w ⟨i, j, -, -, hw⟩
    exact hall i j w hw
  · have : ∃ e, singleSourceBF Ex.cyc8 none (fun _ _ => 0) 0 none = .error e ∧ e = .unbounded := by
      refine ⟨_, ?_, rfl⟩
      decide +kernel
    obtain ⟨e, h1, rfl⟩ := this
    exact h1

/-- a path `0 → 1 → 2`, every weight 100 -/
def Ex.iso8 : Graph Nat (SInt 8) where
  n := 3
  A := Ex.i8 [(0,1,100), (1,2,100)] 3
  keyToId := [(0,0),(1,1),(2,2)]
  directed := true

/-- **C106, negative part.**  The iso-valued shortcut wraps as well: two hops of 100 are -56. -/
theorem int8_iso_wraps :
    ∃ r, singleSourceBF Ex.iso8 (some (SInt.ofInt 8 100)) (fun _ _ => 0) 0 none = .ok r ∧
      (List.finRange 3).map (fun i => (r i).map SInt.toInt) = [some 0, some 100, some (-56)] := by
  refine ⟨_, rfl, ?_⟩
  decide +kernel

/-- the same path with UINT8 weights 200 -/
def Ex.u8 : Graph Nat (UInt_ 8) where
  n := 3
  A := fun i j => (_root_.Ex.ofTriples 3 [(0,1,200), (1,2,100)] i j).map (UInt_.ofInt 8)
  keyToId := [(0,0),(1,1),(2,2)]
  directed := true

/-- **C106, negative part.**  UINT8: 200 + 100 is reported as 44. -/
theorem uint8_distances_wrap :
    ∃ r, singleSourceBF Ex.u8 none (fun _ _ => 0) 0 none = .ok r ∧
      (List.finRange 3).map (fun i => (r i).map UInt_.toInt) = [some 0, some 200, some 44] := by
  refine ⟨_, rfl, ?_⟩
  decide +kernel

end Props
