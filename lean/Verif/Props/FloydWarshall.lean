import Verif.Proofs.FloydWarshall
import Verif.Props.BellmanFord

/-!
# Floyd-Warshall: C32, C33, C34
-/

open GB Spec Model Model.Graph Proofs Proofs.Bfs Proofs.BF Proofs.FW

namespace Props

variable {K α : Type} [DecidableEq K] [AddCommGroup α] [LinearOrder α] [IsOrderedAddMonoid α]
  {G : Graph K α}

omit [AddCommGroup α] [LinearOrder α] [IsOrderedAddMonoid α] in
theorem view2_eq_some {β : Type} (h : G.WF) {D : Mat G.n G.n β} {u v : K} {b : β} :
    G.view2 D u v = some b ↔ ∃ i j, G.At u i ∧ G.At v j ∧ D i j = some b := by
  unfold Graph.view2
  simp only [Option.bind_eq_some_iff, idOf_eq_some h]
  constructor
  · rintro ⟨i, hi, j, hj, e⟩; exact ⟨i, j, hi, hj, e⟩
  · rintro ⟨i, j, hi, hj, e⟩; exact ⟨i, hi, j, hj, e⟩

omit [DecidableEq K] [IsOrderedAddMonoid α] in
theorem no_neg_cycle (h : G.WF) (hno : ∀ u, G.Node u → ¬ NegCycleAt G.WEdge u) :
    ∀ x, ¬ NegCycleAt (MW G.A) x := by
  intro x hx
  obtain ⟨u, hu⟩ := h.exists_key x
  exact hno u hu.node ((negCycleAt_iff h hu).2 hx)

/-- **C32 (weighted).** If the graph has no negative cycle, `floyd_warshall(G)` has value `d` at
`(u, v)` exactly when `u`, `v` are nodes and `d` is the minimum total weight over all walks from
`u` to `v`; whichever operand the `any` operator picks. -/
theorem floyd_warshall_correct (h : G.WF) (hsym : G.directed = false → G.Symm)
    (hno : ∀ u, G.Node u → ¬ NegCycleAt G.WEdge u) (choose : α → α → α) (u v : K) (d : α) :
    G.view2 (fwDist G.directed choose G.A) u v = some d ↔
      G.Node u ∧ G.Node v ∧ IsWDist G.WEdge u d v := by
  rw [view2_eq_some h]
  simp only [dist_spec G.directed hsym (no_neg_cycle h hno) choose]
  constructor
  · rintro ⟨i, j, hi, hj, hd⟩
    exact ⟨hi.node, hj.node, (isWDist_iff h hi hj).2 hd⟩
  · rintro ⟨hu, hv, hd⟩
    obtain ⟨i, hi⟩ := hu.exists_id h
    obtain ⟨j, hj⟩ := hv.exists_id h
    exact ⟨i, j, hi, hj, (isWDist_iff h hi hj).1 hd⟩

/-- **C32.** The result has a 0 at every `(u, u)` -/
theorem floyd_warshall_diagonal (h : G.WF) (choose : α → α → α) {u : K} (hu : G.Node u) :
    G.view2 (fwDist G.directed choose G.A) u u = some 0 := by
  rw [view2_eq_some h]
  obtain ⟨i, hi⟩ := hu.exists_id h
  exact ⟨i, i, hi, hi, by simp [fwDist, fwFinish]⟩

/-- **C32.** and is symmetric for undirected graphs. -/
theorem floyd_warshall_symmetric (h : G.WF) (hd : G.directed = false) (hs : G.Symm)
    (hno : ∀ u, G.Node u → ¬ NegCycleAt G.WEdge u) (choose : α → α → α) (u v : K) :
    G.view2 (fwDist G.directed choose G.A) u v = G.view2 (fwDist G.directed choose G.A) v u := by
  have rev : ∀ {k c} {a b : K}, WWalk G.WEdge k c a b → WWalk G.WEdge k c b a := by
    intro k c a b hw
    induction hw with
    | nil u => exact .nil u
    | snoc _ e ih =>
      obtain ⟨i, j, hi, hj, e⟩ := e
      rw [add_comm (_ : α)]
      exact WWalk.cons ⟨j, i, hj, hi, by rw [hs j i]; exact e⟩ ih
  have sym : ∀ d (a b : K), IsWDist G.WEdge a d b → IsWDist G.WEdge b d a := by
    rintro d a b ⟨⟨k, hk⟩, hm⟩
    exact ⟨⟨k, rev hk⟩, fun k c hw => hm k c (rev hw)⟩
  apply Option.ext
  intro d
  rw [floyd_warshall_correct h (fun _ => hs) hno, floyd_warshall_correct h (fun _ => hs) hno]
  constructor <;> rintro ⟨h1, h2, h3⟩ <;> exact ⟨h2, h1, sym _ _ _ h3⟩

omit [DecidableEq K] [AddCommGroup α] [LinearOrder α] [IsOrderedAddMonoid α] in
theorem hop_walk {n : Nat} {A : Mat n n α} {k : Nat} {c : Int} {i j : Fin n} :
    WWalk (MW (hopMatrix A)) k c i j ↔ Walk (Adj A) k i j ∧ c = k := by
  have hE : ∀ x y a, MW (hopMatrix A) x y a ↔ Adj A x y ∧ a = 1 := by
    intro x y a
    unfold MW hopMatrix mapply Adj
    cases A x y <;> simp [eq_comm]
  constructor
  · intro hw
    induction hw with
    | nil u => exact ⟨.nil u, by simp⟩
    | snoc _ e ih =>
      obtain ⟨h1, rfl⟩ := (hE _ _ _).1 e
      exact ⟨ih.1.snoc h1, by rw [ih.2]; push_cast; rfl⟩
  · rintro ⟨hw, rfl⟩
    induction hw with
    | nil u => exact WWalk.nil u
    | snoc _ e ih => push_cast; exact ih.snoc ((hE _ _ _).2 ⟨e, rfl⟩)

omit [AddCommGroup α] [LinearOrder α] [IsOrderedAddMonoid α] in
/-- **C32 (unweighted).** `floyd_warshall(G, weight=None)` is the number of edges of a shortest
path, on every graph. -/
theorem floyd_warshall_hops (h : G.WF) (hsym : G.directed = false → G.Symm)
    (choose : Int → Int → Int) (u v : K) (d : Int) :
    G.view2 (fwDist G.directed choose (hopMatrix G.A)) u v = some d ↔
      G.Node u ∧ G.Node v ∧ ∃ l : Nat, d = l ∧ IsDist G.Edge u l v := by
  have hno : ∀ x, ¬ NegCycleAt (MW (hopMatrix G.A)) x := by
    rintro x ⟨k, c, hw, hc⟩
    obtain ⟨-, rfl⟩ := hop_walk.1 hw
    omega
  have hd : ∀ i j (d : Int), IsWDist (MW (hopMatrix G.A)) i d j ↔
      ∃ l : Nat, d = l ∧ IsDist (Adj G.A) i l j := by
    intro i j d
    simp only [IsWDist, hop_walk, IsDist]
    constructor
    · rintro ⟨⟨k, hk, rfl⟩, hm⟩
      refine ⟨k, rfl, hk, fun k' hk' => ?_⟩
      have := hm k' k' ⟨hk', rfl⟩
      omega
    · rintro ⟨l, rfl, hl, hm⟩
      refine ⟨⟨l, hl, rfl⟩, ?_⟩
      rintro k c ⟨hk, rfl⟩
      have := hm k hk
      omega
  rw [view2_eq_some h]
  have hs : G.directed = false → ∀ i j, hopMatrix G.A i j = hopMatrix G.A j i := by
    intro hd i j
    unfold hopMatrix mapply
    rw [hsym hd i j]
  simp only [dist_spec G.directed hs hno choose, hd]
  constructor
  · rintro ⟨i, j, hi, hj, l, rfl, hl⟩
    exact ⟨hi.node, hj.node, l, rfl, (isDist_iff h hi hj).2 hl⟩
  · rintro ⟨hu, hv, l, rfl, hl⟩
    obtain ⟨i, hi⟩ := hu.exists_id h
    obtain ⟨j, hj⟩ := hv.exists_id h
    exact ⟨i, j, hi, hj, l, rfl, (isDist_iff h hi hj).1 hl⟩

example : [10,20,30,40].map (fun u => [10,20,30,40].map
      (Ex.dg.view2 (fwDist true (fun a _ => a) Ex.dg.A) u)) =
    [[some 0, some 5, some 12, none], [none, some 0, some 7, none], [none, some 2, some 0, none],
     [none, none, none, some 0]] := by decide +kernel
example : [1,2,3,4,5].map (Ex.ug.view2 (fwDist false (fun a _ => a) (hopMatrix Ex.ug.A)) 4) =
    [some 3, some 2, some 1, some 0, some 2] := by decide +kernel
example : Ex.dg.WF ∧ ∀ u, Ex.dg.Node u → ¬ NegCycleAt Ex.dg.WEdge u := by
  refine ⟨Ex.dg_wf, ?_⟩
  have hnn : Nonneg Ex.dg.A := by
    have key : ∀ i j, ∀ w ∈ Ex.dg.A i j, (0 : Int) ≤ w := by decide +kernel
    exact fun i j a ha => key i j a ha
  rintro u hu ⟨k, c, hw, hc⟩
  obtain ⟨i, hi⟩ := hu.exists_id Ex.dg_wf
  exact absurd (wwalk_nonneg hnn ((wwalk_iff Ex.dg_wf hi hi).1 hw)) (not_le.2 hc)

/-! ### C33 -/

/-- reading `matrix_to_nodenodemap(P, values_are_keys=True)`: `P[u][v]`, as a key
-- nxapi/shortest_paths/dense.py:16-22 -/
def viewPred (G : Graph K α) (P : Mat G.n G.n (Fin G.n)) (u v : K) : Option K :=
  (G.view2 P u v).bind fun q => G.keyOf q.val

/-- **C33 (directed graphs).** `floyd_warshall_predecessor_and_distance(G)` returns the same
distances as `floyd_warshall(G)`, and for every reachable pair `u ≠ v` a predecessor `p` with an
edge `p → v` of weight `w` and `dist(u, v) = dist(u, p) + w`.
Missing: undirected graphs, for which it is false (next theorem). -/
theorem floyd_warshall_predecessor_correct_partial (h : G.WF) (hd : G.directed = true)
    (hno : ∀ u, G.Node u → ¬ NegCycleAt G.WEdge u) (choose chooseP) :
    (fwPred G.directed choose chooseP G.A).2 = fwDist G.directed choose G.A ∧
    ∀ u v c, G.Node u → G.Node v → u ≠ v → IsWDist G.WEdge u c v →
      ∃ p w c1, viewPred G (fwPred G.directed choose chooseP G.A).1 u v = some p ∧
        G.WEdge p v w ∧ IsWDist G.WEdge u c1 p ∧ c1 + w = c := by
  rw [hd]
  obtain ⟨h1, h2⟩ := pred_spec (no_neg_cycle h hno) choose chooseP
  refine ⟨h1, fun u v c hu hv huv hc => ?_⟩
  obtain ⟨i, hi⟩ := hu.exists_id h
  obtain ⟨j, hj⟩ := hv.exists_id h
  have hij : i ≠ j := by rintro rfl; exact huv (At.key_unique h hi hj)
  obtain ⟨q, w, c1, e1, e2, e3, e4⟩ := h2 i j c hij ((isWDist_iff h hi hj).1 hc)
  obtain ⟨p, hp⟩ := h.exists_key q
  refine ⟨p, w, c1, ?_, ⟨q, j, hp, hj, e2⟩, (isWDist_iff h hi hp).2 e3, e4⟩
  unfold viewPred
  rw [(view2_eq_some h).2 ⟨i, j, hi, hj, e1⟩]
  exact (keyOf_eq_some h).2 hp

example : [20,30].map (viewPred Ex.dg (fwPred true (fun a _ => a) (fun a _ => a) Ex.dg.A).1 10) =
    [some 10, some 20] := by decide +kernel

/-- one undirected edge 0 - 1 -/
def Ex.oneEdge : Graph Nat Int where
  n := 2
  A := Ex.ofTriples 2 [(0,1,1),(1,0,1)]
  keyToId := [(0,0),(1,1)]

/-- **C33 is false of the code for undirected graphs**: with the single edge 0 - 1, the reported
predecessor of 0 on the shortest path from 1 is 0 itself (there is no edge 0 - 0), whichever
operand `any` picks. -/
theorem floyd_warshall_predecessor_undirected_wrong :
    Ex.oneEdge.WF ∧ Ex.oneEdge.Symm ∧ ¬ Ex.oneEdge.Edge 0 0 ∧ IsWDist Ex.oneEdge.WEdge 1 1 0 ∧
    ∀ choose chooseP,
      viewPred Ex.oneEdge (fwPred false choose chooseP Ex.oneEdge.A).1 1 0 = some 0 := by
  have hwf : Ex.oneEdge.WF := ⟨by decide, by decide⟩
  refine ⟨hwf, by unfold Graph.Symm; decide, by decide +kernel, ?_, ?_⟩
  · refine ⟨⟨1, WWalk.single (by decide +kernel)⟩, fun k c hw => ?_⟩
    have hone : ∀ i j, ∀ w ∈ Ex.oneEdge.A i j, w = 1 := by decide +kernel
    have hc : ∀ {k c} {a b : Nat}, WWalk Ex.oneEdge.WEdge k c a b → c = k := by
      intro k c a b hw
      induction hw with
      | nil => simp
      | snoc _ e ih =>
        obtain ⟨i, j, _, _, e⟩ := e
        rw [hone i j _ e, ih]; push_cast; rfl
    have hck := hc hw
    cases k with
    | zero => exact absurd (wwalk_zero.1 hw).2 (by decide)
    | succ k => omega
  · intro choose chooseP
    rfl

/-! ### C34 -/

omit [LinearOrder α] [IsOrderedAddMonoid α] in
theorem wdist_perm [LinearOrder α] {n : Nat} {A : Mat n n α} {perm : Fin n → Fin n}
    (hp : Function.Bijective perm) {i j : Fin n} {c : α} :
    IsWDist (MW (extract A perm perm)) i c j ↔ IsWDist (MW A) (perm i) c (perm j) := by
  have hw : ∀ {k c}, WWalk (MW (extract A perm perm)) k c i j ↔ WWalk (MW A) k c (perm i) (perm j) := by
    intro k c
    refine wwalk_transport (R := fun x y => perm x = y) ?_ ?_ hp.2 ?_ rfl rfl
    · intro v v' u h1 h2; exact hp.1 (h1.trans h2.symm)
    · intro v u u' h1 h2; exact h1.symm.trans h2
    · intro a b w
      constructor
      · intro h; exact ⟨_, _, rfl, rfl, h⟩
      · rintro ⟨_, _, rfl, rfl, h⟩; exact h
  simp only [IsWDist, hw]

/-- **C34 (directed graphs).** For a nodelist that lists every node once, entry `(p, q)` of
`floyd_warshall_numpy(G, nodelist)` is the distance from `nodelist[p]` to `nodelist[q]`.
Missing: undirected graphs, for which it is false (see below). -/
theorem floyd_warshall_numpy_nodelist_partial (h : G.WF) (hd : G.directed = true)
    (hno : ∀ u, G.Node u → ¬ NegCycleAt G.WEdge u) (choose : α → α → α)
    {l : List K} (hl : l.Perm (G.keyToId.map Prod.fst)) :
    ∃ D, floydWarshallNumpy G choose (some l) = .ok D ∧
      ∀ (p q : Fin G.n) (u v : K), l[p.val]? = some u → l[q.val]? = some v →
        ∀ d, D p q = some d ↔ IsWDist G.WEdge u d v := by
  have hnd : l.Nodup := hl.nodup_iff.2 h.keys_nodup
  have hlen : l.length = G.n := by
    rw [hl.length_eq, List.length_map, ← List.length_map (f := Prod.snd), h.ids_perm.length_eq]
    simp
  have hnode : ∀ u ∈ l, G.Node u := fun u hu => hl.mem_iff.1 hu
  obtain ⟨ids, hids, hF⟩ := listToIds_ok h hnode
  have hilen : ids.length = G.n := by rw [← hF.length_eq, hlen]
  unfold floydWarshallNumpy
  simp only
  rw [if_neg (by
    rw [not_not]
    exact ⟨hlen, by rw [hnd.dedup, hlen]; rfl⟩), hids]
  simp only [bind, Except.bind]
  rw [dif_pos hilen]
  refine ⟨_, rfl, ?_⟩
  set perm : Fin G.n → Fin G.n := fun i => ids.get ⟨i, by omega⟩ with hperm
  have hat : ∀ i : Fin G.n, G.At (l.get ⟨i, by omega⟩) (perm i) := fun i =>
    (List.forall₂_iff_get.1 hF).2 i (by omega) (by omega)
  have hinj : Function.Injective perm := by
    intro a b hab
    have h1 := hat a
    rw [hab] at h1
    have := At.key_unique h h1 (hat b)
    have := List.nodup_iff_injective_get.1 hnd this
    simpa [Fin.ext_iff] using this
  have hbij : Function.Bijective perm := Finite.injective_iff_bijective.1 hinj
  intro p q u v hu hv d
  have hpu : G.At u (perm p) := by
    have := hat p
    rw [List.get_eq_getElem] at this
    rw [List.getElem?_eq_some_iff] at hu
    obtain ⟨_, rfl⟩ := hu
    exact this
  have hqv : G.At v (perm q) := by
    have := hat q
    rw [List.get_eq_getElem] at this
    rw [List.getElem?_eq_some_iff] at hv
    obtain ⟨_, rfl⟩ := hv
    exact this
  rw [isWDist_iff h hpu hqv, ← wdist_perm hbij]
  set B := extract G.A perm perm with hB
  have hnoA := no_neg_cycle h hno
  have hnoB : ∀ x, ¬ NegCycleAt (MW B) x := by
    rintro x ⟨k, c, hw, hc⟩
    have : ∀ {k c x y}, WWalk (MW B) k c x y → WWalk (MW G.A) k c (perm x) (perm y) := by
      intro k c x y hw
      induction hw with
      | nil => exact .nil _
      | snoc _ e ih => exact ih.snoc e
    exact hnoA _ ⟨k, c, this hw, hc⟩
  have hoff : extract (offdiag G.A) perm perm = offdiag B := by
    funext a b
    simp [extract, offdiag, hB, hinj.eq_iff]
  rw [hd]
  by_cases hpq : p = q
  · subst hpq
    rw [← dist_spec true (by simp) hnoB choose]
    simp [fwDistPerm, fwDist, fwFinish]
  · have hloop : ∀ x a, WReach (MW B) p x → MW B x x a → 0 ≤ a := by
      intro x a _ ha
      by_contra h0
      exact hnoB x ⟨1, a, .single ha, not_le.1 h0⟩
    have hno' : ∀ x, ¬ NegCycleAt (MW (offdiag B)) x := by
      rintro x ⟨k, c, hw, hc⟩
      rw [mw_offdiag'] at hw
      exact hnoB x ⟨k, c, hw.of_offLoop, hc⟩
    rw [← isWDist_offLoop hloop, ← mw_offdiag',
      ← loop_dist hno' choose (fun i => fwNonempty true G.A (perm i)) ?_ hpq]
    · simp only [fwDistPerm, fwFinish, fwStart, if_true, hpq, if_false, hoff]
    · intro x u v a b h1 h2
      rw [← hoff] at h1 h2
      exact nonempty_ok true G.A (perm x) (perm u) (perm v) a b h1 h2

/-- **C34.** A nodelist of the wrong length, with repeats, or naming a key that is not a node, is
rejected. -/
theorem floyd_warshall_numpy_bad_nodelist (h : G.WF) (choose : α → α → α) {l : List K}
    (hl : ¬ l.Perm (G.keyToId.map Prod.fst)) :
    ∃ e, floydWarshallNumpy G choose (some l) = .error e ∧ (e = .algorithm ∨ e = .keyError) := by
  unfold floydWarshallNumpy
  simp only
  by_cases hc : l.length = G.len ∧ G.len = l.dedup.length
  · rw [if_neg (not_not.2 hc)]
    have hnd : l.Nodup := by
      rw [← List.dedup_eq_self]
      exact (List.dedup_sublist l).eq_of_length (by omega)
    have hlen : (G.keyToId.map Prod.fst).length = G.n := by
      rw [List.length_map, ← List.length_map (f := Prod.snd), h.ids_perm.length_eq]
      simp
    have : ∃ u ∈ l, ¬ G.Node u := by
      by_contra hcon
      push Not at hcon
      exact hl ((List.subperm_of_subset hnd fun u hu => hcon u hu).perm_of_length_le
        (by rw [hlen, hc.1]; exact le_rfl))
    obtain ⟨u, hu, hn⟩ := this
    rw [listToIds_error h hu hn]
    exact ⟨_, rfl, Or.inr rfl⟩
  · rw [if_pos hc]; exact ⟨_, rfl, Or.inl rfl⟩

/-- the undirected triangle 0 - 1 - 2, unit weights -/
def Ex.triangle : Graph Nat Int where
  n := 3
  A := Ex.ofTriples 3 [(0,1,1),(1,0,1),(1,2,1),(2,1,1),(0,2,1),(2,0,1)]
  keyToId := [(0,0),(1,1),(2,2)]

/-- all entries of a matrix, row by row -/
def entries {n : Nat} (D : Mat n n α) : List (List (Option α)) :=
  (List.finRange n).map fun i => (List.finRange n).map fun j => D i j

/-- **C34 is false of the code for undirected graphs**: permuting the upper-triangular matrix
leaves entries below the diagonal, which the loop later shadows with larger values above it.  On
the triangle with nodelist `[2, 1, 0]` (all distances are 1) the result has wrong, asymmetric
entries, whichever operand the `any` operator picks. -/
theorem floyd_warshall_numpy_nodelist_undirected_wrong :
    Ex.triangle.WF ∧ Ex.triangle.Symm ∧
    (∃ D, floydWarshallNumpy Ex.triangle (fun a _ => a) (some [2,1,0]) = .ok D ∧
      entries D = [[some 0, some 2, some 3], [some 1, some 0, some 2], [some 1, some 1, some 0]]) ∧
    (∃ D, floydWarshallNumpy Ex.triangle (fun _ b => b) (some [2,1,0]) = .ok D ∧
      entries D = [[some 0, some 1, some 1], [some 4, some 0, some 1], [some 2, some 2, some 0]]) ∧
    (∃ D, floydWarshallNumpy Ex.triangle (fun a _ => a) none = .ok D ∧
      entries D = [[some 0, some 1, some 1], [some 1, some 0, some 1], [some 1, some 1, some 0]]) := by
  refine ⟨⟨by decide, by decide⟩, by unfold Graph.Symm; decide, ⟨_, rfl, ?_⟩, ⟨_, rfl, ?_⟩,
    ⟨_, rfl, ?_⟩⟩ <;> decide +kernel

example : ∃ D, floydWarshallNumpy Ex.dg (fun a _ => a) (some [40,30,20,10]) = .ok D ∧
    entries D = [[some 0, none, none, none], [none, some 0, some 2, none],
      [none, some 7, some 0, none], [none, some 12, some 5, some 0]] := by
  refine ⟨_, rfl, ?_⟩; decide +kernel

end Props
