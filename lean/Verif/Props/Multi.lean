import Verif.Model.Multi
import Verif.Props.Cuts
import Verif.Props.Dispatch
import Verif.Props.Degenerate

/-!
# C102: cuts, volumes and edge boundaries of NetworkX graphs and multigraphs, counted from their attribute dictionaries
-/

open GB Spec Model Model.Graph Proofs

namespace Props

section spec
variable {K S α : Type} [DecidableEq S]

/-- what every edge from `u` to `v` counts: its attribute `weight`, 1 if it lacks it or if no attribute was named -/
def edgeVals [One α] (g : NxFull K S α) (weight : Option S) (u v : K) : List α :=
  (g.data u v).map fun d => (weight.bind fun x => d.lookup x).getD 1

/-- the total over the edges (parallel ones included) that lead from `P` to `Q` -/
def valueFromTo [AddCommMonoid α] [One α] (g : NxFull K S α) (weight : Option S) (P Q : K → Prop) [DecidablePred P]
    [DecidablePred Q] : α :=
  sumOver g.nodes fun u => sumOver g.nodes fun v => if P u ∧ Q v then (edgeVals g weight u v).sum else 0

/-- the number of edges (parallel ones included) that lead from `P` to `Q` -/
def edgesBetween (g : NxFull K S α) (P Q : K → Prop) [DecidablePred P] [DecidablePred Q] : Nat :=
  sumOver g.nodes fun u => sumOver g.nodes fun v => if P u ∧ Q v then (g.data u v).length else 0

/-- a NetworkX graph: consistent, of one of the four classes, parallel edges only in multigraphs, and every edge of an
undirected graph seen from both ends -/
structure NxOK (g : NxFull K S α) : Prop where
  wf : FullWF g
  cls : g.cls ≠ .other
  single : isMultiClass g.cls = false → ∀ u v, (g.data u v).length ≤ 1
  symm : isDirectedClass g.cls = false → ∀ u v, g.data u v = g.data v u

end spec

section
variable {K S α : Type} [DecidableEq S] {g : NxFull K S α}

omit [DecidableEq S] in
theorem sumOver_zero {K β : Type} [AddCommMonoid β] {N : List K} {f : K → β} (h : ∀ u ∈ N, f u = 0) :
    sumOver N f = 0 := by
  unfold sumOver
  refine List.sum_eq_zero fun x hx => ?_
  obtain ⟨u, hu, rfl⟩ := List.mem_map.1 hx
  exact h u hu

omit [DecidableEq S] in
theorem sumOver_congr' {K β : Type} [AddCommMonoid β] {N : List K} {f f' : K → β} (h : ∀ u ∈ N, f u = f' u) :
    sumOver N f = sumOver N f' := by
  unfold sumOver
  rw [List.map_congr_left h]

omit [DecidableEq S] in
theorem sumOver_cast {K β : Type} [AddCommMonoidWithOne β] (N : List K) (f : K → Nat) :
    ((sumOver N f : Nat) : β) = sumOver N fun u => ((f u : Nat) : β) := by
  unfold sumOver
  induction N with
  | nil => simp
  | cons a N ih => simp only [List.map_cons, List.sum_cons, Nat.cast_add, ih]

/-- the edges of the converted graph -/
theorem fromFull_wedge [AddMonoid α] {one : α} (hg : FullWF g) (d m : Bool) (x : Option S) (u v : K) (w : α) :
    (fromFull one g d m x).WEdge u v w ↔ g.data u v ≠ [] ∧
      w = ((g.data u v).map fun d => (x.bind fun x => d.lookup x).getD one).sum := by
  constructor
  · rintro ⟨i, j, hi, hj, e⟩
    obtain ⟨hi', ei⟩ := List.getElem?_eq_some_iff.1 (at_zipIdx.1 hi)
    obtain ⟨hj', ej⟩ := List.getElem?_eq_some_iff.1 (at_zipIdx.1 hj)
    simp only [fromFull, List.get_eq_getElem, ei, ej] at e
    split at e
    · cases e
    · rename_i hne
      exact ⟨hne, (Option.some.inj e).symm⟩
  · rintro ⟨hne, rfl⟩
    obtain ⟨hu, hv⟩ := hg.data_nodes u v hne
    obtain ⟨i, hi, rfl⟩ := List.getElem_of_mem hu
    obtain ⟨j, hj, rfl⟩ := List.getElem_of_mem hv
    refine ⟨⟨i, hi⟩, ⟨j, hj⟩, at_zipIdx.2 (List.getElem?_eq_getElem hi),
      at_zipIdx.2 (List.getElem?_eq_getElem hj), ?_⟩
    simp only [fromFull, List.get_eq_getElem]
    rw [if_neg hne]

theorem fromFull_wf [AddMonoid α] {one : α} (hg : FullWF g) (d m : Bool) (x : Option S) :
    (fromFull one g d m x).WF := wf_zipIdx hg.nodup rfl _ _

theorem fromFull_nodes [AddMonoid α] {one : α} (d m : Bool) (x : Option S) :
    (fromFull one g d m x).nodes = g.nodes := by simp [fromFull, Graph.nodes]

theorem toGraphFull_ok [AddMonoid α] {one : α} (hc : g.cls ≠ .other) (x : Option S) :
    toGraphFull one g x = .ok (fromFull one g (isDirectedClass g.cls) false x) := by
  unfold toGraphFull isDirectedClass
  cases h : g.cls with
  | other => exact absurd h hc
  | _ => rfl

omit [DecidableEq S] in
theorem isMulti_eq : g.isMulti = isMultiClass g.cls := by
  unfold NxFull.isMulti isMultiClass
  cases g.cls <;> rfl

variable [DecidableEq K]

theorem fromFull_weight [AddMonoid α] [One α] (hg : FullWF g) (d m : Bool) (x : Option S) (u v : K) :
    ((fromFull 1 g d m x).weight? u v).getD 0 = (edgeVals g x u v).sum := by
  have h := fromFull_wf (one := 1) hg d m x
  by_cases hne : g.data u v = []
  · have : (fromFull 1 g d m x).weight? u v = none := by
      by_contra hx
      obtain ⟨w, hw⟩ := Option.ne_none_iff_exists'.1 hx
      exact ((fromFull_wedge hg d m x u v w).1 ((weight?_eq_some h).1 hw)).1 hne
    rw [this]
    simp [edgeVals, hne]
  · rw [(weight?_eq_some h).2 ((fromFull_wedge hg d m x u v _).2 ⟨hne, rfl⟩)]
    rfl

theorem fromFull_edge [AddMonoid α] {one : α} (hg : FullWF g) (d m : Bool) (x : Option S) (u v : K) :
    (fromFull one g d m x).Edge u v ↔ g.data u v ≠ [] := by
  constructor
  · rintro ⟨i, j, hi, hj, e⟩
    obtain ⟨w, hw⟩ := Option.isSome_iff_exists.1 e
    exact ((fromFull_wedge hg d m x u v w).1 ⟨i, j, hi, hj, hw⟩).1
  · intro hne
    obtain ⟨i, j, hi, hj, e⟩ := (fromFull_wedge (one := one) hg d m x u v _).2 ⟨hne, rfl⟩
    exact ⟨i, j, hi, hj, by rw [e]; rfl⟩

theorem fromFull_symm [AddMonoid α] {one : α} (hs : ∀ u v, g.data u v = g.data v u)
    (d m : Bool) (x : Option S) : (fromFull one g d m x).Symm := by
  intro i j
  simp only [fromFull, hs (g.nodes.get i)]

variable [AddCommMonoidWithOne α]

omit [DecidableEq S] [DecidableEq K] in
theorem edgesBetween_cast [DecidableEq S] (P Q : K → Prop) [DecidablePred P] [DecidablePred Q] :
    ((edgesBetween g P Q : Nat) : α) = valueFromTo g none P Q := by
  unfold edgesBetween valueFromTo
  rw [sumOver_cast]
  refine sumOver_congr' fun u _ => ?_
  rw [sumOver_cast]
  refine sumOver_congr' fun v _ => ?_
  split
  · unfold edgeVals
    simp
  · simp

theorem weightFromTo_full (hg : FullWF g) (d m : Bool) (x : Option S) (P Q : K → Prop) [DecidablePred P]
    [DecidablePred Q] :
    weightFromTo (fromFull 1 g d m x).nodes (fromFull 1 g d m x).weight? P Q = valueFromTo g x P Q := by
  unfold weightFromTo valueFromTo
  rw [fromFull_nodes]
  refine sumOver_congr' fun u _ => sumOver_congr' fun v _ => ?_
  rw [fromFull_weight hg]

theorem edgesFromTo_full (hg : FullWF g) (hs : ∀ u v, (g.data u v).length ≤ 1) (d m : Bool) (x : Option S)
    (P Q : K → Prop) [DecidablePred P] [DecidablePred Q] :
    edgesFromTo (fromFull (1 : α) g d m x).nodes (fromFull (1 : α) g d m x).Edge P Q = edgesBetween g P Q := by
  unfold edgesFromTo edgesBetween
  rw [fromFull_nodes]
  refine sumOver_congr' fun u _ => ?_
  unfold countOf sumOver
  induction g.nodes with
  | nil => rfl
  | cons v N ih =>
    rw [List.map_cons, List.sum_cons, ← ih, List.countP_cons, Nat.add_comm]
    congr 1
    have := hs u v
    by_cases hp : P u <;> by_cases hq : Q v
    · by_cases he : g.data u v = []
      · have : ¬ (fromFull (1 : α) g d m x).Edge u v := by rw [fromFull_edge hg]; simpa using he
        simp [hp, hq, he, this]
      · have h2 : (fromFull (1 : α) g d m x).Edge u v := by rw [fromFull_edge hg]; exact he
        have : (g.data u v).length = 1 := by
          have := List.length_pos_iff.2 he
          omega
        simp [hp, hq, this, h2]
    all_goals simp [hp, hq]

/-- **C102.** `cut_size(G, S, T, weight)` of a NetworkX graph of any of the four classes is the total, over all edges
between `S` and `T` (in a digraph in both directions), parallel edges included, of their `weight` attribute (1 if an
edge lacks it, or if `weight` is omitted). -/
theorem nx_cut_size_correct (hg : NxOK g) (s t : List K) (x : Option S) :
    nxCutSize g s (some t) x = .ok (valueFromTo g x (· ∈ s) (· ∈ t) +
      if isDirectedClass g.cls then valueFromTo g x (· ∈ t) (· ∈ s) else 0) := by
  unfold nxCutSize
  rw [toGraphFull_ok hg.cls, isMulti_eq]
  simp only [bind, Except.bind]
  have hw := fromFull_wf (one := (1 : α)) hg.wf (isDirectedClass g.cls) false x
  by_cases hm : (isMultiClass g.cls || x.isSome) = true
  · rw [if_pos hm, cut_size_weighted_correct hw, weightFromTo_full hg.wf, weightFromTo_full hg.wf]
    rfl
  · rw [if_neg hm]
    simp only [Bool.or_eq_true, not_or, Bool.not_eq_true] at hm
    obtain ⟨h1, h2⟩ := hm
    obtain rfl : x = none := by simpa using h2
    rw [cut_size_correct hw, edgesFromTo_full hg.wf (hg.single h1), edgesFromTo_full hg.wf (hg.single h1),
      ← edgesBetween_cast, ← edgesBetween_cast]
    simp only [Except.map, Nat.cast_add]
    have : (fromFull (1 : α) g (isDirectedClass g.cls) false none).directed = isDirectedClass g.cls := rfl
    rw [this]
    cases isDirectedClass g.cls <;> simp

/-- **C102.** without `weight` it is the number of edges between the sets, parallel edges counted each -/
theorem nx_cut_size_counts (hg : NxOK g) (s t : List K) :
    nxCutSize g s (some t) none = .ok (((edgesBetween g (· ∈ s) (· ∈ t) +
      if isDirectedClass g.cls then edgesBetween g (· ∈ t) (· ∈ s) else 0 : Nat) : Nat) : α) := by
  rw [nx_cut_size_correct hg, ← edgesBetween_cast, ← edgesBetween_cast]
  cases isDirectedClass g.cls <;> simp

/-- **C102.** with `T` omitted, undirected graphs and multigraphs: the cut between `S` and the rest.  (In digraphs the
call raises TypeError.) -/
theorem nx_cut_size_complement (hg : NxOK g) (s : List K) (x : Option S) :
    nxCutSize g s none x = if isDirectedClass g.cls then .error .typeError
      else .ok (valueFromTo g x (· ∈ s) (· ∉ s)) := by
  unfold nxCutSize
  rw [toGraphFull_ok hg.cls, isMulti_eq]
  simp only [bind, Except.bind]
  have hw := fromFull_wf (one := (1 : α)) hg.wf (isDirectedClass g.cls) false x
  by_cases hd : isDirectedClass g.cls = true
  · rw [if_pos hd]
    have hd' : (fromFull (1 : α) g (isDirectedClass g.cls) false x).directed = true := hd
    by_cases hm : (isMultiClass g.cls || x.isSome) = true
    · rw [if_pos hm, cut_size_weighted_directed_without_target hw hd']
    · rw [if_neg hm, cut_size_directed_without_target hw hd']
      rfl
  · rw [if_neg hd]
    have hd0 : isDirectedClass g.cls = false := by simpa using hd
    have hd' : (fromFull (1 : α) g (isDirectedClass g.cls) false x).directed = false := hd0
    have hs := fromFull_symm (one := (1 : α)) (hg.symm hd0) (isDirectedClass g.cls) false x
    by_cases hm : (isMultiClass g.cls || x.isSome) = true
    · rw [if_pos hm, cut_size_weighted_complement hw hs hd', weightFromTo_full hg.wf]
    · rw [if_neg hm]
      simp only [Bool.or_eq_true, not_or, Bool.not_eq_true] at hm
      obtain ⟨h1, h2⟩ := hm
      obtain rfl : x = none := by simpa using h2
      rw [cut_size_complement hw hs hd', edgesFromTo_full hg.wf (hg.single h1), ← edgesBetween_cast]
      rfl

theorem vol_full (hg : FullWF g) (hs : ∀ u v, (g.data u v).length ≤ 1) (d m : Bool) (x : Option S)
    (P : K → Prop) [DecidablePred P] :
    vol (fromFull (1 : α) g d m x).nodes (fromFull (1 : α) g d m x).Edge P = edgesBetween g P (fun _ => True) := by
  rw [← edgesFromTo_full (α := α) hg hs d m x]
  unfold vol edgesFromTo outDeg
  refine sumOver_congr' fun u _ => ?_
  by_cases hp : P u
  · simp [hp]
  · simp [hp, countOf]

/-- **C102.** `volume(G, S, weight)` of an undirected NetworkX graph or multigraph is the total over the nodes in `S` of
the `weight` of their edges, parallel edges included (a self-loop counts once); likewise in a simple digraph without
`weight`, over the outgoing edges.  For directed multigraphs, or with `weight`, the code adds the edges *into* `S`. -/
theorem nx_volume_correct_partial (hg : NxOK g) {s : List K} (hs : ∀ u ∈ s, u ∈ g.nodes) (x : Option S) :
    nxVolume g s x = .ok (if isDirectedClass g.cls ∧ (isMultiClass g.cls ∨ x.isSome)
      then valueFromTo g x (fun _ => True) (· ∈ s) else valueFromTo g x (· ∈ s) (fun _ => True)) := by
  unfold nxVolume
  rw [toGraphFull_ok hg.cls, isMulti_eq]
  simp only [bind, Except.bind]
  have hw := fromFull_wf (one := (1 : α)) hg.wf (isDirectedClass g.cls) false x
  have hn : ∀ u ∈ s, (fromFull (1 : α) g (isDirectedClass g.cls) false x).Node u := fun u hu => by
    show u ∈ (fromFull (1 : α) g (isDirectedClass g.cls) false x).nodes
    rw [fromFull_nodes]
    exact hs u hu
  by_cases hm : (isMultiClass g.cls || x.isSome) = true
  · rw [if_pos hm]
    have h3 := volume_weighted_correct_partial hw hn
    by_cases hd : isDirectedClass g.cls = true
    · rw [h3.1, if_pos ⟨hd, by simpa using hm⟩, weightFromTo_full hg.wf]
    · have hd0 : isDirectedClass g.cls = false := by simpa using hd
      rw [h3.2 (fromFull_symm (hg.symm hd0) _ _ _), if_neg (fun h => hd h.1), weightFromTo_full hg.wf]
  · rw [if_neg hm]
    have hm' := hm
    simp only [Bool.or_eq_true, not_or, Bool.not_eq_true] at hm
    obtain ⟨h1, h2⟩ := hm
    obtain rfl : x = none := by simpa using h2
    rw [volume_correct hw hn, vol_full hg.wf (hg.single h1), if_neg (by simpa [h1] using hm'), ← edgesBetween_cast]
    rfl

end

/-! ### edge_boundary -/

section
variable {K S : Type} [DecidableEq S] [DecidableEq K] {g : NxFull K S Int}

/-- the target set: `T`, or the nodes outside `S` that have an outgoing edge -/
def NxTarget (g : NxFull K S Int) (s : List K) (t : Option (List K)) (v : K) : Prop :=
  match t with
  | some l => v ∈ l
  | none => v ∉ s ∧ ∃ w, g.data v w ≠ []

theorem bTarget_iff (hg : FullWF g) (d m : Bool) (x : Option S) (s : List K) (t : Option (List K)) (v : K) :
    BTarget (fromFull 1 g d m x) s t v ↔ NxTarget g s t v := by
  cases t with
  | some l => rfl
  | none => exact and_congr_right fun _ => exists_congr fun w => fromFull_edge hg d m x v w

theorem count_repeat {β : Type} [BEq β] [LawfulBEq β] {l : List (β × Nat)} (hl : (l.map Prod.fst).Nodup) (b : β) (k : Nat)
    (hk : (b, k) ∈ l) : (l.flatMap fun p => List.replicate p.2 p.1).count b = k := by
  induction l with
  | nil => cases hk
  | cons p l ih =>
    rw [List.map_cons, List.nodup_cons] at hl
    rw [List.flatMap_cons, List.count_append]
    rcases List.mem_cons.1 hk with rfl | h
    · have : (l.flatMap fun p => List.replicate p.2 p.1).count b = 0 := by
        rw [List.count_eq_zero]
        intro hb
        obtain ⟨q, hq, hbq⟩ := List.mem_flatMap.1 hb
        have := List.eq_of_mem_replicate hbq
        exact hl.1 (List.mem_map.2 ⟨q, hq, this.symm⟩)
      rw [this]
      simp
    · have hne : p.1 ≠ b := fun e => hl.1 (List.mem_map.2 ⟨_, h, e.symm⟩)
      rw [ih hl.2 h, List.count_replicate, if_neg (by simpa using hne)]
      omega

theorem count_repeat_zero {β : Type} [BEq β] [LawfulBEq β] {l : List (β × Nat)} (b : β)
    (hk : ∀ k, (b, k) ∉ l) : (l.flatMap fun p => List.replicate p.2 p.1).count b = 0 := by
  rw [List.count_eq_zero]
  intro hb
  obtain ⟨q, hq, hbq⟩ := List.mem_flatMap.1 hb
  have := List.eq_of_mem_replicate hbq
  subst this
  exact hk q.2 hq

open Classical in
/-- **C102.** `edge_boundary(G, S, T)` of a NetworkX graph of any class yields every edge from `S` to the target set once
per parallel edge, and nothing else.  (`NxTarget`: with `T` omitted, the nodes outside `S` that have an outgoing edge,
see `nx_edge_boundary_undirected` and C49.) -/
theorem nx_edge_boundary_correct (hg : NxOK g) (s : List K) (t : Option (List K)) :
    ∃ l, nxEdgeBoundary g s t none = .ok l ∧ (∀ p ∈ l, p.2.2 = none) ∧
      ∀ u v, l.count (u, v, none) = if u ∈ s ∧ NxTarget g s t v then (g.data u v).length else 0 := by
  have hw := fromFull_wf (one := (1 : Int)) hg.wf (isDirectedClass g.cls) false (none : Option S)
  obtain ⟨⟨r, hr, hnd, hm⟩, ⟨r', hr', hnd', hm'⟩⟩ := edge_boundary_correct_partial hw s t
  unfold nxEdgeBoundary
  rw [toGraphFull_ok hg.cls, isMulti_eq]
  simp only [bind, Except.bind, boundaryItems]
  by_cases hmul : isMultiClass g.cls = true
  · simp only [hmul, Bool.true_or, if_true, hr', Except.map, pure, Except.pure, Option.map_none]
    refine ⟨_, rfl, ?_, fun u v => ?_⟩
    · intro p hp
      obtain ⟨q, hq, hpq⟩ := List.mem_flatMap.1 hp
      obtain ⟨t', -, rfl⟩ := List.mem_map.1 hq
      rw [List.eq_of_mem_replicate hpq]
    · have hn : (List.map Prod.fst (r'.map fun t => (((t.1, t.2.1, none) : BItem K S), t.2.2.toNat))).Nodup := by
        rw [List.map_map]
        refine List.Nodup.of_map (fun p : BItem K S => (p.1, p.2.1)) ?_
        rw [List.map_map]
        exact hnd'
      by_cases hc : u ∈ s ∧ NxTarget g s t v
      · rw [if_pos hc]
        by_cases he : g.data u v = []
        · rw [he]
          refine count_repeat_zero _ fun k hk => ?_
          obtain ⟨q, hq, e⟩ := List.mem_map.1 hk
          cases e
          exact ((fromFull_wedge hg.wf _ _ _ _ _ _).1 ((hm' _ _ _).1 (show (q.1, q.2.1, q.2.2) ∈ r' from hq)).1).1 he
        · refine count_repeat hn _ _ ?_
          have hedge := (fromFull_wedge (one := (1 : Int)) hg.wf (isDirectedClass g.cls) false none u v _).2 ⟨he, rfl⟩
          refine List.mem_map.2 ⟨_, (hm' u v _).2 ⟨hedge, hc.1, (bTarget_iff hg.wf _ _ _ _ _ _).2 hc.2⟩, ?_⟩
          simp
      · rw [if_neg hc]
        refine count_repeat_zero _ fun k hk => ?_
        obtain ⟨q, hq, e⟩ := List.mem_map.1 hk
        cases e
        have := (hm' _ _ _).1 (show (q.1, q.2.1, q.2.2) ∈ r' from hq)
        exact hc ⟨this.2.1, (bTarget_iff hg.wf _ _ _ _ _ _).1 this.2.2⟩
  · have hm0 : isMultiClass g.cls = false := by simpa using hmul
    simp only [hm0, Bool.or_self, Bool.false_eq_true, if_false, Option.isSome_none, hr, Except.map, pure, Except.pure]
    refine ⟨_, rfl, ?_, fun u v => ?_⟩
    · intro p hp
      obtain ⟨q, hq, hpq⟩ := List.mem_flatMap.1 hp
      obtain ⟨t', -, rfl⟩ := List.mem_map.1 hq
      rw [List.eq_of_mem_replicate hpq]
    · have hn : (List.map Prod.fst (r.map fun t => (((t.1, t.2, none) : BItem K S), 1))).Nodup := by
        rw [List.map_map]
        refine List.Nodup.of_map (fun p : BItem K S => (p.1, p.2.1)) ?_
        rw [List.map_map]
        exact (List.map_id r).symm ▸ hnd
      by_cases hc : (u ∈ s ∧ NxTarget g s t v) ∧ g.data u v ≠ []
      · rw [if_pos hc.1]
        have h1 : (g.data u v).length = 1 := by
          have := List.length_pos_iff.2 hc.2
          have := hg.single hm0 u v
          omega
        rw [h1]
        refine count_repeat hn _ _ (List.mem_map.2 ⟨(u, v), (hm u v).2 ⟨?_, hc.1.1, ?_⟩, rfl⟩)
        · exact (fromFull_edge hg.wf _ _ _ _ _).2 hc.2
        · exact (bTarget_iff hg.wf _ _ _ _ _ _).2 hc.1.2
      · rw [count_repeat_zero]
        · split
          · rename_i h1
            have : g.data u v = [] := by
              by_contra h2
              exact hc ⟨h1, h2⟩
            rw [this]; rfl
          · rfl
        · intro k hk
          obtain ⟨q, hq, e⟩ := List.mem_map.1 hk
          cases e
          have := (hm _ _).1 (show (q.1, q.2) ∈ r from hq)
          exact hc ⟨⟨this.2.1, (bTarget_iff hg.wf _ _ _ _ _ _).1 this.2.2⟩, (fromFull_edge hg.wf _ _ _ _ _).1 this.1⟩

open Classical in
/-- **C102.** in undirected graphs and multigraphs the omitted target is the complement of `S` -/
theorem nx_edge_boundary_undirected (hg : NxOK g) (hd : isDirectedClass g.cls = false) (s : List K) :
    ∃ l, nxEdgeBoundary g s none none = .ok l ∧ (∀ p ∈ l, p.2.2 = none) ∧
      ∀ u v, l.count (u, v, none) = if u ∈ s ∧ v ∉ s then (g.data u v).length else 0 := by
  obtain ⟨l, hl, h1, h2⟩ := nx_edge_boundary_correct hg s none
  refine ⟨l, hl, h1, fun u v => (h2 u v).trans ?_⟩
  by_cases he : g.data u v = []
  · simp [he]
  · have : NxTarget g s none v ↔ v ∉ s :=
      ⟨fun h => h.1, fun h => ⟨h, u, by rw [hg.symm hd]; exact he⟩⟩
    simp only [this]

/-- the total of the attribute over the parallel edges -/
def totalVal (g : NxFull K S Int) (x : S) (u v : K) : Int := (edgeVals g (some x) u v).sum

open Classical in
/-- **C102.** `edge_boundary(G, S, T, data=x)`: every edge from `S` to the target set appears, with the total of the
attribute over its parallel edges; once in a simple graph, but in a multigraph as many times as that total says
(finding: `multigraph_edge_boundary_data_repeats`). -/
theorem nx_edge_boundary_data_exact (hg : NxOK g) (s : List K) (t : Option (List K)) (x : S) :
    ∃ l, nxEdgeBoundary g s t (some x) = .ok l ∧
      (∀ p ∈ l, p.2.2 = some (x, totalVal g x p.1 p.2.1)) ∧
      ∀ u v, l.count (u, v, some (x, totalVal g x u v)) = if u ∈ s ∧ NxTarget g s t v ∧ g.data u v ≠ [] then
        if isMultiClass g.cls then (totalVal g x u v).toNat else 1 else 0 := by
  have hw := fromFull_wf (one := (1 : Int)) hg.wf (isDirectedClass g.cls) false (some x)
  obtain ⟨-, ⟨r, hr, hnd, hm⟩⟩ := edge_boundary_correct_partial hw s t
  have hedge : ∀ u v w, (u, v, w) ∈ r ↔ g.data u v ≠ [] ∧ w = totalVal g x u v ∧ u ∈ s ∧ NxTarget g s t v := by
    intro u v w
    rw [hm, fromFull_wedge hg.wf, bTarget_iff hg.wf, and_assoc]
    rfl
  unfold nxEdgeBoundary
  rw [toGraphFull_ok hg.cls, isMulti_eq]
  simp only [bind, Except.bind, boundaryItems, Option.isSome_some, Bool.or_true, if_true, hr, Except.map, pure,
    Except.pure, Option.map_some]
  refine ⟨_, rfl, ?_, fun u v => ?_⟩
  · intro p hp
    obtain ⟨q, hq, hpq⟩ := List.mem_flatMap.1 hp
    obtain ⟨⟨a, b, w⟩, ht, rfl⟩ := List.mem_map.1 hq
    rw [List.eq_of_mem_replicate hpq]
    have := (hedge a b w).1 ht
    simp only
    rw [this.2.1]
  · by_cases hc : u ∈ s ∧ NxTarget g s t v ∧ g.data u v ≠ []
    · rw [if_pos hc]
      refine count_repeat ?_ _ _ (List.mem_map.2 ⟨(u, v, totalVal g x u v), (hedge _ _ _).2 ⟨hc.2.2, rfl, hc.1, hc.2.1⟩, rfl⟩)
      rw [List.map_map]
      refine List.Nodup.of_map (fun p : BItem K S => (p.1, p.2.1)) ?_
      rw [List.map_map]
      exact hnd
    · rw [if_neg hc]
      refine count_repeat_zero _ fun k hk => ?_
      obtain ⟨⟨a, b, w⟩, hq, e⟩ := List.mem_map.1 hk
      obtain ⟨rfl, rfl⟩ : a = u ∧ b = v := by
        simp only [Prod.mk.injEq] at e
        exact ⟨e.1.1, e.1.2.1⟩
      have := (hedge _ _ _).1 hq
      exact hc ⟨this.2.2.1, this.2.2.2, this.1⟩

end

/-! ### the ratios: neither weights nor parallel edges count -/

section
variable {K S α : Type} [DecidableEq S] [DecidableEq K] {g : NxFull K S α}

/-- `u` and `v` are joined by some edge -/
def Joined (g : NxFull K S α) (u v : K) : Prop := g.data u v ≠ []

instance (g : NxFull K S α) (u v : K) : Decidable (Joined g u v) :=
  decidable_of_iff (¬ (g.data u v).isEmpty = true) (by unfold Joined; rw [List.isEmpty_iff])

/-- the number of pairs joined between `P` and `Q`, in a digraph in both directions -/
def pairsCut (g : NxFull K S α) (P Q : K → Prop) [DecidablePred P] [DecidablePred Q] : Nat :=
  edgesFromTo g.nodes (Joined g) P Q + if isDirectedClass g.cls then edgesFromTo g.nodes (Joined g) Q P else 0

theorem edgesFromTo_cast {V : Type} {N N' : List V} {E E' : V → V → Prop} [∀ u v, Decidable (E u v)]
    [∀ u v, Decidable (E' u v)] (hN : N = N') (h : ∀ u v, E u v ↔ E' u v) (P Q : V → Prop) [DecidablePred P]
    [DecidablePred Q] : edgesFromTo N E P Q = edgesFromTo N' E' P Q := by
  subst hN
  unfold edgesFromTo countOf
  refine sumOver_congr' fun u _ => ?_
  congr 1
  funext v
  simp only [h]

theorem vol_cast {V : Type} {N N' : List V} {E E' : V → V → Prop} [∀ u v, Decidable (E u v)]
    [∀ u v, Decidable (E' u v)] (hN : N = N') (h : ∀ u v, E u v ↔ E' u v) (P : V → Prop) [DecidablePred P] :
    vol N E P = vol N' E' P := by
  subst hN
  unfold vol outDeg countOf
  refine sumOver_congr' fun u _ => ?_
  congr 2
  funext v
  simp only [h]

theorem edgeCount_cast {V : Type} {N N' : List V} {E E' : V → V → Prop} [∀ u v, Decidable (E u v)]
    [∀ u v, Decidable (E' u v)] (hN : N = N') (h : ∀ u v, E u v ↔ E' u v) : edgeCount N E = edgeCount N' E' := by
  subst hN
  unfold edgeCount outDeg countOf
  refine sumOver_congr' fun u _ => ?_
  congr 1
  funext v
  simp only [h]

variable [AddCommMonoidWithOne α]

theorem cutCount_full (hg : FullWF g) (x : Option S) (P Q : K → Prop) [DecidablePred P] [DecidablePred Q] :
    cutCount (fromFull (1 : α) g (isDirectedClass g.cls) false x) P Q = pairsCut g P Q := by
  unfold cutCount pairsCut
  rw [edgesFromTo_cast (E' := Joined g) (fromFull_nodes ..) (fromFull_edge hg _ _ x) P Q,
    edgesFromTo_cast (E' := Joined g) (fromFull_nodes ..) (fromFull_edge hg _ _ x) Q P]
  rfl

/-- **C102.** `conductance(G, S, T, weight)` and `normalized_cut_size(G, S, T, weight)` of a NetworkX graph of any
class: the ratios of the numbers of joined pairs.  `weight` and parallel edges have no effect (finding:
`conductance_ignores_weight`). -/
theorem nx_conductance_counts_pairs_partial (hg : NxOK g) (s : List K) (t : Option (List K)) (x : Option S) :
    nxConductance g s t x = ratio (pairsCut g (· ∈ s) (Other s t))
      (min (vol g.nodes (Joined g) (· ∈ s)) (vol g.nodes (Joined g) (Other s t))) ∧
    nxNormalizedCutSize g s t x =
      if vol g.nodes (Joined g) (· ∈ s) = 0 ∨ vol g.nodes (Joined g) (Other s t) = 0 then .error .zeroDivision
      else .ok (pairsCut g (· ∈ s) (Other s t) *
        (1 / (vol g.nodes (Joined g) (· ∈ s) : ℚ) + 1 / (vol g.nodes (Joined g) (Other s t) : ℚ))) := by
  unfold nxConductance nxNormalizedCutSize
  rw [toGraphFull_ok hg.cls]
  simp only [bind, Except.bind]
  have hw := fromFull_wf (one := (1 : α)) hg.wf (isDirectedClass g.cls) false x
  obtain ⟨h1, h2⟩ := conductance_correct hw s t
  rw [h1, h2, cutCount_full hg.wf,
    vol_cast (E' := Joined g) (fromFull_nodes ..) (fromFull_edge hg.wf _ _ x) (· ∈ s),
    vol_cast (E' := Joined g) (fromFull_nodes ..) (fromFull_edge hg.wf _ _ x) (Other s t)]
  exact ⟨rfl, rfl⟩

/-- **C102.** `edge_expansion(G, S, T, weight)` and `mixing_expansion(G, S, T, weight)`, likewise (`T` may be omitted
only for undirected graphs) -/
theorem nx_expansions_count_pairs_partial (hg : NxOK g) (s : List K) (t : Option (List K)) (x : Option S)
    (ht : t = none → isDirectedClass g.cls = false) :
    nxEdgeExpansion g s t x = ratio (pairsCut g (· ∈ s) (Other s t))
      (min (countOf g.nodes (· ∈ s)) (countOf g.nodes (Other s t))) ∧
    nxMixingExpansion g s t x = ratio (pairsCut g (· ∈ s) (Other s t)) (edgeCount g.nodes (Joined g)) := by
  unfold nxEdgeExpansion nxMixingExpansion
  rw [toGraphFull_ok hg.cls]
  simp only [bind, Except.bind]
  have hw := fromFull_wf (one := (1 : α)) hg.wf (isDirectedClass g.cls) false x
  obtain ⟨h1, h2⟩ := edge_expansion_correct hw (fun h => fromFull_symm (hg.symm h) _ _ x) s t ht
  rw [h1, h2, cutCount_full hg.wf, fromFull_nodes,
    edgeCount_cast (E' := Joined g) (N' := g.nodes) rfl (fromFull_edge hg.wf _ _ x)]
  exact ⟨rfl, rfl⟩

end

/-! ### concrete graphs -/

/-- two parallel edges between 1 and 2 (one with weight 5, one without), an edge 2 - 3 and a self-loop at 3 -/
def Ex.multi : NxFull Nat String Int where
  cls := .multigraph
  nodes := [1, 2, 3]
  data := fun u v =>
    if (u = 1 ∧ v = 2) ∨ (u = 2 ∧ v = 1) then [[("weight", 5)], []]
    else if (u = 2 ∧ v = 3) ∨ (u = 3 ∧ v = 2) then [[("weight", 2)]]
    else if u = 3 ∧ v = 3 then [[]] else []
  nodeAttrs := fun _ => []
  graphAttrs := []

theorem Ex.multi_ok : NxOK Ex.multi where
  wf := ⟨by decide, by
    intro u v h
    simp only [Ex.multi] at h ⊢
    split at h
    · rename_i h'; rcases h' with ⟨rfl, rfl⟩ | ⟨rfl, rfl⟩ <;> decide
    · split at h
      · rename_i h'; rcases h' with ⟨rfl, rfl⟩ | ⟨rfl, rfl⟩ <;> decide
      · split at h
        · rename_i h'; obtain ⟨rfl, rfl⟩ := h'; decide
        · exact absurd rfl h⟩
  cls := by decide
  single := by intro h; exact absurd h (by decide)
  symm := by
    intro _ u v
    simp only [Ex.multi]
    have e1 : ((u = 1 ∧ v = 2) ∨ (u = 2 ∧ v = 1)) ↔ ((v = 1 ∧ u = 2) ∨ (v = 2 ∧ u = 1)) := by omega
    have e2 : ((u = 2 ∧ v = 3) ∨ (u = 3 ∧ v = 2)) ↔ ((v = 2 ∧ u = 3) ∨ (v = 3 ∧ u = 2)) := by omega
    have e3 : (u = 3 ∧ v = 3) ↔ (v = 3 ∧ u = 3) := by omega
    simp only [e1, e2, e3]

example : nxCutSize Ex.multi [1] (some [2, 3]) none = .ok 2 ∧ nxCutSize Ex.multi [1] (some [2]) (some "weight") = .ok 6 ∧
    nxCutSize Ex.multi [2] none none = .ok 3 ∧ nxVolume Ex.multi [2, 3] none = .ok 5 ∧
    nxEdgeBoundary Ex.multi [2] none none = .ok [(2, 1, none), (2, 1, none), (2, 3, none)] := by
  refine ⟨?_, ?_, ?_, ?_, ?_⟩ <;> decide +kernel

/-- **C102, finding.** With `data`, an edge of a multigraph is repeated by its weight instead of once per parallel edge:
the one edge 2 - 3, of weight 2, is yielded twice, and the two edges 1 - 2 six times, each with weight 6. -/
theorem multigraph_edge_boundary_data_repeats :
    NxOK Ex.multi ∧ (Ex.multi.data 2 3).length = 1 ∧ (Ex.multi.data 2 1).length = 2 ∧
    nxEdgeBoundary Ex.multi [2] none (some "weight") =
      .ok [(2, 1, some ("weight", 6)), (2, 1, some ("weight", 6)), (2, 1, some ("weight", 6)), (2, 1, some ("weight", 6)),
        (2, 1, some ("weight", 6)), (2, 1, some ("weight", 6)), (2, 3, some ("weight", 2)), (2, 3, some ("weight", 2))] := by
  refine ⟨Ex.multi_ok, ?_, ?_, ?_⟩ <;> decide +kernel

/-- **C102, finding.** `conductance(G, {1}, weight="weight")` and `conductance(G, {1})` are both 1/1 on the multigraph of
the example; the mixing expansion of {2} counts 2 of 5 (neither the 3 edges, nor the total weight 8) -/
theorem conductance_ignores_weight : NxOK Ex.multi ∧
    nxConductance Ex.multi [2] none (some "weight") = .ok 1 ∧ nxMixingExpansion Ex.multi [2] none (some "weight") = .ok (2/5) ∧
    edgesBetween Ex.multi (· ∈ [2]) (· ∉ [2]) = 3 ∧ valueFromTo Ex.multi (some "weight") (· ∈ [2]) (· ∉ [2]) = 8 := by
  refine ⟨Ex.multi_ok, ?_, ?_, ?_, ?_⟩ <;> decide +kernel

end Props
