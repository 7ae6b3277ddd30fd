import Verif.Props.ClusterLoops
import Verif.Props.ClusterWLoops
import Verif.Props.PageRank
import Verif.Props.Centrality
import Verif.Props.Cuts
import Verif.Props.Small2
import Verif.Props.Bfs
import Mathlib.Tactic.Linarith

/-!
# C124: normalised results stay in their range
-/

open GB Spec Model Model.Graph Proofs Proofs.Cluster
open Cluster (Asked)
open Proofs.Power

namespace Props

section counts
variable {K α : Type} [DecidableEq K] {G : Graph K α}

/-- the inequality behind the directed coefficients -/
theorem dirTriPairs_le (h : G.WF) {u : K} (hu : G.Node u) :
    (dirTriPairs G.nodes G.Edge u : Int) ≤ 2 * ((totalDegree G.nodes G.Edge u : Int) *
      ((totalDegree G.nodes G.Edge u : Int) - 1) - 2 * (recipDegree G.nodes G.Edge u : Int)) := by
  obtain ⟨i, rfl⟩ := exists_keyFn h hu
  unfold dirTriPairs totalDegree recipDegree degree
  simp only [sumOver_nodes h, countOf_nodes h]
  generalize keyFn h i = v
  have hE : ∀ a b : K, between G.Edge a b ≤ 2 := by
    intro a b; unfold between; split_ifs <;> omega
  let f : Fin G.n → Int := fun a => if keyFn h a ≠ v then (between G.Edge v (keyFn h a) : Int) else 0
  have h1 : ((∑ a, ∑ b, if keyFn h a ≠ keyFn h b ∧ keyFn h a ≠ v ∧ keyFn h b ≠ v then
      between G.Edge v (keyFn h a) * between G.Edge v (keyFn h b) * between G.Edge (keyFn h a) (keyFn h b) else 0 : Nat) : Int)
      ≤ ∑ a, ∑ b, (2 * (f a * f b) - if a = b then 2 * (f a * f b) else 0) := by
    push_cast
    refine Finset.sum_le_sum fun a _ => Finset.sum_le_sum fun b _ => ?_
    simp only [f, ne_eq, keyFn_eq_iff]
    by_cases hab : a = b
    · subst hab; simp
    · by_cases ha : keyFn h a = v
      · simp [ha, hab]
      · by_cases hb : keyFn h b = v
        · simp [hb, hab]
        · simp only [hab, ha, hb, not_false_eq_true, and_self, if_true, if_false, sub_zero]
          have e := hE (keyFn h a) (keyFn h b)
          have : (between G.Edge (keyFn h a) (keyFn h b) : Int) ≤ 2 := by exact_mod_cast e
          have hp : (0 : Int) ≤ between G.Edge v (keyFn h a) * between G.Edge v (keyFn h b) := by positivity
          nlinarith
  refine h1.trans (le_of_eq ?_)
  have h2 : ∑ a, ∑ b, (2 * (f a * f b) - if a = b then 2 * (f a * f b) else 0) =
      2 * ((∑ a, f a) * (∑ a, f a) - ∑ a, f a * f a) := by
    simp only [Finset.sum_sub_distrib, Finset.sum_ite_eq, Finset.mem_univ, if_true]
    rw [Finset.sum_mul_sum, mul_sub, Finset.mul_sum, Finset.mul_sum]
    simp only [Finset.mul_sum]
  have h3 : ∑ a, f a = ((∑ a, if keyFn h a ≠ v ∧ G.Edge v (keyFn h a) then 1 else 0 : Nat) : Int) +
      ((∑ a, if keyFn h a ≠ v ∧ G.Edge (keyFn h a) v then 1 else 0 : Nat) : Int) := by
    push_cast
    rw [← Finset.sum_add_distrib]
    refine Finset.sum_congr rfl fun a _ => ?_
    simp only [f, between]
    by_cases ha : keyFn h a = v <;> simp [ha]
  have h4 : ∑ a, f a * f a = ∑ a, f a +
      2 * ((∑ a, if keyFn h a ≠ v ∧ G.Edge v (keyFn h a) ∧ G.Edge (keyFn h a) v then 1 else 0 : Nat) : Int) := by
    push_cast
    rw [Finset.mul_sum, ← Finset.sum_add_distrib]
    refine Finset.sum_congr rfl fun a _ => ?_
    simp only [f, between]
    by_cases ha : keyFn h a = v
    · simp [ha]
    · by_cases e1 : G.Edge v (keyFn h a) <;> by_cases e2 : G.Edge (keyFn h a) v <;> simp [ha, e1, e2]
  rw [h2, h4, h3]
  push_cast
  ring

/-- **C124.** directed clustering coefficients (NetworkX's formula) lie between 0 and 1 -/
theorem dirCoeff_range (h : G.WF) {u : K} (hu : G.Node u) : 0 ≤ dirCoeff G u ∧ dirCoeff G u ≤ 1 := by
  have hle := dirTriPairs_le h hu
  have hle' : (dirTriPairs G.nodes G.Edge u : ℚ) ≤ 2 * ((totalDegree G.nodes G.Edge u : ℚ) *
      ((totalDegree G.nodes G.Edge u : ℚ) - 1) - 2 * (recipDegree G.nodes G.Edge u : ℚ)) := by exact_mod_cast hle
  have h0 : (0 : ℚ) ≤ dirTriPairs G.nodes G.Edge u := by positivity
  unfold dirCoeff
  exact ⟨div_nonneg h0 (h0.trans hle'), div_le_one_of_le₀ hle' (h0.trans hle')⟩

/-- **C124.** `triangles`: at most one triangle for each pair of neighbours, for each node asked for. -/
theorem triangles_range (h : G.WF) (hs : G.Symm) {nodes : Option (List K)} {r}
    (hr : triangles G nodes = .ok r) (hn : ∀ l, nodes = some l → ∀ u ∈ l, G.Node u) {u : K} {t : Nat}
    (ht : G.view r u = some t) :
    2 * t ≤ degree G.nodes G.Edge u * (degree G.nodes G.Edge u - 1) := by
  obtain ⟨r', e, hv⟩ := triangles_correct h hs hn
  rw [hr] at e; cases e
  obtain ⟨⟨hu, -⟩, e⟩ := (hv u t).1 ht
  rw [e]
  exact triPairs_le h hu

/-- **C124.** `clustering(G)`, `clustering(G, u)`, `clustering(G, nodes)`: every coefficient lies between 0 and 1, for
undirected graphs with or without self-loops ... -/
theorem clustering_range (h : G.WF) (hs : G.Symm) {nodes : Option (List K)} {r}
    (hr : clustering G nodes = .ok r) (hn : ∀ l, nodes = some l → ∀ u ∈ l, G.Node u) {u : K} {x : ℚ}
    (hx : G.view r u = some x) : 0 ≤ x ∧ x ≤ 1 := by
  obtain ⟨r', e, hv⟩ := clustering_correct h hs hn
  rw [hr] at e; cases e
  obtain ⟨⟨hu, -⟩, rfl⟩ := (hv u x).1 hx
  exact ⟨(clustering_bounds h hu).1, (clustering_bounds h hu).2.1⟩

/-- **C124.** ... for one node ... -/
theorem single_clustering_range (h : G.WF) (hs : G.Symm) {u : K} (hu : G.Node u) :
    ∃ x, singleClustering G u = .ok x ∧ 0 ≤ x ∧ x ≤ 1 :=
  ⟨_, single_clustering_correct h hs hu, (clustering_bounds h hu).1, (clustering_bounds h hu).2.1⟩

/-- **C124.** ... for one node of a digraph, with or without self-loops ... -/
theorem single_directed_clustering_range (h : G.WF) {u : K} (hu : G.Node u) :
    ∃ x, singleClusteringDirected G u = .ok x ∧ 0 ≤ x ∧ x ≤ 1 :=
  ⟨_, single_directed_clustering_correct h hu, dirCoeff_range h hu⟩

/-- **C124 (partial: no self-loops).** ... and for all nodes of a digraph; `directed_clustering_out_of_range`
shows what a self-loop does. -/
theorem directed_clustering_range_partial (h : G.WF) (hno : ∀ u, ¬ G.Edge u u) {nodes : Option (List K)} {r}
    (hr : clusteringDirected G nodes = .ok r) (hn : ∀ l, nodes = some l → ∀ u ∈ l, G.Node u) {u : K} {x : ℚ}
    (hx : G.view r u = some x) : 0 ≤ x ∧ x ≤ 1 := by
  obtain ⟨r', e, hv⟩ := directed_clustering_correct_partial h hno hn
  rw [hr] at e; cases e
  obtain ⟨⟨hu, -⟩, rfl⟩ := (hv u x).1 hx
  exact dirCoeff_range h hu

end counts

/-! ### means -/

section means
variable {K : Type} [DecidableEq K] {F : Type} [Field F] [LinearOrder F] [IsStrictOrderedRing F]

theorem sumOver_le_length {N : List K} {f : K → F} (hf : ∀ v ∈ N, f v ≤ 1) : sumOver N f ≤ N.length := by
  unfold sumOver
  induction N with
  | nil => simp
  | cons a N ih =>
    simp only [List.map_cons, List.sum_cons, List.length_cons, Nat.cast_add, Nat.cast_one]
    have h1 := hf a (by simp)
    have h2 := ih fun v hv => hf v (by simp [hv])
    linarith

theorem meanOf_range {L : List K} {f : K → F} (hf : ∀ v ∈ L, 0 ≤ f v ∧ f v ≤ 1) {x : F}
    (hx : meanOf L f = .ok x) : 0 ≤ x ∧ x ≤ 1 := by
  unfold meanOf at hx
  split at hx
  · cases hx
  · rename_i h0
    cases hx
    have hp : (0 : F) < L.length := by exact_mod_cast Nat.pos_of_ne_zero h0
    refine ⟨div_nonneg (sumOver_nonneg fun v hv => (hf v hv).1) hp.le, ?_⟩
    rw [div_le_one hp]
    exact sumOver_le_length fun v hv => (hf v hv).2

variable {α : Type} {G : Graph K α}

omit [Field F] [LinearOrder F] [IsStrictOrderedRing F] in
theorem averaged_node {nodes : Option (List K)} (hn : ∀ l, nodes = some l → ∀ u ∈ l, G.Node u) {u : K}
    (hu : u ∈ averagedOver G nodes) : G.Node u := by
  cases nodes with
  | none => exact hu
  | some l => exact hn l rfl u (List.mem_dedup.1 hu)

omit [Field F] [LinearOrder F] [IsStrictOrderedRing F] in
theorem averaged_node' {nodes : Option (List K)} (hn : ∀ l, nodes = some l → ∀ u ∈ l, G.Node u) {z : Bool}
    {p : K → Prop} [DecidablePred p] {u : K}
    (hu : u ∈ if z then averagedOver G nodes else (averagedOver G nodes).filter fun u => p u) : G.Node u := by
  refine averaged_node hn ?_
  split at hu
  · exact hu
  · exact (List.mem_filter.1 hu).1

omit [Field F] [LinearOrder F] [IsStrictOrderedRing F] in
/-- **C124.** `average_clustering` of an undirected graph, when defined, lies between 0 and 1 ... -/
theorem average_clustering_range (h : G.WF) (hd : G.directed = false) (hs : G.Symm)
    {nodes : Option (List K)} (hn : ∀ l, nodes = some l → ∀ u ∈ l, G.Node u) {z : Bool} {x : ℚ}
    (hx : averageClustering G nodes z = .ok x) : 0 ≤ x ∧ x ≤ 1 := by
  rw [average_clustering_correct h hd hs hn] at hx
  split at hx
  · cases hx
  · exact meanOf_range (fun v hv => ⟨(clustering_bounds h (averaged_node' hn hv)).1,
      (clustering_bounds h (averaged_node' hn hv)).2.1⟩) hx

omit [Field F] [LinearOrder F] [IsStrictOrderedRing F] in
/-- **C124 (partial: no self-loops).** ... and of a digraph. -/
theorem average_clustering_directed_range_partial (h : G.WF) (hd : G.directed = true) (hno : ∀ u, ¬ G.Edge u u)
    {nodes : Option (List K)} (hn : ∀ l, nodes = some l → ∀ u ∈ l, G.Node u) {z : Bool} {x : ℚ}
    (hx : averageClustering G nodes z = .ok x) : 0 ≤ x ∧ x ≤ 1 := by
  rw [average_clustering_directed_correct_partial h hd hno hn] at hx
  split at hx
  · cases hx
  · exact meanOf_range (fun v hv => dirCoeff_range h (averaged_node' hn hv)) hx

end means

/-- three nodes, all edges in both directions, a self-loop at each node -/
def Ex.fullLoops : Graph Nat Int where
  n := 3
  A := fun _ _ => some 1
  keyToId := [(5,0),(6,1),(7,2)]
  directed := true

/-- **C124, finding.** With self-loops `clustering` and `average_clustering` of a digraph may exceed 1. -/
theorem directed_clustering_out_of_range :
    Ex.fullLoops.WF ∧ (∃ r, clusteringDirected Ex.fullLoops none = .ok r ∧ Ex.fullLoops.view r 5 = some (7/4)) ∧
    averageClustering Ex.fullLoops none true = .ok (7/4) := by
  refine ⟨⟨by decide, by decide⟩, ⟨_, rfl, by decide +kernel⟩, by decide +kernel⟩

/-- two nodes, one edge, a self-loop at 1 -/
def Ex.lineLoop : Graph Nat Int where
  n := 2
  A := Ex.ofTriples 2 [(0,0,1), (0,1,1), (1,0,1)]
  keyToId := [(1,0),(2,1)]
  directed := false

/-! ### weighted coefficients -/

section weighted
variable {K F : Type} [DecidableEq K] [Field F] [LinearOrder F] [IsStrictOrderedRing F] {G : Graph K F}

/-- no negative weight between different nodes, and a cube root that maps `[0, 1]` into itself -/
structure UnitRoot (cbrt : F → F) (G : Graph K F) : Prop where
  weights : ∀ u v w, u ≠ v → G.WEdge u v w → 0 ≤ w
  root : ∀ x, 0 ≤ x → x ≤ 1 → 0 ≤ cbrt x ∧ cbrt x ≤ 1

theorem normWeight_range {cbrt : F → F} (h : G.WF) (hc : UnitRoot cbrt G) {m : F} (hm : MaxWeight G m) {a b : K}
    (hab : a ≠ b) : 0 ≤ normWeight cbrt m G.weight? a b ∧
      normWeight cbrt m G.weight? a b ≤ ((if G.Edge a b then 1 else 0 : Nat) : F) := by
  unfold normWeight
  cases hw : G.weight? a b with
  | none => exact ⟨le_rfl, by positivity⟩
  | some x =>
    have he : G.WEdge a b x := (weight?_eq_some h).1 hw
    have hx := hc.weights a b x hab he
    have hxm : x ≤ m := hm.2 ⟨a, b, hab, he⟩
    have hm0 : 0 ≤ m := hx.trans hxm
    have hr := hc.root (x / m) (div_nonneg hx hm0) (div_le_one_of_le₀ hxm hm0)
    have : G.Edge a b := Relabel.edge_iff_wedge.2 ⟨x, he⟩
    simp only [this, if_true, Nat.cast_one]
    exact hr

theorem triWeight_range (h : G.WF) {x : K → K → F} {c : K → K → Nat} 
    (hx : ∀ a b, a ≠ b → 0 ≤ x a b ∧ x a b ≤ c a b) (v : K) :
    0 ≤ triWeight G.nodes x v ∧ triWeight G.nodes x v ≤ ((sumOver G.nodes fun a => sumOver G.nodes fun b =>
      if a ≠ b ∧ a ≠ v ∧ b ≠ v then c v a * c v b * c a b else 0 : Nat) : F) := by
  unfold triWeight
  simp only [sumOver_nodes h]
  push_cast
  constructor
  · refine Finset.sum_nonneg fun a _ => Finset.sum_nonneg fun b _ => ?_
    split
    · rename_i hh
      exact mul_nonneg (mul_nonneg (hx _ _ (Ne.symm hh.2.1)).1 (hx _ _ (Ne.symm hh.2.2)).1) (hx _ _ hh.1).1
    · exact le_rfl
  · refine Finset.sum_le_sum fun a _ => Finset.sum_le_sum fun b _ => ?_
    split
    · rename_i hh
      have h1 := hx _ _ (Ne.symm hh.2.1)
      have h2 := hx _ _ (Ne.symm hh.2.2)
      have h3 := hx _ _ hh.1
      exact mul_le_mul (mul_le_mul h1.2 h2.2 h2.1 (by positivity)) h3.2 h3.1 (by positivity)
    · exact le_rfl

theorem wcoeff_range {cbrt : F → F} (h : G.WF) (hc : UnitRoot cbrt G) {m : F} (hm : MaxWeight G m) {u : K}
    (hu : G.Node u) : 0 ≤ wcoeff cbrt G m u ∧ wcoeff cbrt G m u ≤ 1 := by
  obtain ⟨h0, h1⟩ := triWeight_range h (c := fun a b => if G.Edge a b then 1 else 0)
    (fun a b hab => normWeight_range h hc hm hab) u
  have e : (sumOver G.nodes fun a => sumOver G.nodes fun b => if a ≠ b ∧ a ≠ u ∧ b ≠ u then
      (if G.Edge u a then 1 else 0) * (if G.Edge u b then 1 else 0) * (if G.Edge a b then 1 else 0) else 0 : Nat) =
      triPairs G.nodes G.Edge u := by
    unfold triPairs
    simp only [sumOver_nodes h, countOf_nodes h]
    refine Finset.sum_congr rfl fun a _ => Finset.sum_congr rfl fun b _ => ?_
    by_cases e1 : G.Edge u (keyFn h a) <;> by_cases e2 : G.Edge u (keyFn h b) <;>
      by_cases e3 : G.Edge (keyFn h a) (keyFn h b) <;> simp [e1, e2, e3]
  rw [e] at h1
  have hle := triPairs_le h hu
  have hd : ((degree G.nodes G.Edge u * (degree G.nodes G.Edge u - 1) : Nat) : F) =
      (degree G.nodes G.Edge u : F) * ((degree G.nodes G.Edge u : F) - 1) := by
    rcases Nat.eq_zero_or_pos (degree G.nodes G.Edge u) with h0 | h0
    · simp [h0]
    · push_cast [Nat.cast_sub h0]; ring
  have hle' : triWeight G.nodes (normWeight cbrt m G.weight?) u ≤
      (degree G.nodes G.Edge u : F) * ((degree G.nodes G.Edge u : F) - 1) := by
    rw [← hd]
    exact h1.trans (by exact_mod_cast hle)
  unfold wcoeff wCoeff
  exact ⟨div_nonneg h0 (h0.trans hle'), div_le_one_of_le₀ hle' (h0.trans hle')⟩

theorem wdirCoeff_range {cbrt : F → F} (h : G.WF) (hc : UnitRoot cbrt G) {m : F} (hm : MaxWeight G m) {u : K}
    (hu : G.Node u) : 0 ≤ wdirCoeff cbrt G m u ∧ wdirCoeff cbrt G m u ≤ 1 := by
  obtain ⟨h0, h1⟩ := triWeight_range h (x := fun a b => normWeight cbrt m G.weight? a b + normWeight cbrt m G.weight? b a)
    (c := between G.Edge)
    (fun a b hab => by
      have e1 := normWeight_range h hc hm hab
      have e2 := normWeight_range h hc hm (Ne.symm hab)
      refine ⟨add_nonneg e1.1 e2.1, ?_⟩
      unfold between
      rw [Nat.cast_add]
      exact add_le_add e1.2 e2.2) u
  have hle := dirTriPairs_le h hu
  have hle'' : (dirTriPairs G.nodes G.Edge u : F) ≤ 2 * ((totalDegree G.nodes G.Edge u : F) *
      ((totalDegree G.nodes G.Edge u : F) - 1) - 2 * (recipDegree G.nodes G.Edge u : F)) := by exact_mod_cast hle
  have hle' := h1.trans hle''
  unfold wdirCoeff wDirCoeff
  exact ⟨div_nonneg h0 (h0.trans hle'), div_le_one_of_le₀ hle' (h0.trans hle')⟩

/-- **C124.** weighted clustering coefficients lie between 0 and 1 when no weight is negative: one node ... -/
theorem single_weighted_clustering_range {cbrt : F → F} (h : G.WF) (hs : G.directed = false → G.Symm)
    (hc : UnitRoot cbrt G) {m : F} (hm : MaxWeight G m) {u : K} (hu : G.Node u) :
    ∃ x, singleClusteringWeighted cbrt G u = .ok x ∧ 0 ≤ x ∧ x ≤ 1 := by
  cases hd : G.directed with
  | false => exact ⟨_, single_weighted_clustering cbrt h hd (hs hd) hm hu, wcoeff_range h hc hm hu⟩
  | true => exact ⟨_, single_weighted_directed_clustering cbrt h hd hm hu, wdirCoeff_range h hc hm hu⟩

/-- **C124 (partial: no self-loops).** ... all nodes, or several ... -/
theorem weighted_clustering_range_partial {cbrt : F → F} (h : G.WF) (hs : G.directed = false → G.Symm)
    (hno : ∀ u, ¬ G.Edge u u) (hc : UnitRoot cbrt G) {m : F} (hm : MaxWeight G m) {nodes : Option (List K)} {r}
    (hr : clusteringWeighted cbrt G nodes = .ok r) (hn : ∀ l, nodes = some l → ∀ u ∈ l, G.Node u) {u : K} {x : F}
    (hx : G.view r u = some x) : 0 ≤ x ∧ x ≤ 1 := by
  cases hd : G.directed with
  | false =>
    obtain ⟨r', e, hv⟩ := weighted_clustering_map_partial cbrt h hd (hs hd) hno hm hn
    rw [hr] at e; cases e
    obtain ⟨⟨hu, -⟩, rfl⟩ := (hv u x).1 hx
    exact wcoeff_range h hc hm hu
  | true =>
    obtain ⟨r', e, hv⟩ := weighted_directed_clustering_map_partial cbrt h hd hno hm hn
    rw [hr] at e; cases e
    obtain ⟨⟨hu, -⟩, rfl⟩ := (hv u x).1 hx
    exact wdirCoeff_range h hc hm hu

/-- **C124 (partial: no self-loops).** ... and their mean. -/
theorem weighted_average_range_partial {cbrt : F → F} (h : G.WF) (hs : G.directed = false → G.Symm)
    (hno : ∀ u, ¬ G.Edge u u) (hc : UnitRoot cbrt G) {m : F} (hm : MaxWeight G m) {nodes : Option (List K)}
    (hn : ∀ l, nodes = some l → ∀ u ∈ l, G.Node u) {x : F}
    (hx : averageClusteringWeighted cbrt G nodes true = .ok x) : 0 ≤ x ∧ x ≤ 1 := by
  cases hd : G.directed with
  | false =>
    rw [weighted_average_partial cbrt h hd (hs hd) hno hm hn true (by simp)] at hx
    exact meanOf_range (fun v hv => wcoeff_range h hc hm (averaged_node hn hv)) hx
  | true =>
    rw [weighted_average_directed_value cbrt h hd hm hn] at hx
    refine meanOf_range (fun v hv => ?_) hx
    have : wdirCoeffCode cbrt G m v = wdirCoeff cbrt G m v := by
      unfold wdirCoeffCode
      rw [wloopExtra_zero cbrt m (fun a _ _ => hno a) (hno v) h]
      simp
    rw [this]
    exact wdirCoeff_range h hc hm (averaged_node hn hv)

end weighted

/-! ### centralities -/

section power
variable {K F : Type} [DecidableEq K] [Field F] [LinearOrder F] [IsStrictOrderedRing F] {G : Graph K F}

theorem le_sumOver {N : List K} {f : K → F} (hf : ∀ v ∈ N, 0 ≤ f v) {u : K} (hu : u ∈ N) : f u ≤ sumOver N f := by
  unfold sumOver
  induction N with
  | nil => simp at hu
  | cons a N ih =>
    simp only [List.map_cons, List.sum_cons]
    have h0 : 0 ≤ (N.map f).sum := sumOver_nonneg (N := N) fun v hv => hf v (by simp [hv])
    rcases List.mem_cons.1 hu with rfl | hu
    · linarith
    · have := ih (fun v hv => hf v (by simp [hv])) hu
      have := hf a (by simp)
      linarith

/-- **C124.** PageRank scores lie between 0 and 1 (non-negative weights and dictionaries, damping in `[0, 1]`). -/
theorem pagerank_range (h : G.WF) (hE : ∃ u v, G.Edge u v) {iso : Option F}
    {pers nstart dangling : Option (List (K × F))} (ha : PRArgs G iso pers nstart dangling)
    {alpha : F} (hs : PRNonneg G alpha pers nstart dangling) (maxIter : Int) (tol : F) {r : Vec G.n F}
    (hR : pagerank G iso alpha pers maxIter tol nstart dangling = .ok (some r)) {u : K} (hu : G.Node u) :
    ∃ x, G.view r u = some x ∧ 0 ≤ x ∧ x ≤ 1 := by
  obtain ⟨x, hx, h0⟩ := pagerank_nonneg h hE ha hs maxIter tol hR hu
  refine ⟨x, hx, h0, ?_⟩
  have hsum := pagerank_sum h hE ha alpha maxIter tol hR
  have := le_sumOver (N := G.nodes) (f := fun u => (G.view r u).getD 0) (fun v hv => by
    obtain ⟨y, hy, hy0⟩ := pagerank_nonneg h hE ha hs maxIter tol hR (show G.Node v from hv)
    rw [hy]; exact hy0) hu
  rw [hsum, hx] at this
  exact this

theorem over_sum_range {N : List K} {x : K → F} (hx : ∀ v, 0 ≤ x v) {u : K} (hu : u ∈ N) :
    0 ≤ over (sumOver N x) x u ∧ over (sumOver N x) x u ≤ 1 := by
  have h0 : 0 ≤ sumOver N x := sumOver_nonneg fun v _ => hx v
  have h1 := le_sumOver (N := N) (fun v _ => hx v) hu
  unfold over
  split
  · rename_i e
    rw [e] at h1
    exact ⟨hx u, h1.trans zero_le_one⟩
  · exact ⟨div_nonneg (hx u) h0, div_le_one_of_le₀ h1 h0⟩

theorem le_maxOver {N : List K} {x : K → F} {u : K} (hu : u ∈ N) : x u ≤ maxOver N x := by
  unfold maxOver
  induction N with
  | nil => simp at hu
  | cons a N ih =>
    simp only [List.map_cons, List.foldr_cons]
    rcases List.mem_cons.1 hu with rfl | hu
    · exact le_max_left _ _
    · exact (ih hu).trans (le_max_right _ _)

theorem maxOver_nonneg (N : List K) (x : K → F) : 0 ≤ maxOver N x := by
  unfold maxOver
  induction N with
  | nil => simp
  | cons a N ih => exact ih.trans (le_max_right _ _)

theorem over_max_nonneg {N : List K} {x : K → F} (hx : ∀ v, 0 ≤ x v) (u : K) : 0 ≤ over (maxOver N x) x u := by
  unfold over
  split
  · exact hx u
  · exact div_nonneg (hx u) (maxOver_nonneg N x)

theorem over_max_range {N : List K} {x : K → F} (hx : ∀ v, 0 ≤ x v) {u : K} (hu : u ∈ N) :
    0 ≤ over (maxOver N x) x u ∧ over (maxOver N x) x u ≤ 1 := by
  refine ⟨over_max_nonneg hx u, ?_⟩
  have h1 := le_maxOver (x := x) hu
  unfold over
  split
  · rename_i e
    rw [e] at h1
    exact h1.trans zero_le_one
  · exact div_le_one_of_le₀ h1 (maxOver_nonneg N x)

theorem inSum_nonneg (h : G.WF) (hw : ∀ u v a, G.WEdge u v a → 0 ≤ a) {x : K → F} (hx : ∀ v, 0 ≤ x v) (v : K) :
    0 ≤ inSum G.nodes G.weight? x v :=
  sumOver_nonneg fun u _ => mul_nonneg (hx u) (weight?_nonneg h hw u v)

theorem outSum_nonneg (h : G.WF) (hw : ∀ u v a, G.WEdge u v a → 0 ≤ a) {x : K → F} (hx : ∀ v, 0 ≤ x v) (v : K) :
    0 ≤ outSum G.nodes G.weight? x v :=
  sumOver_nonneg fun u _ => mul_nonneg (weight?_nonneg h hw v u) (hx u)

theorem prStart_nonneg {nstart : Option (List (K × F))} (hs : ∀ l, nstart = some l → ∀ k b, (k, b) ∈ l → 0 ≤ b) (v : K) :
    0 ≤ prStart G nstart v := distOf_nonneg hs (uniform_nonneg G.nodes) v

theorem iterate_nonneg {T : (K → F) → K → F} (hT : ∀ x, (∀ v, 0 ≤ x v) → ∀ v, 0 ≤ T x v) {x : K → F}
    (hx : ∀ v, 0 ≤ x v) (k : Nat) : ∀ v, 0 ≤ T^[k] x v := by
  induction k with
  | zero => exact hx
  | succ k ih => rw [Function.iterate_succ_apply']; exact hT _ ih

theorem hubMap_nonneg (h : G.WF) (hw : ∀ u v a, G.WEdge u v a → 0 ≤ a) {x : K → F} (hx : ∀ v, 0 ≤ x v) (v : K) :
    0 ≤ hubMap G.nodes G.weight? x v :=
  over_max_nonneg (outSum_nonneg h hw (inSum_nonneg h hw hx)) v

/-- **C124.** HITS hub and authority scores lie between 0 and 1, normalised or not. -/
theorem hits_range (h : G.WF) (hne : G.nodes ≠ []) (hw : ∀ u v a, G.WEdge u v a → 0 ≤ a)
    {nstart : Option (List (K × F))}
    (hs : ∀ l, nstart = some l → ValidDict G l ∧ sumOver G.nodes (valueIn l) ≠ 0 ∧ ∀ k b, (k, b) ∈ l → 0 ≤ b)
    {maxIter : Int} {tol : F} {normalized : Bool} {hub auth : Vec G.n F}
    (hR : hits G maxIter tol nstart normalized = .ok (some (hub, auth))) {u : K} (hu : G.Node u) :
    (∃ x, G.view hub u = some x ∧ 0 ≤ x ∧ x ≤ 1) ∧ ∃ x, G.view auth u = some x ∧ 0 ≤ x ∧ x ≤ 1 := by
  obtain ⟨k, hub', auth', -, e, -, e1, e2⟩ := (hits_correct h hne hw hs maxIter tol normalized).1 _ hR
  cases e
  have hst : ∀ v, 0 ≤ prStart G nstart v := prStart_nonneg fun l hl => (hs l hl).2.2
  have hit := fun k => iterate_nonneg (fun x hx => hubMap_nonneg h hw hx) hst k
  refine ⟨⟨_, e1 u hu, ?_⟩, ⟨_, e2 u hu, ?_⟩⟩
  · dsimp only
    split
    · exact over_sum_range (hit (k + 1)) hu
    · rw [Function.iterate_succ_apply']
      exact over_max_range (outSum_nonneg h hw (inSum_nonneg h hw (hit k))) hu
  · unfold hitsScale
    split
    · exact over_sum_range (inSum_nonneg h hw (hit k)) hu
    · exact over_max_range (inSum_nonneg h hw (hit k)) hu

/-- **C124.** eigenvector-centrality scores lie between -1 and 1, and between 0 and 1 when neither weights nor the
start vector are negative. -/
theorem eigenvector_range (h : G.WF) (hm : G.multi = false) (hne : G.nodes ≠ [])
    {nstart : Option (List (K × F))}
    (hs : ∀ l, nstart = some l → ValidDict G l ∧ sumOver G.nodes (valueIn l) ≠ 0)
    {sqrt : F → F} (hsq : ∀ y, 0 ≤ y → sqrt y * sqrt y = y) {maxIter : Int} {tol : F} {r : Vec G.n F}
    (hR : eigenvectorCentrality sqrt G maxIter tol nstart = .ok r) {u : K} (hu : G.Node u) :
    (-1 ≤ (G.view r u).getD 0 ∧ (G.view r u).getD 0 ≤ 1) ∧
    ((∀ u v a, G.WEdge u v a → 0 ≤ a) → (∀ l, nstart = some l → ∀ k b, (k, b) ∈ l → 0 ≤ b) →
      (∀ y, 0 ≤ y → 0 ≤ sqrt y) → 0 ≤ (G.view r u).getD 0) := by
  constructor
  · rw [← abs_le, ← sq_le_one_iff_abs_le_one]
    rcases eigenvector_norm h hm hne hs hsq maxIter tol hR with e | e
    · have := le_sumOver (N := G.nodes) (f := fun u => (G.view r u).getD 0 * (G.view r u).getD 0)
        (fun v _ => mul_self_nonneg _) hu
      rw [e] at this
      rw [sq]; exact this
    · rw [e u hu]; simp
  · intro hw hst hsq0
    obtain ⟨k, -, -, e, -⟩ := (eigenvector_correct h hm hne hs sqrt maxIter tol).1 r hR
    rw [e u hu]
    refine iterate_nonneg (fun x hx v => ?_) (prStart_nonneg hst) (k + 1) u
    have hp : ∀ v, 0 ≤ x v + inSum G.nodes G.weight? x v := fun v => add_nonneg (hx v) (inSum_nonneg h hw hx v)
    unfold eigMap over
    split
    · exact hp v
    · refine div_nonneg (hp v) ?_
      exact hsq0 _ (sumOver_nonneg fun v _ => mul_self_nonneg _)

end power

section degrees
variable {K α : Type} [DecidableEq K] {G : Graph K α}

omit [DecidableEq K] in
theorem countOf_lt_length {N : List K} {p : K → Prop} [DecidablePred p] {u : K} (hu : u ∈ N) (hp : ¬ p u) :
    countOf N p ≤ N.length - 1 := by
  unfold countOf
  have : N.countP (fun u => decide (p u)) ≠ N.length := by
    intro e
    exact hp (by simpa using (List.countP_eq_length.1 e) u hu)
  have := List.countP_le_length (p := fun u => decide (p u)) (l := N)
  omega

variable {F : Type} [Field F] [LinearOrder F] [IsStrictOrderedRing F]

omit [DecidableEq K] in
theorem degree_share {N d c : Nat} (hd : d ≤ c * (N - 1)) :
    0 ≤ (if N ≤ 1 then (1 : F) else (d : F) / ((N : F) - 1)) ∧
      (c ≠ 0 → (if N ≤ 1 then (1 : F) else (d : F) / ((N : F) - 1)) ≤ c) := by
  split
  · refine ⟨zero_le_one, fun hc => ?_⟩
    exact_mod_cast Nat.one_le_iff_ne_zero.2 hc
  · rename_i h1
    have e : (N : F) - 1 = ((N - 1 : Nat) : F) := by
      rw [Nat.cast_sub (by omega)]; simp
    rw [e]
    have hp : (0 : F) < ((N - 1 : Nat) : F) := by exact_mod_cast (by omega : 0 < N - 1)
    refine ⟨by positivity, fun _ => ?_⟩
    rw [div_le_iff₀ hp]
    exact_mod_cast hd

/-- **C124.** degree centralities are not negative; without a self-loop at the node they are at most 1
(`degree_centrality` of a digraph: at most 2). -/
theorem degree_centrality_range (h : G.WF) {u : K} (hu : G.Node u) (hno : ¬ G.Edge u u) :
    (∃ x : F, G.view (degreeCentrality G) u = some x ∧ 0 ≤ x ∧ x ≤ if G.directed then 2 else 1) ∧
    (G.directed = true → ∃ vin vout : Vec G.n F, inDegreeCentrality G = .ok vin ∧ outDegreeCentrality G = .ok vout ∧
      (∃ x, G.view vin u = some x ∧ 0 ≤ x ∧ x ≤ 1) ∧ ∃ x, G.view vout u = some x ∧ 0 ≤ x ∧ x ≤ 1) := by
  have ho : outDeg G.nodes G.Edge u ≤ G.nodes.length - 1 := countOf_lt_length (p := fun v => G.Edge u v) hu hno
  have hi : inDeg G.nodes G.Edge u ≤ G.nodes.length - 1 := countOf_lt_length (p := fun v => G.Edge v u) hu hno
  constructor
  · cases hd : G.directed with
    | false =>
      have := degree_share (F := F) (c := 1) (by simpa using ho)
      exact ⟨_, degree_centrality_undirected h hd hu, this.1, by simpa using this.2 one_ne_zero⟩
    | true =>
      have := degree_share (F := F) (c := 2) (d := outDeg G.nodes G.Edge u + inDeg G.nodes G.Edge u)
        (N := G.nodes.length) (by omega)
      exact ⟨_, degree_centrality_directed h hd hu, this.1, by simpa using this.2 two_ne_zero⟩
  · intro hd
    obtain ⟨vin, vout, e1, e2, hv⟩ := in_out_degree_centrality (F := F) h hd
    have h1 := degree_share (F := F) (c := 1) (by simpa using hi)
    have h2 := degree_share (F := F) (c := 1) (by simpa using ho)
    exact ⟨vin, vout, e1, e2, ⟨_, (hv u hu).1, h1.1, by simpa using h1.2 one_ne_zero⟩,
      _, (hv u hu).2, h2.1, by simpa using h2.2 one_ne_zero⟩

omit [DecidableEq K] in
theorem walk_one {E : K → K → Prop} {u v : K} : Walk E 1 u v ↔ E u v := by
  rw [walk_succ]
  constructor
  · rintro ⟨w, hw, e⟩
    rw [walk_zero] at hw
    subst hw; exact e
  · exact fun e => ⟨u, Walk.nil u, e⟩

/-- **C124.** `efficiency` of two different nodes lies between 0 and 1 -/
theorem efficiency_range (h : G.WF) {u v : K} (hu : G.Node u) (hv : G.Node v) (huv : u ≠ v) :
    ∃ x : F, efficiency G u v = .ok x ∧ 0 ≤ x ∧ x ≤ 1 ∧ (x = 1 ↔ G.Edge u v) ∧ (x = 0 ↔ ¬ Reach G.Edge u v) := by
  rcases efficiency_correct (F := F) h hu hv huv with ⟨d, hd, e⟩ | ⟨hno, e⟩
  · have hd0 : d ≠ 0 := by
      rintro rfl; exact huv (walk_zero.1 hd.1)
    have hp : (0 : F) < d := by exact_mod_cast Nat.pos_of_ne_zero hd0
    have h1 : (1 : F) ≤ d := by exact_mod_cast Nat.one_le_iff_ne_zero.2 hd0
    refine ⟨_, e, by positivity, (div_le_one hp).2 h1, ?_, ?_⟩
    · rw [div_eq_one_iff_eq hp.ne']
      constructor
      · intro e1
        have : d = 1 := by exact_mod_cast e1.symm
        subst this
        exact walk_one.1 hd.1
      · intro he
        have : d ≤ 1 := hd.2 1 (walk_one.2 he)
        have : d = 1 := by omega
        rw [this]; simp
    · constructor
      · intro e0
        exact absurd e0 (by positivity)
      · intro hn
        exact absurd ⟨d, hd.1⟩ hn
  · refine ⟨0, e, le_rfl, zero_le_one, ?_, by simp [hno]⟩
    constructor
    · intro e; exact absurd e.symm one_ne_zero
    · intro he; exact absurd ⟨1, walk_one.2 he⟩ hno

omit [Field F] [LinearOrder F] [IsStrictOrderedRing F] in
theorem mutual_le (u : K) :
    2 * mutualDeg G.nodes G.Edge u ≤ outDeg G.nodes G.Edge u + inDeg G.nodes G.Edge u := by
  have h1 : mutualDeg G.nodes G.Edge u ≤ outDeg G.nodes G.Edge u :=
    List.countP_mono_left fun v _ hv => by simp only [decide_eq_true_eq] at hv ⊢; exact hv.1
  have h2 : mutualDeg G.nodes G.Edge u ≤ inDeg G.nodes G.Edge u :=
    List.countP_mono_left fun v _ hv => by simp only [decide_eq_true_eq] at hv ⊢; exact hv.2
  omega

omit [Field F] [LinearOrder F] [IsStrictOrderedRing F] in
theorem recip_share (u : K) :
    0 ≤ 2 * (mutualDeg G.nodes G.Edge u : ℚ) / ((outDeg G.nodes G.Edge u : ℚ) + inDeg G.nodes G.Edge u) ∧
    2 * (mutualDeg G.nodes G.Edge u : ℚ) / ((outDeg G.nodes G.Edge u : ℚ) + inDeg G.nodes G.Edge u) ≤ 1 := by
  have := mutual_le (G := G) u
  have : 2 * (mutualDeg G.nodes G.Edge u : ℚ) ≤ (outDeg G.nodes G.Edge u : ℚ) + inDeg G.nodes G.Edge u := by
    exact_mod_cast this
  exact ⟨by positivity, div_le_one_of_le₀ this (by positivity)⟩

omit [Field F] [LinearOrder F] [IsStrictOrderedRing F] in
/-- **C124.** `reciprocity` of a node, of several nodes and of the graph lies between 0 and 1 -/
theorem reciprocity_range (h : G.WF) (hd : G.directed = true) :
    (∀ u x, G.Node u → reciprocityNode G u = .ok x → 0 ≤ x ∧ x ≤ 1) ∧
    (∀ l R u x, (∀ u ∈ l, G.Node u) → reciprocityNodes G l = .ok R → G.Node u → G.view R u = some x → 0 ≤ x ∧ x ≤ 1) ∧
    ∀ x, overallReciprocity G = .ok x → 0 ≤ x ∧ x ≤ 1 := by
  refine ⟨fun u x hu hx => ?_, fun l R u x hl hR hu hx => ?_, fun x hx => overall_reciprocity_bounds h hd hx⟩
  · rw [reciprocity_node_correct h hd hu] at hx
    split at hx
    · cases hx; exact recip_share u
    · cases hx
  · obtain ⟨R', e, hv⟩ := reciprocity_nodes_correct h hd hl
    rw [hR] at e; cases e
    rw [hv u hu] at hx
    split at hx
    · cases hx; exact recip_share u
    · cases hx

omit [DecidableEq K] [Field F] [LinearOrder F] [IsStrictOrderedRing F] in
theorem vol_le_edges (h : G.WF) (P : K → Prop) [DecidablePred P] [∀ u v, Decidable (G.Edge u v)] :
    vol G.nodes G.Edge P ≤ edgeCount G.nodes G.Edge := by
  unfold vol edgeCount
  rw [sumOver_nodes h, sumOver_nodes h]
  refine Finset.sum_le_sum fun i _ => ?_
  split
  · exact le_rfl
  · exact Nat.zero_le _

omit [Field F] [LinearOrder F] [IsStrictOrderedRing F] in
/-- **C124.** cut ratios of an undirected graph, when defined: the conductance lies in `[0, 1]`, the normalised cut size
in `[0, 2]`, the mixing expansion in `[0, 1]`. -/
theorem cut_ratios_range (h : G.WF) (hs : G.Symm) (hd : G.directed = false) (S : List K) (T : Option (List K)) :
    (∀ x, conductance G S T = .ok x → 0 ≤ x ∧ x ≤ 1) ∧
    (∀ x, normalizedCutSize G S T = .ok x → 0 ≤ x ∧ x ≤ 2) ∧
    ∀ x, mixingExpansion G S T = .ok x → 0 ≤ x ∧ x ≤ 1 := by
  have h1 := edgesFromTo_le_vol h (· ∈ S) (Other S T)
  have h2 := edgesFromTo_le_vol h (Other S T) (· ∈ S)
  rw [edgesFromTo_symm h hs] at h2
  have hc1 : cutCount G (· ∈ S) (Other S T) ≤ vol G.nodes G.Edge (· ∈ S) := by
    unfold cutCount; rw [hd]; exact h1
  have hc2 : cutCount G (· ∈ S) (Other S T) ≤ vol G.nodes G.Edge (Other S T) := by
    unfold cutCount; rw [hd]; exact h2
  refine ⟨fun x hx => conductance_bounds h hs hd S T hx, fun x hx => ?_, fun x hx => ?_⟩
  · rw [(conductance_correct h S T).2] at hx
    split at hx
    · cases hx
    · rename_i hne
      cases hx
      push Not at hne
      refine ⟨by positivity, ?_⟩
      have q1 : (cutCount G (· ∈ S) (Other S T) : ℚ) / (vol G.nodes G.Edge (· ∈ S) : ℚ) ≤ 1 :=
        div_le_one_of_le₀ (by exact_mod_cast hc1) (by positivity)
      have q2 : (cutCount G (· ∈ S) (Other S T) : ℚ) / (vol G.nodes G.Edge (Other S T) : ℚ) ≤ 1 :=
        div_le_one_of_le₀ (by exact_mod_cast hc2) (by positivity)
      rw [mul_add, mul_one_div, mul_one_div]
      linarith
  · rw [(edge_expansion_correct h (fun _ => hs) S T (fun _ => hd)).2] at hx
    unfold ratio at hx
    split at hx
    · cases hx
    · cases hx
      refine ⟨by positivity, div_le_one_of_le₀ ?_ (by positivity)⟩
      exact_mod_cast hc1.trans (vol_le_edges h _)

end degrees

/-! ### the hypotheses are met -/

theorem Ex.wtri_unit : UnitRoot id Ex.wtri where
  weights := by
    rintro u v w - ⟨i, j, -, -, hw⟩
    have : ∀ i j, ∀ b ∈ Ex.wtri.A i j, (0 : ℚ) ≤ b := by decide +kernel
    exact this i j w hw
  root := fun x h0 h1 => ⟨h0, h1⟩

example : UnitRoot id Ex.wtri ∧ MaxWeight Ex.wtri 8 ∧ wcoeff id Ex.wtri 8 1 = 1/64 :=
  ⟨Ex.wtri_unit, Ex.wtri_max, by decide +kernel⟩

/-- a node of a triangle of two-way edges reaches the upper bound -/
example : (∃ x, singleClusteringDirected Ex.fullLoops 5 = .ok x ∧ x = 1) ∧ dirTriPairs Ex.fullLoops.nodes Ex.fullLoops.Edge 5 = 16 := by
  refine ⟨⟨1, by decide +kernel, rfl⟩, by decide +kernel⟩

/-- a self-loop lifts the degree centrality above 1 -/
example : Ex.lineLoop.WF ∧ Ex.lineLoop.view (degreeCentrality Ex.lineLoop : Vec Ex.lineLoop.n ℚ) 1 = some 2 := by
  refine ⟨⟨by decide, by decide⟩, by decide +kernel⟩

example : (∃ x, efficiency (F := ℚ) Ex.ug 1 4 = .ok x ∧ x = 1/3) ∧ Ex.ug.WF :=
  ⟨⟨1/3, by decide +kernel, rfl⟩, ⟨by decide, by decide⟩⟩

end Props
