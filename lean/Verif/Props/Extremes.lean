import Verif.Props.Ranges
import Verif.Props.Monotone

/-!
# C125: what the end values of a normalised result say about the graph
-/

open GB Spec Model Model.Graph Proofs Proofs.Cluster
open Cluster (Asked)
open Proofs.Power

namespace Props

section lists
variable {V : Type} {N : List V}

theorem countOf_zero {p : V → Prop} [DecidablePred p] : countOf N p = 0 ↔ ∀ u ∈ N, ¬ p u := by
  unfold countOf; rw [List.countP_eq_zero]; simp

theorem sumOver_nat_zero {f : V → Nat} : sumOver N f = 0 ↔ ∀ u ∈ N, f u = 0 := by
  unfold sumOver; rw [List.sum_eq_zero_iff]; simp

theorem sumOver_eq_iff {f g : V → Nat} (h : ∀ u ∈ N, f u ≤ g u) :
    sumOver N f = sumOver N g ↔ ∀ u ∈ N, f u = g u := by
  unfold sumOver
  induction N with
  | nil => simp
  | cons a N ih =>
    have ih := ih fun u hu => h u (List.mem_cons_of_mem _ hu)
    have hle : (N.map f).sum ≤ (N.map g).sum :=
      List.sum_le_sum fun u hu => h u (List.mem_cons_of_mem _ hu)
    have ha := h a (List.mem_cons_self)
    simp only [List.map_cons, List.sum_cons, List.forall_mem_cons]
    rw [← ih]
    omega

theorem countOf_eq_iff {p q : V → Prop} [DecidablePred p] [DecidablePred q] (h : ∀ u ∈ N, p u → q u) :
    countOf N p = countOf N q ↔ ∀ u ∈ N, q u → p u := by
  unfold countOf
  induction N with
  | nil => simp
  | cons a N ih =>
    have ih := ih fun u hu => h u (List.mem_cons_of_mem _ hu)
    have hle : N.countP (fun u => decide (p u)) ≤ N.countP (fun u => decide (q u)) :=
      List.countP_mono_left fun u hu => by simpa using h u (List.mem_cons_of_mem _ hu)
    have ha := h a (List.mem_cons_self)
    simp only [List.countP_cons, List.forall_mem_cons]
    rw [← ih]
    by_cases hp : p a
    · simp [hp, ha hp]
    · by_cases hq : q a
      · simp [hp, hq]; omega
      · simp [hp, hq]

theorem countP_but [DecidableEq V] {p : V → Bool} {a : V} (ha : p a = true) :
    (N.countP fun b => decide (b ≠ a) && p b) + N.countP (fun u => decide (u = a)) = N.countP p := by
  induction N with
  | nil => rfl
  | cons b N ih =>
    simp only [List.countP_cons]
    by_cases hb : b = a
    · subst hb
      simp [ha] at ih ⊢
      omega
    · cases hp : p b <;> simp [hb] at ih ⊢ <;> omega

theorem countOf_but [DecidableEq V] {p : V → Prop} [DecidablePred p] {a : V} (ha : p a) :
    (countOf N fun b => b ≠ a ∧ p b) + N.countP (fun u => decide (u = a)) = countOf N p := by
  unfold countOf
  rw [← countP_but (N := N) (p := fun u => decide (p u)) (a := a) (by simpa using ha)]
  congr 2
  funext b
  exact Bool.decide_and _ _

/-- pairs of different neighbours -/
theorem wedges [DecidableEq V] (hN : N.Nodup) (E : V → V → Prop) [∀ u v, Decidable (E u v)] (v : V) :
    (sumOver N fun a => countOf N fun b => a ≠ b ∧ a ≠ v ∧ b ≠ v ∧ E v a ∧ E v b) =
      degree N E v * (degree N E v - 1) := by
  have key : ∀ a ∈ N, (countOf N fun b => a ≠ b ∧ a ≠ v ∧ b ≠ v ∧ E v a ∧ E v b) =
      if a ≠ v ∧ E v a then degree N E v - 1 else 0 := by
    intro a ha
    split_ifs with h
    · have h1 : (countOf N fun b => a ≠ b ∧ a ≠ v ∧ b ≠ v ∧ E v a ∧ E v b) + 1 = degree N E v := by
        unfold degree
        have h1 : N.countP (fun u => decide (u = a)) = 1 := by
          rw [← List.count_eq_one_of_mem hN ha]
          unfold List.count
          congr 1
        have e1 : (countOf N fun b => a ≠ b ∧ a ≠ v ∧ b ≠ v ∧ E v a ∧ E v b) =
            countOf N fun b => b ≠ a ∧ (b ≠ v ∧ E v b) := by
          unfold countOf
          congr 1
          funext b
          simp only [decide_eq_decide]
          exact ⟨fun x => ⟨x.1.symm, x.2.2.1, x.2.2.2.2⟩, fun x => ⟨x.1.symm, h.1, x.2.1, h.2, x.2.2⟩⟩
        rw [e1, ← h1]
        exact countOf_but h
      omega
    · rw [countOf_zero]
      rintro b - ⟨-, h1, -, h2, -⟩
      exact h ⟨h1, h2⟩
  have : (sumOver N fun a => countOf N fun b => a ≠ b ∧ a ≠ v ∧ b ≠ v ∧ E v a ∧ E v b) =
      sumOver N fun a => if a ≠ v ∧ E v a then degree N E v - 1 else 0 := by
    unfold sumOver; exact congrArg _ (List.map_congr_left key)
  rw [this]
  generalize degree N E v - 1 = c
  unfold sumOver degree countOf
  clear this key hN
  induction N with
  | nil => simp
  | cons a N ih =>
    simp only [List.map_cons, List.sum_cons, List.countP_cons, ih]
    by_cases h : a ≠ v ∧ E v a
    · simp [h]; ring
    · simp [h]

end lists

section cluster
variable {K α : Type} [DecidableEq K] {G : Graph K α}

/-- no two different neighbours of `u` are joined -/
def NoTriangle (G : Graph K α) (u : K) : Prop :=
  ∀ a b, a ≠ b → a ≠ u → b ≠ u → G.Edge u a → G.Edge u b → ¬ G.Edge a b

/-- any two different neighbours of `u` are joined -/
def AllJoined (G : Graph K α) (u : K) : Prop :=
  ∀ a b, a ≠ b → a ≠ u → b ≠ u → G.Edge u a → G.Edge u b → G.Edge a b

/-- `u` has two different neighbours (other than itself) -/
def TwoNeighbours (G : Graph K α) (u : K) : Prop :=
  ∃ a b, a ≠ b ∧ a ≠ u ∧ b ≠ u ∧ G.Edge u a ∧ G.Edge u b

theorem triPairs_zero (h : G.WF) {u : K} : triPairs G.nodes G.Edge u = 0 ↔ NoTriangle G u := by
  unfold triPairs
  rw [sumOver_nat_zero]
  constructor
  · intro hz a b hab ha hb e1 e2 e3
    exact countOf_zero.1 (hz a e1.node_right) b e2.node_right ⟨hab, ha, hb, e1, e2, e3⟩
  · intro hz a _
    rw [countOf_zero]
    rintro b - ⟨hab, ha, hb, e1, e2, e3⟩
    exact hz a b hab ha hb e1 e2 e3

theorem triPairs_full (h : G.WF) {u : K} :
    triPairs G.nodes G.Edge u = degree G.nodes G.Edge u * (degree G.nodes G.Edge u - 1) ↔ AllJoined G u := by
  rw [← wedges (nodes_nodup h)]
  unfold triPairs
  rw [sumOver_eq_iff fun a _ => countOf_grows (nodes_nodup h) (fun _ h => h) _ _
    fun b _ h => ⟨h.1, h.2.1, h.2.2.1, h.2.2.2.1, h.2.2.2.2.1⟩]
  constructor
  · intro hz a b hab ha hb e1 e2
    exact ((countOf_eq_iff fun b _ h => ⟨h.1, h.2.1, h.2.2.1, h.2.2.2.1, h.2.2.2.2.1⟩).1 (hz a e1.node_right) b
      e2.node_right ⟨hab, ha, hb, e1, e2⟩).2.2.2.2.2
  · intro hz a _
    rw [countOf_eq_iff fun b _ h => ⟨h.1, h.2.1, h.2.2.1, h.2.2.2.1, h.2.2.2.2.1⟩]
    rintro b - ⟨hab, ha, hb, e1, e2⟩
    exact ⟨hab, ha, hb, e1, e2, hz a b hab ha hb e1 e2⟩

theorem wedges_zero (h : G.WF) {u : K} :
    degree G.nodes G.Edge u * (degree G.nodes G.Edge u - 1) = 0 ↔ ¬ TwoNeighbours G u := by
  rw [← wedges (nodes_nodup h), sumOver_nat_zero]
  constructor
  · rintro hz ⟨a, b, hab, ha, hb, e1, e2⟩
    exact countOf_zero.1 (hz a e1.node_right) b e2.node_right ⟨hab, ha, hb, e1, e2⟩
  · intro hz a _
    rw [countOf_zero]
    rintro b - ⟨hab, ha, hb, e1, e2⟩
    exact hz ⟨a, b, hab, ha, hb, e1, e2⟩

theorem coeff_zero (h : G.WF) {u : K} (hu : G.Node u) : coeff G u = 0 ↔ NoTriangle G u := by
  rw [← triPairs_zero h]
  unfold coeff
  have hle := triPairs_le h hu
  rw [div_eq_zero_iff]
  constructor
  · rintro (e | e)
    · exact_mod_cast e
    · have : degree G.nodes G.Edge u * (degree G.nodes G.Edge u - 1) = 0 := by exact_mod_cast e
      omega
  · intro e; left; exact_mod_cast e

theorem coeff_one (h : G.WF) {u : K} : coeff G u = 1 ↔ TwoNeighbours G u ∧ AllJoined G u := by
  have hw := not_iff_not.2 (wedges_zero h (u := u))
  rw [not_not] at hw
  rw [← triPairs_full h, ← hw]
  unfold coeff
  generalize degree G.nodes G.Edge u * (degree G.nodes G.Edge u - 1) = D
  by_cases hD : D = 0
  · simp [hD]
  · have : (D : ℚ) ≠ 0 := by exact_mod_cast hD
    rw [div_eq_one_iff_eq this]
    simp only [hD, not_false_eq_true, true_and]
    exact_mod_cast Iff.rfl

/-- **C125.** `triangles(G, nodes)`: a node asked for gets 0 exactly when no two of its neighbours are joined. -/
theorem triangles_zero_iff (h : G.WF) (hs : G.Symm) {nodes : Option (List K)} {r}
    (hr : triangles G nodes = .ok r) (hn : ∀ l, nodes = some l → ∀ u ∈ l, G.Node u) {u : K} (hu : G.Node u)
    (ha : Asked nodes u) : G.view r u = some 0 ↔ NoTriangle G u := by
  obtain ⟨r', e, hv⟩ := triangles_correct h hs hn
  rw [hr] at e; cases e
  rw [hv, ← triPairs_zero h]
  exact ⟨fun x => by omega, fun x => ⟨⟨hu, ha⟩, by omega⟩⟩

/-- **C125.** `clustering(G, nodes)`: a node asked for gets 1 exactly when it has two neighbours and any two of
them are joined, and 0 exactly when no two of them are joined (self-loops play no part). -/
theorem clustering_extremes (h : G.WF) (hs : G.Symm) {nodes : Option (List K)} {r}
    (hr : clustering G nodes = .ok r) (hn : ∀ l, nodes = some l → ∀ u ∈ l, G.Node u) {u : K} (hu : G.Node u)
    (ha : Asked nodes u) :
    (G.view r u = some 1 ↔ TwoNeighbours G u ∧ AllJoined G u) ∧ (G.view r u = some 0 ↔ NoTriangle G u) := by
  obtain ⟨r', e, hv⟩ := clustering_correct h hs hn
  rw [hr] at e; cases e
  rw [hv, hv, ← coeff_one h, ← coeff_zero h hu]
  exact ⟨⟨fun x => x.2.symm, fun x => ⟨⟨hu, ha⟩, x.symm⟩⟩, fun x => x.2.symm, fun x => ⟨⟨hu, ha⟩, x.symm⟩⟩

/-- **C125.** the same for one node -/
theorem single_clustering_extremes (h : G.WF) (hs : G.Symm) {u : K} (hu : G.Node u) :
    (singleClustering G u = .ok 1 ↔ TwoNeighbours G u ∧ AllJoined G u) ∧
    (singleClustering G u = .ok 0 ↔ NoTriangle G u) := by
  rw [single_clustering_correct h hs hu, ← coeff_one h, ← coeff_zero h hu]
  exact ⟨⟨fun e => by injection e, fun e => by rw [e]⟩, fun e => by injection e, fun e => by rw [e]⟩

/-- **C125.** `transitivity(G)` is 0 exactly when the graph has no triangle, and 1 exactly when it has a path of two
edges and every such path is closed by a third edge. -/
theorem transitivity_extremes (h : G.WF) (hs : G.Symm) :
    (transitivity G = 0 ↔ ∀ u, NoTriangle G u) ∧
    (transitivity G = 1 ↔ (∃ u, TwoNeighbours G u) ∧ ∀ u, AllJoined G u) := by
  have hle : ∀ u ∈ G.nodes, triPairs G.nodes G.Edge u ≤ degree G.nodes G.Edge u * (degree G.nodes G.Edge u - 1) :=
    fun u hu => triPairs_le h hu
  rw [(transitivity_correct h hs).1]
  have hN : (sumOver G.nodes fun u => triPairs G.nodes G.Edge u) = 0 ↔ ∀ u, NoTriangle G u := by
    rw [sumOver_nat_zero]
    constructor
    · intro hz u a b hab ha hb e1 e2
      exact (triPairs_zero h).1 (hz u e1.node_left) a b hab ha hb e1 e2
    · intro hz u _; exact (triPairs_zero h).2 (hz u)
  have hD : (sumOver G.nodes fun u => degree G.nodes G.Edge u * (degree G.nodes G.Edge u - 1)) = 0 ↔
      ¬ ∃ u, TwoNeighbours G u := by
    rw [sumOver_nat_zero]
    constructor
    · rintro hz ⟨u, hw⟩
      obtain ⟨a, b, hab, ha, hb, e1, e2⟩ := hw
      exact (wedges_zero h).1 (hz u e1.node_left) ⟨a, b, hab, ha, hb, e1, e2⟩
    · intro hz u _; exact (wedges_zero h).2 fun hw => hz ⟨u, hw⟩
  have hND : (sumOver G.nodes fun u => triPairs G.nodes G.Edge u) =
      (sumOver G.nodes fun u => degree G.nodes G.Edge u * (degree G.nodes G.Edge u - 1)) ↔ ∀ u, AllJoined G u := by
    rw [sumOver_eq_iff hle]
    constructor
    · intro hz u a b hab ha hb e1 e2
      exact (triPairs_full h).1 (hz u e1.node_left) a b hab ha hb e1 e2
    · intro hz u _; exact (triPairs_full h).2 (hz u)
  have hNle := sumOver_grows (nodes_nodup h) (fun _ h => h) _ _ hle
  rw [← hN, ← hND]
  generalize (sumOver G.nodes fun u => degree G.nodes G.Edge u * (degree G.nodes G.Edge u - 1)) = D at *
  generalize (sumOver G.nodes fun u => triPairs G.nodes G.Edge u) = T at *
  have hD' := not_iff_not.2 hD
  rw [not_not] at hD'
  rw [← hD']
  constructor
  · rw [div_eq_zero_iff]
    constructor
    · rintro (e | e)
      · exact_mod_cast e
      · have : D = 0 := by exact_mod_cast e
        omega
    · intro e; left; exact_mod_cast e
  · by_cases hz : D = 0
    · simp [hz]
    · have : (D : ℚ) ≠ 0 := by exact_mod_cast hz
      rw [div_eq_one_iff_eq this]
      simp only [hz, not_false_eq_true, true_and]
      exact_mod_cast Iff.rfl

end cluster

section degrees
variable {K α F : Type} [DecidableEq K] [Field F] [LinearOrder F] [IsStrictOrderedRing F] {G : Graph K α}

theorem count_others {N : List K} (hN : N.Nodup) {u : K} (hu : u ∈ N) : (countOf N fun v => v ≠ u) = N.length - 1 := by
  have h1 : (countOf N fun v => v ≠ u) + N.countP (fun v => decide (v = u)) = N.length := by
    unfold countOf
    rw [List.length_eq_countP_add_countP (fun v => decide (v ≠ u))]
    simp
  have h2 : N.countP (fun v => decide (v = u)) = 1 := by
    rw [← List.count_eq_one_of_mem hN hu]
    unfold List.count
    congr 1
  omega

theorem share_extremes {n d : Nat} (hn : 2 ≤ n) :
    ((if n ≤ 1 then (1 : F) else (d : F) / ((n : F) - 1)) = 1 ↔ d = n - 1) ∧
    ((if n ≤ 1 then (1 : F) else (d : F) / ((n : F) - 1)) = 0 ↔ d = 0) := by
  have h1 : ¬ n ≤ 1 := by omega
  have hc : ((n : F) - 1) = ((n - 1 : Nat) : F) := by rw [Nat.cast_sub (by omega)]; simp
  have h2 : ((n - 1 : Nat) : F) ≠ 0 := by exact_mod_cast (by omega : n - 1 ≠ 0)
  rw [if_neg h1, hc]
  constructor
  · rw [div_eq_one_iff_eq h2]; exact_mod_cast Iff.rfl
  · rw [div_eq_zero_iff]; simp only [h2, or_false]; exact_mod_cast Iff.rfl

theorem outDeg_full (h : G.WF) {u : K} (hu : G.Node u) (hno : ¬ G.Edge u u) :
    outDeg G.nodes G.Edge u = G.nodes.length - 1 ↔ ∀ v, G.Node v → v ≠ u → G.Edge u v := by
  rw [← count_others (nodes_nodup h) hu]
  unfold outDeg
  rw [countOf_eq_iff (by rintro v - e rfl; exact hno e)]
  rfl

theorem inDeg_full (h : G.WF) {u : K} (hu : G.Node u) (hno : ¬ G.Edge u u) :
    inDeg G.nodes G.Edge u = G.nodes.length - 1 ↔ ∀ v, G.Node v → v ≠ u → G.Edge v u := by
  rw [← count_others (nodes_nodup h) hu]
  unfold inDeg
  rw [countOf_eq_iff (by rintro v - e rfl; exact hno e)]
  rfl

theorem outDeg_zero {u : K} : outDeg G.nodes G.Edge u = 0 ↔ ∀ v, ¬ G.Edge u v := by
  unfold outDeg; rw [countOf_zero]
  exact ⟨fun hz v e => hz v e.node_right e, fun hz v _ => hz v⟩

theorem inDeg_zero {u : K} : inDeg G.nodes G.Edge u = 0 ↔ ∀ v, ¬ G.Edge v u := by
  unfold inDeg; rw [countOf_zero]
  exact ⟨fun hz v e => hz v e.node_left e, fun hz v _ => hz v⟩

/-- **C125.** degree centralities, in a graph of at least two nodes: 1 (for a node without self-loop) means joined
to every other node, 0 means joined to none. -/
theorem degree_centrality_extremes (h : G.WF) (h2 : 2 ≤ G.nodes.length) {u : K} (hu : G.Node u) :
    (G.directed = false → (G.view (degreeCentrality G : Vec G.n F) u = some 0 ↔ ∀ v, ¬ G.Edge u v) ∧
      (¬ G.Edge u u → (G.view (degreeCentrality G : Vec G.n F) u = some 1 ↔ ∀ v, G.Node v → v ≠ u → G.Edge u v))) ∧
    (G.directed = true → (G.view (degreeCentrality G : Vec G.n F) u = some 0 ↔ Isolated G.Edge u) ∧
      ∃ vin vout : Vec G.n F, inDegreeCentrality G = .ok vin ∧ outDegreeCentrality G = .ok vout ∧
        (G.view vin u = some 0 ↔ ∀ v, ¬ G.Edge v u) ∧ (G.view vout u = some 0 ↔ ∀ v, ¬ G.Edge u v) ∧
        (¬ G.Edge u u → (G.view vin u = some 1 ↔ ∀ v, G.Node v → v ≠ u → G.Edge v u) ∧
          (G.view vout u = some 1 ↔ ∀ v, G.Node v → v ≠ u → G.Edge u v))) := by
  constructor
  · intro hd
    rw [degree_centrality_undirected h hd hu, Option.some_inj, Option.some_inj, (share_extremes h2).1, (share_extremes h2).2]
    exact ⟨outDeg_zero, fun hno => outDeg_full h hu hno⟩
  · intro hd
    obtain ⟨vin, vout, e1, e2, hv⟩ := in_out_degree_centrality (F := F) h hd
    rw [degree_centrality_directed h hd hu, Option.some_inj, (share_extremes h2).2]
    refine ⟨?_, vin, vout, e1, e2, ?_⟩
    · rw [Nat.add_eq_zero_iff, outDeg_zero, inDeg_zero]
      exact ⟨fun hz v => ⟨hz.1 v, hz.2 v⟩, fun hz => ⟨fun v => (hz v).1, fun v => (hz v).2⟩⟩
    · rw [(hv u hu).1, (hv u hu).2]
      simp only [Option.some_inj]
      rw [(share_extremes h2).1, (share_extremes h2).2, (share_extremes h2).1, (share_extremes h2).2]
      exact ⟨inDeg_zero, outDeg_zero, fun hno => ⟨inDeg_full h hu hno, outDeg_full h hu hno⟩⟩

/-- **C125.** `overall_reciprocity(G)`: 0 exactly when no edge between two different nodes is answered, 1 exactly when
there is an edge, no edge is a self-loop, and every edge is answered. -/
theorem overall_reciprocity_extremes (h : G.WF) (hd : G.directed = true) {x : ℚ} (hx : overallReciprocity G = .ok x) :
    (x = 0 ↔ ∀ u v, u ≠ v → G.Edge u v → ¬ G.Edge v u) ∧
    (x = 1 ↔ ∀ u v, G.Edge u v → u ≠ v ∧ G.Edge v u) := by
  rw [overall_reciprocity_correct h hd] at hx
  split at hx
  · cases hx
  rename_i h0
  cases hx
  have hc : (edgeCount G.nodes G.Edge : ℚ) ≠ 0 := by exact_mod_cast h0
  constructor
  · rw [div_eq_zero_iff]
    simp only [hc, or_false, Nat.cast_eq_zero]
    unfold mutualEdges
    rw [sumOver_nat_zero]
    constructor
    · intro hz u v huv e e'
      exact countOf_zero.1 (hz u e.node_left) v e.node_right ⟨huv, e, e'⟩
    · intro hz u _
      rw [countOf_zero]
      rintro v - ⟨huv, e, e'⟩
      exact hz u v huv e e'
  · rw [div_eq_one_iff_eq hc, Nat.cast_inj]
    unfold mutualEdges edgeCount outDeg
    have hle : ∀ u ∈ G.nodes, ∀ v ∈ G.nodes, u ≠ v ∧ G.Edge u v ∧ G.Edge v u → G.Edge u v := fun _ _ _ _ h => h.2.1
    rw [sumOver_eq_iff fun u hu => countOf_grows (nodes_nodup h) (fun _ h => h) _ _ (hle u hu)]
    constructor
    · intro hz u v e
      have := (countOf_eq_iff (hle u e.node_left)).1 (hz u e.node_left) v e.node_right e
      exact ⟨this.1, this.2.2⟩
    · intro hz u hu
      rw [countOf_eq_iff (hle u hu)]
      exact fun v _ e => ⟨(hz u v e).1, e, (hz u v e).2⟩

theorem edgesFromTo_zero (h : G.WF) {P Q : K → Prop} [DecidablePred P] [DecidablePred Q] :
    edgesFromTo G.nodes G.Edge P Q = 0 ↔ ∀ u v, P u → Q v → ¬ G.Edge u v := by
  unfold edgesFromTo
  rw [sumOver_nat_zero]
  constructor
  · intro hz u v hp hq e
    exact countOf_zero.1 (hz u e.node_left) v e.node_right ⟨hp, hq, e⟩
  · intro hz u _
    rw [countOf_zero]
    rintro v - ⟨hp, hq, e⟩
    exact hz u v hp hq e

/-- **C125.** `cut_size(G, S, T)` is 0 exactly when no edge joins `S` and `T`; `volume(G, S)` is 0 exactly when no
edge leaves a node of `S`. -/
theorem cut_volume_zero (h : G.WF) (hs : G.directed = false → G.Symm) (S T : List K) :
    (cutSize G S (some T) = .ok 0 ↔ ∀ u ∈ S, ∀ v ∈ T, ¬ G.Edge u v ∧ ¬ G.Edge v u) ∧
    ((∀ u ∈ S, G.Node u) → (volume G S = .ok 0 ↔ ∀ u ∈ S, ∀ v, ¬ G.Edge u v)) := by
  constructor
  · rw [cut_size_correct h]
    have inj : ∀ {a : Nat}, (Except.ok a : Except Err Nat) = .ok 0 ↔ a = 0 := fun {a} =>
      ⟨fun e => by injection e, fun e => by rw [e]⟩
    rw [inj, Nat.add_eq_zero_iff, edgesFromTo_zero h]
    cases hd : G.directed with
    | true =>
      rw [if_pos rfl, edgesFromTo_zero h]
      exact ⟨fun hz u hu v hv => ⟨hz.1 u v hu hv, hz.2 v u hv hu⟩,
        fun hz => ⟨fun u v hu hv => (hz u hu v hv).1, fun u v hu hv => (hz v hv u hu).2⟩⟩
    | false =>
      rw [if_neg (by simp)]
      simp only [and_true]
      exact ⟨fun hz u hu v hv => ⟨hz u v hu hv, fun e => hz u v hu hv ((Proofs.Bfs.edge_symm h (hs hd)).1 e)⟩,
        fun hz u v hu hv => (hz u hu v hv).1⟩
  · intro hS
    rw [volume_correct h hS]
    have inj : ∀ {a : Nat}, (Except.ok a : Except Err Nat) = .ok 0 ↔ a = 0 := fun {a} =>
      ⟨fun e => by injection e, fun e => by rw [e]⟩
    rw [inj]
    unfold vol
    rw [sumOver_nat_zero]
    constructor
    · intro hz u hu
      have := hz u (hS u hu)
      rw [if_pos hu] at this
      exact outDeg_zero.1 this
    · intro hz u _
      split_ifs with hu
      · exact outDeg_zero.2 (hz u hu)
      · rfl

end degrees

section means
variable {K : Type} [DecidableEq K]

theorem sumOver_eq_iff' {F : Type} [Field F] [LinearOrder F] [IsStrictOrderedRing F] {N : List K} {f g : K → F}
    (h : ∀ u ∈ N, f u ≤ g u) : sumOver N f = sumOver N g ↔ ∀ u ∈ N, f u = g u := by
  unfold sumOver
  induction N with
  | nil => simp
  | cons a N ih =>
    have ih := ih fun u hu => h u (List.mem_cons_of_mem _ hu)
    have hle : (N.map f).sum ≤ (N.map g).sum :=
      List.sum_le_sum fun u hu => h u (List.mem_cons_of_mem _ hu)
    have ha := h a (List.mem_cons_self)
    simp only [List.map_cons, List.sum_cons, List.forall_mem_cons]
    rw [← ih]
    constructor
    · intro e
      exact ⟨le_antisymm ha (by linarith), le_antisymm hle (by linarith)⟩
    · rintro ⟨e1, e2⟩; rw [e1, e2]

theorem meanOf_extremes {L : List K} {f : K → ℚ} (hf : ∀ v ∈ L, 0 ≤ f v ∧ f v ≤ 1) {x : ℚ}
    (hx : meanOf L f = .ok x) : (x = 0 ↔ ∀ v ∈ L, f v = 0) ∧ (x = 1 ↔ ∀ v ∈ L, f v = 1) := by
  unfold meanOf at hx
  split at hx
  · cases hx
  rename_i h0
  cases hx
  have hc : (L.length : ℚ) ≠ 0 := by exact_mod_cast h0
  have e0 : sumOver L (fun _ => (0 : ℚ)) = 0 := by simp [sumOver]
  have e1 : sumOver L (fun _ => (1 : ℚ)) = L.length := by simp [sumOver]
  constructor
  · rw [div_eq_zero_iff]
    simp only [hc, or_false]
    have := sumOver_eq_iff' (f := fun _ => (0 : ℚ)) fun u hu => (hf u hu).1
    rw [e0] at this
    rw [eq_comm, this]
    exact forall₂_congr fun u _ => eq_comm
  · rw [div_eq_one_iff_eq hc, ← e1, sumOver_eq_iff' fun u hu => (hf u hu).2]

variable {α : Type} {G : Graph K α}

theorem mem_averaged {nodes : Option (List K)} (hn : ∀ l, nodes = some l → ∀ u ∈ l, G.Node u) {u : K} :
    u ∈ averagedOver G nodes ↔ G.Node u ∧ Asked nodes u := by
  cases nodes with
  | none => exact ⟨fun hu => ⟨hu, by simp [Asked]⟩, fun hu => hu.1⟩
  | some l => simpa [averagedOver, Asked] using fun hu => hn l rfl u hu

/-- **C125.** `average_clustering(G, nodes)`: 1 exactly when every node averaged over has two neighbours and any two
of its neighbours are joined; 0 exactly when no two neighbours of any of them are joined. -/
theorem average_clustering_extremes (h : G.WF) (hd : G.directed = false) (hs : G.Symm)
    {nodes : Option (List K)} (hn : ∀ l, nodes = some l → ∀ u ∈ l, G.Node u) {x : ℚ}
    (hx : averageClustering G nodes true = .ok x) :
    (x = 0 ↔ ∀ u, G.Node u → Asked nodes u → NoTriangle G u) ∧
    (x = 1 ↔ ∀ u, G.Node u → Asked nodes u → TwoNeighbours G u ∧ AllJoined G u) := by
  rw [average_clustering_correct h hd hs hn] at hx
  split at hx
  · cases hx
  · have := meanOf_extremes (fun v hv => ⟨(clustering_bounds h (averaged_node hn hv)).1,
      (clustering_bounds h (averaged_node hn hv)).2.1⟩) hx
    rw [this.1, this.2]
    constructor
    · refine ⟨fun e u hu ha => (coeff_zero h hu).1 (e u ((mem_averaged hn).2 ⟨hu, ha⟩)), fun e u hu => ?_⟩
      obtain ⟨hu, ha⟩ := (mem_averaged hn).1 hu
      exact (coeff_zero h hu).2 (e u hu ha)
    · refine ⟨fun e u hu ha => (coeff_one h).1 (e u ((mem_averaged hn).2 ⟨hu, ha⟩)), fun e u hu => ?_⟩
      obtain ⟨hu, ha⟩ := (mem_averaged hn).1 hu
      exact (coeff_one h).2 (e u hu ha)

end means

section ranks
variable {K F : Type} [DecidableEq K] [Field F] [LinearOrder F] [IsStrictOrderedRing F] {G : Graph K F}

/-- **C125.** `pagerank(G, alpha, personalization)`: every node keeps its share `(1 - alpha) p(u)` of the jumps, where
`p` is the personalization divided by its sum, or uniform. -/
theorem pagerank_floor (h : G.WF) (hE : ∃ u v, G.Edge u v) {iso : Option F}
    {pers nstart dangling : Option (List (K × F))} (ha : PRArgs G iso pers nstart dangling)
    {alpha : F} (hs : PRNonneg G alpha pers nstart dangling) (maxIter : Int) (tol : F) {r : Vec G.n F}
    (hR : pagerank G iso alpha pers maxIter tol nstart dangling = .ok (some r)) {u : K} (hu : G.Node u) :
    ∃ x, G.view r u = some x ∧ (1 - alpha) * distOf G.nodes pers (uniform G.nodes) u ≤ x := by
  obtain ⟨k, -, ⟨r', hr, hv⟩, -⟩ := (pagerank_correct h hE ha alpha maxIter tol).1 _ hR
  cases hr
  refine ⟨_, hv u hu, ?_⟩
  have hp := fun v => distOf_nonneg (N := G.nodes) hs.pers (uniform_nonneg G.nodes) v
  have hd := fun v => distOf_nonneg (N := G.nodes) hs.dangling hp v
  have step : ∀ x : K → F, (∀ v, 0 ≤ x v) → ∀ v, (1 - alpha) * distOf G.nodes pers (uniform G.nodes) v ≤
      prT G alpha pers dangling x v := by
    intro x hx v
    unfold prT
    rw [prMap_tr]
    exact le_add_of_nonneg_left (mul_nonneg hs.alpha0 (sumOver_nonneg fun z _ =>
        mul_nonneg (hx z) (tr_nonneg h hs.weights hd z v)))
  rw [Function.iterate_succ_apply']
  refine step _ (iterate_nonneg (fun x hx v => ?_) (fun v => distOf_nonneg hs.nstart (uniform_nonneg _) v) k) u
  exact (mul_nonneg (sub_nonneg.2 hs.alpha1) (hp v)).trans (step x hx v)

/-- **C125.** with `alpha < 1` and without personalization every node has a positive rank -/
theorem pagerank_positive (h : G.WF) (hE : ∃ u v, G.Edge u v) {iso : Option F}
    {nstart dangling : Option (List (K × F))} (ha : PRArgs G iso none nstart dangling)
    {alpha : F} (hs : PRNonneg G alpha none nstart dangling) (h1 : alpha < 1) (maxIter : Int) (tol : F) {r : Vec G.n F}
    (hR : pagerank G iso alpha none maxIter tol nstart dangling = .ok (some r)) {u : K} (hu : G.Node u) :
    ∃ x, G.view r u = some x ∧ (1 - alpha) / G.nodes.length ≤ x ∧ 0 < x := by
  obtain ⟨x, hx, hle⟩ := pagerank_floor h hE ha hs maxIter tol hR hu
  have hle' : (1 - alpha) / G.nodes.length ≤ x := by
    have e : (1 - alpha) / (G.nodes.length : F) = (1 - alpha) * distOf G.nodes none (uniform G.nodes) u := by
      simp [distOf, uniform, div_eq_mul_inv]
    rw [e]; exact hle
  have hpos : (0 : F) < G.nodes.length := by
    have : 0 < G.nodes.length := List.length_pos_of_mem hu
    exact_mod_cast this
  exact ⟨x, hx, hle', (div_pos (sub_pos.2 h1) hpos).trans_le hle'⟩

end ranks

/-! ### the statements are about something -/

/-- a triangle 1-2-3 (with a self-loop at 1) and a tail 3-4 -/
def Ex.kite : Graph Nat Int where
  n := 4
  A := Ex.ofTriples 4 [(0,1,1), (1,0,1), (0,2,1), (2,0,1), (1,2,1), (2,1,1), (2,3,1), (3,2,1), (0,0,1)]
  keyToId := [(4,3),(1,0),(2,1),(3,2)]
  directed := false

example : Ex.kite.WF ∧ (∀ i j, Ex.kite.A i j = Ex.kite.A j i) ∧ singleClustering Ex.kite 1 = .ok 1 ∧
    singleClustering Ex.kite 3 = .ok (1/3) ∧ singleClustering Ex.kite 4 = .ok 0 ∧
    averageClustering Ex.kite (some [1, 2]) true = .ok 1 ∧ averageClustering Ex.kite (some [4]) true = .ok 0 ∧
    Ex.kite.view (degreeCentrality Ex.kite : Vec Ex.kite.n ℚ) 3 = some 1 ∧
    cutSize Ex.kite [1, 2] (some [4]) = .ok 0 := by
  refine ⟨⟨by decide, by decide⟩, ?_, ?_, ?_, ?_, ?_, ?_, ?_, ?_⟩ <;> decide +kernel

example : prG.WF ∧ PRArgs prG none (some [(1, 1), (3, 3)]) none (some [(2, 2)]) ∧
    PRNonneg prG (1/2) (some [(1, 1), (3, 3)]) none (some [(2, 2)]) ∧
    (1 - 1/2 : ℚ) * distOf prG.nodes (some [(1, 1), (3, 3)]) (uniform prG.nodes) 3 = 3/8 :=
  ⟨prG_wf, prG_args, prG_nonneg, by decide +kernel⟩

/-- a digraph whose edges are all answered -/
def Ex.pair : Graph Nat Int where
  n := 3
  A := Ex.ofTriples 3 [(0,1,1), (1,0,1)]
  keyToId := [(1,0),(2,1),(3,2)]
  directed := true

example : Ex.pair.WF ∧ overallReciprocity Ex.pair = .ok 1 := by
  refine ⟨⟨by decide, by decide⟩, by decide +kernel⟩

end Props
