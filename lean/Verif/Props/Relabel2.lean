import Verif.Props.Relabel
import Verif.Props.Cluster
import Verif.Props.ClusterDir
import Verif.Props.Square
import Verif.Props.GenDegree
import Verif.Props.Truss
import Verif.Props.Cuts
import Verif.Props.Small
import Verif.Props.Small2
import Verif.Proofs.NodeMap

/-!
# C82 Results do not depend on node names or on the internal numbering: counting algorithms
-/

open GB Spec Model Model.Graph Proofs Proofs.Cluster

namespace Props

variable {K K' α : Type} [DecidableEq K] [DecidableEq K'] {f : K → K'} {G : Graph K α} {H : Graph K' α}

omit [DecidableEq K] [DecidableEq K'] in
theorem asked_map (hf : Function.Injective f) (nodes : Option (List K)) (u : K) :
    Asked (nodes.map (List.map f)) (f u) ↔ Asked nodes u := by
  cases nodes with
  | none => simp [Asked]
  | some l => simp [Asked, hf.eq_iff]

omit [DecidableEq K] [DecidableEq K'] in
theorem nodes_map_ok (h : Relabels f G H) {nodes : Option (List K)}
    (hn : ∀ l, nodes = some l → ∀ u ∈ l, G.Node u) :
    ∀ l, nodes.map (List.map f) = some l → ∀ x ∈ l, H.Node x := by
  intro l hl x hx
  cases nodes with
  | none => cases hl
  | some l0 =>
    cases hl
    obtain ⟨u, hu, rfl⟩ := List.mem_map.1 hx
    exact (Relabel.node' h).2 (hn l0 rfl u hu)

/-! ### triangles, clustering -/

theorem coeff_relabel (h : Relabels f G H) (hG : G.WF) (hH : H.WF) (u : K) : coeff H (f u) = coeff G u := by
  unfold coeff
  rw [Relabel.triPairs h hG hH, Relabel.degree h hG hH]

theorem dirCoeff_relabel (h : Relabels f G H) (hG : G.WF) (hH : H.WF) (u : K) :
    dirCoeff H (f u) = dirCoeff G u := by
  unfold dirCoeff
  rw [Relabel.dirTriPairs h hG hH, Relabel.totalDegree h hG hH, Relabel.recipDegree h hG hH]

/-- **C82.** `triangles` of all nodes or of a list of nodes -/
theorem relabel_triangles (h : Relabels f G H) (hG : G.WF) (hH : H.WF) (hs : G.Symm)
    {nodes : Option (List K)} (hn : ∀ l, nodes = some l → ∀ u ∈ l, G.Node u) :
    Agree (SameMap f G H) (triangles G nodes) (triangles H (nodes.map (List.map f))) := by
  obtain ⟨r, e, hr⟩ := triangles_correct hG hs hn
  obtain ⟨r', e', hr'⟩ := triangles_correct hH (Relabel.symm h hH hs) (nodes_map_ok h hn)
  exact Agree.oks e e' (sameMap_of hr hr' fun u d => by
    rw [Relabel.node' h, asked_map h.inj, Relabel.triPairs h hG hH])

/-- **C82.** `transitivity` -/
theorem relabel_transitivity (h : Relabels f G H) (hG : G.WF) (hH : H.WF) :
    (G.Symm → transitivity H = transitivity G) ∧ transitivityDirected H = transitivityDirected G := by
  constructor
  · intro hs
    rw [(transitivity_correct hG hs).1, (transitivity_correct hH (Relabel.symm h hH hs)).1,
      Relabel.sumOver_eq h hG hH, Relabel.sumOver_eq h hG hH]
    simp only [Relabel.triPairs h hG hH, Relabel.degree h hG hH]
  · rw [(transitivity_directed_correct hG).1, (transitivity_directed_correct hH).1,
      Relabel.sumOver_eq h hG hH, Relabel.sumOver_eq h hG hH]
    simp only [Relabel.triPairs h hG hH, Relabel.degree h hG hH]

/-- **C82.** `clustering` of an undirected graph -/
theorem relabel_clustering (h : Relabels f G H) (hG : G.WF) (hH : H.WF) (hs : G.Symm)
    {nodes : Option (List K)} (hn : ∀ l, nodes = some l → ∀ u ∈ l, G.Node u) :
    Agree (SameMap f G H) (clustering G nodes) (clustering H (nodes.map (List.map f))) := by
  obtain ⟨r, e, hr⟩ := clustering_correct hG hs hn
  obtain ⟨r', e', hr'⟩ := clustering_correct hH (Relabel.symm h hH hs) (nodes_map_ok h hn)
  exact Agree.oks e e' (sameMap_of hr hr' fun u d => by
    rw [Relabel.node' h, asked_map h.inj, coeff_relabel h hG hH])

/-- **C82.** `clustering` of a digraph (without self-loops) -/
theorem relabel_clustering_directed (h : Relabels f G H) (hG : G.WF) (hH : H.WF) (hno : ∀ u, ¬ G.Edge u u)
    {nodes : Option (List K)} (hn : ∀ l, nodes = some l → ∀ u ∈ l, G.Node u) :
    Agree (SameMap f G H) (clusteringDirected G nodes) (clusteringDirected H (nodes.map (List.map f))) := by
  have hno' : ∀ x, ¬ H.Edge x x := by
    intro x e
    obtain ⟨u, v, hu, hv, e⟩ := Relabel.edge_exists h e
    rw [h.inj (hu.trans hv.symm)] at e
    exact hno v e
  obtain ⟨r, e, hr⟩ := directed_clustering_correct_partial hG hno hn
  obtain ⟨r', e', hr'⟩ := directed_clustering_correct_partial hH hno' (nodes_map_ok h hn)
  exact Agree.oks e e' (sameMap_of hr hr' fun u d => by
    rw [Relabel.node' h, asked_map h.inj, dirCoeff_relabel h hG hH])

/-- **C82.** `clustering(G, node)` -/
theorem relabel_clustering_single (h : Relabels f G H) (hG : G.WF) (hH : H.WF) {u : K} (hu : G.Node u) :
    (G.Symm → singleClustering H (f u) = singleClustering G u) ∧
    singleClusteringDirected H (f u) = singleClusteringDirected G u := by
  constructor
  · intro hs
    rw [single_clustering_correct hG hs hu,
      single_clustering_correct hH (Relabel.symm h hH hs) ((Relabel.node' h).2 hu), coeff_relabel h hG hH]
  · rw [single_directed_clustering_correct hG hu,
      single_directed_clustering_correct hH ((Relabel.node' h).2 hu), dirCoeff_relabel h hG hH]

omit [DecidableEq K] [DecidableEq K'] in
theorem meanOf_perm {F : Type} [Field F] {L : List K} {L' : List K'} {g : K → F} {g' : K' → F}
    (hp : L'.Perm (L.map f)) (hg : ∀ u, g' (f u) = g u) : meanOf L' g' = meanOf L g := by
  unfold meanOf
  rw [hp.length_eq, List.length_map, sumOver_perm hp]
  unfold sumOver
  rw [List.map_map]
  congr 4
  exact List.map_congr_left fun u _ => hg u

theorem averagedOver_perm (h : Relabels f G H) (hG : G.WF) (hH : H.WF) (nodes : Option (List K)) :
    (averagedOver H (nodes.map (List.map f))).Perm ((averagedOver G nodes).map f) := by
  cases nodes with
  | none => exact Relabel.nodes_perm h hG hH
  | some l =>
    show (l.map f).dedup.Perm (l.dedup.map f)
    refine (List.perm_ext_iff_of_nodup (List.nodup_dedup _) ((List.nodup_dedup _).map h.inj)).2 ?_
    intro x; simp

/-- **C82.** `average_clustering` of an undirected graph -/
theorem relabel_average_clustering (h : Relabels f G H) (hG : G.WF) (hH : H.WF) (hd : G.directed = false)
    (hs : G.Symm) {nodes : Option (List K)} (hn : ∀ l, nodes = some l → ∀ u ∈ l, G.Node u) (z : Bool) :
    averageClustering H (nodes.map (List.map f)) z = averageClustering G nodes z := by
  rw [average_clustering_correct hG hd hs hn, average_clustering_correct hH (h.directed.trans hd)
    (Relabel.symm h hH hs) (nodes_map_ok h hn), show H.n = G.n from relabel_len h hG hH]
  congr 1
  have hp := averagedOver_perm h hG hH nodes
  refine meanOf_perm (f := f) ?_ (coeff_relabel h hG hH)
  cases z with
  | true => exact hp
  | false =>
    simp only [Bool.false_eq_true, if_false]
    refine (hp.filter _).trans (List.Perm.of_eq ?_)
    rw [List.filter_map]
    congr 1
    refine List.filter_congr fun u _ => ?_
    simp [coeff_relabel h hG hH]

/-! ### squares, generalised degree -/

theorem squareCoeff_relabel {G : Graph K α} {H : Graph K' α} (h : Relabels f G H) (hG : G.WF) (hH : H.WF) (u : K) :
    squarePairs H.nodes H.Edge (f u) = squarePairs G.nodes G.Edge u ∧
    squareCoeff H.nodes H.Edge (f u) = squareCoeff G.nodes G.Edge u := by
  have h1 : ∀ v a b, squaresAt H.nodes H.Edge (f v) (f a) (f b) = squaresAt G.nodes G.Edge v a b := by
    intro v a b
    exact Relabel.countOf_eq h hG hH _ _ fun x => by simp only [ne_eq, h.inj.eq_iff, Relabel.edge h]
  have h2 : ∀ a, countOf H.nodes (H.Edge (f a)) = countOf G.nodes (G.Edge a) := fun a =>
    Relabel.countOf_eq h hG hH _ _ fun x => Relabel.edge h a x
  have h3 : squarePairs H.nodes H.Edge (f u) = squarePairs G.nodes G.Edge u := by
    unfold squarePairs
    rw [Relabel.sumOver_eq h hG hH]
    congr 1; funext a
    rw [Relabel.sumOver_eq h hG hH]
    simp only [ne_eq, h.inj.eq_iff, Relabel.edge h, h1]
  have h4 : squarePotential H.nodes H.Edge (f u) = squarePotential G.nodes G.Edge u := by
    unfold squarePotential
    rw [Relabel.sumOver_eq h hG hH]
    congr 1; funext a
    rw [Relabel.sumOver_eq h hG hH]
    simp only [ne_eq, h.inj.eq_iff, Relabel.edge h, h1, h2]
  refine ⟨h3, ?_⟩
  unfold squareCoeff
  rw [h3, h4]

omit [DecidableEq K] [DecidableEq K'] in
/-- a relabelled simple graph is simple -/
theorem simple_relabel {G : Graph K Int} {H : Graph K' Int} (h : Relabels f G H) (hH : H.WF) (hs : Simple G) :
    Simple H where
  wf := hH
  symm := Relabel.symm h hH hs.symm
  noLoop := by
    intro x e
    obtain ⟨u, v, hu, hv, e⟩ := Relabel.edge_exists h e
    rw [h.inj (hu.trans hv.symm)] at e
    exact hs.noLoop v e
  unit := by
    intro x y w e
    obtain ⟨u, v, rfl, rfl, e'⟩ := Relabel.wedge_exists h e
    exact hs.unit u v w e'

/-- **C82.** `square_clustering`, for any two chunk sizes -/
theorem relabel_square_clustering {G : Graph K Int} {H : Graph K' Int} (h : Relabels f G H) (hH : H.WF)
    (hs : Simple G) (c c' : Option Int) (hc : (c = none ∧ c' = none) ∨ ∃ u v, G.Edge u v) :
    Agree (SameMap f G H) (squareClustering G c) (squareClustering H c') := by
  have hs' := simple_relabel h hH hs
  obtain ⟨r, e, hr⟩ := square_clustering_correct hs c (hc.imp_left And.left)
  obtain ⟨r', e', hr'⟩ := square_clustering_correct hs' c' (by
    rcases hc with hc | ⟨u, v, e⟩
    · exact Or.inl hc.2
    · exact Or.inr ⟨f u, f v, (Relabel.edge h u v).2 e⟩)
  exact Agree.oks e e' (sameMap_of hr hr' fun u d => by
    rw [Relabel.node' h, (squareCoeff_relabel h hs.wf hH u).2])

/-- **C82.** `square_clustering(G, node)` and `square_clustering(G, nodes)` -/
theorem relabel_square_clustering_subset {G : Graph K Int} {H : Graph K' Int} (h : Relabels f G H) (hH : H.WF)
    (hs : Simple G) {nodes : List K} (hn : ∀ u ∈ nodes, G.Node u) (hne : nodes ≠ []) (c c' : Option Int) :
    (∀ u, G.Node u → squareClusteringSingle H (f u) = squareClusteringSingle G u) ∧
    Agree (SameMap f G H) (squareClusteringOf G nodes c) (squareClusteringOf H (nodes.map f) c') := by
  have hs' := simple_relabel h hH hs
  constructor
  · intro u hu
    rw [square_clustering_single hs hu, square_clustering_single hs' ((Relabel.node' h).2 hu),
      (squareCoeff_relabel h hs.wf hH u).2]
  · obtain ⟨r, e, hr⟩ := square_clustering_subset_partial hs hn hne c
    obtain ⟨r', e', hr'⟩ := square_clustering_subset_partial hs' (nodes := nodes.map f)
      (nodes_map_ok h (nodes := some nodes) (by rintro l ⟨⟩; exact hn) _ rfl) (by simpa using hne) c'
    exact Agree.oks e e' (sameMap_of hr hr' fun u d => by
      rw [(squareCoeff_relabel h hs.wf hH u).2, (squareCoeff_relabel h hs.wf hH u).1, List.mem_map]
      simp [h.inj.eq_iff])

/-- **C82.** `generalized_degree` -/
theorem relabel_generalized_degree (h : Relabels f G H) (hG : G.WF) (hH : H.WF)
    {nodes : Option (List K)} (hn : ∀ l, nodes = some l → ∀ u ∈ l, G.Node u) :
    Agree (fun M M' => ∀ u t, genDegAt H M' (f u) t = genDegAt G M u t)
      (generalizedDegree G nodes) (generalizedDegree H (nodes.map (List.map f))) := by
  obtain ⟨r, e, hr⟩ := generalized_degree_correct hG hn
  obtain ⟨r', e', hr'⟩ := generalized_degree_correct hH (nodes_map_ok h hn)
  refine Agree.oks e e' fun u t => ?_
  apply Option.ext
  intro d
  show _ = some d ↔ _ = some d
  rw [hr, hr', Relabel.node' h, asked_map h.inj]
  have h1 : ∀ a b, edgeTriangles H.nodes H.Edge (f a) (f b) = edgeTriangles G.nodes G.Edge a b := fun a b =>
    Relabel.countOf_eq h hG hH _ _ fun x => by simp only [ne_eq, h.inj.eq_iff, Relabel.edge h]
  have h2 : genDegree H.nodes H.Edge (f u) t = genDegree G.nodes G.Edge u t :=
    Relabel.countOf_eq h hG hH _ _ fun x => by simp only [ne_eq, h.inj.eq_iff, Relabel.edge h, h1]
  rw [h2]

/-- **C82.** `k_truss`: the two subgraphs have corresponding nodes and weighted edges -/
theorem relabel_k_truss (h : Relabels f G H) (hG : G.WF) (hH : H.WF) (hs : G.Symm) (k : Int) :
    Agree (fun T T' => (∀ u, T'.Node (f u) ↔ T.Node u) ∧ ∀ u v, T'.Edge (f u) (f v) ↔ T.Edge u v)
      (kTruss G k) (kTruss H k) := by
  obtain ⟨T, e, -, -, hsub, htr, hmax, hnode, -⟩ := k_truss_correct hG hs k
  obtain ⟨T', e', -, -, hsub', htr', hmax', hnode', -⟩ := k_truss_correct hH (Relabel.symm h hH hs) k
  -- the pull-back of `T'` is a truss of `G`, the image of `T` is a truss of `H`
  have inT : ∀ x y, T'.Edge x y → ∃ u v, f u = x ∧ f v = y := by
    intro x y hxy
    obtain ⟨u, v, hu, hv, -⟩ := Relabel.edge_exists h (hsub'.sub x y hxy)
    exact ⟨u, v, hu, hv⟩
  have hedge : ∀ u v, T'.Edge (f u) (f v) ↔ T.Edge u v := by
    intro u v
    constructor
    · refine hmax (fun a b => T'.Edge (f a) (f b)) ⟨?_, ?_, ?_⟩ ?_ u v
      · intro a b hab; exact (Relabel.edge h a b).1 (hsub'.sub _ _ hab)
      · intro a; exact hsub'.irrefl _
      · intro a b; exact hsub'.symm _ _
      · intro a b hab
        have := htr' (f a) (f b) hab
        refine le_of_le_of_eq this (congrArg Nat.cast ?_)
        exact Relabel.countOf_eq h hG hH _ _ fun w => Iff.rfl
    · intro huv
      refine hmax' (fun x y => ∃ a b, f a = x ∧ f b = y ∧ T.Edge a b) ⟨?_, ?_, ?_⟩ ?_ (f u) (f v)
        ⟨u, v, rfl, rfl, huv⟩
      · rintro x y ⟨a, b, rfl, rfl, hab⟩; exact (Relabel.edge h a b).2 (hsub.sub _ _ hab)
      · rintro x ⟨a, b, ha, hb, hab⟩
        rw [h.inj (ha.trans hb.symm)] at hab
        exact hsub.irrefl _ hab
      · rintro x y ⟨a, b, rfl, rfl, hab⟩; exact ⟨b, a, rfl, rfl, hsub.symm _ _ hab⟩
      · rintro x y ⟨a, b, rfl, rfl, hab⟩
        have := htr a b hab
        refine le_of_le_of_eq this (congrArg Nat.cast (Eq.symm ?_))
        refine Relabel.countOf_eq h hG hH _ _ fun w => ?_
        have key : ∀ a w, (∃ a' b', f a' = f a ∧ f b' = f w ∧ T.Edge a' b') ↔ T.Edge a w := by
          intro a w
          constructor
          · rintro ⟨a', b', h1, h2, he⟩; rwa [h.inj h1, h.inj h2] at he
          · intro he; exact ⟨a, w, rfl, rfl, he⟩
        exact and_congr (key a w) (key b w)
  refine Agree.oks e e' ⟨?_, hedge⟩
  intro u
  rw [hnode, hnode']
  constructor
  · rintro ⟨y, hy⟩
    obtain ⟨a, v, ha, rfl⟩ := inT _ _ hy
    exact ⟨v, (hedge u v).1 hy⟩
  · rintro ⟨v, hv⟩
    exact ⟨f v, (hedge u v).2 hv⟩

/-! ### cuts -/

theorem edgesFromTo_relabel (h : Relabels f G H) (hG : G.WF) (hH : H.WF) (P Q : K' → Prop) [DecidablePred P]
    [DecidablePred Q] (P' Q' : K → Prop) [DecidablePred P'] [DecidablePred Q']
    (hP : ∀ u, P (f u) ↔ P' u) (hQ : ∀ u, Q (f u) ↔ Q' u) :
    edgesFromTo H.nodes H.Edge P Q = edgesFromTo G.nodes G.Edge P' Q' := by
  unfold edgesFromTo
  rw [Relabel.sumOver_eq h hG hH]
  congr 1; funext u
  exact Relabel.countOf_eq h hG hH _ _ fun v => by rw [hP, hQ, Relabel.edge h]

theorem weightFromTo_relabel [AddCommMonoid α] (h : Relabels f G H) (hG : G.WF) (hH : H.WF) (P Q : K' → Prop)
    [DecidablePred P] [DecidablePred Q] (P' Q' : K → Prop) [DecidablePred P'] [DecidablePred Q']
    (hP : ∀ u, P (f u) ↔ P' u) (hQ : ∀ u, Q (f u) ↔ Q' u) :
    weightFromTo H.nodes H.weight? P Q = weightFromTo G.nodes G.weight? P' Q' := by
  unfold weightFromTo
  rw [Relabel.sumOver_eq h hG hH]
  congr 1; funext u
  rw [Relabel.sumOver_eq h hG hH]
  simp only [hP, hQ, Relabel.weight h hG hH]

theorem vol_relabel (h : Relabels f G H) (hG : G.WF) (hH : H.WF) (P : K' → Prop) [DecidablePred P]
    (P' : K → Prop) [DecidablePred P'] (hP : ∀ u, P (f u) ↔ P' u) :
    vol H.nodes H.Edge P = vol G.nodes G.Edge P' := by
  unfold vol
  rw [Relabel.sumOver_eq h hG hH]
  simp only [hP, Relabel.outDeg h hG hH]

omit [DecidableEq K] [DecidableEq K'] in
theorem mem_map_iff (hf : Function.Injective f) (S : List K) (u : K) : f u ∈ S.map f ↔ u ∈ S := by
  simp [hf.eq_iff]

/-- **C82.** `cut_size` between two sets, unweighted and weighted -/
theorem relabel_cut_size [AddCommMonoid α] (h : Relabels f G H) (hG : G.WF) (hH : H.WF) (S T : List K) :
    cutSize H (S.map f) (some (T.map f)) = cutSize G S (some T) ∧
    cutSizeWeighted H (S.map f) (some (T.map f)) = cutSizeWeighted G S (some T) := by
  have hS := mem_map_iff h.inj S
  have hT := mem_map_iff h.inj T
  rw [cut_size_correct hG, cut_size_correct hH, cut_size_weighted_correct hG, cut_size_weighted_correct hH,
    edgesFromTo_relabel h hG hH _ _ _ _ hS hT, edgesFromTo_relabel h hG hH _ _ _ _ hT hS,
    weightFromTo_relabel h hG hH _ _ _ _ hS hT, weightFromTo_relabel h hG hH _ _ _ _ hT hS, h.directed]
  exact ⟨rfl, rfl⟩

/-- **C82.** `volume`, unweighted and weighted -/
theorem relabel_volume [AddCommMonoid α] (h : Relabels f G H) (hG : G.WF) (hH : H.WF) {S : List K}
    (hS : ∀ u ∈ S, G.Node u) :
    volume H (S.map f) = volume G S ∧ volumeWeighted H (S.map f) = volumeWeighted G S := by
  have hS' : ∀ x ∈ S.map f, H.Node x :=
    nodes_map_ok h (nodes := some S) (by rintro l ⟨⟩; exact hS) _ rfl
  have hm := mem_map_iff h.inj S
  rw [volume_correct hG hS, volume_correct hH hS', (volume_weighted_correct_partial hG hS).1,
    (volume_weighted_correct_partial hH hS').1, vol_relabel h hG hH _ _ hm,
    weightFromTo_relabel h hG hH _ _ (fun _ => True) _ (fun _ => Iff.rfl) hm]
  exact ⟨rfl, rfl⟩

omit [DecidableEq K] [DecidableEq K'] in
theorem other_map (hf : Function.Injective f) (S : List K) (T : Option (List K)) (u : K) :
    Other (S.map f) (T.map (List.map f)) (f u) ↔ Other S T u := by
  cases T with
  | none => show f u ∉ S.map f ↔ u ∉ S; rw [mem_map_iff hf]
  | some l => exact mem_map_iff hf l u

/-- **C82.** `conductance` and `normalized_cut_size` -/
theorem relabel_conductance (h : Relabels f G H) (hG : G.WF) (hH : H.WF) (S : List K) (T : Option (List K)) :
    conductance H (S.map f) (T.map (List.map f)) = conductance G S T ∧
    normalizedCutSize H (S.map f) (T.map (List.map f)) = normalizedCutSize G S T := by
  have hS := mem_map_iff h.inj S
  have hO := other_map h.inj S T
  rw [(conductance_correct hG S T).1, (conductance_correct hG S T).2,
    (conductance_correct hH _ _).1, (conductance_correct hH _ _).2]
  have hc : cutCount H (· ∈ S.map f) (Other (S.map f) (T.map (List.map f))) = cutCount G (· ∈ S) (Other S T) := by
    unfold cutCount
    rw [edgesFromTo_relabel h hG hH _ _ _ _ hS hO, edgesFromTo_relabel h hG hH _ _ _ _ hO hS, h.directed]
  rw [hc, vol_relabel h hG hH _ _ hS, vol_relabel h hG hH _ _ hO]
  exact ⟨rfl, rfl⟩

/-- **C82.** the expansions -/
theorem relabel_expansions (h : Relabels f G H) (hG : G.WF) (hH : H.WF) (hs : G.directed = false → G.Symm)
    (S : List K) (T : Option (List K)) (hT : T = none → G.directed = false) (hS : ∀ u ∈ S, G.Node u) :
    edgeExpansion H (S.map f) (T.map (List.map f)) = edgeExpansion G S T ∧
    mixingExpansion H (S.map f) (T.map (List.map f)) = mixingExpansion G S T ∧
    nodeExpansion H (S.map f) = nodeExpansion G S ∧ boundaryExpansion H (S.map f) = boundaryExpansion G S := by
  have hm := mem_map_iff h.inj S
  have hO := other_map h.inj S T
  have hS' : ∀ x ∈ S.map f, H.Node x :=
    nodes_map_ok h (nodes := some S) (by rintro l ⟨⟩; exact hS) _ rfl
  have e1 := edge_expansion_correct hG hs S T hT
  have e2 := edge_expansion_correct hH (fun hd => Relabel.symm h hH (hs (h.directed ▸ hd))) (S.map f)
    (T.map (List.map f)) (fun hn => h.directed.trans (hT (by simpa using hn)))
  have e3 := node_expansion_correct hG S
  have e4 := node_expansion_correct hH (S.map f)
  rw [e1.1, e1.2, e2.1, e2.2, e3.1 hS, e3.2, e4.1 hS', e4.2]
  have hc : cutCount H (· ∈ S.map f) (Other (S.map f) (T.map (List.map f))) = cutCount G (· ∈ S) (Other S T) := by
    unfold cutCount
    rw [edgesFromTo_relabel h hG hH _ _ _ _ hm hO, edgesFromTo_relabel h hG hH _ _ _ _ hO hm, h.directed]
  have hn : ∀ v, (∃ u ∈ S.map f, H.Edge u (f v)) ↔ ∃ u ∈ S, G.Edge u v := by
    intro v
    simp only [List.mem_map, exists_exists_and_eq_and, Relabel.edge h]
  rw [hc, Relabel.countOf_eq h hG hH _ _ hm, Relabel.countOf_eq h hG hH _ _ hO, Relabel.edgeCount h hG hH,
    Relabel.countOf_eq h hG hH _ _ hn,
    Relabel.countOf_eq h hG hH (fun v => v ∉ S.map f ∧ ∃ u ∈ S.map f, H.Edge u v) _
      (fun v => and_congr (not_congr (hm v)) (hn v))]
  exact ⟨rfl, rfl, rfl, rfl⟩

/-- **C82.** `node_boundary` and `is_dominating_set` -/
theorem relabel_node_boundary (h : Relabels f G H) (hG : G.WF) (hH : H.WF) (S : List K) (T : Option (List K)) :
    Agree (SameSet f G H) (nodeBoundary G S T) (nodeBoundary H (S.map f) (T.map (List.map f))) ∧
    isDominatingSet H (S.map f) = isDominatingSet G S := by
  have hn : ∀ v, (∃ u ∈ S.map f, H.Edge u (f v)) ↔ ∃ u ∈ S, G.Edge u v := by
    intro v
    simp only [List.mem_map, exists_exists_and_eq_and, Relabel.edge h]
  have hm := mem_map_iff h.inj S
  constructor
  · obtain ⟨r, e, hr⟩ := node_boundary_correct hG S T
    obtain ⟨r', e', hr'⟩ := node_boundary_correct hH (S.map f) (T.map (List.map f))
    refine Agree.oks e e' fun u => ?_
    rw [hr, hr', hn, hm]
    have : (∀ l, T.map (List.map f) = some l → f u ∈ l) ↔ ∀ l, T = some l → u ∈ l := by
      have := asked_map h.inj T u
      exact this
    rw [this]
  · obtain ⟨b, e, hb⟩ := is_dominating_set_correct hG S
    obtain ⟨b', e', hb'⟩ := is_dominating_set_correct hH (S.map f)
    rw [e, e']
    congr 1
    rw [Bool.eq_iff_iff, hb, hb']
    constructor
    · intro hh v hv hvS
      exact (hn v).1 (hh (f v) ((Relabel.node' h).2 hv) (by rwa [hm]))
    · intro hh x hx hxS
      obtain ⟨v, hv, rfl⟩ := (h.node x).1 hx
      exact (hn v).2 (hh v hv (by rwa [hm] at hxS))

/-! ### small algorithms -/

omit [DecidableEq K] [DecidableEq K'] in
theorem isolated_relabel (h : Relabels f G H) (u : K) : Isolated H.Edge (f u) ↔ Isolated G.Edge u := by
  unfold Isolated
  constructor
  · intro hh v
    have := hh (f v)
    rwa [Relabel.edge h, Relabel.edge h] at this
  · intro hh y
    constructor
    · intro e
      obtain ⟨v, rfl, e'⟩ := (Relabel.edge_left h).1 e
      exact (hh v).1 e'
    · intro e
      obtain ⟨v, rfl, e'⟩ := (Relabel.edge_right h).1 e
      exact (hh v).2 e'

/-- **C82.** `isolates`, `number_of_isolates`, `is_isolate` -/
theorem relabel_isolates (h : Relabels f G H) (hG : G.WF) (hH : H.WF) (hs : G.directed = false → G.Symm) :
    SameSet f G H (isolates G) (isolates H) ∧ numberOfIsolates H = numberOfIsolates G ∧
    ∀ u, isIsolate H (f u) = isIsolate G u := by
  classical
  have hs' : H.directed = false → H.Symm := fun hd => Relabel.symm h hH (hs (h.directed ▸ hd))
  refine ⟨fun u => ?_, ?_, fun u => ?_⟩
  · rw [(isolates_correct hG hs).1, (isolates_correct hH hs').1, Relabel.node' h, isolated_relabel h]
  · rw [(isolates_correct hG hs).2, (isolates_correct hH hs').2]
    exact Relabel.countOf_eq h hG hH _ _ (isolated_relabel h)
  · by_cases hu : G.Node u
    · obtain ⟨b, e, hb⟩ := (is_isolate_correct hG hs u).1 hu
      obtain ⟨b', e', hb'⟩ := (is_isolate_correct hH hs' (f u)).1 ((Relabel.node' h).2 hu)
      rw [e, e']
      congr 1
      rw [Bool.eq_iff_iff, hb, hb', isolated_relabel h]
    · rw [(is_isolate_correct hG hs u).2 hu,
        (is_isolate_correct hH hs' (f u)).2 (fun h' => hu ((Relabel.node' h).1 h'))]

theorem regular_relabel (h : Relabels f G H) (hG : G.WF) (hH : H.WF) (k : Nat) :
    (Regular H.nodes H.Edge k ↔ Regular G.nodes G.Edge k) ∧
    (InRegular H.nodes H.Edge k ↔ InRegular G.nodes G.Edge k) := by
  constructor
  · constructor
    · intro hh u hu
      have := hh (f u) ((Relabel.node' h).2 hu)
      rwa [Relabel.outDeg h hG hH] at this
    · intro hh x hx
      obtain ⟨u, hu, rfl⟩ := (h.node x).1 hx
      rw [Relabel.outDeg h hG hH]; exact hh u hu
  · constructor
    · intro hh u hu
      have := hh (f u) ((Relabel.node' h).2 hu)
      rwa [Relabel.inDeg h hG hH] at this
    · intro hh x hx
      obtain ⟨u, hu, rfl⟩ := (h.node x).1 hx
      rw [Relabel.inDeg h hG hH]; exact hh u hu

/-- **C82.** `is_regular` -/
theorem relabel_is_regular (h : Relabels f G H) (hG : G.WF) (hH : H.WF) : isRegular H = isRegular G := by
  have hlen : H.n = G.n := relabel_len h hG hH
  by_cases h0 : G.n = 0
  · rw [is_regular_empty h0, is_regular_empty (hlen.trans h0)]
  by_cases he : ∃ u v, G.Edge u v
  · have he' : ∃ x y, H.Edge x y := by
      obtain ⟨u, v, e⟩ := he; exact ⟨f u, f v, (Relabel.edge h u v).2 e⟩
    obtain ⟨b, e, hb⟩ := is_regular_correct_partial hG he
    obtain ⟨b', e', hb'⟩ := is_regular_correct_partial hH he'
    rw [e, e']
    congr 1
    simp only [fun k => (regular_relabel h hG hH k).1, fun k => (regular_relabel h hG hH k).2, h.directed] at hb'
    rw [Bool.eq_iff_iff, hb, hb']
  · have he1 : ∀ u v, ¬ G.Edge u v := fun u v e => he ⟨u, v, e⟩
    have he2 : ∀ x y, ¬ H.Edge x y := by
      intro x y e
      obtain ⟨u, v, -, -, e⟩ := Relabel.edge_exists h e
      exact he1 u v e
    rw [(is_regular_edgeless hG (by omega) he1).1, (is_regular_edgeless hH (by omega) he2).1]

/-- **C82.** `is_k_regular` -/
theorem relabel_is_k_regular (h : Relabels f G H) (hG : G.WF) (hH : H.WF) (hd : G.directed = false) (k : Int)
    (hk : k ≠ 0) : isKRegular H k = isKRegular G k := by
  obtain ⟨b, e, hb⟩ := is_k_regular_correct_partial hG hd k hk
  obtain ⟨b', e', hb'⟩ := is_k_regular_correct_partial hH (h.directed.trans hd) k hk
  rw [e, e']
  congr 1
  rw [Bool.eq_iff_iff, hb, hb']
  constructor
  · intro hh u hu
    have := hh (f u) ((Relabel.node' h).2 hu)
    rwa [Relabel.outDeg h hG hH] at this
  · intro hh x hx
    obtain ⟨u, hu, rfl⟩ := (h.node x).1 hx
    rw [Relabel.outDeg h hG hH]; exact hh u hu

/-- **C82.** `is_tournament` and `score_sequence` -/
theorem relabel_tournament (h : Relabels f G H) (hG : G.WF) (hH : H.WF) (hd : G.directed = true) :
    isTournament H = isTournament G ∧ scoreSequence H = scoreSequence G := by
  constructor
  · obtain ⟨b, e, hb⟩ := is_tournament_correct hG hd
    obtain ⟨b', e', hb'⟩ := is_tournament_correct hH (h.directed.trans hd)
    rw [e, e']
    congr 1
    rw [Bool.eq_iff_iff, hb, hb']
    unfold Tournament
    constructor
    · rintro ⟨h1, h2⟩
      refine ⟨fun u hu e => h1 (f u) ((Relabel.node' h).2 hu) ((Relabel.edge h u u).2 e), ?_⟩
      intro u hu v hv huv
      have := h2 (f u) ((Relabel.node' h).2 hu) (f v) ((Relabel.node' h).2 hv) (by rwa [ne_eq, h.inj.eq_iff])
      rwa [Relabel.edge h, Relabel.edge h] at this
    · rintro ⟨h1, h2⟩
      constructor
      · intro x hx e
        obtain ⟨u, hu, rfl⟩ := (h.node x).1 hx
        exact h1 u hu ((Relabel.edge h u u).1 e)
      · intro x hx y hy hxy
        obtain ⟨u, hu, rfl⟩ := (h.node x).1 hx
        obtain ⟨v, hv, rfl⟩ := (h.node y).1 hy
        rw [Relabel.edge h, Relabel.edge h]
        exact h2 u hu v hv (fun e => hxy (by rw [e]))
  · obtain ⟨l, e, hp, hl⟩ := score_sequence_correct hG hd
    obtain ⟨l', e', hp', hl'⟩ := score_sequence_correct hH (h.directed.trans hd)
    rw [e, e']
    congr 1
    refine List.Perm.eq_of_pairwise (le := (· ≤ ·)) (fun a b _ _ h1 h2 => Nat.le_antisymm h1 h2) hp' hp ?_
    refine hl'.trans (List.Perm.trans ?_ hl.symm)
    refine ((Relabel.nodes_perm h hG hH).map _).trans (List.Perm.of_eq ?_)
    rw [List.map_map]
    exact List.map_congr_left fun u _ => Relabel.outDeg h hG hH u

/-- **C82.** `reciprocity` and `overall_reciprocity` -/
theorem relabel_reciprocity (h : Relabels f G H) (hG : G.WF) (hH : H.WF) (hd : G.directed = true) :
    (∀ u, G.Node u → reciprocityNode H (f u) = reciprocityNode G u) ∧
    (∀ l, (∀ u ∈ l, G.Node u) → Agree (SameMap f G H) (reciprocityNodes G l) (reciprocityNodes H (l.map f))) ∧
    overallReciprocity H = overallReciprocity G := by
  have hd' := h.directed.trans hd
  refine ⟨fun u hu => ?_, fun l hl => ?_, ?_⟩
  · rw [reciprocity_node_correct hG hd hu, reciprocity_node_correct hH hd' ((Relabel.node' h).2 hu),
      Relabel.outDeg h hG hH, Relabel.inDeg h hG hH, Relabel.mutualDeg h hG hH]
  · obtain ⟨R, e, hR⟩ := reciprocity_nodes_correct hG hd hl
    obtain ⟨R', e', hR'⟩ := reciprocity_nodes_correct hH hd' (l := l.map f)
      (nodes_map_ok h (nodes := some l) (by rintro _ ⟨⟩; exact hl) _ rfl)
    refine Agree.oks e e' fun u => ?_
    by_cases hu : G.Node u
    · rw [hR u hu, hR' (f u) ((Relabel.node' h).2 hu)]
      simp only [mem_map_iff h.inj, Relabel.outDeg h hG hH, Relabel.inDeg h hG hH, Relabel.mutualDeg h hG hH]
    · rw [Proofs.view_none_of_not_node hG hu,
        Proofs.view_none_of_not_node hH (fun h' => hu ((Relabel.node' h).1 h'))]
  · rw [overall_reciprocity_correct hG hd, overall_reciprocity_correct hH hd', Relabel.edgeCount h hG hH]
    have : mutualEdges H.nodes H.Edge = mutualEdges G.nodes G.Edge := by
      unfold mutualEdges
      rw [Relabel.sumOver_eq h hG hH]
      congr 1; funext u
      exact Relabel.countOf_eq h hG hH _ _ fun v => by simp only [ne_eq, h.inj.eq_iff, Relabel.edge h]
    rw [this]

/-- **C82.** `s_metric`, `intra`/`inter_community_edges`, `mutual_weight`, `is_triad`, `is_simple_path` -/
theorem relabel_small (h : Relabels f G H) (hG : G.WF) (hH : H.WF) :
    sMetric H = sMetric G ∧
    (∀ P : List (List K), intraCommunityEdges H (P.map (List.map f)) = intraCommunityEdges G P ∧
      interCommunityEdges H (P.map (List.map f)) = interCommunityEdges G P) ∧
    isTriad H = isTriad G ∧
    (∀ l, isSimplePath H (l.map f) = isSimplePath G l) := by
  refine ⟨?_, fun P => ?_, ?_, fun l => ?_⟩
  · rw [sMetric_eq hG, sMetric_eq hH, Relabel.sumOver_eq h hG hH]
    congr 3; funext u
    rw [Relabel.sumOver_eq h hG hH]
    unfold sDeg
    simp only [Relabel.edge h, Relabel.outDeg h hG hH, Relabel.inDeg h hG hH, h.directed]
  · rw [(community_edges_correct hG P).1, (community_edges_correct hG P).2, (community_edges_correct hH _).1,
      (community_edges_correct hH _).2, List.map_map, List.map_map]
    constructor
    · congr 2
      refine List.map_congr_left fun b _ => ?_
      exact edgesFromTo_relabel h hG hH _ _ _ _ (mem_map_iff h.inj b) (mem_map_iff h.inj b)
    · congr 2
      refine List.map_congr_left fun b _ => ?_
      exact edgesFromTo_relabel h hG hH _ _ _ _ (fun u => not_congr (mem_map_iff h.inj b u)) (mem_map_iff h.inj b)
  · rw [Bool.eq_iff_iff, is_triad_correct hG, is_triad_correct hH, Relabel.length h hG hH, h.directed]
    refine and_congr_right fun _ => and_congr_right fun _ => ?_
    constructor
    · intro hh u e; exact hh (f u) ((Relabel.edge h u u).2 e)
    · intro hh x e
      obtain ⟨u, v, hu, hv, e⟩ := Relabel.edge_exists h e
      rw [h.inj (hu.trans hv.symm)] at e
      exact hh v e
  · obtain ⟨b, e, hb⟩ := is_simple_path_correct hG l
    obtain ⟨b', e', hb'⟩ := is_simple_path_correct hH (l.map f)
    rw [e, e']
    congr 1
    rw [Bool.eq_iff_iff, hb, hb']
    unfold SimplePath
    rw [List.nodup_map_iff h.inj, List.isChain_map]
    have hn : (∀ x ∈ l.map f, x ∈ H.nodes) ↔ ∀ u ∈ l, u ∈ G.nodes := by
      constructor
      · intro hh u hu; exact (Relabel.node' h).1 (hh (f u) (List.mem_map_of_mem hu))
      · intro hh x hx
        obtain ⟨u, hu, rfl⟩ := List.mem_map.1 hx
        exact (Relabel.node' h).2 (hh u hu)
    rw [hn]
    simp only [ne_eq, List.map_eq_nil_iff, Relabel.edge h]

/-- **C82.** `mutual_weight` -/
theorem relabel_mutual_weight [AddCommMonoid α] (h : Relabels f G H) (hG : G.WF) (hH : H.WF) (u v : K) :
    mutualWeight H (f u) (f v) = mutualWeight G u v := by
  rw [(mutual_weight_correct hG u v).1, (mutual_weight_correct hH _ _).1, Relabel.weight h hG hH,
    Relabel.weight h hG hH]

/-! ### The hypotheses are met -/

theorem ugRelabelled : Relabels (fun u : Nat => (u, "node")) _root_.Ex.ug
      (relabelled (fun u : Nat => (u, "node")) _root_.Ex.ug (Fin.revPerm (n := 5))) ∧
    (relabelled (fun u : Nat => (u, "node")) _root_.Ex.ug (Fin.revPerm (n := 5))).WF :=
  relabels_relabelled (fun a b h => by simpa using h) _root_.Ex.ug_wf _

/-- the renamed graph is stored in the opposite order and still counts one triangle at node 5 -/
example : ∃ r, triangles (relabelled (fun u : Nat => (u, "node")) _root_.Ex.ug (Fin.revPerm (n := 5))) none = .ok r ∧
    (relabelled (fun u : Nat => (u, "node")) _root_.Ex.ug (Fin.revPerm (n := 5))).view r (5, "node") = some 1 :=
  ⟨_, rfl, by decide +kernel⟩

end Props
