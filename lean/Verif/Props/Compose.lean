import Verif.Props.OperatorsErr

/-!
# C45 exactly when `compose` is right
-/

open GB Spec Model Model.Graph Proofs

namespace Props

variable {K α : Type} [DecidableEq K] {G H : Graph K α}

/-- what the documentation promises about `compose(G, H)`: all nodes and edges of both, `H`'s weight where both have
the edge -/
def IsCompose (G H R : Graph K α) : Prop :=
  R.WF ∧ (∀ u, R.Node u ↔ G.Node u ∨ H.Node u) ∧
    ∀ u v w, R.WEdge u v w ↔ H.WEdge u v w ∨ (G.WEdge u v w ∧ ¬ H.Edge u v)

/-- the new nodes of `H` are numbered before the nodes shared with `G` -/
def NewFirst (G H : Graph K α) : Prop :=
  ∀ u v i j, H.At u i → H.At v j → ¬ G.Node u → G.Node v → i < j

/-- the node dictionary of `compose` for different node sets -/
theorem compose_dict (hG : G.WF) (hH : H.WF) (h1 : G.multi = false) (h2 : H.multi = false)
    (h : ¬ ∀ u, G.Node u ↔ H.Node u) :
    ∃ R ids, compose G H = .ok R ∧ R.n = G.n + (sortedKeys H fun k => !G.contains k).length ∧
      List.Forall₂ (fun u i => H.At u i) (sortedKeys H fun k => !G.contains k) ids ∧
      R.keyToId = (sortedKeys H fun k => !G.contains k).zip (ids.map fun i => i.val + G.n) ++ G.keyToId := by
  have hk : ∀ u, u ∈ sortedKeys G (fun k => H.contains k) ↔ G.Node u ∧ H.Node u := by
    intro u; rw [mem_sortedKeys, contains_iff]
  have hk' : ∀ u, u ∈ sortedKeys H (fun k => !G.contains k) ↔ H.Node u ∧ ¬ G.Node u := by
    intro u; rw [mem_sortedKeys, Bool.not_eq_true', ← Bool.not_eq_true, contains_iff]
  obtain ⟨B1, hB1, -⟩ := extractKeys_ok hH (keys := sortedKeys G fun k => H.contains k)
    fun u hu => ((hk u).1 hu).2
  obtain ⟨B2, hB2, -⟩ := extractKeys_ok hH (keys := sortedKeys H fun k => !G.contains k)
    fun u hu => ((hk' u).1 hu).1
  obtain ⟨ids, hids, hidsf⟩ := listToIds_ok hH (keys := sortedKeys H fun k => !G.contains k)
    fun u hu => ((hk' u).1 hu).1
  obtain ⟨idsG, hidsG, hidsGf⟩ := listToIds_ok hG (keys := sortedKeys G fun k => H.contains k)
    fun u hu => ((hk u).1 hu).1
  have hs : sameKeys G H = false := by
    rw [← Bool.not_eq_true, sameKeys_iff]; exact h
  have hzip : dupdate (dictOf ((sortedKeys H fun k => !G.contains k).zip (ids.map fun i => i.val + G.n))) G.keyToId =
      ((sortedKeys H fun k => !G.contains k).zip (ids.map fun i => i.val + G.n)) ++ G.keyToId := by
    have hl : ids.length = (sortedKeys H fun k => !G.contains k).length := hidsf.length_eq.symm
    have e : ((sortedKeys H fun k => !G.contains k).zip (ids.map fun i => i.val + G.n)).map Prod.fst = (sortedKeys H fun k => !G.contains k) := by
      rw [List.map_fst_zip]; simp [hl]
    rw [dictOf_nodup (by rw [e]; exact sortedKeys_nodup hH _), dupdate_append]
    rw [List.map_append, e, List.nodup_append]
    refine ⟨sortedKeys_nodup hH _, hG.keys_nodup, ?_⟩
    rintro a ha b hb rfl
    exact ((hk' a).1 ha).2 hb
  have : ∃ R, compose G H = .ok R ∧ R.n = G.n + (sortedKeys H fun k => !G.contains k).length ∧
      R.keyToId = (sortedKeys H fun k => !G.contains k).zip (ids.map fun i => i.val + G.n) ++ G.keyToId := by
    unfold compose
    rw [multiCheck_ok h1 h2, hs]
    show ∃ R, composeDiff G H = .ok R ∧ _
    unfold composeDiff idsIn
    dsimp only
    rw [hidsG, hB1, hB2, hids]
    have hc : idsG.length = (sortedKeys G fun k => H.contains k).length ∧
        G.n ≤ G.n + (sortedKeys H fun k => !G.contains k).length :=
      ⟨hidsGf.length_eq.symm, Nat.le_add_right _ _⟩
    simp only [bind, Except.bind, hc, and_self, dite_true]
    exact ⟨_, rfl, rfl, hzip⟩
  obtain ⟨R, hR, hn, hd⟩ := this
  exact ⟨R, ids, hR, hn, hidsf, hd⟩

/-- **C45, numbering.** For different node sets the node numbers of the result are valid exactly when `H` numbers its
new nodes before the shared ones. -/
theorem compose_wf_iff (hG : G.WF) (hH : H.WF) (h1 : G.multi = false) (h2 : H.multi = false)
    (h : ¬ ∀ u, G.Node u ↔ H.Node u) :
    ∃ R, compose G H = .ok R ∧ (R.WF ↔ NewFirst G H) := by
  obtain ⟨R, ids, hR, hn, hf, hd⟩ := compose_dict hG hH h1 h2 h
  refine ⟨R, hR, fun hw => ?_, fun hini => ?_⟩
  · set newkeys := sortedKeys H fun k => !G.contains k with hnew
    have hk' : ∀ u, u ∈ newkeys ↔ H.Node u ∧ ¬ G.Node u := by
      intro u; rw [hnew, mem_sortedKeys, Bool.not_eq_true', ← Bool.not_eq_true, contains_iff]
    have hl : newkeys.length = ids.length := hf.length_eq
    -- every new key has an `H` number below the number of new keys
    have hlt : ∀ i ∈ ids, i.val < newkeys.length := by
      intro i hi
      obtain ⟨a, ha, rfl⟩ := List.getElem_of_mem hi
      have hm : (newkeys[a]'(by omega), ids[a].val + G.n) ∈ R.keyToId := by
        rw [hd]
        apply List.mem_append_left
        rw [List.mem_iff_getElem]
        exact ⟨a, by simp; omega, by simp⟩
      have := hw.id_lt hm
      rw [hn] at this
      omega
    have hids : ids.Nodup := by
      rw [List.nodup_iff_injective_get]
      intro a b e
      have h1 := (List.forall₂_iff_get.1 hf).2 a.val (by omega) a.isLt
      have h2 := (List.forall₂_iff_get.1 hf).2 b.val (by omega) b.isLt
      have e' : ids.get ⟨a.val, a.isLt⟩ = ids.get ⟨b.val, b.isLt⟩ := e
      rw [e'] at h1
      have := h1.key_unique hH h2
      simp only [List.get_eq_getElem] at this
      exact Fin.ext ((sortedKeys_nodup hH _).getElem_inj_iff.1 this)
    have hmem : ∀ {u i}, H.At u i → (¬ G.Node u ↔ i ∈ ids) := by
      intro u i hu
      constructor
      · intro hgu
        obtain ⟨a, ha, e⟩ := List.getElem_of_mem ((hk' u).2 ⟨hu.node, hgu⟩)
        have h1 := (List.forall₂_iff_get.1 hf).2 a ha (by omega)
        simp only [List.get_eq_getElem, e] at h1
        rw [hu.id_unique hH h1]
        exact List.getElem_mem _
      · intro hi
        obtain ⟨a, ha, rfl⟩ := List.getElem_of_mem hi
        have h1 := (List.forall₂_iff_get.1 hf).2 a (by omega) ha
        simp only [List.get_eq_getElem] at h1
        rw [hu.key_unique hH h1]
        exact ((hk' _).1 (List.getElem_mem _)).2
    have hset : (ids.map Fin.val).toFinset = Finset.range newkeys.length := by
      apply Finset.eq_of_subset_of_card_le
      · intro x hx
        rw [List.mem_toFinset, List.mem_map] at hx
        obtain ⟨i, hi, rfl⟩ := hx
        exact Finset.mem_range.2 (hlt i hi)
      · rw [Finset.card_range, List.toFinset_card_of_nodup (hids.map Fin.val_injective), List.length_map, hl]
    intro u v i j hu hv hgu hgv
    have hi := hlt i ((hmem hu).1 hgu)
    by_contra hji
    have : j.val ∈ (ids.map Fin.val).toFinset := by
      rw [hset, Finset.mem_range]
      have : j ≤ i := not_lt.1 hji
      rw [Fin.le_def] at this
      omega
    rw [List.mem_toFinset, List.mem_map] at this
    obtain ⟨x, hx, e⟩ := this
    rw [Fin.ext e] at hx
    exact (hmem hv).2 hx hgv
  · obtain ⟨R', hR', hw, -⟩ := compose_diff_char hG hH h1 h2 h hini
    rw [hR] at hR'
    cases hR'
    exact hw

/-- **C45, exactly when `compose` is right.** On two graphs `compose` returns the composition of the graphs if and
only if both have the same nodes, or `H` numbers its new nodes first, has no edge between a new and a shared node,
and has every edge that `G` has between shared nodes. -/
theorem compose_correct_iff (hG : G.WF) (hH : H.WF) (h1 : G.multi = false) (h2 : H.multi = false) :
    ∃ R, compose G H = .ok R ∧
      (IsCompose G H R ↔ (∀ u, G.Node u ↔ H.Node u) ∨
        (NewFirst G H ∧ (∀ u v, H.Edge u v → (G.Node u ↔ G.Node v)) ∧
          ∀ u v, G.Edge u v → H.Node u → H.Node v → H.Edge u v)) := by
  by_cases h : ∀ u, G.Node u ↔ H.Node u
  · obtain ⟨R, hR, hw, -, -, hn, he⟩ := compose_same_nodes hG hH h1 h2 h
    refine ⟨R, hR, fun _ => .inl h, fun _ => ⟨hw, fun u => ?_, he⟩⟩
    rw [hn, ← h u, or_self]
  · obtain ⟨R, hR, hwf⟩ := compose_wf_iff hG hH h1 h2 h
    refine ⟨R, hR, ?_, ?_⟩
    · rintro ⟨hw, -, he⟩
      have hini := hwf.1 hw
      obtain ⟨R', hR', -, -, -, -, hc⟩ := compose_diff_char hG hH h1 h2 h hini
      rw [hR] at hR'
      cases hR'
      refine .inr ⟨hini, fun u v e => ?_, fun u v e hu hv => ?_⟩
      · obtain ⟨w, hw'⟩ := edge_iff_wedge.1 e
        rcases (hc u v w).1 ((he u v w).2 (.inl hw')) with x | x
        · exact x.2
        · exact absurd ⟨e.node_left, e.node_right⟩ x.2
      · by_contra hn
        obtain ⟨w, hw'⟩ := edge_iff_wedge.1 e
        rcases (hc u v w).1 ((he u v w).2 (.inr ⟨hw', hn⟩)) with x | x
        · exact hn (edge_iff_wedge.2 ⟨w, x.1⟩)
        · exact x.2 ⟨hu, hv⟩
    · rintro (c | ⟨a, b, c⟩)
      · exact absurd c h
      · obtain ⟨R', hR', hw, -, -, hn, he⟩ := compose_correct_partial hG hH h1 h2 (.inr ⟨a, b, c⟩)
        rw [hR] at hR'
        cases hR'
        exact ⟨hw, hn, he⟩

/-- both sides occur -/
example : ∃ R, compose Ex.cg Ex.ch = .ok R ∧ ¬ IsCompose Ex.cg Ex.ch R := by
  obtain ⟨-, -, R, hR, -, -, hw, -⟩ := compose_bad_ids
  exact ⟨R, hR, fun h => hw h.1⟩

/-! ### C85 -/

omit [DecidableEq K] in
theorem assignRegion_symm {n m : Nat} {C : Mat n n α} {ids : Fin m → Fin n} {B : Mat m m α}
    (hC : ∀ i j, C i j = C j i) (hB : ∀ i j, B i j = B j i) (i j) :
    assignRegion C ids B i j = assignRegion C ids B j i := by
  unfold assignRegion
  cases (List.finRange m).find? fun a => ids a == i <;> cases (List.finRange m).find? fun b => ids b == j <;>
    simp [hC i j, hB]

theorem extractKeys_symm (sH : H.Symm) {keys : List K} {B} (h : extractKeys H keys = .ok B) (i j) : B i j = B j i := by
  unfold extractKeys at h
  cases hi : listToIds H keys with
  | error e => rw [hi] at h; cases h
  | ok ids =>
    rw [hi] at h
    simp only [bind, Except.bind] at h
    split at h
    · cases h
      exact sH _ _
    · cases h

/-- **C85, `compose`.** The composition of two undirected graphs is undirected, for any node sets. -/
theorem compose_symmetric (hG : G.WF) (hH : H.WF) (h1 : G.multi = false) (h2 : H.multi = false)
    (sG : G.Symm) (sH : H.Symm) {R : Graph K α} (hR : compose G H = .ok R) : R.Symm := by
  by_cases h : ∀ u, G.Node u ↔ H.Node u
  · exact compose_symmetric_partial hG hH h1 h2 sG sH (.inl h) R hR
  · have hs : sameKeys G H = false := by
      rw [← Bool.not_eq_true, sameKeys_iff]; exact h
    unfold compose at hR
    rw [multiCheck_ok h1 h2, hs] at hR
    have hR' : composeDiff G H = .ok R := hR
    clear hR
    unfold composeDiff at hR'
    simp only [bind, Except.bind] at hR'
    split at hR'
    · cases hR'
    split at hR'
    · cases hR'
    rename_i B1 hB1
    split at hR'
    · cases hR'
    rename_i B2 hB2
    split at hR'
    · cases hR'
    cases hR'
    intro i j
    apply assignRegion_symm
    · intro i j
      apply assignRegion_symm
      · intro i j
        by_cases c : i.val < G.n ∧ j.val < G.n
        · rw [dif_pos c, dif_pos c.symm, sG]
        · rw [dif_neg c, dif_neg fun d => c d.symm]
      · exact extractKeys_symm sH hB1
    · exact extractKeys_symm sH hB2

end Props
