import Verif.Proofs.Convert
import Verif.Props.Operators
import Verif.Props.Truss
import Verif.Props.Ego

/-!
# C07 key/id bijection, C08 conversions round-trip, C09 matrix_to_dicts, C10 NetworkX round trip
-/

open GB Spec Model Model.Graph Proofs

namespace Props

variable {K α β γ : Type} [DecidableEq K] {G : Graph K α}

/-! ### C07 -/

omit [DecidableEq K] in
/-- **C07.** wrapping a matrix without node names gives a well-formed graph whose nodes are the row
numbers and whose weighted edges are the entries. -/
theorem wrap_matrix_wf {n : Nat} (A : Mat n n α) (d : Bool) :
    (ofMatrix A d).WF ∧ (∀ x, (ofMatrix A d).Node x ↔ x < n) ∧ (ofMatrix A d).directed = d ∧
    ∀ (i j : Fin n) w, (ofMatrix A d).WEdge i j w ↔ A i j = some w := by
  have at_iff : ∀ (x : Nat) (i : Fin n), (ofMatrix A d).At x i ↔ x = i.val := by
    intro x i
    show (x, i.val) ∈ (List.range n).map (fun i => (i, i)) ↔ _
    rw [List.mem_map]
    constructor
    · rintro ⟨k, -, e⟩; cases e; rfl
    · rintro rfl; exact ⟨i, List.mem_range.2 i.isLt, rfl⟩
  refine ⟨⟨?_, ?_⟩, fun x => ?_, rfl, fun i j w => ⟨?_, fun e => ⟨i, j, (at_iff _ _).2 rfl, (at_iff _ _).2 rfl, e⟩⟩⟩
  · simp [ofMatrix, List.map_map, Function.comp_def, List.nodup_range]
  · simp [ofMatrix, List.map_map, Function.comp_def]
  · simp [ofMatrix, Node, List.map_map, Function.comp_def]
  · rintro ⟨a, b, ha, hb, e⟩
    rw [Fin.ext ((at_iff _ _).1 ha), Fin.ext ((at_iff _ _).1 hb)]
    exact e

omit [DecidableEq K] in
/-- **C07.** `from_networkx` gives a well-formed graph with the same nodes, in the same order. -/
theorem from_networkx_wf {H : NX K α} (hH : H.WF) (one : α) :
    (fromNX one H).WF ∧ (fromNX one H).nodes = H.nodes ∧ (fromNX one H).directed = H.directed := by
  refine ⟨wf_zipIdx hH.nodup rfl _ _, ?_, rfl⟩
  simp [fromNX, Graph.nodes]

/-- **C07.** in a well-formed graph every node has exactly one row, every row exactly one node, and
`id_to_key` is the inverse of `key_to_id`. -/
theorem key_id_bijection (h : G.WF) :
    (∀ u, G.Node u → ∃! i : Fin G.n, G.At u i) ∧ (∀ i : Fin G.n, ∃! u, G.At u i) ∧
    (∀ u i, G.keyToId.lookup u = some i ↔ G.keyOf i = some u) ∧
    (∀ u i, G.keyToId.lookup u = some i → i < G.n) ∧ G.len = G.nodes.length := by
  refine ⟨fun u hu => ?_, fun i => ?_, fun u i => ?_, fun u i hl => ?_, ?_⟩
  · obtain ⟨i, hi⟩ := hu.exists_id h
    exact ⟨i, hi, fun j hj => At.id_unique h hj hi⟩
  · obtain ⟨u, hu⟩ := h.exists_key i
    exact ⟨u, hu, fun v hv => At.key_unique h hv hu⟩
  · rw [lookup_eq_some_iff h.keys_nodup, keyOf_eq_some h]
  · exact h.id_lt ((lookup_eq_some_iff h.keys_nodup).1 hl)
  · rw [Graph.len, Graph.nodes, List.length_map, h.length]

/-- **C07.** every graph a modelled algorithm returns on well-formed graphs is well-formed. -/
theorem results_wf (h : G.WF) {H : Graph K α} (hH : H.WF) (h1 : G.multi = false)
    (h2 : H.multi = false) (one : α) (choose : α → α → α) :
    (∀ R, Model.union G H = .ok R → R.WF) ∧
    (∀ R, Model.intersection one G H = .ok R → R.WF) ∧
    (∀ R, Model.difference one G H = .ok R → R.WF) ∧
    (∀ R, Model.symmetricDifference one G H = .ok R → R.WF) ∧
    (∀ R, reverse G = .ok R → R.WF) ∧ (complement one G).WF ∧
    (∀ b, (toUndirected choose G b).WF) ∧
    (∀ s r c u R, 0 ≤ r → egoGraph choose G s r c u = .ok R → R.WF) := by
  refine ⟨?_, ?_, ?_, ?_, ?_, ⟨h.keys_nodup, h.ids_perm⟩, fun _ => ⟨h.keys_nodup, h.ids_perm⟩, ?_⟩
  · intro R hR
    by_cases hd : ∀ u, G.Node u → ¬ H.Node u
    · obtain ⟨R', e, hwf, -⟩ := union_correct h hH h1 h2 hd
      rw [hR] at e; cases e; exact hwf
    · push Not at hd
      obtain ⟨u, hu, hv⟩ := hd
      rw [union_overlap h1 h2 hu hv] at hR; cases hR
  · intro R hR
    obtain ⟨R', e, hwf, -⟩ := intersection_correct h hH h1 h2 one
    rw [hR] at e; cases e; exact hwf
  · intro R hR
    by_cases hs : ∀ u, G.Node u ↔ H.Node u
    · obtain ⟨R', e, hwf, -⟩ := (difference_correct h hH h1 h2 one).1 hs
      rw [hR] at e; cases e; exact hwf
    · rw [(difference_correct h hH h1 h2 one).2 hs] at hR; cases hR
  · intro R hR
    by_cases hs : ∀ u, G.Node u ↔ H.Node u
    · obtain ⟨R', e, hwf, -⟩ := (symmetric_difference_correct h hH h1 h2 one).1 hs
      rw [hR] at e; cases e; exact hwf
    · rw [(symmetric_difference_correct h hH h1 h2 one).2 hs] at hR; cases hR
  · intro R hR
    cases hd : G.directed with
    | true =>
      obtain ⟨R', e, hwf, -⟩ := (reverse_correct h).1 hd
      rw [hR] at e; cases e; exact hwf
    | false => rw [(reverse_correct h).2 hd] at hR; cases hR
  · intro s r c u R hr hR
    by_cases hs : G.Node s
    · obtain ⟨S, e, hI⟩ := ego_graph_correct h (choose := choose) hs hr c u
      rw [hR] at e; cases e; exact hI.wf
    · rw [ego_graph_missing h hs] at hR; cases hR

/-! ### C08 -/

/-- **C08.** `list_to_keys(list_to_ids(nodes)) = nodes`, for any list of nodes, with repetitions. -/
theorem list_to_keys_ids (h : G.WF) {nodes : List K} (hn : ∀ u ∈ nodes, G.Node u) :
    (listToIds G nodes >>= listToKeys G) = .ok nodes := by
  obtain ⟨ids, he, hf⟩ := listToIds_ok h hn
  rw [he]
  show listToKeys G ids = _
  unfold listToKeys
  clear he hn
  induction hf with
  | nil => rfl
  | cons hu _ ih =>
    rw [List.mapM_cons, keyAt_eq_ok h hu, ih]
    rfl

/-- **C08.** `list_to_ids(list_to_keys(ids)) = ids` -/
theorem list_to_ids_keys (h : G.WF) (ids : List (Fin G.n)) :
    (listToKeys G ids >>= listToIds G) = .ok ids := by
  have : listToKeys G ids = .ok (ids.map (keyFn h)) := mapM_ok fun i _ => keyAt_ok h i
  rw [this]
  show (ids.map (keyFn h)).mapM G.getId = _
  rw [List.mapM_map]
  have e := mapM_ok (f := G.getId ∘ keyFn h) (g := id) (l := ids)
    fun i _ => (getId_eq_ok h).2 (keyFn_at h i)
  rw [e, List.map_id]

/-- **C08.** an unknown node raises KeyError in list_to_ids, list_to_vector, set_to_vector
(without ignore_extra) and dict_to_vector. -/
theorem conversions_missing (h : G.WF) {nodes : List K} {u : K} (hu : u ∈ nodes) (hn : ¬ G.Node u) :
    listToIds G nodes = .error .keyError ∧ listToVector G nodes = .error .keyError ∧
    setToVector G nodes false = .error .keyError ∧
    ∀ d : List (K × β), d.map Prod.fst = nodes → dictToVector G d = .error .keyError := by
  have hall : ∀ y, ∀ e', G.getId y = .error e' → e' = .keyError := by
    intro y e' he
    by_cases hy : G.Node y
    · obtain ⟨i, hi⟩ := hy.exists_id h
      rw [(getId_eq_ok h).2 hi] at he; cases he
    · rw [getId_eq_error h hy] at he; cases he; rfl
  have e1 : listToIds G nodes = .error .keyError :=
    mapM_error hu (getId_eq_error h hn) fun y _ => hall y
  refine ⟨e1, ?_, ?_, ?_⟩
  · unfold listToVector; rw [e1]; rfl
  · unfold setToVector
    simp only [Bool.false_eq_true, if_false]
    rw [e1]; rfl
  · rintro d rfl
    obtain ⟨p, hp, rfl⟩ := List.mem_map.1 hu
    unfold dictToVector
    rw [mapM_error (e := Err.keyError) hp]
    · rfl
    · rw [getId_eq_error h hn]; rfl
    · intro q _ e' he
      cases hq : G.getId q.1 with
      | ok i => rw [hq] at he; cases he
      | error e => rw [hq] at he; cases he; exact hall _ _ hq

theorem dictToVector_ok (h : G.WF) {d : List (K × β)} (hne : d ≠ [])
    (hnd : (d.map Prod.fst).Nodup) (hn : ∀ k b, (k, b) ∈ d → G.Node k) :
    ∃ v, dictToVector G d = .ok v ∧ ∀ u i b, G.At u i → (v i = some b ↔ (u, b) ∈ d) := by
  have hex : ∃ ps : List (Fin G.n × β), (d.mapM fun p => (do
      let i ← G.getId p.1; .ok (i, p.2) : Except Err (Fin G.n × β))) = .ok ps ∧
      List.Forall₂ (fun p q => G.At p.1 q.1 ∧ p.2 = q.2) d ps := by
    clear hne hnd
    induction d with
    | nil => exact ⟨[], rfl, .nil⟩
    | cons p d ih =>
      obtain ⟨ps, he, hf⟩ := ih fun k b hm => hn k b (by simp [hm])
      obtain ⟨i, hi⟩ := (hn p.1 p.2 (by simp)).exists_id h
      refine ⟨(i, p.2) :: ps, ?_, .cons ⟨hi, rfl⟩ hf⟩
      rw [List.mapM_cons, (getId_eq_ok h).2 hi, he]
      rfl
  obtain ⟨ps, he, hf⟩ := hex
  have hmem : ∀ u i b, G.At u i → ((i, b) ∈ ps ↔ (u, b) ∈ d) := by
    intro u i b hu
    clear he hne hnd hn
    induction hf with
    | nil => simp
    | cons hpq _ ih =>
      rename_i p q _ _ _
      obtain ⟨pu, pb⟩ := p
      obtain ⟨qi, qb⟩ := q
      simp only at hpq
      obtain ⟨ha, rfl⟩ := hpq
      simp only [List.mem_cons, Prod.mk.injEq, ih]
      refine or_congr (and_congr_left fun _ => ⟨?_, ?_⟩) Iff.rfl
      · rintro rfl; exact At.key_unique h hu ha
      · rintro rfl; exact At.id_unique h hu ha
  have hps : (ps.map Prod.fst).Nodup := by
    clear he hne hn hmem
    induction hf with
    | nil => simp
    | cons hpq hf' ih =>
      rename_i p q d' ps'
      simp only [List.map_cons, List.nodup_cons] at hnd ⊢
      refine ⟨?_, ih hnd.2⟩
      intro hm
      obtain ⟨q', hq', e⟩ := List.mem_map.1 hm
      obtain ⟨n, hn1, e'⟩ := List.getElem_of_mem hq'
      have hn2 : n < d'.length := by rw [hf'.length_eq]; exact hn1
      have := (List.forall₂_iff_get.1 hf').2 n hn2 hn1
      simp only [List.get_eq_getElem, e'] at this
      have ek := At.key_unique h this.1 (e ▸ hpq.1)
      exact hnd.1 (ek ▸ List.mem_map.2 ⟨_, List.getElem_mem hn2, rfl⟩)
  refine ⟨fun i => ps.lookup i, ?_, ?_⟩
  · unfold dictToVector
    rw [he]
    show (if d = [] then _ else _) = _
    rw [if_neg hne]
    unfold fromCoo
    rw [if_pos hps]
  · intro u i b hu
    rw [← hmem u i b hu]
    clear he hmem hf
    show ps.lookup i = some b ↔ _
    induction ps with
    | nil => simp
    | cons p ps ih =>
      obtain ⟨k, c⟩ := p
      simp only [List.map_cons, List.nodup_cons] at hps
      by_cases hk : i = k
      · subst hk
        simp only [List.lookup_cons_self, Option.some.injEq, List.mem_cons, Prod.mk.injEq, true_and]
        constructor
        · rintro rfl; exact .inl rfl
        · rintro (rfl | hm)
          · rfl
          · exact absurd (List.mem_map.2 ⟨_, hm, rfl⟩) hps.1
      · have : (i == k) = false := by simpa using hk
        rw [List.lookup_cons, this]
        simp [ih hps.2, hk]

omit [DecidableEq K] in
theorem fillV_none {n : Nat} (v : Vec n β) : fillV none v = v := rfl

/-- `vector_to_dict(v)` lists exactly the stored entries, by key -/
theorem vector_to_dict_correct (h : G.WF) (v : Vec G.n β) :
    ∃ d, vectorToDict G v = .ok d ∧ (d.map Prod.fst).Nodup ∧
      ∀ u b, (u, b) ∈ d ↔ ∃ i, G.At u i ∧ v i = some b := by
  have e : ((tocoo v).mapM fun p => (do let k ← keyAt G p.1.val; .ok (k, p.2) : Except Err (K × β))) =
      .ok ((tocoo v).map fun p => (keyFn h p.1, p.2)) := by
    apply mapM_ok
    intro p _
    rw [keyAt_ok h]; rfl
  have hnd : (((tocoo v).map fun p => (keyFn h p.1, p.2)).map Prod.fst).Nodup := by
    rw [List.map_map]
    have : (Prod.fst ∘ fun p : Fin G.n × β => (keyFn h p.1, p.2)) = keyFn h ∘ Prod.fst := rfl
    rw [this, ← List.map_map]
    exact (tocoo_nodup v).map fun _ _ => keyFn_inj h
  refine ⟨(tocoo v).map fun p => (keyFn h p.1, p.2), ?_, hnd, ?_⟩
  · unfold vectorToDict
    rw [fillV_none, e]
    show Except.ok (dictOf _) = _
    rw [dictOf_nodup hnd]
  · intro u b
    simp only [List.mem_map, Prod.mk.injEq, Prod.exists]
    constructor
    · rintro ⟨i, b', hm, rfl, rfl⟩
      exact ⟨i, keyFn_at h i, mem_tocoo.1 hm⟩
    · rintro ⟨i, hu, hv⟩
      exact ⟨i, b, mem_tocoo.2 hv, keyFn_eq h hu, rfl⟩

/-- **C08.** `vector_to_dict(dict_to_vector(d))` equals `d` as a dictionary, for every non-empty
dictionary on nodes of the graph. -/
theorem vector_to_dict_dict_to_vector (h : G.WF) {d : List (K × β)} (hne : d ≠ [])
    (hnd : (d.map Prod.fst).Nodup) (hn : ∀ k b, (k, b) ∈ d → G.Node k) :
    ∃ d', (dictToVector G d >>= fun v => vectorToDict G v) = .ok d' ∧ (d'.map Prod.fst).Nodup ∧
      ∀ u b, (u, b) ∈ d' ↔ (u, b) ∈ d := by
  obtain ⟨v, hv, hs⟩ := dictToVector_ok h hne hnd hn
  obtain ⟨d', hd', hnd', hm⟩ := vector_to_dict_correct h v
  refine ⟨d', by rw [hv]; exact hd', hnd', fun u b => ?_⟩
  rw [hm]
  constructor
  · rintro ⟨i, hu, e⟩; exact (hs u i b hu).1 e
  · intro hmem
    obtain ⟨i, hu⟩ := (hn u b hmem).exists_id h
    exact ⟨i, hu, (hs u i b hu).2 hmem⟩

/-- **C08, finding.** the empty dictionary raises ValueError. -/
theorem dict_to_vector_empty : dictToVector G ([] : List (K × β)) = .error .valueError := rfl

/-- **C08.** with a fill value, `vector_to_dict` has every node as a key: the stored value where
there is one, the fill value elsewhere. -/
theorem vector_to_dict_fill (h : G.WF) (v : Vec G.n β) (c : β) :
    ∃ d, vectorToDict G v (some c) = .ok d ∧ (d.map Prod.fst).Nodup ∧
      ∀ u b, (u, b) ∈ d ↔ ∃ i, G.At u i ∧ (v i).getD c = b := by
  have hf : ∀ i, fillV (some c) v i = some ((v i).getD c) := by
    intro i
    have hm : ∀ i, vassignC (vnot (vS v)) v c i = some ((v i).getD c) := by
      intro i
      unfold vassignC
      cases hv : v i with
      | none => rw [if_pos (show vnot (vS v) i = true by simp [vnot, vS, hv])]; rfl
      | some b => rw [if_neg (show ¬ vnot (vS v) i = true by simp [vnot, vS, hv])]; rfl
    unfold fillV
    simp only
    split
    · exact hm i
    · rename_i hnv
      have hfull : nvals v = G.n := le_antisymm (nvals_le v) (not_lt.1 hnv)
      have : (Finset.univ.filter fun i => (v i).isSome) = Finset.univ := by
        rw [← Finset.card_eq_iff_eq_univ, Fintype.card_fin]; exact hfull
      have hi : i ∈ Finset.univ.filter fun i => (v i).isSome := by rw [this]; simp
      obtain ⟨b, hb⟩ := Option.isSome_iff_exists.1 (Finset.mem_filter.1 hi).2
      rw [hb]; rfl
  obtain ⟨d, hd, hnd, hm⟩ := vector_to_dict_correct h (fillV (some c) v)
  refine ⟨d, ?_, hnd, fun u b => ?_⟩
  · rw [← hd]; rfl
  · rw [hm]; simp only [hf, Option.some.injEq]

/-- **C08.** `set_to_vector(nodes, ignore_extra=True)` followed by `vector_to_set` keeps exactly the
members that are nodes of the graph. -/
theorem set_to_vector_ignore_extra (h : G.WF) (nodes : List K) :
    ∃ s, (setToVector G nodes true >>= fun v => vectorToSet G v) = .ok s ∧ s.Nodup ∧
      ∀ u, u ∈ s ↔ u ∈ nodes ∧ G.Node u := by
  obtain ⟨ids, he, hf⟩ := listToIds_ok h (keys := nodes.filter fun k => G.contains k)
    (fun u hu => contains_iff.1 (List.mem_filter.1 hu).2)
  have hk : listToKeys G (indices (vofIds ids true)) =
      .ok ((indices (vofIds ids true)).map (keyFn h)) := mapM_ok fun i _ => keyAt_ok h i
  refine ⟨(indices (vofIds ids true)).map (keyFn h), ?_,
    (indices_nodup _).map fun _ _ => keyFn_inj h, ?_⟩
  · unfold setToVector
    simp only [if_true]
    rw [he]
    exact hk
  · intro u
    have hids : ∀ i, i ∈ ids ↔ ∃ v ∈ nodes, G.At v i := by
      intro i
      have : i ∈ ids ↔ ∃ v ∈ nodes.filter (fun k => G.contains k), G.At v i := by
        clear he hk
        generalize nodes.filter (fun k => G.contains k) = ns at hf
        induction hf with
        | nil => simp
        | cons ha _ ih =>
          simp only [List.mem_cons, exists_eq_or_imp, ih]
          refine or_congr ⟨?_, ?_⟩ Iff.rfl
          · rintro rfl; exact ha
          · intro ha'; exact At.id_unique h ha' ha
      rw [this]
      constructor
      · rintro ⟨v, hv, hi⟩; exact ⟨v, (List.mem_filter.1 hv).1, hi⟩
      · rintro ⟨v, hv, hi⟩
        exact ⟨v, List.mem_filter.2 ⟨hv, contains_iff.2 hi.node⟩, hi⟩
    simp only [List.mem_map, mem_indices, vofIds]
    constructor
    · rintro ⟨i, hi, rfl⟩
      have : i ∈ ids := by by_contra hc; rw [if_neg hc] at hi; cases hi
      obtain ⟨v, hv, ha⟩ := (hids i).1 this
      rw [keyFn_eq h ha]
      exact ⟨hv, ha.node⟩
    · rintro ⟨hu, hn⟩
      obtain ⟨i, hi⟩ := hn.exists_id h
      refine ⟨i, ?_, keyFn_eq h hi⟩
      rw [if_pos ((hids i).2 ⟨u, hu, hi⟩)]; rfl

/-- **C08.** `vector_to_list(v)`: the keys of the stored entries, once each, in row order. -/
theorem vector_to_list_correct (h : G.WF) (v : Vec G.n β) :
    ∃ l, vectorToList G v = .ok l ∧ l.Nodup ∧ (∀ u, u ∈ l ↔ ∃ i, G.At u i ∧ (v i).isSome) ∧
      l.Pairwise (fun a b => ∀ i j, G.At a i → G.At b j → i < j) := by
  have hk : listToKeys G (indices v) = .ok ((indices v).map (keyFn h)) := mapM_ok fun i _ => keyAt_ok h i
  refine ⟨_, hk, (indices_nodup _).map fun _ _ => keyFn_inj h, fun u => ?_, ?_⟩
  · simp only [List.mem_map, mem_indices]
    exact ⟨fun ⟨i, hi, e⟩ => ⟨i, e ▸ keyFn_at h i, hi⟩, fun ⟨i, hi, e⟩ => ⟨i, e, keyFn_eq h hi⟩⟩
  · rw [List.pairwise_map]
    have : (indices v).Pairwise (· < ·) := (List.pairwise_lt_finRange _).filter _
    refine this.imp ?_
    intro a b hab i j hi hj
    rwa [At.id_unique h hi (keyFn_at h a), At.id_unique h hj (keyFn_at h b)]

/-- **C08.** `vector_to_list(v, values_are_keys=True)`: for every node with an entry, in the same order as
`vector_to_list(v)`, the node whose internal number is stored there. -/
theorem vector_to_list_values (h : G.WF) (v : Vec G.n Nat) (hv : ∀ i b, v i = some b → b < G.n) :
    ∃ src l, vectorToList G v = .ok src ∧ vectorToListV G v = .ok l ∧
      List.Forall₂ (fun s u => ∃ i j, G.At s i ∧ G.At u j ∧ v i = some j.val) src l := by
  have hk : listToKeys G (indices v) = .ok ((indices v).map (keyFn h)) := mapM_ok fun i _ => keyAt_ok h i
  have gen : ∀ ps : List (Fin G.n × Nat), (∀ p ∈ ps, v p.1 = some p.2) →
      ∃ l, (ps.mapM fun p => keyAt G p.2) = .ok l ∧
      List.Forall₂ (fun s u => ∃ i j, G.At s i ∧ G.At u j ∧ v i = some j.val)
        ((ps.map Prod.fst).map (keyFn h)) l := by
    intro ps
    induction ps with
    | nil => intro _; exact ⟨[], rfl, .nil⟩
    | cons p ps ih =>
      intro hp
      obtain ⟨l, hl, hf⟩ := ih fun q hq => hp q (by simp [hq])
      have hlt := hv _ _ (hp p (by simp))
      refine ⟨keyFn h ⟨p.2, hlt⟩ :: l, ?_, .cons ⟨p.1, ⟨p.2, hlt⟩, keyFn_at h _, keyFn_at h _, hp p (by simp)⟩ hf⟩
      rw [List.mapM_cons, show keyAt G p.2 = .ok (keyFn h ⟨p.2, hlt⟩) from keyAt_ok h ⟨p.2, hlt⟩, hl]
      rfl
  obtain ⟨l, hl, hf⟩ := gen (tocoo v) fun p hp => mem_tocoo.1 hp
  rw [tocoo_fst] at hf
  exact ⟨_, l, hk, hl, hf⟩

/-! ### C09 -/

/-- key `k` stands for row/column `i` on an axis: the raw number or the node key -/
def AxisKey (G : Graph K α) (raw : Bool) (k : K ⊕ Nat) (i : Fin G.n) : Prop :=
  if raw then k = .inr i.val else ∃ u, k = .inl u ∧ G.At u i

omit [DecidableEq K] in
theorem axisKey_iff (h : G.WF) (raw : Bool) (k : K ⊕ Nat) (i : Fin G.n) :
    AxisKey G raw k i ↔ axk h raw i = k := by
  unfold AxisKey axk
  cases raw
  · simp only [Bool.false_eq_true, if_false]
    constructor
    · rintro ⟨u, rfl, hu⟩; rw [keyFn_eq h hu]
    · rintro rfl; exact ⟨_, rfl, keyFn_at h i⟩
  · simp only [if_true]; exact eq_comm

/-- what `matrix_to_dicts` must return: a dict of non-empty dicts with exactly the stored entries -/
structure IsDictOfDicts (G : Graph K α) (A : Mat G.n G.n β) (g : β → γ) (rawR rawC : Bool)
    (D : List ((K ⊕ Nat) × List ((K ⊕ Nat) × γ))) : Prop where
  rows_nodup : (D.map Prod.fst).Nodup
  cols_nodup : ∀ r row, (r, row) ∈ D → (row.map Prod.fst).Nodup ∧ row ≠ []
  entries : ∀ r c v, (∃ row, (r, row) ∈ D ∧ (c, v) ∈ row) ↔
    ∃ i j x, AxisKey G rawR r i ∧ AxisKey G rawC c j ∧ A i j = some x ∧ v = g x

/-- **C09.** `matrix_to_dicts(A, use_row_index=, use_column_index=, values_are_keys=)` on a matrix with
at least one entry, all flag combinations; for a transposed matrix, provided the two flags agree.
`dec`/`g`: the decoding of values (identity, or id to key). -/
theorem matrix_to_dicts_partial (h : G.WF) (A : Mat G.n G.n β) (hA : ∃ i j, (A i j).isSome)
    (dec : β → Except Err γ) (g : β → γ) (hdec : ∀ i j x, A i j = some x → dec x = .ok (g x))
    (tr rawR rawC : Bool) (htr : tr = true → rawR = rawC) :
    ∃ D, matrixToDicts G A tr rawR rawC dec = .ok D ∧ IsDictOfDicts G A g rawR rawC D := by
  have hok : matrixToDicts G A tr rawR rawC dec = .ok ((nonEmptyRows A).map fun i =>
        (axk h rawR i, (tocoo (A i)).map fun p => (axk h rawC p.1, g p.2))) := by
    unfold matrixToDicts
    cases tr with
    | false => exact hyperToDicts_ok h A hA dec g hdec rawR rawC
    | true =>
      obtain rfl := htr rfl
      exact hyperToDicts_ok h A hA dec g hdec rawR rawR
  refine ⟨_, hok, ?_, ?_, ?_⟩
  · rw [List.map_map]
    exact (List.Nodup.filter _ (List.nodup_finRange _)).map fun i j e => axk_inj h rawR e
  · intro r row hm
    obtain ⟨i, hi, e⟩ := List.mem_map.1 hm
    simp only [Prod.mk.injEq] at e
    obtain ⟨-, rfl⟩ := e
    constructor
    · rw [List.map_map]
      have : (Prod.fst ∘ fun p : Fin G.n × β => (axk h rawC p.1, g p.2)) = axk h rawC ∘ Prod.fst := rfl
      rw [this, ← List.map_map]
      exact (tocoo_nodup _).map fun _ _ => axk_inj h rawC
    · intro e
      have := (List.mem_filter.1 hi).2
      rw [List.map_eq_nil_iff.1 e] at this
      simp at this
  · intro r c v
    constructor
    · rintro ⟨row, hm, hc⟩
      obtain ⟨i, hi, e⟩ := List.mem_map.1 hm
      simp only [Prod.mk.injEq] at e
      obtain ⟨rfl, rfl⟩ := e
      obtain ⟨⟨j, x⟩, hx, e⟩ := List.mem_map.1 hc
      simp only [Prod.mk.injEq] at e
      exact ⟨i, j, x, (axisKey_iff h _ _ _).2 rfl, (axisKey_iff h _ _ _).2 e.1, mem_tocoo.1 hx, e.2.symm⟩
    · rintro ⟨i, j, x, hr, hc, hx, rfl⟩
      obtain rfl := (axisKey_iff h _ _ _).1 hr
      obtain rfl := (axisKey_iff h _ _ _).1 hc
      refine ⟨_, List.mem_map.2 ⟨i, ?_, rfl⟩, List.mem_map.2 ⟨(j, x), mem_tocoo.2 hx, rfl⟩⟩
      unfold nonEmptyRows
      simp only [List.mem_filter, List.mem_finRange, true_and, Bool.not_eq_true']
      rw [← Bool.not_eq_true, tocoo_isEmpty]
      intro e; rw [e j] at hx; cases hx

/-- **C09, finding.** a matrix without entries raises ValueError (the window over the row pointers is
larger than the array). -/
theorem matrix_to_dicts_empty (A : Mat G.n G.n β) (hA : ∀ i j, A i j = none)
    (dec : β → Except Err γ) (tr rawR rawC : Bool) :
    matrixToDicts G A tr rawR rawC dec = .error .valueError := by
  have hr : ((List.finRange G.n).filter fun i => !(tocoo (A i)).isEmpty) = [] := by
    rw [List.filter_eq_nil_iff]
    intro i _
    simp [tocoo_isEmpty.2 (hA i)]
  have hh : hypercsr A = ⟨[], [0], [], []⟩ := by
    unfold hypercsr; rw [hr]; rfl
  unfold matrixToDicts
  rw [hh]
  cases tr <;> rfl

/-- **C09, finding.** on a transposed matrix the two index flags are swapped: asking for raw row
numbers and column keys returns row keys and raw column numbers. -/
theorem matrix_to_dicts_transposed_flags_swapped :
    Ex.dg.WF ∧ matrixToDicts Ex.dg (transpose (Ex.dg.A)) true true false (fun v => .ok v) =
      matrixToDicts Ex.dg (transpose (Ex.dg.A)) false false true (fun v => .ok v) ∧
    (matrixToDicts Ex.dg (transpose (Ex.dg.A)) true true false (fun v => .ok v)).toOption ≠
    (matrixToDicts Ex.dg (transpose (Ex.dg.A)) false true false (fun v => .ok v)).toOption := by
  refine ⟨Ex.dg_wf, rfl, ?_⟩
  decide +kernel

example : (∃ i j, (Ex.dg.A i j).isSome) ∧
    (matrixToDicts Ex.dg Ex.dg.A false false true (fun v => .ok v)).toOption =
      some [(.inl 20, [(.inr 1, 7)]), (.inl 30, [(.inr 0, 2), (.inr 1, 1)]), (.inl 10, [(.inr 0, 5)])] := by
  decide +kernel

/-! ### C10 -/

/-- one step of the loop that adds edges -/
private theorem nx_fold (dir : Bool) (T : K → K → Option α) (l : List (K × K × α))
    (hl : ∀ t ∈ l, T t.1 t.2.1 = some t.2.2 ∧ (dir = false → T t.2.1 t.1 = some t.2.2)) :
    ∀ (adj : K → K → Option (Option α)) (x y : K),
      (l.foldl (fun adj t => nxAdd dir adj t.1 t.2.1 t.2.2) adj) x y =
        if ∃ t ∈ l, (x = t.1 ∧ y = t.2.1) ∨ (dir = false ∧ x = t.2.1 ∧ y = t.1)
        then (T x y).map some else adj x y := by
  classical
  induction l with
  | nil => intro adj x y; simp
  | cons t l ih =>
    intro adj x y
    rw [List.foldl_cons, ih fun t ht => hl t (by simp [ht])]
    by_cases h1 : ∃ t ∈ l, (x = t.1 ∧ y = t.2.1) ∨ (dir = false ∧ x = t.2.1 ∧ y = t.1)
    · rw [if_pos h1, if_pos]
      obtain ⟨t', ht', h⟩ := h1
      exact ⟨t', by simp [ht'], h⟩
    · rw [if_neg h1]
      have ht := hl t (by simp)
      unfold nxAdd
      by_cases h2 : (x = t.1 ∧ y = t.2.1) ∨ (dir = false ∧ x = t.2.1 ∧ y = t.1)
      · rw [if_pos h2, if_pos ⟨t, by simp, h2⟩]
        rcases h2 with ⟨rfl, rfl⟩ | ⟨hd, rfl, rfl⟩
        · rw [ht.1]; rfl
        · rw [ht.2 hd]; rfl
      · rw [if_neg h2, if_neg]
        rintro ⟨t', ht', h⟩
        rcases List.mem_cons.1 ht' with rfl | ht'
        · exact h2 h
        · exact h1 ⟨t', ht', h⟩

/-- **C10.** `G.to_networkx()`: the same nodes in the same order, the same kind, and exactly the
weighted edges of `G` (for undirected `G`, whose matrix is symmetric, although only the lower
triangle is read). -/
theorem to_networkx_correct (h : G.WF) (hs : G.directed = false → G.Symm) :
    ∃ H, toNX G = .ok H ∧ H.nodes = G.nodes ∧ H.directed = G.directed ∧
      ∀ u v d, H.adj u v = some d ↔ ∃ w, d = some w ∧ G.WEdge u v w := by
  classical
  let A := if G.directed then G.A else tril G.A
  let l : List (K × K × α) := (tocoo2 A).map fun t => (keyFn h t.1, keyFn h t.2.1, t.2.2)
  let T : K → K → Option α := fun u v => G.weight? u v
  have hT : ∀ u v w, T u v = some w ↔ G.WEdge u v w := by
    intro u v w
    simp only [T, Graph.weight?, Option.bind_eq_some_iff, idOf_eq_some h]
    exact ⟨fun ⟨i, hi, j, hj, e⟩ => ⟨i, j, hi, hj, e⟩, fun ⟨i, j, hi, hj, e⟩ => ⟨i, hi, j, hj, e⟩⟩
  have hA : ∀ i j w, A i j = some w → G.A i j = some w := by
    intro i j w
    simp only [A]
    cases G.directed with
    | true => simp
    | false =>
      simp only [Bool.false_eq_true, if_false, tril]
      split
      · exact id
      · intro e; cases e
  have hfold : toNX G = .ok ⟨G.keyToId.map Prod.fst, G.directed,
      l.foldl (fun adj t => nxAdd G.directed adj t.1 t.2.1 t.2.2) (fun _ _ => none)⟩ := by
    have key : ∀ (ts : List (Fin G.n × Fin G.n × α)) (adj : K → K → Option (Option α)),
        ts.foldlM (fun adj t => do
          let u ← keyAt G t.1.val
          let v ← keyAt G t.2.1.val
          (.ok (nxAdd G.directed adj u v t.2.2) : Except Err _)) adj =
        .ok ((ts.map fun t => (keyFn h t.1, keyFn h t.2.1, t.2.2)).foldl
          (fun adj t => nxAdd G.directed adj t.1 t.2.1 t.2.2) adj) := by
      intro ts
      induction ts with
      | nil => intro adj; rfl
      | cons t ts ih =>
        intro adj
        rw [List.foldlM_cons, keyAt_ok h, keyAt_ok h]
        exact ih _
    have := key (tocoo2 A) (fun _ _ => none)
    unfold toNX
    exact congrArg (fun r : Except Err (K → K → Option (Option α)) => (do
      let adj ← r
      return { nodes := G.keyToId.map Prod.fst, directed := G.directed, adj := adj } :
        Except Err (NX K α))) this
  refine ⟨_, hfold, rfl, rfl, ?_⟩
  intro u v d
  have hl : ∀ t ∈ l, T t.1 t.2.1 = some t.2.2 ∧ (G.directed = false → T t.2.1 t.1 = some t.2.2) := by
    intro t ht
    obtain ⟨⟨i, j, w⟩, hm, rfl⟩ := List.mem_map.1 ht
    have e := hA i j w (mem_tocoo2.1 hm)
    refine ⟨(hT _ _ _).2 ⟨i, j, keyFn_at h i, keyFn_at h j, e⟩, fun hd => (hT _ _ _).2
      ⟨j, i, keyFn_at h j, keyFn_at h i, ?_⟩⟩
    rw [← hs hd i j]; exact e
  show (l.foldl (fun adj t => nxAdd G.directed adj t.1 t.2.1 t.2.2) (fun _ _ => none)) u v = some d ↔ _
  rw [nx_fold G.directed T l hl]
  constructor
  · intro e
    split at e
    · obtain ⟨w, hw, rfl⟩ := Option.map_eq_some_iff.1 e
      exact ⟨w, rfl, (hT _ _ _).1 hw⟩
    · cases e
  · rintro ⟨w, rfl, hw⟩
    have hw' := (hT _ _ _).2 hw
    rw [if_pos, hw']
    · rfl
    · obtain ⟨i, j, hi, hj, e⟩ := hw
      cases hd : G.directed with
      | true =>
        refine ⟨(u, v, w), List.mem_map.2 ⟨(i, j, w), mem_tocoo2.2 (by simp [A, hd, e]), ?_⟩,
          .inl ⟨rfl, rfl⟩⟩
        simp [keyFn_eq h hi, keyFn_eq h hj]
      | false =>
        rcases le_total j i with hji | hij
        · refine ⟨(u, v, w), List.mem_map.2 ⟨(i, j, w), mem_tocoo2.2 ?_, ?_⟩, .inl ⟨rfl, rfl⟩⟩
          · simp [A, hd, tril, hji, e]
          · simp [keyFn_eq h hi, keyFn_eq h hj]
        · refine ⟨(v, u, w), List.mem_map.2 ⟨(j, i, w), mem_tocoo2.2 ?_, ?_⟩, .inr ⟨rfl, rfl, rfl⟩⟩
          · simp [A, hd, tril, hij, ← hs hd i j, e]
          · simp [keyFn_eq h hi, keyFn_eq h hj]

omit [DecidableEq K] in
/-- **C10.** `from_networkx(H)`: weighted edges are exactly `H`'s, with weight one where the attribute
is missing. -/
theorem from_networkx_edges {H : NX K α} (hH : H.WF) (one : α) (u v : K) (w : α) :
    (fromNX one H).WEdge u v w ↔ ∃ d, H.adj u v = some d ∧ w = d.getD one := by
  constructor
  · rintro ⟨i, j, hi, hj, e⟩
    obtain ⟨hi', ei⟩ := List.getElem?_eq_some_iff.1 (at_zipIdx.1 hi)
    obtain ⟨hj', ej⟩ := List.getElem?_eq_some_iff.1 (at_zipIdx.1 hj)
    simp only [fromNX, List.get_eq_getElem, ei, ej, Option.map_eq_some_iff] at e
    obtain ⟨d, hd, rfl⟩ := e
    exact ⟨d, hd, rfl⟩
  · rintro ⟨d, hd, rfl⟩
    obtain ⟨hu, hv⟩ := hH.adj_nodes u v (by rw [hd]; rfl)
    obtain ⟨i, hi, rfl⟩ := List.getElem_of_mem hu
    obtain ⟨j, hj, rfl⟩ := List.getElem_of_mem hv
    refine ⟨⟨i, hi⟩, ⟨j, hj⟩, at_zipIdx.2 (List.getElem?_eq_getElem hi),
      at_zipIdx.2 (List.getElem?_eq_getElem hj), ?_⟩
    simp [fromNX, hd]

omit [DecidableEq K] in
theorem from_networkx_symm {H : NX K α} (hH : H.WF) (one : α) (hd : H.directed = false) :
    (fromNX one H).Symm := by
  intro i j
  simp only [fromNX]
  rw [hH.symm hd]

/-- **C10.** `to_networkx(from_networkx(H, weight))` has the same nodes in the same order, the same
kind, the same edges, and every edge carries its weight (one if it had none). -/
theorem networkx_round_trip {H : NX K α} (hH : H.WF) (one : α) :
    ∃ H', toNX (fromNX one H) = .ok H' ∧ H'.nodes = H.nodes ∧ H'.directed = H.directed ∧
      ∀ u v, H'.adj u v = (H.adj u v).map fun d => some (d.getD one) := by
  obtain ⟨hwf, hn, hd⟩ := from_networkx_wf hH one
  obtain ⟨H', e, hn', hd', hadj⟩ := to_networkx_correct hwf
    (fun hdir => from_networkx_symm hH one (hd ▸ hdir))
  refine ⟨H', e, hn'.trans hn, hd'.trans hd, fun u v => ?_⟩
  cases hv : H.adj u v with
  | none =>
    simp only [Option.map_none]
    cases hv' : H'.adj u v with
    | none => rfl
    | some d =>
      obtain ⟨w, -, hw⟩ := (hadj u v d).1 hv'
      obtain ⟨d', hd', -⟩ := (from_networkx_edges hH one u v w).1 hw
      rw [hv] at hd'; cases hd'
  | some d =>
    simp only [Option.map_some]
    exact (hadj u v _).2 ⟨_, rfl, (from_networkx_edges hH one u v _).2 ⟨d, hv, rfl⟩⟩

/-- **C10.** the other way round: a well-formed graph object keeps its nodes and weighted edges
through `from_networkx(G.to_networkx(), weight="weight")` (rows may be renumbered). -/
theorem graph_round_trip (h : G.WF) (hs : G.directed = false → G.Symm) (one : α) :
    ∃ H, toNX G = .ok H ∧ H.WF ∧ (fromNX one H).WF ∧ (fromNX one H).nodes = G.nodes ∧
      (fromNX one H).directed = G.directed ∧
      ∀ u v w, (fromNX one H).WEdge u v w ↔ G.WEdge u v w := by
  obtain ⟨H, e, hn, hd, hadj⟩ := to_networkx_correct h hs
  have hH : H.WF := by
    refine ⟨by rw [hn]; exact h.keys_nodup, ?_, ?_⟩
    · intro u v hu
      obtain ⟨d, hd⟩ := Option.isSome_iff_exists.1 hu
      obtain ⟨w, -, i, j, hi, hj, -⟩ := (hadj u v d).1 hd
      rw [hn]; exact ⟨hi.node, hj.node⟩
    · intro hdir u v
      have sym : ∀ u v d, H.adj u v = some d → H.adj v u = some d := by
        intro u v d hd'
        obtain ⟨w, rfl, i, j, hi, hj, e⟩ := (hadj u v d).1 hd'
        exact (hadj v u _).2 ⟨w, rfl, j, i, hj, hi, by rw [← hs (hd ▸ hdir) i j]; exact e⟩
      cases h1 : H.adj u v with
      | some d => rw [sym u v d h1]
      | none =>
        cases h2 : H.adj v u with
        | none => rfl
        | some d => rw [sym v u d h2] at h1; cases h1
  refine ⟨H, e, hH, (from_networkx_wf hH one).1, (from_networkx_wf hH one).2.1.trans hn,
    hd, fun u v w => ?_⟩
  rw [from_networkx_edges hH]
  constructor
  · rintro ⟨d, hd, rfl⟩
    obtain ⟨w, rfl, hw⟩ := (hadj u v d).1 hd
    exact hw
  · intro hw
    exact ⟨some w, (hadj u v _).2 ⟨w, rfl, hw⟩, rfl⟩

/-- a NetworkX graph 1 - 2 (weight missing), 2 - 3 (weight 4), loop at 3 (weight 5) -/
def Ex.nxg : NX Nat Int where
  nodes := [3, 1, 2]
  directed := false
  adj := fun u v =>
    if (u, v) = (1, 2) ∨ (u, v) = (2, 1) then some none
    else if (u, v) = (2, 3) ∨ (u, v) = (3, 2) then some (some 4)
    else if (u, v) = (3, 3) then some (some 5) else none
theorem Ex.nxg_wf : Ex.nxg.WF := by
  refine ⟨by decide, ?_, ?_⟩
  · intro u v
    simp only [Ex.nxg, Prod.mk.injEq]
    split_ifs with h1 h2 h3
    · intro _; rcases h1 with ⟨rfl, rfl⟩ | ⟨rfl, rfl⟩ <;> simp
    · intro _; rcases h2 with ⟨rfl, rfl⟩ | ⟨rfl, rfl⟩ <;> simp
    · intro _; obtain ⟨rfl, rfl⟩ := h3; simp
    · intro h; cases h
  · intro _ u v
    simp only [Ex.nxg, Prod.mk.injEq]
    congr 1
    · simp only [eq_iff_iff]; tauto
    · congr 1
      · simp only [eq_iff_iff]; tauto
      · congr 1
        simp only [eq_iff_iff]; tauto
example : (match toNX (fromNX 1 Ex.nxg) with
    | .ok H => decide (H.adj 1 2 = some (some 1) ∧ H.adj 3 2 = some (some 4) ∧ H.adj 3 3 = some (some 5) ∧
        H.adj 1 3 = none ∧ H.nodes = [3, 1, 2])
    | .error _ => false) = true := by decide +kernel
example : (dictToVector Ex.dg [(20, 5), (10, 6)] >>= fun v => vectorToDict Ex.dg v).toOption =
    some [(20, 5), (10, 6)] := by decide +kernel
example : (setToVector Ex.dg [20, 99, 10, 20] true >>= fun v => vectorToSet Ex.dg v).toOption =
    some [20, 10] := by decide +kernel

end Props
