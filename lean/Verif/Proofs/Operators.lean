import Verif.Model.Operators
import Verif.Proofs.Dict
import Verif.Proofs.SubGraph
import Mathlib.Data.List.Sort

open GB Spec Model Model.Graph

namespace Proofs

variable {K K' α : Type} [DecidableEq K] [DecidableEq K'] {G H : Graph K α}

/-! ### union -/

theorem unionKeys_eq (hG : G.WF) (hH : H.WF) (hd : ∀ u, G.Node u → ¬ H.Node u) :
    unionKeys G H = (H.keyToId.map fun p => (p.1, p.2 + G.n)) ++ G.keyToId := by
  have e : (H.keyToId.map fun p => (p.1, p.2 + G.n)).map Prod.fst = H.keyToId.map Prod.fst := by
    simp [List.map_map, Function.comp_def]
  unfold unionKeys
  rw [dictOf_nodup (by rw [e]; exact hH.keys_nodup), dupdate_append]
  rw [List.map_append, e, List.nodup_append]
  exact ⟨hH.keys_nodup, hG.keys_nodup, fun a ha b hb e => hd b hb (e ▸ ha)⟩

/-- the graph object `union` builds for disjoint node sets -/
def unionGraph (G H : Graph K α) : Graph K α :=
  ⟨G.n + H.n, blockDiag G.A H.A, (H.keyToId.map fun p => (p.1, p.2 + G.n)) ++ G.keyToId,
    G.directed, G.multi⟩

theorem multiCheck_ok (h1 : G.multi = false) (h2 : H.multi = false) : multiCheck G H = .ok () := by
  simp [multiCheck, h1, h2]

theorem union_ok (hG : G.WF) (hH : H.WF) (h1 : G.multi = false) (h2 : H.multi = false)
    (hd : ∀ u, G.Node u → ¬ H.Node u) : Model.union G H = .ok (unionGraph G H) := by
  unfold Model.union
  rw [multiCheck_ok h1 h2]
  have : (G.keyToId.any fun p => H.contains p.1) = false := by
    rw [List.any_eq_false]
    intro p hp hc
    exact hd p.1 (List.mem_map.2 ⟨p, hp, rfl⟩) (contains_iff.1 hc)
  show (if _ then _ else _) = _
  rw [this, unionKeys_eq hG hH hd]
  rfl

omit [DecidableEq K] in
theorem unionGraph_wf (hG : G.WF) (hH : H.WF) (hd : ∀ u, G.Node u → ¬ H.Node u) :
    (unionGraph G H).WF := by
  have e : (H.keyToId.map fun p => (p.1, p.2 + G.n)).map Prod.fst = H.keyToId.map Prod.fst := by
    simp [List.map_map, Function.comp_def]
  refine ⟨?_, ?_⟩
  · show List.Nodup (List.map Prod.fst (_ ++ _))
    rw [List.map_append, e, List.nodup_append]
    exact ⟨hH.keys_nodup, hG.keys_nodup, fun a ha b hb e => hd b hb (e ▸ ha)⟩
  · show List.Perm (List.map Prod.snd (_ ++ _)) (List.range (G.n + H.n))
    rw [List.map_append, List.range_add]
    refine (List.perm_append_comm).trans (hG.ids_perm.append ?_)
    have : (H.keyToId.map fun p => (p.1, p.2 + G.n)).map Prod.snd =
        (H.keyToId.map Prod.snd).map (fun x => G.n + x) := by
      simp [List.map_map, Function.comp_def, Nat.add_comm]
    rw [this]
    exact hH.ids_perm.map _

omit [DecidableEq K] in
theorem unionGraph_at (hG : G.WF) {u : K} (i : Fin (G.n + H.n)) :
    (unionGraph G H).At u i ↔
      (∃ a, i = Fin.castAdd H.n a ∧ G.At u a) ∨ (∃ b, i = Fin.natAdd G.n b ∧ H.At u b) := by
  unfold At unionGraph
  simp only [List.mem_append, List.mem_map, Prod.mk.injEq, Prod.exists]
  constructor
  · rintro (⟨a, b, hm, rfl, hb⟩ | hm)
    · right
      have : b < H.n := by have := i.isLt; omega
      exact ⟨⟨b, this⟩, Fin.ext (by simp; omega), hm⟩
    · left
      exact ⟨⟨i.val, hG.id_lt hm⟩, Fin.ext rfl, hm⟩
  · rintro (⟨a, rfl, hm⟩ | ⟨b, rfl, hm⟩)
    · right; simpa using hm
    · left; exact ⟨u, b, hm, rfl, by simp; omega⟩

omit [DecidableEq K] in
theorem blockDiag_ll {m n : Nat} (A : Mat m m α) (B : Mat n n α) (a b : Fin m) :
    blockDiag A B (Fin.castAdd n a) (Fin.castAdd n b) = A a b := by simp [blockDiag]
omit [DecidableEq K] in
theorem blockDiag_lr {m n : Nat} (A : Mat m m α) (B : Mat n n α) (a : Fin m) (b : Fin n) :
    blockDiag A B (Fin.castAdd n a) (Fin.natAdd m b) = none := by simp [blockDiag]
omit [DecidableEq K] in
theorem blockDiag_rl {m n : Nat} (A : Mat m m α) (B : Mat n n α) (a : Fin n) (b : Fin m) :
    blockDiag A B (Fin.natAdd m a) (Fin.castAdd n b) = none := by simp [blockDiag]
omit [DecidableEq K] in
theorem blockDiag_rr {m n : Nat} (A : Mat m m α) (B : Mat n n α) (a b : Fin n) :
    blockDiag A B (Fin.natAdd m a) (Fin.natAdd m b) = B a b := by simp [blockDiag]

omit [DecidableEq K] in
theorem unionGraph_node {u : K} : (unionGraph G H).Node u ↔ G.Node u ∨ H.Node u := by
  unfold Node unionGraph
  simp only [List.map_append, List.mem_append, List.map_map, Function.comp_def]
  tauto

omit [DecidableEq K] in
theorem unionGraph_wedge (hG : G.WF) {u v : K} {w : α} :
    (unionGraph G H).WEdge u v w ↔ G.WEdge u v w ∨ H.WEdge u v w := by
  constructor
  · rintro ⟨i, j, hi, hj, hw⟩
    rcases (unionGraph_at hG i).1 hi with ⟨a, rfl, ha⟩ | ⟨a, rfl, ha⟩ <;>
      rcases (unionGraph_at hG j).1 hj with ⟨b, rfl, hb⟩ | ⟨b, rfl, hb⟩
    · exact .inl ⟨a, b, ha, hb, by rw [← hw]; exact (blockDiag_ll ..).symm⟩
    · have : (unionGraph G H).A _ _ = none := blockDiag_lr G.A H.A a b
      rw [this] at hw; cases hw
    · have : (unionGraph G H).A _ _ = none := blockDiag_rl G.A H.A a b
      rw [this] at hw; cases hw
    · exact .inr ⟨a, b, ha, hb, by rw [← hw]; exact (blockDiag_rr ..).symm⟩
  · rintro (⟨a, b, ha, hb, hw⟩ | ⟨a, b, ha, hb, hw⟩)
    · exact ⟨_, _, (unionGraph_at hG _).2 (.inl ⟨a, rfl, ha⟩),
        (unionGraph_at hG _).2 (.inl ⟨b, rfl, hb⟩), by rw [← hw]; exact blockDiag_ll ..⟩
    · exact ⟨_, _, (unionGraph_at hG _).2 (.inr ⟨a, rfl, ha⟩),
        (unionGraph_at hG _).2 (.inr ⟨b, rfl, hb⟩), by rw [← hw]; exact blockDiag_rr ..⟩

/-! ### renaming -/

theorem rename_eq (hG : G.WF) {f : K → K'}
    (hf : ∀ u v, G.Node u → G.Node v → f u = f v → u = v) :
    (renameKeys f G).keyToId = G.keyToId.map fun p => (f p.1, p.2) := by
  unfold renameKeys
  apply dictOf_nodup
  rw [List.map_map]
  have : (Prod.fst ∘ fun p : K × Nat => (f p.1, p.2)) = f ∘ Prod.fst := rfl
  rw [this, ← List.map_map]
  exact List.Nodup.map_on (fun u hu v hv e => hf u v hu hv e) hG.keys_nodup

theorem rename_wf (hG : G.WF) {f : K → K'}
    (hf : ∀ u v, G.Node u → G.Node v → f u = f v → u = v) : (renameKeys f G).WF := by
  refine ⟨?_, ?_⟩
  · rw [rename_eq hG hf, List.map_map]
    have : (Prod.fst ∘ fun p : K × Nat => (f p.1, p.2)) = f ∘ Prod.fst := rfl
    rw [this, ← List.map_map]
    exact List.Nodup.map_on (fun u hu v hv e => hf u v hu hv e) hG.keys_nodup
  · rw [rename_eq hG hf, List.map_map]
    exact hG.ids_perm

theorem rename_at (hG : G.WF) {f : K → K'}
    (hf : ∀ u v, G.Node u → G.Node v → f u = f v → u = v) {x : K'} {i : Fin G.n} :
    (renameKeys f G).At x i ↔ ∃ u, f u = x ∧ G.At u i := by
  unfold At
  rw [rename_eq hG hf]
  simp only [List.mem_map, Prod.mk.injEq, Prod.exists]
  constructor
  · rintro ⟨u, j, hm, e, hj⟩
    exact ⟨u, e, by rw [← hj]; exact hm⟩
  · rintro ⟨u, e, hm⟩
    exact ⟨u, _, hm, e, rfl⟩

theorem rename_node (hG : G.WF) {f : K → K'}
    (hf : ∀ u v, G.Node u → G.Node v → f u = f v → u = v) {x : K'} :
    (renameKeys f G).Node x ↔ ∃ u, G.Node u ∧ f u = x := by
  unfold Node
  rw [rename_eq hG hf]
  simp only [List.mem_map, Prod.exists]
  constructor
  · rintro ⟨y, i, ⟨u, j, hm, he⟩, rfl⟩
    simp only [Prod.mk.injEq] at he
    exact ⟨u, ⟨u, j, hm, rfl⟩, he.1⟩
  · rintro ⟨u, ⟨u', j, hm, rfl⟩, rfl⟩
    exact ⟨f u', j, ⟨u', j, hm, rfl⟩, rfl⟩

theorem rename_wedge (hG : G.WF) {f : K → K'}
    (hf : ∀ u v, G.Node u → G.Node v → f u = f v → u = v) {x y : K'} {w : α} :
    (renameKeys f G).WEdge x y w ↔ ∃ u v, f u = x ∧ f v = y ∧ G.WEdge u v w := by
  unfold WEdge
  constructor
  · rintro ⟨i, j, hi, hj, hw⟩
    obtain ⟨u, rfl, hu⟩ := (rename_at hG hf).1 hi
    obtain ⟨v, rfl, hv⟩ := (rename_at hG hf).1 hj
    exact ⟨u, v, rfl, rfl, i, j, hu, hv, hw⟩
  · rintro ⟨u, v, rfl, rfl, i, j, hi, hj, hw⟩
    exact ⟨i, j, (rename_at hG hf).2 ⟨u, rfl, hi⟩, (rename_at hG hf).2 ⟨v, rfl, hj⟩, hw⟩

/-! ### sorted keys -/

omit [DecidableEq K] in
theorem mem_sortedKeys {p : K → Bool} {u : K} :
    u ∈ sortedKeys G p ↔ G.Node u ∧ p u = true := by
  unfold sortedKeys Node
  simp only [List.mem_map, List.mem_insertionSort, List.mem_filter, Prod.exists]
  constructor
  · rintro ⟨a, b, ⟨hm, hp⟩, rfl⟩; exact ⟨⟨a, b, hm, rfl⟩, hp⟩
  · rintro ⟨⟨a, b, hm, rfl⟩, hp⟩; exact ⟨a, b, ⟨hm, hp⟩, rfl⟩

omit [DecidableEq K] in
theorem sortedKeys_nodup (hG : G.WF) (p : K → Bool) : (sortedKeys G p).Nodup := by
  unfold sortedKeys
  refine (((List.perm_insertionSort _ _).map Prod.fst).nodup_iff).2 ?_
  exact (hG.keys_nodup).sublist (List.filter_sublist.map _)

theorem downward_eq_range {s : Finset Nat} (h : ∀ x ∈ s, ∀ y < x, y ∈ s) : s = Finset.range s.card := by
  apply Finset.eq_of_subset_of_card_le
  · intro x hx
    have : Finset.range (x + 1) ⊆ s := by
      intro y hy
      rw [Finset.mem_range] at hy
      rcases Nat.lt_or_ge y x with hlt | hge
      · exact h x hx y hlt
      · obtain rfl : y = x := by omega
        exact hx
    have := Finset.card_le_card this
    rw [Finset.card_range] at this
    exact Finset.mem_range.2 this
  · rw [Finset.card_range]

omit [DecidableEq K] in
/-- keys sorted by id, when the selected ids are an initial segment: the key in position `i` is the
key of row `i` -/
theorem sortedKeys_initial (hG : G.WF) {p : K → Bool}
    (hp : ∀ u v i j, (u, i) ∈ G.keyToId → (v, j) ∈ G.keyToId → p u = true → j < i → p v = true)
    (i : Nat) (hi : i < (sortedKeys G p).length) : ((sortedKeys G p)[i], i) ∈ G.keyToId := by
  set f := G.keyToId.filter fun q => p q.1 with hf
  set l := f.insertionSort (fun a b => a.2 ≤ b.2) with hl
  have e : sortedKeys G p = l.map Prod.fst := by simp [sortedKeys, hl, hf]
  have hpm : l.Perm f := List.perm_insertionSort _ _
  have : Std.Total (fun a b : K × Nat => a.2 ≤ b.2) := ⟨fun a b => Nat.le_total _ _⟩
  have : IsTrans (K × Nat) (fun a b : K × Nat => a.2 ≤ b.2) := ⟨fun a b c => Nat.le_trans⟩
  have hs : l.Pairwise (fun a b => a.2 ≤ b.2) := List.pairwise_insertionSort _ _
  have hmem : ∀ q, q ∈ l ↔ q ∈ G.keyToId ∧ p q.1 = true := by
    intro q; rw [hpm.mem_iff, hf, List.mem_filter]
  have hnd : (l.map Prod.snd).Nodup := by
    rw [((hpm.map _).nodup_iff)]
    exact hG.ids_nodup.sublist (List.filter_sublist.map _)
  have hrange : (l.map Prod.snd).toFinset = Finset.range (l.map Prod.snd).toFinset.card := by
    apply downward_eq_range
    intro x hx y hy
    rw [List.mem_toFinset, List.mem_map] at hx ⊢
    obtain ⟨⟨u, x⟩, hq, rfl⟩ := hx
    have hq' := (hmem _).1 hq
    have hlt := hG.id_lt hq'.1
    obtain ⟨v, hv⟩ := hG.exists_key ⟨y, lt_trans hy hlt⟩
    exact ⟨(v, y), (hmem _).2 ⟨hv, hp u v x y hq'.1 hv hq'.2 hy⟩, rfl⟩
  have hr : l.map Prod.snd = List.range l.length := by
    refine List.Perm.eq_of_pairwise (le := (· ≤ ·)) ?_ ?_ ?_ ?_
    · intro a b _ _ h1 h2; omega
    · exact List.pairwise_map.2 hs
    · exact (List.pairwise_lt_range).imp Nat.le_of_lt
    · rw [List.perm_ext_iff_of_nodup hnd List.nodup_range]
      intro a
      rw [← List.mem_toFinset, hrange, List.toFinset_card_of_nodup hnd]
      simp
  have hi' : i < l.length := by simpa [e] using hi
  have h2 : l[i].2 = i := by
    have : (l.map Prod.snd)[i]'(by simpa using hi') = i := by simp [hr]
    simpa using this
  have h1 : (sortedKeys G p)[i] = l[i].1 := by simp [e]
  have hm : l[i] ∈ G.keyToId := ((hmem _).1 (List.getElem_mem hi')).1
  rw [h1]
  have : l[i] = (l[i].1, i) := Prod.ext rfl h2
  rw [← this]; exact hm

omit [DecidableEq K] in
/-- all keys sorted by id: the key in position `i` is the key of row `i` -/
theorem sortedKeys_all (hG : G.WF) :
    (sortedKeys G fun _ => true).length = G.n ∧
    ∀ (i : Nat) (hi : i < (sortedKeys G fun _ => true).length),
      ((sortedKeys G fun _ => true)[i], i) ∈ G.keyToId := by
  refine ⟨?_, fun i hi => sortedKeys_initial hG (fun _ _ _ _ _ _ _ _ => rfl) i hi⟩
  unfold sortedKeys
  rw [List.length_map, List.length_insertionSort, List.filter_true, hG.length]

/-! ### rows selected by key -/

/-- the row of a node -/
noncomputable def rowFn (hG : G.WF) (u : K) (hu : G.Node u) : Fin G.n := (hu.exists_id hG).choose
omit [DecidableEq K] in
theorem rowFn_at (hG : G.WF) {u : K} (hu : G.Node u) : G.At u (rowFn hG u hu) :=
  (hu.exists_id hG).choose_spec

theorem listToIds_ok (hH : H.WF) {keys : List K} (hk : ∀ u ∈ keys, H.Node u) :
    ∃ ids, listToIds H keys = .ok ids ∧ List.Forall₂ (fun u i => H.At u i) keys ids := by
  induction keys with
  | nil => exact ⟨[], rfl, .nil⟩
  | cons u us ih =>
    obtain ⟨ids, he, hf⟩ := ih fun v hv => hk v (by simp [hv])
    obtain ⟨i, hi⟩ := (hk u (by simp)).exists_id hH
    refine ⟨i :: ids, ?_, .cons hi hf⟩
    unfold listToIds at he ⊢
    rw [List.mapM_cons, (getId_eq_ok hH).2 hi, he]
    rfl

theorem extractKeys_ok (hH : H.WF) {keys : List K} (hk : ∀ u ∈ keys, H.Node u) :
    ∃ B, extractKeys H keys = .ok B ∧
      ∀ (i j : Fin keys.length) (w : α), B i j = some w ↔ H.WEdge keys[i] keys[j] w := by
  obtain ⟨ids, he, hf⟩ := listToIds_ok hH hk
  have hl : ids.length = keys.length := hf.length_eq.symm
  unfold extractKeys
  rw [he]
  refine ⟨extract H.A (fun i => ids.get (i.cast hl.symm)) fun i => ids.get (i.cast hl.symm), ?_, ?_⟩
  · show (if h : ids.length = keys.length then _ else _) = _
    rw [dif_pos hl]
  · intro i j w
    have hat : ∀ i : Fin keys.length, H.At keys[i] (ids.get (i.cast hl.symm)) := by
      intro i
      have := (List.forall₂_iff_get.1 hf).2 i.val i.isLt (by rw [hl]; exact i.isLt)
      simpa using this
    rw [wedge_iff hH (hat i) (hat j)]
    rfl

theorem resize_ok {m n : Nat} (B : Mat m m α) (e : n = m) :
    resize n B = .ok (fun i j => B (i.cast e) (j.cast e)) := by
  unfold resize; rw [dif_pos e]

theorem sameDict_iff (hG : G.WF) (hH : H.WF) :
    sameDict G H = true ↔ ∀ u i, (u, i) ∈ G.keyToId ↔ (u, i) ∈ H.keyToId := by
  unfold sameDict
  simp only [Bool.and_eq_true, List.all_eq_true, beq_iff_eq, lookup_eq_some_iff hG.keys_nodup,
    lookup_eq_some_iff hH.keys_nodup, Prod.forall]
  exact ⟨fun ⟨a, b⟩ u i => ⟨a u i, b u i⟩, fun h => ⟨fun u i => (h u i).1, fun u i => (h u i).2⟩⟩

theorem sameKeys_iff : sameKeys G H = true ↔ ∀ u, G.Node u ↔ H.Node u := by
  unfold sameKeys
  simp only [Bool.and_eq_true, List.all_eq_true, contains_iff]
  constructor
  · rintro ⟨a, b⟩ u
    constructor
    · intro hu; obtain ⟨p, hp, rfl⟩ := List.mem_map.1 hu; exact a p hp
    · intro hu; obtain ⟨p, hp, rfl⟩ := List.mem_map.1 hu; exact b p hp
  · intro h
    exact ⟨fun p hp => (h _).1 (List.mem_map.2 ⟨p, hp, rfl⟩),
      fun p hp => (h _).2 (List.mem_map.2 ⟨p, hp, rfl⟩)⟩

theorem n_eq_of_sameKeys (hG : G.WF) (hH : H.WF) (h : ∀ u, G.Node u ↔ H.Node u) : G.n = H.n := by
  rw [← hG.length, ← hH.length, ← List.length_map (f := Prod.fst), ← List.length_map (f := Prod.fst)]
  exact ((List.perm_ext_iff_of_nodup hG.keys_nodup hH.keys_nodup).2 h).length_eq

/-- the second matrix in the numbering of the first -/
theorem aligned_ok (hG : G.WF) (hH : H.WF) (h : ∀ u, G.Node u ↔ H.Node u) :
    ∃ B, aligned G H = .ok B ∧
      ∀ u v i j w, G.At u i → G.At v j → (B i j = some w ↔ H.WEdge u v w) := by
  have hn := n_eq_of_sameKeys hG hH h
  unfold aligned
  by_cases hs : sameDict G H = true
  · rw [if_pos hs, resize_ok _ hn]
    refine ⟨_, rfl, ?_⟩
    intro u v i j w hu hv
    have := (sameDict_iff hG hH).1 hs
    rw [wedge_iff hH (i := i.cast hn) (j := j.cast hn)]
    · exact (this _ _).1 hu
    · exact (this _ _).1 hv
  · rw [if_neg hs]
    obtain ⟨hl, hk⟩ := sortedKeys_all hG
    obtain ⟨B, hB, hspec⟩ := extractKeys_ok hH (keys := sortedKeys G fun _ => true)
      (fun u hu => (h u).1 (mem_sortedKeys.1 hu).1)
    rw [hB]
    refine ⟨_, resize_ok B hl.symm, ?_⟩
    intro u v i j w hu hv
    rw [hspec]
    have e : ∀ {u} {i : Fin G.n}, G.At u i →
        (sortedKeys G fun _ => true)[i.val]'(by rw [hl]; exact i.isLt) = u := by
      intro u i hu
      exact mem_id_unique hG.ids_nodup (hk i.val (by rw [hl]; exact i.isLt)) hu
    simp only [Fin.getElem_fin, Fin.val_cast]
    rw [e hu, e hv]

/-! ### masked assignment by structure -/

theorem massignR_S {m n : Nat} {β : Type} (A : Mat m n β) (T : Mat m n α) (i j) :
    massignR (mS A) T i j = if (A i j).isSome then T i j else none := rfl
theorem massignR_notS {m n : Nat} {β : Type} (A : Mat m n β) (T : Mat m n α) (i j) :
    massignR (mnot (mS A)) T i j = if (A i j).isSome then none else T i j := by
  simp only [massignR]
  by_cases h : (A i j).isSome
  · rw [if_neg (show ¬ mnot (mS A) i j = true by simp [mnot, mS, h]), if_pos h]
  · rw [if_pos (show mnot (mS A) i j = true by simp [mnot, mS, h]), if_neg h]

/-! ### region assignment -/

theorem assignRegion_in {n m : Nat} (C : Mat n n α) {ids : Fin m → Fin n}
    (hi : Function.Injective ids) (B : Mat m m α) (a b : Fin m) :
    assignRegion C ids B (ids a) (ids b) = B a b := by
  have key : ∀ a, ((List.finRange m).find? fun x => ids x == ids a) = some a := by
    intro a
    have : (fun x => ids x == ids a) = fun x => x == a := by
      funext x; simp [hi.eq_iff]
    rw [this]
    cases hf : (List.finRange m).find? (fun x => x == a) with
    | none => exact absurd (List.find?_eq_none.1 hf a (List.mem_finRange a)) (by simp)
    | some y =>
      have := List.find?_some hf
      simp only [beq_iff_eq] at this
      rw [this]
  unfold assignRegion
  rw [key a, key b]

theorem assignRegion_out {n m : Nat} (C : Mat n n α) {ids : Fin m → Fin n} (B : Mat m m α)
    {i j : Fin n} (h : (∀ a, ids a ≠ i) ∨ (∀ b, ids b ≠ j)) :
    assignRegion C ids B i j = C i j := by
  have key : ∀ i, (∀ a, ids a ≠ i) → ((List.finRange m).find? fun x => ids x == i) = none := by
    intro i hi
    rw [List.find?_eq_none]
    intro x _
    simpa using hi x
  unfold assignRegion
  rcases h with h | h
  · rw [key i h]
  · rw [key j h]
    cases (List.finRange m).find? fun x => ids x == i <;> rfl

end Proofs
