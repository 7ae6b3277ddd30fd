import Verif.Model.Ego
import Verif.Proofs.Graph
import Verif.Proofs.Except

open GB Spec Model Model.Graph Proofs

namespace Proofs

variable {K α : Type} [DecidableEq K] {G : Graph K α}

omit [DecidableEq K] in
/-- a renumbered node dictionary: `enumerate` of distinct keys -/
theorem wf_zipIdx {n : Nat} {A : Mat n n α} {keys : List K} (hnd : keys.Nodup) (hl : keys.length = n)
    (d m : Bool) :
    (Graph.mk n A keys.zipIdx d m).WF := by
  refine ⟨?_, ?_⟩
  · simpa using hnd
  · simp only [List.zipIdx_map_snd, hl]
    rw [List.range_eq_range']

omit [DecidableEq K] in
theorem at_zipIdx {n : Nat} {A : Mat n n α} {keys : List K} {d m : Bool} {u : K} {i : Fin n} :
    (Graph.mk n A keys.zipIdx d m).At u i ↔ keys[i.val]? = some u := by
  unfold At
  rw [List.mk_mem_zipIdx_iff_getElem?]

/-- the key of a row -/
noncomputable def keyFn (h : G.WF) (i : Fin G.n) : K := (h.exists_key i).choose
omit [DecidableEq K] in
theorem keyFn_at (h : G.WF) (i : Fin G.n) : G.At (keyFn h i) i := (h.exists_key i).choose_spec
omit [DecidableEq K] in
theorem keyFn_inj (h : G.WF) {i j : Fin G.n} (e : keyFn h i = keyFn h j) : i = j :=
  At.id_unique h (keyFn_at h i) (e ▸ keyFn_at h j)
omit [DecidableEq K] in
theorem keyFn_eq (h : G.WF) {u : K} {i : Fin G.n} (hu : G.At u i) : keyFn h i = u :=
  At.key_unique h (keyFn_at h i) hu

theorem keyOf_keyFn (h : G.WF) (i : Fin G.n) : G.keyOf i.val = some (keyFn h i) :=
  (keyOf_eq_some h).2 (keyFn_at h i)

theorem renumber_ok (h : G.WF) (ids : List (Fin G.n)) :
    renumberKeyToId G ids = .ok (ids.map (keyFn h)).zipIdx := by
  unfold renumberKeyToId
  rw [mapM_ok (g := keyFn h)]
  · rfl
  · intro i _
    rw [keyOf_keyFn h]

theorem subGraph_ok (h : G.WF) {ids : List (Fin G.n)} (hnd : ids.Nodup) :
    ∃ S, subGraph G ids = .ok S ∧ S.WF ∧ S.directed = G.directed ∧ S.multi = G.multi ∧
      (∀ u, S.Node u ↔ ∃ i ∈ ids, G.At u i) ∧
      ∀ u v w, S.WEdge u v w ↔ G.WEdge u v w ∧ S.Node u ∧ S.Node v := by
  have hok : subGraph G ids = .ok ⟨ids.length, extract G.A ids.get ids.get,
      (ids.map (keyFn h)).zipIdx, G.directed, G.multi⟩ := by
    unfold subGraph
    rw [renumber_ok h]; rfl
  refine ⟨_, hok, ?_, rfl, rfl, ?_, ?_⟩
  · exact wf_zipIdx (hnd.map fun _ _ => keyFn_inj h) (by simp) _ _
  · intro u
    simp only [Node, List.zipIdx_map_fst, List.mem_map]
    exact ⟨fun ⟨i, hi, e⟩ => ⟨i, hi, e ▸ keyFn_at h i⟩, fun ⟨i, hi, e⟩ => ⟨i, hi, keyFn_eq h e⟩⟩
  · intro u v w
    have hat : ∀ (x : K) (k : Fin ids.length), (Graph.mk ids.length (extract G.A ids.get ids.get)
        (ids.map (keyFn h)).zipIdx G.directed G.multi).At x k ↔ G.At x (ids.get k) := by
      intro x k
      rw [at_zipIdx]
      simp only [List.getElem?_map, List.getElem?_eq_getElem k.isLt, Option.map_some,
        Option.some.injEq]
      exact ⟨fun e => e ▸ keyFn_at h _, keyFn_eq h⟩
    constructor
    · rintro ⟨i, j, hi, hj, hw⟩
      exact ⟨⟨_, _, (hat _ _).1 hi, (hat _ _).1 hj, hw⟩, hi.node, hj.node⟩
    · rintro ⟨⟨a, b, ha, hb, hw⟩, hu, hv⟩
      have hget : ∀ {x : K} {a : Fin G.n}, G.At x a → (Graph.mk ids.length (extract G.A ids.get ids.get)
        (ids.map (keyFn h)).zipIdx G.directed G.multi).Node x → ∃ k, ids.get k = a := by
        intro x a hx hn
        simp only [Node, List.zipIdx_map_fst, List.mem_map] at hn
        obtain ⟨i, hi, e⟩ := hn
        obtain rfl := At.id_unique h hx (e ▸ keyFn_at h i)
        obtain ⟨k, hk, e⟩ := List.getElem_of_mem hi
        exact ⟨⟨k, hk⟩, e⟩
      obtain ⟨k, rfl⟩ := hget ha hu
      obtain ⟨l, rfl⟩ := hget hb hv
      exact ⟨k, l, (hat _ _).2 ha, (hat _ _).2 hb, hw⟩

end Proofs
