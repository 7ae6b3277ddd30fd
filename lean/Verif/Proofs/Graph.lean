import Verif.Model.Graph
import Verif.Proofs.Walk
import Verif.GB.Lemmas

/-! Key/id bookkeeping of well-formed graph objects. -/

open GB Spec

namespace Model.Graph
variable {K α β : Type} {G : Graph K α}

theorem mem_key_unique {l : List (K × Nat)} (h : (l.map Prod.fst).Nodup) {u : K} {i j : Nat}
    (hi : (u, i) ∈ l) (hj : (u, j) ∈ l) : i = j := by
  have := List.inj_on_of_nodup_map h hi hj rfl
  exact (Prod.mk.inj this).2

theorem mem_id_unique {l : List (K × Nat)} (h : (l.map Prod.snd).Nodup) {u v : K} {i : Nat}
    (hi : (u, i) ∈ l) (hj : (v, i) ∈ l) : u = v := by
  have := List.inj_on_of_nodup_map h hi hj rfl
  exact (Prod.mk.inj this).1

theorem WF.ids_nodup (h : G.WF) : (G.keyToId.map Prod.snd).Nodup :=
  h.ids_perm.nodup_iff.2 List.nodup_range

theorem WF.id_lt (h : G.WF) {u : K} {i : Nat} (hm : (u, i) ∈ G.keyToId) : i < G.n := by
  have : i ∈ G.keyToId.map Prod.snd := List.mem_map.2 ⟨_, hm, rfl⟩
  simpa using h.ids_perm.mem_iff.1 this

theorem WF.length (h : G.WF) : G.keyToId.length = G.n := by
  have := h.ids_perm.length_eq
  simpa using this

theorem At.id_unique (h : G.WF) {u : K} {i j : Fin G.n} (hi : G.At u i) (hj : G.At u j) : i = j :=
  Fin.ext (mem_key_unique h.keys_nodup hi hj)

theorem At.key_unique (h : G.WF) {u v : K} {i : Fin G.n} (hi : G.At u i) (hj : G.At v i) : u = v :=
  mem_id_unique h.ids_nodup hi hj

theorem WF.exists_key (h : G.WF) (i : Fin G.n) : ∃ u, G.At u i := by
  have : i.val ∈ G.keyToId.map Prod.snd := h.ids_perm.mem_iff.2 (by simp)
  obtain ⟨⟨u, j⟩, hm, rfl⟩ := List.mem_map.1 this
  exact ⟨u, hm⟩

theorem At.node {u : K} {i : Fin G.n} (h : G.At u i) : G.Node u :=
  List.mem_map.2 ⟨_, h, rfl⟩

theorem Node.exists_id (h : G.WF) {u : K} (hu : G.Node u) : ∃ i, G.At u i := by
  obtain ⟨⟨u', i⟩, hm, rfl⟩ := List.mem_map.1 hu
  exact ⟨⟨i, h.id_lt hm⟩, hm⟩

theorem Edge.node_left {u v : K} (h : G.Edge u v) : G.Node u := let ⟨_, _, h, _⟩ := h; h.node
theorem Edge.node_right {u v : K} (h : G.Edge u v) : G.Node v := let ⟨_, _, _, h, _⟩ := h; h.node

theorem edge_iff (h : G.WF) {u v : K} {i j} (hu : G.At u i) (hv : G.At v j) :
    G.Edge u v ↔ (G.A i j).isSome := by
  constructor
  · rintro ⟨i', j', hi, hj, he⟩
    rwa [At.id_unique h hu hi, At.id_unique h hv hj]
  · intro he; exact ⟨i, j, hu, hv, he⟩

theorem wedge_iff (h : G.WF) {u v : K} {i j} (hu : G.At u i) (hv : G.At v j) {w : α} :
    G.WEdge u v w ↔ G.A i j = some w := by
  constructor
  · rintro ⟨i', j', hi, hj, he⟩
    rwa [At.id_unique h hu hi, At.id_unique h hv hj]
  · intro he; exact ⟨i, j, hu, hv, he⟩

theorem edge_iff_wedge {u v : K} : G.Edge u v ↔ ∃ w, G.WEdge u v w := by
  constructor
  · rintro ⟨i, j, hi, hj, he⟩
    obtain ⟨w, hw⟩ := Option.isSome_iff_exists.1 he
    exact ⟨w, i, j, hi, hj, hw⟩
  · rintro ⟨w, i, j, hi, hj, he⟩; exact ⟨i, j, hi, hj, by simp [he]⟩

variable [DecidableEq K]

theorem lookup_eq_some_iff {V : Type} {l : List (K × V)} (h : (l.map Prod.fst).Nodup) {u : K} {i : V} :
    l.lookup u = some i ↔ (u, i) ∈ l := by
  induction l with
  | nil => simp
  | cons p l ih =>
    obtain ⟨k, j⟩ := p
    simp only [List.map_cons, List.nodup_cons] at h
    by_cases hk : u = k
    · subst hk
      simp only [List.lookup_cons_self, Option.some.injEq, List.mem_cons, Prod.mk.injEq, true_and]
      constructor
      · rintro rfl; left; rfl
      · rintro (rfl | hm)
        · rfl
        · exact absurd (List.mem_map.2 ⟨_, hm, rfl⟩) h.1
    · have : (u == k) = false := by simpa using hk
      rw [List.lookup_cons, this]
      simp [ih h.2, hk]

theorem lookup_isSome {V : Type} {l : List (K × V)} {u : K} :
    (l.lookup u).isSome ↔ u ∈ l.map Prod.fst := by
  induction l with
  | nil => simp
  | cons p l ih =>
    obtain ⟨k, j⟩ := p
    by_cases hk : u = k
    · simp [hk]
    · have : (u == k) = false := by simpa using hk
      rw [List.lookup_cons, this, ih]
      simp [hk]

theorem contains_iff {u : K} : G.contains u = true ↔ G.Node u := lookup_isSome

theorem idOf_eq_some (h : G.WF) {u : K} {i} : G.idOf u = some i ↔ G.At u i := by
  unfold idOf At
  rw [← lookup_eq_some_iff h.keys_nodup]
  cases hl : G.keyToId.lookup u with
  | none => simp
  | some j =>
    have hj := h.id_lt ((lookup_eq_some_iff h.keys_nodup).1 hl)
    simp [hj, Fin.ext_iff]

theorem getId_eq_ok (h : G.WF) {u : K} {i} : G.getId u = .ok i ↔ G.At u i := by
  unfold getId At
  rw [← lookup_eq_some_iff h.keys_nodup]
  cases hl : G.keyToId.lookup u with
  | none => simp
  | some j =>
    have hj := h.id_lt ((lookup_eq_some_iff h.keys_nodup).1 hl)
    simp [hj, Fin.ext_iff]

theorem getId_eq_error (h : G.WF) {u : K} (hu : ¬ G.Node u) : G.getId u = .error .keyError := by
  unfold getId
  have : G.keyToId.lookup u = none := by
    rw [← Option.not_isSome_iff_eq_none, lookup_isSome]; exact hu
  rw [this]

theorem idOf_eq_none (h : G.WF) {u : K} : G.idOf u = none ↔ ¬ G.Node u := by
  constructor
  · intro hn hu
    obtain ⟨i, hi⟩ := hu.exists_id h
    rw [(idOf_eq_some h).2 hi] at hn
    cases hn
  · intro hu
    unfold idOf
    have : G.keyToId.lookup u = none := by
      rw [← Option.not_isSome_iff_eq_none, lookup_isSome]; exact hu
    rw [this]

theorem view_at (h : G.WF) {v : Vec G.n β} {u : K} {i} (hu : G.At u i) : G.view v u = v i := by
  simp [view, (idOf_eq_some h).2 hu]

theorem view_eq_some (h : G.WF) {v : Vec G.n β} {u : K} {b : β} :
    G.view v u = some b ↔ ∃ i, G.At u i ∧ v i = some b := by
  unfold view
  rw [Option.bind_eq_some_iff]
  simp only [idOf_eq_some h]

theorem view_isSome (h : G.WF) {v : Vec G.n β} {u : K} :
    (G.view v u).isSome ↔ ∃ i, G.At u i ∧ (v i).isSome := by
  simp only [Option.isSome_iff_exists, view_eq_some h]
  constructor
  · rintro ⟨a, i, h1, h2⟩; exact ⟨i, h1, a, h2⟩
  · rintro ⟨i, h1, a, h2⟩; exact ⟨a, i, h1, h2⟩

omit [DecidableEq K] in
theorem keyOf_eq_some (h : G.WF) {u : K} {i : Nat} : G.keyOf i = some u ↔ (u, i) ∈ G.keyToId := by
  unfold keyOf
  rw [Option.map_eq_some_iff]
  constructor
  · rintro ⟨⟨a, j⟩, hf, rfl⟩
    have h1 := List.mem_of_find?_eq_some hf
    have h2 := List.find?_some hf
    simp only [beq_iff_eq] at h2
    subst h2
    simpa using h1
  · intro hm
    cases hf : G.keyToId.reverse.find? fun p => p.2 == i with
    | none =>
      have := List.find?_eq_none.1 hf (u, i) (by simpa using hm)
      simp at this
    | some p =>
      obtain ⟨a, j⟩ := p
      have h1 := List.mem_of_find?_eq_some hf
      have h2 := List.find?_some hf
      simp only [beq_iff_eq] at h2
      subst h2
      exact ⟨_, rfl, mem_id_unique h.ids_nodup (by simpa using h1) hm⟩

/-! ### transporting walks between keys and row indices -/

/-- adjacency on row indices -/
def Adj {N : Nat} (A : Mat N N α) : Fin N → Fin N → Prop := fun i j => (A i j).isSome

omit [DecidableEq K]

theorem walk_iff (h : G.WF) {u v : K} {i j} (hu : G.At u i) (hv : G.At v j) {k : Nat} :
    Walk G.Edge k u v ↔ Walk (Adj G.A) k i j :=
  walk_transport (R := G.At) (fun _ _ _ h1 h2 => At.key_unique h h1 h2)
    (fun _ _ _ h1 h2 => At.id_unique h h1 h2) h.exists_key (fun _ _ => Iff.rfl) hu hv

theorem isDist_iff (h : G.WF) {u v : K} {i j} (hu : G.At u i) (hv : G.At v j) {k : Nat} :
    IsDist G.Edge u k v ↔ IsDist (Adj G.A) i k j := by
  simp only [IsDist, walk_iff h hu hv]

theorem reach_iff (h : G.WF) {u v : K} {i j} (hu : G.At u i) (hv : G.At v j) :
    Reach G.Edge u v ↔ Reach (Adj G.A) i j := by
  simp only [Reach, walk_iff h hu hv]

theorem Walk_node {k : Nat} {u v : K} (hu : G.Node u) (h : Walk G.Edge k u v) : G.Node v := by
  cases h with
  | nil => exact hu
  | snoc _ e => exact e.node_right

theorem adj_offdiag {N : Nat} (A : Mat N N α) (i j) :
    Adj (offdiag A) i j ↔ OffLoop (Adj A) i j := by
  unfold Adj offdiag OffLoop
  split <;> simp_all

end Model.Graph
