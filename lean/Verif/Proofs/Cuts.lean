import Verif.Model.Cuts
import Verif.Spec.Cuts
import Verif.Proofs.Convert
import Verif.Proofs.NodeMask
import Verif.Proofs.CacheMath

open GB Spec Model Model.Graph Proofs Proofs.Cluster

namespace Proofs

variable {K α : Type} [DecidableEq K] {G : Graph K α}

theorem forall₂_ids {l : List K} {ids : List (Fin G.n)} (h : G.WF)
    (hf : List.Forall₂ (fun u i => G.At u i) l ids) (i : Fin G.n) : i ∈ ids ↔ keyFn h i ∈ l := by
  induction hf with
  | nil => simp
  | cons ha _ ih =>
    simp only [List.mem_cons, ih]
    refine or_congr ⟨?_, ?_⟩ Iff.rfl
    · rintro rfl; exact keyFn_eq h ha
    · intro e; subst e; exact At.id_unique h (keyFn_at h i) ha

theorem vofIds_some {n : Nat} {β : Type} (l : List (Fin n)) (a : β) (j) : (vofIds l a j).isSome ↔ j ∈ l := by
  unfold vofIds; split <;> simp_all

/-- `set_to_vector(l, ignore_extra=True)` -/
theorem setToVector_ok (h : G.WF) (l : List K) :
    ∃ v, setToVector G l true = .ok v ∧ ∀ i, (v i).isSome ↔ keyFn h i ∈ l := by
  obtain ⟨ids, he, hf⟩ := Proofs.listToIds_ok h (keys := l.filter fun k => G.contains k)
    (fun u hu => contains_iff.1 (List.mem_filter.1 hu).2)
  refine ⟨vofIds ids true, ?_, fun i => ?_⟩
  · unfold setToVector
    simp only [if_true, he]; rfl
  · rw [vofIds_some, forall₂_ids h hf, List.mem_filter]
    simp [contains_iff, (keyFn_at h i).node]

theorem setToVector?_ok (h : G.WF) (T : Option (List K)) :
    ∃ t, setToVector? G T = .ok t ∧ (T = none ↔ t = none) ∧
      ∀ l, T = some l → ∃ v, t = some v ∧ ∀ i, (v i).isSome ↔ keyFn h i ∈ l := by
  cases T with
  | none => exact ⟨none, rfl, by simp, by simp⟩
  | some l =>
    obtain ⟨v, hv, hm⟩ := setToVector_ok h l
    refine ⟨some v, by unfold setToVector?; simp [hv, Except.map], by simp, ?_⟩
    rintro l' hl; cases hl
    exact ⟨v, rfl, hm⟩

/-- `list_to_vector(l)` -/
theorem listToVector_ok (h : G.WF) {l : List K} (hl : ∀ u ∈ l, G.Node u) :
    ∃ v, listToVector G l = .ok v ∧ ∀ i, (v i).isSome ↔ keyFn h i ∈ l := by
  obtain ⟨ids, he, hf⟩ := Proofs.listToIds_ok h hl
  refine ⟨vofIds ids true, ?_, fun i => ?_⟩
  · unfold listToVector; rw [he]; rfl
  · rw [vofIds_some, forall₂_ids h hf]

theorem listToVector_error (h : G.WF) {l : List K} {u} (hu : u ∈ l) (hn : ¬ G.Node u) :
    listToVector G l = .error .keyError := by
  have : listToIds G l = .error .keyError := by
    refine mapM_error hu (getId_eq_error h hn) ?_
    intro y _ e he
    by_cases hy : G.Node y
    · obtain ⟨i, hi⟩ := hy.exists_id h
      rw [(getId_eq_ok h).2 hi] at he; cases he
    · rw [getId_eq_error h hy] at he; cases he; rfl
  unfold listToVector; rw [this]; rfl

/-! ### patterns -/

section pat
variable {n : Nat} {A : Mat n n α} {S : Vec n Bool}

omit [DecidableEq K]

theorem ind_ointer {β γ δ : Type} (f : β → γ → δ) (a : Option β) (b : Option γ) :
    ind (ointer f a b) = ind a * ind b := by
  cases a <;> cases b <;> simp

theorem boundaryCols_some (t : Vec n Bool) : boundaryCols A S (some t) = t := rfl

theorem boundaryCols_none (j) : (boundaryCols A S none j).isSome ↔
    (S j).isSome = false ∧ ∃ k, (A j k).isSome := by
  simp only [boundaryCols, vapply, vassignR, vnot, vS, countRow, Option.isSome_map]
  rw [← nvals_pos]
  by_cases hs : (S j).isSome
  · simp [hs]
  · by_cases hn : nvals (A j) = 0
    · simp [hs, hn]
    · simp [hs, hn, Nat.pos_of_ne_zero hn]

theorem edgeBoundaryU_isSome (T : Option (Vec n Bool)) (i j) :
    (edgeBoundaryU A S T i j).isSome ↔ (S i).isSome ∧ (A i j).isSome ∧ (boundaryCols A S T j).isSome := by
  simp only [edgeBoundaryU]
  cases S i <;> cases A i j <;> cases boundaryCols A S T j <;> simp

theorem edgeBoundaryW_eq (T : Option (Vec n Bool)) (i j) :
    edgeBoundaryW A S T i j = if (S i).isSome ∧ (boundaryCols A S T j).isSome then A i j else none := by
  simp only [edgeBoundaryW]
  cases S i <;> cases A i j <;> cases boundaryCols A S T j <;> simp [second, first]

theorem nvals_vassign_count : (reduce (· + ·) (vassignR (vS S) (countRow A))).getD 0 =
    ∑ i, if (S i).isSome then nvals (A i) else 0 := by
  rw [reduce_add]
  refine Finset.sum_congr rfl fun i _ => ?_
  by_cases hs : (S i).isSome
  · by_cases hn : nvals (A i) = 0 <;> simp [vassignR, vS, hs, countRow, hn]
  · simp [vassignR, vS, hs]

end pat

/-! ### key-level sums -/

theorem edgesFromTo_eq (h : G.WF) (P Q : K → Prop) [DecidablePred P] [DecidablePred Q] :
    edgesFromTo G.nodes G.Edge P Q =
      ∑ i, ∑ j, if P (keyFn h i) ∧ Q (keyFn h j) ∧ (G.A i j).isSome then 1 else 0 := by
  unfold edgesFromTo
  rw [sumOver_nodes h]
  refine Finset.sum_congr rfl fun i _ => ?_
  rw [countOf_nodes h]
  simp only [edge_keyFn]

theorem weightFromTo_eq [AddCommMonoid α] (h : G.WF) (P Q : K → Prop) [DecidablePred P]
    [DecidablePred Q] : weightFromTo G.nodes G.weight? P Q =
      ∑ i, ∑ j, if P (keyFn h i) ∧ Q (keyFn h j) then (G.A i j).getD 0 else 0 := by
  unfold weightFromTo
  rw [sumOver_nodes h]
  refine Finset.sum_congr rfl fun i _ => ?_
  rw [sumOver_nodes h]
  simp only [weight?_keyFn]

theorem outDeg_eq (h : G.WF) (i : Fin G.n) : outDeg G.nodes G.Edge (keyFn h i) = nvals (G.A i) := by
  unfold outDeg
  rw [countOf_nodes h, nvals_eq_sum]
  simp only [edge_keyFn, ind]

theorem inDeg_eq (h : G.WF) (j : Fin G.n) :
    inDeg G.nodes G.Edge (keyFn h j) = nvals (transpose G.A j) := by
  unfold inDeg
  rw [countOf_nodes h, nvals_eq_sum]
  refine Finset.sum_congr rfl fun i _ => ?_
  by_cases hs : (G.A i j).isSome <;> simp [edge_keyFn, ind, transpose, hs]

theorem vol_eq (h : G.WF) (P : K → Prop) [DecidablePred P] :
    vol G.nodes G.Edge P = ∑ i, if P (keyFn h i) then nvals (G.A i) else 0 := by
  unfold vol
  rw [sumOver_nodes h]
  simp only [outDeg_eq]

theorem edgeCount_eq (h : G.WF) : edgeCount G.nodes G.Edge = mnvals G.A := by
  unfold edgeCount
  rw [sumOver_nodes h, mnvals_eq_sum]
  simp only [outDeg_eq]

end Proofs
