import Verif.Proofs.Bfs2
import Verif.Proofs.Except

/-! Lifting the BFS facts to node keys. -/

open GB Spec Model Model.Graph

namespace Proofs.Bfs

variable {K α : Type} [DecidableEq K] {G : Graph K α}

omit [DecidableEq K] in
theorem adj_bfsMatrix_false (i j) : Adj (bfsMatrix G false) i j ↔ OffLoop (Adj G.A) i j :=
  adj_offdiag G.A i j

omit [DecidableEq K] in
theorem adj_bfsMatrix_true (hsym : G.directed = false → G.Symm) (i j) :
    Adj (bfsMatrix G true) i j ↔ OffLoop (Rev (Adj G.A)) i j := by
  unfold bfsMatrix
  cases hd : G.directed with
  | false =>
    have h := hsym hd
    simp only [Bool.and_false, Bool.false_eq_true, if_false]
    rw [adj_offdiag]
    unfold OffLoop Rev Adj
    rw [h i j]
  | true =>
    simp only [Bool.and_true, if_true]
    have : Adj (transpose (offdiag G.A)) i j ↔ Adj (offdiag G.A) j i := Iff.rfl
    rw [this, adj_offdiag]
    unfold OffLoop Rev
    rw [ne_comm]

omit [DecidableEq K] in
theorem edge_symm (h : G.WF) (hs : G.Symm) {u v : K} : G.Edge u v ↔ G.Edge v u := by
  constructor
  all_goals
    rintro ⟨i, j, hi, hj, he⟩
    exact ⟨j, i, hj, hi, by rwa [hs j i]⟩

omit [DecidableEq K] in
theorem distFrom_iff (h : G.WF) {S : K → Prop} {T : Fin G.n → Prop}
    (hST : ∀ u i, G.At u i → (S u ↔ T i)) (hnode : ∀ u, S u → G.Node u) {v : K} {j}
    (hv : G.At v j) {d : Nat} :
    IsDistFrom G.Edge S d v ↔ IsDistFrom (Adj G.A) T d j := by
  have key : ∀ k, (∃ s, S s ∧ Walk G.Edge k s v) ↔ ∃ i, T i ∧ Walk (Adj G.A) k i j := by
    intro k
    constructor
    · rintro ⟨s, hs, hw⟩
      obtain ⟨i, hi⟩ := (hnode s hs).exists_id h
      exact ⟨i, (hST s i hi).1 hs, (walk_iff h hi hv).1 hw⟩
    · rintro ⟨i, hi, hw⟩
      obtain ⟨s, hs⟩ := h.exists_key i
      exact ⟨s, (hST s i hs).2 hi, (walk_iff h hs hv).2 hw⟩
  unfold IsDistFrom
  rw [key]
  refine and_congr_right fun _ => ?_
  constructor
  · intro hm k i hi hw
    obtain ⟨s, hs, hw'⟩ := (key k).2 ⟨i, hi, hw⟩
    exact hm k s hs hw'
  · intro hm k s hs hw
    obtain ⟨i, hi, hw'⟩ := (key k).1 ⟨s, hs, hw⟩
    exact hm k i hi hw'

omit [DecidableEq K] in
theorem isDist_rev_iff {V : Type} {E : V → V → Prop} {s t : V} {d : Nat} :
    IsDist (Rev E) s d t ↔ IsDist E t d s := by
  simp only [IsDist, walk_rev]

/-- one result node-wise, for any vector whose row-level meaning is known -/
theorem bfsLevel_ok (h : G.WF) {s : K} {i} (hs : G.At s i) (c : Option Int) (tr : Bool) :
    bfsLevel G s none c tr = .ok (bfsLevelFrom (bfsMatrix G tr) i none c) := by
  unfold bfsLevel
  rw [(getId_eq_ok h).2 hs]; rfl

theorem bfsPlain_ok (h : G.WF) {s : K} {i} (hs : G.At s i) (c : Option Int) (tr : Bool) :
    bfsPlain G s c tr = .ok (bfsPlainFrom (bfsMatrix G tr) [i] none c) := by
  unfold bfsPlain
  rw [(getId_eq_ok h).2 hs]; rfl

theorem bfsPlain_error (h : G.WF) {s : K} (hs : ¬ G.Node s) (c : Option Int) (tr : Bool) :
    bfsPlain G s c tr = .error .keyError := by
  unfold bfsPlain
  rw [getId_eq_error h hs]; rfl

theorem within_none (d : Nat) : Within none d := by intro x hx; cases hx

/-- forward reachability by `_bfs_plain` -/
theorem plain_fwd {i j : Fin G.n} :
    (bfsPlainFrom (bfsMatrix G false) [i] none none j).isSome ↔ Reach (Adj G.A) i j := by
  rw [plainFrom_spec _ _ _ (by simp)]
  rw [← reach_offLoop]
  have hS : (fun x => x ∈ [i]) = (· = i) := by funext x; simp
  rw [hS]
  simp only [← isDist_iff_from, isDist_congr adj_bfsMatrix_false]
  constructor
  · rintro ⟨d, h, -⟩; exact ⟨d, h.1⟩
  · rintro ⟨d, h⟩; obtain ⟨d', -, h'⟩ := exists_dist h; exact ⟨d', h', within_none _⟩

/-- backward reachability by `_bfs_plain(transpose=True)` -/
theorem plain_bwd (hsym : G.directed = false → G.Symm) {i j : Fin G.n} :
    (bfsPlainFrom (bfsMatrix G true) [i] none none j).isSome ↔ Reach (Adj G.A) j i := by
  rw [plainFrom_spec _ _ _ (by simp)]
  rw [← reach_rev (E := Adj G.A), ← reach_offLoop]
  have hS : (fun x => x ∈ [i]) = (· = i) := by funext x; simp
  rw [hS]
  simp only [← isDist_iff_from, isDist_congr (adj_bfsMatrix_true hsym)]
  constructor
  · rintro ⟨d, h, -⟩; exact ⟨d, h.1⟩
  · rintro ⟨d, h⟩; obtain ⟨d', -, h'⟩ := exists_dist h; exact ⟨d', h', within_none _⟩

theorem plain_cutoff {i j : Fin G.n} (c : Option Int) (hc : ∀ x, c = some x → 0 ≤ x) :
    (bfsPlainFrom (bfsMatrix G false) [i] none c j).isSome ↔
      ∃ d, IsDist (Adj G.A) i d j ∧ Within c d := by
  rw [plainFrom_spec _ _ _ hc]
  have hS : (fun x => x ∈ [i]) = (· = i) := by funext x; simp
  rw [hS]
  simp only [← isDist_iff_from, isDist_congr adj_bfsMatrix_false, isDist_offLoop]

theorem listToIds_ok (h : G.WF) {nodes : List K} (hn : ∀ u ∈ nodes, G.Node u) :
    ∃ ids, listToIds G nodes = .ok ids ∧ List.Forall₂ G.At nodes ids := by
  induction nodes with
  | nil => exact ⟨[], rfl, .nil⟩
  | cons u us ih =>
    obtain ⟨i, hi⟩ := (hn u (by simp)).exists_id h
    obtain ⟨ids, h1, h2⟩ := ih fun v hv => hn v (by simp [hv])
    refine ⟨i :: ids, ?_, .cons hi h2⟩
    unfold listToIds at h1 ⊢
    rw [List.mapM_cons, (getId_eq_ok h).2 hi, h1]
    rfl

theorem listToIds_error (h : G.WF) {nodes : List K} {u} (hu : u ∈ nodes) (hn : ¬ G.Node u) :
    listToIds G nodes = .error .keyError := by
  refine mapM_error hu (getId_eq_error h hn) ?_
  intro y _ e he
  by_cases hy : G.Node y
  · obtain ⟨i, hi⟩ := hy.exists_id h
    rw [(getId_eq_ok h).2 hi] at he; cases he
  · rw [getId_eq_error h hy] at he; cases he; rfl

omit [DecidableEq K] in
theorem forall₂_mem {nodes : List K} {ids : List (Fin G.n)} (hf : List.Forall₂ G.At nodes ids)
    (h : G.WF) {u i} (hu : G.At u i) : u ∈ nodes ↔ i ∈ ids := by
  induction hf with
  | nil => simp
  | @cons v j vs js hvj _ ih =>
    simp only [List.mem_cons, ih]
    refine or_congr ?_ Iff.rfl
    constructor
    · rintro rfl; exact At.id_unique h hu hvj
    · rintro rfl; exact At.key_unique h hu hvj

end Proofs.Bfs
