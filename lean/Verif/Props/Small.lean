import Verif.Proofs.Small
import Verif.Props.Examples

/-!
# C55 isolates, C56 regularity, C57 tournaments, C58 score sequence and tournament matrix
-/

open GB Spec Model Model.Graph Proofs Proofs.Small

namespace Props

variable {K α : Type} [DecidableEq K] {G : Graph K α}

/-! ### C55 -/

omit [DecidableEq K] in
theorem degreesP_none (h : G.WF) (hs : G.directed = false → G.Symm) (i : Fin G.n) :
    degreesP G i = none ↔ Isolated G.Edge (keyFn h i) := by
  rw [← Option.not_isSome_iff_eq_none]
  have : (degreesP G i).isSome ↔ ∃ j, (G.A i j).isSome ∨ (G.A j i).isSome := by
    unfold degreesP
    by_cases hd : G.directed
    · rw [if_pos hd, totalDegreesP_some]
    · rw [if_neg hd, countRow_some]
      have hs := hs (by simpa using hd)
      constructor
      · rintro ⟨j, hj⟩; exact ⟨j, .inl hj⟩
      · rintro ⟨j, hj | hj⟩
        · exact ⟨j, hj⟩
        · exact ⟨j, by rw [hs i j]; exact hj⟩
  rw [this]
  constructor
  · intro hno v
    constructor
    · intro he
      obtain ⟨j, rfl⟩ := exists_keyFn h he.node_right
      exact hno ⟨j, .inl ((edge_keyFn h i j).1 he)⟩
    · intro he
      obtain ⟨j, rfl⟩ := exists_keyFn h he.node_left
      exact hno ⟨j, .inr ((edge_keyFn h j i).1 he)⟩
  · rintro hiso ⟨j, hj | hj⟩
    · exact (hiso (keyFn h j)).1 ((edge_keyFn h i j).2 hj)
    · exact (hiso (keyFn h j)).2 ((edge_keyFn h j i).2 hj)

/-- **C55.** `is_isolate(G, u)` is True exactly for the nodes without any edge, and raises for a
key that is not a node. -/
theorem is_isolate_correct (h : G.WF) (hs : G.directed = false → G.Symm) (u : K) :
    (G.Node u → ∃ b, isIsolate G u = .ok b ∧ (b = true ↔ Isolated G.Edge u)) ∧
    (¬ G.Node u → isIsolate G u = .error .keyError) := by
  constructor
  · intro hu
    obtain ⟨i, hi⟩ := hu.exists_id h
    refine ⟨(degreesP G i).isNone, ?_, ?_⟩
    · unfold isIsolate; rw [(getId_eq_ok h).2 hi]; rfl
    · rw [Option.isNone_iff_eq_none, degreesP_none h hs, keyFn_eq h hi]
  · intro hu
    unfold isIsolate; rw [getId_eq_error h hu]; rfl

/-- **C55.** the node set `isolates(G)` contains exactly the nodes without any edge, and
`number_of_isolates(G)` is their number. -/
theorem isolates_correct (h : G.WF) (hs : G.directed = false → G.Symm) [DecidablePred (Isolated G.Edge)] :
    (∀ u, (G.view (isolates G) u).isSome ↔ G.Node u ∧ Isolated G.Edge u) ∧
    numberOfIsolates G = countOf G.nodes (Isolated G.Edge) := by
  constructor
  · intro u
    constructor
    · intro hv
      have hu : G.Node u := by
        by_contra hn
        have : G.idOf u = none := by
          have := getId_eq_error h hn
          unfold getId at this
          unfold idOf
          cases hl : G.keyToId.lookup u with
          | none => rfl
          | some i => simp only [hl] at this; split at this <;> simp_all
        simp [view, this] at hv
      obtain ⟨i, rfl⟩ := exists_keyFn h hu
      refine ⟨hu, (degreesP_none h hs i).1 ?_⟩
      rw [view_keyFn h] at hv
      unfold isolates at hv
      by_contra hne
      rw [if_pos (Option.isSome_iff_ne_none.2 hne)] at hv
      cases hv
    · rintro ⟨hu, hiso⟩
      obtain ⟨i, rfl⟩ := exists_keyFn h hu
      rw [view_keyFn h]
      simp [isolates, (degreesP_none h hs i).2 hiso]
  · unfold numberOfIsolates
    rw [countOf_card h, nvals]
    have := Finset.card_filter_add_card_filter_not (s := (Finset.univ : Finset (Fin G.n)))
      (fun i => (degreesP G i).isSome = true)
    have e : (Finset.univ.filter fun i => Isolated G.Edge (keyFn h i)) =
        Finset.univ.filter fun i => ¬ (degreesP G i).isSome = true := by
      ext i
      simp only [Finset.mem_filter, Finset.mem_univ, true_and]
      rw [← degreesP_none h hs i, Option.not_isSome_iff_eq_none]
    rw [e]
    simp only [Finset.card_univ, Fintype.card_fin] at this
    omega

/-! ### C56 -/

theorem allEq_iff {n : Nat} (v : Vec n Nat) (hv : ∀ i, (v i).isSome) (d : Option Nat) :
    allEq v d = true ↔ ∀ i, v i = d := by
  unfold allEq
  rw [reduce_land]
  refine forall_congr' fun i => ?_
  obtain ⟨x, hx⟩ := Option.isSome_iff_exists.1 (hv i)
  simp [vapply, hx]

/-- the count of a full row vector as a number -/
theorem full_const {n m : Nat} {A : Mat m n α} (hf : ∀ i, (countRow A i).isSome) (i j) :
    countRow A i = countRow A j ↔ nvals (A i) = nvals (A j) := by
  obtain ⟨x, hx⟩ := Option.isSome_iff_exists.1 (hf i)
  obtain ⟨y, hy⟩ := Option.isSome_iff_exists.1 (hf j)
  rw [hx, hy, ← countRow_get hx, ← countRow_get hy]
  simp

/-- what the degree test of `is_regular` decides on one matrix -/
theorem regular_core {n : Nat} (A : Mat n n α) (hn : 0 < n) (he : ∃ i, 0 < nvals (A i)) :
    ((nvals (countRow A) = n ∧ allEq (countRow A) (countRow A ⟨0, hn⟩) = true) ↔
      ∃ k, ∀ i, nvals (A i) = k) := by
  constructor
  · rintro ⟨hf, ha⟩
    rw [nvals_full] at hf
    rw [allEq_iff _ hf] at ha
    exact ⟨nvals (A ⟨0, hn⟩), fun i => (full_const hf _ _).1 (ha i)⟩
  · rintro ⟨k, hk⟩
    have hf : ∀ i, (countRow A i).isSome := by
      intro i
      rw [countRow_some, ← nvals_pos, hk]
      obtain ⟨j, hj⟩ := he
      rwa [hk] at hj
    exact ⟨nvals_full.2 hf, (allEq_iff _ hf _).2 fun i => (full_const hf _ _).2 (by rw [hk, hk])⟩

theorem regular_rows (h : G.WF) :
    (∃ k, Regular G.nodes G.Edge k) ↔ ∃ k, ∀ i, nvals (G.A i) = k := by
  refine exists_congr fun k => ?_
  constructor
  · intro hr i
    rw [← outDeg_eq h]; exact hr _ (keyFn_at h i).node
  · intro hr u hu
    obtain ⟨i, rfl⟩ := exists_keyFn h hu
    rw [outDeg_eq h, hr]

theorem regular_cols (h : G.WF) :
    (∃ k, InRegular G.nodes G.Edge k) ↔ ∃ k, ∀ i, nvals (transpose G.A i) = k := by
  refine exists_congr fun k => ?_
  constructor
  · intro hr i
    rw [← inDeg_eq h]; exact hr _ (keyFn_at h i).node
  · intro hr u hu
    obtain ⟨i, rfl⟩ := exists_keyFn h hu
    rw [inDeg_eq h, hr]

/-- **C56 (partial).** On a graph with at least one edge, `is_regular` is True exactly when all nodes
have the same number of neighbours (undirected), respectively the same number of successors and the
same number of predecessors (directed).  Missing: graphs without edges, where the code is wrong
(`is_regular_edgeless`, `is_regular_empty`). -/
theorem is_regular_correct_partial (h : G.WF) (he : ∃ u v, G.Edge u v) :
    ∃ b, isRegular G = .ok b ∧ (b = true ↔
      if G.directed then (∃ k, Regular G.nodes G.Edge k) ∧ ∃ k, InRegular G.nodes G.Edge k
      else ∃ k, Regular G.nodes G.Edge k) := by
  obtain ⟨u, v, hE⟩ := he
  obtain ⟨i, rfl⟩ := exists_keyFn h hE.node_left
  obtain ⟨j, rfl⟩ := exists_keyFn h hE.node_right
  have ha := (edge_keyFn h i j).1 hE
  have hn : 0 < G.n := Nat.lt_of_le_of_lt (Nat.zero_le _) i.isLt
  have cr := regular_core G.A hn ⟨i, nvals_pos.2 ⟨j, ha⟩⟩
  have cc := regular_core (transpose G.A) hn ⟨j, nvals_pos.2 ⟨i, ha⟩⟩
  have hg : ∀ v : Vec G.n Nat, getFirst v = .ok (v ⟨0, hn⟩) := fun v => by
    unfold getFirst; rw [dif_pos hn]
  unfold isRegular
  by_cases hd : G.directed
  · rw [if_pos hd, if_pos hd, regular_rows h, regular_cols h, ← cr, ← cc]
    unfold isRegularD
    simp only
    by_cases h1 : nvals (countRow G.A) = G.n
    · rw [if_neg (by simpa using h1)]
      by_cases h2 : nvals (countRow (transpose G.A)) = G.n
      · rw [if_neg (by simpa using h2), hg, hg]
        by_cases h3 : allEq (countRow G.A) (countRow G.A ⟨0, hn⟩) = true
        · refine ⟨allEq (countRow (transpose G.A)) (countRow (transpose G.A) ⟨0, hn⟩), ?_, ?_⟩
          · show (if _ then _ else _) = _
            rw [if_neg (by simp [h3])]
            rfl
          · simp [h1, h2, h3]
        · refine ⟨false, ?_, ?_⟩
          · show (if _ then _ else _) = _
            rw [if_pos (by simpa using h3)]
          · simp [h1, h3]
      · rw [if_pos (by simpa using h2)]
        exact ⟨false, rfl, by simp [h2]⟩
    · rw [if_pos (by simpa using h1)]
      exact ⟨false, rfl, by simp [h1]⟩
  · rw [if_neg hd, if_neg hd, regular_rows h, ← cr]
    unfold isRegularU
    simp only
    by_cases h1 : nvals (countRow G.A) = G.n
    · rw [if_neg (by simpa using h1), hg]
      exact ⟨_, rfl, by simp [h1]⟩
    · rw [if_pos (by simpa using h1)]
      exact ⟨false, rfl, by simp [h1]⟩

/-- **C56, false part.** an edgeless graph is 0-regular, but `is_regular` answers False. -/
theorem is_regular_edgeless (h : G.WF) (hn : 0 < G.n) (he : ∀ u v, ¬ G.Edge u v) :
    isRegular G = .ok false ∧ Regular G.nodes G.Edge 0 ∧ InRegular G.nodes G.Edge 0 := by
  have hA : ∀ i j, G.A i j = none := fun i j => by
    rw [← Option.not_isSome_iff_eq_none]
    exact fun ha => he _ _ ((edge_keyFn h i j).2 ha)
  have h0 : nvals (countRow G.A) ≠ G.n := by
    intro hf
    have := countRow_some.1 (nvals_full.1 hf ⟨0, hn⟩)
    simp [hA] at this
  refine ⟨?_, ?_, ?_⟩
  · unfold isRegular isRegularD isRegularU
    simp [h0]
  · intro u hu
    obtain ⟨i, rfl⟩ := exists_keyFn h hu
    rw [outDeg_eq h, nvals_eq_zero]; exact hA i
  · intro u hu
    obtain ⟨i, rfl⟩ := exists_keyFn h hu
    rw [inDeg_eq h, nvals_eq_zero]; exact fun j => hA j i

omit [DecidableEq K] in
/-- **C56, false part.** `is_regular` raises IndexError on the graph without nodes. -/
theorem is_regular_empty (hn : G.n = 0) : isRegular G = .error .indexError := by
  have h1 : ∀ (v : Vec G.n Nat), nvals v = G.n := fun v => by
    have := nvals_le v; omega
  have h2 : ∀ (v : Vec G.n Nat), getFirst v = .error .indexError := fun v => by
    unfold getFirst; rw [dif_neg (by omega)]
  unfold isRegular isRegularD isRegularU
  simp only [h1, h2]
  split <;> simp [Except.map, bind, Except.bind]

/-- **C56 (partial).** For a nonzero `k`, `is_k_regular(G, k)` is True exactly when every node has `k`
neighbours.  Missing: `k = 0`, see `is_k_regular_zero`. -/
theorem is_k_regular_correct_partial (h : G.WF) (hd : G.directed = false) (k : Int) (hk : k ≠ 0) :
    ∃ b, isKRegular G k = .ok b ∧ (b = true ↔ ∀ u, G.Node u → (outDeg G.nodes G.Edge u : Int) = k) := by
  have key : (nvals (countRow G.A) = G.n ∧
      ((reduce (· && ·) (vapply (fun x : Nat => decide ((x : Int) = k)) (countRow G.A))).getD true) = true) ↔
      ∀ u, G.Node u → (outDeg G.nodes G.Edge u : Int) = k := by
    rw [reduce_land]
    constructor
    · rintro ⟨hf, ha⟩ u hu
      obtain ⟨i, rfl⟩ := exists_keyFn h hu
      obtain ⟨x, hx⟩ := Option.isSome_iff_exists.1 (nvals_full.1 hf i)
      have := ha i
      rw [outDeg_eq h, ← countRow_get hx]
      simpa [vapply, hx] using this
    · intro hr
      have hr' : ∀ i, (nvals (G.A i) : Int) = k := fun i => by
        rw [← outDeg_eq h]; exact hr _ (keyFn_at h i).node
      have hf : ∀ i, (countRow G.A i).isSome := by
        intro i
        rw [countRow_some, ← nvals_pos]
        have := hr' i
        omega
      refine ⟨nvals_full.2 hf, fun i => ?_⟩
      obtain ⟨x, hx⟩ := Option.isSome_iff_exists.1 (hf i)
      have := hr' i
      rw [← countRow_get hx] at this
      simp [vapply, hx, this]
  unfold isKRegular
  rw [if_neg (by simp [hd])]
  simp only
  by_cases h1 : nvals (countRow G.A) = G.n
  · rw [if_neg (by simpa using h1)]
    exact ⟨_, rfl, by rw [← key]; simp [h1]⟩
  · rw [if_pos (by simpa using h1)]
    exact ⟨false, rfl, by rw [← key]; simp [h1]⟩

omit [DecidableEq K] in
/-- **C56, false part.** `is_k_regular(G, 0)` is False for every graph with a node, edgeless ones
included. -/
theorem is_k_regular_zero (hd : G.directed = false) (hn : 0 < G.n) :
    isKRegular G 0 = .ok false := by
  unfold isKRegular
  rw [if_neg (by simp [hd])]
  simp only
  by_cases h1 : nvals (countRow G.A) = G.n
  · rw [if_neg (by simpa using h1)]
    congr 1
    rw [← Bool.not_eq_true, reduce_land]
    intro ha
    have := nvals_full.1 h1 ⟨0, hn⟩
    obtain ⟨x, hx⟩ := Option.isSome_iff_exists.1 this
    have hp := nvals_pos.2 (countRow_some.1 this)
    rw [← countRow_get hx] at hp
    have := ha ⟨0, hn⟩
    simp [vapply, hx] at this
    omega
  · rw [if_pos (by simpa using h1)]

/-! ### C57 -/

/-- counting over ordered pairs of different positions -/
theorem tournament_count {n : Nat} (a : Fin n → Fin n → Nat) (hd : ∀ i, a i i = 0) :
    2 * ∑ i, ∑ j, a i j = ∑ i, ∑ j, if i = j then 0 else a i j + a j i := by
  have h1 : (∑ i, ∑ j, if i = j then 0 else a i j + a j i) = ∑ i, ∑ j, (a i j + a j i) := by
    refine Finset.sum_congr rfl fun i _ => Finset.sum_congr rfl fun j _ => ?_
    by_cases hij : i = j
    · subst hij; simp [hd]
    · simp [hij]
  rw [h1]
  simp only [Finset.sum_add_distrib]
  rw [Finset.sum_comm (f := fun i j => a j i)]
  omega

theorem pairs_count (n : Nat) : (∑ i : Fin n, ∑ j : Fin n, if i = j then 0 else 1) = n * (n - 1) := by
  have : ∀ i : Fin n, (∑ j : Fin n, if i = j then 0 else 1) = n - 1 := by
    intro i
    have := Finset.sum_ite_eq (Finset.univ : Finset (Fin n)) i (fun _ => (1 : Nat))
    have h2 : (∑ j : Fin n, if i = j then 0 else 1) + (∑ j : Fin n, if i = j then 1 else 0) = n := by
      rw [← Finset.sum_add_distrib]
      have : ∀ j : Fin n, ((if i = j then 0 else 1) + (if i = j then 1 else 0) : Nat) = 1 := by
        intro j; by_cases hij : i = j <;> simp [hij]
      simp [this]
    rw [if_pos (Finset.mem_univ i)] at this
    omega
  simp [this]

omit [DecidableEq K] in
/-- **C57.** `is_tournament(G)` is True exactly when the digraph has no self-loops and joins every two
different nodes in exactly one direction. -/
theorem is_tournament_correct (h : G.WF) (hd : G.directed = true) :
    ∃ b, isTournament G = .ok b ∧ (b = true ↔ Tournament G.nodes G.Edge) := by
  have spec : Tournament G.nodes G.Edge ↔ (∀ i, (G.A i i).isSome = false) ∧
      ∀ i j, i ≠ j → ((G.A i j).isSome ↔ ¬ (G.A j i).isSome) := by
    unfold Tournament
    constructor
    · rintro ⟨h1, h2⟩
      refine ⟨fun i => ?_, fun i j hij => ?_⟩
      · rw [← Bool.not_eq_true, ← edge_keyFn h]; exact h1 _ (keyFn_at h i).node
      · rw [← edge_keyFn h, ← edge_keyFn h]
        exact h2 _ (keyFn_at h i).node _ (keyFn_at h j).node fun e => hij (keyFn_inj h e)
    · rintro ⟨h1, h2⟩
      refine ⟨fun u hu => ?_, fun u hu v hv huv => ?_⟩
      · obtain ⟨i, rfl⟩ := exists_keyFn h hu
        rw [edge_keyFn h, h1]; simp
      · obtain ⟨i, rfl⟩ := exists_keyFn h hu
        obtain ⟨j, rfl⟩ := exists_keyFn h hv
        rw [edge_keyFn h, edge_keyFn h]
        exact h2 i j fun e => huv (by rw [e])
  have hnv : mnvals G.A = ∑ i, ∑ j, ind (G.A i j) := by
    rw [mnvals_eq_sum]; simp only [nvals_eq_sum]
  have hev : 2 * (G.n * (G.n - 1) / 2) = G.n * (G.n - 1) :=
    Nat.mul_div_cancel' (Nat.even_mul_pred_self G.n).two_dvd
  rw [spec]
  unfold isTournament
  rw [if_neg (by simp [hd])]
  by_cases hc : mnvals G.A ≠ G.n * (G.n - 1) / 2 ∨ ∃ i, (G.A i i).isSome
  · rw [if_pos hc]
    refine ⟨false, rfl, by simp, ?_⟩
    rintro ⟨h1, h2⟩
    exfalso
    rcases hc with hc | ⟨i, hi⟩
    · apply hc
      have e := tournament_count (fun i j => ind (G.A i j)) (fun i => by simp [ind, h1 i])
      have e2 : (∑ i, ∑ j, if i = j then 0 else ind (G.A i j) + ind (G.A j i)) =
          ∑ i : Fin G.n, ∑ j : Fin G.n, if i = j then 0 else 1 := by
        refine Finset.sum_congr rfl fun i _ => Finset.sum_congr rfl fun j _ => ?_
        by_cases hij : i = j
        · simp [hij]
        · have := h2 i j hij
          rw [if_neg hij, if_neg hij]
          unfold ind
          by_cases ha : (G.A j i).isSome
          · rw [if_neg (by rw [this]; simp [ha]), if_pos ha]
          · rw [if_pos (by rw [this]; exact ha), if_neg ha]
      rw [e2, pairs_count] at e
      rw [hnv]
      omega
    · rw [h1] at hi; cases hi
  · rw [if_neg hc]
    push Not at hc
    obtain ⟨hc, hself⟩ := hc
    have hdg : ∀ i, (G.A i i).isSome = false := fun i => by simpa using hself i
    refine ⟨_, rfl, ?_⟩
    rw [decide_eq_true_iff, mnvals_eq_zero]
    constructor
    · intro hz
      refine ⟨hdg, ?_⟩
      -- no pair is joined both ways
      have hno : ∀ i j, i < j → ¬ ((G.A i j).isSome ∧ (G.A j i).isSome) := by
        rintro i j hij ⟨h1, h2⟩
        have := hz i j
        unfold massignR triu1 at this
        rw [if_pos (show mS G.A i j = true from h1), if_pos hij] at this
        unfold transpose at this
        simp [this] at h2
      have hno' : ∀ i j, i ≠ j → ¬ ((G.A i j).isSome ∧ (G.A j i).isSome) := by
        intro i j hij
        rcases lt_or_gt_of_ne hij with hl | hl
        · exact hno i j hl
        · exact fun ⟨a, b⟩ => hno j i hl ⟨b, a⟩
      have e := tournament_count (fun i j => ind (G.A i j)) (fun i => by simp [ind, hdg i])
      rw [← hnv, hc, hev, ← pairs_count] at e
      have hle : ∀ i j : Fin G.n, (if i = j then 0 else ind (G.A i j) + ind (G.A j i)) ≤
          if i = j then 0 else 1 := by
        intro i j
        by_cases hij : i = j
        · simp [hij]
        · rw [if_neg hij, if_neg hij]
          have := hno' i j hij
          unfold ind
          by_cases h1 : (G.A i j).isSome <;> by_cases h2 : (G.A j i).isSome <;> simp_all
      have e3 := (Finset.sum_eq_sum_iff_of_le (fun i _ => Finset.sum_le_sum fun j _ => hle i j)).1 e.symm
      intro i j hij
      have e4 := (Finset.sum_eq_sum_iff_of_le (fun j _ => hle i j)).1 (e3 i (Finset.mem_univ i)) j
        (Finset.mem_univ j)
      rw [if_neg hij, if_neg hij] at e4
      unfold ind at e4
      by_cases h1 : (G.A i j).isSome <;> by_cases h2 : (G.A j i).isSome <;> simp_all
    · rintro ⟨-, h2⟩ i j
      unfold massignR triu1 transpose
      by_cases hm : mS G.A i j = true
      · rw [if_pos hm]
        by_cases hij : i < j
        · rw [if_pos hij]
          have := (h2 i j (ne_of_lt hij)).1 hm
          simpa using this
        · rw [if_neg hij]
      · rw [if_neg hm]

/-! ### C58 -/

/-- stored values of a vector, and how many positions are empty -/
theorem stored_perm {n : Nat} (v : Vec n Nat) (l : List (Fin n)) :
    (l.map fun i => (v i).getD 0).Perm
      (List.replicate (l.countP fun i => !(v i).isSome) 0 ++ l.filterMap v) := by
  induction l with
  | nil => simp
  | cons a l ih =>
    cases ha : v a with
    | none => simpa [List.countP_cons, ha, List.replicate_succ] using ih
    | some x =>
      simp only [List.map_cons, ha, Option.getD_some, List.countP_cons, Option.isSome_some, Bool.not_true,
        Bool.false_eq_true, if_false, Nat.add_zero]
      rw [List.filterMap_cons_some ha]
      exact (ih.cons x).trans List.perm_middle.symm

theorem tocoo_snd {n : Nat} {β : Type} (v : Vec n β) :
    (tocoo v).map Prod.snd = (List.finRange n).filterMap v := by
  unfold tocoo
  rw [List.map_filterMap]
  congr 1
  funext i
  cases v i <;> rfl

theorem empty_count {n : Nat} {β : Type} (v : Vec n β) :
    (List.finRange n).countP (fun i => !(v i).isSome) = n - nvals v := by
  have h1 := List.length_eq_countP_add_countP (fun i => (v i).isSome) (l := List.finRange n)
  have h2 : (List.finRange n).countP (fun i => (v i).isSome) = nvals v := by
    rw [← indices_length, indices, List.countP_eq_length_filter]
  have h3 : (List.finRange n).countP (fun i => !(v i).isSome) =
      (List.finRange n).countP (fun a => decide ¬ (v a).isSome = true) := by
    refine List.countP_congr fun i _ => ?_
    cases (v i).isSome <;> simp
  rw [List.length_finRange] at h1
  omega

/-- **C58.** `score_sequence(G)` is the list of the out-degrees of all nodes, in ascending order. -/
theorem score_sequence_correct (h : G.WF) (hd : G.directed = true) :
    ∃ l, scoreSequence G = .ok l ∧ l.Pairwise (· ≤ ·) ∧ l.Perm (G.nodes.map (outDeg G.nodes G.Edge)) := by
  set v := countRow G.A with hv
  set s := ((tocoo v).map Prod.snd).insertionSort (· ≤ ·) with hsdef
  have e : scoreSequence G = .ok (List.replicate (G.n - nvals v) 0 ++ s) := by
    unfold scoreSequence
    rw [if_neg (by simp [hd])]
    simp only
    rw [← hv]
    by_cases hf : nvals v = G.n
    · rw [if_neg (by simpa using hf), hf]; simp [hsdef]
    · rw [if_pos hf]
  refine ⟨_, e, ?_, ?_⟩
  · rw [List.pairwise_append]
    refine ⟨List.pairwise_replicate.2 (.inr le_rfl), List.pairwise_insertionSort _ _, ?_⟩
    intro a ha b _
    rw [List.eq_of_mem_replicate ha]
    exact Nat.zero_le _
  · have h1 : (G.nodes.map (outDeg G.nodes G.Edge)).Perm
        ((List.finRange G.n).map fun i => (v i).getD 0) := by
      refine ((nodes_perm h).map _).trans ?_
      rw [List.map_map]
      refine List.Perm.of_eq (List.map_congr_left fun i _ => ?_)
      show outDeg G.nodes G.Edge (keyFn h i) = _
      rw [outDeg_eq h, countRow_getD, nvals_eq_sum]
    refine List.Perm.trans ?_ (((stored_perm v _).symm.trans h1.symm))
    rw [empty_count]
    refine List.Perm.append_left _ ?_
    rw [hsdef, tocoo_snd]
    exact List.perm_insertionSort _ _

/-- **C58.** the sum of the score sequence is the number of edges. -/
theorem score_sequence_sum (h : G.WF) (hd : G.directed = true) :
    ∃ l, scoreSequence G = .ok l ∧ l.sum = edgeCount G.nodes G.Edge := by
  obtain ⟨l, e, -, hp⟩ := score_sequence_correct h hd
  exact ⟨l, e, hp.sum_eq⟩

/-- **C58.** `tournament_matrix(G)`: the entry at `u`, `v` is present when there is an edge in either
direction, its value is the weight of `u → v` minus the weight of `v → u` (0 where there is no edge);
the matrix is skew-symmetric. -/
theorem tournament_matrix_correct [AddCommGroup α] (h : G.WF) (i j : Fin G.n) :
    ((tournamentMatrix G i j).isSome ↔ G.Edge (keyFn h i) (keyFn h j) ∨ G.Edge (keyFn h j) (keyFn h i)) ∧
    (tournamentMatrix G i j).getD 0 =
      (G.weight? (keyFn h i) (keyFn h j)).getD 0 - (G.weight? (keyFn h j) (keyFn h i)).getD 0 ∧
    tournamentMatrix G j i = (tournamentMatrix G i j).map (- ·) := by
  refine ⟨?_, ?_, ?_⟩
  · rw [edge_keyFn, edge_keyFn, tournamentMatrix, munion, isSome_ounion, Bool.or_eq_true]
    rfl
  · rw [weight?_keyFn, weight?_keyFn, tournamentMatrix, munion, ounion_sub_getD]
    rfl
  · simp only [tournamentMatrix, munion, transpose]
    cases G.A i j <;> cases G.A j i <;> simp [ounion]

/-! ### C59 -/

/-- the pairs of consecutive elements -/
theorem zip_chain {V : Type} (E : V → V → Prop) (l : List V) :
    l.IsChain E ↔ ∀ p ∈ l.dropLast.zip l.tail, E p.1 p.2 := by
  induction l with
  | nil => simp
  | cons a l ih =>
    cases l with
    | nil => simp
    | cons b l =>
      rw [List.isChain_cons_cons, ih]
      simp

theorem zip_nodup {V : Type} {l : List V} (h : l.Nodup) : (l.dropLast.zip l.tail).Nodup := by
  have h1 : ((l.dropLast.zip l.tail).map Prod.fst).Nodup := by
    rw [List.map_fst_zip (by simp)]
    exact h.sublist (List.dropLast_sublist l)
  exact h1.of_map _

theorem simplePathIds_iff {n : Nat} (A : Mat n n α) (len : Nat) (ids : List (Fin n)) :
    simplePathIds A len ids = true ↔ ids.length = len ∧ ids.Nodup ∧ ids.IsChain fun i j => (A i j).isSome := by
  unfold simplePathIds
  by_cases hc : ids.length ≠ len ∨ ids.length > ids.dedup.length
  · rw [if_pos hc]
    simp only [Bool.false_eq_true, false_iff]
    rintro ⟨h1, h2, -⟩
    rcases hc with hc | hc
    · exact hc h1
    · rw [h2.dedup] at hc; omega
  · rw [if_neg hc]
    push Not at hc
    obtain ⟨h1, h2⟩ := hc
    have hnd : ids.Nodup := by
      have := (List.dedup_sublist ids).eq_of_length (le_antisymm (List.dedup_sublist ids).length_le h2)
      rw [← this]; exact List.nodup_dedup ids
    have hz := zip_nodup hnd
    simp only [h1, hnd, true_and, decide_eq_true_eq]
    rw [zip_chain]
    have hcard : mnvals (mmul second A (fun i j => if (i, j) ∈ ids.dropLast.zip ids.tail then some true else none))
        = ((ids.dropLast.zip ids.tail).toFinset.filter fun p => (A p.1 p.2).isSome).card := by
      unfold mnvals
      congr 1
      ext ⟨i, j⟩
      simp only [Finset.mem_filter, Finset.mem_univ, true_and, List.mem_toFinset, mmul, isSome_ointer,
        Bool.and_eq_true]
      by_cases hm : (i, j) ∈ ids.dropLast.zip ids.tail <;> simp [hm]
    have hlen : (ids.dropLast.zip ids.tail).toFinset.card = len - 1 := by
      rw [List.toFinset_card_of_nodup hz]
      simp [h1]
    rw [hcard, ← hlen, Finset.card_filter_eq_iff]
    simp

/-- **C59.** `is_simple_path(G, nodes)` never raises, and is True exactly when `nodes` is a non-empty
list of different nodes with an edge from each to the next. -/
theorem is_simple_path_correct (h : G.WF) (l : List K) :
    ∃ b, isSimplePath G l = .ok b ∧ (b = true ↔ SimplePath G.nodes G.Edge l) := by
  match l with
  | [] => exact ⟨false, rfl, by simp [SimplePath]⟩
  | [u] =>
    refine ⟨G.contains u, rfl, ?_⟩
    rw [contains_iff]
    simp [SimplePath, Graph.Node, nodes]
  | u :: v :: l =>
    set L := u :: v :: l with hL
    obtain ⟨ids, he, hf⟩ := listToIds_ok h (keys := L.filter fun k => G.contains k)
      (fun w hw => contains_iff.1 (List.mem_filter.1 hw).2)
    have key : (¬ mnvals G.A < L.length - 1 ∧ simplePathIds G.A L.length ids = true) ↔
        SimplePath G.nodes G.Edge L := by
      rw [simplePathIds_iff]
      have hlen : (L.filter fun k => G.contains k).length = ids.length := hf.length_eq
      -- when all are nodes, the ids are those of the path
      have hall : ids.length = L.length ↔ ∀ w ∈ L, G.Node w := by
        rw [← hlen, List.length_filter_eq_length_iff]
        simp only [contains_iff]
      have hmap : ids.map (keyFn h) = L.filter fun k => G.contains k := by
        clear hlen hall he
        generalize L.filter (fun k => G.contains k) = M at hf
        induction hf with
        | nil => rfl
        | cons ha _ ih => rw [List.map_cons, ih, keyFn_eq h ha]
      have hids : ids.length = L.length → ids.map (keyFn h) = L := by
        intro hl
        rw [hmap, List.filter_eq_self]
        intro w hw
        exact contains_iff.2 (hall.1 hl w hw)
      constructor
      · rintro ⟨-, h1, h2, h3⟩
        refine ⟨by simp [hL], hall.1 h1, ?_, ?_⟩
        · rw [← hids h1]; exact h2.map fun _ _ => keyFn_inj h
        · rw [← hids h1, List.isChain_map]
          exact h3.imp fun {i j} hij => (edge_keyFn h i j).2 hij
      · rintro ⟨-, h1, h2, h3⟩
        have hl := hall.2 h1
        rw [← hids hl] at h2 h3
        have hnd := h2.of_map
        rw [List.isChain_map] at h3
        have hch : ids.IsChain fun i j => (G.A i j).isSome := h3.imp fun {i j} hij => (edge_keyFn h i j).1 hij
        refine ⟨?_, hl, hnd, hch⟩
        rw [not_lt, ← hl]
        have hz := zip_nodup hnd
        have h4 := (zip_chain _ _).1 hch
        have : (ids.dropLast.zip ids.tail).toFinset ⊆
            Finset.univ.filter fun p : Fin G.n × Fin G.n => (G.A p.1 p.2).isSome := by
          intro p hp
          rw [Finset.mem_filter]
          exact ⟨Finset.mem_univ _, h4 p (List.mem_toFinset.1 hp)⟩
        have hle := Finset.card_le_card this
        rw [List.toFinset_card_of_nodup hz] at hle
        simp at hle
        unfold mnvals
        omega
    have hdef : isSimplePath G L = if mnvals G.A < L.length - 1 then .ok false
        else (listToIds G (L.filter fun k => G.contains k)).map fun ids =>
          simplePathIds G.A L.length ids := rfl
    rw [hdef]
    by_cases hc : mnvals G.A < L.length - 1
    · rw [if_pos hc]
      refine ⟨false, rfl, ?_⟩
      rw [← key]; simp [hc]
    · rw [if_neg hc, he]
      refine ⟨_, rfl, ?_⟩
      rw [← key]; simp [hc]

/-! examples -/
section ex
open _root_.Ex

/-- a 3-cycle tournament, stored in an unusual order -/
def exTour : Graph Nat Int where
  n := 3
  A := ofTriples 3 [(2,0,4), (0,1,5), (1,2,6)]
  keyToId := [(7,1), (8,2), (9,0)]
  directed := true

theorem exTour_wf : exTour.WF := ⟨by decide, by decide⟩

example : isTournament exTour = .ok true ∧ isTournament dg = .ok false := by decide +kernel
example : scoreSequence dg = .ok [0, 1, 1, 2] := by decide +kernel
example : isSimplePath dg [10, 20, 30] = .ok true ∧ isSimplePath dg [10, 30] = .ok false ∧
    isSimplePath dg [20, 30, 20] = .ok false ∧ isSimplePath dg [20, 99] = .ok false := by decide +kernel
example : isIsolate dg 40 = .ok true ∧ isIsolate dg 30 = .ok false ∧ numberOfIsolates dg = 1 := by
  decide +kernel
example : isRegular exTour = .ok true ∧ isRegular dg = .ok false ∧ (∃ u v, exTour.Edge u v) :=
  ⟨by decide +kernel, by decide +kernel, 9, 7, by decide +kernel⟩
/-- an edgeless graph with two nodes -/
def exNoEdge : Graph Nat Int where
  n := 2
  A := fun _ _ => none
  keyToId := [(0,0), (1,1)]
example : exNoEdge.WF ∧ 0 < exNoEdge.n ∧ ∀ u v, ¬ exNoEdge.Edge u v :=
  ⟨⟨by decide, by decide⟩, by decide, fun u v ⟨_, _, _, _, e⟩ => by simp [exNoEdge] at e⟩
example : isKRegular { exNoEdge with A := ofTriples 2 [(0,1,1),(1,0,1)] } 1 = .ok true := by decide +kernel

end ex

end Props
