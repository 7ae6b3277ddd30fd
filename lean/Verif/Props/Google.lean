import Verif.Props.PageRank
import Mathlib.Algebra.BigOperators.Field

/-!
# C67 google_matrix
-/

open GB Spec Model Model.Graph Proofs Proofs.Power

namespace Props

variable {K F : Type} [Field F] [LinearOrder F] {n : Nat}

/-- the distribution behind an optional vector -/
private def vdist (v : Option (Vec n F)) (dflt : Fin n → F) (j : Fin n) : F :=
  match v with
  | none => dflt j
  | some v => (v j).getD 0 / vsum v

private theorem normNonzero_getD (v : Vec n F) (j) : (normNonzero v j).getD 0 = (v j).getD 0 / vsum v := by
  unfold normNonzero
  by_cases h : (v j).getD 0 = 0
  · rw [if_pos h, h]; simp
  · rw [if_neg h]
    cases hv : v j with
    | none => simp [hv] at h
    | some a => simp

private theorem gmFill_getD {A : Mat n n F} {empty : Fin n → Bool}
    (he : ∀ i, empty i = true ↔ ∀ j, A i j = none) (fill : Fin n → Option F) (i j) :
    (gmFill empty fill A i j).getD 0 = if empty i = true then (fill j).getD 0 else (A i j).getD 0 := by
  unfold gmFill
  by_cases h : empty i = true
  · rw [if_pos h, if_pos h, (he i).1 h j]; simp
  · rw [if_neg h, if_neg h]; simp

private theorem gmScale_getD (alpha : F) (A : Mat n n F) (p : F ⊕ Vec n F) (i j) :
    (gmScale alpha A p i j).getD 0 = alpha / (∑ l, (A i l).getD 0) * (A i j).getD 0 +
      (1 - alpha) * (match p with | .inl c => c | .inr v => (v j).getD 0) := by
  have hs : (ointer (· * ·) (vapply (fun s => alpha / s) (reduceRow (· + ·) A) i) (A i j)).getD 0 =
      alpha / (∑ l, (A i l).getD 0) * (A i j).getD 0 := by
    rw [← reduceRow_getD]
    cases hA : A i j with
    | none => simp
    | some a =>
      have : (reduceRow (· + ·) A i).isSome = true := by
        rw [reduceRow_isSome]; intro hc; rw [hc j] at hA; cases hA
      obtain ⟨r, hr⟩ := Option.isSome_iff_exists.1 this
      simp [vapply, hr]
  unfold gmScale
  cases p with
  | inl c =>
    dsimp only [prScaleP]
    rw [← hs]
    cases ointer (· * ·) (vapply (fun s => alpha / s) (reduceRow (· + ·) A) i) (A i j) <;>
      simp [mul_comm]
  | inr v =>
    dsimp only [prScaleP]
    rw [omerge_getD, hs]
    congr 1
    unfold vapply
    cases v j <;> simp [mul_comm]

/-- the computation after selection of the nodes -/
theorem gmBody_spec [IsStrictOrderedRing F] (alpha : F) {A : Mat n n F} {pers dang : Option (Vec n F)}
    {empty : Fin n → Bool} (he : ∀ i, empty i = true ↔ ∀ j, A i j = none) (hn : n ≠ 0)
    (hp : ∀ v, pers = some v → vsum v ≠ 0)
    (hd : (∃ i, empty i = true) → ∀ v, dang = some v → vsum v ≠ 0) :
    ∃ M, gmBody alpha A pers dang empty = .ok M ∧ ∀ i j, (M i j).getD 0 =
      alpha * (if empty i = true then vdist dang (vdist pers fun _ => 1 / n) j
        else (A i j).getD 0 / ∑ l, (A i l).getD 0) +
      (1 - alpha) * vdist pers (fun _ => 1 / n) j := by
  have hnF : (n : F) ≠ 0 := by exact_mod_cast hn
  -- one calculation for all cases
  have calc1 : ∀ (fill : Fin n → Option F) (P D : Fin n → F) (p : F ⊕ Vec n F),
      ((∃ i, empty i = true) → ∀ j, (fill j).getD 0 = D j) → ((∃ i, empty i = true) → ∑ j, D j = 1) →
      (∀ j, (match p with | .inl c => c | .inr v => (v j).getD 0) = P j) → ∀ i j,
      (gmScale alpha (gmFill empty fill A) p i j).getD 0 =
        alpha * (if empty i = true then D j else (A i j).getD 0 / ∑ l, (A i l).getD 0) +
        (1 - alpha) * P j := by
    intro fill P D p hf hD hP i j
    rw [gmScale_getD, hP j]
    simp only [gmFill_getD he]
    congr 1
    by_cases h : empty i = true
    · simp only [h, if_true, hf ⟨i, h⟩, hD ⟨i, h⟩, div_one]
    · simp only [h]; simp; ring
  have one_sum : ∑ _j : Fin n, (1 : F) / n = 1 := by
    simp [mul_inv_cancel₀ hnF]
  have norm_sum : ∀ v : Vec n F, vsum v ≠ 0 → ∑ j, (v j).getD 0 / vsum v = 1 := by
    intro v hv
    rw [← Finset.sum_div, ← vsum_eq, div_self hv]
  unfold gmBody
  cases hpers : pers with
  | none =>
    cases hdang : dang with
    | none =>
      exact ⟨_, rfl, calc1 _ (fun _ => 1 / n) (fun _ => 1 / n) _ (fun _ _ => rfl) (fun _ => one_sum)
        fun _ => rfl⟩
    | some d =>
      have hc : ¬ ((∃ i, empty i = true) ∧ vsum d = 0) := fun hc => hd hc.1 d hdang hc.2
      refine ⟨gmScale alpha (gmFill empty (normNonzero d) A) (.inl (1 / n)), ?_, ?_⟩
      · dsimp only
        rw [if_neg hc]
      · exact calc1 _ (fun _ => 1 / n) (fun j => (d j).getD 0 / vsum d) _
          (fun _ j => normNonzero_getD d j) (fun hx => norm_sum d (hd hx d hdang)) fun _ => rfl
  | some s =>
    have h0 := hp s hpers
    cases hdang : dang with
    | none =>
      refine ⟨gmScale alpha (gmFill empty (normNonzero s) A) (.inr (normNonzero s)), ?_, ?_⟩
      · dsimp only
        rw [if_neg h0]
      · exact calc1 _ (fun j => (s j).getD 0 / vsum s) (fun j => (s j).getD 0 / vsum s) _
          (fun _ j => normNonzero_getD s j) (fun _ => norm_sum s h0) fun j => normNonzero_getD s j
    | some d =>
      have hc : ¬ ((∃ i, empty i = true) ∧ vsum d = 0) := fun hc => hd hc.1 d hdang hc.2
      refine ⟨gmScale alpha (gmFill empty (normNonzero d) A) (.inr (normNonzero s)), ?_, ?_⟩
      · dsimp only
        rw [if_neg h0, if_neg hc]
      · exact calc1 _ (fun j => (s j).getD 0 / vsum s) (fun j => (d j).getD 0 / vsum d) _
          (fun _ j => normNonzero_getD d j) (fun hx => norm_sum d (hd hx d hdang))
          fun j => normNonzero_getD s j

variable [DecidableEq K] {G : Graph K F}

private theorem countRow_isSome_iff (A : Mat n n F) (i) :
    (!(countRow A i).isSome) = true ↔ ∀ j, A i j = none := by
  unfold countRow
  by_cases h : nvals (A i) = 0
  · rw [if_pos h]; simpa using nvals_eq_zero.1 h
  · rw [if_neg h]
    simp only [Option.isSome_some, Bool.not_true, Bool.false_eq_true, false_iff]
    exact fun hc => h (nvals_eq_zero.2 hc)

private theorem countRow_nvals_lt (h : G.WF) :
    nvals (countRow G.A) < G.n ↔ ∃ u, G.Node u ∧ Dangling G.nodes G.weight? u := by
  rw [← exists_dangling_iff h]
  have : nvals (countRow G.A) = nvals (reduceRow (· + ·) G.A) := by
    unfold nvals
    congr 1
    ext i
    simp only [Finset.mem_filter, Finset.mem_univ, true_and]
    rw [reduceRow_isSome, ← countRow_isSome_iff G.A i]
    cases (countRow G.A i).isSome <;> simp
  rw [this]

/-- arguments of `google_matrix` over the nodes `N` -/
structure GMArgs (G : Graph K F) (N : List K) (pers dangling : Option (List (K × F))) : Prop where
  rows : ∀ u ∈ N, ¬ Dangling N G.weight? u → outWeight N G.weight? u ≠ 0
  pers : ∀ l, pers = some l → ValidDict G l ∧ sumOver N (valueIn l) ≠ 0
  dangling : ∀ l, dangling = some l → ValidDict G l ∧
    ((∃ u ∈ N, Dangling N G.weight? u) → sumOver N (valueIn l) ≠ 0)

/-- **C67.** `google_matrix(G)` over all nodes: row `u`, column `v` holds the transition probability
(absent entries are 0). -/
theorem google_matrix_correct [IsStrictOrderedRing F] (h : G.WF) (hn : G.nodes ≠ [])
    {pers dangling : Option (List (K × F))} (ha : GMArgs G G.nodes pers dangling) (alpha : F) :
    ∃ M, googleMatrix G alpha pers dangling = .ok M ∧ ∀ u v i j, G.At u i → G.At v j →
      (M i j).getD 0 = googleEntry G.nodes G.weight? alpha (distOf G.nodes pers (uniform G.nodes))
        (distOf G.nodes dangling (distOf G.nodes pers (uniform G.nodes))) u v := by
  have hnn : G.n ≠ 0 := by
    rw [← nodes_length h]; exact fun e => hn (List.length_eq_zero_iff.1 e)
  obtain ⟨pv, hp1, hp2, hp3⟩ := dict?_rep h (d := pers) fun l hl => (ha.pers l hl).1
  obtain ⟨dv, hd1, hd2, hd3⟩ := dict?_rep h
    (d := if nvals (countRow G.A) < G.n then dangling else none) (by
      intro l hl
      split at hl
      · exact (ha.dangling l hl).1
      · cases hl)
  have he := fun i => countRow_isSome_iff G.A i
  obtain ⟨M, hM, hspec⟩ := gmBody_spec alpha (A := G.A) (pers := pv) (dang := dv) he hnn (by
      intro v hv
      cases hc : pers with
      | none => rw [hp2 hc] at hv; cases hv
      | some l =>
        obtain ⟨v', e, hr⟩ := hp3 l hc
        rw [e] at hv; cases hv
        rw [vsum_rep h hr]; exact (ha.pers l hc).2) (by
      rintro ⟨i, hi⟩ v hv
      have hdi : ∃ u, G.Node u ∧ Dangling G.nodes G.weight? u :=
        ⟨_, (keyFn_at h i).node, (dangling_iff h i).2 ((he i).1 hi)⟩
      rw [if_pos ((countRow_nvals_lt h).2 hdi)] at hd2 hd3
      cases hc : dangling with
      | none => rw [hd2 hc] at hv; cases hv
      | some l =>
        obtain ⟨v', e, hr⟩ := hd3 l hc
        rw [e] at hv; cases hv
        rw [vsum_rep h hr]; exact (ha.dangling l hc).2 hdi)
  refine ⟨M, ?_, ?_⟩
  · unfold googleMatrix
    rw [hp1]
    show (dictToVector? G _ >>= fun o => _) = _
    rw [hd1]
    show (if G.n = 0 then _ else _) = _
    rw [if_neg hnn, hM]
  · intro u v i j hu hv
    rw [← keyFn_eq h hu, ← keyFn_eq h hv, hspec]
    have hP : ∀ j, vdist pv (fun _ => 1 / (G.n : F)) j =
        distOf G.nodes pers (uniform G.nodes) (keyFn h j) := by
      intro j
      cases hc : pers with
      | none => rw [hp2 hc]; simp [vdist, distOf, uniform, nodes_length h]
      | some l =>
        obtain ⟨v', e, hr⟩ := hp3 l hc
        rw [e]
        simp only [vdist, distOf]
        rw [hr j, vsum_rep h hr]
    unfold googleEntry
    rw [hP j, weight?_keyFn, outWeight_eq]
    congr 2
    by_cases hi : ∀ j, G.A i j = none
    · rw [if_pos ((he i).2 hi), if_pos ((dangling_iff h i).2 hi)]
      have hdi : ∃ u, G.Node u ∧ Dangling G.nodes G.weight? u :=
        ⟨_, (keyFn_at h i).node, (dangling_iff h i).2 hi⟩
      rw [if_pos ((countRow_nvals_lt h).2 hdi)] at hd2 hd3
      cases hc : dangling with
      | none => rw [hd2 hc]; simp only [vdist, distOf]; exact hP j
      | some l =>
        obtain ⟨v', e, hr⟩ := hd3 l hc
        rw [e]
        simp only [vdist, distOf]
        rw [hr j, vsum_rep h hr]
    · rw [if_neg (fun hc => hi ((he i).1 hc)), if_neg (fun hc => hi ((dangling_iff h i).1 hc))]

/-- the rows of the specification sum to 1 -/
theorem googleEntry_sum {N : List K} {w : K → K → Option F} {alpha : F} {p d : K → F} {u : K}
    (hr : ¬ Dangling N w u → outWeight N w u ≠ 0) (hp : sumOver N p = 1)
    (hd : Dangling N w u → sumOver N d = 1) :
    sumOver N (googleEntry N w alpha p d u) = 1 := by
  have e : sumOver N (googleEntry N w alpha p d u) =
      alpha * sumOver N (fun v => if Dangling N w u then d v else (w u v).getD 0 / outWeight N w u) +
        (1 - alpha) * sumOver N p := by
    unfold googleEntry sumOver
    rw [List.sum_map_add, List.sum_map_mul_left, List.sum_map_mul_left]
  rw [e, hp]
  by_cases hu : Dangling N w u
  · simp only [hu, if_true]
    rw [show (fun v => d v) = d from rfl, hd hu]; ring
  · simp only [hu, if_false]
    have : sumOver N (fun v => (w u v).getD 0 / outWeight N w u) =
        outWeight N w u / outWeight N w u := by
      conv_rhs => rw [outWeight]
      unfold sumOver
      simp only [div_eq_mul_inv, List.sum_map_mul_right]
      rfl
    rw [this, div_self (hr hu)]; ring

/-- **C67.** every row of `google_matrix(G)` sums to 1. -/
theorem google_matrix_rows [IsStrictOrderedRing F] (h : G.WF) (hn : G.nodes ≠ [])
    {pers dangling : Option (List (K × F))} (ha : GMArgs G G.nodes pers dangling) (alpha : F)
    {M : Mat G.n G.n F} (hM : googleMatrix G alpha pers dangling = .ok M) (i : Fin G.n) :
    ∑ j, (M i j).getD 0 = 1 := by
  obtain ⟨M', hM', hs⟩ := google_matrix_correct h hn ha alpha
  rw [hM] at hM'; cases hM'
  have hp : sumOver G.nodes (distOf G.nodes pers (uniform G.nodes : K → F)) = 1 :=
    distOf_sum (fun l hl => (ha.pers l hl).2) fun _ => uniform_sum hn
  rw [← googleEntry_sum (N := G.nodes) (w := G.weight?) (alpha := alpha) (u := keyFn h i)
    (ha.rows _ (keyFn_at h i).node) hp
    (d := distOf G.nodes dangling (distOf G.nodes pers (uniform G.nodes)))
    (fun hd => distOf_sum (fun l hl => (ha.dangling l hl).2 ⟨_, (keyFn_at h i).node, hd⟩) fun _ => hp),
    sumOver_nodes h]
  exact Finset.sum_congr rfl fun j _ => hs _ _ i j (keyFn_at h i) (keyFn_at h j)

/-! ### with a node list -/

omit [Field F] [LinearOrder F] in
private theorem forall₂_get {L : List K} {ids : List (Fin G.n)}
    (hf : List.Forall₂ (fun u i => G.At u i) L ids) (i : Fin ids.length) :
    ∃ u, L[i.val]? = some u ∧ G.At u (ids.get i) := by
  have hl := hf.length_eq
  have hi : i.val < L.length := by rw [hl]; exact i.isLt
  exact ⟨L[i.val], List.getElem?_eq_getElem hi, hf.get hi i.isLt⟩

omit [LinearOrder F] [DecidableEq K] in
private theorem sumOver_ids (h : G.WF) {L : List K} {ids : List (Fin G.n)}
    (hf : List.Forall₂ (fun u i => G.At u i) L ids) (f : K → F) :
    sumOver L f = ∑ i : Fin ids.length, f (keyFn h (ids.get i)) := by
  have e : L = ids.map (keyFn h) := by
    induction hf with
    | nil => rfl
    | cons ha _ ih => rw [List.map_cons, keyFn_eq h ha, ← ih]
  unfold sumOver
  conv_lhs => rw [e, List.map_map]
  rw [← List.sum_ofFn]
  congr 1
  conv_lhs => rw [← List.ofFn_get (l := ids)]
  rw [List.map_ofFn]
  rfl

/-- **C67 (node lists).**  The matrix of `google_matrix(G, nodelist=L)`, for every list `L` of nodes
that is shorter or longer than the node set, or in the order of the rows of `G`, or without repetition
when no node of `G` is dangling.  Not proved, because false (see below): the other lists.  `dangling`
has to be omitted, or some node of `G` must have no out-edge (otherwise it is ignored, see below). -/
theorem google_matrix_nodelist_partial [IsStrictOrderedRing F] (h : G.WF) {L : List K}
    (hL : ∀ u ∈ L, G.Node u) (hne : L ≠ [])
    (hord : L.length ≠ G.nodes.length ∨ (∀ i u, L[i]? = some u → (u, i) ∈ G.keyToId) ∨
      (L.Nodup ∧ ∀ u, G.Node u → ¬ Dangling G.nodes G.weight? u))
    {pers dangling : Option (List (K × F))}
    (hdang : dangling = none ∨ ∃ u, G.Node u ∧ Dangling G.nodes G.weight? u)
    (ha : GMArgs G L pers dangling) (alpha : F) :
    ∃ M : Σ m, Mat m m F, googleMatrixList G alpha pers L dangling = .ok M ∧ M.1 = L.length ∧
      ∀ i j u v, L[i.val]? = some u → L[j.val]? = some v →
        (M.2 i j).getD 0 = googleEntry L G.weight? alpha (distOf L pers (uniform L))
          (distOf L dangling (distOf L pers (uniform L))) u v := by
  obtain ⟨ids, hids, hf⟩ := Proofs.listToIds_ok h hL
  have hlen := hf.length_eq
  have hnn : ids.length ≠ 0 := by
    rw [← hlen]; exact fun e => hne (List.length_eq_zero_iff.1 e)
  obtain ⟨pv, hp1, hp2, hp3⟩ := dict?_rep h (d := pers) fun l hl => (ha.pers l hl).1
  have hdd : (if nvals (countRow G.A) < G.n then dangling else none) = dangling := by
    rcases hdang with e | e
    · rw [e]; split <;> rfl
    · rw [if_pos ((countRow_nvals_lt h).2 e)]
  obtain ⟨dv, hd1, hd2, hd3⟩ := dict?_rep h (d := dangling) fun l hl => (ha.dangling l hl).1
  have key : ∀ i : Fin ids.length, ∀ u, L[i.val]? = some u → keyFn h (ids.get i) = u := by
    intro i u hu
    obtain ⟨u', hu', hat⟩ := forall₂_get hf i
    rw [hu] at hu'; cases hu'
    exact keyFn_eq h hat
  have hmemL : ∀ i : Fin ids.length, keyFn h (ids.get i) ∈ L := by
    intro i
    obtain ⟨u', hu', hat⟩ := forall₂_get hf i
    rw [keyFn_eq h hat]
    exact List.mem_of_getElem? hu'
  have hdl : ∀ i : Fin ids.length, Dangling L G.weight? (keyFn h (ids.get i)) ↔
      ∀ j, extract G.A ids.get ids.get i j = none := by
    intro i
    constructor
    · intro hd j
      have := hd _ (hmemL j)
      rwa [weight?_keyFn] at this
    · intro hd v hv
      obtain ⟨k, hk, rfl⟩ := List.getElem_of_mem hv
      have := hd ⟨k, by omega⟩
      rw [← key ⟨k, by omega⟩ _ (List.getElem?_eq_getElem hk), weight?_keyFn]
      exact this
  have he : ∀ i, gmEmptyRows G.A ids i = true ↔ ∀ j, extract G.A ids.get ids.get i j = none := by
    intro i
    unfold gmEmptyRows
    split
    · rename_i hn
      rw [countRow_isSome_iff]
      rcases hord with hc | hc | ⟨hnd, hc⟩
      · rw [hlen, nodes_length h] at hc; exact absurd hn hc
      · -- row order: `ids` is the identity
        have hid : ∀ k : Fin ids.length, ids.get k = Fin.cast hn k := by
          intro k
          obtain ⟨u', hu', hat⟩ := forall₂_get hf k
          have := hc k.val u' hu'
          exact At.id_unique h hat (show G.At u' (Fin.cast hn k) from this)
        constructor
        · intro hx j
          unfold extract
          rw [hid i, hx]
        · intro hx j
          have := hx (Fin.cast hn.symm j)
          unfold extract at this
          rw [hid i, hid] at this
          exact this
      · have hn1 : ¬ ∀ j, G.A (Fin.cast hn i) j = none := by
          rw [← dangling_iff h]; exact hc _ (keyFn_at h _).node
        have hn2 : ¬ ∀ j, extract G.A ids.get ids.get i j = none := by
          rw [← hdl]
          intro hd
          have hperm : L.Perm G.nodes := by
            refine (List.subperm_of_subset hnd fun u hu => hL u hu).perm_of_length_le ?_
            rw [hlen, hn]; exact (nodes_length h).le
          exact hc _ (keyFn_at h _).node fun v hv => hd v (hperm.mem_iff.2 hv)
        exact iff_of_false hn1 hn2
    · rw [countRow_isSome_iff]
  have hrep : ∀ {l : List (K × F)} {v : Vec G.n F}, Rep h v (valueIn l) →
      vsum (fun i => v (ids.get i)) = sumOver L (valueIn l) := by
    intro l v hr
    rw [vsum_eq, sumOver_ids h hf]
    exact Finset.sum_congr rfl fun i _ => hr _
  obtain ⟨M, hM, hspec⟩ := gmBody_spec alpha (A := extract G.A ids.get ids.get)
    (pers := pv.map fun v => fun i => v (ids.get i)) (dang := dv.map fun v => fun i => v (ids.get i))
    he hnn (by
      intro v hv
      cases hc : pers with
      | none => rw [hp2 hc] at hv; cases hv
      | some l =>
        obtain ⟨v', e, hr⟩ := hp3 l hc
        rw [e] at hv; cases hv
        rw [hrep hr]; exact (ha.pers l hc).2) (by
      rintro ⟨i, hi⟩ v hv
      cases hc : dangling with
      | none => rw [hd2 hc] at hv; cases hv
      | some l =>
        obtain ⟨v', e, hr⟩ := hd3 l hc
        rw [e] at hv; cases hv
        rw [hrep hr]; exact (ha.dangling l hc).2 ⟨_, hmemL i, (hdl i).2 ((he i).1 hi)⟩)
  refine ⟨⟨ids.length, M⟩, ?_, hlen.symm, ?_⟩
  · unfold googleMatrixList
    rw [hp1]
    show (dictToVector? G (if nvals (countRow G.A) < G.n then dangling else none) >>= fun o => _) = _
    rw [hdd, hd1]
    show (listToIds G L >>= fun o => _) = _
    rw [hids]
    show (if ids.length = 0 then _ else _) = _
    rw [if_neg hnn, hM]
    rfl
  · intro i j u v hu hv
    rw [← key i u hu, ← key j v hv]
    show (M i j).getD 0 = _
    rw [hspec]
    have hP : ∀ j, vdist (pv.map fun v => fun i => v (ids.get i)) (fun _ => 1 / (ids.length : F)) j =
        distOf L pers (uniform L) (keyFn h (ids.get j)) := by
      intro j
      cases hc : pers with
      | none => rw [hp2 hc]; simp [vdist, distOf, uniform, hlen]
      | some l =>
        obtain ⟨v', e, hr⟩ := hp3 l hc
        rw [e]
        simp only [vdist, distOf, Option.map_some]
        rw [hr, hrep hr]
    unfold googleEntry
    rw [hP j, weight?_keyFn]
    have hout : outWeight L G.weight? (keyFn h (ids.get i)) =
        ∑ l, (extract G.A ids.get ids.get i l).getD 0 := by
      unfold outWeight
      rw [sumOver_ids h hf]
      exact Finset.sum_congr rfl fun l _ => by rw [weight?_keyFn]; rfl
    rw [hout]
    congr 2
    by_cases hi : ∀ j, extract G.A ids.get ids.get i j = none
    · rw [if_pos ((he i).2 hi), if_pos ((hdl i).2 hi)]
      cases hc : dangling with
      | none => rw [hd2 hc]; simp only [vdist, distOf, Option.map_none]; exact hP j
      | some l =>
        obtain ⟨v', e, hr⟩ := hd3 l hc
        rw [e]
        simp only [vdist, distOf, Option.map_some]
        rw [hr, hrep hr]
    · rw [if_neg (fun hc => hi ((he i).1 hc)), if_neg (fun hc => hi ((hdl i).1 hc))]
      rfl

/-- 0→1 -/
def gmG : Graph Nat ℚ where
  n := 2
  A := Ex.ofTriples 2 [(0,1,1)]
  keyToId := [(0,0), (1,1)]
  directed := true

/-- **C67, finding.**  With all nodes listed in another order the wrong rows are taken for empty: on
`0 → 1` with nodelist `[1, 0]` and alpha 1/2 the row of node 1, which has no out-edge, sums to 1/2, not
to 1; and the row of node 0 loses its edge. -/
theorem google_matrix_permuted_nodelist : ∃ G : Graph Nat ℚ, G.WF ∧
    (match googleMatrixList G (1/2) none [1, 0] none with
      | .ok M => decide (∃ i : Fin M.1, i.val = 0 ∧ ∑ j, (M.2 i j).getD 0 = 1/2)
      | .error _ => false) = true ∧
    (match googleMatrix G (1/2) none none with
      | .ok M => decide (∀ i, ∑ j, (M i j).getD 0 = 1)
      | .error _ => false) = true :=
  ⟨gmG, ⟨by decide, by decide⟩, by decide +kernel, by decide +kernel⟩

/-- 0→1→2→0 -/
def gmC : Graph Nat ℚ where
  n := 3
  A := Ex.ofTriples 3 [(0,1,1), (1,2,1), (2,0,1)]
  keyToId := [(0,0), (1,1), (2,2)]
  directed := true

/-- **C67, finding.**  `dangling` is ignored when no node of the whole graph is dangling, even though a
node is dangling among the listed ones: on the cycle `0 → 1 → 2 → 0` with nodelist `[0, 1]`,
`dangling={0: 1}` and alpha 1, the entry from 1 to 0 is 1/2; among the listed nodes 1 is dangling, so it
should be 1. -/
theorem google_matrix_dangling_ignored : ∃ G : Graph Nat ℚ, G.WF ∧
    (match googleMatrixList G 1 none [0, 1] (some [(0, 1)]) with
      | .ok M => decide (∃ i j : Fin M.1, i.val = 1 ∧ j.val = 0 ∧ (M.2 i j).getD 0 = 1/2)
      | .error _ => false) = true ∧
    googleEntry [0, 1] G.weight? 1 (uniform [0, 1]) (distOf [0, 1] (some [(0, 1)]) (uniform [0, 1])) 1 0 = 1 :=
  ⟨gmC, ⟨by decide, by decide⟩, by decide +kernel, by decide +kernel⟩

/-! ### what the code returns for an arbitrary node list -/

private theorem normNonzero_isSome (v : Vec n F) (hv : vsum v ≠ 0) (j) :
    (normNonzero v j).isSome = true ↔ (v j).getD 0 / vsum v ≠ 0 := by
  unfold normNonzero
  by_cases h : (v j).getD 0 = 0
  · rw [if_pos h, h]; simp
  · rw [if_neg h]
    cases hj : v j with
    | none => simp [hj] at h
    | some a => simpa [hj, hv] using h

private theorem gmFill_getD' (A : Mat n n F) (empty : Fin n → Bool) {fill : Fin n → Option F} {D : Fin n → F}
    (i : Fin n) (hf : empty i = true → ∀ j, (fill j).getD 0 = D j ∧ ((fill j).isSome = true ↔ D j ≠ 0)) (j) :
    (gmFill empty fill A i j).getD 0 = if empty i = true ∧ D j ≠ 0 then D j else (A i j).getD 0 := by
  unfold gmFill
  by_cases h : empty i = true
  · obtain ⟨h1, h2⟩ := hf h j
    rw [if_pos h]
    cases hj : fill j with
    | none =>
      have : ¬ D j ≠ 0 := fun hc => by have := h2.2 hc; rw [hj] at this; cases this
      rw [if_neg fun hc => this hc.2]; simp
    | some a =>
      have : D j ≠ 0 := h2.1 (by rw [hj]; rfl)
      rw [if_pos ⟨h, this⟩, ← h1, hj]
      cases A i j <;> simp [first]
  · rw [if_neg h, if_neg fun hc => h hc.1]; simp

private theorem gmBody_exact [IsStrictOrderedRing F] (alpha : F) {A : Mat n n F} {pers dang : Option (Vec n F)}
    {empty : Fin n → Bool} (hn : n ≠ 0)
    (hp : ∀ v, pers = some v → vsum v ≠ 0)
    (hd : (∃ i, empty i = true) → ∀ v, dang = some v → vsum v ≠ 0) :
    ∃ M, gmBody alpha A pers dang empty = .ok M ∧ ∀ i j, (M i j).getD 0 =
      alpha * ((if empty i = true ∧ vdist dang (vdist pers fun _ => 1 / n) j ≠ 0 then
          vdist dang (vdist pers fun _ => 1 / n) j else (A i j).getD 0) /
        ∑ l, if empty i = true ∧ vdist dang (vdist pers fun _ => 1 / n) l ≠ 0 then
          vdist dang (vdist pers fun _ => 1 / n) l else (A i l).getD 0) +
      (1 - alpha) * vdist pers (fun _ => 1 / n) j := by
  have hnF : (n : F) ≠ 0 := by exact_mod_cast hn
  have calc1 : ∀ (fill : Fin n → Option F) (P D : Fin n → F) (p : F ⊕ Vec n F),
      ((∃ i, empty i = true) → ∀ j, (fill j).getD 0 = D j ∧ ((fill j).isSome = true ↔ D j ≠ 0)) →
      (∀ j, (match p with | .inl c => c | .inr v => (v j).getD 0) = P j) → ∀ i j,
      (gmScale alpha (gmFill empty fill A) p i j).getD 0 =
        alpha * ((if empty i = true ∧ D j ≠ 0 then D j else (A i j).getD 0) /
          ∑ l, if empty i = true ∧ D l ≠ 0 then D l else (A i l).getD 0) + (1 - alpha) * P j := by
    intro fill P D p hf hP i j
    rw [gmScale_getD, hP j]
    simp only [gmFill_getD' A empty i (fun hi => hf ⟨i, hi⟩)]
    ring
  unfold gmBody
  cases hpers : pers with
  | none =>
    cases hdang : dang with
    | none =>
      exact ⟨_, rfl, calc1 _ (fun _ => 1 / n) (fun _ => 1 / n) _
        (fun _ _ => ⟨rfl, by simp [hnF]⟩) fun _ => rfl⟩
    | some d =>
      have hc : ¬ ((∃ i, empty i = true) ∧ vsum d = 0) := fun hc => hd hc.1 d hdang hc.2
      refine ⟨gmScale alpha (gmFill empty (normNonzero d) A) (.inl (1 / n)), ?_, ?_⟩
      · dsimp only
        rw [if_neg hc]
      · exact calc1 _ (fun _ => 1 / n) (fun j => (d j).getD 0 / vsum d) _
          (fun hx j => ⟨normNonzero_getD d j, normNonzero_isSome d (hd hx d hdang) j⟩) fun _ => rfl
  | some s =>
    have h0 := hp s hpers
    cases hdang : dang with
    | none =>
      refine ⟨gmScale alpha (gmFill empty (normNonzero s) A) (.inr (normNonzero s)), ?_, ?_⟩
      · dsimp only
        rw [if_neg h0]
      · exact calc1 _ (fun j => (s j).getD 0 / vsum s) (fun j => (s j).getD 0 / vsum s) _
          (fun _ j => ⟨normNonzero_getD s j, normNonzero_isSome s h0 j⟩) fun j => normNonzero_getD s j
    | some d =>
      have hc : ¬ ((∃ i, empty i = true) ∧ vsum d = 0) := fun hc => hd hc.1 d hdang hc.2
      refine ⟨gmScale alpha (gmFill empty (normNonzero d) A) (.inr (normNonzero s)), ?_, ?_⟩
      · dsimp only
        rw [if_neg h0, if_neg hc]
      · exact calc1 _ (fun j => (s j).getD 0 / vsum s) (fun j => (d j).getD 0 / vsum d) _
          (fun hx j => ⟨normNonzero_getD d j, normNonzero_isSome d (hd hx d hdang) j⟩)
          fun j => normNonzero_getD s j

/-- the rows `google_matrix(G, nodelist=L)` treats as empty: position `i` of the list, where `u` stands.
If the list is as long as the graph, the code asks whether the node *numbered* `i` in the graph dangles. -/
def TakenEmpty (G : Graph K F) (L : List K) (i : Nat) (u : K) : Prop :=
  if L.length = G.nodes.length then ∀ x, (x, i) ∈ G.keyToId → Dangling G.nodes G.weight? x
  else Dangling L G.weight? u

/-- the `dangling` dictionary is looked at only if some node of the whole graph dangles -/
def SeenDangling (G : Graph K F) (dangling : Option (List (K × F))) : Option (List (K × F)) :=
  if ∃ u ∈ G.nodes, Dangling G.nodes G.weight? u then dangling else none

open Classical in
/-- the weights of a row treated as empty: the entries of `d` that are not zero overwrite the row -/
noncomputable def filledRow (taken : Prop) (d : K → F) (w : K → Option F) (v : K) : F :=
  if taken ∧ d v ≠ 0 then d v else (w v).getD 0

/-- arguments the code does not reject -/
structure GMListArgs (G : Graph K F) (L : List K) (pers dangling : Option (List (K × F))) : Prop where
  pers : ∀ l, pers = some l → ValidDict G l ∧ sumOver L (valueIn l) ≠ 0
  dangling : ∀ l, SeenDangling G dangling = some l → ValidDict G l ∧
    ((∃ i u, L[i]? = some u ∧ TakenEmpty G L i u) → sumOver L (valueIn l) ≠ 0)

open Classical in
/-- **C67, what the code returns for every node list** (in any order, with repetitions): row `i` is the
row of the node listed at position `i`, overwritten by the jump distribution if the code takes it for
empty, divided by its sum and combined with the personalization.  (As everywhere, `x / 0 = 0`.) -/
theorem google_matrix_nodelist_exact [IsStrictOrderedRing F] (h : G.WF) {L : List K}
    (hL : ∀ u ∈ L, G.Node u) (hne : L ≠ [])
    {pers dangling : Option (List (K × F))} (ha : GMListArgs G L pers dangling) (alpha : F) :
    ∃ M : Σ m, Mat m m F, googleMatrixList G alpha pers L dangling = .ok M ∧ M.1 = L.length ∧
      ∀ (i j : Fin M.1) (u v : K), L[i.val]? = some u → L[j.val]? = some v →
        let p := distOf L pers (uniform L)
        let row := filledRow (TakenEmpty G L i.val u) (distOf L (SeenDangling G dangling) p) (G.weight? u)
        (M.2 i j).getD 0 = alpha * (row v / sumOver L row) + (1 - alpha) * p v := by
  obtain ⟨ids, hids, hf⟩ := Proofs.listToIds_ok h hL
  have hlen := hf.length_eq
  have hnn : ids.length ≠ 0 := by
    rw [← hlen]; exact fun e => hne (List.length_eq_zero_iff.1 e)
  obtain ⟨pv, hp1, hp2, hp3⟩ := dict?_rep h (d := pers) fun l hl => (ha.pers l hl).1
  have hdd : (if nvals (countRow G.A) < G.n then dangling else none) = SeenDangling G dangling := by
    unfold SeenDangling
    by_cases hc : ∃ u ∈ G.nodes, Dangling G.nodes G.weight? u
    · rw [if_pos hc, if_pos ((countRow_nvals_lt h).2 hc)]
    · rw [if_neg hc, if_neg fun hx => hc ((countRow_nvals_lt h).1 hx)]
  obtain ⟨dv, hd1, hd2, hd3⟩ := dict?_rep h (d := SeenDangling G dangling) fun l hl => (ha.dangling l hl).1
  have key : ∀ i : Fin ids.length, ∀ u, L[i.val]? = some u → keyFn h (ids.get i) = u := by
    intro i u hu
    obtain ⟨u', hu', hat⟩ := forall₂_get hf i
    rw [hu] at hu'; cases hu'
    exact keyFn_eq h hat
  have hmemL : ∀ i : Fin ids.length, keyFn h (ids.get i) ∈ L := by
    intro i
    obtain ⟨u', hu', hat⟩ := forall₂_get hf i
    rw [keyFn_eq h hat]
    exact List.mem_of_getElem? hu'
  have hdl : ∀ i : Fin ids.length, Dangling L G.weight? (keyFn h (ids.get i)) ↔
      ∀ j, extract G.A ids.get ids.get i j = none := by
    intro i
    constructor
    · intro hd j
      have := hd _ (hmemL j)
      rwa [weight?_keyFn] at this
    · intro hd v hv
      obtain ⟨k, hk, rfl⟩ := List.getElem_of_mem hv
      have := hd ⟨k, by omega⟩
      rw [← key ⟨k, by omega⟩ _ (List.getElem?_eq_getElem hk), weight?_keyFn]
      exact this
  have he : ∀ i, gmEmptyRows G.A ids i = true ↔ TakenEmpty G L i (keyFn h (ids.get i)) := by
    intro i
    unfold gmEmptyRows TakenEmpty
    by_cases hn : ids.length = G.n
    · rw [dif_pos hn, if_pos (by rw [hlen, nodes_length h, hn]), countRow_isSome_iff]
      constructor
      · intro hx x hx'
        have hat : G.At x (Fin.cast hn i) := hx'
        rw [← keyFn_eq h hat]
        exact (dangling_iff h _).2 hx
      · intro hx
        exact (dangling_iff h _).1 (hx _ (keyFn_at h (Fin.cast hn i)))
    · rw [dif_neg hn, if_neg (by rw [hlen, nodes_length h]; exact hn), countRow_isSome_iff]
      exact (hdl i).symm
  have hrep : ∀ {l : List (K × F)} {v : Vec G.n F}, Rep h v (valueIn l) →
      vsum (fun i => v (ids.get i)) = sumOver L (valueIn l) := by
    intro l v hr
    rw [vsum_eq, sumOver_ids h hf]
    exact Finset.sum_congr rfl fun i _ => hr _
  obtain ⟨M, hM, hspec⟩ := gmBody_exact alpha (A := extract G.A ids.get ids.get)
    (pers := pv.map fun v => fun i => v (ids.get i)) (dang := dv.map fun v => fun i => v (ids.get i))
    (empty := gmEmptyRows G.A ids) hnn (by
      intro v hv
      cases hc : pers with
      | none => rw [hp2 hc] at hv; cases hv
      | some l =>
        obtain ⟨v', e, hr⟩ := hp3 l hc
        rw [e] at hv; cases hv
        rw [hrep hr]; exact (ha.pers l hc).2) (by
      rintro ⟨i, hi⟩ v hv
      cases hc : SeenDangling G dangling with
      | none => rw [hd2 hc] at hv; cases hv
      | some l =>
        obtain ⟨v', e, hr⟩ := hd3 l hc
        rw [e] at hv; cases hv
        obtain ⟨u', hu', hat⟩ := forall₂_get hf i
        rw [hrep hr]; exact (ha.dangling l hc).2 ⟨i, u', hu', by
          rw [← keyFn_eq h hat]; exact (he i).1 hi⟩)
  refine ⟨⟨ids.length, M⟩, ?_, hlen.symm, ?_⟩
  · unfold googleMatrixList
    rw [hp1]
    show (dictToVector? G (if nvals (countRow G.A) < G.n then dangling else none) >>= fun o => _) = _
    rw [hdd, hd1]
    show (listToIds G L >>= fun o => _) = _
    rw [hids]
    show (if ids.length = 0 then _ else _) = _
    rw [if_neg hnn, hM]
    rfl
  · intro i j u v hu hv
    rw [← key i u hu, ← key j v hv]
    show (M i j).getD 0 = _
    rw [hspec]
    have hP : ∀ j, vdist (pv.map fun v => fun i => v (ids.get i)) (fun _ => 1 / (ids.length : F)) j =
        distOf L pers (uniform L) (keyFn h (ids.get j)) := by
      intro j
      cases hc : pers with
      | none => rw [hp2 hc]; simp [vdist, distOf, uniform, hlen]
      | some l =>
        obtain ⟨v', e, hr⟩ := hp3 l hc
        rw [e]
        simp only [vdist, distOf, Option.map_some]
        rw [hr, hrep hr]
    have hD : ∀ j, vdist (dv.map fun v => fun i => v (ids.get i))
        (vdist (pv.map fun v => fun i => v (ids.get i)) (fun _ => 1 / (ids.length : F))) j =
        distOf L (SeenDangling G dangling) (distOf L pers (uniform L)) (keyFn h (ids.get j)) := by
      intro j
      cases hc : SeenDangling G dangling with
      | none => rw [hd2 hc]; simp only [vdist, distOf, Option.map_none]; exact hP j
      | some l =>
        obtain ⟨v', e, hr⟩ := hd3 l hc
        rw [e]
        simp only [vdist, distOf, Option.map_some]
        rw [hr, hrep hr]
    simp only [hP, hD, he]
    rw [sumOver_ids h hf]
    unfold filledRow
    simp only [weight?_keyFn]
    rfl

/-- **C67 is false of the code for every graph and order like this:** all nodes are listed, at position
`i` stands a dangling node, but the node numbered `i` in the graph is not dangling.  Then row `i` of the
result sums to `1 - alpha`. -/
theorem google_matrix_nodelist_lost_row [IsStrictOrderedRing F] (h : G.WF) {L : List K}
    (hL : L.Perm G.nodes) (hne : L ≠ []) (alpha : F) {i : Nat} {u x : K} (hu : L[i]? = some u)
    (hdu : Dangling G.nodes G.weight? u) (hx : (x, i) ∈ G.keyToId) (hdx : ¬ Dangling G.nodes G.weight? x) :
    ∃ M : Σ m, Mat m m F, googleMatrixList G alpha none L none = .ok M ∧ M.1 = L.length ∧
      ∀ i' : Fin M.1, i'.val = i → ∑ j, (M.2 i' j).getD 0 = 1 - alpha := by
  have hLn : ∀ u ∈ L, G.Node u := fun u hu => hL.mem_iff.1 hu
  have hs : SeenDangling G (none : Option (List (K × F))) = none := by unfold SeenDangling; split <;> rfl
  obtain ⟨M, hM, hm, hspec⟩ := google_matrix_nodelist_exact (pers := none) (dangling := none) h hLn hne
    ⟨by simp, by rw [hs]; simp⟩ alpha
  refine ⟨M, hM, hm, ?_⟩
  rintro i' rfl
  obtain ⟨m, M⟩ := M
  simp only at hm hspec
  subst hm
  have hn : ¬ TakenEmpty G L i'.val u := by
    unfold TakenEmpty
    rw [if_pos hL.length_eq]
    exact fun hc => hdx (hc x hx)
  have hz : ∀ v ∈ L, G.weight? u v = none := fun v hv => hdu v (hL.mem_iff.1 hv)
  have hval : ∀ j : Fin L.length, (M i' j).getD 0 = (1 - alpha) * (1 / (L.length : F)) := by
    intro j
    have := hspec i' j u _ hu (List.getElem?_eq_getElem j.isLt)
    rw [this]
    have : filledRow (TakenEmpty G L i'.val u) (distOf L (SeenDangling G none) (distOf L none (uniform L)))
        (G.weight? u) L[j.val] = 0 := by
      unfold filledRow
      rw [if_neg fun hc => hn hc.1, hz _ (List.getElem_mem _)]; rfl
    rw [this]
    simp [distOf, uniform]
  simp only [hval]
  have hlF : (L.length : F) ≠ 0 := by
    exact_mod_cast fun e => hne (List.length_eq_zero_iff.1 e)
  simp only [Finset.sum_const, Finset.card_univ, Fintype.card_fin, nsmul_eq_mul]
  field_simp

/-- **C67, finding, in general:** when every node of the graph has an out-edge, `dangling` has no effect
at all, although listed nodes may be dangling among the listed ones. -/
theorem google_matrix_dangling_ignored_always (h : G.WF) (alpha : F) (pers) (L : List K)
    (hno : ∀ u, G.Node u → ¬ Dangling G.nodes G.weight? u) (dangling : Option (List (K × F))) :
    googleMatrixList G alpha pers L dangling = googleMatrixList G alpha pers L none := by
  have hc : ¬ nvals (countRow G.A) < G.n := by
    rw [countRow_nvals_lt h]
    rintro ⟨u, h1, h2⟩
    exact hno u h1 h2
  unfold googleMatrixList
  rw [if_neg hc, if_neg hc]

/-! ### the hypotheses are met -/

example : GMArgs prG prG.nodes (some [(1, 1), (3, 3)]) (some [(2, 2)]) where
  rows := fun u hu => prG_args.rows u hu
  pers := prG_args.pers
  dangling := fun l hl =>
    have := prG_args.dangling ⟨3, by decide, by decide +kernel⟩ l hl
    ⟨this.1, fun _ => this.2⟩

-- `google_matrix_nodelist_lost_row` on 0 → 1 listed as [1, 0]; `google_matrix_dangling_ignored_always` on the cycle
example : gmG.WF ∧ [1, 0].Perm gmG.nodes ∧ Dangling gmG.nodes gmG.weight? 1 ∧ (0, 0) ∈ gmG.keyToId ∧
    ¬ Dangling gmG.nodes gmG.weight? 0 :=
  ⟨⟨by decide, by decide⟩, by decide, by decide +kernel, by decide, by decide +kernel⟩
example : gmC.WF ∧ ∀ u ∈ gmC.nodes, ¬ Dangling gmC.nodes gmC.weight? u :=
  ⟨⟨by decide, by decide⟩, by decide +kernel⟩
-- a list with a repetition, a personalization and a dangling dictionary that is looked at
example : GMListArgs gmG [1, 1, 0] (some [(1, 2)]) (some [(0, 1)]) := by
  have hs : SeenDangling gmG (some [(0, 1)]) = some [(0, 1)] := by decide +kernel
  refine ⟨?_, ?_⟩
  · rintro l ⟨⟩; exact ⟨⟨by simp, by simp, by rintro k b hk; simp at hk; rw [hk.1]; unfold Graph.Node; decide⟩, by decide +kernel⟩
  · rw [hs]; rintro l ⟨⟩; exact ⟨⟨by simp, by simp, by rintro k b hk; simp at hk; rw [hk.1]; unfold Graph.Node; decide⟩, fun _ => by decide +kernel⟩

/-- a proper sub-list, with node 1 before node 2, and a dangling node among the listed -/
example : GMArgs prG [3, 1, 2] none none ∧ GMArgs prG [2, 3] none none ∧
    [2, 3].length ≠ prG.nodes.length := by
  refine ⟨⟨?_, by simp, by simp⟩, ⟨?_, by simp, by simp⟩, by decide⟩ <;> decide +kernel

end Props
