import Verif.Props.FwExact

/-!
# C34: `floyd_warshall_numpy` with any node list of an undirected graph

The distances are wrong when the list reorders the nodes along edges (`floyd_warshall_numpy_nodelist_undirected_wrong`).
What holds for every list: an entry is the length of some walk between the two nodes, never less than their distance, and
exactly the connected pairs have an entry.
-/

open GB Spec Model Model.Graph Proofs Proofs.Bfs Proofs.BF Proofs.FW

namespace Props

section
variable {α β : Type} {n : Nat}

/-- the same pairs are present, in one order or the other -/
def SamePairs (D : Mat n n α) (D' : Mat n n β) : Prop :=
  ∀ a b, ((D a b).isSome ∨ (D b a).isSome) ↔ ((D' a b).isSome ∨ (D' b a).isSome)

theorem omerge_isSome {γ : Type} {f : γ → γ → γ} {x y : Option γ} :
    (omerge f x y).isSome ↔ x.isSome ∨ y.isSome := by
  cases x <;> cases y <;> simp [omerge]

theorem ointer_isSome {γ δ ε : Type} {f : γ → δ → ε} {x : Option γ} {y : Option δ} :
    (ointer f x y).isSome ↔ x.isSome ∧ y.isSome := by
  cases x <;> cases y <;> simp [ointer]

variable [AddCommGroup α] [LinearOrder α] [AddCommGroup β] [LinearOrder β]

omit [LinearOrder α] in
theorem stepU_isSome [LinearOrder α] (choose : α → α → α) (D : Mat n n α) (i a b : Fin n) :
    (fwStep false choose D i a b).isSome ↔ (D a b).isSome ∨
      (a < b ∧ ((D i a).isSome ∨ (D a i).isSome) ∧ ((D i b).isSome ∨ (D b i).isSome)) := by
  simp only [fwStep, Bool.false_eq_true, if_false, madd, omerge_isSome]
  refine or_congr_right ?_
  unfold triu1
  by_cases h : a < b
  · simp only [h, if_true, true_and]
    unfold fwOuterU fwRowU
    rw [ointer_isSome, omerge_isSome, omerge_isSome]
  · simp [h]

theorem samePairs_step {D : Mat n n α} {D' : Mat n n β} (h : SamePairs D D') (choose : α → α → α)
    (choose' : β → β → β) (i : Fin n) : SamePairs (fwStep false choose D i) (fwStep false choose' D' i) := by
  intro a b
  rw [stepU_isSome, stepU_isSome, stepU_isSome, stepU_isSome]
  have h1 := h a b
  have h2 := h i a
  have h3 := h i b
  rw [h2, h3]
  constructor
  · rintro ((h | h) | (h | h))
    · rcases h1.1 (.inl h) with h | h
      · exact .inl (.inl h)
      · exact .inr (.inl h)
    · exact .inl (.inr h)
    · rcases h1.1 (.inr h) with h | h
      · exact .inl (.inl h)
      · exact .inr (.inl h)
    · exact .inr (.inr h)
  · rintro ((h | h) | (h | h))
    · rcases h1.2 (.inl h) with h | h
      · exact .inl (.inl h)
      · exact .inr (.inl h)
    · exact .inl (.inr h)
    · rcases h1.2 (.inr h) with h | h
      · exact .inl (.inl h)
      · exact .inr (.inl h)
    · exact .inr (.inr h)

theorem samePairs_loop {D : Mat n n α} {D' : Mat n n β} (h : SamePairs D D') (choose : α → α → α)
    (choose' : β → β → β) (l : List (Fin n)) :
    SamePairs (l.foldl (fwStep false choose) D) (l.foldl (fwStep false choose') D') := by
  induction l generalizing D D' with
  | nil => exact h
  | cons i l ih => exact ih (samePairs_step h choose choose' i)

theorem samePairs_finish {D : Mat n n α} {D' : Mat n n β} (h : SamePairs D D') (choose : α → α → α)
    (choose' : β → β → β) (a b : Fin n) :
    (fwFinish false choose D a b).isSome ↔ (fwFinish false choose' D' a b).isSome := by
  unfold fwFinish
  by_cases e : a = b
  · simp [e]
  · simp only [Bool.false_eq_true, if_false, e]
    unfold madd transpose
    rw [omerge_isSome, omerge_isSome]
    exact h a b

/-! ## every entry is the length of a walk -/

variable {W : Fin n → Fin n → α → Prop}

omit [LinearOrder α] in
theorem wwalk_append {k1 k2 : Nat} {c1 c2 : α} {u v w : Fin n} (h1 : WWalk W k1 c1 u v) (h2 : WWalk W k2 c2 v w) :
    WWalk W (k1 + k2) (c1 + c2) u w := by
  induction h2 with
  | nil => simpa using h1
  | snoc _ e ih => rw [← add_assoc c1]; exact (ih h1).snoc e

omit [LinearOrder α] in
theorem wwalk_symm (hs : ∀ u v c, W u v c → W v u c) {k : Nat} {c : α} {u v : Fin n} (h : WWalk W k c u v) :
    WWalk W k c v u := by
  induction h with
  | nil => exact .nil _
  | snoc h e ih =>
    have := wwalk_append (WWalk.snoc (WWalk.nil _) (hs _ _ _ e)) ih
    simp only [zero_add] at this
    rw [Nat.add_comm _ 1]
    refine cast (congrArg (fun x => WWalk W _ x _ _) (add_comm _ _)) this

/-- entries are lengths of walks -/
def WalkVals (W : Fin n → Fin n → α → Prop) (D : Mat n n α) : Prop :=
  ∀ a b c, D a b = some c → ∃ k, WWalk W k c a b

omit [AddCommGroup α] [LinearOrder α] in
theorem omerge_choose {choose : α → α → α} (hc : ∀ x y, choose x y = x ∨ choose x y = y) {x y : Option α} {c : α}
    (h : omerge choose x y = some c) : x = some c ∨ y = some c := by
  cases x with
  | none => exact .inr h
  | some a =>
    cases y with
    | none => exact .inl h
    | some b =>
      cases h
      rcases hc a b with e | e
      · exact .inl (congrArg some e.symm)
      · exact .inr (congrArg some e.symm)

theorem walkVals_step (hs : ∀ u v c, W u v c → W v u c) {choose : α → α → α}
    (hc : ∀ x y, choose x y = x ∨ choose x y = y) {D : Mat n n α} (h : WalkVals W D) (i : Fin n) :
    WalkVals W (fwStep false choose D i) := by
  have hrow : ∀ b c, fwRowU choose D i b = some c → ∃ k, WWalk W k c i b := by
    intro b c hb
    rcases omerge_choose hc hb with h1 | h1
    · exact h i b c h1
    · obtain ⟨k, hk⟩ := h b i c h1
      exact ⟨k, wwalk_symm hs hk⟩
  intro a b c hab
  simp only [fwStep, Bool.false_eq_true, if_false, madd] at hab
  rcases omerge_min_mem hab with h1 | h1
  · exact h a b c h1
  · unfold triu1 at h1
    by_cases hlt : a < b
    · rw [if_pos hlt] at h1
      unfold fwOuterU at h1
      cases ha : fwRowU choose D i a with
      | none => rw [ha] at h1; cases h1
      | some x =>
        cases hb : fwRowU choose D i b with
        | none => rw [ha, hb] at h1; cases h1
        | some y =>
          rw [ha, hb] at h1
          cases h1
          obtain ⟨k1, w1⟩ := hrow a x ha
          obtain ⟨k2, w2⟩ := hrow b y hb
          exact ⟨_, wwalk_append (wwalk_symm hs w1) w2⟩
    · rw [if_neg hlt] at h1; cases h1

theorem walkVals_loop (hs : ∀ u v c, W u v c → W v u c) {choose : α → α → α}
    (hc : ∀ x y, choose x y = x ∨ choose x y = y) {D : Mat n n α} (h : WalkVals W D) (l : List (Fin n)) :
    WalkVals W (l.foldl (fwStep false choose) D) := by
  induction l generalizing D with
  | nil => exact h
  | cons i l ih => exact ih (walkVals_step hs hc h i)

omit [LinearOrder α] in
theorem walkVals_finish (hs : ∀ u v c, W u v c → W v u c) {choose : α → α → α}
    (hc : ∀ x y, choose x y = x ∨ choose x y = y) {D : Mat n n α} (h : WalkVals W D) :
    WalkVals W (fwFinish false choose D) := by
  intro a b c hab
  unfold fwFinish at hab
  by_cases e : a = b
  · subst e
    simp only [if_true] at hab
    cases hab
    exact ⟨0, .nil a⟩
  · simp only [Bool.false_eq_true, if_false, e] at hab
    rcases omerge_choose hc hab with h1 | h1
    · exact h a b c h1
    · obtain ⟨k, hk⟩ := h b a c h1
      exact ⟨k, wwalk_symm hs hk⟩

end

variable {K α : Type} [DecidableEq K] [AddCommGroup α] [LinearOrder α] {G : Graph K α}

/-- a node list that names every node once is a permutation of the rows -/
theorem numpy_nodelist (h : G.WF) (choose : α → α → α) {l : List K} (hl : l.Perm (G.keyToId.map Prod.fst)) :
    ∃ perm : Fin G.n → Fin G.n, Function.Bijective perm ∧
      (∀ (i : Fin G.n) (u : K), l[i.val]? = some u → G.At u (perm i)) ∧
      floydWarshallNumpy G choose (some l) = .ok (fwDistPerm G.directed choose G.A perm) := by
  have hnd : l.Nodup := hl.nodup_iff.2 h.keys_nodup
  have hlen : l.length = G.n := by
    rw [hl.length_eq, List.length_map, ← List.length_map (f := Prod.snd), h.ids_perm.length_eq]
    simp
  have hnode : ∀ u ∈ l, G.Node u := fun u hu => hl.mem_iff.1 hu
  obtain ⟨ids, hids, hF⟩ := listToIds_ok h hnode
  have hilen : ids.length = G.n := by rw [← hF.length_eq, hlen]
  have hat : ∀ i : Fin G.n, G.At (l.get ⟨i, by omega⟩) (ids.get ⟨i, by omega⟩) := fun i =>
    (List.forall₂_iff_get.1 hF).2 i (by omega) (by omega)
  have hget : ∀ i : Fin G.n, l[i.val]? = some (l.get ⟨i, by omega⟩) := fun i => by
    rw [List.get_eq_getElem]; exact List.getElem?_eq_getElem _
  have hinj : Function.Injective (fun i : Fin G.n => ids.get ⟨i, by omega⟩) := by
    intro a b hab
    have h1 := hat a
    rw [show ids.get ⟨a, by omega⟩ = ids.get ⟨b, by omega⟩ from hab] at h1
    have := At.key_unique h h1 (hat b)
    have := List.nodup_iff_injective_get.1 hnd this
    simpa [Fin.ext_iff] using this
  refine ⟨fun i => ids.get ⟨i, by omega⟩, Finite.injective_iff_bijective.1 hinj, fun i u hu => ?_, ?_⟩
  · rw [hget i] at hu
    rw [← Option.some.inj hu]
    exact hat i
  · unfold floydWarshallNumpy
    simp only
    rw [if_neg (by
      rw [not_not]
      exact ⟨hlen, by rw [hnd.dedup, hlen]; rfl⟩), hids]
    simp only [bind, Except.bind]
    rw [dif_pos hilen]

/-- **C34**, every undirected graph and every node list: an entry of `floyd_warshall_numpy(G, nodelist)` is the total
weight of some walk between the two nodes (so it is never below their distance), and there is an entry exactly when a
walk exists.  (`choose` is GraphBLAS's `any`, which may pick either operand.) -/
theorem floyd_warshall_numpy_nodelist_undirected_sound (h : G.WF) (hd : G.directed = false) (hs : G.Symm)
    {choose : α → α → α} (hc : ∀ x y, choose x y = x ∨ choose x y = y)
    {l : List K} (hl : l.Perm (G.keyToId.map Prod.fst)) :
    ∃ D, floydWarshallNumpy G choose (some l) = .ok D ∧
      ∀ (p q : Fin G.n) (u v : K), l[p.val]? = some u → l[q.val]? = some v →
        (∀ d, D p q = some d → ∃ k, WWalk G.WEdge k d u v) ∧ ((D p q).isSome ↔ WReach G.WEdge u v) := by
  obtain ⟨perm, hbij, hat, hres⟩ := numpy_nodelist h choose hl
  refine ⟨_, hres, fun p q u v hu hv => ?_⟩
  have hpu := hat p u hu
  have hqv := hat q v hv
  rw [hd]
  set B := extract G.A perm perm with hB
  have hBs : ∀ i j, B i j = B j i := fun i j => hs _ _
  have hval : WalkVals (MW B) (fwDistPerm false choose G.A perm) := by
    unfold fwDistPerm fwLoop
    have hms : ∀ u v c, MW B u v c → MW B v u c := fun u v c e => (hBs v u).trans e
    refine walkVals_finish hms hc (walkVals_loop hms hc (fun a b c hab => ?_) _)
    refine ⟨1, .single ?_⟩
    change B a b = some c
    simp only [fwStart, Bool.false_eq_true, if_false, extract, triu1] at hab
    split at hab
    · exact hab
    · cases hab
  have hpat : (fwDistPerm false choose G.A perm p q).isSome ↔ (fwDist false min (hopMatrix B) p q).isSome := by
    unfold fwDistPerm fwDist fwLoop
    have e2 : (fun i => fwNonempty false G.A (perm i)) = fwNonempty false (hopMatrix B) := by
      funext i
      have key : nvals (offdiag G.A (perm i)) ≠ 0 ↔ nvals (offdiag (hopMatrix B) i) ≠ 0 := by
        rw [← Nat.pos_iff_ne_zero, ← Nat.pos_iff_ne_zero, nvals_pos, nvals_pos]
        constructor
        · rintro ⟨j, hj⟩
          obtain ⟨j, rfl⟩ := hbij.2 j
          refine ⟨j, ?_⟩
          by_cases e : i = j
          · subst e; simp [offdiag] at hj
          · have e' : perm i ≠ perm j := fun x => e (hbij.1 x)
            simpa [offdiag, hopMatrix, mapply, hB, extract, e, e'] using hj
        · rintro ⟨j, hj⟩
          refine ⟨perm j, ?_⟩
          by_cases e : i = j
          · subst e; simp [offdiag] at hj
          · have e' : perm i ≠ perm j := fun x => e (hbij.1 x)
            simpa [offdiag, hopMatrix, mapply, hB, extract, e, e'] using hj
      simp only [fwNonempty, Bool.false_eq_true, if_false, decide_eq_decide]
      exact key
    rw [e2]
    refine samePairs_finish (samePairs_loop (fun a b => ?_) choose min _) choose min p q
    simp only [fwStart, Bool.false_eq_true, if_false, extract, triu1, hopMatrix, mapply]
    have hab : B a b = B b a := hBs a b
    rcases lt_trichotomy a b with e | rfl | e
    · rcases lt_trichotomy (perm a) (perm b) with e' | e' | e'
      · simp [e, e', e.not_gt, e'.not_gt, hB, extract]
      · exact absurd (hbij.1 e') e.ne
      · simp [e, e', e.not_gt, e'.not_gt, hB, extract, hs (perm a) (perm b)]
    · simp
    · rcases lt_trichotomy (perm a) (perm b) with e' | e' | e'
      · simp [e, e', e.not_gt, e'.not_gt, hB, extract, hs (perm a) (perm b)]
      · exact absurd (hbij.1 e') e.ne'
      · simp [e, e', e.not_gt, e'.not_gt, hB, extract]
  have htrans : ∀ {k c x y}, WWalk (MW B) k c x y → WWalk (MW G.A) k c (perm x) (perm y) := by
    intro k c x y hw
    induction hw with
    | nil => exact .nil _
    | snoc _ e ih => exact ih.snoc e
  refine ⟨fun d hdd => ?_, ?_⟩
  · obtain ⟨k, hk⟩ := hval p q d hdd
    exact ⟨k, (wwalk_iff h hpu hqv).2 (htrans hk)⟩
  · constructor
    · intro hsome
      obtain ⟨d, hdd⟩ := Option.isSome_iff_exists.1 hsome
      obtain ⟨k, hk⟩ := hval p q d hdd
      exact ⟨k, d, (wwalk_iff h hpu hqv).2 (htrans hk)⟩
    · rintro ⟨k, c, hw⟩
      rw [hpat]
      have hw' := (wwalk_iff h hpu hqv).1 hw
      have back : ∀ {k c x y}, WWalk (MW G.A) k c x y → ∀ x' y', perm x' = x → perm y' = y →
          Walk (Adj B) k x' y' := by
        intro k c x y hw
        induction hw with
        | nil =>
          intro x' y' h1 h2
          rw [hbij.1 (h1.trans h2.symm)]
          exact .nil _
        | snoc _ e ih =>
          intro x' y' h1 h2
          obtain ⟨z, hz⟩ := hbij.2 _
          refine (ih x' z h1 hz).snoc ?_
          unfold Adj
          rw [hB, extract, hz, h2]
          rw [show G.A _ _ = some _ from e]
          rfl
      have hex : ∃ k, Walk (Adj B) k p q := ⟨k, back hw' p q rfl rfl⟩
      classical
      have hno : ∀ x, ¬ NegCycleAt (MW (hopMatrix B)) x := by
        rintro x ⟨k, c, hw, hc⟩
        obtain ⟨-, rfl⟩ := hop_walk.1 hw
        omega
      have : fwDist false min (hopMatrix B) p q = some ((Nat.find hex : Nat) : Int) := by
        rw [dist_spec false (fun _ i j => by unfold hopMatrix mapply; rw [hBs i j]) hno min]
        refine ⟨⟨_, hop_walk.2 ⟨Nat.find_spec hex, rfl⟩⟩, fun k c hk => ?_⟩
        obtain ⟨h1, rfl⟩ := hop_walk.1 hk
        exact_mod_cast Nat.find_min' hex h1
      rw [this]
      rfl

/-- the triangle with the list that gives wrong distances is such a case -/
example : Ex.triangle.WF ∧ Ex.triangle.directed = false ∧ Ex.triangle.Symm ∧
    ([2, 1, 0] : List Nat).Perm (Ex.triangle.keyToId.map Prod.fst) :=
  ⟨⟨by decide, by decide⟩, rfl, by unfold Graph.Symm; decide, by decide⟩

end Props
