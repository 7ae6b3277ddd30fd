import Verif.Proofs.Perm

/-!
# A relabelled graph is a renumbered graph
-/

open GB Spec Model Model.Graph Props

namespace Proofs.Perm

variable {K K' α β : Type} {f : K → K'} {G : Graph K α} {H : Graph K' α}

theorem exists_renumber (h : Relabels f G H) (hG : G.WF) (hH : H.WF) :
    ∃ σ : Fin H.n ≃ Fin G.n, (∀ i j, H.A i j = G.A (σ i) (σ j)) ∧ ∀ u i, G.At u (σ i) ↔ H.At (f u) i := by
  have hn : H.n = G.n := by
    have := Relabel.length h hG hH
    rwa [nodes_length hG, nodes_length hH] at this
  have key : ∀ i : Fin H.n, ∃ j : Fin G.n, ∃ u, G.At u j ∧ H.At (f u) i := by
    intro i
    obtain ⟨x, hx⟩ := hH.exists_key i
    obtain ⟨u, hu, rfl⟩ := (h.node x).1 hx.node
    obtain ⟨j, hj⟩ := hu.exists_id hG
    exact ⟨j, u, hj, hx⟩
  choose s u hs using key
  have inj : Function.Injective s := by
    intro i j e
    have hu : u i = u j := At.key_unique hG (hs i).1 (e ▸ (hs j).1)
    exact At.id_unique hH (hs i).2 (by rw [hu]; exact (hs j).2)
  have bij : Function.Bijective s := (Fintype.bijective_iff_injective_and_card s).2 ⟨inj, by simp [hn]⟩
  have hat : ∀ v i, G.At v (s i) ↔ H.At (f v) i := by
    intro v i
    constructor
    · intro hv
      rw [At.key_unique hG hv (hs i).1]; exact (hs i).2
    · intro hv
      rw [h.inj (At.key_unique hH hv (hs i).2)]; exact (hs i).1
  refine ⟨Equiv.ofBijective s bij, ?_, hat⟩
  intro i j
  show H.A i j = G.A (s i) (s j)
  ext w
  have := h.wedge (u i) (u j) w
  constructor
  · intro e
    obtain ⟨a, b, ha, hb, hab⟩ := this.1 ⟨i, j, (hs i).2, (hs j).2, e⟩
    rw [At.id_unique hG ha (hs i).1, At.id_unique hG hb (hs j).1] at hab
    exact hab
  · intro e
    obtain ⟨a, b, ha, hb, hab⟩ := this.2 ⟨s i, s j, (hs i).1, (hs j).1, e⟩
    rw [At.id_unique hH ha (hs i).2, At.id_unique hH hb (hs j).2] at hab
    exact hab

variable [DecidableEq K] [DecidableEq K']

/-- to prove something about a graph and the relabelled graph, think of the same rows, renumbered -/
theorem renumbered {P : Graph K α → Graph K' α → Prop} (h : Relabels f G H) (hG : G.WF) (hH : H.WF)
    (H1 : ∀ (n : Nat) (A : Mat n n α) (k : List (K × Nat)) (k' : List (K' × Nat)) (d m : Bool)
      (σ : Equiv.Perm (Fin n)),
      (∀ u, (⟨n, pm σ A, k', d, m⟩ : Graph K' α).getId (f u) =
        ((⟨n, A, k, d, m⟩ : Graph K α).getId u).map σ.symm) →
      P ⟨n, A, k, d, m⟩ ⟨n, pm σ A, k', d, m⟩) : P G H := by
  obtain ⟨σ, hA, hat⟩ := exists_renumber h hG hH
  have hid : ∀ u, H.getId (f u) = (G.getId u).map σ.symm := by
    intro u
    by_cases hu : G.Node u
    · obtain ⟨i, hi⟩ := hu.exists_id hG
      rw [(getId_eq_ok hG).2 hi, (getId_eq_ok hH).2 ((hat u (σ.symm i)).1 (by simpa using hi))]
      rfl
    · rw [getId_eq_error hG hu, getId_eq_error hH (fun e => hu ((Relabel.node' h).1 e))]
      rfl
  have hn : H.n = G.n := by
    have := Relabel.length h hG hH
    rwa [nodes_length hG, nodes_length hH] at this
  have hd := h.directed
  have hm := h.multi
  clear hat h hG hH
  obtain ⟨n, A, k, d, m⟩ := G
  obtain ⟨n', A', k', d', m'⟩ := H
  dsimp only at hn hd hm σ hA hid
  subst hn hd hm
  obtain rfl : A' = pm σ A := by funext i j; exact hA i j
  exact H1 _ _ _ _ _ _ σ hid

section
variable {n : Nat} {A : Mat n n α} {k : List (K × Nat)} {k' : List (K' × Nat)} {d m : Bool} {σ : Equiv.Perm (Fin n)}

omit [DecidableEq K'] in
theorem idOf_toOption (G : Graph K' α) [DecidableEq K'] (u : K') : G.idOf u = (G.getId u).toOption := by
  unfold Graph.idOf Graph.getId
  cases List.lookup u G.keyToId with
  | none => rfl
  | some i => dsimp only; split_ifs <;> rfl

/-- the hypothesis about the rows of the nodes -/
abbrev Ids (f : K → K') (A : Mat n n α) (k : List (K × Nat)) (k' : List (K' × Nat)) (d m : Bool)
    (σ : Equiv.Perm (Fin n)) : Prop :=
  ∀ u, (⟨n, pm σ A, k', d, m⟩ : Graph K' α).getId (f u) = ((⟨n, A, k, d, m⟩ : Graph K α).getId u).map σ.symm

theorem view_pv (hid : Ids f A k k' d m σ) (v : Vec n β) (u : K) :
    (⟨n, pm σ A, k', d, m⟩ : Graph K' α).view (pv σ v) (f u) = (⟨n, A, k, d, m⟩ : Graph K α).view v u := by
  unfold Graph.view
  rw [idOf_toOption, idOf_toOption, hid]
  cases (⟨n, A, k, d, m⟩ : Graph K α).getId u with
  | error e => rfl
  | ok i =>
    show v (σ (σ.symm i)) = v i
    rw [Equiv.apply_symm_apply]

theorem getIds_pv (hid : Ids f A k k' d m σ) (l : List (K × β)) :
    ((l.map fun p => (f p.1, p.2)).mapM fun p : K' × β =>
        (do let i ← (⟨n, pm σ A, k', d, m⟩ : Graph K' α).getId p.1; .ok (i, p.2) : Except Err (Fin n × β))) =
      (l.mapM fun p => (do let i ← (⟨n, A, k, d, m⟩ : Graph K α).getId p.1; .ok (i, p.2) : Except Err (Fin n × β))).map
        (List.map fun q => (σ.symm q.1, q.2)) := by
  induction l with
  | nil => rfl
  | cons p l ih =>
    rw [List.map_cons, List.mapM_cons, List.mapM_cons, ih]
    dsimp only
    rw [hid p.1]
    generalize (l.mapM fun p => (do let i ← (⟨n, A, k, d, m⟩ : Graph K α).getId p.1; .ok (i, p.2) :
      Except Err (Fin n × β))) = q
    cases (⟨n, A, k, d, m⟩ : Graph K α).getId p.1 with
    | error e => rfl
    | ok i => cases q <;> rfl

omit [DecidableEq K] [DecidableEq K'] in
theorem fromCoo_pv (l : List (Fin n × β)) :
    fromCoo (l.map fun q => (σ.symm q.1, q.2)) = (fromCoo l).map (pv σ) := by
  unfold fromCoo
  have e1 : (l.map fun q => (σ.symm q.1, q.2)).map Prod.fst = (l.map Prod.fst).map σ.symm := by
    rw [List.map_map, List.map_map]; rfl
  have e2 : ((l.map fun q => (σ.symm q.1, q.2)).map Prod.fst).Nodup ↔ (l.map Prod.fst).Nodup := by
    rw [e1]; exact List.nodup_map_iff σ.symm.injective
  have e3 : ∀ i, (l.map fun q => (σ.symm q.1, q.2)).lookup i = l.lookup (σ i) := by
    intro i
    induction l with
    | nil => rfl
    | cons q l ih =>
      rw [List.map_cons, List.lookup_cons, List.lookup_cons]
      by_cases e : σ i = q.1
      · have : i = σ.symm q.1 := by rw [← e]; simp
        simp [e, this]
      · have : i ≠ σ.symm q.1 := fun h => e (by rw [h]; simp)
        rw [show (i == σ.symm q.1) = false by simpa using this, show (σ i == q.1) = false by simpa using e]
        have e1' : (l.map fun q => (σ.symm q.1, q.2)).map Prod.fst = (l.map Prod.fst).map σ.symm := by
          rw [List.map_map, List.map_map]; rfl
        exact ih e1' (by rw [e1']; exact List.nodup_map_iff σ.symm.injective)
  by_cases hn : (l.map Prod.fst).Nodup
  · rw [if_pos (e2.2 hn), if_pos hn]
    show Except.ok _ = Except.ok _
    congr 1
    funext i
    exact e3 i
  · rw [if_neg (fun e => hn (e2.1 e)), if_neg hn]; rfl

theorem dictToVector_pv (hid : Ids f A k k' d m σ) (l : List (K × β)) :
    dictToVector (⟨n, pm σ A, k', d, m⟩ : Graph K' α) (l.map fun p => (f p.1, p.2)) =
      (dictToVector (⟨n, A, k, d, m⟩ : Graph K α) l).map (pv σ) := by
  unfold dictToVector
  rw [getIds_pv hid]
  cases (l.mapM fun p => (do let i ← (⟨n, A, k, d, m⟩ : Graph K α).getId p.1; .ok (i, p.2) : Except Err (Fin n × β))) with
  | error e => rfl
  | ok r =>
    simp only [bind, Except.bind, Except.map]
    by_cases hl : l = []
    · subst hl; rfl
    · rw [if_neg hl, if_neg (by simpa using hl)]
      exact fromCoo_pv r

end

end Proofs.Perm
