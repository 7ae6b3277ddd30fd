import Verif.Spec.Dict
import Verif.Proofs.Convert

open GB Spec Model Model.Graph

namespace Proofs

variable {K α β U R : Type} [DecidableEq K] {G : Graph K α}

/-! ### views under updates -/

theorem view_vset (h : G.WF) {k : K} {i : Fin G.n} (hk : G.At k i) (v : Vec G.n β) (b : β) (k' : K) :
    G.view (vset v i b) k' = if k' = k then some b else G.view v k' := by
  by_cases hk' : G.Node k'
  · obtain ⟨j, hj⟩ := hk'.exists_id h
    rw [view_at h hj, view_at h hj]
    unfold vset
    by_cases e : j = i
    · subst e; rw [if_pos rfl, if_pos (At.key_unique h hj hk)]
    · rw [if_neg e, if_neg]
      rintro rfl; exact e (At.id_unique h hj hk)
  · have : G.idOf k' = none := (idOf_eq_none h).2 hk'
    rw [if_neg (by rintro rfl; exact hk' hk.node)]
    simp [view, this]

theorem view_vdel (h : G.WF) {k : K} {i : Fin G.n} (hk : G.At k i) (v : Vec G.n β) (k' : K) :
    G.view (vdel v i) k' = if k' = k then none else G.view v k' := by
  by_cases hk' : G.Node k'
  · obtain ⟨j, hj⟩ := hk'.exists_id h
    rw [view_at h hj, view_at h hj]
    unfold vdel
    by_cases e : j = i
    · subst e; rw [if_pos rfl, if_pos (At.key_unique h hj hk)]
    · rw [if_neg e, if_neg]
      rintro rfl; exact e (At.id_unique h hj hk)
  · have : G.idOf k' = none := (idOf_eq_none h).2 hk'
    rw [if_neg (by rintro rfl; exact hk' hk.node)]
    simp [view, this]

theorem view_none_of_not_node (h : G.WF) {k : K} (hk : ¬ G.Node k) (v : Vec G.n β) : G.view v k = none := by
  simp [view, (idOf_eq_none h).2 hk]

theorem view_vempty (k : K) : G.view (vempty : Vec G.n β) k = none := by
  unfold view vempty
  cases G.idOf k <;> rfl

/-- the keys of the stored entries, in row order -/
theorem listToKeys_indices (h : G.WF) (v : Vec G.n β) :
    ∃ l, listToKeys G (indices v) = .ok l ∧ l.length = nvals v ∧
      IsEnum l (fun k => (G.view v k).isSome) := by
  have hk : listToKeys G (indices v) = .ok ((indices v).map (keyFn h)) := mapM_ok fun i _ => keyAt_ok h i
  refine ⟨_, hk, by rw [List.length_map, indices_length], (indices_nodup _).map fun _ _ => keyFn_inj h, ?_⟩
  intro k
  simp only [List.mem_map, mem_indices, view_isSome h]
  exact ⟨fun ⟨i, hi, e⟩ => ⟨i, e ▸ keyFn_at h i, hi⟩, fun ⟨i, hi, e⟩ => ⟨i, e, keyFn_eq h hi⟩⟩

/-! ### the mapping a NodeMap stores -/

/-- explicitly stored values, by key, as the user sees them -/
def stored (G : Graph K α) (c : Codec U R) (s : NMap G.n U R) (k : K) : Option U :=
  (G.view s.vec k).bind fun r => (c.dec r).toOption

/-- the codec decodes what it encodes -/
def Codec.Sound (c : Codec U R) : Prop := ∀ u r, c.enc u = .ok r → c.dec r = .ok u

/-- every stored value can be decoded -/
def Decodable (c : Codec U R) {n : Nat} (s : NMap n U R) : Prop :=
  ∀ i r, s.vec i = some r → ∃ u, c.dec r = .ok u

variable {c : Codec U R} {s : NMap G.n U R}

theorem stored_at (h : G.WF) (hd : Decodable c s) {k : K} {i} (hk : G.At k i) :
    nmLookup c s i = .ok ((stored G c s k).orElse fun _ => s.fill) ∧
    ((stored G c s k).isSome = (s.vec i).isSome) := by
  unfold nmLookup stored
  rw [view_at h hk]
  cases hv : s.vec i with
  | none => simp
  | some r =>
    obtain ⟨u, hu⟩ := hd i r hv
    simp [hu, Except.map, Except.toOption]

theorem stored_none (h : G.WF) {k : K} (hk : ¬ G.Node k) : stored G c s k = none := by
  simp [stored, view_none_of_not_node h hk]

theorem stored_set (h : G.WF) {k : K} {i} (hk : G.At k i) {r : R} {u : U} (hu : c.dec r = .ok u) :
    stored G c { s with vec := vset s.vec i r } = Function.update (stored G c s) k (some u) := by
  funext k'
  simp only [stored, view_vset h hk, Function.update_apply]
  split
  · simp [hu, Except.toOption]
  · rfl

theorem stored_del (h : G.WF) {k : K} {i} (hk : G.At k i) :
    stored G c { s with vec := vdel s.vec i } = Function.update (stored G c s) k none := by
  funext k'
  simp only [stored, view_vdel h hk, Function.update_apply]
  split <;> rfl

omit [DecidableEq K] in
theorem decodable_set (hd : Decodable c s) {i} {r : R} {u : U} (hu : c.dec r = .ok u) :
    Decodable c { s with vec := vset s.vec i r } := by
  intro j r' hj
  simp only [vset] at hj
  split at hj
  · cases hj; exact ⟨u, hu⟩
  · exact hd j r' hj

omit [DecidableEq K] in
theorem decodable_del (hd : Decodable c s) {i} : Decodable c { s with vec := vdel s.vec i } := by
  intro j r' hj
  simp only [vdel] at hj
  split at hj
  · cases hj
  · exact hd j r' hj

omit [DecidableEq K] in
theorem tocoo_cons {n : Nat} {v : Vec n β} {i b l} (h : tocoo v = (i, b) :: l) : v i = some b :=
  mem_tocoo.1 (by rw [h]; simp)

theorem view_all_none (h : G.WF) {v : Vec G.n β} (hv : ∀ i, v i = none) (k : K) : G.view v k = none := by
  by_cases hk : G.Node k
  · obtain ⟨i, hi⟩ := hk.exists_id h
    rw [view_at h hi, hv]
  · exact view_none_of_not_node h hk v

end Proofs
