import Verif.Model.Bfs
import Verif.Proofs.Graph

/-! Correctness of the BFS loops on row indices. -/

open GB Spec Model Model.Graph

namespace Proofs.Bfs

variable {α β γ : Type} {n k : Nat}

/-- pattern invariant after level `k`: `v` holds the nodes at distance `≤ k`, `q` those at `k` -/
structure PInv (E : Fin n → Fin n → Prop) (S : Fin n → Prop) (k : Nat) (v : Vec n γ)
    (q : Vec n β) : Prop where
  hv : ∀ j, (v j).isSome ↔ ∃ m ≤ k, IsDistFrom E S m j
  hq : ∀ j, (q j).isSome ↔ IsDistFrom E S k j

theorem bfsStep_isSome (A : Mat n n α) (v : Vec n γ) (q : Vec n Bool) (j) :
    (bfsStep A v q j).isSome ↔ (∃ i, (q i).isSome ∧ Adj A i j) ∧ ¬ (v j).isSome := by
  unfold bfsStep vassignR vnot vS
  by_cases hv : (v j).isSome
  · simp [hv]
  · have h1 : (!(v j).isSome) = true := by simpa using hv
    rw [if_pos h1, vxm_isSome]
    exact ⟨fun h => ⟨h, hv⟩, fun h => h.1⟩

theorem step_dist {E : Fin n → Fin n → Prop} {S} {v : Vec n γ} {q : Vec n β}
    (h : PInv E S k v q) (j) :
    ((∃ i, (q i).isSome ∧ E i j) ∧ ¬ (v j).isSome) ↔ IsDistFrom E S (k+1) j := by
  rw [distFrom_succ, h.hv]
  simp only [h.hq]

theorem bfsStep_spec {A : Mat n n α} {S} {v : Vec n γ} {q : Vec n Bool}
    (h : PInv (Adj A) S k v q) (j) :
    (bfsStep A v q j).isSome ↔ IsDistFrom (Adj A) S (k+1) j := by
  rw [bfsStep_isSome, step_dist h]

theorem PInv.next {E : Fin n → Fin n → Prop} {S} {v v' : Vec n γ} {q q' : Vec n β}
    (h : PInv E S k v q) (hq' : ∀ j, (q' j).isSome ↔ IsDistFrom E S (k+1) j)
    (hv' : ∀ j, (v' j).isSome ↔ (q' j).isSome ∨ (v j).isSome) : PInv E S (k+1) v' q' := by
  refine ⟨fun j => ?_, hq'⟩
  rw [hv', hq', h.hv]
  constructor
  · rintro (h | ⟨m, hm, h⟩)
    · exact ⟨_, le_rfl, h⟩
    · exact ⟨m, by omega, h⟩
  · rintro ⟨m, hm, h⟩
    rcases Nat.lt_or_ge k m with hlt | hge
    · obtain rfl : m = k + 1 := by omega
      exact Or.inl h
    · exact Or.inr ⟨m, hge, h⟩

theorem vassignC_isSome (m : VMask n) (w : Vec n γ) (c : γ) (j) :
    (vassignC m w c j).isSome ↔ m j = true ∨ (w j).isSome := by
  unfold vassignC; split <;> simp_all

/-! ### range arithmetic -/

theorem getCutoff_le (n : Nat) (c) : getCutoff n c ≤ n := by
  unfold getCutoff
  split
  · exact le_rfl
  · split <;> omega

/-- distances allowed by the loop: `d = 0` or `d < getCutoff n c`. -/
theorem lt_cutoff_iff {E : Fin n → Fin n → Prop} {S} {d : Nat} {j : Fin n}
    (h : IsDistFrom E S d j) {c : Option Int} (hc : ∀ x, c = some x → 0 ≤ x) :
    d ≤ (getCutoff n c).toNat - 1 ↔ Within c d := by
  have hlt := distFrom_lt_card h
  rw [Fintype.card_fin] at hlt
  unfold getCutoff Within
  cases c with
  | none => simp; omega
  | some x =>
    have := hc x rfl
    simp only [Option.some.injEq, forall_eq']
    split <;> omega

/-! ### _bfs_plain -/

theorem plainLoop_spec {A : Mat n n α} {S} (m k : Nat) {v q : Vec n Bool}
    (h : PInv (Adj A) S k v q) (j) :
    (bfsPlainLoop A none (List.range' (k+1) m) v q j).isSome ↔
      ∃ d ≤ k + m, IsDistFrom (Adj A) S d j := by
  induction m generalizing k v q with
  | zero => simpa [bfsPlainLoop] using h.hv j
  | succ m ih =>
    rw [List.range'_succ]
    simp only [bfsPlainLoop, Option.any_none, Bool.false_eq_true, if_false]
    have hstep := bfsStep_spec h
    split
    · rename_i hz
      rw [nvals_eq_zero] at hz
      rw [h.hv]
      have hempty : ∀ j, ¬ IsDistFrom (Adj A) S (k+1) j := by
        intro j hj
        have := (hstep j).2 hj
        rw [hz j] at this; simp at this
      constructor
      · rintro ⟨d, hd, h⟩; exact ⟨d, by omega, h⟩
      · rintro ⟨d, hd, hD⟩
        refine ⟨d, ?_, hD⟩
        by_contra hlt
        exact distFrom_empty hempty (by omega) j hD
    · have hnext := h.next (v' := vassignC (vS (bfsStep A v q)) v true) hstep
        (fun j => by rw [vassignC_isSome]; rfl)
      rw [ih (k+1) hnext]
      constructor <;> rintro ⟨d, hd, h⟩ <;> exact ⟨d, by omega, h⟩

theorem vofIds_isSome (l : List (Fin n)) (a : γ) (j) : (vofIds l a j).isSome ↔ j ∈ l := by
  unfold vofIds; split <;> simp_all

theorem plainFrom_spec (A : Mat n n α) (start : List (Fin n)) (c : Option Int)
    (hc : ∀ x, c = some x → 0 ≤ x) (j) :
    (bfsPlainFrom A start none c j).isSome ↔
      ∃ d, IsDistFrom (Adj A) (· ∈ start) d j ∧ Within c d := by
  unfold bfsPlainFrom range1
  have h0 : PInv (Adj A) (· ∈ start) 0 (vofIds start true) (vofIds start true) := by
    refine ⟨fun j => ?_, fun j => ?_⟩
    · rw [vofIds_isSome]
      constructor
      · intro h; exact ⟨0, le_rfl, distFrom_zero.2 h⟩
      · rintro ⟨m, hm, h⟩
        obtain rfl : m = 0 := by omega
        exact distFrom_zero.1 h
    · rw [vofIds_isSome, distFrom_zero]
  rw [plainLoop_spec _ 0 h0]
  constructor
  · rintro ⟨d, hd, h⟩; exact ⟨d, h, (lt_cutoff_iff h hc).1 (by omega)⟩
  · rintro ⟨d, h, hw⟩; exact ⟨d, by have := (lt_cutoff_iff h hc).2 hw; omega, h⟩

/-! ### _bfs_level -/

/-- value invariant: `v` stores exactly the distances `≤ k` -/
def LInv (E : Fin n → Fin n → Prop) (S : Fin n → Prop) (k : Nat) (v : Vec n Nat) : Prop :=
  ∀ j d, v j = some d ↔ d ≤ k ∧ IsDistFrom E S d j

theorem LInv.pattern {E : Fin n → Fin n → Prop} {S} {v : Vec n Nat} (h : LInv E S k v) (j) :
    (v j).isSome ↔ ∃ m ≤ k, IsDistFrom E S m j := by
  rw [Option.isSome_iff_exists]
  simp only [h j]

theorem LInv.next {E : Fin n → Fin n → Prop} {S} {v : Vec n Nat} (h : LInv E S k v)
    {q' : Vec n β} (hq' : ∀ j, (q' j).isSome ↔ IsDistFrom E S (k+1) j) :
    LInv E S (k+1) (vassignC (vS q') v (k+1)) := by
  intro j d
  unfold vassignC vS
  split
  · rename_i hs
    have hs := (hq' j).1 hs
    simp only [Option.some.injEq]
    constructor
    · rintro rfl; exact ⟨le_rfl, hs⟩
    · rintro ⟨-, hd⟩; exact distFrom_unique hs hd
  · rename_i hs
    rw [h j d]
    constructor
    · rintro ⟨h1, h2⟩; exact ⟨by omega, h2⟩
    · rintro ⟨h1, h2⟩
      refine ⟨?_, h2⟩
      rcases Nat.lt_or_ge k d with hlt | hge
      · obtain rfl : d = k + 1 := by omega
        exact absurd ((hq' j).2 h2) hs
      · exact hge

theorem LInv.done {E : Fin n → Fin n → Prop} {S} {v : Vec n Nat} (h : LInv E S k v)
    (hempty : ∀ j, ¬ IsDistFrom E S (k+1) j) {m : Nat} (hm : k ≤ m) : LInv E S m v := by
  intro j d
  rw [h j d]
  constructor
  · rintro ⟨h1, h2⟩; exact ⟨by omega, h2⟩
  · rintro ⟨h1, h2⟩
    refine ⟨?_, h2⟩
    by_contra hlt
    exact distFrom_empty hempty (by omega) j h2

theorem levelLoop_spec {A : Mat n n α} {S} (m k : Nat) {v : Vec n Nat} {q : Vec n Bool}
    (h : LInv (Adj A) S k v) (hq : ∀ j, (q j).isSome ↔ IsDistFrom (Adj A) S k j) :
    LInv (Adj A) S (k + m) (bfsLevelLoop A none (List.range' (k+1) m) v q) := by
  induction m generalizing k v q with
  | zero => simpa [bfsLevelLoop] using h
  | succ m ih =>
    rw [List.range'_succ]
    simp only [bfsLevelLoop, Option.any_none, Bool.false_eq_true, if_false]
    have hstep := bfsStep_spec ⟨h.pattern, hq⟩
    split
    · rename_i hz
      rw [nvals_eq_zero] at hz
      refine h.done ?_ (by omega)
      intro j hj
      have := (hstep j).2 hj
      rw [hz j] at this; simp at this
    · have := ih (k+1) (h.next hstep) hstep
      rwa [show k + (m + 1) = k + 1 + m by omega]

theorem vset_isSome (s : Fin n) (a : γ) (j) : (vset vempty s a j).isSome ↔ j = s := by
  unfold vset vempty; split <;> simp_all

theorem levelFrom_spec (A : Mat n n α) (s : Fin n) (c : Option Int)
    (hc : ∀ x, c = some x → 0 ≤ x) (j d) :
    bfsLevelFrom A s none c j = some d ↔ IsDist (Adj A) s d j ∧ Within c d := by
  unfold bfsLevelFrom range1
  have h0 : LInv (Adj A) (· = s) 0 (vset vempty s 0) := by
    intro j d
    unfold vset vempty
    constructor
    · intro h
      split at h
      · cases h; exact ⟨le_rfl, distFrom_zero.2 ‹_›⟩
      · cases h
    · rintro ⟨hd, h⟩
      obtain rfl : d = 0 := by omega
      rw [if_pos (distFrom_zero.1 h)]
  have hq : ∀ j, (vset (vempty : Vec n Bool) s true j).isSome ↔ IsDistFrom (Adj A) (· = s) 0 j := by
    intro j; rw [vset_isSome, distFrom_zero]
  have := levelLoop_spec ((getCutoff n c).toNat - 1) 0 h0 hq j d
  rw [this, isDist_iff_from, and_comm, Nat.zero_add]
  constructor
  · rintro ⟨h, hd⟩; exact ⟨h, (lt_cutoff_iff h hc).1 hd⟩
  · rintro ⟨h, hw⟩; exact ⟨h, (lt_cutoff_iff h hc).2 hw⟩

/-! ### _bfs_levels -/

theorem levelsLoop_spec {A : Mat n n α} {S : Fin k → Fin n → Prop} (m i : Nat) {D : Mat k n Nat}
    {Q : Mat k n Bool} (h : ∀ r, LInv (Adj A) (S r) i (D r))
    (hq : ∀ r j, (Q r j).isSome ↔ IsDistFrom (Adj A) (S r) i j) (r) :
    LInv (Adj A) (S r) (i + m) (bfsLevelsLoop A (List.range' (i+1) m) D Q r) := by
  induction m generalizing i D Q with
  | zero => simpa [bfsLevelsLoop] using h r
  | succ m ih =>
    rw [List.range'_succ]
    simp only [bfsLevelsLoop]
    have hstep : ∀ r j, (bfsStepM A D Q r j).isSome ↔ IsDistFrom (Adj A) (S r) (i+1) j :=
      fun r j => bfsStep_spec (A := A) (v := D r) (q := Q r) ⟨(h r).pattern, hq r⟩ j
    split
    · rename_i hz
      rw [mnvals_eq_zero] at hz
      refine (h r).done ?_ (by omega)
      intro j hj
      have := (hstep r j).2 hj
      rw [hz r j] at this; simp at this
    · have := ih (i+1) (D := massignC (mS (bfsStepM A D Q)) D (i+1)) (Q := bfsStepM A D Q)
        (fun r => (h r).next (hstep r)) hstep
      rwa [show i + (m + 1) = i + 1 + m by omega]

theorem levelsFrom_inv (A : Mat n n α) (ids : Fin k → Fin n) (c : Option Int) (r) :
    LInv (Adj A) (· = ids r) ((getCutoff n c).toNat - 1) (bfsLevelsFrom A ids c r) := by
  unfold bfsLevelsFrom range1
  have := levelsLoop_spec (A := A) (S := fun r j => j = ids r) ((getCutoff n c).toNat - 1) 0
    (D := fun r j => if j = ids r then some 0 else none)
    (Q := fun r j => if j = ids r then some true else none) ?_ ?_ r
  · simpa using this
  · intro r j d
    show (if j = ids r then some 0 else none) = some d ↔ _
    constructor
    · intro h
      split at h
      · cases h; exact ⟨le_rfl, distFrom_zero.2 ‹_›⟩
      · cases h
    · rintro ⟨hd, h⟩
      obtain rfl : d = 0 := by omega
      rw [if_pos (distFrom_zero.1 h)]
  · intro r j; rw [distFrom_zero]; split <;> simp_all

theorem levelFrom_inv (A : Mat n n α) (s : Fin n) (c : Option Int) :
    LInv (Adj A) (· = s) ((getCutoff n c).toNat - 1) (bfsLevelFrom A s none c) := by
  unfold bfsLevelFrom range1
  have := levelLoop_spec (A := A) (S := (· = s)) ((getCutoff n c).toNat - 1) 0
    (v := vset vempty s 0) (q := vset vempty s true) ?_ ?_
  · simpa using this
  · intro j d
    unfold vset vempty
    constructor
    · intro h
      split at h
      · cases h; exact ⟨le_rfl, distFrom_zero.2 ‹_›⟩
      · cases h
    · rintro ⟨hd, h⟩
      obtain rfl : d = 0 := by omega
      rw [if_pos (distFrom_zero.1 h)]
  · intro j; rw [vset_isSome, distFrom_zero]

/-- every row of the multi-source search is the single-source search of its start, for every
cutoff (negative ones included) -/
theorem levelsFrom_eq (A : Mat n n α) (ids : Fin k → Fin n) (c : Option Int) (r) :
    bfsLevelsFrom A ids c r = bfsLevelFrom A (ids r) none c := by
  funext j
  apply Option.ext
  intro d
  rw [levelsFrom_inv A ids c r j d, levelFrom_inv A (ids r) c j d]

/-! ### layers -/

theorem layersLoop_spec {A : Mat n n α} {S} (m i : Nat) {v q : Vec n Bool}
    (hv : ∀ j, (v j).isSome ↔ ∃ d < i, IsDistFrom (Adj A) S d j)
    (hq : ∀ j, (q j).isSome ↔ IsDistFrom (Adj A) S i j) :
    (∀ t x, (bfsLayersLoop A m v q)[t]? = some x →
      (∀ j, (x j).isSome ↔ IsDistFrom (Adj A) S (i + 1 + t) j) ∧ ∃ j, (x j).isSome) ∧
    (∀ j, (bfsLayersLoop A m v q).length < m →
      ¬ IsDistFrom (Adj A) S (i + 1 + (bfsLayersLoop A m v q).length) j) ∧
    (bfsLayersLoop A m v q).length ≤ m := by
  induction m generalizing i v q with
  | zero => simp [bfsLayersLoop]
  | succ m ih =>
    have hP : PInv (Adj A) S i (vassignC (vS q) v true) q := by
      refine ⟨fun j => ?_, hq⟩
      rw [vassignC_isSome, hv]
      show (q j).isSome ∨ _ ↔ _
      rw [hq]
      constructor
      · rintro (h | ⟨d, hd, h⟩)
        · exact ⟨i, le_rfl, h⟩
        · exact ⟨d, by omega, h⟩
      · rintro ⟨d, hd, h⟩
        rcases Nat.lt_or_ge d i with hlt | hge
        · exact Or.inr ⟨d, hlt, h⟩
        · obtain rfl : d = i := by omega
          exact Or.inl h
    have hstep := bfsStep_spec hP
    simp only [bfsLayersLoop]
    split
    · rename_i hz
      rw [nvals_eq_zero] at hz
      refine ⟨by simp, ?_, by simp⟩
      intro j _ hj
      have := (hstep j).2 hj
      rw [hz j] at this; simp at this
    · rename_i hnz
      have hv' : ∀ j, (vassignC (vS q) v true j).isSome ↔ ∃ d < i + 1, IsDistFrom (Adj A) S d j := by
        intro j; rw [hP.hv j]; simp only [Nat.lt_succ_iff]
      obtain ⟨h1, h3, h4⟩ := ih (i+1) hv' hstep
      refine ⟨?_, ?_, by simpa using h4⟩
      · intro t x hx
        cases t with
        | zero =>
          simp only [List.getElem?_cons_zero, Option.some.injEq] at hx
          subst hx
          exact ⟨hstep, nvals_pos.1 (Nat.pos_of_ne_zero hnz)⟩
        | succ t =>
          have := h1 t x (by simpa using hx)
          rwa [show i + 1 + 1 + t = i + 1 + (t + 1) by omega] at this
      · intro j hl
        have := h3 j (by simpa using hl)
        rw [List.length_cons]
        convert this using 2; omega

theorem dadLoop_spec {A : Mat n n α} {S} (m i : Nat) {v q : Vec n Bool}
    (hv : ∀ j, (v j).isSome ↔ ∃ d < i, IsDistFrom (Adj A) S d j)
    (hq : ∀ j, (q j).isSome ↔ IsDistFrom (Adj A) S i j) (j) :
    (dadLoop A m v q j).isSome ↔ IsDistFrom (Adj A) S (i + m) j := by
  induction m generalizing i v q with
  | zero => simpa [dadLoop] using hq j
  | succ m ih =>
    have hP : PInv (Adj A) S i (vassignC (vS q) v true) q := by
      refine ⟨fun j => ?_, hq⟩
      rw [vassignC_isSome, hv]
      show (q j).isSome ∨ _ ↔ _
      rw [hq]
      constructor
      · rintro (h | ⟨d, hd, h⟩)
        · exact ⟨i, le_rfl, h⟩
        · exact ⟨d, by omega, h⟩
      · rintro ⟨d, hd, h⟩
        rcases Nat.lt_or_ge d i with hlt | hge
        · exact Or.inr ⟨d, hlt, h⟩
        · obtain rfl : d = i := by omega
          exact Or.inl h
    have hstep := bfsStep_spec hP
    simp only [dadLoop]
    split
    · rename_i hz
      rw [nvals_eq_zero] at hz
      simp only [hz j, Option.isSome_none, Bool.false_eq_true, false_iff]
      apply distFrom_empty (k := i+1) _ (by omega)
      intro j hj
      have := (hstep j).2 hj
      rw [hz j] at this; simp at this
    · have hv' : ∀ j, (vassignC (vS q) v true j).isSome ↔ ∃ d < i + 1, IsDistFrom (Adj A) S d j := by
        intro j; rw [hP.hv j]; simp only [Nat.lt_succ_iff]
      rw [ih (i+1) hv' hstep, show i + 1 + m = i + (m + 1) by omega]

end Proofs.Bfs
