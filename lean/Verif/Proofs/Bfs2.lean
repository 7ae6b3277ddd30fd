import Verif.Proofs.Bfs

/-! Bidirectional searches, BFS with a target, BFS parents. -/

open GB Spec Model Model.Graph

namespace Proofs.Bfs

variable {α β γ : Type} {n k : Nat}

/-! ### early exit on a target -/

theorem any_iff {dst : Option (Fin n)} {q : Vec n γ} :
    (dst.any fun d => (q d).isSome) = true ↔ ∃ t, dst = some t ∧ (q t).isSome := by
  cases dst <;> simp

/-- why a BFS loop stopped after level `L`: range exhausted, nothing further, or target seen -/
def Stopped (E : Fin n → Fin n → Prop) (S : Fin n → Prop) (dst : Option (Fin n)) (L M : Nat) :
    Prop :=
  L = M ∨ (L ≤ M ∧ ∀ j, ¬ IsDistFrom E S (L+1) j) ∨
    (L ≤ M ∧ ∃ t, dst = some t ∧ IsDistFrom E S L t)

theorem Stopped.le {E : Fin n → Fin n → Prop} {S} {dst L M} (h : Stopped E S dst L M) : L ≤ M := by
  rcases h with h | h | h
  · omega
  · exact h.1
  · exact h.1

/-- without a target nothing is lost; with one, nothing about the target is lost -/
theorem Stopped.complete {E : Fin n → Fin n → Prop} {S} {dst L M} (h : Stopped E S dst L M)
    {j d} (hj : dst = none ∨ dst = some j) (hd : d ≤ M) (hD : IsDistFrom E S d j) : d ≤ L := by
  rcases h with rfl | ⟨-, h⟩ | ⟨-, t, ht, h⟩
  · exact hd
  · by_contra hlt
    exact distFrom_empty h (by omega) j hD
  · rcases hj with hj | hj
    · rw [hj] at ht; cases ht
    · rw [hj] at ht; cases ht
      rw [distFrom_unique hD h]

theorem levelLoop_spec' {A : Mat n n α} {S} (dst : Option (Fin n)) (m k : Nat) {v : Vec n Nat}
    {q : Vec n Bool}
    (h : LInv (Adj A) S k v) (hq : ∀ j, (q j).isSome ↔ IsDistFrom (Adj A) S k j) :
    ∃ L, Stopped (Adj A) S dst L (k + m) ∧
      LInv (Adj A) S L (bfsLevelLoop A dst (List.range' (k+1) m) v q) := by
  induction m generalizing k v q with
  | zero => exact ⟨k, Or.inl rfl, by simpa [bfsLevelLoop] using h⟩
  | succ m ih =>
    rw [List.range'_succ]
    simp only [bfsLevelLoop]
    have hstep := bfsStep_spec ⟨h.pattern, hq⟩
    split
    · rename_i hz
      rw [nvals_eq_zero] at hz
      refine ⟨k, Or.inr (Or.inl ⟨by omega, ?_⟩), h⟩
      intro j hj
      have := (hstep j).2 hj
      rw [hz j] at this; simp at this
    · split
      · rename_i hany
        obtain ⟨t, ht, hs⟩ := any_iff.1 hany
        exact ⟨k+1, Or.inr (Or.inr ⟨by omega, t, ht, (hstep t).1 hs⟩), h.next hstep⟩
      · obtain ⟨L, h1, h2⟩ := ih (k+1) (h.next hstep) hstep
        exact ⟨L, by rwa [show k + (m + 1) = k + 1 + m by omega], h2⟩

theorem plainLoop_spec' {A : Mat n n α} {S} (dst : Option (Fin n)) (m k : Nat) {v q : Vec n Bool}
    (h : PInv (Adj A) S k v q) :
    ∃ L, Stopped (Adj A) S dst L (k + m) ∧
      ∀ j, (bfsPlainLoop A dst (List.range' (k+1) m) v q j).isSome ↔
        ∃ d ≤ L, IsDistFrom (Adj A) S d j := by
  induction m generalizing k v q with
  | zero => exact ⟨k, Or.inl rfl, by simpa [bfsPlainLoop] using h.hv⟩
  | succ m ih =>
    rw [List.range'_succ]
    simp only [bfsPlainLoop]
    have hstep := bfsStep_spec h
    have hnext := h.next (v' := vassignC (vS (bfsStep A v q)) v true) hstep
        (fun j => by rw [vassignC_isSome]; rfl)
    split
    · rename_i hz
      rw [nvals_eq_zero] at hz
      refine ⟨k, Or.inr (Or.inl ⟨by omega, ?_⟩), h.hv⟩
      intro j hj
      have := (hstep j).2 hj
      rw [hz j] at this; simp at this
    · split
      · rename_i hany
        obtain ⟨t, ht, hs⟩ := any_iff.1 hany
        exact ⟨k+1, Or.inr (Or.inr ⟨by omega, t, ht, (hstep t).1 hs⟩), hnext.hv⟩
      · obtain ⟨L, h1, h2⟩ := ih (k+1) hnext
        exact ⟨L, by rwa [show k + (m + 1) = k + 1 + m by omega], h2⟩

/-! ### _bfs_parent -/

/-- `v` maps every node at distance `1..L` to an adjacent node one level closer, `s` to itself -/
structure ParInv (E : Fin n → Fin n → Prop) (s : Fin n) (L : Nat) (v : Vec n (Fin n)) : Prop where
  pat : ∀ j, (v j).isSome ↔ ∃ d ≤ L, IsDist E s d j
  src : v s = some s
  par : ∀ j p, v j = some p → j ≠ s → ∃ d, IsDist E s d p ∧ IsDist E s (d+1) j ∧ E p j

theorem parentLoop_spec {A : Mat n n α} {s : Fin n} (dst : Option (Fin n)) (m k : Nat)
    {v q : Vec n (Fin n)} (h : ParInv (Adj A) s k v)
    (hq : ∀ j, (q j).isSome ↔ IsDist (Adj A) s k j) (hqi : ∀ j p, q j = some p → p = j) :
    ∃ L, Stopped (Adj A) (· = s) dst L (k + m) ∧
      ParInv (Adj A) s L (bfsParentLoop A dst (List.range' (k+1) m) v q) := by
  induction m generalizing k v q with
  | zero => exact ⟨k, Or.inl rfl, by simpa [bfsParentLoop] using h⟩
  | succ m ih =>
    rw [List.range'_succ]
    simp only [bfsParentLoop]
    have hP : PInv (Adj A) (· = s) k v q :=
      ⟨fun j => by rw [h.pat j]; simp only [isDist_iff_from],
       fun j => by rw [hq j, isDist_iff_from]⟩
    set q' : Vec n (Fin n) := vassignR (vnot (vS v)) (vxm min first q A) with hq'
    have hq's : ∀ j, (q' j).isSome ↔ IsDist (Adj A) s (k+1) j := by
      intro j
      rw [isDist_iff_from, ← step_dist hP, hq']
      unfold vassignR vnot vS
      by_cases hv : (v j).isSome
      · simp [hv]
      · have h1 : (!(v j).isSome) = true := by simpa using hv
        rw [if_pos h1, vxm_isSome]
        exact ⟨fun h => ⟨h, hv⟩, fun h => h.1⟩
    have hq'v : ∀ j p, q' j = some p → IsDist (Adj A) s k p ∧ Adj A p j := by
      intro j p hp
      rw [hq'] at hp
      unfold vassignR at hp
      split at hp
      · obtain ⟨i, hi⟩ := reduce_selective (fun a b => min_choice a b) hp
        obtain ⟨x, y, hx, hy, rfl⟩ := ointer_eq_some.1 hi
        have := hqi i x hx
        subst this
        refine ⟨(hq x).1 (by rw [hx]; rfl), ?_⟩
        show (A x j).isSome = true
        rw [hy]; rfl
      · cases hp
    have hnext : ParInv (Adj A) s (k+1) (vassign (vS q') v q') := by
      refine ⟨fun j => ?_, ?_, ?_⟩
      · unfold vassign vS
        split
        · rename_i hs
          exact ⟨fun _ => ⟨k+1, le_rfl, (hq's j).1 hs⟩, fun _ => hs⟩
        · rename_i hs
          rw [h.pat j]
          constructor
          · rintro ⟨d, hd, h⟩; exact ⟨d, by omega, h⟩
          · rintro ⟨d, hd, h⟩
            refine ⟨d, ?_, h⟩
            rcases Nat.lt_or_ge k d with hlt | hge
            · obtain rfl : d = k + 1 := by omega
              exact absurd ((hq's j).2 h) hs
            · exact hge
      · unfold vassign vS
        split
        · rename_i hs
          have h1 := (hq's s).1 hs
          have h2 := h1.2 0 (Walk.nil s)
          omega
        · exact h.src
      · intro j p hp hjs
        unfold vassign vS at hp
        split at hp
        · rename_i hs
          obtain ⟨h1, h2⟩ := hq'v j p hp
          exact ⟨k, h1, (hq's j).1 hs, h2⟩
        · exact h.par j p hp hjs
    split
    · rename_i hz
      rw [nvals_eq_zero] at hz
      refine ⟨k, Or.inr (Or.inl ⟨by omega, ?_⟩), h⟩
      intro j hj
      have := (hq's j).2 (isDist_iff_from.2 hj)
      rw [hz j] at this; simp at this
    · split
      · rename_i hany
        obtain ⟨t, ht, hs⟩ := any_iff.1 hany
        exact ⟨k+1, Or.inr (Or.inr ⟨by omega, t, ht, isDist_iff_from.1 ((hq's t).1 hs)⟩), hnext⟩
      · obtain ⟨L, h1, h2⟩ := ih (k+1) (q := fun i => (q' i).map fun _ => i) hnext
          (fun j => by simp [← hq's j]) (by
            intro j p hp
            simp only [Option.map_eq_some_iff] at hp
            obtain ⟨_, _, rfl⟩ := hp; rfl)
        exact ⟨L, by rwa [show k + (m + 1) = k + 1 + m by omega], h2⟩

theorem parent_init (E : Fin n → Fin n → Prop) (s : Fin n) : ParInv E s 0 (vset vempty s s) := by
  have h0 : ∀ j d, d ≤ 0 → (IsDist E s d j ↔ j = s) := by
    intro j d hd
    obtain rfl : d = 0 := by omega
    rw [isDist_iff_from, distFrom_zero]
  refine ⟨fun j => ?_, by simp [vset], ?_⟩
  · rw [vset_isSome]
    constructor
    · intro h; exact ⟨0, le_rfl, (h0 j 0 le_rfl).2 h⟩
    · rintro ⟨d, hd, h⟩; exact (h0 j d hd).1 h
  · intro j p hp hjs
    simp [vset, vempty, hjs] at hp

/-! ### bidirectional distance -/

theorem dist_split {E : Fin n → Fin n → Prop} {s t : Fin n} {a b : Nat}
    (h : IsDist E s (a + b) t) : ∃ x, IsDist E s a x ∧ IsDist (Rev E) t b x := by
  obtain ⟨x, h1, h2⟩ := h.1.split
  refine ⟨x, ⟨h1, fun c hc => ?_⟩, ⟨h2.rev, fun c hc => ?_⟩⟩
  · have := h.2 _ (hc.append h2); omega
  · have := h.2 _ (h1.append (walk_rev.1 hc)); omega

theorem dist_meet {E : Fin n → Fin n → Prop} {s t x : Fin n} {a b : Nat}
    (h1 : IsDist E s a x) (h2 : IsDist (Rev E) t b x) : Walk E (a + b) s t :=
  h1.1.append (walk_rev.1 h2.1)

theorem bidirLoop_spec (A : Mat n n α) (s t : Fin n) (m k : Nat) (hk : k + m = (n + 1) / 2)
    {q_src seen_src q_dst seen_dst : Vec n Bool}
    (hf : PInv (Adj A) (· = s) k seen_src q_src)
    (hqd : ∀ j, (q_dst j).isSome ↔ IsDist (Rev (Adj A)) t k j)
    (hsd : ∀ j, (seen_dst j).isSome ↔ ∃ d < k, IsDist (Rev (Adj A)) t d j)
    (hfar : ∀ d, IsDist (Adj A) s d t → 2 * k < d) :
    (∃ d, IsDist (Adj A) s d t ∧
      bidirLoop A ((List.range' k m).map fun t => 2 * t + 1) q_src seen_src q_dst seen_dst = .ok d) ∨
    ((∀ d, ¬ IsDist (Adj A) s d t) ∧
      bidirLoop A ((List.range' k m).map fun t => 2 * t + 1) q_src seen_src q_dst seen_dst
        = .error .noPath) := by
  induction m generalizing k q_src seen_src q_dst seen_dst with
  | zero =>
    right
    refine ⟨fun d hd => ?_, by simp [bidirLoop]⟩
    have h1 := dist_lt_card hd
    have h2 := hfar d hd
    rw [Fintype.card_fin] at h1
    omega
  | succ m ih =>
    rw [List.range'_succ, List.map_cons]
    simp only [bidirLoop]
    have hs := bfsStep_spec hf
    simp only [← isDist_iff_from] at hs
    set qs := bfsStep A seen_src q_src with hqs
    have hmeet : ∀ (q : Vec n Bool) b, (∀ j, (q j).isSome ↔ IsDist (Rev (Adj A)) t b j) →
        ((dot any' pairB qs q).isSome ↔ ∃ x, IsDist (Adj A) s (k+1) x ∧ IsDist (Rev (Adj A)) t b x) := by
      intro q b hq
      rw [dot_isSome]
      simp only [hs, hq]
    split
    · -- forward frontier empty
      rename_i hz
      rw [nvals_eq_zero] at hz
      right
      refine ⟨fun d hd => ?_, rfl⟩
      have := hfar d hd
      obtain ⟨x, hx, -⟩ := dist_split (a := k + 1) (b := d - (k+1))
        (by rwa [show k + 1 + (d - (k+1)) = d by omega])
      have := (hs x).2 hx
      rw [hz x] at this; simp at this
    · split
      · rename_i hmt
        obtain ⟨x, h1, h2⟩ := (hmeet q_dst k hqd).1 hmt
        left
        have hw := dist_meet h1 h2
        obtain ⟨d, hd, hD⟩ := exists_dist hw
        have := hfar d hD
        obtain rfl : d = 2 * k + 1 := by omega
        exact ⟨_, hD, rfl⟩
      · rename_i hmt
        have hne1 : ∀ d, IsDist (Adj A) s d t → 2 * k + 1 < d := by
          intro d hd
          have := hfar d hd
          rcases Nat.lt_or_ge (2*k+1) d with h | h
          · exact h
          · obtain rfl : d = 2 * k + 1 := by omega
            obtain ⟨x, h1, h2⟩ := dist_split (a := k+1) (b := k)
              (by rwa [show k + 1 + k = 2 * k + 1 by omega])
            exact absurd ((hmeet q_dst k hqd).2 ⟨x, h1, h2⟩) hmt
        have hb : PInv (Rev (Adj A)) (· = t) k (vassignC (vS q_dst) seen_dst true) q_dst := by
          refine ⟨fun j => ?_, fun j => by rw [hqd, isDist_iff_from]⟩
          rw [vassignC_isSome, hsd]
          show (q_dst j).isSome ∨ _ ↔ _
          rw [hqd]
          simp only [← isDist_iff_from]
          constructor
          · rintro (h | ⟨d, hd, h⟩)
            · exact ⟨k, le_rfl, h⟩
            · exact ⟨d, by omega, h⟩
          · rintro ⟨d, hd, h⟩
            rcases Nat.lt_or_ge d k with hlt | hge
            · exact Or.inr ⟨d, hlt, h⟩
            · obtain rfl : d = k := by omega
              exact Or.inl h
        set sd := vassignC (vS q_dst) seen_dst true with hsd'
        set qd : Vec n Bool := vassignR (vnot (vS sd)) (mxv any' pairB A q_dst) with hqd'
        have hqds : ∀ j, (qd j).isSome ↔ IsDist (Rev (Adj A)) t (k+1) j := by
          intro j
          rw [isDist_iff_from, ← step_dist hb, hqd']
          unfold vassignR vnot vS
          by_cases hv : (sd j).isSome
          · simp [hv]
          · have h1 : (!(sd j).isSome) = true := by simpa using hv
            rw [if_pos h1, mxv_isSome]
            constructor
            · rintro ⟨i, h2, h3⟩; exact ⟨⟨i, h3, h2⟩, hv⟩
            · rintro ⟨⟨i, h3, h2⟩, -⟩; exact ⟨i, h2, h3⟩
        split
        · rename_i hz
          rw [nvals_eq_zero] at hz
          right
          refine ⟨fun d hd => ?_, rfl⟩
          have := hne1 d hd
          obtain ⟨x, -, hx⟩ := dist_split (a := d - (k+1)) (b := k+1)
            (by rwa [show d - (k+1) + (k + 1) = d by omega])
          have := (hqds x).2 hx
          rw [hz x] at this; simp at this
        · split
          · rename_i hmt2
            obtain ⟨x, h1, h2⟩ := (hmeet qd (k+1) hqds).1 hmt2
            left
            have hw := dist_meet h1 h2
            obtain ⟨d, hd, hD⟩ := exists_dist hw
            have := hne1 d hD
            obtain rfl : d = 2 * k + 1 + 1 := by omega
            exact ⟨_, hD, rfl⟩
          · rename_i hmt2
            have hne2 : ∀ d, IsDist (Adj A) s d t → 2 * (k + 1) < d := by
              intro d hd
              have := hne1 d hd
              rcases Nat.lt_or_ge (2*(k+1)) d with h | h
              · exact h
              · obtain rfl : d = k + 1 + (k + 1) := by omega
                obtain ⟨x, h1, h2⟩ := dist_split hd
                exact absurd ((hmeet qd (k+1) hqds).2 ⟨x, h1, h2⟩) hmt2
            refine ih (k+1) (by omega) ?_ hqds ?_ hne2
            · exact hf.next (fun j => by rw [hs j, isDist_iff_from])
                (fun j => by rw [vassignC_isSome]; rfl)
            · intro j
              rw [hb.hv j]
              simp only [isDist_iff_from, Nat.lt_succ_iff]

theorem oddRange_eq (n : Nat) : oddRange n = (List.range' 0 ((n+1)/2)).map fun t => 2 * t + 1 := by
  unfold oddRange; rw [List.range_eq_range']

/-! ### weak connectivity -/

/-- closure bookkeeping of the two-directional flood -/
structure BiInv (E : Fin n → Fin n → Prop) (s : Fin n) (v q_out q_in : Vec n Bool)
    (oe ie : Bool) : Prop where
  sound : ∀ j, (v j).isSome → Reach (Spec.Sym E) s j
  src : (v s).isSome
  outc : ∀ i j, (v i).isSome → ¬ (q_out i).isSome → ¬ (q_in i).isSome → E i j → (v j).isSome
  inc : ∀ i j, (v i).isSome → ¬ (q_in i).isSome → E j i → (v j).isSome
  qov : ∀ j, (q_out j).isSome → (v j).isSome
  qiv : ∀ j, (q_in j).isSome → (v j).isSome
  hoe : oe = true ↔ ∀ j, q_out j = none
  hie : ie = true ↔ ∀ j, q_in j = none

theorem bi_closed {E : Fin n → Fin n → Prop} {s : Fin n} {v : Vec n Bool}
    (hs : (v s).isSome) (ho : ∀ i j, (v i).isSome → E i j → (v j).isSome)
    (hi : ∀ i j, (v i).isSome → E j i → (v j).isSome) {j} (h : Reach (Spec.Sym E) s j) :
    (v j).isSome := by
  obtain ⟨k, h⟩ := h
  induction h with
  | nil => exact hs
  | snoc _ e ih =>
    rcases e with e | e
    · exact ho _ _ (ih hs) e
    · exact hi _ _ (ih hs) e

theorem nvals_lt_of {v w : Vec n γ} (hsub : ∀ j, (v j).isSome → (w j).isSome)
    {x} (hx : (w x).isSome) (hxv : ¬ (v x).isSome) : nvals v < nvals w := by
  unfold nvals
  apply Finset.card_lt_card
  rw [Finset.ssubset_iff_of_subset]
  · exact ⟨x, by simpa using hx, by simpa using hxv⟩
  · intro j; simpa using hsub j

theorem biLoop_spec (A : Mat n n α) (s : Fin n) (m : Nat) {v q_out q_in : Vec n Bool} {oe ie}
    (h : BiInv (Adj A) s v q_out q_in oe ie) (hn : n ≤ nvals v + m) (j) :
    (bfsBiLoop A m v q_out q_in oe ie j).isSome ↔ Reach (Spec.Sym (Adj A)) s j := by
  induction m generalizing v q_out q_in oe ie with
  | zero =>
    simp only [bfsBiLoop]
    refine ⟨h.sound j, fun _ => ?_⟩
    have hall : (Finset.univ.filter fun i => (v i).isSome) = Finset.univ := by
      apply Finset.eq_univ_of_card
      rw [Fintype.card_fin]
      have := nvals_le v
      unfold nvals at hn this
      omega
    have : j ∈ Finset.univ.filter fun i => (v i).isSome := by rw [hall]; simp
    simpa using this
  | succ m ih =>
    simp only [bfsBiLoop]
    -- new out frontier
    generalize hqo : (if oe = true then vassign (vnot (vS v)) q_out (vxm any' pairB q_in A)
      else vassignR (vnot (vS v)) (vxm any' pairB (vadd any' q_out q_in) A)) = qo
    have hqos : ∀ x, (qo x).isSome ↔
        (∃ i, ((q_out i).isSome ∨ (q_in i).isSome) ∧ Adj A i x) ∧ ¬ (v x).isSome := by
      intro x
      rw [← hqo]
      by_cases hoe : oe = true
      · have he := h.hoe.1 hoe
        rw [if_pos hoe]
        unfold vassign vnot vS
        by_cases hv : (v x).isSome
        · simp [hv, he]
        · have h1 : (!(v x).isSome) = true := by simpa using hv
          rw [if_pos h1, vxm_isSome]
          simp only [he, Option.isSome_none, Bool.false_eq_true, false_or]
          exact ⟨fun h => ⟨h, hv⟩, fun h => h.1⟩
      · rw [if_neg hoe]
        unfold vassignR vnot vS
        by_cases hv : (v x).isSome
        · simp [hv]
        · have h1 : (!(v x).isSome) = true := by simpa using hv
          rw [if_pos h1, vxm_isSome]
          simp only [vadd, isSome_omerge, Bool.or_eq_true]
          exact ⟨fun h => ⟨h, hv⟩, fun h => h.1⟩
    have hoe' : decide (nvals qo = 0) = true ↔ ∀ x, qo x = none := by
      rw [decide_eq_true_iff, nvals_eq_zero]
    generalize hoe'' : decide (nvals qo = 0) = oe' at *
    -- visited after the out step
    generalize hv1 : (if oe' = true then v else vassignC (vS qo) v true) = v1
    have hv1s : ∀ x, (v1 x).isSome ↔ (v x).isSome ∨ (qo x).isSome := by
      intro x
      rw [← hv1]
      by_cases hoe : oe' = true
      · simp [hoe, hoe'.1 hoe]
      · rw [if_neg hoe, vassignC_isSome]; exact or_comm
    have sound1 : ∀ x, (v1 x).isSome → Reach (Spec.Sym (Adj A)) s x := by
      intro x hx
      rcases (hv1s x).1 hx with hx | hx
      · exact h.sound x hx
      · obtain ⟨⟨i, hi, e⟩, -⟩ := (hqos x).1 hx
        exact (h.sound i (hi.elim (h.qov i) (h.qiv i))).tail (Or.inl e)
    have out1 : ∀ i x, (v1 i).isSome → ¬ (qo i).isSome → Adj A i x → (v1 x).isSome := by
      intro i x hi hqi e
      rw [hv1s]
      have hvi : (v i).isSome := ((hv1s i).1 hi).resolve_right hqi
      by_cases hf : (q_out i).isSome ∨ (q_in i).isSome
      · by_cases hvx : (v x).isSome
        · exact Or.inl hvx
        · exact Or.inr ((hqos x).2 ⟨⟨i, hf, e⟩, hvx⟩)
      · rw [not_or] at hf
        exact Or.inl (h.outc i x hvi hf.1 hf.2 e)
    have in1 : ∀ i x, (v1 i).isSome → ¬ (qo i).isSome → ¬ (q_in i).isSome → Adj A x i →
        (v1 x).isSome := by
      intro i x hi hqi hqii e
      rw [hv1s]
      have hvi : (v i).isSome := ((hv1s i).1 hi).resolve_right hqi
      exact Or.inl (h.inc i x hvi hqii e)
    by_cases hb1 : (oe' && ie) = true
    · rw [if_pos hb1]
      rw [Bool.and_eq_true] at hb1
      have ho := hoe'.1 hb1.1
      have hi := h.hie.1 hb1.2
      have hvv : v1 = v := by rw [← hv1, if_pos hb1.1]
      rw [hvv] at out1
      refine ⟨h.sound j, bi_closed h.src ?_ ?_⟩
      · intro a b ha; exact out1 a b ha (by simp [ho])
      · intro a b ha; exact h.inc a b ha (by simp [hi])
    · rw [if_neg hb1]
      generalize hqi : (if ie = true then vassign (vnot (vS v1)) q_in (mxv any' pairB A qo)
        else vassignR (vnot (vS v1)) (mxv any' pairB A (vadd any' qo q_in))) = qi
      have hqis : ∀ x, (qi x).isSome ↔
          (∃ i, ((qo i).isSome ∨ (q_in i).isSome) ∧ Adj A x i) ∧ ¬ (v1 x).isSome := by
        intro x
        rw [← hqi]
        by_cases hie : ie = true
        · have he := h.hie.1 hie
          rw [if_pos hie]
          unfold vassign vnot vS
          by_cases hv : (v1 x).isSome
          · simp [hv, he]
          · have h1 : (!(v1 x).isSome) = true := by simpa using hv
            rw [if_pos h1, mxv_isSome]
            simp only [he, Option.isSome_none, Bool.false_eq_true, or_false]
            constructor
            · rintro ⟨i, h2, h3⟩; exact ⟨⟨i, h3, h2⟩, hv⟩
            · rintro ⟨⟨i, h3, h2⟩, -⟩; exact ⟨i, h2, h3⟩
        · rw [if_neg hie]
          unfold vassignR vnot vS
          by_cases hv : (v1 x).isSome
          · simp [hv]
          · have h1 : (!(v1 x).isSome) = true := by simpa using hv
            rw [if_pos h1, mxv_isSome]
            simp only [vadd, isSome_omerge, Bool.or_eq_true]
            constructor
            · rintro ⟨i, h2, h3⟩; exact ⟨⟨i, h3, h2⟩, hv⟩
            · rintro ⟨⟨i, h3, h2⟩, -⟩; exact ⟨i, h2, h3⟩
      have hie' : decide (nvals qi = 0) = true ↔ ∀ x, qi x = none := by
        rw [decide_eq_true_iff, nvals_eq_zero]
      generalize hie'' : decide (nvals qi = 0) = ie' at *
      by_cases hb2 : (ie' && oe') = true
      · rw [if_pos hb2]
        rw [Bool.and_eq_true] at hb2
        have ho := hoe'.1 hb2.2
        have hi := hie'.1 hb2.1
        refine ⟨sound1 j, bi_closed ((hv1s s).2 (Or.inl h.src)) ?_ ?_⟩
        · intro a b ha; exact out1 a b ha (by simp [ho])
        · intro a b ha e
          by_cases hqa : (q_in a).isSome
          · by_contra hb
            have := (hqis b).2 ⟨⟨a, Or.inr hqa, e⟩, hb⟩
            simp [hi] at this
          · exact in1 a b ha (by simp [ho]) hqa e
      · rw [if_neg hb2]
        generalize hv2 : (if ie' = true then v1 else vassignC (vS qi) v1 true) = v2
        have hv2s : ∀ x, (v2 x).isSome ↔ (v1 x).isSome ∨ (qi x).isSome := by
          intro x
          rw [← hv2]
          by_cases hie : ie' = true
          · simp [hie, hie'.1 hie]
          · rw [if_neg hie, vassignC_isSome]; exact or_comm
        refine ih (v := v2) ⟨?_, ?_, ?_, ?_, ?_, ?_, hoe', hie'⟩ ?_
        · intro x hx
          rcases (hv2s x).1 hx with hx | hx
          · exact sound1 x hx
          · obtain ⟨⟨i, hi, e⟩, -⟩ := (hqis x).1 hx
            have : (v1 i).isSome := by
              rw [hv1s]; exact hi.elim Or.inr (fun h' => Or.inl (h.qiv i h'))
            exact (sound1 i this).tail (Or.inr e)
        · exact (hv2s s).2 (Or.inl ((hv1s s).2 (Or.inl h.src)))
        · intro a b ha hqa hia e
          have := ((hv2s a).1 ha).resolve_right hia
          exact (hv2s b).2 (Or.inl (out1 a b this hqa e))
        · intro a b ha hia e
          have ha1 := ((hv2s a).1 ha).resolve_right hia
          rw [hv2s]
          by_cases hf : (qo a).isSome ∨ (q_in a).isSome
          · by_cases hvb : (v1 b).isSome
            · exact Or.inl hvb
            · exact Or.inr ((hqis b).2 ⟨⟨a, hf, e⟩, hvb⟩)
          · rw [not_or] at hf
            exact Or.inl (in1 a b ha1 hf.1 hf.2 e)
        · intro x hx; exact (hv2s x).2 (Or.inl ((hv1s x).2 (Or.inr hx)))
        · intro x hx; exact (hv2s x).2 (Or.inr hx)
        · have : nvals v < nvals v2 := by
            have hsub : ∀ x, (v x).isSome → (v2 x).isSome :=
              fun x hx => (hv2s x).2 (Or.inl ((hv1s x).2 (Or.inl hx)))
            by_cases ho : oe' = true
            · have hi : ¬ ie' = true := by
                intro hi; apply hb2; rw [hi, ho]; rfl
              rw [hie', not_forall] at hi
              obtain ⟨x, hx⟩ := hi
              have hx := Option.isSome_iff_ne_none.2 hx
              refine nvals_lt_of hsub (x := x) ((hv2s x).2 (Or.inr hx)) ?_
              intro hvx
              exact ((hqis x).1 hx).2 ((hv1s x).2 (Or.inl hvx))
            · rw [hoe', not_forall] at ho
              obtain ⟨x, hx⟩ := ho
              have hx := Option.isSome_iff_ne_none.2 hx
              exact nvals_lt_of hsub (x := x) ((hv2s x).2 (Or.inl ((hv1s x).2 (Or.inr hx))))
                ((hqos x).1 hx).2
          omega

end Proofs.Bfs
