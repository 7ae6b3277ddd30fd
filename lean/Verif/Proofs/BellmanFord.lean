import Verif.Model.BellmanFord
import Verif.Proofs.WWalk
import Verif.Proofs.BfsApi

/-! The frontier version of Bellman-Ford computes the stage-wise optima. -/

open GB Spec Model

namespace Proofs.BF

section mono

variable {α : Type} [Zero α] [Add α] [LinearOrder α] [MonoAdd α] {n : Nat}

/-- the weighted edge relation of a matrix -/
def MW {β : Type} (A : Mat n n β) : Fin n → Fin n → β → Prop := fun i j a => A i j = some a

omit [Zero α] [Add α] [MonoAdd α] [LinearOrder α] in
theorem mw_fin (A : Mat n n α) (i j : Fin n) : {a | MW A i j a}.Finite := by
  cases h : A i j with
  | none => convert Set.finite_empty; simp [MW, h]
  | some x => exact (Set.finite_singleton x).subset fun a ha => by
                have : A i j = some a := ha
                rw [h] at this; exact (Option.some.inj this).symm

/-- `c` is within the cutoff -/
def Ok (cut : Option α) (c : α) : Prop := ∀ x, cut = some x → c ≤ x

omit [Zero α] [Add α] [MonoAdd α] in
theorem ok_none (c : α) : Ok none c := by intro x hx; cases hx

omit [Zero α] [Add α] [MonoAdd α] in
theorem Ok.le {cut : Option α} {c c' : α} (h : Ok cut c) (hc : c' ≤ c) : Ok cut c' :=
  fun x hx => hc.trans (h x hx)

/-- the distance vector after `k` rounds -/
structure InvD (A : Mat n n α) (S : Fin n → Prop) (k : Nat) (cut : Option α) (d : Vec n α) :
    Prop where
  sound : ∀ j c, d j = some c → LeW (MW A) S k c j
  best : ∀ j c, Best (MW A) S k c j → Ok cut c → d j = some c

/-- and the frontier -/
structure Inv (A : Mat n n α) (S : Fin n → Prop) (k : Nat) (cut : Option α) (d cur : Vec n α) :
    Prop extends InvD A S k cut d where
  cur_d : ∀ j c, cur j = some c → d j = some c
  fresh : ∀ j c, Best (MW A) S k c j → Ok cut c →
    (∀ m, m < k → ∀ c', LeW (MW A) S m c' j → c < c') → cur j = some c

variable {A : Mat n n α} {S : Fin n → Prop} {k : Nat} {cut : Option α} {d cur : Vec n α}

/-- weights are non-negative, or there is no cutoff -/
def Nonneg (A : Mat n n α) : Prop := ∀ i j a, A i j = some a → 0 ≤ a

omit [MonoAdd α] in
theorem bfRelax_some {j : Fin n} {c : α} : bfRelax A cut cur j = some c ↔
    vxm min (· + ·) cur A j = some c ∧ Ok cut c := by
  unfold bfRelax
  cases cut with
  | none => simp [ok_none]
  | some x => simp [vselect, Option.filter_eq_some_iff, Ok]

omit [MonoAdd α] in
theorem relax_mem {j : Fin n} {c : α} (h : bfRelax A cut cur j = some c) :
    (∃ i x a, cur i = some x ∧ A i j = some a ∧ x + a = c) ∧ Ok cut c := by
  obtain ⟨h1, h2⟩ := bfRelax_some.1 h
  obtain ⟨⟨i, hi⟩, -⟩ := reduce_min.1 h1
  obtain ⟨x, a, hx, ha, hc⟩ := ointer_eq_some.1 hi
  exact ⟨⟨i, x, a, hx, ha, hc⟩, h2⟩

theorem relax_sound (h : Inv A S k cut d cur) {j : Fin n} {c : α}
    (hr : bfRelax A cut cur j = some c) : LeW (MW A) S (k+1) c j := by
  obtain ⟨⟨i, x, a, hx, ha, rfl⟩, -⟩ := relax_mem hr
  exact (h.sound i x (h.cur_d i x hx)).snoc ha

theorem relax_improve (h : Inv A S k cut d cur) (hnn : Nonneg A ∨ cut = none) {j : Fin n} {c : α}
    (hb : Best (MW A) S (k+1) c j) (hok : Ok cut c)
    (hnew : ∀ c', LeW (MW A) S k c' j → c < c') : bfRelax A cut cur j = some c := by
  rcases leW_succ.1 hb.1 with hold | ⟨i, c0, a, h0, e, rfl⟩
  · exact absurd (hnew c hold) (lt_irrefl _)
  obtain ⟨c1, hc1, hb1⟩ := best_exists (mw_fin A) h0
  have hca : c0 + a = c1 + a :=
    le_antisymm (hb.2 _ (hb1.1.snoc e)) (MonoAdd.add_mono a hc1)
  rw [hca] at hb hok hnew ⊢
  have hok1 : Ok cut c1 := by
    rcases hnn with hnn | rfl
    · exact hok.le (MonoAdd.le_add _ (hnn _ _ _ e))
    · exact ok_none _
  have hcur : cur i = some c1 := by
    refine h.fresh i c1 hb1 hok1 fun m hm c' hc' => ?_
    by_contra hle
    have h2 := hnew (c' + a) ((hc'.snoc e).mono (by omega))
    have h3 : c' + a ≤ c1 + a := MonoAdd.add_mono a (not_lt.1 hle)
    exact absurd h2 (not_lt.2 h3)
  rw [bfRelax_some]
  refine ⟨?_, hok⟩
  have hcand : ointer (· + ·) (cur i) (A i j) = some (c1 + a) := by
    have e' : A i j = some a := e
    rw [hcur, e']; rfl
  have hsome : (vxm min (· + ·) cur A j).isSome := by
    rw [vxm_isSome]; exact ⟨i, by simp [hcur], by have e' : A i j = some a := e; simp [e']⟩
  obtain ⟨b, hb'⟩ := Option.isSome_iff_exists.1 hsome
  have hle : b ≤ c1 + a := (reduce_min.1 hb').2 i _ hcand
  have hge : c1 + a ≤ b := by
    obtain ⟨⟨i', hi'⟩, -⟩ := reduce_min.1 hb'
    obtain ⟨x, y, hx, hy, rfl⟩ := ointer_eq_some.1 hi'
    exact hb.2 _ ((h.sound i' x (h.cur_d i' x hx)).snoc hy)
  rw [hb', le_antisymm hle hge]

omit [MonoAdd α] in
theorem bfRound_some {j : Fin n} {c : α} : bfRound A cut d cur j = some c ↔
    bfRelax A cut cur j = some c ∧ ∀ b, d j = some b → c < b := by
  unfold bfRound vassignR vV bfMask vaccum vapply vmul
  cases hr : bfRelax A cut cur j with
  | none => simp
  | some x =>
    cases hd : d j with
    | none => simp [ointer, omerge, hr]
    | some b =>
      simp only [ointer_some, if_true, Option.map_some, omerge_some, second]
      by_cases hx : x < b
      · simp only [hx, decide_true, beq_self_eq_true, if_true, Option.some.injEq, forall_eq']
        constructor
        · rintro rfl; exact ⟨rfl, hx⟩
        · rintro ⟨rfl, -⟩; rfl
      · simp only [hx, decide_false, Option.some.injEq]
        simp
        rintro rfl; exact not_lt.1 hx

/-- the distance vector after a round -/
def upd (d cur : Vec n α) : Vec n α := vassign (vS cur) d cur

omit [Zero α] [Add α] [MonoAdd α] [LinearOrder α] in
theorem upd_of_some {j : Fin n} {c : α} (h : cur j = some c) : upd d cur j = some c := by
  simp [upd, vassign, vS, h]

omit [Zero α] [Add α] [MonoAdd α] [LinearOrder α] in
theorem upd_of_none {j : Fin n} (h : cur j = none) : upd d cur j = d j := by
  simp [upd, vassign, vS, h]

theorem step (h : Inv A S k cut d cur) (hnn : Nonneg A ∨ cut = none) :
    Inv A S (k+1) cut (upd d (bfRound A cut d cur)) (bfRound A cut d cur) := by
  refine ⟨⟨?_, ?_⟩, ?_, ?_⟩
  · intro j c hc
    cases hr : bfRound A cut d cur j with
    | none => rw [upd_of_none hr] at hc; exact (h.sound j c hc).mono (by omega)
    | some x =>
      rw [upd_of_some hr] at hc; cases hc
      exact relax_sound h (bfRound_some.1 hr).1
  · intro j c hb hok
    by_cases hex : ∃ c', LeW (MW A) S k c' j ∧ c' ≤ c
    · obtain ⟨c', h1, h2⟩ := hex
      have : c' = c := le_antisymm h2 (hb.2 _ (h1.mono (by omega)))
      subst this
      have hd := h.best j c' ⟨h1, fun x hx => hb.2 _ (hx.mono (by omega))⟩ hok
      cases hr : bfRound A cut d cur j with
      | none => rw [upd_of_none hr]; exact hd
      | some x =>
        obtain ⟨h3, h4⟩ := bfRound_some.1 hr
        have := hb.2 _ (relax_sound h h3)
        exact absurd (h4 _ hd) (not_lt.2 this)
    · push Not at hex
      have hr : bfRound A cut d cur j = some c := by
        rw [bfRound_some]
        exact ⟨relax_improve h hnn hb hok hex, fun b hb' => hex b (h.sound j b hb')⟩
      exact upd_of_some hr
  · intro j c hc; exact upd_of_some hc
  · intro j c hb hok hfr
    rw [bfRound_some]
    have hex := hfr k (by omega)
    exact ⟨relax_improve h hnn hb hok hex, fun b hb' => hex b (h.sound j b hb')⟩

omit [MonoAdd α] in
theorem Inv.tighten (h : Inv A S k cut d cur) {cut' : Option α}
    (hc : ∀ c, Ok cut' c → Ok cut c) : Inv A S k cut' d cur :=
  ⟨⟨h.sound, fun j c hb hok => h.best j c hb (hc c hok)⟩, h.cur_d,
    fun j c hb hok => h.fresh j c hb (hc c hok)⟩

/-- nothing within the cutoff improves any more -/
def StableC (A : Mat n n α) (S : Fin n → Prop) (k : Nat) (cut : Option α) : Prop :=
  ∀ c v, LeW (MW A) S (k+1) c v → Ok cut c → ∃ c', c' ≤ c ∧ LeW (MW A) S k c' v

theorem stableC_of_relax (h : Inv A S k cut d cur) (hnn : Nonneg A ∨ cut = none)
    (hno : ∀ j c, bfRelax A cut cur j = some c → ¬ ∀ c', LeW (MW A) S k c' j → c < c') :
    StableC A S k cut := by
  intro c v hw hok
  obtain ⟨b, hb, hbest⟩ := best_exists (mw_fin A) hw
  by_contra hcon
  push Not at hcon
  have hnew : ∀ c', LeW (MW A) S k c' v → b < c' := by
    intro c' hc'
    by_contra hle
    exact hcon c' ((not_lt.1 hle).trans hb) hc'
  exact hno v b (relax_improve h hnn hbest (hok.le hb) hnew) hnew

theorem stableC_all (hnn : Nonneg A ∨ cut = none) (h : StableC A S k cut) {m : Nat} {c : α}
    {v : Fin n} (hw : LeW (MW A) S m c v) (hok : Ok cut c) :
    ∃ c', c' ≤ c ∧ LeW (MW A) S k c' v := by
  induction m generalizing c v with
  | zero => exact ⟨c, le_rfl, hw.mono (Nat.zero_le _)⟩
  | succ m ih =>
    rcases leW_succ.1 hw with hw | ⟨u, c', a, h1, e, rfl⟩
    · exact ih hw hok
    · have hok' : Ok cut c' := by
        rcases hnn with hnn | rfl
        · exact hok.le (MonoAdd.le_add _ (hnn _ _ _ e))
        · exact ok_none _
      obtain ⟨d, hd, hd'⟩ := ih h1 hok'
      have hle : d + a ≤ c' + a := MonoAdd.add_mono a hd
      obtain ⟨f, hf, hf'⟩ := h _ _ (hd'.snoc e) (hok.le hle)
      exact ⟨f, hf.trans hle, hf'⟩

/-- cutoff bookkeeping of the pruned search: the cutoff is the value already found for `t` -/
def PruneOk (prune : Option (Fin n)) (cut0 cut : Option α) (d : Vec n α) : Prop :=
  match prune with
  | none => cut = cut0
  | some t => cut = cut0 ∨ (cut.isSome ∧ d t = cut)

theorem loop_spec (prune : Option (Fin n)) (cut0 : Option α) (m : Nat)
    (hnn : Nonneg A ∨ (prune = none ∧ cut0 = none)) {k cut d cur}
    (h : Inv A S k cut d cur) (hp : PruneOk prune cut0 cut d) :
    ∃ k', k ≤ k' ∧ k' ≤ k + m ∧
      InvD A S k' (bfLoop A prune m cut d cur).cut (bfLoop A prune m cut d cur).d ∧
      PruneOk prune cut0 (bfLoop A prune m cut d cur).cut (bfLoop A prune m cut d cur).d ∧
      ((bfLoop A prune m cut d cur).broke = true →
        StableC A S k' (bfLoop A prune m cut d cur).cut) ∧
      ((bfLoop A prune m cut d cur).broke = false → k' = k + m ∧
        Inv A S k' (bfLoop A prune m cut d cur).cut (bfLoop A prune m cut d cur).d
          (bfLoop A prune m cut d cur).cur) := by
  have hnn' : ∀ {cut d}, PruneOk prune cut0 cut d → Nonneg A ∨ cut = none := by
    intro cut d hp
    rcases hnn with hnn | ⟨rfl, rfl⟩
    · exact Or.inl hnn
    · exact Or.inr hp
  induction m generalizing k cut d cur with
  | zero =>
    exact ⟨k, le_rfl, le_rfl, h.toInvD, hp, by simp [bfLoop], fun _ => ⟨rfl, h⟩⟩
  | succ m ih =>
    unfold bfLoop
    simp only
    split
    · rename_i hz
      refine ⟨k, le_rfl, by omega, h.toInvD, hp, fun _ => ?_, by simp⟩
      apply stableC_of_relax h (hnn' hp)
      intro j c hr hnew
      have : bfRound A cut d cur j = some c := by
        rw [bfRound_some]; exact ⟨hr, fun b hb => hnew b (h.sound j b hb)⟩
      rw [nvals_eq_zero.1 hz j] at this; cases this
    · have hs := step h (hnn' hp)
      generalize hcut' : bfNextCut prune cut (bfRound A cut d cur) = cut'
      unfold bfNextCut at hcut'
      have hok : ∀ c, Ok cut' c → Ok cut c := by
        intro c hc
        cases prune with
        | none => simp only at hcut'; exact hcut' ▸ hc
        | some t =>
          simp only at hcut'
          cases hr : bfRound A cut d cur t with
          | none => rw [hr] at hcut'; simp at hcut'; exact hcut' ▸ hc
          | some y =>
            rw [hr] at hcut'; simp at hcut'
            have h1 := (relax_mem (bfRound_some.1 hr).1).2
            exact h1.le (hc y hcut'.symm)
      have hp' : PruneOk prune cut0 cut' (upd d (bfRound A cut d cur)) := by
        cases prune with
        | none => simp only at hcut'; exact hcut' ▸ hp
        | some t =>
          simp only at hcut'
          cases hr : bfRound A cut d cur t with
          | none =>
            rw [hr] at hcut'; simp at hcut'; subst hcut'
            show _ ∨ _
            rw [upd_of_none hr]; exact hp
          | some y =>
            rw [hr] at hcut'; simp at hcut'; subst hcut'
            exact Or.inr ⟨rfl, upd_of_some hr⟩
      obtain ⟨k', h1, h2, h3⟩ := ih (hs.tighten hok) hp'
      refine ⟨k', by omega, by omega, h3.1, h3.2.1, h3.2.2.1, fun hb => ?_⟩
      obtain ⟨e, hi⟩ := h3.2.2.2 hb
      exact ⟨by omega, hi⟩

theorem inv_init {d : Vec n α} (hd : ∀ j c, d j = some c ↔ S j ∧ c = 0) (cut : Option α) :
    Inv A S 0 cut d d := by
  refine ⟨⟨fun j c h => leW_zero.2 ((hd j c).1 h), fun j c h _ => (hd j c).2 (leW_zero.1 h.1)⟩,
    fun _ _ h => h, fun j c h _ _ => (hd j c).2 (leW_zero.1 h.1)⟩

omit [LinearOrder α] [MonoAdd α] in
theorem src_init (s : Fin n) (j : Fin n) (c : α) :
    (vset vempty s 0 : Vec n α) j = some c ↔ j = s ∧ c = 0 := by
  unfold vset vempty
  split
  · rename_i h; simp [h, eq_comm]
  · rename_i h; simp [h]

omit [MonoAdd α] in
theorem improved_iff {j : Fin n} : (bfImproved A cut d cur j).getD false = true ↔
    ∃ c b, bfRelax A cut cur j = some c ∧ d j = some b ∧ c < b := by
  unfold bfImproved vmul
  cases bfRelax A cut cur j <;> cases d j <;> simp

omit [Zero α] [Add α] [LinearOrder α] [MonoAdd α] in
theorem reduce_or {v : Vec n Bool} :
    (reduce (· || ·) v).getD false = true ↔ ∃ j, (v j).getD false = true := by
  rw [reduce, foldl_omerge_or]
  simp

/-- every node reachable at all is reachable with fewer edges than nodes -/
theorem leW_of_any {m : Nat} {c : α} {v : Fin n} (h : LeW (MW A) S m c v) :
    ∃ c', LeW (MW A) S (n-1) c' v := by
  obtain ⟨k, -, s, hs, hw⟩ := h
  obtain ⟨d, -, hd⟩ := exists_distFrom (S := S) hs hw.walk
  have hlt := distFrom_lt_card hd
  obtain ⟨s', hs', hw'⟩ := hd.1
  obtain ⟨c', hc'⟩ := hw'.wwalk
  rw [Fintype.card_fin] at hlt
  exact ⟨c', d, by omega, s', hs', hc'⟩

/-- when nothing can improve, the check after a complete loop finds nothing -/
theorem improved_none_stable (h : Inv A S (n-1) cut d cur) (hst : Stable (MW A) S (n-1)) :
    ¬ ∃ j, (bfImproved A cut d cur j).getD false = true := by
  rintro ⟨j, hj⟩
  obtain ⟨c, b, h1, h2, h3⟩ := improved_iff.1 hj
  obtain ⟨c', hc', hw⟩ := hst c j (relax_sound h h1)
  obtain ⟨b', hb', hbest⟩ := best_exists (mw_fin A) hw
  have := h.best j b' hbest ((relax_mem h1).2.le (hb'.trans hc'))
  rw [h2] at this; cases this
  exact absurd h3 (not_lt.2 (hb'.trans hc'))

/-- and conversely (no cutoff) -/
theorem stable_of_not_improved (h : Inv A S (n-1) none d cur)
    (hcon : ¬ ∃ j, (bfImproved A none d cur j).getD false = true) : StableC A S (n-1) none := by
  apply stableC_of_relax h (Or.inr rfl)
  intro j c hr hnew
  apply hcon
  refine ⟨j, improved_iff.2 ?_⟩
  obtain ⟨c', hc'⟩ := leW_of_any (relax_sound h hr)
  obtain ⟨b, hb, hbest⟩ := best_exists (mw_fin A) hc'
  exact ⟨c, b, hr, h.best j b hbest (ok_none _), hnew b hbest.1⟩

theorem Nonneg.stable (h : Nonneg A) : Stable (MW A) S (n-1) :=
  stable_nonneg h (by rw [Fintype.card_fin]; omega)

/-! ### properties read by the code -/

omit [Zero α] [Add α] [MonoAdd α] in
theorem reduceScalar_min_some {m : Nat} {B : Mat m n α} {c : α} (h : reduceScalar min B = some c) :
    (∃ i j, B i j = some c) ∧ ∀ i j b, B i j = some b → c ≤ b := by
  obtain ⟨⟨i, hi⟩, hmin⟩ := reduce_min.1 h
  obtain ⟨⟨j, hj⟩, -⟩ := reduce_min.1 hi
  refine ⟨⟨i, j, hj⟩, fun i' j' b hb => ?_⟩
  have hs : (reduceRow min B i').isSome := by
    unfold reduceRow; rw [reduce_isSome]; exact ⟨j', by simp [hb]⟩
  obtain ⟨x, hx⟩ := Option.isSome_iff_exists.1 hs
  exact (hmin i' x hx).trans ((reduce_min.1 hx).2 j' b hb)

omit [MonoAdd α] in
theorem neg_iff {m : Nat} {B : Mat m n α} :
    (reduceScalar min B).getD 0 < 0 ↔ ∃ i j a, B i j = some a ∧ a < 0 := by
  cases h : reduceScalar min B with
  | none =>
    simp only [Option.getD_none, lt_irrefl, false_iff]
    rintro ⟨i, j, a, ha, -⟩
    have := (reduce_eq_none _ _).1 h i
    have := (reduce_eq_none _ _).1 this j
    rw [ha] at this; cases this
  | some c =>
    obtain ⟨⟨i, j, hij⟩, hmin⟩ := reduceScalar_min_some h
    simp only [Option.getD_some]
    exact ⟨fun hc => ⟨i, j, c, hij, hc⟩, fun ⟨i', j', a, ha, h0⟩ => (hmin _ _ _ ha).trans_lt h0⟩

omit [MonoAdd α] in
theorem hasNegEdgesM_iff : hasNegEdgesM A = true ↔ ∃ i j a, offdiag A i j = some a ∧ a < 0 := by
  unfold hasNegEdgesM
  rw [decide_eq_true_eq, neg_iff]

omit [MonoAdd α] in
theorem hasNegEdgesP_iff : hasNegEdgesP A = true ↔ ∃ i j a, A i j = some a ∧ a < 0 := by
  unfold hasNegEdgesP
  rw [decide_eq_true_eq, neg_iff]

omit [MonoAdd α] in
theorem hasNegEdgesM_false (h : hasNegEdgesM A = false) : Nonneg (offdiag A) := by
  intro i j a ha
  by_contra hc
  have := hasNegEdgesM_iff.2 ⟨i, j, a, ha, not_le.1 hc⟩
  rw [h] at this; cases this

omit [MonoAdd α] in
theorem hasNegEdgesP_false (h : hasNegEdgesP A = false) : Nonneg A := by
  intro i j a ha
  by_contra hc
  have := hasNegEdgesP_iff.2 ⟨i, j, a, ha, not_le.1 hc⟩
  rw [h] at this; cases this

omit [MonoAdd α] in
theorem hasNegDiag_iff : hasNegDiag A = true ↔ ∃ i a, A i i = some a ∧ a < 0 := by
  unfold hasNegDiag
  rw [decide_eq_true_eq]
  cases h : reduce min (diagVec A) with
  | none =>
    simp only [Option.getD_none, lt_irrefl, false_iff]
    rintro ⟨i, a, ha, -⟩
    have := (reduce_eq_none _ _).1 h i
    rw [diagVec, ha] at this; cases this
  | some c =>
    obtain ⟨⟨i, hi⟩, hmin⟩ := reduce_min.1 h
    simp only [Option.getD_some]
    exact ⟨fun hc => ⟨i, c, hi, hc⟩, fun ⟨i', a, ha, h0⟩ => (hmin i' a ha).trans_lt h0⟩

omit [MonoAdd α] in
/-- the self-loop check: has a reached node a negative self-loop? -/
theorem diagCheck_iff : (hasNegDiag A &&
      (dot any' pairB d (vselect (fun a => decide (a < 0)) (diagVec A))).isSome) = true ↔
    ∃ i a, (d i).isSome ∧ A i i = some a ∧ a < 0 := by
  rw [Bool.and_eq_true, hasNegDiag_iff, dot_isSome]
  have e : ∀ i, (vselect (fun a => decide (a < 0)) (diagVec A) i).isSome ↔
      ∃ a, A i i = some a ∧ a < 0 := by
    intro i
    simp only [vselect, diagVec, Option.isSome_iff_exists, Option.filter_eq_some_iff,
      decide_eq_true_eq]
  simp only [e]
  constructor
  · rintro ⟨-, i, h1, a, h2, h3⟩; exact ⟨i, a, h1, h2, h3⟩
  · rintro ⟨i, a, h1, h2, h3⟩; exact ⟨⟨i, a, h2, h3⟩, i, h1, a, h2, h3⟩

omit [MonoAdd α] [Zero α] [Add α] [LinearOrder α] in
theorem mw_offdiag : MW (offdiag A) = fun i j a => i ≠ j ∧ MW A i j a := by
  funext i j a
  unfold MW offdiag
  split <;> simp_all

omit [MonoAdd α] in
theorem mw_offdiag' : MW (offdiag A) = WOffLoop (MW A) := by
  rw [mw_offdiag]; rfl

/-- minimum weight over all walks from `S` -/
def DistW (W : Fin n → Fin n → α → Prop) (S : Fin n → Prop) (c : α) (j : Fin n) : Prop :=
  (∃ m, LeW W S m c j) ∧ ∀ m c', LeW W S m c' j → c ≤ c'

omit [MonoAdd α] in
theorem distW_single {W : Fin n → Fin n → α → Prop} {s j : Fin n} {c : α} :
    DistW W (· = s) c j ↔ IsWDist W s c j := by
  constructor
  · rintro ⟨⟨m, k, -, _, rfl, hw⟩, hm⟩
    exact ⟨⟨k, hw⟩, fun k c' hw' => hm k c' ⟨k, le_rfl, _, rfl, hw'⟩⟩
  · rintro ⟨⟨k, hw⟩, hm⟩
    exact ⟨⟨k, k, le_rfl, s, rfl, hw⟩, fun m c' ⟨k', _, _, h, hw'⟩ => hm k' c' (h ▸ hw')⟩

theorem final_dist (h : InvD A S k cut d) (hnn : Nonneg A ∨ cut = none)
    (hst : StableC A S k cut) {j : Fin n} {c : α} (hok : Ok cut c) :
    d j = some c ↔ DistW (MW A) S c j := by
  constructor
  · intro hd
    refine ⟨⟨k, h.sound j c hd⟩, fun m c' hw => ?_⟩
    by_contra hlt
    rw [not_le] at hlt
    obtain ⟨c'', h1, h2⟩ := stableC_all hnn hst hw (hok.le hlt.le)
    obtain ⟨b, h3, hb⟩ := best_exists (mw_fin A) h2
    have hbc : b ≤ c' := h3.trans h1
    have := h.best j b hb (hok.le (hbc.trans hlt.le))
    rw [hd] at this; cases this
    exact absurd hlt (not_lt.2 hbc)
  · rintro ⟨⟨m, hw⟩, hm⟩
    obtain ⟨c', h1, h2⟩ := stableC_all hnn hst hw hok
    obtain rfl := le_antisymm h1 (hm k c' h2)
    exact h.best j c' ⟨h2, fun c'' hc'' => hm k c'' hc''⟩ hok

/-! ### the whole computation on row indices -/

/-- the state at the end of the loop of `bfCore` -/
def endState (A : Mat n n α) (s : Fin n) (prune : Option (Fin n)) (cut : Option α) : BFState n α :=
  bfLoop (offdiag A) prune (n-1) cut (vset vempty s 0) (vset vempty s 0)

theorem end_spec (A : Mat n n α) (s : Fin n) (prune : Option (Fin n)) (cut : Option α)
    (hnn : Nonneg (offdiag A) ∨ (prune = none ∧ cut = none)) :
    ∃ k', k' ≤ n - 1 ∧
      InvD (offdiag A) (· = s) k' (endState A s prune cut).cut (endState A s prune cut).d ∧
      PruneOk prune cut (endState A s prune cut).cut (endState A s prune cut).d ∧
      ((endState A s prune cut).broke = true →
        StableC (offdiag A) (· = s) k' (endState A s prune cut).cut) ∧
      ((endState A s prune cut).broke = false → k' = n - 1 ∧
        Inv (offdiag A) (· = s) k' (endState A s prune cut).cut (endState A s prune cut).d
          (endState A s prune cut).cur) := by
  have hp : PruneOk prune cut cut (vset vempty s (0:α)) := by
    cases prune with
    | none => rfl
    | some t => exact Or.inl rfl
  obtain ⟨k', -, h2, h3⟩ := loop_spec prune cut (n-1) hnn (inv_init (A := offdiag A) (src_init s) cut) hp
  exact ⟨k', by omega, h3.1, h3.2.1, h3.2.2.1, fun hb => by
    obtain ⟨e, hi⟩ := h3.2.2.2 hb; exact ⟨by omega, hi⟩⟩

/-- every reachable node has an entry, when nothing is cut off -/
theorem reached_iff {s : Fin n} {d : Vec n α} {k : Nat}
    (h : InvD (offdiag A) (· = s) k none d)
    (hall : ∀ {m c v}, LeW (MW (offdiag A)) (· = s) m c v → ∃ c', LeW (MW (offdiag A)) (· = s) k c' v)
    (j : Fin n) : (d j).isSome ↔ WReach (MW A) s j := by
  rw [← wreach_offLoop, ← mw_offdiag']
  constructor
  · intro hd
    obtain ⟨c, hc⟩ := Option.isSome_iff_exists.1 hd
    obtain ⟨m, -, _, rfl, hw⟩ := h.sound j c hc
    exact ⟨m, c, hw⟩
  · rintro ⟨m, c, hw⟩
    obtain ⟨c', hc'⟩ := hall ⟨m, le_rfl, s, rfl, hw⟩
    obtain ⟨b, -, hb⟩ := best_exists (mw_fin _) hc'
    rw [h.best j b hb (ok_none _)]; rfl

/-- an entry stands for a walk -/
theorem sound_reach {s : Fin n} {d : Vec n α} {k : Nat} {cut : Option α}
    (h : InvD (offdiag A) (· = s) k cut d) {j : Fin n} (hd : (d j).isSome) : WReach (MW A) s j := by
  obtain ⟨c, hc⟩ := Option.isSome_iff_exists.1 hd
  obtain ⟨m, -, _, rfl, hw⟩ := h.sound j c hc
  rw [mw_offdiag'] at hw
  exact ⟨m, c, hw.of_offLoop⟩

omit [MonoAdd α] in
theorem loop_ok (cut0 : Option α) (m : Nat) {d cur : Vec n α} (h : ∀ j c, d j = some c → Ok cut0 c) :
    (bfLoop A none m cut0 d cur).cut = cut0 ∧
    ∀ j c, (bfLoop A none m cut0 d cur).d j = some c → Ok cut0 c := by
  induction m generalizing d cur with
  | zero => exact ⟨rfl, h⟩
  | succ m ih =>
    unfold bfLoop
    simp only
    split
    · exact ⟨rfl, h⟩
    · apply ih
      intro j c hc
      change upd d (bfRound A cut0 d cur) j = some c at hc
      cases hr : bfRound A cut0 d cur j with
      | none => rw [upd_of_none hr] at hc; exact h j c hc
      | some x =>
        rw [upd_of_some hr] at hc; cases hc
        exact (relax_mem (bfRound_some.1 hr).1).2

/-- single source with a cutoff, non-negative weights -/
theorem cutoff_spec (A : Mat n n α) (s : Fin n) (x : α) (hx : 0 ≤ x) (hA : Nonneg A) :
    ∃ d, bfCore A s none (some x) = .ok d ∧
      ∀ j c, d j = some c ↔ IsWDist (MW A) s c j ∧ c ≤ x := by
  have hO : Nonneg (offdiag A) := by
    intro i j a ha
    have : MW (offdiag A) i j a := ha
    rw [mw_offdiag] at this
    exact hA _ _ _ this.2
  obtain ⟨k, hk, hinv, hp, hbr, hnb⟩ := end_spec A s none (some x) (Or.inl hO)
  obtain ⟨hcut, hok⟩ := loop_ok (A := offdiag A) (some x) (n-1) (d := vset vempty s 0)
    (cur := vset vempty s 0) (by
      intro j c hc y hy; cases hy
      rw [((src_init s j c).1 hc).2]; exact hx)
  change (endState A s none (some x)).cut = some x at hcut
  change ∀ j c, (endState A s none (some x)).d j = some c → Ok (some x) c at hok
  unfold bfCore
  simp only [ite_self]
  have est : bfLoop (offdiag A) none (n-1) (some x) (vset vempty s 0) (vset vempty s 0) =
    endState A s none (some x) := rfl
  rw [est]
  generalize hst : endState A s none (some x) = st at *
  obtain ⟨d, cur, cut, broke⟩ := st
  simp only at hinv hbr hnb hp hcut hok ⊢
  subst hcut
  refine ⟨d, ?_, ?_⟩
  · rw [if_neg, if_neg]
    · rw [diagCheck_iff]
      rintro ⟨i, a, -, h2, h3⟩
      exact absurd (hA _ _ _ h2) (not_le.2 h3)
    · cases broke with
      | true => simp
      | false =>
        obtain ⟨rfl, hi⟩ := hnb rfl
        simp only [Bool.not_false, Bool.true_and]
        rw [reduce_or]
        exact improved_none_stable hi hO.stable
  · intro j c
    have hstb : StableC (offdiag A) (· = s) k (some x) := by
      cases broke with
      | true => exact hbr rfl
      | false => obtain ⟨rfl, -⟩ := hnb rfl; exact fun c v hw _ => hO.stable c v hw
    have hfin := fun c (hok : Ok (some x) c) => final_dist (j := j) (c := c) hinv (Or.inl hO) hstb hok
    rw [← isWDist_offLoop (fun y a _ ha => hA _ _ _ ha), ← mw_offdiag', ← distW_single]
    constructor
    · intro hd
      exact ⟨(hfin c (hok j c hd)).1 hd, hok j c hd x rfl⟩
    · rintro ⟨h1, h2⟩
      exact (hfin c (fun y hy => by cases hy; exact h2)).2 h1

/-! ### negative_edge_cycle -/

theorem necLoop_eq (m : Nat) (d cur : Vec n α) :
    necLoop A m d cur = (if (bfLoop A none m none d cur).broke then none else
      some ((bfLoop A none m none d cur).d, (bfLoop A none m none d cur).cur)) := by
  induction m generalizing d cur with
  | zero => rfl
  | succ m ih =>
    unfold necLoop bfLoop
    simp only
    split
    · rfl
    · exact ih _ _

/-! ### all pairs -/

theorem bfLoopM_row {k : Nat} (r : Fin k) (m : Nat) {D Cur : Mat k n α} {t : Nat}
    {s : Fin k → Fin n} (h : ∀ r, Inv A (· = s r) t none (D r) (Cur r)) :
    ∃ k', k' ≤ t + m ∧
      (∀ r, InvD A (· = s r) k' none ((bfLoopM A m D Cur).1 r)) ∧
      ((bfLoopM A m D Cur).2.2 = true → ∀ r, StableC A (· = s r) k' none) ∧
      ((bfLoopM A m D Cur).2.2 = false → k' = t + m ∧
        ∀ r, Inv A (· = s r) k' none ((bfLoopM A m D Cur).1 r) ((bfLoopM A m D Cur).2.1 r)) := by
  induction m generalizing D Cur t with
  | zero => exact ⟨t, by omega, fun r => (h r).toInvD, by simp [bfLoopM], fun _ => ⟨rfl, h⟩⟩
  | succ m ih =>
    unfold bfLoopM
    simp only
    split
    · rename_i hz
      refine ⟨t, by omega, fun r => (h r).toInvD, fun _ r => ?_, by simp⟩
      apply stableC_of_relax (h r) (Or.inr rfl)
      intro j c hr hnew
      have : bfRoundM A D Cur r j = some c := by
        show bfRound A none (D r) (Cur r) j = some c
        rw [bfRound_some]; exact ⟨hr, fun b hb => hnew b ((h r).sound j b hb)⟩
      rw [mnvals_eq_zero.1 hz r j] at this; cases this
    · obtain ⟨k', h1, h2, h3, h4⟩ := ih (D := massign (mS (bfRoundM A D Cur)) D (bfRoundM A D Cur))
        (Cur := bfRoundM A D Cur) (t := t+1) fun r => step (h r) (Or.inr rfl)
      exact ⟨k', by omega, h2, h3, fun hb => ⟨by have := (h4 hb).1; omega, (h4 hb).2⟩⟩

omit [Zero α] [Add α] [LinearOrder α] [MonoAdd α] in
theorem reduceScalar_or {m : Nat} {v : Mat m n Bool} :
    (reduceScalar (· || ·) v).getD false = true ↔ ∃ i j, (v i j).getD false = true := by
  unfold reduceScalar
  rw [reduce_or]
  simp only [reduceRow, reduce_or]


/-! ### when it returns, it returns the minimum (no group structure needed) -/

/-- single source, no cutoff: a returned vector holds the minimum over all walks -/
theorem core_sound {A : Mat n n α} {s : Fin n} {d : Vec n α} (h : bfCore A s none none = .ok d)
    (j : Fin n) (c : α) : d j = some c ↔ IsWDist (MW A) s c j := by
  obtain ⟨k, hk, hinv, hp, hbr, hnb⟩ := end_spec A s none none (Or.inr ⟨rfl, rfl⟩)
  have hcut : (endState A s none none).cut = none := hp
  unfold bfCore at h
  simp only [ite_self] at h
  have est : bfLoop (offdiag A) none (n-1) none (vset vempty s 0) (vset vempty s 0) =
    endState A s none none := rfl
  rw [est] at h
  generalize endState A s none none = st at *
  obtain ⟨d', cur, cut, broke⟩ := st
  simp only at hcut hinv hbr hnb h
  subst hcut
  split at h
  · cases h
  rename_i hc
  have hst : StableC (offdiag A) (· = s) k none := by
    cases broke with
    | true => exact hbr rfl
    | false =>
      obtain ⟨rfl, hi⟩ := hnb rfl
      simp only [Bool.not_false, Bool.true_and] at hc
      rw [reduce_or] at hc
      exact stable_of_not_improved hi hc
  have hall : ∀ {m c v}, LeW (MW (offdiag A)) (· = s) m c v →
      ∃ c', LeW (MW (offdiag A)) (· = s) k c' v := by
    intro m c v hw
    obtain ⟨c', -, h'⟩ := stableC_all (Or.inr rfl) hst hw (ok_none _)
    exact ⟨c', h'⟩
  have hdiag := diagCheck_iff (A := A) (d := d')
  simp only [reached_iff hinv hall] at hdiag
  split at h
  · cases h
  rename_i hd
  cases h
  rw [final_dist hinv (Or.inr rfl) hst (ok_none _), distW_single, mw_offdiag', isWDist_offLoop]
  intro x a hx ha
  by_contra h0
  exact hd (hdiag.2 ⟨x, a, hx, ha, not_le.1 h0⟩)

omit [MonoAdd α] in
theorem Nonneg.offdiag {A : Mat n n α} (hA : Nonneg A) : Nonneg (offdiag A) := by
  intro i j a ha
  have : MW (GB.offdiag A) i j a := ha
  rw [mw_offdiag] at this
  exact hA _ _ _ this.2

/-- and it returns when no weight is negative -/
theorem core_nonneg {A : Mat n n α} (hA : Nonneg A) (s : Fin n) :
    ∃ d, bfCore A s none none = .ok d ∧ ∀ j c, d j = some c ↔ IsWDist (MW A) s c j := by
  suffices h : ∃ d, bfCore A s none none = .ok d from h.imp fun d hd => ⟨hd, core_sound hd⟩
  obtain ⟨k, hk, hinv, hp, hbr, hnb⟩ := end_spec A s none none (Or.inr ⟨rfl, rfl⟩)
  unfold bfCore
  simp only [ite_self]
  have est : bfLoop (offdiag A) none (n-1) none (vset vempty s 0) (vset vempty s 0) =
    endState A s none none := rfl
  rw [est]
  generalize endState A s none none = st at *
  obtain ⟨d, cur, cut, broke⟩ := st
  simp only at hinv hbr hnb ⊢
  refine ⟨d, ?_⟩
  rw [if_neg, if_neg]
  · rw [diagCheck_iff]
    rintro ⟨i, a, -, h2, h3⟩
    exact absurd (hA _ _ _ h2) (not_le.2 h3)
  · cases broke with
    | true => simp
    | false =>
      obtain ⟨rfl, hi⟩ := hnb rfl
      simp only [Bool.not_false, Bool.true_and]
      rw [reduce_or]
      exact improved_none_stable hi hA.offdiag.stable

/-- single source and target, non-negative weights -/
theorem target_nonneg {A : Mat n n α} (hA : Nonneg A) (s t : Fin n) :
    ∃ d, bfCore A s (some t) none = .ok d ∧ ∀ c, d t = some c ↔ IsWDist (MW A) s c t := by
  have hO := hA.offdiag
  generalize hpr : (if hasNegEdgesM A then none else some t : Option (Fin n)) = prune
  have hprt : prune = none ∨ prune = some t := by
    rw [← hpr]; split <;> simp
  obtain ⟨k, hk, hinv, hp, hbr, hnb⟩ := end_spec A s prune none (Or.inl hO)
  unfold bfCore
  simp only [hpr]
  have est : bfLoop (offdiag A) prune (n-1) none (vset vempty s 0) (vset vempty s 0) =
    endState A s prune none := rfl
  rw [est]
  generalize endState A s prune none = st at *
  obtain ⟨d, cur, cut, broke⟩ := st
  simp only at hinv hbr hnb hp ⊢
  refine ⟨d, ?_, ?_⟩
  · rw [if_neg, if_neg]
    · rw [diagCheck_iff]
      rintro ⟨i, a, -, h2, h3⟩
      exact absurd (hA _ _ _ h2) (not_le.2 h3)
    · cases broke with
      | true => simp
      | false =>
        obtain ⟨rfl, hi⟩ := hnb rfl
        intro h
        exact improved_none_stable hi hO.stable ⟨t, by simpa using h⟩
  · intro c
    have hstb : StableC (offdiag A) (· = s) k cut := by
      cases broke with
      | true => exact hbr rfl
      | false => obtain ⟨rfl, -⟩ := hnb rfl; exact fun c v hw _ => hO.stable c v hw
    have hfin := fun c (hok : Ok cut c) => final_dist (j := t) (c := c) hinv (Or.inl hO) hstb hok
    rw [← isWDist_offLoop (fun y a _ ha => hA _ _ _ ha), ← mw_offdiag', ← distW_single]
    cases cut with
    | none => exact hfin c (ok_none _)
    | some x =>
      have hdt : d t = some x := by
        rcases hprt with rfl | rfl
        · exact absurd hp (by simp [PruneOk])
        · rcases hp with hp | ⟨-, hp⟩
          · cases hp
          · exact hp
      have hx : Ok (some x) x := by intro y hy; cases hy; exact le_rfl
      have hd := (hfin x hx).1 hdt
      rw [hdt]
      constructor
      · rintro ⟨⟩; exact hd
      · rintro ⟨⟨m, h1⟩, h2⟩
        have e1 := h2 _ _ hd.1.choose_spec
        have e2 := hd.2 _ _ h1
        rw [le_antisymm e2 e1]

/-- many sources: a returned matrix holds the minima -/
theorem coreM_sound {k : Nat} {A : Mat n n α} {s : Fin k → Fin n} {D : Mat k n α}
    (h : bfCoreM A s = .ok D) (r : Fin k) (j : Fin n) (c : α) :
    D r j = some c ↔ IsWDist (MW A) (s r) c j := by
  have hinit : ∀ r, Inv (offdiag A) (· = s r) 0 none
      (fun j => if j = s r then some (0:α) else none) (fun j => if j = s r then some (0:α) else none) :=
    fun r => inv_init (src_init (s r)) none
  obtain ⟨k', hk, hinv, hbr, hnb⟩ := bfLoopM_row (A := offdiag A) r (n-1) hinit
  unfold bfCoreM at h
  simp only at h
  generalize bfLoopM (offdiag A) (n-1) (fun r j => if j = s r then some (0:α) else none)
    (fun r j => if j = s r then some (0:α) else none) = st at *
  obtain ⟨D', Cur, broke⟩ := st
  simp only at hinv hbr hnb h
  split at h
  · cases h
  rename_i hc
  have hst : ∀ r, StableC (offdiag A) (· = s r) k' none := by
    intro r
    cases broke with
    | true => exact hbr rfl r
    | false =>
      obtain ⟨e, hi⟩ := hnb rfl
      obtain rfl : k' = n - 1 := by omega
      simp only [Bool.not_false, Bool.true_and] at hc
      rw [reduceScalar_or] at hc
      exact stable_of_not_improved (hi r) fun hr => hc ⟨r, hr⟩
  have hall : ∀ {m c v}, LeW (MW (offdiag A)) (· = s r) m c v →
      ∃ c', LeW (MW (offdiag A)) (· = s r) k' c' v := by
    intro m c v hw
    obtain ⟨c', -, h'⟩ := stableC_all (Or.inr rfl) (hst r) hw (ok_none _)
    exact ⟨c', h'⟩
  split at h
  · cases h
  rename_i hd
  cases h
  rw [final_dist (hinv r) (Or.inr rfl) (hst r) (ok_none _), distW_single, mw_offdiag',
    isWDist_offLoop]
  intro x a hx ha
  by_contra h0
  apply hd
  have hdr := (diagCheck_iff (A := A) (d := D r)).2
    ⟨x, a, (reached_iff (hinv r) hall x).2 hx, ha, not_le.1 h0⟩
  rw [Bool.and_eq_true] at hdr ⊢
  refine ⟨hdr.1, ?_⟩
  rw [decide_eq_true_eq, gt_iff_lt, nvals_pos]
  exact ⟨r, hdr.2⟩

theorem coreM_nonneg {k : Nat} {A : Mat n n α} (hA : Nonneg A) (s : Fin k → Fin n) :
    ∃ D, bfCoreM A s = .ok D ∧ ∀ r j c, D r j = some c ↔ IsWDist (MW A) (s r) c j := by
  suffices h : ∃ d, bfCoreM A s = .ok d from h.imp fun d hd => ⟨hd, coreM_sound hd⟩
  have hinit : ∀ r, Inv (offdiag A) (· = s r) 0 none
      (fun j => if j = s r then some (0:α) else none) (fun j => if j = s r then some (0:α) else none) :=
    fun r => inv_init (src_init (s r)) none
  unfold bfCoreM
  simp only
  generalize hst : bfLoopM (offdiag A) (n-1) (fun r j => if j = s r then some (0:α) else none)
    (fun r j => if j = s r then some (0:α) else none) = st
  obtain ⟨D, Cur, broke⟩ := st
  simp only
  refine ⟨D, ?_⟩
  rw [if_neg, if_neg]
  · rw [Bool.and_eq_true, hasNegDiag_iff]
    rintro ⟨⟨i, a, h2, h3⟩, -⟩
    exact absurd (hA _ _ _ h2) (not_le.2 h3)
  · cases broke with
    | true => simp
    | false =>
      simp only [Bool.not_false, Bool.true_and]
      rw [reduceScalar_or]
      rintro ⟨r, hr⟩
      obtain ⟨k', hk, hinv, hbr, hnb⟩ := bfLoopM_row (A := offdiag A) r (n-1) hinit
      rw [hst] at hnb
      obtain ⟨e, hi⟩ := hnb rfl
      obtain rfl : k' = n - 1 := by omega
      exact improved_none_stable (hi r) hA.offdiag.stable hr

end mono

section group
variable {α : Type} [AddCommGroup α] [LinearOrder α] [IsOrderedAddMonoid α] {n : Nat}
variable {A : Mat n n α} {S : Fin n → Prop} {k : Nat} {cut : Option α} {d cur : Vec n α}

/-- without negative cycles the check after a complete loop finds nothing -/
theorem improved_none (h : Inv A S (n-1) cut d cur) (hno : NoNeg (MW A) S) :
    ¬ ∃ j, (bfImproved A cut d cur j).getD false = true := by
  rintro ⟨j, hj⟩
  obtain ⟨c, b, h1, h2, h3⟩ := improved_iff.1 hj
  have hst := hno.stable (k := n - 1) (by rw [Fintype.card_fin]; omega)
  obtain ⟨c', hc', hw⟩ := hst c j (relax_sound h h1)
  obtain ⟨b', hb', hbest⟩ := best_exists (mw_fin A) hw
  have := h.best j b' hbest ((relax_mem h1).2.le (hb'.trans hc'))
  rw [h2] at this; cases this
  exact absurd h3 (not_lt.2 (hb'.trans hc'))

/-- the check after a complete loop decides stability (no cutoff) -/
theorem improved_all (h : Inv A S (n-1) none d cur) :
    (∃ j, (bfImproved A none d cur j).getD false = true) ↔ ¬ NoNeg (MW A) S := by
  constructor
  · intro hex hno; exact improved_none h hno hex
  · intro hneg
    by_contra hcon
    apply hneg
    have hst : StableC A S (n-1) none := by
      apply stableC_of_relax h (Or.inr rfl)
      intro j c hr hnew
      apply hcon
      refine ⟨j, improved_iff.2 ?_⟩
      obtain ⟨c', hc'⟩ := leW_of_any (relax_sound h hr)
      obtain ⟨b, hb, hbest⟩ := best_exists (mw_fin A) hc'
      exact ⟨c, b, hr, h.best j b hbest (ok_none _), hnew b hbest.1⟩
    exact Stable.noNeg (mw_fin A) (k := n-1) fun c v hw => hst c v hw (ok_none _)

/-- an improved node lies behind a negative cycle -/
theorem improved_neg (h : Inv A S (n-1) none d cur) {j : Fin n}
    (hj : (bfImproved A none d cur j).getD false = true) :
    ∃ s x, S s ∧ WReach (MW A) s x ∧ NegCycleAt (MW A) x ∧ WReach (MW A) x j := by
  obtain ⟨c, b, h1, h2, h3⟩ := improved_iff.1 hj
  obtain ⟨b', -, hbest⟩ := best_exists (mw_fin A) (h.sound j b h2)
  have hd := h.best j b' hbest (ok_none _)
  rw [h2] at hd; cases hd
  exact improve_neg (by rw [Fintype.card_fin]; omega) (relax_sound h h1)
    fun c' hc' => h3.trans_le (hbest.2 c' hc')

theorem NoNeg.stableC (h : NoNeg (MW A) S) (cut : Option α) : StableC A S (n-1) cut :=
  fun c v hw _ => h.stable (k := n-1) (by rw [Fintype.card_fin]; omega) c v hw

theorem wwalk_nonneg (h : Nonneg A) {m : Nat} {c : α} {i j : Fin n} (hw : WWalk (MW A) m c i j) :
    0 ≤ c := by
  induction hw with
  | nil => exact le_rfl
  | snoc _ e ih => exact add_nonneg ih (h _ _ _ e)

theorem Nonneg.noNeg (h : Nonneg A) : NoNeg (MW A) S := by
  rintro s x - - ⟨m, c, hw, hc⟩
  exact absurd (wwalk_nonneg h hw) (not_le.2 hc)

theorem noNeg_split {s : Fin n} : ¬ NegCycleFrom (MW A) s ↔
    NoNeg (MW (offdiag A)) (· = s) ∧ ¬ ∃ x a, WReach (MW A) s x ∧ A x x = some a ∧ a < 0 := by
  rw [negCycleFrom_iff, not_or, mw_offdiag', noNeg_single, and_comm]
  rfl

/-- single source, no cutoff -/
theorem core_spec (A : Mat n n α) (s : Fin n) :
    (NegCycleFrom (MW A) s ∧ bfCore A s none none = .error .unbounded) ∨
    (¬ NegCycleFrom (MW A) s ∧ ∃ d, bfCore A s none none = .ok d ∧
      ∀ j c, d j = some c ↔ IsWDist (MW A) s c j) := by
  obtain ⟨k, hk, hinv, hp, hbr, hnb⟩ := end_spec A s none none (Or.inr ⟨rfl, rfl⟩)
  have hcut : (endState A s none none).cut = none := hp
  unfold bfCore
  simp only [ite_self]
  change (_ ∧ (if _ then _ else _) = _) ∨ _
  have est : bfLoop (offdiag A) none (n-1) none (vset vempty s 0) (vset vempty s 0) =
    endState A s none none := rfl
  rw [est]
  generalize hst : endState A s none none = st at *
  obtain ⟨d, cur, cut, broke⟩ := st
  simp only at hcut hinv hbr hnb ⊢
  subst hcut
  have hneg : (!broke && (reduce (· || ·) (bfImproved (offdiag A) none d cur)).getD false) = true ↔
      ¬ NoNeg (MW (offdiag A)) (· = s) := by
    cases broke with
    | true =>
      simp only [Bool.not_true, Bool.false_and, Bool.false_eq_true, false_iff, not_not]
      have := hbr rfl
      exact Stable.noNeg (mw_fin _) (k := k) fun c v hw => this c v hw (ok_none _)
    | false =>
      obtain ⟨rfl, hi⟩ := hnb rfl
      simp only [Bool.not_false, Bool.true_and]
      rw [reduce_or, improved_all hi]
  have hall : ∀ {m c v}, LeW (MW (offdiag A)) (· = s) m c v →
      ∃ c', LeW (MW (offdiag A)) (· = s) k c' v := by
    intro m c v hw
    cases broke with
    | true =>
      obtain ⟨c', -, h'⟩ := stableC_all (Or.inr rfl) (hbr rfl) hw (ok_none _)
      exact ⟨c', h'⟩
    | false => obtain ⟨rfl, -⟩ := hnb rfl; exact leW_of_any hw
  have hdiag := diagCheck_iff (A := A) (d := d)
  simp only [reached_iff hinv hall] at hdiag
  by_cases hn : NoNeg (MW (offdiag A)) (· = s)
  · rw [if_neg (by rw [hneg]; exact not_not.2 hn)]
    by_cases hl : ∃ x a, WReach (MW A) s x ∧ A x x = some a ∧ a < 0
    · left
      refine ⟨?_, if_pos (hdiag.2 hl)⟩
      by_contra hc
      exact (noNeg_split.1 hc).2 hl
    · right
      refine ⟨noNeg_split.2 ⟨hn, hl⟩, d, ?_, ?_⟩
      · rw [if_neg]; rw [hdiag]; exact hl
      · intro j c
        have hstb : StableC (offdiag A) (· = s) k none := by
          cases broke with
          | true => exact hbr rfl
          | false => obtain ⟨rfl, -⟩ := hnb rfl; exact NoNeg.stableC hn _
        rw [final_dist hinv (Or.inr rfl) hstb (ok_none _), distW_single, mw_offdiag',
          isWDist_offLoop]
        intro x a hx ha
        by_contra h0
        exact hl ⟨x, a, hx, ha, not_le.1 h0⟩
  · left
    refine ⟨?_, if_pos (hneg.2 hn)⟩
    by_contra hc
    exact hn (noNeg_split.1 hc).1

/-- single source and target, no cutoff -/
theorem target_spec (A : Mat n n α) (s t : Fin n) :
    (∀ e, bfCore A s (some t) none = .error e → e = .unbounded ∧ NegCycleFrom (MW A) s) ∧
    (¬ NegCycleFrom (MW A) s → ∃ d, bfCore A s (some t) none = .ok d ∧
      ∀ c, d t = some c ↔ IsWDist (MW A) s c t) := by
  have hprune : Nonneg (offdiag A) ∨
      ((if hasNegEdgesM A then none else some t : Option (Fin n)) = none ∧ (none : Option α) = none) := by
    cases h : hasNegEdgesM A with
    | true => exact Or.inr ⟨rfl, rfl⟩
    | false => exact Or.inl (hasNegEdgesM_false h)
  generalize hpr : (if hasNegEdgesM A then none else some t : Option (Fin n)) = prune at hprune
  have hprt : prune = none ∨ prune = some t := by
    rw [← hpr]; split <;> simp
  obtain ⟨k, hk, hinv, hp, hbr, hnb⟩ := end_spec A s prune none hprune
  unfold bfCore
  simp only [hpr]
  have est : bfLoop (offdiag A) prune (n-1) none (vset vempty s 0) (vset vempty s 0) =
    endState A s prune none := rfl
  rw [est]
  generalize hst : endState A s prune none = st at *
  obtain ⟨d, cur, cut, broke⟩ := st
  simp only at hinv hbr hnb hp ⊢
  have hnn : Nonneg (offdiag A) ∨ cut = none := by
    rcases hprune with h | ⟨rfl, -⟩
    · exact Or.inl h
    · exact Or.inr hp
  have hneg : NoNeg (MW (offdiag A)) (· = s) →
      ¬ (!broke && (bfImproved (offdiag A) cut d cur t).getD false) = true := by
    intro hno
    cases broke with
    | true => simp
    | false =>
      obtain ⟨rfl, hi⟩ := hnb rfl
      intro h
      exact improved_none hi hno ⟨t, by simpa using h⟩
  have hdiag : (∃ i a, (d i).isSome ∧ A i i = some a ∧ a < 0) →
      ∃ x a, WReach (MW A) s x ∧ A x x = some a ∧ a < 0 := by
    rintro ⟨i, a, h1, h2, h3⟩; exact ⟨i, a, sound_reach hinv h1, h2, h3⟩
  constructor
  · intro e he
    split at he
    · rename_i hc
      refine ⟨by cases he; rfl, ?_⟩
      by_contra hno
      exact hneg (noNeg_split.1 hno).1 hc
    · split at he
      · rename_i hc
        refine ⟨by cases he; rfl, ?_⟩
        by_contra hno
        exact (noNeg_split.1 hno).2 (hdiag (diagCheck_iff.1 hc))
      · cases he
  · intro hno
    obtain ⟨hn, hl⟩ := noNeg_split.1 hno
    refine ⟨d, ?_, ?_⟩
    · rw [if_neg (hneg hn), if_neg]
      intro hc; exact hl (hdiag (diagCheck_iff.1 hc))
    · intro c
      have hstb : StableC (offdiag A) (· = s) k cut := by
        cases broke with
        | true => exact hbr rfl
        | false => obtain ⟨rfl, -⟩ := hnb rfl; exact NoNeg.stableC hn _
      have hfin := fun c (hok : Ok cut c) => final_dist (j := t) (c := c) hinv hnn hstb hok
      rw [← isWDist_offLoop, ← mw_offdiag', ← distW_single]
      · cases cut with
        | none => exact hfin c (ok_none _)
        | some x =>
          have hdt : d t = some x := by
            rcases hprt with rfl | rfl
            · exact absurd hp (by simp [PruneOk])
            · rcases hp with hp | ⟨-, hp⟩
              · cases hp
              · exact hp
          have hx : Ok (some x) x := by intro y hy; cases hy; exact le_rfl
          have hd := (hfin x hx).1 hdt
          rw [hdt]
          constructor
          · rintro ⟨⟩; exact hd
          · rintro ⟨⟨m, h1⟩, h2⟩
            have e1 := h2 _ _ hd.1.choose_spec
            have e2 := hd.2 _ _ h1
            rw [le_antisymm e2 e1]
      · intro x a hx ha
        by_contra h0
        exact hl ⟨x, a, hx, ha, not_le.1 h0⟩

theorem nec_spec {d : Vec n α} (hd : ∀ j c, d j = some c ↔ S j ∧ c = 0) :
    (match necLoop A (n-1) d d with
      | none => false
      | some (d, cur) => (reduce (· || ·) (bfImproved A none d cur)).getD false) = true ↔
      ¬ NoNeg (MW A) S := by
  obtain ⟨k, -, h2, hinv, hp, hbr, hnb⟩ := loop_spec none none (n-1) (Or.inr ⟨rfl, rfl⟩)
    (inv_init (A := A) hd none) rfl
  rw [necLoop_eq]
  generalize bfLoop A none (n-1) none d d = st at *
  obtain ⟨d', cur, cut, broke⟩ := st
  have hcut : cut = none := hp
  subst hcut
  simp only at *
  cases broke with
  | true =>
    simp only [if_true, Bool.false_eq_true, false_iff, not_not]
    have := hbr rfl
    exact Stable.noNeg (mw_fin _) (k := k) fun c v hw => this c v hw (ok_none _)
  | false =>
    obtain ⟨e, hi⟩ := hnb rfl
    obtain rfl : k = n - 1 := by omega
    simp only [Bool.false_eq_true, if_false]
    rw [reduce_or, improved_all hi]

theorem coreM_spec {k : Nat} (A : Mat n n α) (s : Fin k → Fin n) :
    ((∃ r, NegCycleFrom (MW A) (s r)) ∧ bfCoreM A s = .error .unbounded) ∨
    ((∀ r, ¬ NegCycleFrom (MW A) (s r)) ∧ ∃ D, bfCoreM A s = .ok D ∧
      ∀ r j c, D r j = some c ↔ IsWDist (MW A) (s r) c j) := by
  have hinit : ∀ r, Inv (offdiag A) (· = s r) 0 none
      (fun j => if j = s r then some (0:α) else none) (fun j => if j = s r then some (0:α) else none) :=
    fun r => inv_init (src_init (s r)) none
  obtain hk0 | ⟨⟨r0⟩⟩ := isEmpty_or_nonempty (Fin k)
  · right
    refine ⟨fun r => hk0.elim r, ?_⟩
    unfold bfCoreM
    simp only
    rw [if_neg, if_neg]
    · exact ⟨_, rfl, fun r => hk0.elim r⟩
    · simp only [Bool.and_eq_true, not_and, decide_eq_true_eq]
      intro _ h
      rw [gt_iff_lt, nvals_pos] at h
      exact hk0.elim h.choose
    · simp only [Bool.and_eq_true, not_and]
      intro _ h
      rw [reduceScalar_or] at h
      exact hk0.elim h.choose
  obtain ⟨k', hk, hinv, hbr, hnb⟩ := bfLoopM_row (A := offdiag A) r0 (n-1) hinit
  unfold bfCoreM
  simp only
  generalize bfLoopM (offdiag A) (n-1) (fun r j => if j = s r then some (0:α) else none)
    (fun r j => if j = s r then some (0:α) else none) = st at *
  obtain ⟨D, Cur, broke⟩ := st
  simp only at hinv hbr hnb ⊢
  have hneg : (!broke && (reduceScalar (· || ·)
      (fun r => bfImproved (offdiag A) none (D r) (Cur r))).getD false) = true ↔
      ∃ r, ¬ NoNeg (MW (offdiag A)) (· = s r) := by
    cases broke with
    | true =>
      simp only [Bool.not_true, Bool.false_and, Bool.false_eq_true, false_iff, not_exists, not_not]
      intro r
      have := hbr rfl r
      exact Stable.noNeg (mw_fin _) (k := k') fun c v hw => this c v hw (ok_none _)
    | false =>
      obtain ⟨e, hi⟩ := hnb rfl
      obtain rfl : k' = n - 1 := by omega
      simp only [Bool.not_false, Bool.true_and]
      rw [reduceScalar_or]
      exact exists_congr fun r => improved_all (hi r)
  have hall : ∀ {r m c v}, LeW (MW (offdiag A)) (· = s r) m c v →
      ∃ c', LeW (MW (offdiag A)) (· = s r) k' c' v := by
    intro r m c v hw
    cases broke with
    | true =>
      obtain ⟨c', -, h'⟩ := stableC_all (Or.inr rfl) (hbr rfl r) hw (ok_none _)
      exact ⟨c', h'⟩
    | false =>
      obtain ⟨e, -⟩ := hnb rfl
      obtain rfl : k' = n - 1 := by omega
      exact leW_of_any hw
  have hdiag : (hasNegDiag A && decide (nvals (mxv any' pairB D
      (vselect (fun a => decide (a < 0)) (diagVec A))) > 0)) = true ↔
      ∃ r x a, WReach (MW A) (s r) x ∧ A x x = some a ∧ a < 0 := by
    rw [Bool.and_eq_true, decide_eq_true_eq, gt_iff_lt, nvals_pos]
    have : ∀ r, (mxv any' pairB D (vselect (fun a => decide (a < 0)) (diagVec A)) r).isSome ↔
        (dot any' pairB (D r) (vselect (fun a => decide (a < 0)) (diagVec A))).isSome := fun r => Iff.rfl
    simp only [this]
    have e2 : ∀ r, (hasNegDiag A = true ∧
        (dot any' pairB (D r) (vselect (fun a => decide (a < 0)) (diagVec A))).isSome = true) ↔
        ∃ x a, WReach (MW A) (s r) x ∧ A x x = some a ∧ a < 0 := by
      intro r
      rw [← Bool.and_eq_true, diagCheck_iff]
      simp only [reached_iff (hinv r) hall]
    constructor
    · rintro ⟨h1, r, h2⟩; exact ⟨r, (e2 r).1 ⟨h1, h2⟩⟩
    · rintro ⟨r, h⟩; have := (e2 r).2 h; exact ⟨this.1, r, this.2⟩
  by_cases hn : ∃ r, ¬ NoNeg (MW (offdiag A)) (· = s r)
  · left
    refine ⟨?_, if_pos (hneg.2 hn)⟩
    obtain ⟨r, hr⟩ := hn
    refine ⟨r, ?_⟩
    by_contra hc
    exact hr (noNeg_split.1 hc).1
  · rw [if_neg (by rw [hneg]; exact hn)]
    push Not at hn
    by_cases hl : ∃ r x a, WReach (MW A) (s r) x ∧ A x x = some a ∧ a < 0
    · left
      refine ⟨?_, if_pos (hdiag.2 hl)⟩
      obtain ⟨r, hr⟩ := hl
      refine ⟨r, ?_⟩
      by_contra hc
      exact (noNeg_split.1 hc).2 hr
    · right
      refine ⟨fun r => noNeg_split.2 ⟨hn r, fun h => hl ⟨r, h⟩⟩, D, ?_, ?_⟩
      · rw [if_neg]; rw [hdiag]; exact hl
      · intro r j c
        have hstb : StableC (offdiag A) (· = s r) k' none := by
          cases broke with
          | true => exact hbr rfl r
          | false =>
            obtain ⟨e, -⟩ := hnb rfl
            obtain rfl : k' = n - 1 := by omega
            exact NoNeg.stableC (hn r) _
        rw [final_dist (hinv r) (Or.inr rfl) hstb (ok_none _), distW_single, mw_offdiag',
          isWDist_offLoop]
        intro x a hx ha
        by_contra h0
        exact hl ⟨r, x, a, hx, ha, not_le.1 h0⟩


end group
end Proofs.BF
