import Verif.Model.Machine
import Verif.Proofs.BellmanFord
import Verif.GB.Lemmas
import Mathlib.Tactic.Linarith
import Mathlib.Tactic.Ring

/-! Simulation: a computation on machine integers that stays in range gives the integer result. -/

open GB Model

namespace Proofs.Mach

variable {K β : Type} {n k : Nat} [AddCommGroup β] [LinearOrder β] {val : β → Int} {lo hi : Int}

section
omit [AddCommGroup β]
variable (hle : ∀ x y : β, val x ≤ val y ↔ x ≤ y)
include hle
theorem lt_iff (x y : β) : val x < val y ↔ x < y := by
  rw [← not_le, ← not_le, hle]
theorem inj {x y : β} : val x = val y ↔ x = y := by
  rw [le_antisymm_iff, le_antisymm_iff, hle, hle]
theorem val_min (x y : β) : val (min x y) = min (val x) (val y) := by
  rcases le_total x y with h | h
  · rw [min_eq_left h, min_eq_left ((hle _ _).2 h)]
  · rw [min_eq_right h, min_eq_right ((hle _ _).2 h)]
end

section
variable {α γ δ : Type*} {m : Nat}
theorem omerge_map (op : α → α → α) (op' : γ → γ → γ) (f : α → γ)
    (h : ∀ a b, f (op a b) = op' (f a) (f b)) (x y : Option α) :
    (omerge op x y).map f = omerge op' (x.map f) (y.map f) := by
  cases x <;> cases y <;> simp [omerge, h]

theorem reduce_map (op : α → α → α) (op' : γ → γ → γ) (f : α → γ)
    (h : ∀ a b, f (op a b) = op' (f a) (f b)) (v : Vec m α) :
    (reduce op v).map f = reduce op' (vapply f v) := by
  unfold reduce
  suffices ∀ (l : List (Fin m)) (a : Option α),
      (l.foldl (fun acc i => omerge op acc (v i)) a).map f =
        l.foldl (fun acc i => omerge op' acc (vapply f v i)) (a.map f) from this _ none
  intro l
  induction l with
  | nil => intro a; rfl
  | cons x l ih =>
    intro a
    simp only [List.foldl_cons]
    rw [ih, omerge_map op op' f h]; rfl

theorem nvals_apply (f : α → γ) (v : Vec m α) : nvals (vapply f v) = nvals v := by
  simp [nvals, vapply]
theorem mnvals_apply {p : Nat} (f : α → γ) (v : Mat m p α) : mnvals (mapply f v) = mnvals v := by
  simp [mnvals, mapply]
theorem vS_apply (f : α → γ) (v : Vec m α) : vS (vapply f v) = vS v := by
  funext i; simp [vS, vapply]
theorem assignR_apply (f : α → γ) (M : VMask m) (t : Vec m α) :
    vapply f (vassignR M t) = vassignR M (vapply f t) := by
  funext i; unfold vapply vassignR; split <;> rfl
theorem assign_apply (f : α → γ) (M : VMask m) (w t : Vec m α) :
    vapply f (vassign M w t) = vassign M (vapply f w) (vapply f t) := by
  funext i; unfold vapply vassign; split <;> rfl
theorem vset_apply (f : α → γ) (v : Vec m α) (i : Fin m) (a : α) :
    vapply f (vset v i a) = vset (vapply f v) i (f a) := by
  funext j; unfold vapply vset; split <;> rfl
theorem offdiag_apply (f : α → γ) (A : Mat m m α) :
    mapply f (offdiag A) = offdiag (mapply f A) := by
  funext i j; unfold mapply offdiag; split <;> rfl
theorem triu1_apply (f : α → γ) (A : Mat m m α) :
    mapply f (triu1 A) = triu1 (mapply f A) := by
  funext i j; unfold mapply triu1; split <;> rfl
end

theorem map_ite_error {α γ : Type} {c : Prop} [Decidable c] {e : Err} {x : Except Err α} {f : α → γ} :
    (if c then (.error e : Except Err α) else x).map f = if c then .error e else x.map f := by
  split <;> rfl
theorem map_ok' {α γ : Type} {x : α} {f : α → γ} :
    (.ok x : Except Err α).map f = .ok (f x) := rfl

/-- every stored value stands for an integer between `L` and `U` -/
def In (val : β → Int) (L U : Int) (v : Vec n β) : Prop := ∀ i a, v i = some a → L ≤ val a ∧ val a ≤ U

/-- every stored value of the matrix stands for an integer between `L` and `U` -/
def InM (val : β → Int) (L U : Int) (A : Mat k n β) : Prop :=
  ∀ i j a, A i j = some a → L ≤ val a ∧ val a ≤ U

omit [AddCommGroup β] [LinearOrder β] in
theorem In.offdiag {L U : Int} {A : Mat n n β} (h : InM val L U A) : InM val L U (GB.offdiag A) := by
  intro i j a ha
  unfold GB.offdiag at ha
  split at ha
  · cases ha
  · exact h i j a ha

section
variable (hm : Machine β val lo hi)
include hm

theorem val_neg_iff (x : β) : val x < 0 ↔ x < 0 := by
  rw [← hm.zero]; exact lt_iff hm.le_iff _ _

theorem hasNegDiag_val (A : Mat n n β) : hasNegDiag A = hasNegDiag (mapply val A) := by
  unfold hasNegDiag
  have : reduce min (diagVec (mapply val A)) = (reduce min (diagVec A)).map val :=
    (reduce_map min min val (val_min hm.le_iff) (diagVec A)).symm
  rw [this]
  cases reduce min (diagVec A) <;> simp [val_neg_iff hm]

theorem reduceScalar_val (A : Mat k n β) :
    reduceScalar min (mapply val A) = (reduceScalar min A).map val := by
  unfold reduceScalar
  rw [reduce_map min min val (val_min hm.le_iff)]
  congr 1
  funext i
  exact (reduce_map min min val (val_min hm.le_iff) (A i)).symm

theorem hasNegEdgesP_val (A : Mat n n β) : hasNegEdgesP A = hasNegEdgesP (mapply val A) := by
  unfold hasNegEdgesP
  rw [reduceScalar_val hm]
  cases reduceScalar min A <;> simp [val_neg_iff hm]

theorem hasNegEdgesM_val (A : Mat n n β) : hasNegEdgesM A = hasNegEdgesM (mapply val A) := by
  unfold hasNegEdgesM
  rw [← offdiag_apply, reduceScalar_val hm]
  cases reduceScalar min (GB.offdiag A) <;> simp [val_neg_iff hm]

/-- a relaxation that stays in range -/
theorem relax_val {A : Mat n n β} {cur : Vec n β} {cut : Option β} {L U L' U' : Int}
    (hA : InM val L U A) (hc : In val L' U' cur) (hlo : lo ≤ L' + L) (hhi : U' + U ≤ hi) :
    vapply val (bfRelax A cut cur) = bfRelax (mapply val A) (cut.map val) (vapply val cur) ∧
    In val (L' + L) (U' + U) (bfRelax A cut cur) := by
  have hadd : ∀ i j a w, cur i = some a → A i j = some w →
      val (a + w) = val a + val w ∧ L' + L ≤ val a + val w ∧ val a + val w ≤ U' + U := by
    intro i j a w h1 h2
    have b1 := hc i a h1
    have b2 := hA i j w h2
    exact ⟨hm.add _ _ (by omega) (by omega), by omega, by omega⟩
  have e1 : vapply val (vxm min (· + ·) cur A) = vxm min (· + ·) (vapply val cur) (mapply val A) := by
    funext j
    show (reduce min _).map val = reduce min _
    rw [reduce_map min min val (val_min hm.le_iff)]
    congr 1
    funext i
    show (ointer _ (cur i) (A i j)).map val = ointer _ ((cur i).map val) ((A i j).map val)
    cases h1 : cur i with
    | none => rfl
    | some a =>
      cases h2 : A i j with
      | none => rfl
      | some w => simp [ointer, (hadd i j a w h1 h2).1]
  have e2 : In val (L' + L) (U' + U) (vxm min (· + ·) cur A) := by
    intro j a ha
    obtain ⟨i, hi'⟩ := reduce_selective (f := min) (fun a b => min_choice a b) ha
    obtain ⟨x, y, h1, h2, rfl⟩ := ointer_eq_some.1 hi'
    have := hadd i j x y h1 h2
    rw [this.1]; exact this.2
  cases cut with
  | none => exact ⟨e1, e2⟩
  | some x =>
    refine ⟨?_, ?_⟩
    · show vapply val (vselect _ _) = vselect _ _
      rw [← e1]
      funext j
      show ((vxm min (· + ·) cur A j).filter _).map val = ((vxm min (· + ·) cur A j).map val).filter _
      cases vxm min (· + ·) cur A j with
      | none => rfl
      | some a =>
        simp only [Option.filter, Option.map_some, hm.le_iff]
        by_cases h : a ≤ x <;> simp [h]
    · intro j a ha
      have ha' : (vxm min (· + ·) cur A j).filter (fun a => decide (a ≤ x)) = some a := ha
      rw [Option.filter_eq_some_iff] at ha'
      exact e2 j a ha'.1

theorem mask_val (cur d : Vec n β) : bfMask (vapply val cur) (vapply val d) = bfMask cur d := by
  funext j
  simp only [bfMask, vaccum, vapply, vmul, if_true, Option.map_map]
  cases cur j with
  | none => cases d j <;> rfl
  | some a => cases d j <;> simp [ointer, omerge, lt_iff hm.le_iff]

theorem improved_val {A : Mat n n β} {cur d : Vec n β} {cut : Option β} {L U L' U' : Int}
    (hA : InM val L U A) (hc : In val L' U' cur) (hlo : lo ≤ L' + L) (hhi : U' + U ≤ hi) :
    bfImproved A cut d cur = bfImproved (mapply val A) (cut.map val) (vapply val d) (vapply val cur) := by
  unfold bfImproved
  rw [← (relax_val hm hA hc hlo hhi).1]
  funext j
  simp only [vmul, vapply]
  cases bfRelax A cut cur j with
  | none => cases d j <;> rfl
  | some a => cases d j <;> simp [ointer, lt_iff hm.le_iff]

theorem round_val {A : Mat n n β} {cur d : Vec n β} {cut : Option β} {L U L' U' : Int}
    (hA : InM val L U A) (hc : In val L' U' cur) (hlo : lo ≤ L' + L) (hhi : U' + U ≤ hi) :
    vapply val (bfRound A cut d cur) =
      bfRound (mapply val A) (cut.map val) (vapply val d) (vapply val cur) ∧
    In val (L' + L) (U' + U) (bfRound A cut d cur) := by
  obtain ⟨e1, e2⟩ := relax_val (cut := cut) hm hA hc hlo hhi
  unfold bfRound
  refine ⟨?_, ?_⟩
  · simp only
    rw [assignR_apply, ← e1, mask_val hm]
  · intro j a ha
    simp only [vassignR] at ha
    split at ha
    · exact e2 j a ha
    · cases ha

omit hm [AddCommGroup β] [LinearOrder β] in
theorem nextCut_val (prune : Option (Fin n)) (cut : Option β) (cur : Vec n β) :
    (bfNextCut prune cut cur).map val = bfNextCut prune (cut.map val) (vapply val cur) := by
  cases prune with
  | none => rfl
  | some t =>
    show ((cur t).or cut).map val = ((cur t).map val).or (cut.map val)
    cases cur t <;> rfl

/-- a state, with every value replaced by the integer it stands for -/
def stVal (val : β → Int) (s : BFState n β) : BFState n Int :=
  ⟨vapply val s.d, vapply val s.cur, s.cut.map val, s.broke⟩

/-- the loop: `m` rounds after `t` rounds have been made -/
theorem loop_val {A : Mat n n β} {L U : Int} (hA : InM val L U A) (hL : L ≤ 0) (hU : 0 ≤ U)
    (prune : Option (Fin n)) (m t : Nat) (hlo : lo ≤ (t + m : Int) * L) (hhi : (t + m : Int) * U ≤ hi)
    (cut : Option β) (d cur : Vec n β) (hc : In val (t * L) (t * U) cur) :
    stVal val (bfLoop A prune m cut d cur) =
      bfLoop (mapply val A) prune m (cut.map val) (vapply val d) (vapply val cur) ∧
    In val ((t + m : Int) * L) ((t + m : Int) * U) (bfLoop A prune m cut d cur).cur := by
  induction m generalizing t cut d cur with
  | zero => refine ⟨rfl, ?_⟩; simpa [bfLoop] using hc
  | succ m ih =>
    have hlo1 : lo ≤ t * L + L := by
      have : (t + (m + 1 : Nat) : Int) * L = (t * L + L) + m * L := by push_cast; ring
      have h2 : (m : Int) * L ≤ 0 := mul_nonpos_of_nonneg_of_nonpos (by omega) hL
      omega
    have hhi1 : t * U + U ≤ hi := by
      have : (t + (m + 1 : Nat) : Int) * U = (t * U + U) + m * U := by push_cast; ring
      have h2 : 0 ≤ (m : Int) * U := mul_nonneg (by omega) hU
      omega
    obtain ⟨e1, e2⟩ := round_val (cut := cut) (d := d) hm hA hc hlo1 hhi1
    have e2' : In val (((t + 1 : Nat) : Int) * L) (((t + 1 : Nat) : Int) * U) (bfRound A cut d cur) := by
      intro i a ha
      have := e2 i a ha
      push_cast
      constructor <;> nlinarith
    simp only [bfLoop]
    rw [← e1, nvals_apply]
    by_cases h0 : nvals (bfRound A cut d cur) = 0
    · rw [if_pos h0, if_pos h0]
      refine ⟨rfl, ?_⟩
      intro i a ha
      have := (nvals_eq_zero.1 h0) i
      exact absurd (this.symm.trans ha) (by simp)
    · rw [if_neg h0, if_neg h0]
      have := ih (t + 1) (by push_cast at hlo ⊢; convert hlo using 2; ring)
        (by push_cast at hhi ⊢; convert hhi using 2; ring)
        (bfNextCut prune cut (bfRound A cut d cur))
        (vassign (vS (bfRound A cut d cur)) d (bfRound A cut d cur)) _ e2'
      rw [nextCut_val, assign_apply] at this
      rw [vS_apply]
      refine ⟨this.1, ?_⟩
      have h2 := this.2
      push_cast at h2 ⊢
      convert h2 using 2 <;> ring

theorem select_neg_val (A : Mat n n β) :
    vselect (fun a => decide (a < 0)) (diagVec (mapply val A)) =
      vapply val (vselect (fun a => decide (a < 0)) (diagVec A)) := by
  funext i
  show ((A i i).map val).filter _ = ((A i i).filter _).map val
  cases A i i with
  | none => rfl
  | some a =>
    have := val_neg_iff hm a
    by_cases h : a < 0 <;> simp [Option.filter, h, this]

omit hm [AddCommGroup β] [LinearOrder β] in
theorem dot_pair_val (u v : Vec n β) :
    dot any' pairB (vapply val u) (vapply val v) = dot any' pairB u v := by
  unfold dot
  congr 1
  funext i
  unfold vapply
  cases u i <;> cases v i <;> rfl

/-- the whole computation for one source -/
theorem core_val {A : Mat n n β} {L U : Int} (hA : InM val L U A) (hL : L ≤ 0) (hU : 0 ≤ U)
    (hlo : lo ≤ n * L) (hhi : n * U ≤ hi) (src : Fin n) (dst : Option (Fin n)) (cutoff : Option β) :
    (bfCore A src dst cutoff).map (vapply val) =
      bfCore (mapply val A) src dst (cutoff.map val) := by
  have hn : 1 ≤ n := src.pos
  have hO := In.offdiag hA
  have hl := loop_val hm hO hL hU (if hasNegEdgesM A then none else dst) (n - 1) 0
    (by
      have : ((0 : Nat) + (n - 1 : Nat) : Int) = n - 1 := by omega
      rw [this]; nlinarith)
    (by
      have : ((0 : Nat) + (n - 1 : Nat) : Int) = n - 1 := by omega
      rw [this]; nlinarith)
    cutoff (vset vempty src 0) (vset vempty src 0)
    (by
      intro i a ha
      simp only [vset, vempty] at ha
      split at ha
      · cases ha; simp [hm.zero]
      · cases ha)
  obtain ⟨e1, e2⟩ := hl
  rw [vset_apply, hm.zero, offdiag_apply] at e1
  have hv : vapply val (vempty : Vec n β) = vempty := rfl
  rw [hv] at e1
  unfold bfCore
  simp only
  rw [← hasNegEdgesM_val hm, ← hasNegDiag_val hm, ← e1, select_neg_val hm]
  have h0 : ((0 : Nat) + (n - 1 : Nat) : Int) = n - 1 := by omega
  have hi' : bfImproved (GB.offdiag A) _ _ _ = _ := improved_val
    (cut := (bfLoop (GB.offdiag A) (if hasNegEdgesM A then none else dst) (n - 1) cutoff
      (vset vempty src 0) (vset vempty src 0)).cut)
    (d := (bfLoop (GB.offdiag A) (if hasNegEdgesM A then none else dst) (n - 1) cutoff
      (vset vempty src 0) (vset vempty src 0)).d) hm hO e2
    (by rw [h0]; nlinarith) (by rw [h0]; nlinarith)
  rw [offdiag_apply] at hi'
  simp only [stVal, dot_pair_val, hi', map_ite_error, map_ok']

theorem smul_val {c : β} {U : Int} (h0 : 0 ≤ val c) (hU : val c ≤ U) {l N : Nat} (hl : l ≤ N)
    (hlo : lo ≤ 0) (hhi : N * U ≤ hi) : val (l • c) = l • val c := by
  induction l with
  | zero => simp [hm.zero]
  | succ l ih =>
    have ih := ih (by omega)
    rw [succ_nsmul, succ_nsmul, hm.add, ih]
    · rw [ih]; simp only [nsmul_eq_mul]
      have : 0 ≤ (l : Int) * val c := mul_nonneg (by omega) h0
      omega
    · rw [ih]; simp only [nsmul_eq_mul]
      have h1 : ((l : Int) + 1) * val c ≤ N * val c :=
        mul_le_mul_of_nonneg_right (by exact_mod_cast hl) h0
      have h2 : (N : Int) * val c ≤ N * U := mul_le_mul_of_nonneg_left hU (by omega)
      nlinarith

end

/-! ## breadth-first search reads only the pattern -/

section
variable {α γ : Type}
theorem bfsStep_pattern {δ : Type*} (f : α → γ) (A : Mat n n α) (v : Vec n δ) (q : Vec n Bool) :
    bfsStep (mapply f A) v q = bfsStep A v q := by
  unfold bfsStep
  congr 1
  funext j
  show reduce any' _ = reduce any' _
  congr 1
  funext i
  unfold mapply
  cases q i <;> cases A i j <;> rfl

theorem levelLoop_pattern (f : α → γ) (A : Mat n n α) (dst : Option (Fin n)) (l : List Nat)
    (v : Vec n Nat) (q : Vec n Bool) :
    bfsLevelLoop (mapply f A) dst l v q = bfsLevelLoop A dst l v q := by
  induction l generalizing v q with
  | nil => rfl
  | cons i l ih => simp only [bfsLevelLoop, bfsStep_pattern, ih]

theorem levelFrom_pattern (f : α → γ) (A : Mat n n α) (s : Fin n) (dst : Option (Fin n))
    (c : Option Int) : bfsLevelFrom (mapply f A) s dst c = bfsLevelFrom A s dst c :=
  levelLoop_pattern _ _ _ _ _ _

theorem bfsStepM_pattern (f : α → γ) (A : Mat n n α) (D : Mat k n Nat) (Q : Mat k n Bool) :
    bfsStepM (mapply f A) D Q = bfsStepM A D Q := by
  unfold bfsStepM
  congr 1
  funext i j
  show reduce any' _ = reduce any' _
  congr 1
  funext l
  unfold mapply
  cases Q i l <;> cases A l j <;> rfl

theorem levelsFrom_pattern (f : α → γ) (A : Mat n n α) (ids : Fin k → Fin n) (c : Option Int) :
    bfsLevelsFrom (mapply f A) ids c = bfsLevelsFrom A ids c := by
  unfold bfsLevelsFrom
  generalize range1 (getCutoff n c) = l
  generalize (fun r j => if j = ids r then some 0 else none : Mat k n Nat) = D
  generalize (fun r j => if j = ids r then some true else none : Mat k n Bool) = Q
  induction l generalizing D Q with
  | nil => rfl
  | cons i l ih => simp only [bfsLevelsLoop, bfsStepM_pattern, ih]

theorem levelLoop_values (A : Mat n n α) (dst : Option (Fin n)) (N : Nat) (l : List Nat)
    (hl : ∀ i ∈ l, i ≤ N) (v : Vec n Nat)
    (hv : ∀ j x, v j = some x → x ≤ N ∧ (x ≠ 0 → ∃ i j, (A i j).isSome)) (q : Vec n Bool) :
    ∀ j x, bfsLevelLoop A dst l v q j = some x → x ≤ N ∧ (x ≠ 0 → ∃ i j, (A i j).isSome) := by
  induction l generalizing v q with
  | nil => exact hv
  | cons i l ih =>
    simp only [bfsLevelLoop]
    have hv' : ∀ j x, vassignC (vS (bfsStep A v q)) v i j = some x →
        x ≤ N ∧ (x ≠ 0 → ∃ i j, (A i j).isSome) := by
      intro j x hx
      simp only [vassignC] at hx
      split at hx
      · rename_i hq
        cases hx
        refine ⟨hl _ (by simp), fun _ => ?_⟩
        have hq' : (bfsStep A v q j).isSome = true := hq
        obtain ⟨⟨y, -, hy⟩, -⟩ := (Bfs.bfsStep_isSome A v q j).1 hq'
        exact ⟨y, j, hy⟩
      · exact hv j x hx
    split
    · exact hv
    · split
      · exact hv'
      · exact ih (fun i hi => hl i (by simp [hi])) _ hv' _

theorem range1_le {n : Nat} {c : Option Int} : ∀ i ∈ range1 (getCutoff n c), i ≤ n := by
  intro i hi
  have := Bfs.getCutoff_le n c
  simp only [range1, List.mem_range'_1] at hi
  omega

theorem levelFrom_values (A : Mat n n α) (s : Fin n) (dst : Option (Fin n)) (c : Option Int) :
    ∀ j x, bfsLevelFrom A s dst c j = some x → x ≤ n ∧ (x ≠ 0 → ∃ i j, (A i j).isSome) := by
  refine levelLoop_values _ _ _ _ range1_le _ ?_ _
  intro j x hx
  simp only [vset, vempty] at hx
  split at hx
  · cases hx; simp
  · cases hx

theorem levelsFrom_values (A : Mat n n α) (ids : Fin k → Fin n) (c : Option Int) :
    ∀ r j x, bfsLevelsFrom A ids c r j = some x → x ≤ n ∧ (x ≠ 0 → ∃ i j, (A i j).isSome) := by
  intro r j x hx
  rw [Bfs.levelsFrom_eq] at hx
  exact levelFrom_values _ _ _ _ _ _ hx
end

/-! ## the public functions, one lemma per branch -/

section
variable {α : Type} [AddCommGroup α] [LinearOrder α] [DecidableEq K] {G : Graph K α} {s t : K}
  {src dst : Fin G.n} {c : α} {fd : α → α → Int} {cutoff : Option α}

theorem single_missing {e : Err} (hs : G.getId s = .error e) (iso : Option α) :
    singleSourceBF G iso fd s cutoff = .error e := by
  unfold singleSourceBF; rw [hs]; rfl
theorem single_none (hs : G.getId s = .ok src) :
    singleSourceBF G none fd s cutoff = bfCore G.A src none cutoff := by
  unfold singleSourceBF; rw [hs]; rfl
theorem single_neg (hs : G.getId s = .ok src) (hn : hasNegEdgesP G.A = true) :
    singleSourceBF G (some c) fd s cutoff =
      if (G.A src src).isSome then .error .unbounded
      else if !G.directed && decide (nvals (G.A src) > 0) then .error .unbounded
      else bfCore G.A src none cutoff := by
  unfold singleSourceBF; rw [hs]; simp [hn, bind, Except.bind]
theorem single_level (hs : G.getId s = .ok src) (hn : hasNegEdgesP G.A = false) :
    singleSourceBF G (some c) fd s none =
      .ok (vapply (fun l => l • c) (bfsLevelFrom (offdiag G.A) src none none)) := by
  unfold singleSourceBF bfsLevel; rw [hs]; simp [hn, bind, Except.bind, pure, Except.pure, bfsMatrix]
theorem single_level_zero (hs : G.getId s = .ok src) (hn : hasNegEdgesP G.A = false) {x : α} :
    singleSourceBF G (some 0) fd s (some x) = .error .zeroDivision := by
  unfold singleSourceBF bfsLevel; rw [hs]; simp [hn, bind, Except.bind]
theorem single_level_cut (hs : G.getId s = .ok src) (hn : hasNegEdgesP G.A = false) (hc : c ≠ 0) {x : α} :
    singleSourceBF G (some c) fd s (some x) =
      .ok (vapply (fun l => l • c) (bfsLevelFrom (offdiag G.A) src none (some (fd x c)))) := by
  unfold singleSourceBF bfsLevel; rw [hs]
  simp [hn, hc, bind, Except.bind, pure, Except.pure, bfsMatrix]

/-- reading the target -/
def pick' {n : Nat} (dst : Fin n) (d : Vec n α) : Except Err α :=
  match d dst with
  | none => .error .noPath
  | some x => .ok x

theorem target_missing {e : Err} (hs : G.getId s = .error e) (iso : Option α) :
    bellmanFordPathLength G iso s t = .error e := by
  unfold bellmanFordPathLength; rw [hs]; rfl
theorem target_missing' {e : Err} (hs : G.getId s = .ok src) (ht : G.getId t = .error e) (iso : Option α) :
    bellmanFordPathLength G iso s t = .error e := by
  unfold bellmanFordPathLength; rw [hs, ht]; rfl
theorem target_none (hs : G.getId s = .ok src) (ht : G.getId t = .ok dst) :
    bellmanFordPathLength G none s t = (bfCore G.A src (some dst) none).bind (pick' dst) := by
  unfold bellmanFordPathLength; rw [hs, ht]; rfl
theorem target_neg (hs : G.getId s = .ok src) (ht : G.getId t = .ok dst) (hn : hasNegEdgesP G.A = true) :
    bellmanFordPathLength G (some c) s t =
      if (G.A src src).isSome then .error .unbounded
      else if !G.directed && decide (nvals (G.A src) > 0) then .error .unbounded
      else (bfCore G.A src (some dst) none).bind (pick' dst) := by
  unfold bellmanFordPathLength; rw [hs, ht]; simp [hn, bind, Except.bind]; rfl
theorem target_level (hs : G.getId s = .ok src) (ht : G.getId t = .ok dst) (hn : hasNegEdgesP G.A = false) :
    bellmanFordPathLength G (some c) s t =
      pick' dst (vapply (fun l => l • c) (bfsLevelFrom (offdiag G.A) src (some dst) none)) := by
  unfold bellmanFordPathLength bfsLevel; rw [hs, ht]
  simp [hn, ht, bind, Except.bind, pure, Except.pure, bfsMatrix]; rfl
end

/-! ## the public functions on machine integers -/

section
variable (hm : Machine β val lo hi) {L U : Int} [DecidableEq K]
include hm

theorem scale_val {c : β} {v : Vec k Nat} {N : Nat} {E : Prop} (h0 : E → 0 ≤ val c ∧ val c ≤ U)
    (hv : ∀ j x, v j = some x → x ≤ N ∧ (x ≠ 0 → E)) (hlo : lo ≤ 0) (hhi : N * U ≤ hi) :
    vapply val (vapply (fun l => l • c) v) = vapply (fun l => l • val c) v := by
  funext j
  unfold vapply
  cases hj : v j with
  | none => rfl
  | some x =>
    simp only [Option.map_some, Option.some.injEq]
    by_cases hx : x = 0
    · subst hx; simp [hm.zero]
    · obtain ⟨h1, h2⟩ := hv j x hj
      obtain ⟨h3, h4⟩ := h0 (h2 hx)
      exact smul_val hm h3 h4 h1 hlo hhi

/-- the parameters of a run: weights, iso value and range -/
structure Fits (val : β → Int) (lo hi : Int) (L U : Int) (G : Graph K β) (iso : Option β) : Prop where
  mat : InM val L U G.A
  neg : L ≤ 0
  pos : 0 ≤ U
  low : lo ≤ G.n * L
  high : G.n * U ≤ hi
  isoAll : ∀ c, iso = some c → ∀ i j a, G.A i j = some a → a = c

omit hm [AddCommGroup β] [LinearOrder β] [DecidableEq K] in
theorem Fits.lo0 [AddCommGroup β] [LinearOrder β] {G : Graph K β} {iso : Option β}
    (hf : Fits val lo hi L U G iso) : lo ≤ 0 := by
  have := hf.low; have := hf.neg
  have : (G.n : Int) * L ≤ 0 := mul_nonpos_of_nonneg_of_nonpos (by omega) hf.neg
  omega

omit [DecidableEq K] in
theorem Fits.isoBound {G : Graph K β} {c : β} (hf : Fits val lo hi L U G (some c))
    (hn : hasNegEdgesP G.A = false) (he : ∃ i j, (offdiag G.A i j).isSome) : 0 ≤ val c ∧ val c ≤ U := by
  obtain ⟨i, j, hij⟩ := he
  obtain ⟨a, ha⟩ := Option.isSome_iff_exists.1 hij
  have ha' : G.A i j = some a := by
    unfold GB.offdiag at ha
    split at ha
    · cases ha
    · exact ha
  have hc := hf.isoAll c rfl i j a ha'
  subst hc
  refine ⟨?_, (hf.mat i j a ha').2⟩
  have : 0 ≤ a := BF.hasNegEdgesP_false hn i j a ha'
  rw [← hm.zero]
  exact (hm.le_iff _ _).2 this

theorem level_val {G : Graph K β} {c : β} (hf : Fits val lo hi L U G (some c))
    (hn : hasNegEdgesP G.A = false) (src : Fin G.n) (dst : Option (Fin G.n)) (cut : Option Int) :
    vapply val (vapply (fun l => l • c) (bfsLevelFrom (offdiag G.A) src dst cut)) =
      vapply (fun l => l • val c) (bfsLevelFrom (offdiag (mapply val G.A)) src dst cut) := by
  rw [scale_val hm (hf.isoBound hm hn) (levelFrom_values _ _ _ _) hf.lo0 hf.high,
    ← offdiag_apply, levelFrom_pattern]

theorem single_val {G : Graph K β} {iso : Option β} (hf : Fits val lo hi L U G iso)
    (fd : β → β → Int) (fdZ : Int → Int → Int) (hfd : ∀ x c, fd x c = fdZ (val x) (val c))
    (s : K) (cutoff : Option β) :
    (singleSourceBF G iso fd s cutoff).map (vapply val) =
      singleSourceBF (G.ints val) (iso.map val) fdZ s (cutoff.map val) := by
  cases hs : G.getId s with
  | error e =>
    rw [single_missing hs]
    exact (single_missing (G := G.ints val) hs _).symm
  | ok src =>
    have hs' : (G.ints val).getId s = .ok src := hs
    have hcore := core_val hm hf.mat hf.neg hf.pos hf.low hf.high src none cutoff
    cases iso with
    | none =>
      rw [single_none hs]
      exact hcore.trans (single_none (G := G.ints val) hs').symm
    | some c =>
      cases hn : hasNegEdgesP G.A with
      | true =>
        have hn' : hasNegEdgesP (G.ints val).A = true := (hasNegEdgesP_val hm G.A).symm.trans hn
        rw [single_neg hs hn]
        refine Eq.trans ?_ (single_neg (G := G.ints val) hs' hn').symm
        rw [map_ite_error, map_ite_error, hcore]
        have e1 : ((mapply val G.A) src src).isSome = (G.A src src).isSome := by simp [mapply]
        have e2 : nvals ((mapply val G.A) src) = nvals (G.A src) := nvals_apply val (G.A src)
        show _ = if ((mapply val G.A) src src).isSome then _ else
          if !G.directed && decide (nvals ((mapply val G.A) src) > 0) then _ else _
        rw [e1, e2]
        rfl
      | false =>
        have hn' : hasNegEdgesP (G.ints val).A = false := (hasNegEdgesP_val hm G.A).symm.trans hn
        cases cutoff with
        | none =>
          rw [single_level hs hn]
          refine Eq.trans ?_ (single_level (G := G.ints val) hs' hn').symm
          exact congrArg Except.ok (level_val hm hf hn src none none)
        | some x =>
          by_cases h0 : c = 0
          · subst h0
            rw [single_level_zero hs hn]
            have hz : (some (0 : β)).map val = some 0 := by simp [hm.zero]
            rw [hz]
            exact (single_level_zero (G := G.ints val) hs' hn').symm
          · have h0' : val c ≠ 0 := fun h => h0 ((inj hm.le_iff).1 (h.trans hm.zero.symm))
            rw [single_level_cut hs hn h0]
            refine Eq.trans ?_ (single_level_cut (G := G.ints val) hs' hn' h0').symm
            rw [hfd]
            exact congrArg Except.ok (level_val hm hf hn src none _)

omit hm [AddCommGroup β] [LinearOrder β] [DecidableEq K] in
theorem pick_val {n : Nat} (dst : Fin n) (d : Vec n β) :
    (pick' dst d).map val = pick' dst (vapply val d) := by
  unfold pick' vapply
  cases d dst <;> rfl

omit hm [AddCommGroup β] [LinearOrder β] [DecidableEq K] in
theorem bind_pick_val {n : Nat} (dst : Fin n) (d : Except Err (Vec n β)) :
    (d.bind (pick' dst)).map val = (d.map (vapply val)).bind (pick' dst) := by
  cases d with
  | error e => rfl
  | ok d => exact pick_val dst d

theorem target_val {G : Graph K β} {iso : Option β} (hf : Fits val lo hi L U G iso) (s t : K) :
    (bellmanFordPathLength G iso s t).map val =
      bellmanFordPathLength (G.ints val) (iso.map val) s t := by
  cases hs : G.getId s with
  | error e =>
    rw [target_missing hs]
    exact (target_missing (G := G.ints val) hs _).symm
  | ok src =>
  cases ht : G.getId t with
  | error e =>
    rw [target_missing' hs ht]
    exact (target_missing' (G := G.ints val) hs ht _).symm
  | ok dst =>
    have hs' : (G.ints val).getId s = .ok src := hs
    have ht' : (G.ints val).getId t = .ok dst := ht
    have hcore := core_val hm hf.mat hf.neg hf.pos hf.low hf.high src (some dst) none
    cases iso with
    | none =>
      rw [target_none hs ht, bind_pick_val, hcore]
      exact (target_none (G := G.ints val) hs' ht').symm
    | some c =>
      cases hn : hasNegEdgesP G.A with
      | true =>
        have hn' : hasNegEdgesP (G.ints val).A = true := (hasNegEdgesP_val hm G.A).symm.trans hn
        rw [target_neg hs ht hn]
        refine Eq.trans ?_ (target_neg (G := G.ints val) hs' ht' hn').symm
        rw [map_ite_error, map_ite_error, bind_pick_val, hcore]
        have e1 : ((mapply val G.A) src src).isSome = (G.A src src).isSome := by simp [mapply]
        have e2 : nvals ((mapply val G.A) src) = nvals (G.A src) := nvals_apply val (G.A src)
        show _ = if ((mapply val G.A) src src).isSome then _ else
          if !G.directed && decide (nvals ((mapply val G.A) src) > 0) then _ else _
        rw [e1, e2]
        rfl
      | false =>
        have hn' : hasNegEdgesP (G.ints val).A = false := (hasNegEdgesP_val hm G.A).symm.trans hn
        rw [target_level hs ht hn, pick_val, level_val hm hf hn]
        exact (target_level (G := G.ints val) hs' ht' hn').symm

omit hm [DecidableEq K] in
theorem massign_apply {α γ : Type} {m p : Nat} (f : α → γ) (M : MMask m p) (w t : Mat m p α) :
    mapply f (massign M w t) = massign M (mapply f w) (mapply f t) := by
  funext i j; unfold mapply massign; split <;> rfl
omit hm [DecidableEq K] in
theorem mS_apply {α γ : Type} {m p : Nat} (f : α → γ) (v : Mat m p α) : mS (mapply f v) = mS v := by
  funext i j; simp [mS, mapply]

omit [DecidableEq K] in
theorem loopM_val {A : Mat n n β} (hA : InM val L U A) (hL : L ≤ 0) (hU : 0 ≤ U)
    (m t : Nat) (hlo : lo ≤ (t + m : Int) * L) (hhi : (t + m : Int) * U ≤ hi)
    (D Cur : Mat k n β) (hc : InM val (t * L) (t * U) Cur) :
    (mapply val (bfLoopM A m D Cur).1, mapply val (bfLoopM A m D Cur).2.1, (bfLoopM A m D Cur).2.2) =
      bfLoopM (mapply val A) m (mapply val D) (mapply val Cur) ∧
    InM val ((t + m : Int) * L) ((t + m : Int) * U) (bfLoopM A m D Cur).2.1 := by
  induction m generalizing t D Cur with
  | zero => refine ⟨rfl, ?_⟩; simpa [bfLoopM] using hc
  | succ m ih =>
    have hlo1 : lo ≤ t * L + L := by
      have : (t + (m + 1 : Nat) : Int) * L = (t * L + L) + m * L := by push_cast; ring
      have h2 : (m : Int) * L ≤ 0 := mul_nonpos_of_nonneg_of_nonpos (by omega) hL
      omega
    have hhi1 : t * U + U ≤ hi := by
      have : (t + (m + 1 : Nat) : Int) * U = (t * U + U) + m * U := by push_cast; ring
      have h2 : 0 ≤ (m : Int) * U := mul_nonneg (by omega) hU
      omega
    have hr := fun r => round_val (cut := none) (d := D r) hm hA (hc r) hlo1 hhi1
    have e1 : mapply val (bfRoundM A D Cur) = bfRoundM (mapply val A) (mapply val D) (mapply val Cur) := by
      funext r
      exact (hr r).1
    have e2' : InM val (((t + 1 : Nat) : Int) * L) (((t + 1 : Nat) : Int) * U) (bfRoundM A D Cur) := by
      intro r i a ha
      have := (hr r).2 i a ha
      push_cast
      constructor <;> nlinarith
    simp only [bfLoopM]
    rw [← e1, mnvals_apply]
    by_cases h0 : mnvals (bfRoundM A D Cur) = 0
    · simp only [if_pos h0]
      refine ⟨trivial, ?_⟩
      intro r i a ha
      have := (mnvals_eq_zero.1 h0) r i
      exact absurd (this.symm.trans ha) (by simp)
    · simp only [if_neg h0]
      have := ih (t + 1) (by push_cast at hlo ⊢; convert hlo using 2; ring)
        (by push_cast at hhi ⊢; convert hhi using 2; ring)
        (massign (mS (bfRoundM A D Cur)) D (bfRoundM A D Cur)) _ e2'
      rw [massign_apply] at this
      rw [mS_apply]
      refine ⟨this.1, ?_⟩
      have h2 := this.2
      push_cast at h2 ⊢
      convert h2 using 2 <;> ring

omit [DecidableEq K] in
theorem coreM_val {A : Mat n n β} (hA : InM val L U A) (hL : L ≤ 0) (hU : 0 ≤ U)
    (hlo : lo ≤ n * L) (hhi : n * U ≤ hi) (ids : Fin k → Fin n) :
    (bfCoreM A ids).map (mapply val) = bfCoreM (mapply val A) ids := by
  have hO := In.offdiag hA
  by_cases hn : n = 0
  · subst hn
    -- no columns: nothing is stored
    have key : ∀ X : Mat k 0 β, ∀ Y : Mat k 0 Int, mapply val X = Y := by
      intro X Y; funext r j; exact j.elim0
    have hk : k = 0 := by
      by_contra h
      exact (ids ⟨0, by omega⟩).elim0
    subst hk
    have hz : ∀ {γ : Type} [AddCommGroup γ] [LinearOrder γ] (B : Mat 0 0 γ) (ids : Fin 0 → Fin 0),
        bfCoreM B ids = .ok (fun r => r.elim0) := by
      intro γ _ _ B ids
      unfold bfCoreM
      simp only
      have h1 : ∀ X : Mat 0 0 Bool, reduceScalar (· || ·) X = none := fun X => rfl
      have h2 : hasNegDiag B = false := by
        simp [hasNegDiag, reduce]
      rw [h1, h2]
      simp
      funext r; exact r.elim0
    rw [hz, hz]
    show Except.ok _ = Except.ok _
    congr 1
    funext r; exact r.elim0
  have h0 : ((0 : Nat) + (n - 1 : Nat) : Int) = n - 1 := by omega
  have hl := loopM_val (k := k) hm hO hL hU (n - 1) 0
    (by rw [h0]; nlinarith)
    (by rw [h0]; nlinarith)
    (fun r j => if j = ids r then some 0 else none) (fun r j => if j = ids r then some 0 else none)
    (by
      intro r j a ha
      simp only at ha
      split at ha
      · cases ha; simp [hm.zero]
      · cases ha)
  obtain ⟨e1, e2⟩ := hl
  have hD0 : mapply val (fun r j => if j = ids r then some 0 else none : Mat k n β) =
      (fun r j => if j = ids r then some 0 else none) := by
    funext r j
    show Option.map val (if j = ids r then some 0 else none) = _
    by_cases h : j = ids r <;> simp [h, hm.zero]
  rw [hD0, offdiag_apply] at e1
  unfold bfCoreM
  simp only
  rw [← hasNegDiag_val hm, ← e1, select_neg_val hm]
  generalize bfLoopM (GB.offdiag A) (n - 1) (fun r j => if j = ids r then some 0 else none)
    (fun r j => if j = ids r then some 0 else none) = S at *
  have hi' : (fun r => bfImproved (GB.offdiag (mapply val A)) none (mapply val S.1 r) (mapply val S.2.1 r)) =
      (fun r => bfImproved (GB.offdiag A) none (S.1 r) (S.2.1 r)) := by
    funext r
    have := improved_val (cut := none) (d := S.1 r) hm hO (e2 r) (by rw [h0]; nlinarith) (by rw [h0]; nlinarith)
    rw [offdiag_apply] at this
    exact this.symm
  have hx : mxv any' pairB (mapply val S.1) (vapply val (vselect (fun a => decide (a < 0)) (diagVec A))) =
      mxv any' pairB S.1 (vselect (fun a => decide (a < 0)) (diagVec A)) := by
    funext r
    exact dot_pair_val (S.1 r) _
  simp only [hi', hx, map_ite_error, map_ok']

theorem lengths_val {G : Graph K β} {iso : Option β} (hf : Fits val lo hi L U G iso)
    (ids : Fin k → Fin G.n) :
    (bellmanFordPathLengths G iso ids).map (mapply val) =
      bellmanFordPathLengths (G.ints val) (iso.map val) ids := by
  have hcore := coreM_val hm hf.mat hf.neg hf.pos hf.low hf.high ids
  cases iso with
  | none => exact hcore
  | some c =>
    cases hn : hasNegEdgesP G.A with
    | true =>
      have hn' : hasNegEdgesP (G.ints val).A = true := (hasNegEdgesP_val hm G.A).symm.trans hn
      have e : ∀ {γ : Type} [AddCommGroup γ] [LinearOrder γ] (H : Graph K γ) (c : γ) (ids : Fin k → Fin H.n),
          hasNegEdgesP H.A = true → bellmanFordPathLengths H (some c) ids =
            if !H.directed && decide (mnvals (fun r => H.A (ids r)) > 0) then .error .unbounded
            else bfCoreM H.A ids := by
        intro γ _ _ H c ids h
        unfold bellmanFordPathLengths
        simp [h]
      rw [e G c ids hn]
      refine Eq.trans ?_ (e (G.ints val) (val c) ids hn').symm
      rw [map_ite_error, hcore]
      have e2 : mnvals (fun r => (mapply val G.A) (ids r)) = mnvals (fun r => G.A (ids r)) :=
        mnvals_apply val (fun r => G.A (ids r))
      show _ = if !G.directed && decide (mnvals (fun r => (mapply val G.A) (ids r)) > 0) then _ else _
      rw [e2]
      rfl
    | false =>
      have hn' : hasNegEdgesP (G.ints val).A = false := (hasNegEdgesP_val hm G.A).symm.trans hn
      have e : ∀ {γ : Type} [AddCommGroup γ] [LinearOrder γ] (H : Graph K γ) (c : γ) (ids : Fin k → Fin H.n),
          hasNegEdgesP H.A = false → bellmanFordPathLengths H (some c) ids =
            .ok (mapply (fun l => l • c) (bfsLevelsFrom (offdiag H.A) ids none)) := by
        intro γ _ _ H c ids h
        unfold bellmanFordPathLengths
        simp [h]
      rw [e G c ids hn]
      refine Eq.trans ?_ (e (G.ints val) (val c) ids hn').symm
      show Except.ok _ = Except.ok _
      congr 1
      show _ = mapply (fun l => l • val c) (bfsLevelsFrom (offdiag (mapply val G.A)) ids none)
      rw [← offdiag_apply, levelsFrom_pattern]
      funext r
      exact scale_val hm (hf.isoBound hm hn)
        (v := bfsLevelsFrom (GB.offdiag G.A) ids none r) (levelsFrom_values _ _ _ r) hf.lo0 hf.high

omit [DecidableEq K] in
theorem necLoop_val {A : Mat n n β} (hA : InM val L U A) (hL : L ≤ 0) (hU : 0 ≤ U)
    (m t : Nat) (hlo : lo ≤ (t + m : Int) * L) (hhi : (t + m : Int) * U ≤ hi)
    (d cur : Vec n β) (hc : In val (t * L) (t * U) cur) :
    (necLoop A m d cur).map (fun p => (vapply val p.1, vapply val p.2)) =
      necLoop (mapply val A) m (vapply val d) (vapply val cur) ∧
    ∀ p, necLoop A m d cur = some p → In val ((t + m : Int) * L) ((t + m : Int) * U) p.2 := by
  induction m generalizing t d cur with
  | zero =>
    refine ⟨rfl, ?_⟩
    rintro p ⟨⟩
    simpa using hc
  | succ m ih =>
    have hlo1 : lo ≤ t * L + L := by
      have : (t + (m + 1 : Nat) : Int) * L = (t * L + L) + m * L := by push_cast; ring
      have h2 : (m : Int) * L ≤ 0 := mul_nonpos_of_nonneg_of_nonpos (by omega) hL
      omega
    have hhi1 : t * U + U ≤ hi := by
      have : (t + (m + 1 : Nat) : Int) * U = (t * U + U) + m * U := by push_cast; ring
      have h2 : 0 ≤ (m : Int) * U := mul_nonneg (by omega) hU
      omega
    obtain ⟨e1, e2⟩ := round_val (cut := none) (d := d) hm hA hc hlo1 hhi1
    have e2' : In val (((t + 1 : Nat) : Int) * L) (((t + 1 : Nat) : Int) * U) (bfRound A none d cur) := by
      intro i a ha
      have := e2 i a ha
      push_cast
      constructor <;> nlinarith
    simp only [necLoop]
    have e1' : bfRound (mapply val A) none (vapply val d) (vapply val cur) =
      vapply val (bfRound A none d cur) := e1.symm
    rw [e1', nvals_apply]
    by_cases h0 : nvals (bfRound A none d cur) = 0
    · simp only [if_pos h0]
      exact ⟨rfl, by simp⟩
    · simp only [if_neg h0]
      have := ih (t + 1) (by push_cast at hlo ⊢; convert hlo using 2; ring)
        (by push_cast at hhi ⊢; convert hhi using 2; ring)
        (vassign (vS (bfRound A none d cur)) d (bfRound A none d cur)) _ e2'
      rw [assign_apply] at this
      rw [vS_apply]
      refine ⟨this.1, fun p hp => ?_⟩
      have h2 := this.2 p hp
      push_cast at h2 ⊢
      convert h2 using 2 <;> ring

omit [DecidableEq K] in
theorem nec_val {G : Graph K β} (hA : InM val L U G.A) (hL : L ≤ 0) (hU : 0 ≤ U)
    (hlo : lo ≤ G.n * L) (hhi : G.n * U ≤ hi) :
    negativeEdgeCycle G = negativeEdgeCycle (G.ints val) := by
  have hO := In.offdiag hA
  have key : ∀ degS : VMask G.n, necBody (offdiag G.A) degS (hasNegDiag G.A) (hasNegEdgesM G.A) =
      necBody (offdiag (mapply val G.A)) degS (hasNegDiag (mapply val G.A)) (hasNegEdgesM (mapply val G.A)) := by
    intro degS
    rw [← hasNegDiag_val hm, ← hasNegEdgesM_val hm]
    unfold necBody
    by_cases h1 : hasNegDiag G.A = true
    · rw [if_pos h1, if_pos h1]
    rw [if_neg h1, if_neg h1]
    by_cases h2 : (!hasNegEdgesM G.A) = true
    · rw [if_pos h2, if_pos h2]
    rw [if_neg h2, if_neg h2]
    have hn : 1 ≤ G.n := by
      by_contra hn
      have hn0 : G.n = 0 := by omega
      apply h2
      have : hasNegEdgesM G.A = false := by
        unfold hasNegEdgesM
        have : reduceScalar min (offdiag G.A) = none := by
          apply (reduce_eq_none _ _).2
          intro i
          exact absurd i.2 (by omega)
        simp [this]
      simp [this]
    have h0 : ((0 : Nat) + (G.n - 1 : Nat) : Int) = G.n - 1 := by omega
    have hv : vapply val (vassignC degS vempty 0 : Vec G.n β) = vassignC degS vempty 0 := by
      funext i
      unfold vapply vassignC
      split
      · simp [hm.zero]
      · rfl
    obtain ⟨e1, e2⟩ := necLoop_val hm hO hL hU (G.n - 1) 0 (by rw [h0]; nlinarith)
      (by rw [h0]; nlinarith) (vassignC degS vempty 0) (vassignC degS vempty 0)
      (by
        intro i a ha
        simp only [vassignC, vempty] at ha
        split at ha
        · cases ha; simp [hm.zero]
        · cases ha)
    rw [hv, offdiag_apply] at e1
    simp only
    rw [← e1]
    cases hl : necLoop (offdiag G.A) (G.n - 1) (vassignC degS vempty 0) (vassignC degS vempty 0) with
    | none => rfl
    | some p =>
      obtain ⟨d, cur⟩ := p
      have := improved_val (cut := none) (d := d) hm hO (e2 _ hl) (by rw [h0]; nlinarith)
        (by rw [h0]; nlinarith)
      rw [offdiag_apply] at this
      simp only [Option.map_some]
      rw [this]
      rfl
  unfold negativeEdgeCycle
  rw [key]
  show _ = necBody (offdiag (mapply val G.A)) (if G.directed then
      fun i => decide (nvals (offdiag (mapply val G.A) i) ≠ 0) ||
        decide (nvals (transpose (offdiag (mapply val G.A)) i) ≠ 0)
      else fun i => decide (nvals (offdiag (mapply val G.A) i) ≠ 0))
    (hasNegDiag (mapply val G.A)) (hasNegEdgesM (mapply val G.A))
  rw [← offdiag_apply]
  have a1 : ∀ i, nvals (mapply val (offdiag G.A) i) = nvals (offdiag G.A i) :=
    fun i => nvals_apply val (offdiag G.A i)
  have a2 : ∀ i, nvals (transpose (mapply val (offdiag G.A)) i) = nvals (transpose (offdiag G.A) i) :=
    fun i => nvals_apply val (transpose (offdiag G.A) i)
  simp only [a1, a2]
end
end Proofs.Mach
