import Verif.Model.FloydWarshall
import Verif.Proofs.BellmanFord

/-! Lemmas about Floyd-Warshall. -/

open GB Spec Model Proofs.BF Proofs

namespace Proofs.FW

variable {α : Type} {n : Nat}

/-! ### undirected: upper-triangular storage -/

/-- the symmetric matrix represented by an upper-triangular one -/
def symU (D : Mat n n α) : Mat n n α := fun a b =>
  if a < b then D a b else if b < a then D b a else none

theorem symU_symm (D : Mat n n α) (a b : Fin n) : symU D a b = symU D b a := by
  unfold symU
  rcases lt_trichotomy a b with h | h | h
  · simp [h, h.not_gt]
  · subst h; rfl
  · simp [h, h.not_gt]

/-- only strictly upper entries -/
def Upper (D : Mat n n α) : Prop := ∀ a b, ¬ a < b → D a b = none

theorem merge_upper {β : Type} {D : Mat n n β} (h : ∀ a b, ¬ a < b → D a b = none)
    (choose : β → β → β) (a b : Fin n) :
    omerge choose (D a b) (D b a) =
      if a < b then D a b else if b < a then D b a else none := by
  rcases lt_trichotomy a b with hab | hab | hab
  · simp [hab, h b a hab.not_gt]
  · subst hab; simp [h a a (lt_irrefl a)]
  · simp [hab, hab.not_gt, h a b hab.not_gt]

theorem stepU [Zero α] [AddCommMagma α] [LinearOrder α] {D : Mat n n α} (h : Upper D) (choose : α → α → α) (i : Fin n) :
    Upper (fwStep false choose D i) ∧
      symU (fwStep false choose D i) = fwStep true choose (symU D) i := by
  have hr : ∀ b, fwRowU choose D i b = symU D i b := fun b => merge_upper h choose i b
  constructor
  · intro a b hab
    simp [fwStep, madd, triu1, hab, h a b hab]
  · funext a b
    simp only [fwStep, Bool.false_eq_true, if_false, if_true, madd]
    have ho : ∀ a b, fwOuterU choose D i a b = fwOuter (symU D) i a b := by
      intro a b
      unfold fwOuterU fwOuter
      rw [hr a, hr b, symU_symm D i a]
    have hs : ∀ a b, fwOuter (symU D) i a b = fwOuter (symU D) i b a := by
      intro a b
      unfold fwOuter
      rw [symU_symm D a i, symU_symm D i b]
      cases symU D i a <;> cases symU D b i <;> simp [add_comm]
    rcases lt_trichotomy a b with hab | hab | hab
    · simp [symU, hab, madd, triu1, offdiag, hab.ne, ho]
    · subst hab; simp [symU, offdiag]
    · simp [symU, hab, hab.not_gt, madd, triu1, offdiag, hab.ne', ho]
      rw [hs b a]

theorem loopU [Zero α] [AddCommMagma α] [LinearOrder α] {D : Mat n n α} (h : Upper D) (choose : α → α → α) (l : List (Fin n)) :
    Upper (l.foldl (fwStep false choose) D) ∧
      symU (l.foldl (fwStep false choose) D) = l.foldl (fwStep true choose) (symU D) := by
  induction l generalizing D with
  | nil => exact ⟨h, rfl⟩
  | cons x l ih =>
    obtain ⟨h1, h2⟩ := stepU h choose x
    obtain ⟨h3, h4⟩ := ih h1
    exact ⟨h3, by rw [List.foldl_cons, h4, h2]; rfl⟩

theorem upper_triu1 (A : Mat n n α) : Upper (triu1 A) := fun a b h => by simp [triu1, h]

theorem symU_triu1 {A : Mat n n α} (hs : ∀ i j, A i j = A j i) : symU (triu1 A) = offdiag A := by
  funext a b
  unfold symU triu1 offdiag
  rcases lt_trichotomy a b with h | h | h
  · simp [h, h.ne]
  · subst h; simp
  · simp [h, h.not_gt, h.ne', hs a b]

theorem nvals_pos_of {i : Fin n} {v : Vec n α} (h : (v i).isSome) : decide (nvals v ≠ 0) = true := by
  have := nvals_pos.2 ⟨i, h⟩
  simpa using Nat.ne_of_gt this

theorem nonempty_ok (directed : Bool) (A : Mat n n α) :
    ∀ x u v a b, MW (offdiag A) u x a → MW (offdiag A) x v b → fwNonempty directed A x = true := by
  intro x u v a b h1 h2
  have r : decide (nvals (offdiag A x) ≠ 0) = true := nvals_pos_of (i := v) (by rw [h2]; rfl)
  have c : decide (nvals (transpose (offdiag A) x) ≠ 0) = true :=
    nvals_pos_of (i := u) (by show (offdiag A u x).isSome = true; rw [h1]; rfl)
  unfold fwNonempty
  simp only [r, c]
  split <;> rfl

/-! ### the loop -/

variable [AddCommGroup α] [LinearOrder α] [IsOrderedAddMonoid α]

/-- walks of at least one edge whose inner nodes are all in `I` -/
inductive IWalk (W : Fin n → Fin n → α → Prop) (I : Fin n → Prop) : α → Fin n → Fin n → Prop
  | single {u v : Fin n} {a : α} : W u v a → IWalk W I a u v
  | snoc {c a : α} {u v w : Fin n} : IWalk W I c u v → I v → W v w a → IWalk W I (c + a) u w

variable {W : Fin n → Fin n → α → Prop} {I : Fin n → Prop}

omit [LinearOrder α] [IsOrderedAddMonoid α] in
theorem IWalk.walk {c : α} {u v : Fin n} (h : IWalk W I c u v) : ∃ k, WWalk W k c u v := by
  induction h with
  | single e => exact ⟨1, .single e⟩
  | snoc _ _ e ih => obtain ⟨k, hk⟩ := ih; exact ⟨k + 1, hk.snoc e⟩

/-- adding the inner node `x` -/
theorem IWalk.split (hno : ∀ x, ¬ NegCycleAt W x) {x : Fin n} {c : α} {u v : Fin n}
    (h : IWalk W (fun y => I y ∨ y = x) c u v) :
    (∃ c', c' ≤ c ∧ IWalk W I c' u v) ∨
    (∃ c1 c2, c1 + c2 ≤ c ∧ IWalk W I c1 u x ∧ IWalk W I c2 x v) := by
  have pos : ∀ {c y}, IWalk W I c y y → 0 ≤ c := by
    intro c y hc
    by_contra h0
    obtain ⟨k, hk⟩ := hc.walk
    exact hno y ⟨k, c, hk, not_le.1 h0⟩
  induction h with
  | single e => exact Or.inl ⟨_, le_rfl, .single e⟩
  | @snoc c a u v w hw hI e ih =>
    rcases hI with hI | rfl
    · rcases ih with ⟨c', h1, h2⟩ | ⟨c1, c2, h1, h2, h3⟩
      · exact Or.inl ⟨c' + a, add_le_add_left h1 a, h2.snoc hI e⟩
      · refine Or.inr ⟨c1, c2 + a, ?_, h2, h3.snoc hI e⟩
        rw [← add_assoc]; exact add_le_add_left h1 a
    · rcases ih with ⟨c', h1, h2⟩ | ⟨c1, c2, h1, h2, h3⟩
      · exact Or.inr ⟨c', a, add_le_add_left h1 a, h2, .single e⟩
      · refine Or.inr ⟨c1, a, ?_, h2, .single e⟩
        have := pos h3
        have h4 : c1 ≤ c := (le_add_of_nonneg_right this).trans h1
        exact add_le_add_left h4 a

omit [LinearOrder α] [IsOrderedAddMonoid α] in
/-- every walk is a walk through nodes that have an edge in and an edge out -/
theorem iwalk_of_walk (hI : ∀ x u v a b, W u x a → W x v b → I x) {k : Nat} {c : α} {u v : Fin n}
    (h : WWalk W (k+1) c u v) : IWalk W I c u v := by
  induction k generalizing c v with
  | zero =>
    obtain ⟨y, c', a, h1, e, rfl⟩ := wwalk_succ.1 h
    obtain ⟨rfl, rfl⟩ := wwalk_zero.1 h1
    rw [zero_add]; exact .single e
  | succ k ih =>
    obtain ⟨y, c', a, h1, e, rfl⟩ := wwalk_succ.1 h
    refine (ih h1).snoc ?_ e
    obtain ⟨z, c'', b, _, e', _⟩ := wwalk_succ.1 h1
    exact hI _ _ _ _ _ e' e

/-- `D` is sound and complete for inner nodes in `I`, off the diagonal -/
structure Inv (W : Fin n → Fin n → α → Prop) (I : Fin n → Prop) (D : Mat n n α) : Prop where
  diag : ∀ u, D u u = none
  sound : ∀ u v c, D u v = some c → ∃ k, WWalk W k c u v
  complete : ∀ u v c, u ≠ v → IWalk W I c u v → ∃ c', c' ≤ c ∧ D u v = some c'

omit [IsOrderedAddMonoid α] in
theorem omerge_min_le {x y : Option α} {c : α} (h : (∃ c', c' ≤ c ∧ x = some c') ∨
    (∃ c', c' ≤ c ∧ y = some c')) : ∃ c', c' ≤ c ∧ omerge min x y = some c' := by
  rcases h with ⟨c', h1, rfl⟩ | ⟨c', h1, rfl⟩
  · cases y with
    | none => exact ⟨c', h1, rfl⟩
    | some b => exact ⟨min c' b, (min_le_left _ _).trans h1, rfl⟩
  · cases x with
    | none => exact ⟨c', h1, rfl⟩
    | some b => exact ⟨min b c', (min_le_right _ _).trans h1, rfl⟩

omit [AddCommGroup α] [IsOrderedAddMonoid α] in
theorem omerge_min_mem {x y : Option α} {c : α} (h : omerge min x y = some c) :
    x = some c ∨ y = some c := by
  cases x with
  | none => exact Or.inr h
  | some a =>
    cases y with
    | none => exact Or.inl h
    | some b =>
      simp only [omerge_some, Option.some.injEq] at h
      rcases min_choice a b with e | e <;> rw [e] at h <;> subst h
      · exact Or.inl rfl
      · exact Or.inr rfl

theorem step (hno : ∀ x, ¬ NegCycleAt W x) {D : Mat n n α} (h : Inv W I D) (choose) (x : Fin n) :
    Inv W (fun y => I y ∨ y = x) (fwStep true choose D x) := by
  simp only [fwStep, if_true]
  refine ⟨fun u => ?_, fun u v c hc => ?_, fun u v c hne hw => ?_⟩
  · simp [madd, offdiag, h.diag]
  · rcases omerge_min_mem hc with hc | hc
    · exact h.sound u v c hc
    · unfold offdiag at hc
      split at hc
      · cases hc
      · obtain ⟨a, b, ha, hb, rfl⟩ := ointer_eq_some.1 hc
        obtain ⟨k1, h1⟩ := h.sound _ _ _ ha
        obtain ⟨k2, h2⟩ := h.sound _ _ _ hb
        exact ⟨k1 + k2, h1.append h2⟩
  · apply omerge_min_le
    have pos : ∀ {c y}, IWalk W I c y y → 0 ≤ c := by
      intro c y hc
      by_contra h0
      obtain ⟨k, hk⟩ := hc.walk
      exact hno y ⟨k, c, hk, not_le.1 h0⟩
    rcases hw.split hno with ⟨c', h1, h2⟩ | ⟨c1, c2, h1, h2, h3⟩
    · obtain ⟨c'', h3, h4⟩ := h.complete u v c' hne h2
      exact Or.inl ⟨c'', h3.trans h1, h4⟩
    · by_cases hu : u = x
      · subst hu
        obtain ⟨c'', h4, h5⟩ := h.complete u v c2 hne h3
        exact Or.inl ⟨c'', h4.trans ((le_add_of_nonneg_left (pos h2)).trans h1), h5⟩
      · by_cases hv : v = x
        · subst hv
          obtain ⟨c'', h4, h5⟩ := h.complete u v c1 hne h2
          exact Or.inl ⟨c'', h4.trans ((le_add_of_nonneg_right (pos h3)).trans h1), h5⟩
        · obtain ⟨d1, h4, h5⟩ := h.complete u x c1 hu h2
          obtain ⟨d2, h6, h7⟩ := h.complete x v c2 (Ne.symm hv) h3
          refine Or.inr ⟨d1 + d2, (add_le_add h4 h6).trans h1, ?_⟩
          simp [offdiag, hne, fwOuter, h5, h7]

theorem foldl_inv (hno : ∀ x, ¬ NegCycleAt W x) (choose) (l : List (Fin n)) {D : Mat n n α}
    (h : Inv W I D) :
    Inv W (fun y => I y ∨ y ∈ l) (l.foldl (fwStep true choose) D) := by
  induction l generalizing I D with
  | nil => simpa using h
  | cons x l ih =>
    have := ih (step hno h choose x)
    simp only [List.foldl_cons]
    convert this using 2 with y
    simp [or_assoc]

omit [LinearOrder α] [IsOrderedAddMonoid α] in
theorem inv_start (A : Mat n n α) [LinearOrder α] :
    Inv (MW (offdiag A)) (fun _ => False) (offdiag A) := by
  refine ⟨fun u => by simp [offdiag], fun u v c hc => ⟨1, .single hc⟩, fun u v c hne hw => ?_⟩
  cases hw with
  | single e => exact ⟨c, le_rfl, e⟩
  | snoc _ h _ => exact h.elim

/-- the directed loop computes distances off the diagonal -/
theorem loop_dist {A : Mat n n α} (hno : ∀ x, ¬ NegCycleAt (MW (offdiag A)) x) (choose)
    (ne : VMask n) (hne : ∀ x u v a b, MW (offdiag A) u x a → MW (offdiag A) x v b → ne x = true)
    {u v : Fin n} (huv : u ≠ v) {c : α} :
    fwLoop true choose ne (offdiag A) u v = some c ↔ IsWDist (MW (offdiag A)) u c v := by
  have hinv := foldl_inv hno choose ((List.finRange n).filter ne) (inv_start A)
  change Inv _ _ (fwLoop true choose ne (offdiag A)) at hinv
  have hall : ∀ {k c}, WWalk (MW (offdiag A)) k c u v →
      ∃ c', c' ≤ c ∧ fwLoop true choose ne (offdiag A) u v = some c' := by
    intro k c hw
    cases k with
    | zero => exact absurd (wwalk_zero.1 hw).2 huv
    | succ k =>
      apply hinv.complete u v c huv
      apply iwalk_of_walk _ hw
      intro x u v a b h1 h2
      exact Or.inr (by simpa using hne x u v a b h1 h2)
  constructor
  · intro hc
    refine ⟨hinv.sound u v c hc, fun k c' hw => ?_⟩
    obtain ⟨c'', h1, h2⟩ := hall hw
    rw [hc] at h2; cases h2; exact h1
  · rintro ⟨⟨k, hw⟩, hm⟩
    obtain ⟨c', h1, h2⟩ := hall hw
    obtain ⟨k', hw'⟩ := hinv.sound u v c' h2
    rw [h2, le_antisymm h1 (hm _ _ hw')]

/-- distances are exact, for both kinds of graphs and any choice of the `any` operator -/
theorem dist_spec {A : Mat n n α} (directed : Bool) (hs : directed = false → ∀ i j, A i j = A j i)
    (hno : ∀ x, ¬ NegCycleAt (MW A) x) (choose : α → α → α) {u v : Fin n} {c : α} :
    fwDist directed choose A u v = some c ↔ IsWDist (MW A) u c v := by
  have hloop : ∀ x a, WReach (MW A) u x → MW A x x a → 0 ≤ a := by
    intro x a _ ha
    by_contra h0
    exact hno x ⟨1, a, .single ha, not_le.1 h0⟩
  have hno' : ∀ x, ¬ NegCycleAt (MW (offdiag A)) x := by
    rintro x ⟨k, c, hw, hc⟩
    rw [mw_offdiag'] at hw
    exact hno x ⟨k, c, hw.of_offLoop, hc⟩
  rw [← isWDist_offLoop hloop, ← mw_offdiag']
  by_cases huv : u = v
  · subst huv
    simp only [fwDist, fwFinish, if_true, Option.some.injEq]
    constructor
    · rintro rfl
      refine ⟨⟨0, .nil u⟩, fun k c hw => ?_⟩
      by_contra h0
      exact hno' u ⟨k, c, hw, not_le.1 h0⟩
    · rintro ⟨⟨k, hw⟩, hm⟩
      apply le_antisymm _ (hm 0 0 (.nil u))
      by_contra h0
      exact hno' u ⟨k, c, hw, not_le.1 h0⟩
  · rw [← loop_dist hno' choose (fwNonempty directed A) (nonempty_ok directed A) huv]
    cases directed with
    | true => simp [fwDist, fwFinish, fwStart, huv]
    | false =>
      simp only [fwDist, fwFinish, fwStart, huv, Bool.false_eq_true, if_false]
      obtain ⟨h1, h2⟩ := loopU (upper_triu1 A) choose
        ((List.finRange n).filter (fwNonempty false A))
      have : madd choose (fwLoop false choose (fwNonempty false A) (triu1 A))
          (transpose (fwLoop false choose (fwNonempty false A) (triu1 A))) u v =
          symU (fwLoop false choose (fwNonempty false A) (triu1 A)) u v :=
        merge_upper h1 choose u v
      rw [this]
      change symU (List.foldl _ _ _) u v = _ ↔ _
      rw [h2, symU_triu1 (hs rfl)]
      rfl

/-! ### predecessors, directed -/

omit [IsOrderedAddMonoid α] in
theorem improve_some {Outer D : Mat n n α} {a b : Fin n} {c : α} :
    fwImprove true Outer D a b = some c ↔
      Outer a b = some c ∧ ((D a b = none ∧ a ≠ b) ∨ ∃ x, D a b = some x ∧ c < x) := by
  unfold fwImprove
  cases Outer a b with
  | none => simp
  | some o =>
    cases D a b with
    | none =>
      by_cases hab : a = b <;> simp [hab]
    | some x =>
      by_cases hx : o < x
      · simp [hx, second]; rintro rfl; exact hx
      · simp [hx, second]; rintro rfl; exact not_lt.1 hx

section
omit [AddCommGroup α] [LinearOrder α] [IsOrderedAddMonoid α]
theorem massign_some {β γ : Type} {O : Mat n n β} {V T : Mat n n γ} {a b : Fin n} {c : β}
    (h : O a b = some c) : massign (mS O) V T a b = T a b := by simp [massign, mS, h]
theorem massign_none {β γ : Type} {O : Mat n n β} {V T : Mat n n γ} {a b : Fin n}
    (h : O a b = none) : massign (mS O) V T a b = V a b := by simp [massign, mS, h]
end

/-- parents: the last edge of a walk of the recorded weight -/
def PInv (W : Fin n → Fin n → α → Prop) (D : Mat n n α) (P : Mat n n (Fin n)) : Prop :=
  (∀ u v, (P u v).isSome ↔ (D u v).isSome) ∧
  ∀ u v c, D u v = some c → ∃ q w c1 k, P u v = some q ∧ W q v w ∧ WWalk W k c1 u q ∧ c1 + w = c

omit [IsOrderedAddMonoid α] in
theorem stepP_fst {D : Mat n n α} {P : Mat n n (Fin n)} (hd : ∀ u, D u u = none) (choose chooseP) (i : Fin n) :
    (fwStepP true choose chooseP (D, P) i).1 = fwStep true choose D i := by
  funext a b
  simp only [fwStepP, fwStep, if_true, madd]
  cases hi : fwImprove true (fwOuter D i) D a b with
  | some c =>
    rw [massign_some hi, hi]
    obtain ⟨h1, h2⟩ := improve_some.1 hi
    have hab : a ≠ b := by
      rcases h2 with ⟨-, h⟩ | ⟨x, hx, -⟩
      · exact h
      · rintro rfl; rw [hd a] at hx; cases hx
    simp only [offdiag, hab, if_false, h1]
    rcases h2 with ⟨h3, -⟩ | ⟨x, hx, hlt⟩
    · rw [h3]; rfl
    · rw [hx]; simp [min_eq_right hlt.le]
  | none =>
    rw [massign_none hi]
    unfold offdiag
    split
    · simp
    · rename_i hab
      cases ho : fwOuter D i a b with
      | none => simp
      | some o =>
        cases hx : D a b with
        | none =>
          rw [improve_some.2 ⟨ho, Or.inl ⟨hx, hab⟩⟩] at hi; cases hi
        | some x =>
          have : ¬ o < x := by
            intro hlt
            rw [improve_some.2 ⟨ho, Or.inr ⟨x, hx, hlt⟩⟩] at hi; cases hi
          simp [min_eq_left (not_lt.1 this)]

omit [IsOrderedAddMonoid α] in
theorem stepP {D : Mat n n α} {P : Mat n n (Fin n)} (hd : ∀ u, D u u = none) (h : PInv W D P)
    (choose chooseP) (i : Fin n) :
    (fwStepP true choose chooseP (D, P) i).1 = fwStep true choose D i ∧
    PInv W (fwStep true choose D i) (fwStepP true choose chooseP (D, P) i).2 := by
  have e1 := stepP_fst (P := P) hd choose chooseP i
  refine ⟨e1, ?_⟩
  rw [← e1]
  simp only [fwStepP, if_true]
  constructor
  · intro u v
    cases hi : fwImprove true (fwOuter D i) D u v with
    | some c =>
      rw [massign_some hi, massign_some hi, hi]
      obtain ⟨ho, -⟩ := improve_some.1 hi
      obtain ⟨x, y, hx, hy, -⟩ := ointer_eq_some.1 ho
      refine iff_of_true ?_ rfl
      rw [isSome_ointer, hx, (h.1 i v).2 (by rw [hy]; rfl)]
      rfl
    | none => rw [massign_none hi, massign_none hi]; exact h.1 u v
  · intro u v c
    cases hi : fwImprove true (fwOuter D i) D u v with
    | some c' =>
      rw [massign_some hi, massign_some hi]
      intro hc
      obtain ⟨ho, -⟩ := improve_some.1 hc
      obtain ⟨x, y, hx, hy, rfl⟩ := ointer_eq_some.1 ho
      obtain ⟨q, w, c1, k, h1, h2, h3, h4⟩ := h.2 i v y hy
      obtain ⟨q', w', c1', k', h1', h2', h3', h4'⟩ := h.2 u i x hx
      refine ⟨q, w, x + c1, k' + 1 + k, ?_, h2, ?_, ?_⟩
      · rw [hx, h1]; rfl
      · exact (h4' ▸ h3'.snoc h2').append h3
      · rw [add_assoc, h4]
    | none => rw [massign_none hi, massign_none hi]; exact h.2 u v c

theorem loopP (hno : ∀ x, ¬ NegCycleAt W x) (choose chooseP) (l : List (Fin n)) {D : Mat n n α}
    {P : Mat n n (Fin n)} (hi : Inv W I D) (h : PInv W D P) :
    (l.foldl (fwStepP true choose chooseP) (D, P)).1 = l.foldl (fwStep true choose) D ∧
    PInv W (l.foldl (fwStep true choose) D) (l.foldl (fwStepP true choose chooseP) (D, P)).2 := by
  induction l generalizing I D P with
  | nil => exact ⟨rfl, h⟩
  | cons x l ih =>
    obtain ⟨h1, h2⟩ := stepP hi.diag h choose chooseP x
    simp only [List.foldl_cons]
    have e : fwStepP true choose chooseP (D, P) x =
        (fwStep true choose D x, (fwStepP true choose chooseP (D, P) x).2) := by
      rw [← h1]
    rw [e]
    exact ih (step hno hi choose x) h2

/-- directed predecessors -/
theorem pred_spec {A : Mat n n α} (hno : ∀ x, ¬ NegCycleAt (MW A) x) (choose chooseP) :
    (fwPred true choose chooseP A).2 = fwDist true choose A ∧
    ∀ u v c, u ≠ v → IsWDist (MW A) u c v →
      ∃ q w c1, (fwPred true choose chooseP A).1 u v = some q ∧ MW A q v w ∧
        IsWDist (MW A) u c1 q ∧ c1 + w = c := by
  have hno' : ∀ x, ¬ NegCycleAt (MW (offdiag A)) x := by
    rintro x ⟨k, c, hw, hc⟩
    rw [mw_offdiag'] at hw
    exact hno x ⟨k, c, hw.of_offLoop, hc⟩
  have hinit : PInv (MW (offdiag A)) (offdiag A)
      (fun a b => (offdiag A a b).map fun _ => a) := by
    refine ⟨fun u v => by simp, fun u v c hc => ⟨u, c, 0, 0, by simp [hc], hc, .nil u, zero_add c⟩⟩
  obtain ⟨h1, h2⟩ := loopP hno' choose chooseP ((List.finRange n).filter (fwNonempty true A))
    (inv_start A) hinit
  constructor
  · simp only [fwPred, fwStart, if_true, fwDist]
    rw [h1]; rfl
  · intro u v c huv hc
    have hd : fwLoop true choose (fwNonempty true A) (offdiag A) u v = some c := by
      have := (dist_spec true (by simp) hno choose).2 hc
      simpa [fwDist, fwFinish, fwStart, huv] using this
    obtain ⟨q, w, c1, k, e1, e2, e3, e4⟩ := h2.2 u v c hd
    rw [mw_offdiag] at e2
    rw [mw_offdiag'] at e3
    refine ⟨q, w, c1, ?_, e2.2, ⟨⟨k, e3.of_offLoop⟩, fun k' c' hw => ?_⟩, e4⟩
    · simp only [fwPred, fwStart, if_true]
      exact e1
    · have := hc.2 _ _ (hw.snoc e2.2)
      rw [← e4] at this
      exact le_of_add_le_add_right this

end Proofs.FW
