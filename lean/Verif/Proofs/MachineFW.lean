import Verif.Proofs.Machine
import Verif.Proofs.FloydWarshall

/-! Floyd-Warshall on machine integers: while there is no negative cycle every intermediate matrix
stays within `n - 1` edges, so every sum stays within `2 (n - 1)` edges. -/

open GB Model Spec Proofs.BF

namespace Proofs.Mach
open Proofs.FW

section ints
variable {R : Type} [CommRing R] [LinearOrder R] [IsStrictOrderedRing R]
variable {n : Nat} {W : Fin n → Fin n → R → Prop} {I : Fin n → Prop}

theorem cast_le {d : Nat} (h : d < n) : (d : R) ≤ n - 1 := by
  have : ((d + 1 : Nat) : R) ≤ n := Nat.cast_le.2 h
  push_cast at this
  linarith

theorem iwalk_append {J : Fin n → Prop} {c d : R} {u x v : Fin n} (h1 : IWalk W J c u x) (hx : J x)
    (h2 : IWalk W J d x v) : IWalk W J (c + d) u v := by
  induction h2 with
  | single e => exact h1.snoc hx e
  | snoc _ hv e ih => rw [← add_assoc]; exact (ih h1 hx).snoc hv e

theorem iwalk_mono {J : Fin n → Prop} (hIJ : ∀ x, I x → J x) {c : R} {u v : Fin n}
    (h : IWalk W I c u v) : IWalk W J c u v := by
  induction h with
  | single e => exact .single e
  | snoc _ hv e ih => exact ih.snoc (hIJ _ hv) e

/-- a walk through `I` has a version with fewer than `n` edges -/
theorem iwalk_short {U : R} (hW : ∀ u v a, W u v a → a ≤ U) {c : R} {u v : Fin n} (huv : u ≠ v)
    (h : IWalk W I c u v) (hU : 0 ≤ U) : ∃ c', c' ≤ (n - 1 : R) * U ∧ IWalk W I c' u v := by
  let T : Fin n → Fin n → Prop := fun x y => (x = u ∨ I x) ∧ ∃ a, W x y a
  have hwalk : ∃ k, Walk T k u v := by
    clear huv
    induction h with
    | single e => exact ⟨1, Walk.cons ⟨Or.inl rfl, _, e⟩ (Walk.nil _)⟩
    | snoc _ hv e ih =>
      obtain ⟨k, hk⟩ := ih
      exact ⟨k + 1, hk.snoc ⟨Or.inr hv, _, e⟩⟩
  obtain ⟨k, hk⟩ := hwalk
  obtain ⟨d, -, hd⟩ := exists_dist hk
  have hlt : d < n := by simpa using dist_lt_card hd
  have key : ∀ d v, IsDist T u d v → d ≠ 0 → ∃ c', c' ≤ (d : R) * U ∧ IWalk W I c' u v := by
    intro d
    induction d with
    | zero => intro v _ h; exact absurd rfl h
    | succ d ih =>
      intro v hd _
      have h1 := distFrom_succ.1 (isDist_iff_from.1 hd)
      obtain ⟨⟨x, hx, hR, a, ha⟩, -⟩ := h1
      have hx' : IsDist T u d x := isDist_iff_from.2 hx
      by_cases hd0 : d = 0
      · subst hd0
        have : x = u := (distFrom_zero (S := fun y => y = u)).1 hx
        subst this
        exact ⟨a, by have := hW _ _ _ ha; push_cast; linarith, .single ha⟩
      · obtain ⟨c', h2, h3⟩ := ih x hx' hd0
        have hxI : I x := by
          rcases hR with rfl | h
          · exfalso
            have h0 : IsDist T x 0 x := isDist_iff_from.2 (distFrom_zero.2 rfl)
            exact hd0 (dist_unique hx' h0)
          · exact h
        refine ⟨c' + a, ?_, h3.snoc hxI ha⟩
        have := hW _ _ _ ha
        push_cast
        linarith
  have hd0 : d ≠ 0 := by
    rintro rfl
    exact huv ((distFrom_zero (S := fun y => y = u)).1 (isDist_iff_from.1 hd)).symm
  obtain ⟨c', h1, h2⟩ := key d v hd hd0
  refine ⟨c', h1.trans ?_, h2⟩
  exact mul_le_mul_of_nonneg_right (cast_le hlt) hU

/-- `Inv`, and every entry comes from a walk through `I` -/
structure Inv2 (W : Fin n → Fin n → R → Prop) (I : Fin n → Prop) (D : Mat n n R) : Prop where
  inv : Inv W I D
  pat : ∀ u v c, D u v = some c → ∃ c', IWalk W I c' u v

theorem Inv2.step (hno : ∀ x, ¬ NegCycleAt W x) {D : Mat n n R} (h : Inv2 W I D) (choose) (x : Fin n) :
    Inv2 W (fun y => I y ∨ y = x) (fwStep true choose D x) := by
  refine ⟨FW.step hno h.inv choose x, fun u v c hc => ?_⟩
  simp only [fwStep, if_true] at hc
  rcases omerge_min_mem hc with hc | hc
  · obtain ⟨c', hc'⟩ := h.pat u v c hc
    exact ⟨c', iwalk_mono (fun _ => Or.inl) hc'⟩
  · unfold offdiag at hc
    split at hc
    · cases hc
    · obtain ⟨a, b, ha, hb, rfl⟩ := ointer_eq_some.1 hc
      obtain ⟨c1, h1⟩ := h.pat _ _ _ ha
      obtain ⟨c2, h2⟩ := h.pat _ _ _ hb
      exact ⟨c1 + c2, iwalk_append (iwalk_mono (fun _ => Or.inl) h1) (Or.inr rfl)
        (iwalk_mono (fun _ => Or.inl) h2)⟩

theorem walk_low {L : R} (hW : ∀ u v a, W u v a → L ≤ a) {k : Nat} {c : R}
    {u v : Fin n} (h : WWalk W k c u v) : k * L ≤ c := by
  induction h with
  | nil => simp
  | snoc _ e ih => have := hW _ _ _ e; push_cast; linarith

theorem Inv2.bounds (hno : ∀ x, ¬ NegCycleAt W x) {D : Mat n n R} (h : Inv2 W I D) {L U : R}
    (hW : ∀ u v a, W u v a → L ≤ a ∧ a ≤ U) (hL : L ≤ 0) (hU : 0 ≤ U) {u v : Fin n} {c : R}
    (hc : D u v = some c) : (n - 1 : R) * L ≤ c ∧ c ≤ (n - 1 : R) * U := by
  have huv : u ≠ v := by rintro rfl; rw [h.inv.diag] at hc; cases hc
  constructor
  · obtain ⟨k, hk⟩ := h.inv.sound u v c hc
    obtain ⟨k', c', h1, -, h3, h4⟩ := shorten (S := fun _ => True) (fun s x _ _ hn => hno x hn) trivial hk
    have h5 := walk_low (fun u v a e => (hW u v a e).1) h4
    have h6 : k' < n := by simpa using h1
    have : (n - 1 : R) * L ≤ k' * L := mul_le_mul_of_nonpos_right (cast_le h6) hL
    linarith
  · obtain ⟨c', h1⟩ := h.pat u v c hc
    obtain ⟨c2, h2, h3⟩ := iwalk_short (fun u v a e => (hW u v a e).2) huv h1 hU
    obtain ⟨c3, h4, h5⟩ := h.inv.complete u v c2 huv h3
    rw [hc] at h5
    cases h5
    linarith
end ints

variable {K β : Type} {n : Nat} [AddCommGroup β] [LinearOrder β] {val : β → Int} {lo hi L U : Int}
  (hm : Machine β val lo hi)
include hm

theorem fwStep_val {D : Mat n n β} {a b : Int} (hD : InM val a b D) (ha : lo ≤ 2 * a) (hb : 2 * b ≤ hi)
    (choose choose') (x : Fin n) :
    mapply val (fwStep true choose D x) = fwStep true choose' (mapply val D) x := by
  funext u v
  show (omerge min _ _).map val = omerge min _ _
  rw [omerge_map min min val (val_min hm.le_iff)]
  show omerge min _ _ = omerge min (mapply val D u v) _
  congr 1
  show mapply val (offdiag (fwOuter D x)) u v = _
  rw [offdiag_apply]
  congr 1
  funext u v
  show (ointer _ (D u x) (D x v)).map val = ointer _ ((D u x).map val) ((D x v).map val)
  cases h1 : D u x with
  | none => rfl
  | some p =>
    cases h2 : D x v with
    | none => rfl
    | some q =>
      have b1 := hD _ _ _ h1
      have b2 := hD _ _ _ h2
      simp [ointer, hm.add p q (by omega) (by omega)]

omit [AddCommGroup β] [LinearOrder β] hm in
theorem mw_val {γ : Type} {val : β → γ} {A : Mat n n β} {u v : Fin n} {a : γ} :
    MW (mapply val A) u v a ↔ ∃ w, A u v = some w ∧ val w = a := by
  simp [MW, mapply]

/-- the loop over any list of inner nodes -/
theorem fwFold_val {W : Fin n → Fin n → Int → Prop} (hno : ∀ x, ¬ NegCycleAt W x)
    (hW : ∀ u v a, W u v a → L ≤ a ∧ a ≤ U) (hL : L ≤ 0) (hU : 0 ≤ U)
    (hlo : lo ≤ 2 * ((n - 1 : Int) * L)) (hhi : 2 * ((n - 1 : Int) * U) ≤ hi) (choose choose')
    (l : List (Fin n)) {I : Fin n → Prop} {D : Mat n n β} (h : Inv2 W I (mapply val D)) :
    mapply val (l.foldl (fwStep true choose) D) = l.foldl (fwStep true choose') (mapply val D) := by
  induction l generalizing I D with
  | nil => rfl
  | cons x l ih =>
    have hb : InM val ((n - 1 : Int) * L) ((n - 1 : Int) * U) D := by
      intro i j a ha
      exact h.bounds hno hW hL hU (c := val a) (u := i) (v := j) (by simp [mapply, ha])
    have e := fwStep_val hm hb hlo hhi choose choose' x
    simp only [List.foldl_cons]
    rw [ih (I := fun y => I y ∨ y = x) (by rw [e]; exact h.step hno choose' x), e]

omit [AddCommGroup β] [LinearOrder β] hm in
theorem fwNonempty_val {γ : Type} {val : β → γ} (directed : Bool) (A : Mat n n β) :
    fwNonempty directed (mapply val A) = fwNonempty directed A := by
  funext i
  unfold fwNonempty
  rw [← offdiag_apply]
  have a1 : nvals (mapply val (offdiag A) i) = nvals (offdiag A i) := nvals_apply val (offdiag A i)
  have a2 : nvals (transpose (mapply val (offdiag A)) i) = nvals (transpose (offdiag A) i) :=
    nvals_apply val (transpose (offdiag A) i)
  rw [a1, a2]

/-- distances -/
theorem fwDist_val {A : Mat n n β} (hA : InM val L U A) (hL : L ≤ 0) (hU : 0 ≤ U)
    (hlo : lo ≤ 2 * ((n - 1 : Int) * L)) (hhi : 2 * ((n - 1 : Int) * U) ≤ hi)
    (directed : Bool) (hs : directed = false → ∀ i j, A i j = A j i)
    (hno : ∀ x, ¬ NegCycleAt (MW (mapply val A)) x) (choose choose') :
    mapply val (fwDist directed choose A) = fwDist directed choose' (mapply val A) := by
  have hno' : ∀ x, ¬ NegCycleAt (MW (offdiag (mapply val A))) x := by
    rintro x ⟨k, c, hw, hc⟩
    rw [mw_offdiag'] at hw
    exact hno x ⟨k, c, hw.of_offLoop, hc⟩
  have hW : ∀ u v a, MW (offdiag (mapply val A)) u v a → L ≤ a ∧ a ≤ U := by
    intro u v a h
    rw [← offdiag_apply, mw_val] at h
    obtain ⟨w, h1, rfl⟩ := h
    exact In.offdiag hA _ _ _ h1
  have hstart : Inv2 (MW (offdiag (mapply val A))) (fun _ => False) (mapply val (offdiag A)) := by
    rw [offdiag_apply]
    exact ⟨inv_start _, fun u v c hc => ⟨c, .single hc⟩⟩
  have hfold := fun l => fwFold_val hm hno' hW hL hU hlo hhi choose choose' l hstart
  rw [offdiag_apply] at hfold
  cases directed with
  | true =>
    funext u v
    show ((fwDist true choose A) u v).map val = _
    simp only [fwDist, fwFinish, fwStart, if_true, fwLoop]
    rw [fwNonempty_val, ← hfold]
    split
    · simp [hm.zero]
    · rfl
  | false =>
    have hs' : ∀ i j, mapply val A i j = mapply val A j i := fun i j => by
      simp [mapply, hs rfl i j]
    funext u v
    show ((fwDist false choose A) u v).map val = _
    simp only [fwDist, fwFinish, fwStart, Bool.false_eq_true, if_false, fwLoop]
    rw [fwNonempty_val]
    generalize (List.finRange n).filter (fwNonempty false A) = l at *
    obtain ⟨h1, h2⟩ := loopU (upper_triu1 A) choose l
    obtain ⟨h3, h4⟩ := loopU (upper_triu1 (mapply val A)) choose' l
    rw [symU_triu1 (hs rfl)] at h2
    rw [symU_triu1 hs'] at h4
    split
    · simp [hm.zero]
    · have e1 : madd choose (l.foldl (fwStep false choose) (triu1 A))
          (transpose (l.foldl (fwStep false choose) (triu1 A))) u v = symU _ u v :=
        merge_upper h1 choose u v
      have e2 : madd choose' (l.foldl (fwStep false choose') (triu1 (mapply val A)))
          (transpose (l.foldl (fwStep false choose') (triu1 (mapply val A)))) u v = symU _ u v :=
        merge_upper h3 choose' u v
      rw [e1, e2, h2, h4, ← hfold]
      rfl

end Proofs.Mach
