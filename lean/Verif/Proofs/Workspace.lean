import Verif.Model.Workspace
import Verif.GB.Lemmas

open GB Model

namespace Proofs.Ws

open Model.Workspace

variable {V α : Type} {n : Nat}

/-! ## floyd_warshall -/

section
variable [Add V] [LinearOrder V]

theorem pass_dist (directed shared : Bool) (choose : V → V → V) (s : FW n V) (i : Fin n)
    (hc : directed = true → s.col = 1) :
    (fwPass directed false shared choose s i).D = fwStep directed choose s.D i ∧
      (directed = true → (fwPass directed false shared choose s i).col = 1) := by
  cases directed
  · refine ⟨?_, fun h => by cases h⟩
    simp [fwPass, fwRow, fwColView, fwOuterW, fwMin, fwStep, Function.update]
    rfl
  · refine ⟨?_, fun _ => hc rfl⟩
    simp [fwPass, fwRow, fwColOwn, fwOuterW, fwMin, fwStep, Function.update, hc rfl]
    rfl

theorem run_dist (directed shared : Bool) (choose : V → V → V) (l : List (Fin n)) :
    ∀ (s : FW n V), (directed = true → s.col = 1) →
    (l.foldl (fwPass directed false shared choose) s).D = l.foldl (fwStep directed choose) s.D := by
  induction l with
  | nil => exact fun s _ => rfl
  | cons i l ih =>
    intro s hc
    rw [List.foldl_cons, List.foldl_cons, ih _ (pass_dist directed shared choose s i hc).2,
      (pass_dist directed shared choose s i hc).1]

theorem close_dist [Zero V] (directed : Bool) (choose : V → V → V) (s : FW n V) :
    (fwClose directed choose s).2 = fwFinish directed choose s.D := by
  funext a b
  simp only [fwClose, fwFinish, massignC]
  by_cases h : a = b <;> simp [h]

theorem omerge_map {β γ : Type} (f : β → γ) (op : β → β → β) (op' : γ → γ → γ)
    (h : ∀ a b, f (op a b) = op' (f a) (f b)) (x y : Option β) :
    omerge op' (x.map f) (y.map f) = (omerge op x y).map f := by
  cases x <;> cases y <;> simp [omerge, h]

theorem ointer_second_map {β γ δ : Type} (f : β → γ) (g : δ → δ) (x : Option δ) (y : Option β) :
    ointer second x (y.map f) = (ointer second x y).map f := by
  cases x <;> cases y <;> rfl

/-- one pass with predecessors, whether `P_row` is `Row` or not -/
theorem pass_pred (directed shared : Bool) (choose : V → V → V) (chooseP : Fin n → Fin n → Fin n)
    (idx : Fin n → V) (hch : ∀ a b, idx (chooseP a b) = choose (idx a) (idx b))
    (s : FW n V) (P : Mat n n (Fin n)) (hP : s.P = mapply idx P) (i : Fin n)
    (hc : directed = true → s.col = 1) :
    (fwPass directed true shared choose s i).D = (fwStepP directed choose chooseP (s.D, P) i).1 ∧
      (fwPass directed true shared choose s i).P =
        mapply idx (fwStepP directed choose chooseP (s.D, P) i).2 ∧
      (directed = true → (fwPass directed true shared choose s i).col = 1) := by
  cases directed
  · refine ⟨?_, ?_, fun h => by cases h⟩
    · cases shared <;>
        simp [fwPass, fwRow, fwColView, fwOuterW, fwMask1, fwMask2, fwOuterMask, Workspace.fwDist, fwPRow,
          fwPView, Workspace.fwPred, fwStepP, Function.update] <;> rfl
    · have key : ∀ (q : Bool), (fwPass false true q choose s i).P = fun a b =>
          if mS (fwImprove false (fwOuterU choose s.D i) s.D) a b then
            ointer second (omerge choose (s.P i a) (s.P a i)) (omerge choose (s.P i b) (s.P b i))
          else s.P a b := by
        intro q
        cases q <;>
          simp [fwPass, fwRow, fwColView, fwOuterW, fwMask1, fwMask2, fwOuterMask, Workspace.fwDist, fwPRow,
            fwPView, Workspace.fwPred, pRow, Function.update] <;> rfl
      rw [key]
      funext a b
      simp only [fwStepP, mapply, hP, Bool.false_eq_true, if_false]
      simp only [massign]
      rw [omerge_map idx chooseP choose hch, omerge_map idx chooseP choose hch]
      by_cases hI : mS (fwImprove false (fwOuterU choose s.D i) s.D) a b = true
      · rw [if_pos hI, if_pos hI]
        generalize omerge chooseP (P i a) (P a i) = x
        generalize omerge chooseP (P i b) (P b i) = y
        cases x <;> cases y <;> rfl
      · rw [if_neg hI, if_neg hI]
  · refine ⟨?_, ?_, fun _ => ?_⟩
    · have hc' := hc rfl
      obtain ⟨D, P, O, M, v, c⟩ := s
      dsimp only at hc'
      subst hc'
      cases shared <;> rfl
    · have hc' := hc rfl
      have key : ∀ (q : Bool), (fwPass true true q choose s i).P = fun a b =>
          if mS (fwImprove true (fwOuter s.D i) s.D) a b then
            ointer second (s.D a i) (s.P i b)
          else s.P a b := by
        intro q
        obtain ⟨D, P, O, M, v, c⟩ := s
        dsimp only at hc'
        subst hc'
        cases q <;> rfl
      rw [key]
      funext a b
      simp only [fwStepP, mapply, hP, if_true]
      simp only [massign]
      by_cases hI : mS (fwImprove true (fwOuter s.D i) s.D) a b = true
      · rw [if_pos hI, if_pos hI]
        generalize s.D a i = x
        generalize P i b = y
        cases x <;> cases y <;> rfl
      · rw [if_neg hI, if_neg hI]
    · exact hc rfl

theorem run_pred (directed shared : Bool) (choose : V → V → V) (chooseP : Fin n → Fin n → Fin n)
    (idx : Fin n → V) (hch : ∀ a b, idx (chooseP a b) = choose (idx a) (idx b)) (l : List (Fin n)) :
    ∀ (s : FW n V) (P : Mat n n (Fin n)), s.P = mapply idx P → (directed = true → s.col = 1) →
    (l.foldl (fwPass directed true shared choose) s).D =
        (l.foldl (fwStepP directed choose chooseP) (s.D, P)).1 ∧
      (l.foldl (fwPass directed true shared choose) s).P =
        mapply idx (l.foldl (fwStepP directed choose chooseP) (s.D, P)).2 := by
  induction l with
  | nil => exact fun s P hP _ => ⟨rfl, hP⟩
  | cons i l ih =>
    intro s P hP hc
    obtain ⟨h1, h2, h3⟩ := pass_pred directed shared choose chooseP idx hch s P hP i hc
    rw [List.foldl_cons, List.foldl_cons]
    have := ih _ _ h2 h3
    rw [h1] at this
    exact this

end

/-! ## bellman_ford_path -/

section
variable [Zero α] [Add α] [LinearOrder α]

theorem relax_fields (A : Mat n n α) (s : BFP n α) :
    bfpRelax A s = { s with cur := bfRelax A s.cutoff s.prev } := by
  unfold bfpRelax bfRelax
  cases h : s.cutoff <;> simp [h]

theorem update_fields (prune : Option (Fin n)) (s : BFP n α) :
    bfpUpdate prune s = { s with d := vassign (vS s.cur) s.d s.cur, cutoff := bfNextCut prune s.cutoff s.cur } := by
  unfold bfpUpdate bfNextCut
  cases prune <;> rfl

theorem mem_indices (v : Vec n α) (i : Fin n) : i ∈ GB.indices v ↔ (v i).isSome := by
  simp [GB.indices]

/-- one pass: what the next pass reads -/
theorem bfp_pass (A : Mat n n α) (prune : Option (Fin n)) (s : BFP n α)
    (hcols : ∀ i, i ∈ s.cols ↔ (s.prev i).isSome) :
    let t := bfpDrop (bfpMask (bfpRelax A s))
    let u := bfpSwap (bfpParents (bfpMatch (bfpSelect A (bfpUpdate prune t))))
    t.cur = bfRound A s.cutoff s.d s.prev ∧ t.d = s.d ∧ t.p = s.p ∧ t.cutoff = s.cutoff ∧
      t.broke = s.broke ∧
      u.prev = t.cur ∧ u.d = vassign (vS t.cur) s.d t.cur ∧ u.cutoff = bfNextCut prune s.cutoff t.cur ∧
      u.p = vassign (vS (bfParents A s.prev t.cur)) s.p (bfParents A s.prev t.cur) ∧
      u.broke = s.broke ∧ ∀ i, i ∈ u.cols ↔ (u.prev i).isSome := by
  intro t u
  have ht : t = bfpDrop (bfpMask { s with cur := bfRelax A s.cutoff s.prev }) := by
    show bfpDrop (bfpMask (bfpRelax A s)) = _
    rw [relax_fields]
  have htc : t.cur = bfRound A s.cutoff s.d s.prev := by rw [ht]; rfl
  have htd : t.d = s.d := by rw [ht]; rfl
  have htp : t.p = s.p := by rw [ht]; rfl
  have htk : t.cutoff = s.cutoff := by rw [ht]; rfl
  have htb : t.broke = s.broke := by rw [ht]; rfl
  have htv : t.prev = s.prev := by rw [ht]; rfl
  have htl : t.cols = s.cols := by rw [ht]; rfl
  have hu : u = bfpSwap (bfpParents (bfpMatch (bfpSelect A { t with
      d := vassign (vS t.cur) t.d t.cur, cutoff := bfNextCut prune t.cutoff t.cur }))) := by
    show bfpSwap (bfpParents (bfpMatch (bfpSelect A (bfpUpdate prune t)))) = _
    rw [update_fields]
  clear_value t u
  refine ⟨htc, htd, htp, htk, htb, ?_, ?_, ?_, ?_, ?_, ?_⟩
  · rw [hu]; rfl
  · rw [hu, ← htd]; rfl
  · rw [hu, ← htk]; rfl
  · have hI : (bfpParents (bfpMatch (bfpSelect A { t with
        d := vassign (vS t.cur) t.d t.cur, cutoff := bfNextCut prune t.cutoff t.cur }))).indices =
        bfParents A s.prev t.cur := by
      simp only [bfpParents, bfpMatch, bfpSelect, bfParents, mempty, htv, htl]
      congr 3
      funext i j
      congr 2
      simp only [hcols, mem_indices, Bool.and_eq_true]
    rw [hu, ← hI, ← htp]; rfl
  · rw [hu, ← htb]; rfl
  · intro i
    rw [hu]
    exact mem_indices t.cur i

theorem bfpLoop_run (A : Mat n n α) (prune : Option (Fin n)) :
    ∀ (m : Nat) (s : BFP n α), (∀ i, i ∈ s.cols ↔ (s.prev i).isSome) → s.broke = false →
    let r := bfpLoop A prune m s
    let q := bfPathLoop A prune m s.cutoff s.d s.prev s.p
    r.d = q.1.d ∧ r.cutoff = q.1.cut ∧ r.broke = q.1.broke ∧ r.p = q.2 ∧
      (r.broke = true → r.cur = q.1.cur) ∧ (r.broke = false → r.prev = q.1.cur)
  | 0, s, _, hb => ⟨rfl, rfl, hb, rfl, (fun h => by
      have : s.broke = true := h
      rw [hb] at this; cases this), fun _ => rfl⟩
  | m + 1, s, hc, hb => by
    obtain ⟨h1, h2, h3, h4, h5, h6, h7, h8, h9, h10, h11⟩ := bfp_pass A prune s hc
    intro r q
    have hr : r = if nvals (bfRound A s.cutoff s.d s.prev) = 0 then
        { bfpDrop (bfpMask (bfpRelax A s)) with broke := true } else
        bfpLoop A prune m (bfpSwap (bfpParents (bfpMatch (bfpSelect A (bfpUpdate prune
          (bfpDrop (bfpMask (bfpRelax A s)))))))) := by
      show bfpLoop A prune (m + 1) s = _
      rw [bfpLoop, ← h1]
    have hq : q = if nvals (bfRound A s.cutoff s.d s.prev) = 0 then
        (⟨s.d, bfRound A s.cutoff s.d s.prev, s.cutoff, true⟩, s.p)
        else bfPathLoop A prune m (bfNextCut prune s.cutoff (bfRound A s.cutoff s.d s.prev))
          (vassign (vS (bfRound A s.cutoff s.d s.prev)) s.d (bfRound A s.cutoff s.d s.prev))
          (bfRound A s.cutoff s.d s.prev)
          (vassign (vS (bfParents A s.prev (bfRound A s.cutoff s.d s.prev))) s.p
            (bfParents A s.prev (bfRound A s.cutoff s.d s.prev))) := rfl
    rw [hr, hq]
    by_cases h0 : nvals (bfRound A s.cutoff s.d s.prev) = 0
    · rw [if_pos h0, if_pos h0]
      exact ⟨h2, h4, rfl, h3, fun _ => h1, fun h => by cases h⟩
    · rw [if_neg h0, if_neg h0]
      have ih := bfpLoop_run A prune m _ h11 (h10.trans hb)
      rw [h6, h7, h8, h9, h1] at ih
      exact ih

theorem bfpCore_eq (A : Mat n n α) (src dst : Fin n) (w : BFP n α) :
    bfpCore A src dst w = bfPathCore A src dst := by
  obtain ⟨h1, h2, h3, h4, h5, h6⟩ := bfpLoop_run (offdiag A)
    (if hasNegEdgesM A then none else some dst) (n - 1) (bfpAlloc src w)
    (fun i => mem_indices _ i) rfl
  unfold bfpCore bfPathCore
  simp only
  have hR : ∀ q : BFState n α × Vec n (Fin n),
      bfPathLoop (offdiag A) (if hasNegEdgesM A then none else some dst) (n - 1) (bfpAlloc src w).cutoff
        (bfpAlloc src w).d (bfpAlloc src w).prev (bfpAlloc src w).p = q →
      bfPathLoop (offdiag A) (if hasNegEdgesM A then none else some dst) (n - 1) none (vset vempty src 0)
        (vset vempty src 0) (vset vempty src src) = q := fun q h => h
  generalize bfpLoop (offdiag A) (if hasNegEdgesM A then none else some dst) (n - 1) (bfpAlloc src w) = r at *
  generalize hq : bfPathLoop (offdiag A) (if hasNegEdgesM A then none else some dst) (n - 1)
    (bfpAlloc src w).cutoff (bfpAlloc src w).d (bfpAlloc src w).prev (bfpAlloc src w).p = q at *
  rw [hR q rfl]
  clear hR hq
  cases hb : r.broke
  · rw [← h3, hb, ← h4, ← h1, ← h2, ← h6 hb, relax_fields]
    simp only [hb, Bool.false_eq_true, if_false]
    rfl
  · rw [← h3, hb, ← h4, ← h5 hb]
    simp [hb]

end

end Proofs.Ws
