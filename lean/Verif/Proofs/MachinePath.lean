import Verif.Proofs.MachineFW
import Verif.Model.BellmanFordPath

/-! `bellman_ford_path` on machine integers: if nothing overflows, the very same list as on the integers. -/

open GB Model

namespace Proofs.Mach

variable {K : Type} {n : Nat}

/-! ## what reads only the pattern -/

section
variable {α γ : Type}

theorem plainLoop_pattern (f : α → γ) (A : Mat n n α) (dst : Option (Fin n)) (l : List Nat)
    (v q : Vec n Bool) : bfsPlainLoop (mapply f A) dst l v q = bfsPlainLoop A dst l v q := by
  induction l generalizing v q with
  | nil => rfl
  | cons i l ih => simp only [bfsPlainLoop, bfsStep_pattern, ih]

theorem plainFrom_pattern (f : α → γ) (A : Mat n n α) (s : List (Fin n)) (dst : Option (Fin n))
    (c : Option Int) : bfsPlainFrom (mapply f A) s dst c = bfsPlainFrom A s dst c :=
  plainLoop_pattern _ _ _ _ _ _

theorem parentLoop_pattern (f : α → γ) (A : Mat n n α) (dst : Option (Fin n)) (l : List Nat)
    (v q : Vec n (Fin n)) : bfsParentLoop (mapply f A) dst l v q = bfsParentLoop A dst l v q := by
  induction l generalizing v q with
  | nil => rfl
  | cons i l ih =>
    have e : vxm min first q (mapply f A) = vxm min first q A := by
      funext j
      show reduce min _ = reduce min _
      congr 1
      funext i
      unfold mapply
      cases q i <;> cases A i j <;> rfl
    simp only [bfsParentLoop, e, ih]

theorem nvals_congr {δ ε : Type*} {v : Vec n δ} {w : Vec n ε} (h : ∀ i, (v i).isSome = (w i).isSome) :
    nvals v = nvals w := by
  unfold nvals; simp only [h]

theorem indices_congr {δ ε : Type} {v : Vec n δ} {w : Vec n ε} (h : ∀ i, (v i).isSome = (w i).isSome) :
    indices v = indices w := by
  unfold indices; simp only [h]

theorem pathDiag_pattern (f : α → γ) (A : Mat n n α) (dst : Fin n) (path : List (Fin n)) (cur : Vec n α) :
    bfPathDiag (mapply f A) dst path (vapply f cur) = bfPathDiag A dst path cur := by
  unfold bfPathDiag
  simp only
  have e1 : nvals (vassignR (vS (vofIds path true)) (diagVec (mapply f A))) =
      nvals (vassignR (vS (vofIds path true)) (diagVec A)) := by
    apply nvals_congr
    intro i
    unfold vassignR
    split
    · simp [diagVec, mapply]
    · rfl
  have e2 : vmul first (vofIds path true) (vapply f cur) = vmul first (vofIds path true) cur := by
    funext i
    unfold vmul vapply
    cases vofIds path true i <;> cases cur i <;> rfl
  rw [e1, e2]
  simp only [← offdiag_apply, plainFrom_pattern]

end

section
variable {β : Type} [AddCommGroup β] [LinearOrder β] {val : β → Int} {lo hi L U : Int}
  (hm : Machine β val lo hi)
include hm

theorem parents_val {A : Mat n n β} {prev cur : Vec n β} {L' U' : Int}
    (hA : InM val L U A) (hc : In val L' U' prev) (hlo : lo ≤ L' + L) (hhi : U' + U ≤ hi) :
    bfParents (mapply val A) (vapply val prev) (vapply val cur) = bfParents A prev cur := by
  unfold bfParents
  simp only
  congr 1
  funext i j
  simp only [mselect, vapply, mapply, Option.isSome_map]
  cases h1 : prev i with
  | none => rfl
  | some a =>
    cases h2 : cur j with
    | none => cases A i j <;> rfl
    | some b =>
      cases h3 : A i j with
      | none => rfl
      | some w =>
        have b1 := hc i a h1
        have b2 := hA i j w h3
        have e := hm.add a w (by omega) (by omega)
        by_cases hab : a + w = b
        · have h4 : val a + val w = val b := by rw [← e, hab]
          simp [ointer, Option.filter, h4, hab]
        · have h4 : ¬ val a + val w = val b := by rw [← e, inj hm.le_iff]; exact hab
          simp [ointer, Option.filter, h4, hab]

/-- the loop with the parents -/
theorem pathLoop_val {A : Mat n n β} (hA : InM val L U A) (hL : L ≤ 0) (hU : 0 ≤ U)
    (prune : Option (Fin n)) (m t : Nat) (hlo : lo ≤ (t + m : Int) * L) (hhi : (t + m : Int) * U ≤ hi)
    (cut : Option β) (d cur : Vec n β) (p : Vec n (Fin n)) (hc : In val (t * L) (t * U) cur) :
    bfPathLoop (mapply val A) prune m (cut.map val) (vapply val d) (vapply val cur) p =
      (stVal val (bfPathLoop A prune m cut d cur p).1, (bfPathLoop A prune m cut d cur p).2) ∧
    In val ((t + m : Int) * L) ((t + m : Int) * U) (bfPathLoop A prune m cut d cur p).1.cur := by
  induction m generalizing t cut d cur p with
  | zero => refine ⟨rfl, ?_⟩; simpa [bfPathLoop] using hc
  | succ m ih =>
    have hlo1 : lo ≤ t * L + L := by
      have : (t + (m + 1 : Nat) : Int) * L = (t * L + L) + m * L := by push_cast; ring
      have h2 : (m : Int) * L ≤ 0 := mul_nonpos_of_nonneg_of_nonpos (by omega) hL
      omega
    have hhi1 : t * U + U ≤ hi := by
      have : (t + (m + 1 : Nat) : Int) * U = (t * U + U) + m * U := by push_cast; ring
      have h2 : 0 ≤ (m : Int) * U := mul_nonneg (by omega) hU
      omega
    obtain ⟨e1, e2⟩ := round_val (cut := cut) (d := d) hm hA hc hlo1 hhi1
    have e2' : In val (((t + 1 : Nat) : Int) * L) (((t + 1 : Nat) : Int) * U) (bfRound A cut d cur) := by
      intro i a ha
      have := e2 i a ha
      push_cast
      constructor <;> nlinarith
    have e3 := parents_val (cur := bfRound A cut d cur) hm hA hc hlo1 hhi1
    simp only [bfPathLoop]
    rw [← e1, nvals_apply, e3]
    by_cases h0 : nvals (bfRound A cut d cur) = 0
    · rw [if_pos h0, if_pos h0]
      refine ⟨rfl, ?_⟩
      intro i a ha
      have := (nvals_eq_zero.1 h0) i
      exact absurd (this.symm.trans ha) (by simp)
    · rw [if_neg h0, if_neg h0]
      have := ih (t + 1) (by push_cast at hlo ⊢; convert hlo using 2; ring)
        (by push_cast at hhi ⊢; convert hhi using 2; ring)
        (bfNextCut prune cut (bfRound A cut d cur))
        (vassign (vS (bfRound A cut d cur)) d (bfRound A cut d cur)) _
        (vassign (vS (bfParents A cur (bfRound A cut d cur))) p (bfParents A cur (bfRound A cut d cur))) e2'
      rw [nextCut_val, assign_apply] at this
      rw [vS_apply]
      refine ⟨this.1, ?_⟩
      have h2 := this.2
      push_cast at h2 ⊢
      convert h2 using 2 <;> ring

/-- the whole computation -/
theorem path_core_val {A : Mat n n β} (hA : InM val L U A) (hL : L ≤ 0) (hU : 0 ≤ U)
    (hlo : lo ≤ n * L) (hhi : n * U ≤ hi) (src dst : Fin n) :
    bfPathCore (mapply val A) src dst = bfPathCore A src dst := by
  have hn : 1 ≤ n := src.pos
  have hO := In.offdiag hA
  have hl := pathLoop_val hm hO hL hU (if hasNegEdgesM A then none else some dst) (n - 1) 0
    (by
      have : ((0 : Nat) + (n - 1 : Nat) : Int) = n - 1 := by omega
      rw [this]; nlinarith)
    (by
      have : ((0 : Nat) + (n - 1 : Nat) : Int) = n - 1 := by omega
      rw [this]; nlinarith)
    none (vset vempty src 0) (vset vempty src 0) (vset vempty src src)
    (by
      intro i a ha
      simp only [vset, vempty] at ha
      split at ha
      · cases ha; simp [hm.zero]
      · cases ha)
  obtain ⟨e1, e2⟩ := hl
  rw [vset_apply, hm.zero, offdiag_apply] at e1
  have hv : vapply val (vempty : Vec n β) = vempty := rfl
  rw [hv] at e1
  have h0 : ((0 : Nat) + (n - 1 : Nat) : Int) = n - 1 := by omega
  rw [h0] at e2
  unfold bfPathCore
  simp only
  rw [← hasNegEdgesM_val hm, ← hasNegDiag_val hm]
  have e1' : bfPathLoop (offdiag (mapply val A)) (if hasNegEdgesM A = true then none else some dst) (n - 1) none
      (vset vempty src 0) (vset vempty src 0) (vset vempty src src) = _ := e1
  rw [e1']
  generalize bfPathLoop (GB.offdiag A) (if hasNegEdgesM A = true then none else some dst) (n - 1) none
      (vset vempty src 0) (vset vempty src 0) (vset vempty src src) = res at *
  obtain ⟨st, p⟩ := res
  simp only [stVal] at *
  rw [← offdiag_apply]
  have hi' := improved_val (cut := st.cut) (d := st.d) hm hO e2 (by nlinarith) (by nlinarith)
  have hr' := (relax_val (cut := st.cut) hm hO e2 (by nlinarith) (by nlinarith)).1
  refine if_congr (Eq.to_iff (by rw [hi'])) rfl ?_
  · rw [← hr']
    congr 1
    funext path
    split
    · congr 1
      refine Eq.trans (congrArg (bfPathDiag (mapply val A) dst path) ?_) (pathDiag_pattern val A dst path _)
      refine Eq.trans ?_ (apply_ite (vapply val) _ _ _).symm
      exact if_congr Iff.rfl rfl rfl
    · rfl

variable [DecidableEq K]

omit hm [AddCommGroup β] [LinearOrder β] in
theorem bfsParent_pattern {γ : Type} (f : β → γ) (G : Graph K β) (s : K) (t : Option K) :
    bfsParent { G with A := mapply f G.A } s t = bfsParent G s t := by
  show (do
    let index ← G.getId s
    let dst ← match t with
      | none => pure none
      | some t => do let d ← G.getId t; pure (some d)
    return bfsParentLoop (offdiag (mapply f G.A)) dst (range1 (getCutoff G.n none))
      (vset vempty index index) (vset vempty index index)) = _
  rw [← offdiag_apply]
  simp only [parentLoop_pattern]
  rfl

theorem path_val {G : Graph K β} {iso : Option β} (hf : Fits val lo hi L U G iso) (s t : K) :
    bellmanFordPath (G.ints val) (iso.map val) s t = bellmanFordPath G iso s t := by
  have key : ∀ src dst : Fin G.n,
      bfPathIds (G.ints val) (iso.map val) s t src dst = bfPathIds G iso s t src dst := by
    intro src dst
    cases iso with
    | none => exact path_core_val hm hf.mat hf.neg hf.pos hf.low hf.high src dst
    | some c =>
      have h1 : hasNegEdgesP (G.ints val).A = hasNegEdgesP G.A := (hasNegEdgesP_val hm G.A).symm
      have h2 : bfsParent (G.ints val) s (some t) = bfsParent G s (some t) :=
        bfsParent_pattern val G s (some t)
      show (if !hasNegEdgesP (G.ints val).A then _ else _) = (if !hasNegEdgesP G.A then _ else _)
      refine if_congr (Eq.to_iff (by rw [h1])) ?_ rfl
      exact congrArg (· >>= fun p => reconstructPath p src dst) h2
  show ((G.getId s) >>= fun src => (G.getId t) >>= fun dst =>
    bfPathIds (G.ints val) (iso.map val) s t src dst >>= fun path => path.mapM fun i => _) = _
  simp only [key]
  rfl

/-! ## all_pairs_bellman_ford_path_length -/

omit hm [AddCommGroup β] [LinearOrder β] [DecidableEq K] in
theorem map_mapM {α γ δ : Type} (f : γ → δ) (g : α → Except Err γ) (g' : α → Except Err δ)
    (h : ∀ a, (g a).map f = g' a) (l : List α) : (l.mapM g).map (List.map f) = l.mapM g' := by
  induction l with
  | nil => rfl
  | cons a l ih =>
    rw [List.mapM_cons, List.mapM_cons, ← h a, ← ih]
    cases g a with
    | error e => rfl
    | ok x => cases l.mapM g <;> rfl

omit hm [AddCommGroup β] [LinearOrder β] [DecidableEq K] in
theorem map_bind {α γ α' γ' : Type} {f : α → α'} {f' : γ → γ'} {x : Except Err α} {x' : Except Err α'}
    {g : α → Except Err γ} {g' : α' → Except Err γ'} (hx : x.map f = x')
    (hg : ∀ a, (g a).map f' = g' (f a)) : (x >>= g).map f' = x' >>= g' := by
  subst hx
  cases x with
  | error e => rfl
  | ok a => exact hg a

/-- an item of the generator, with the integers the values stand for -/
def itemVal {m : Nat} (val : β → Int) (p : K × Vec m β) : K × Vec m Int := (p.1, vapply val p.2)

theorem allPairs_val {G : Graph K β} {iso : Option β} (hf : Fits val lo hi L U G iso)
    (fd : β → β → Int) (fdZ : Int → Int → Int) (chunksize : Option Int) :
    (allPairsBF G iso fd chunksize).map (List.map (itemVal val)) =
      allPairsBF (G.ints val) (iso.map val) fdZ chunksize := by
  cases chunksize with
  | none =>
    have h1 := lengths_val hm hf (fun i => i)
    unfold allPairsBF
    refine map_bind (f := mapply val) h1 fun D => ?_
    have hfil : ((List.finRange G.n).filter fun i : Fin G.n => decide (nvals (mapply val D i) ≠ 0)) =
        ((List.finRange G.n).filter fun i : Fin G.n => decide (nvals (D i) ≠ 0)) := by
      apply List.filter_congr
      intro i _
      have : nvals (mapply val D i) = nvals (D i) := nvals_apply val (D i)
      rw [this]
    refine Eq.trans ?_ (congrArg (List.mapM _) hfil.symm)
    apply map_mapM
    intro i
    show _ = match G.keyOf i.val with
      | none => (Except.error .keyError : Except Err (K × Vec G.n Int))
      | some u => Except.ok (u, mapply val D i)
    cases G.keyOf i.val <;> rfl
  | some c =>
    unfold allPairsBF
    by_cases hc : c < 2
    · simp only [hc, if_true]
      show _ = (G.keyToId.map Prod.fst).mapM _
      apply map_mapM
      intro u
      have h1 := single_val hm hf (fun x c => val x / val c) (fun x c => x / c) (fun _ _ => rfl) u none
      have h2 : singleSourceBF G iso fd u none = singleSourceBF G iso (fun x c => val x / val c) u none := by
        unfold singleSourceBF; rfl
      have h3 : singleSourceBF (G.ints val) (iso.map val) fdZ u none =
          singleSourceBF (G.ints val) (iso.map val) (fun x c => x / c) u none := by
        unfold singleSourceBF; rfl
      rw [h2]
      refine map_bind (f := vapply val) (h1.trans h3.symm) fun d => rfl
    · simp only [hc, if_false]
      refine map_bind (f := List.map (List.map (itemVal val))) ?_ fun parts => ?_
      · show _ = (partition c (G.keyToId.map Prod.fst)).mapM _
        apply map_mapM
        intro x
        cases x with
        | elem _ => rfl
        | chunk nodes =>
          refine map_bind (f := id) (x' := listToIds (G.ints val) nodes) ?_ fun ids => ?_
          · show (listToIds G nodes).map id = listToIds G nodes
            cases listToIds G nodes <;> rfl
          · refine map_bind (f := mapply val) (lengths_val hm hf fun r : Fin ids.length => ids.get r) fun D => ?_
            show Except.ok _ = Except.ok _
            congr 1
            rw [List.map_filterMap]
            apply List.filterMap_congr
            rintro ⟨u, r⟩ -
            show Option.map (itemVal val) (if h : r < ids.length then some (u, D ⟨r, h⟩) else none) =
              if h : r < ids.length then some (u, mapply val D ⟨r, h⟩) else none
            by_cases hr : r < ids.length
            · rw [dif_pos hr, dif_pos hr]; rfl
            · rw [dif_neg hr, dif_neg hr]; rfl
      · show Except.ok _ = Except.ok _
        rw [List.map_flatten]; rfl

end

/-! ## predecessors of Floyd-Warshall (directed graphs) -/

section
open Spec Proofs.BF Proofs.FW
variable {β : Type} [AddCommGroup β] [LinearOrder β] {val : β → Int} {lo hi L U : Int}
  (hm : Machine β val lo hi)
include hm

theorem fwStepP_val {D : Mat n n β} {P : Mat n n (Fin n)} {a b : Int} (hD : InM val a b D) (ha : lo ≤ 2 * a)
    (hb : 2 * b ≤ hi) (choose choose' chooseP) (x : Fin n) :
    fwStepP true choose' chooseP (mapply val D, P) x =
      (mapply val (fwStepP true choose chooseP (D, P) x).1, (fwStepP true choose chooseP (D, P) x).2) := by
  have hO : mapply val (fwOuter D x) = fwOuter (mapply val D) x := by
    funext u v
    show (ointer _ (D u x) (D x v)).map val = ointer _ ((D u x).map val) ((D x v).map val)
    cases h1 : D u x with
    | none => rfl
    | some p =>
      cases h2 : D x v with
      | none => rfl
      | some q =>
        have b1 := hD _ _ _ h1
        have b2 := hD _ _ _ h2
        simp [ointer, hm.add p q (by omega) (by omega)]
  have hI : fwImprove true (fwOuter (mapply val D) x) (mapply val D) = mapply val (fwImprove true (fwOuter D x) D) := by
    rw [← hO]
    funext u v
    unfold fwImprove
    simp only [mapply]
    cases h1 : fwOuter D x u v with
    | none => simp [omerge, ointer]
    | some p =>
      cases h2 : D u v with
      | none =>
        by_cases huv : u = v <;> simp [ointer, omerge, huv]
      | some q =>
        by_cases hpq : p < q
        · simp [ointer, omerge, second, hpq, (lt_iff hm.le_iff p q).2 hpq]
        · simp [ointer, omerge, second, hpq, mt (lt_iff hm.le_iff p q).1 hpq]
  unfold fwStepP
  simp only [if_true]
  rw [hI, mS_apply]
  refine Prod.ext ?_ ?_
  · exact (massign_apply val _ _ _).symm
  · show massign _ P _ = massign _ P _
    congr 1
    funext u v
    show ointer second ((D u x).map val) _ = ointer second (D u x) _
    cases D u x <;> cases P x v <;> rfl

theorem fwFoldP_val {W : Fin n → Fin n → Int → Prop} (hno : ∀ x, ¬ NegCycleAt W x)
    (hW : ∀ u v a, W u v a → L ≤ a ∧ a ≤ U) (hL : L ≤ 0) (hU : 0 ≤ U)
    (hlo : lo ≤ 2 * ((n - 1 : Int) * L)) (hhi : 2 * ((n - 1 : Int) * U) ≤ hi) (choose choose' chooseP)
    (l : List (Fin n)) {I : Fin n → Prop} {D : Mat n n β} {P : Mat n n (Fin n)} (h : Inv2 W I (mapply val D)) :
    l.foldl (fwStepP true choose' chooseP) (mapply val D, P) =
      (mapply val (l.foldl (fwStepP true choose chooseP) (D, P)).1, (l.foldl (fwStepP true choose chooseP) (D, P)).2) := by
  induction l generalizing I D P with
  | nil => rfl
  | cons x l ih =>
    have hb : InM val ((n - 1 : Int) * L) ((n - 1 : Int) * U) D := by
      intro i j a ha
      exact h.bounds hno hW hL hU (c := val a) (u := i) (v := j) (by simp [mapply, ha])
    have e := fwStepP_val (P := P) hm hb hlo hhi choose choose' chooseP x
    simp only [List.foldl_cons]
    rw [e]
    apply ih (I := fun y => I y ∨ y = x)
    have h1 : (fwStepP true choose' chooseP (mapply val D, P) x).1 = fwStep true choose' (mapply val D) x :=
      stepP_fst h.inv.diag choose' chooseP x
    rw [e] at h1; dsimp only at h1
    rw [h1]
    exact h.step hno choose' x

theorem fwPred_val {A : Mat n n β} (hA : InM val L U A) (hL : L ≤ 0) (hU : 0 ≤ U)
    (hlo : lo ≤ 2 * ((n - 1 : Int) * L)) (hhi : 2 * ((n - 1 : Int) * U) ≤ hi)
    (hno : ∀ x, ¬ NegCycleAt (MW (mapply val A)) x) (choose choose' chooseP) :
    fwPred true choose' chooseP (mapply val A) =
      ((fwPred true choose chooseP A).1, mapply val (fwPred true choose chooseP A).2) := by
  have hno' : ∀ x, ¬ NegCycleAt (MW (offdiag (mapply val A))) x := by
    rintro x ⟨k, c, hw, hc⟩
    rw [mw_offdiag'] at hw
    exact hno x ⟨k, c, hw.of_offLoop, hc⟩
  have hW : ∀ u v a, MW (offdiag (mapply val A)) u v a → L ≤ a ∧ a ≤ U := by
    intro u v a h
    rw [← offdiag_apply, mw_val] at h
    obtain ⟨w, h1, rfl⟩ := h
    exact In.offdiag hA _ _ _ h1
  have hstart : Inv2 (MW (offdiag (mapply val A))) (fun _ => False) (mapply val (offdiag A)) := by
    rw [offdiag_apply]
    exact ⟨inv_start _, fun u v c hc => ⟨c, .single hc⟩⟩
  have hP : (fun a b => (offdiag (mapply val A) a b).map fun _ => a : Mat n n (Fin n)) =
      fun a b => (offdiag A a b).map fun _ => a := by
    rw [← offdiag_apply]
    funext a b
    show ((offdiag A a b).map val).map _ = _
    cases offdiag A a b <;> rfl
  have hfold := fwFoldP_val (P := fun a b => (offdiag A a b).map fun _ => a) hm hno' hW hL hU hlo hhi choose choose'
    chooseP ((List.finRange n).filter (fwNonempty true A)) hstart
  rw [offdiag_apply] at hfold
  unfold fwPred
  simp only [fwStart, if_true]
  rw [fwNonempty_val, hP, hfold]
  refine Prod.ext rfl ?_
  funext u v
  show fwFinish true choose' (mapply val _) u v = (fwFinish true choose _ u v).map val
  simp only [fwFinish, if_true]
  split
  · simp [hm.zero]
  · rfl

end
end Proofs.Mach
