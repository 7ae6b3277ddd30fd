import Verif.Proofs.CacheMask

/-!
Once `has_self_edges` is cached, no lookup changes it.
-/

set_option linter.unusedSectionVars false

open GB Spec.Prop Model Model.Cache

namespace Proofs.Cache

variable {ι α : Type} [DecidableEq ι] [LinearOrder α] [Zero α] {c : Ctx ι α} {b : Bool}

/-- code that leaves a known `has_self_edges` alone -/
def Stab (b : Bool) {a : Type} (m : M c a) : Prop :=
  ∀ s : Store ι c.n α, s .hasSelf = some b → (m.run s).2 .hasSelf = some b

theorem stab_bind {a d : Type} {m : M c a} {f : a → M c d} (h : Stab b m) (hf : ∀ x, Stab b (f x)) :
    Stab b (m >>= f) := by
  intro s hs
  rw [run_bind]
  have := h s hs
  rcases hr : m.run s with ⟨⟨e⟩ | ⟨v⟩, s'⟩ <;> rw [hr] at this
  · exact this
  · exact hf v s' this

theorem stab_ite {a : Type} {p : Prop} [Decidable p] {x y : M c a} (hx : Stab b x) (hy : Stab b y) :
    Stab b (if p then x else y) := by split <;> assumption

theorem stab_pure {a : Type} (x : a) : Stab b (pure x : M c a) := fun _ h => h
theorem stab_throw {a : Type} (e : Err) : Stab b (throw e : M c a) := fun _ h => h
theorem stab_has (k : Key ι) : Stab b (has c k) := fun _ h => h
theorem stab_peek (k : Key ι) : Stab b (peek c k) := fun _ h => h
theorem stab_readK (k : Key ι) : Stab b (readK c k) := fun s h => by rw [readK_store]; exact h
theorem stab_selfFalse : Stab b (selfFalse c) := fun _ h => h
theorem stab_isB {k : Key ι} {hk t} : Stab b (isB c k hk t) := fun _ h => h
theorem stab_put {k : Key ι} {v} (hk : k ≠ .hasSelf) : Stab b (put c k v) := fun s h => by
  rw [run_put]
  exact (Function.update_of_ne hk.symm _ _).trans h

theorem stab_missing {m : M c Unit} : Stab b (ifMissing c .hasSelf m) := fun s h => by
  unfold ifMissing
  rw [run_ite_bind (run_has _ _), h]
  exact h
theorem stab_fillSelf {m : M c Bool} : Stab b (fill c .hasSelf m) := fun s h => by
  rw [fill_some h]; exact h
theorem stab_fill {k : Key ι} {m : M c (Val c.n α k)} (hk : k ≠ .hasSelf) (h : Stab b m) : Stab b (fill c k m) :=
  stab_bind (stab_has k) fun _ => stab_ite (stab_pure _) (stab_bind h fun _ => stab_put hk)
theorem stab_when {x : Bool} {m : M c Unit} (h : Stab b m) : Stab b (whenM c x m) := stab_ite h (stab_pure _)
theorem stab_and {x y : M c Bool} (hx : Stab b x) (hy : Stab b y) : Stab b (Model.Cache.andM c x y) :=
  stab_bind hx fun _ => stab_ite hy (stab_pure _)
theorem stab_not {x : M c Bool} (hx : Stab b x) : Stab b (Model.Cache.notM c x) := stab_bind hx fun _ => stab_pure _

theorem stab_sync {d : M c Bool} {m : M c Unit} (h : Stab b m) : Stab b (sync c d m) := by
  intro s hs
  have e : (Model.Cache.andM c (Model.Cache.notM c (has c .hasSelf)) d).run s = (.ok false, s) := by
    rw [run_andM (s' := s) (b := !(s .hasSelf).isSome) _ _ rfl, hs]; rfl
  unfold sync
  rw [run_ite_bind e, if_neg (by simp)]
  exact stab_bind stab_selfFalse (fun _ => stab_ite h (stab_pure _)) s hs

/-- the first of the two closing tests of `total_recip±` does nothing either -/
theorem stab_totrecipSync (σ τ : Sign) : Stab b (totrecipSync c σ τ) := by
  intro s hs
  unfold totrecipSync
  have e : (Model.Cache.andM c (Model.Cache.notM c (has c .hasSelf)) (has c (.totrecip τ))).run s = (.ok false, s) := by
    rw [run_andM (s' := s) (b := !(s .hasSelf).isSome) _ _ rfl, hs]; rfl
  rw [run_bind, e]
  exact stab_bind (stab_pure _) (fun _ => stab_bind stab_selfFalse fun _ => stab_bind
    (stab_when (stab_bind (stab_readK _) fun _ => stab_put (by simp))) fun _ => stab_readK _) s hs

macro "stab" : tactic => `(tactic| repeat' (first
  | with_reducible exact stab_missing
  | with_reducible exact stab_fillSelf
  | with_reducible exact stab_pure _
  | with_reducible exact stab_throw _
  | with_reducible exact stab_has _
  | with_reducible exact stab_peek _
  | with_reducible exact stab_readK _
  | with_reducible exact stab_selfFalse
  | with_reducible exact stab_isB
  | (with_reducible refine stab_put ?_; simp; done)
  | (with_reducible refine stab_fill (by simp) ?_)
  | with_reducible refine stab_when ?_
  | with_reducible refine stab_and ?_ ?_
  | with_reducible refine stab_not ?_
  | with_reducible refine stab_sync ?_
  | with_reducible refine stab_bind ?_ fun _ => ?_
  | with_reducible refine stab_ite ?_ ?_))

theorem stab_diag (mask : Option (VMask c.n)) : Stab b (getDiag c mask) := by
  unfold getDiag
  cases mask <;> dsimp only <;> stab

theorem stab_getSelf : Stab b (getSelf c) := by
  unfold getSelf selfDir selfUndir
  stab

theorem stab_offdiag : Stab b (getOffdiag c) := by
  unfold getOffdiag
  stab

theorem stab_vecP (r : VOp ι) (ax : Axis) (mask : Option (VMask c.n)) : Stab b (getVecP c r ax mask) := by
  unfold getVecP vecSync
  cases mask <;> dsimp only <;> stab

theorem stab_vecM (al : Bool) (r : VOp ι) (ax : Axis) (mask : Option (VMask c.n)) :
    Stab b (getVecM c al r ax mask) := by
  unfold getVecM vecSync
  cases mask <;> dsimp only <;> stab
  all_goals first | exact stab_getSelf | exact stab_offdiag | exact stab_vecP _ _ _

theorem stab_elemP (o : ι) : Stab b (getElemP c o) := by
  unfold getElemP elemSync
  stab

theorem stab_elemM (o : ι) : Stab b (getElemM c o) := by
  unfold getElemM elemSync
  stab
  all_goals first | exact stab_getSelf | exact stab_offdiag | exact stab_elemP _

theorem stab_diagRed (o : ι) : Stab b (getDiagRed c o) := by
  unfold getDiagRed
  stab
  all_goals first | exact stab_getSelf | exact stab_diag _

theorem stab_recipP (mask : Option (VMask c.n)) : Stab b (getRecipP c mask) := by
  unfold getRecipP recipSync
  cases mask <;> dsimp only <;> stab
  all_goals exact stab_getSelf

theorem stab_recipM (mask : Option (VMask c.n)) : Stab b (getRecipM c mask) := by
  unfold getRecipM recipSync
  cases mask <;> dsimp only <;> stab
  all_goals first | exact stab_getSelf | exact stab_recipP _ | exact stab_diag _

theorem stab_totdeg (σ τ : Sign) (mask : Option (VMask c.n)) : Stab b (getTotdeg c σ τ mask) := by
  have hd : ∀ s ax, Stab b (degOf c s ax mask) := by
    intro s ax; cases s
    · exact stab_vecP _ _ _
    · exact stab_vecM _ _ _ _
  unfold getTotdeg totdegSync
  cases mask <;> dsimp only <;> stab
  all_goals exact hd _ _

theorem stab_negP : Stab b (getNegP c) := by
  unfold getNegP negPTest
  refine stab_bind (stab_fill (by simp) (stab_ite (stab_pure _) (stab_bind ?_ fun _ => stab_ite (stab_pure _)
    (stab_bind (stab_peek _) fun o => ?_)))) fun _ => stab_readK _
  · stab
  · rcases o with _ | _ | x
    · exact stab_bind stab_isB fun _ => stab_ite (stab_bind (stab_diagRed _) fun _ => stab_pure _)
        (stab_bind (stab_elemP _) fun _ => stab_pure _)
    · exact stab_bind stab_isB fun _ => stab_ite (stab_bind (stab_diagRed _) fun _ => stab_pure _)
        (stab_bind (stab_elemP _) fun _ => stab_pure _)
    · exact stab_pure _

theorem stab_getProp (al : Bool) (mask : Option (VMask c.n)) (k : Key ι) : Stab b (getProp c al mask k) := by
  cases k with
  | A => exact stab_pure _
  | AT => show Stab b (getAT c); unfold getAT; stab
  | offdiag => exact stab_offdiag
  | U s =>
    cases s
    · refine stab_ite ?_ ?_
      · unfold upDir; stab; all_goals exact stab_getSelf
      · unfold upUndir; stab; all_goals exact stab_getSelf
    · refine stab_ite ?_ ?_
      · unfold umDir; stab
      · unfold umUndir; stab; all_goals exact stab_getSelf
  | L s =>
    cases s
    · refine stab_ite ?_ ?_
      · unfold lpDir; stab; all_goals exact stab_getSelf
      · unfold lpUndir; stab; all_goals exact stab_getSelf
    · refine stab_ite ?_ ?_
      · unfold lmDir; stab
      · unfold lmUndir; stab; all_goals exact stab_getSelf
  | diag => exact stab_diag _
  | vec r s ax =>
    cases s
    · exact stab_vecP _ _ _
    · exact stab_vecM _ _ _ _
  | elem o s =>
    cases s
    · exact stab_elemP o
    · exact stab_elemM o
  | diagRed o => exact stab_diagRed o
  | recip s =>
    cases s
    · exact stab_ite (stab_recipP _) (stab_throw _)
    · exact stab_ite (stab_recipM _) (stab_throw _)
  | totdeg s =>
    cases s
    · exact stab_ite (stab_totdeg _ _ _) (stab_throw _)
    · exact stab_ite (stab_totdeg _ _ _) (stab_throw _)
  | totrecip s =>
    cases s
    · refine stab_ite ?_ (stab_throw _)
      unfold getTotrecipP
      stab
      all_goals exact stab_totrecipSync _ _
    · refine stab_ite ?_ (stab_throw _)
      unfold getTotrecipM
      stab
      all_goals first | exact stab_totrecipSync _ _ | exact stab_recipM _
  | hasSelf => exact stab_getSelf
  | negDiag =>
    show Stab b (getNegDiag c)
    unfold getNegDiag negDiagTest
    stab
    all_goals exact stab_diagRed _
  | neg s =>
    cases s
    · exact stab_negP
    · show Stab b (getNegM c)
      unfold getNegM
      stab
      all_goals exact stab_elemM _
  | isIso => show Stab b (getIsIso c); unfold getIsIso; stab
  | isoVal =>
    show Stab b (getIsoVal c)
    unfold getIsoVal
    unfold ifMissing
    stab

theorem stab_after (h' : List (Req ι c.n)) :
    ∀ s : Store ι c.n α, s .hasSelf = some b → (h'.foldl (fun s r => exec c r s) s) .hasSelf = some b := by
  induction h' with
  | nil => exact fun s h => h
  | cons r l ih => exact fun s h => ih _ (stab_getProp _ _ _ s h)

/-- a lookup of `has_self_edges` on a cache that has it -/
theorem getSelf_cached {s : Store ι c.n α} (h : s .hasSelf = some b) : ((getSelf c).run s).1 = .ok b := by
  have key : ∀ m : M c Unit, ((do ifMissing c .hasSelf m; readK c .hasSelf).run s).1 = .ok b := by
    intro m
    unfold ifMissing
    rw [run_bind, run_ite_bind (run_has _ _), h, if_pos (by rfl)]
    exact congrArg Prod.fst (run_readK h)
  unfold getSelf
  by_cases hd : c.dir = true
  · rw [if_pos hd]; exact key _
  · rw [if_neg hd]; exact key _

end Proofs.Cache
