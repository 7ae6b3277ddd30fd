import Verif.Model.Effects

/-!
# A checker for in-place writes, and its soundness

`chk` follows which variables certainly refer to objects created during the call (`own`) and accepts a body only if
every in-place write goes to such an object.  `exec_sound`: an accepted body leaves every object that existed
before, or that is in the graph's cache, as it was, on every execution, also on those that end with an exception.
-/

namespace Model.Effects

variable {V : Type}

/-- the callee's parameters that receive an owned object -/
def ownParams (ps as : List Var) (own : List Var) : List Var :=
  ps.filter fun p => (ps.zip as).all fun q => if q.1 = p then decide (q.2 ∈ own) else true

/-- `fr`: returned objects must be owned -/
def chk (fr : Bool) : Stmt → List Var → Option (List Var)
  | .skip, own => some own
  | .new x, own => some (x :: own)
  | .shared x, own => some (own.filter (· ≠ x))
  | .move x y, own => if y ∈ own then some (x :: own) else some (own.filter (· ≠ x))
  | .write x, own => if x ∈ own then some own else none
  | .seq a b, own => (chk fr a own).bind (chk fr b)
  | .ite a b, own => (chk fr a own).bind fun oa => (chk fr b own).map fun ob => oa.filter (· ∈ ob)
  | .loop inv b, own =>
      if inv ⊆ own ∧ stable b inv = true ∧ (chk fr b inv).isSome then some inv else none
  | .attempt inv a b, own =>
      if inv ⊆ own ∧ stable a inv = true then
        (chk fr a own).bind fun oa => (chk fr b inv).map fun ob => oa.filter (· ∈ ob)
      else none
  | .ret xs, own => if fr = true → xs ⊆ own then some own else none
  | .yield xs, own => if fr = true → xs ⊆ own then some own else none
  | .call xs ps as b, own =>
      if (chk true b (ownParams ps as own)).isSome then some (xs ++ own)
      else if (chk false b (ownParams ps as own)).isSome then some (own.filter (· ∉ xs))
      else none
where
  /-- no assignment in the statement gives a variable of `S` an object that is not owned -/
  stable : Stmt → List Var → Bool
  | .skip, _ | .new _, _ | .write _, _ | .ret _, _ | .yield _, _ => true
  | .shared x, S => x ∉ S
  | .move x y, S => decide (x ∈ S → y ∈ S)
  | .seq a b, S | .ite a b, S => stable a S && stable b S
  | .loop _ b, S => stable b S
  | .attempt _ a b, S => stable a S && stable b S
  | .call xs ps as b, S => xs.all (· ∉ S) || (chk true b (ownParams ps as S)).isSome

/-- the variables in `own` refer to existing objects that are not protected -/
def Inv (own : List Var) (σ : State V) : Prop :=
  ∀ x ∈ own, ∀ r, σ.env x = some r → ¬ σ.prot r ∧ (σ.heap r).isSome

/-- protected objects exist -/
def Ok (σ : State V) : Prop := ∀ r, σ.prot r → (σ.heap r).isSome

def ResOk (fr : Bool) (σ : State V) : Prop := fr = true → ∀ r ∈ σ.res, ¬ σ.prot r ∧ (σ.heap r).isSome

/-- what stays the same -/
structure Frame (σ σ' : State V) : Prop where
  alive : ∀ r, (σ.heap r).isSome → (σ'.heap r).isSome
  keep : ∀ r, σ.prot r → σ'.prot r ∧ σ'.heap r = σ.heap r
  new : ∀ r, σ'.prot r → σ.prot r ∨ σ.heap r = none

theorem Frame.refl (σ : State V) : Frame σ σ := ⟨fun _ h => h, fun _ h => ⟨h, rfl⟩, fun _ h => .inl h⟩

theorem Frame.trans {a b c : State V} (h : Frame a b) (k : Frame b c) : Frame a c where
  alive r e := k.alive r (h.alive r e)
  keep r e := ⟨(k.keep r (h.keep r e).1).1, by rw [(k.keep r (h.keep r e).1).2, (h.keep r e).2]⟩
  new r e := by
    rcases k.new r e with e | e
    · exact h.new r e
    · right
      cases hr : a.heap r with
      | none => rfl
      | some v => have := h.alive r (by rw [hr]; rfl); rw [e] at this; cases this

/-- being an unprotected existing object survives a frame -/
theorem Frame.own {σ σ' : State V} (h : Frame σ σ') {r : Ref} (hr : ¬ σ.prot r ∧ (σ.heap r).isSome) :
    ¬ σ'.prot r ∧ (σ'.heap r).isSome :=
  ⟨fun e => (h.new r e).elim hr.1 fun e => by rw [e] at hr; exact absurd hr.2 (by simp), h.alive r hr.2⟩

theorem upd_eq {A B : Type} [DecidableEq A] (f : A → B) (a : A) (b : B) : upd f a b a = b := if_pos rfl
theorem upd_ne {A B : Type} [DecidableEq A] (f : A → B) {a x : A} (b : B) (h : x ≠ a) : upd f a b x = f x :=
  if_neg h

theorem heap_upd_isSome (f : Ref → Option V) (r q : Ref) (v : V) (h : (f q).isSome) :
    (upd f r (some v) q).isSome := by
  unfold upd; split <;> simp_all

theorem Inv.mono {o o' : List Var} {σ : State V} (h : Inv o σ) (k : o' ⊆ o) : Inv o' σ :=
  fun x hx => h x (k hx)

theorem filter_sub (p : Var → Bool) (l : List Var) : l.filter p ⊆ l := fun _ h => (List.mem_filter.1 h).1

theorem bindAll_prop {P : Ref → Prop} : ∀ (xs : List Var) (rs : List Ref) (env : Var → Option Ref),
    (∀ r ∈ rs, P r) → ∀ x r, bindAll env xs rs x = some r →
      ((x ∈ xs ∧ P r) ∨ (x ∉ xs ∧ env x = some r))
  | [], _, _, _, _, _, h => .inr ⟨by simp, h⟩
  | y :: ys, [], env, hp, x, r, h => by
      rcases bindAll_prop ys [] _ hp x r h with ⟨a, b⟩ | ⟨a, b⟩
      · exact .inl ⟨List.mem_cons_of_mem _ a, b⟩
      · unfold upd at b
        split at b
        · cases b
        · exact .inr ⟨by simp_all, b⟩
  | y :: ys, q :: qs, env, hp, x, r, h => by
      rcases bindAll_prop ys qs _ (fun r hr => hp r (List.mem_cons_of_mem _ hr)) x r h with ⟨a, b⟩ | ⟨a, b⟩
      · exact .inl ⟨List.mem_cons_of_mem _ a, b⟩
      · unfold upd at b
        split at b
        · cases b; subst_vars; exact .inl ⟨by simp, hp q (by simp)⟩
        · exact .inr ⟨by simp_all, b⟩

theorem callEnv_own (env : Var → Option Ref) (ps as own : List Var) {x : Var} {r : Ref}
    (hx : x ∈ ownParams ps as own) (h : callEnv env ps as x = some r) : ∃ y ∈ own, env y = some r := by
  unfold callEnv at h
  obtain ⟨p, hp, he⟩ := List.exists_of_findSome?_eq_some h
  split at he
  · rename_i hpx
    unfold ownParams at hx
    have := (List.mem_filter.1 hx).2
    rw [List.all_eq_true] at this
    have := this p hp
    rw [if_pos hpx] at this
    exact ⟨p.2, by simpa using this, he⟩
  · cases he

theorem exec_sound {s : Stmt} {σ σ' : State V} {c : Bool} (h : Exec s σ σ' c) :
    ∀ (fr : Bool) (own own' : List Var), chk fr s own = some own' → Inv own σ → Ok σ → ResOk fr σ →
      Frame σ σ' ∧ Ok σ' ∧ ResOk fr σ' ∧ (c = true → Inv own' σ') ∧
        ∀ S, chk.stable s S = true → Inv S σ → Inv S σ' := by
  induction h with
  | raise s σ =>
    intro fr own own' hc hi ho hr
    exact ⟨.refl _, ho, hr, (by simp), fun S _ h => h⟩
  | skip σ =>
    intro fr own own' hc hi ho hr
    cases hc
    exact ⟨.refl _, ho, hr, fun _ => hi, fun S _ h => h⟩
  | new x σ r v h =>
    intro fr own own' hc hi ho hr
    have hf : Frame σ { σ with env := upd σ.env x (some r), heap := upd σ.heap r (some v) } := by
      refine ⟨fun q hq => heap_upd_isSome _ _ _ _ hq, fun q hq => ⟨hq, ?_⟩, fun q hq => .inl hq⟩
      refine upd_ne _ _ ?_
      rintro rfl
      have := ho _ hq
      rw [h] at this; cases this
    have key : ∀ S : List Var, Inv S σ →
        Inv (x :: S) { σ with env := upd σ.env x (some r), heap := upd σ.heap r (some v) } := by
      intro S hS y hy q hq
      simp only [] at hq ⊢
      by_cases e : y = x
      · subst e
        rw [upd_eq] at hq
        cases hq
        refine ⟨fun hp => ?_, by rw [upd_eq]; rfl⟩
        have := ho _ hp
        rw [h] at this; cases this
      · rw [upd_ne _ _ e] at hq
        exact hf.own (hS y (by simpa [e] using hy) q hq)
    cases hc
    refine ⟨hf, fun q hq => hf.alive q (ho q hq), fun e q hq => hf.own (hr e q hq), fun _ => key _ hi, ?_⟩
    intro S _ hS
    exact (key S hS).mono (by simp)
  | shared x σ r h =>
    intro fr own own' hc hi ho hr
    have hf : Frame σ { σ with env := upd σ.env x (some r) } :=
      ⟨fun q hq => hq, fun q hq => ⟨hq, rfl⟩, fun q hq => .inl hq⟩
    have key : ∀ S : List Var, x ∉ S → Inv S σ → Inv S { σ with env := upd σ.env x (some r) } := by
      intro S hx hS y hy q hq
      have e : y ≠ x := fun e => hx (e ▸ hy)
      simp only [upd_ne _ _ e] at hq
      exact hS y hy q hq
    cases hc
    exact ⟨hf, ho, hr, fun _ => key _ (by simp) (hi.mono (filter_sub _ _)),
      fun S hs hS => key S (by simpa [chk.stable] using hs) hS⟩
  | cache x σ σ' r v c h k ih =>
    intro fr own own' hc hi ho hr
    have hf : Frame σ { σ with heap := upd σ.heap r (some v), prot := fun q => q = r ∨ σ.prot q } := by
      refine ⟨fun q hq => heap_upd_isSome _ _ _ _ hq, fun q hq => ⟨.inr hq, ?_⟩, ?_⟩
      · refine upd_ne _ _ ?_
        rintro rfl
        have := ho _ hq
        rw [h] at this; cases this
      · rintro q (rfl | hq)
        · exact .inr h
        · exact .inl hq
    have hinv : ∀ S, Inv S σ → Inv S { σ with heap := upd σ.heap r (some v), prot := fun q => q = r ∨ σ.prot q } :=
      fun S hS y hy q hq => hf.own (hS y hy q hq)
    obtain ⟨f1, f2, f3, f4, f5⟩ := ih fr own own' hc (hinv _ hi)
      (by
        rintro q (rfl | hq)
        · simp only [upd_eq]; rfl
        · exact hf.alive q (ho q hq))
      (fun e q hq => hf.own (hr e q hq))
    exact ⟨hf.trans f1, f2, f3, f4, fun S hs hS => f5 S hs (hinv S hS)⟩
  | move x y σ r h =>
    intro fr own own' hc hi ho hr
    have hf : Frame σ { σ with env := upd σ.env x (some r) } :=
      ⟨fun q hq => hq, fun q hq => ⟨hq, rfl⟩, fun q hq => .inl hq⟩
    have key1 : ∀ S : List Var, x ∉ S → Inv S σ → Inv S { σ with env := upd σ.env x (some r) } := by
      intro S hx hS z hz q hq
      have e : z ≠ x := fun e => hx (e ▸ hz)
      simp only [upd_ne _ _ e] at hq
      exact hS z hz q hq
    have key2 : ∀ S : List Var, y ∈ S → Inv S σ → Inv (x :: S) { σ with env := upd σ.env x (some r) } := by
      intro S hy hS z hz q hq
      by_cases e : z = x
      · subst e
        simp only [upd_eq] at hq
        cases hq
        exact hS y hy r h
      · simp only [upd_ne _ _ e] at hq
        exact hS z (by simpa [e] using hz) q hq
    refine ⟨hf, ho, hr, fun _ => ?_, fun S hs hS => ?_⟩
    · unfold chk at hc
      split at hc <;> cases hc
      · rename_i hy; exact key2 _ hy hi
      · exact key1 _ (by simp) (hi.mono (filter_sub _ _))
    · have hs : x ∈ S → y ∈ S := of_decide_eq_true hs
      by_cases hx : x ∈ S
      · exact (key2 S (hs hx) hS).mono (by simp)
      · exact key1 S hx hS
  | write x σ r v h =>
    intro fr own own' hc hi ho hr
    unfold chk at hc
    split at hc <;> cases hc
    rename_i hx
    have hp := hi x hx r h
    have hf : Frame σ { σ with heap := upd σ.heap r (some v) } := by
      refine ⟨fun q hq => heap_upd_isSome _ _ _ _ hq, fun q hq => ⟨hq, ?_⟩, fun q hq => .inl hq⟩
      refine upd_ne _ _ ?_
      rintro rfl
      exact hp.1 hq
    refine ⟨hf, fun q hq => hf.alive q (ho q hq), fun e q hq => hf.own (hr e q hq),
      fun _ y hy q hq => hf.own (hi y hy q hq), fun S _ hS y hy q hq => hf.own (hS y hy q hq)⟩
  | seqNext a b σ σ' σ'' c h k ih1 ih2 =>
    intro fr own own' hc hi ho hr
    unfold chk at hc
    obtain ⟨o1, e1, e2⟩ := Option.bind_eq_some_iff.1 hc
    obtain ⟨f1, f2, f3, f4, f5⟩ := ih1 fr own o1 e1 hi ho hr
    obtain ⟨g1, g2, g3, g4, g5⟩ := ih2 fr o1 own' e2 (f4 rfl) f2 f3
    refine ⟨f1.trans g1, g2, g3, g4, fun S hs hS => ?_⟩
    have hs : chk.stable a S = true ∧ chk.stable b S = true := by simpa [chk.stable] using hs
    exact g5 S hs.2 (f5 S hs.1 hS)
  | seqStop a b σ σ' h ih1 =>
    intro fr own own' hc hi ho hr
    unfold chk at hc
    obtain ⟨o1, e1, e2⟩ := Option.bind_eq_some_iff.1 hc
    obtain ⟨f1, f2, f3, f4, f5⟩ := ih1 fr own o1 e1 hi ho hr
    refine ⟨f1, f2, f3, (by simp), fun S hs hS => ?_⟩
    have hs : chk.stable a S = true ∧ chk.stable b S = true := by simpa [chk.stable] using hs
    exact f5 S hs.1 hS
  | iteL a b σ σ' c h ih =>
    intro fr own own' hc hi ho hr
    unfold chk at hc
    obtain ⟨oa, e1, e2⟩ := Option.bind_eq_some_iff.1 hc
    obtain ⟨ob, e3, rfl⟩ := Option.map_eq_some_iff.1 e2
    obtain ⟨f1, f2, f3, f4, f5⟩ := ih fr own oa e1 hi ho hr
    refine ⟨f1, f2, f3, fun hc => (f4 hc).mono (filter_sub _ _), fun S hs hS => ?_⟩
    have hs : chk.stable a S = true ∧ chk.stable b S = true := by simpa [chk.stable] using hs
    exact f5 S hs.1 hS
  | iteR a b σ σ' c h ih =>
    intro fr own own' hc hi ho hr
    unfold chk at hc
    obtain ⟨oa, e1, e2⟩ := Option.bind_eq_some_iff.1 hc
    obtain ⟨ob, e3, rfl⟩ := Option.map_eq_some_iff.1 e2
    obtain ⟨f1, f2, f3, f4, f5⟩ := ih fr own ob e3 hi ho hr
    refine ⟨f1, f2, f3, fun hc => (f4 hc).mono (fun x hx => by simpa using (List.mem_filter.1 hx).2),
      fun S hs hS => ?_⟩
    have hs : chk.stable a S = true ∧ chk.stable b S = true := by simpa [chk.stable] using hs
    exact f5 S hs.2 hS
  | loopDone o b σ =>
    intro fr own own' hc hi ho hr
    unfold chk at hc
    split at hc <;> cases hc
    rename_i hh
    exact ⟨.refl _, ho, hr, fun _ => hi.mono hh.1, fun S _ h => h⟩
  | loopMore o b σ σ' σ'' c d h k ih1 ih2 =>
    intro fr own own' hc hi ho hr
    unfold chk at hc
    split at hc <;> cases hc
    rename_i hh
    obtain ⟨hsub, hst, hb⟩ := hh
    obtain ⟨ob, hb⟩ := Option.isSome_iff_exists.1 hb
    obtain ⟨f1, f2, f3, f4, f5⟩ := ih1 fr o ob hb (hi.mono hsub) ho hr
    have hi' := f5 o hst (hi.mono hsub)
    obtain ⟨g1, g2, g3, g4, g5⟩ := ih2 fr o o
      (by unfold chk; rw [if_pos ⟨fun _ h => h, hst, by rw [hb]; rfl⟩]) hi' f2 f3
    refine ⟨f1.trans g1, g2, g3, g4, fun S hs hS => ?_⟩
    have hs' : chk.stable b S = true := by simpa [chk.stable] using hs
    exact g5 S hs (f5 S hs' hS)
  | loopStop o b σ σ' h ih1 =>
    intro fr own own' hc hi ho hr
    unfold chk at hc
    split at hc <;> cases hc
    rename_i hh
    obtain ⟨hsub, hst, hb⟩ := hh
    obtain ⟨ob, hb⟩ := Option.isSome_iff_exists.1 hb
    obtain ⟨f1, f2, f3, f4, f5⟩ := ih1 fr o ob hb (hi.mono hsub) ho hr
    refine ⟨f1, f2, f3, (by simp), fun S hs hS => ?_⟩
    have hs' : chk.stable b S = true := by simpa [chk.stable] using hs
    exact f5 S hs' hS
  | tryOk o a b σ σ' h ih =>
    intro fr own own' hc hi ho hr
    unfold chk at hc
    split at hc
    · obtain ⟨oa, e1, e2⟩ := Option.bind_eq_some_iff.1 hc
      obtain ⟨ob, e3, rfl⟩ := Option.map_eq_some_iff.1 e2
      obtain ⟨f1, f2, f3, f4, f5⟩ := ih fr own oa e1 hi ho hr
      refine ⟨f1, f2, f3, fun hc => (f4 hc).mono (filter_sub _ _), fun S hs hS => ?_⟩
      have hs : chk.stable a S = true ∧ chk.stable b S = true := by simpa [chk.stable] using hs
      exact f5 S hs.1 hS
    · cases hc
  | tryStop o a b σ σ' h ih =>
    intro fr own own' hc hi ho hr
    unfold chk at hc
    split at hc
    · obtain ⟨oa, e1, e2⟩ := Option.bind_eq_some_iff.1 hc
      obtain ⟨f1, f2, f3, f4, f5⟩ := ih fr own oa e1 hi ho hr
      refine ⟨f1, f2, f3, (by simp), fun S hs hS => ?_⟩
      have hs : chk.stable a S = true ∧ chk.stable b S = true := by simpa [chk.stable] using hs
      exact f5 S hs.1 hS
    · cases hc
  | tryCatch o a b σ σ' σ'' c h k ih1 ih2 =>
    intro fr own own' hc hi ho hr
    unfold chk at hc
    split at hc
    · rename_i hh
      obtain ⟨oa, e1, e2⟩ := Option.bind_eq_some_iff.1 hc
      obtain ⟨ob, e3, rfl⟩ := Option.map_eq_some_iff.1 e2
      obtain ⟨f1, f2, f3, f4, f5⟩ := ih1 fr own oa e1 hi ho hr
      obtain ⟨g1, g2, g3, g4, g5⟩ := ih2 fr o ob e3 (f5 o hh.2 (hi.mono hh.1)) f2 f3
      refine ⟨f1.trans g1, g2, g3,
        fun hc => (g4 hc).mono (fun x hx => by simpa using (List.mem_filter.1 hx).2), fun S hs hS => ?_⟩
      have hs : chk.stable a S = true ∧ chk.stable b S = true := by simpa [chk.stable] using hs
      exact g5 S hs.2 (f5 S hs.1 hS)
    · cases hc
  | yield xs σ =>
    intro fr own own' hc hi ho hr
    unfold chk at hc
    split at hc <;> cases hc
    rename_i hh
    refine ⟨⟨fun q hq => hq, fun q hq => ⟨hq, rfl⟩, fun q hq => .inl hq⟩, ho, ?_, fun _ => hi, fun S _ h => h⟩
    intro e r hq
    rcases List.mem_append.1 hq with hq | hq
    · exact hr e r hq
    · obtain ⟨x, hx, he⟩ := List.mem_filterMap.1 hq
      exact hi x (hh e hx) r he
  | ret xs σ =>
    intro fr own own' hc hi ho hr
    unfold chk at hc
    split at hc <;> cases hc
    rename_i hh
    refine ⟨⟨fun q hq => hq, fun q hq => ⟨hq, rfl⟩, fun q hq => .inl hq⟩, ho, ?_, (by simp), fun S _ h => h⟩
    intro e r hq
    obtain ⟨x, hx, he⟩ := List.mem_filterMap.1 hq
    exact hi x (hh e hx) r he
  | call xs ps as b σ σ' d h ih =>
    intro fr own own' hc hi ho hr
    have hin : ∀ S, Inv S σ →
        Inv (ownParams ps as S) { σ with env := callEnv σ.env ps as, res := [] } := by
      intro S hS x hx r he
      obtain ⟨y, hy, e⟩ := callEnv_own σ.env ps as S hx he
      exact hS y hy r e
    have hempty : ∀ b', ResOk b' { σ with env := callEnv σ.env ps as, res := [] } := fun _ _ r hr => by cases hr
    have hbody : ∃ fb ob', chk fb b (ownParams ps as own) = some ob' := by
      unfold chk at hc
      split at hc
      · rename_i e; obtain ⟨ob, e⟩ := Option.isSome_iff_exists.1 e; exact ⟨true, ob, e⟩
      · split at hc
        · rename_i e; obtain ⟨ob, e⟩ := Option.isSome_iff_exists.1 e; exact ⟨false, ob, e⟩
        · cases hc
    obtain ⟨fb, ob, hb⟩ := hbody
    obtain ⟨f1, f2, f3, f4, f5⟩ := ih fb _ ob hb (hin _ hi) ho (hempty fb)
    have hf : Frame σ { σ' with env := bindAll σ.env xs σ'.res, res := σ.res } :=
      ⟨f1.alive, f1.keep, f1.new⟩
    -- variables not assigned by the call
    have key1 : ∀ S : List Var, (∀ x ∈ xs, x ∉ S) → Inv S σ →
        Inv S { σ' with env := bindAll σ.env xs σ'.res, res := σ.res } := by
      intro S hx hS y hy r he
      rcases bindAll_prop (P := fun _ => True) xs σ'.res σ.env (fun _ _ => trivial) y r he with ⟨a, _⟩ | ⟨_, e⟩
      · exact absurd hy (hx y a)
      · exact hf.own (hS y hy r e)
    -- fresh results
    have key2 : ∀ S : List Var, (chk true b (ownParams ps as S)).isSome → Inv S σ →
        Inv (xs ++ S) { σ' with env := bindAll σ.env xs σ'.res, res := σ.res } := by
      intro S hc hS y hy r he
      obtain ⟨ob2, hc⟩ := Option.isSome_iff_exists.1 hc
      obtain ⟨_, _, g3, _, _⟩ := ih true _ ob2 hc (hin _ hS) ho (hempty true)
      rcases bindAll_prop (P := fun r => ¬ σ'.prot r ∧ (σ'.heap r).isSome) xs σ'.res σ.env (g3 rfl) y r he
        with ⟨_, e⟩ | ⟨a, e⟩
      · exact e
      · rcases List.mem_append.1 hy with hy | hy
        · exact absurd hy a
        · exact hf.own (hS y hy r e)
    refine ⟨hf, f2, fun e q hq => hf.own (hr e q hq), fun _ => ?_, fun S hs hS => ?_⟩
    · unfold chk at hc
      split at hc
      · rename_i e; cases hc; exact key2 own e hi
      · split at hc
        · cases hc
          exact key1 _ (fun x hx h => by simpa [hx] using (List.mem_filter.1 h).2) (hi.mono (filter_sub _ _))
        · cases hc
    · have hs : (∀ x ∈ xs, x ∉ S) ∨ (chk true b (ownParams ps as S)).isSome := by
        simpa [chk.stable] using hs
      rcases hs with hs | hs
      · exact key1 S hs hS
      · exact (key2 S hs hS).mono (by simp)
  | callRaise xs ps as b σ σ' d h ih =>
    intro fr own own' hc hi ho hr
    have hin : ∀ S, Inv S σ →
        Inv (ownParams ps as S) { σ with env := callEnv σ.env ps as, res := [] } := by
      intro S hS x hx r he
      obtain ⟨y, hy, e⟩ := callEnv_own σ.env ps as S hx he
      exact hS y hy r e
    have hempty : ∀ b', ResOk b' { σ with env := callEnv σ.env ps as, res := [] } := fun _ _ r hr => by cases hr
    have hbody : ∃ fb ob', chk fb b (ownParams ps as own) = some ob' := by
      unfold chk at hc
      split at hc
      · rename_i e; obtain ⟨ob, e⟩ := Option.isSome_iff_exists.1 e; exact ⟨true, ob, e⟩
      · split at hc
        · rename_i e; obtain ⟨ob, e⟩ := Option.isSome_iff_exists.1 e; exact ⟨false, ob, e⟩
        · cases hc
    obtain ⟨fb, ob, hb⟩ := hbody
    obtain ⟨f1, f2, f3, f4, f5⟩ := ih fb _ ob hb (hin _ hi) ho (hempty fb)
    have hf : Frame σ { σ' with env := σ.env, res := σ.res } := ⟨f1.alive, f1.keep, f1.new⟩
    exact ⟨hf, f2, fun e q hq => hf.own (hr e q hq), (by simp), fun S _ hS y hy r he => hf.own (hS y hy r he)⟩

end Model.Effects
