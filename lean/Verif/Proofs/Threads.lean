import Verif.Model.Threads
import Verif.Proofs.CacheHoare

/-!
Soundness of the program logic for interleaved and interrupted accesses.
-/

open GB Spec.Prop Model Model.Cache Model.Threads
open Model.Memo (Obj MemoKey onStore)

namespace Proofs.Threads

section generic
variable {κ : Type} {V : κ → Type} {a b : Type}

/-- every value in the dictionary is good -/
def Inv (g : (k : κ) → V k → Prop) (s : Dict κ V) : Prop := ∀ k v, s k = some v → g k v

/-- if the keys `S` are present, all entries are good, and between any two accesses the dictionary may change in any
way that keeps entries good and loses no key: good values are written only, the value returned satisfies `Q`, and
an exception raised satisfies `E` -/
def Wp (g : (k : κ) → V k → Prop) (E : Err → Prop) (Q : a → Prop) : Tree κ V a → (κ → Prop) → Prop
  | .ret x, _ => Q x
  | .err e, _ => E e
  | .get k f, S => ∀ o, (∀ v, o = some v → g k v) → (S k → o.isSome) →
      Wp g E Q (f o) (fun k' => S k' ∨ (o.isSome ∧ k' = k))
  | .put k v m, S => g k v ∧ Wp g E Q m (fun k' => S k' ∨ k' = k)

variable {g : (k : κ) → V k → Prop} {E E' : Err → Prop} {Q Q' : a → Prop}

theorem Wp.mono {m : Tree κ V a} {S S' : κ → Prop} (h : Wp g E Q m S) (hS : ∀ k, S k → S' k)
    (hE : ∀ e, E e → E' e) (hQ : ∀ x, Q x → Q' x) : Wp g E' Q' m S' := by
  induction m generalizing S S' with
  | ret x => exact hQ x h
  | err e => exact hE e h
  | get k f ih =>
    exact fun o ho hk => ih o (h o ho fun h => hk (hS k h)) fun k' hk' => hk'.imp_left (hS k')
  | put k v m ih => exact ⟨h.1, ih h.2 fun k' hk' => hk'.imp_left (hS k')⟩

theorem Wp.bind {m : Tree κ V a} {f : a → Tree κ V b} {S : κ → Prop} {R : b → Prop} (h : Wp g E Q m S)
    (hf : ∀ x, Q x → Wp g E R (f x) (fun _ => False)) : Wp g E R (m.bind f) S := by
  induction m generalizing S with
  | ret x => exact (hf x h).mono (fun _ h => h.elim) (fun _ h => h) (fun _ h => h)
  | err e => exact h
  | get k f ih => exact fun o ho hk => ih o (h o ho hk)
  | put k v m ih => exact ⟨h.1, ih h.2⟩

theorem wp_attempt {S : κ → Prop} {m : Tree κ V a} (h : Wp g E Q m S) : Wp g (fun _ => False)
      (fun r => (∀ x, r = .ok x → Q x) ∧ ∀ e, r = .error e → E e) (attempt m) S := by
  induction m generalizing S with
  | ret x => exact ⟨fun y hy => (by cases hy; exact h), fun e he => (by cases he)⟩
  | err e => exact ⟨fun y hy => (by cases hy), fun e he => (by cases he; exact h)⟩
  | get k f ih => exact fun o ho hk => ih o (h o ho hk)
  | put k v m ih => exact ⟨h.1, ih h.2⟩

theorem wp_inTurn {J : Type} {Out : J → Type} {prog : (j : J) → Tree κ V (Out j)} {E : J → Err → Prop}
    {Q : (j : J) → Out j → Prop} (js : List J) (h : ∀ j ∈ js, Wp g (E j) (Q j) (prog j) (fun _ => False)) :
    Wp g (fun _ => False)
      (fun l => l.map Sigma.fst = js ∧ ∀ p ∈ l, (∀ x, p.2 = .ok x → Q p.1 x) ∧ ∀ e, p.2 = .error e → E p.1 e)
      (inTurn prog js) (fun _ => False) := by
  induction js with
  | nil => exact ⟨rfl, by simp⟩
  | cons j js ih =>
    unfold inTurn
    refine Wp.bind (wp_attempt (h j (List.mem_cons_self ..))) fun x hx => ?_
    refine Wp.bind (ih fun j' hj' => h j' (List.mem_cons_of_mem _ hj')) fun xs hxs => ?_
    refine ⟨by simp [hxs.1], ?_⟩
    intro p hp
    rcases List.mem_cons.1 hp with rfl | hp
    · exact hx
    · exact hxs.2 p hp

variable [DecidableEq κ]

/-- what is known of running code at any time: some keys are present, and what remains is fine from there -/
def Ready (g : (k : κ) → V k → Prop) (E : Err → Prop) (Q : a → Prop) (m : Tree κ V a) (s : Dict κ V) : Prop :=
  ∃ S : κ → Prop, (∀ k, S k → (s k).isSome) ∧ Wp g E Q m S

theorem access_spec {m : Tree κ V a} {s : Dict κ V} (hi : Inv g s) (h : Ready g E Q m s) :
    Inv g (access m s).2 ∧ (∀ k, (s k).isSome → ((access m s).2 k).isSome) ∧
    Ready g E Q (access m s).1 (access m s).2 := by
  obtain ⟨S, hS, h⟩ := h
  cases m with
  | ret x => exact ⟨hi, fun _ h => h, S, hS, h⟩
  | err e => exact ⟨hi, fun _ h => h, S, hS, h⟩
  | get k f =>
    refine ⟨hi, fun _ h => h, _, ?_, h (s k) (fun v hv => hi k v hv) (hS k)⟩
    rintro k' (h' | ⟨h', rfl⟩)
    · exact hS k' h'
    · exact h'
  | put k v m =>
    have h2 : ∀ k', (s k').isSome → (Function.update s k (some v) k').isSome := by
      intro k' hk'
      by_cases e : k' = k
      · subst e; simp
      · simpa only [Function.update_of_ne e] using hk'
    refine ⟨?_, h2, _, ?_, h.2⟩
    · intro k' w hw
      change Function.update s k (some v) k' = some w at hw
      by_cases e : k' = k
      · subst e
        rw [Function.update_self] at hw
        cases hw; exact h.1
      · rw [Function.update_of_ne e] at hw; exact hi k' w hw
    · rintro k' (h' | h')
      · exact h2 k' (hS k' h')
      · subst h'; exact (by simp : (Function.update s k' (some v) k').isSome = true)

theorem ready_mono {m : Tree κ V a} {s s' : Dict κ V}
    (h : Ready g E Q m s) (hs : ∀ k, (s k).isSome → (s' k).isSome) : Ready g E Q m s' := by
  obtain ⟨S, hS, h⟩ := h
  exact ⟨S, fun k hk => hs k (hS k hk), h⟩

/-- a call that is cut off leaves a good dictionary -/
theorem cutOff_inv {m : Tree κ V a} (n : Nat) {s : Dict κ V} (hi : Inv g s) (h : Ready g E Q m s) :
    Inv g (cutOff n m s) := by
  induction n generalizing m s with
  | zero => exact hi
  | succ n ih =>
    obtain ⟨h1, -, h3⟩ := access_spec hi h
    exact ih h1 h3

/-- a call that is not -/
theorem run_spec {m : Tree κ V a} {s : Dict κ V} (hi : Inv g s) (h : Ready g E Q m s) :
    Inv g (m.run s).2 ∧ (∀ x, (m.run s).1 = .ok x → Q x) ∧ ∀ e, (m.run s).1 = .error e → E e := by
  induction m generalizing s with
  | ret x =>
    obtain ⟨S, -, h⟩ := h
    exact ⟨hi, fun y hy => (by cases hy; exact h), fun e he => (by cases he)⟩
  | err e =>
    obtain ⟨S, -, h⟩ := h
    exact ⟨hi, fun y hy => (by cases hy), fun e he => (by cases he; exact h)⟩
  | get k f ih =>
    obtain ⟨h1, -, h3⟩ := access_spec hi h
    exact ih _ h1 h3
  | put k v m ih =>
    obtain ⟨h1, -, h3⟩ := access_spec hi h
    exact ih h1 h3

theorem run_bind (m : Tree κ V a) (f : a → Tree κ V b) (s : Dict κ V) :
    (m.bind f).run s = match (m.run s).1 with
      | .ok x => (f x).run (m.run s).2
      | .error e => (.error e, (m.run s).2) := by
  induction m generalizing s with
  | ret x => rfl
  | err e => rfl
  | get k g ih => exact ih (s k) s
  | put k v m ih => exact ih _

/-- enough accesses complete a call -/
theorem cutOff_run (m : Tree κ V a) (s : Dict κ V) : ∃ n, ∀ k, cutOff (n + k) m s = (m.run s).2 := by
  induction m generalizing s with
  | ret x =>
    refine ⟨0, fun k => ?_⟩
    induction k with
    | zero => rfl
    | succ k ih => rw [Nat.zero_add] at *; exact ih
  | err e =>
    refine ⟨0, fun k => ?_⟩
    induction k with
    | zero => rfl
    | succ k ih => rw [Nat.zero_add] at *; exact ih
  | get k f ih =>
    obtain ⟨n, hn⟩ := ih (s k) s
    refine ⟨n + 1, fun j => ?_⟩
    rw [Nat.add_right_comm]
    exact hn j
  | put k v m ih =>
    obtain ⟨n, hn⟩ := ih (Function.update s k (some v))
    refine ⟨n + 1, fun j => ?_⟩
    rw [Nat.add_right_comm]
    exact hn j

variable {τ : Type} {R : τ → Type} [DecidableEq τ]

theorem step_spec {E : τ → Err → Prop} {Q : (t : τ) → R t → Prop} {y : Sys V R} (t : τ)
    (hi : Inv g y.dict) (h : ∀ t, Ready g (E t) (Q t) (y.thread t) y.dict) :
    Inv g (step y t).dict ∧ ∀ t', Ready g (E t') (Q t') ((step y t).thread t') (step y t).dict := by
  obtain ⟨h1, h2, h3⟩ := access_spec hi (h t)
  refine ⟨h1, fun t' => ?_⟩
  unfold step
  dsimp only
  by_cases e : t' = t
  · subst e; rw [Function.update_self]; exact h3
  · rw [Function.update_of_ne e]; exact ready_mono (h t') h2

/-- whatever the schedule: entries stay good, and what threads return is as specified -/
theorem runSched_spec {E : τ → Err → Prop} {Q : (t : τ) → R t → Prop} {y : Sys V R} (sched : List τ)
    (hi : Inv g y.dict) (h : ∀ t, Ready g (E t) (Q t) (y.thread t) y.dict) :
    Inv g (runSched y sched).dict ∧
    (∀ t x, (runSched y sched).thread t = .ret x → Q t x) ∧
    (∀ t e, (runSched y sched).thread t = .err e → E t e) := by
  have : ∀ y : Sys V R, Inv g y.dict → (∀ t, Ready g (E t) (Q t) (y.thread t) y.dict) →
      Inv g (runSched y sched).dict ∧
      ∀ t, Ready g (E t) (Q t) ((runSched y sched).thread t) (runSched y sched).dict := by
    unfold runSched
    induction sched with
    | nil => exact fun _ h1 h2 => ⟨h1, h2⟩
    | cons t sched ih =>
      intro y h1 h2
      obtain ⟨g1, g2⟩ := step_spec t h1 h2
      exact ih _ g1 g2
  obtain ⟨g1, g2⟩ := this y hi h
  refine ⟨g1, fun t x hx => ?_, fun t e he => ?_⟩
  · obtain ⟨S, -, h⟩ := g2 t
    rw [hx] at h; exact h
  · obtain ⟨S, -, h⟩ := g2 t
    rw [he] at h; exact h

/-! ## fair schedules -/

theorem runSched_append (y : Sys V R) (s1 s2 : List τ) : runSched y (s1 ++ s2) = runSched (runSched y s1) s2 := by
  unfold runSched; rw [List.foldl_append]

theorem step_other (y : Sys V R) {t t' : τ} (h : t' ≠ t) : (step y t).thread t' = y.thread t' := by
  unfold step; dsimp only; rw [Function.update_of_ne h]

theorem step_self (y : Sys V R) (t : τ) : (step y t).thread t = (access (y.thread t) y.dict).1 := by
  unfold step; dsimp only; rw [Function.update_self]

theorem runSched_succ (y : Sys V R) (σ : ℕ → τ) (n : ℕ) :
    runSched y ((List.range (n + 1)).map σ) = step (runSched y ((List.range n).map σ)) (σ n) := by
  rw [List.range_succ, List.map_append, runSched_append]; rfl

/-- a thread that is scheduled again and again finishes -/
theorem finishes (y : Sys V R) (σ : ℕ → τ) (t : τ) (hσ : ∀ n, ∃ m, n ≤ m ∧ σ m = t) :
    ∃ n, (∃ x, (runSched y ((List.range n).map σ)).thread t = .ret x) ∨
      ∃ e, (runSched y ((List.range n).map σ)).thread t = .err e := by
  have next : ∀ n, ∃ m, n ≤ m ∧ σ m = t ∧
      (runSched y ((List.range m).map σ)).thread t = (runSched y ((List.range n).map σ)).thread t := by
    intro n
    classical
    have hex : ∃ d, σ (n + d) = t := by
      obtain ⟨m, hm, e⟩ := hσ n
      exact ⟨m - n, by rw [Nat.add_sub_cancel' hm]; exact e⟩
    let d := Nat.find hex
    refine ⟨n + d, Nat.le_add_right _ _, Nat.find_spec hex, ?_⟩
    have : ∀ j, j ≤ d → (runSched y ((List.range (n + j)).map σ)).thread t =
        (runSched y ((List.range n).map σ)).thread t := by
      intro j
      induction j with
      | zero => exact fun _ => rfl
      | succ j ih =>
        intro hj
        rw [← Nat.add_assoc, runSched_succ, step_other _ fun e => Nat.find_min hex (show j < d by omega) e.symm]
        exact ih (by omega)
    exact this d le_rfl
  have key : ∀ (m : Tree κ V (R t)) (n : ℕ), (runSched y ((List.range n).map σ)).thread t = m →
      ∃ n, (∃ x, (runSched y ((List.range n).map σ)).thread t = .ret x) ∨
        ∃ e, (runSched y ((List.range n).map σ)).thread t = .err e := by
    intro m
    induction m with
    | ret x => exact fun n h => ⟨n, .inl ⟨x, h⟩⟩
    | err e => exact fun n h => ⟨n, .inr ⟨e, h⟩⟩
    | get k f ih =>
      intro n h
      obtain ⟨n', -, e, e2⟩ := next n
      refine ih ((runSched y ((List.range n').map σ)).dict k) (n' + 1) ?_
      rw [runSched_succ, e, step_self, e2, h]; rfl
    | put k v m ih =>
      intro n h
      obtain ⟨n', -, e, e2⟩ := next n
      refine ih (n' + 1) ?_
      rw [runSched_succ, e, step_self, e2, h]; rfl
  exact key _ 0 rfl

/-- a schedule that runs one thread only is an uninterrupted call -/
theorem alone (y : Sys V R) (t : τ) : ∃ n, (runSched y (List.replicate n t)).dict = ((y.thread t).run y.dict).2 ∧
    (runSched y (List.replicate n t)).thread t = (match ((y.thread t).run y.dict).1 with | .ok x => .ret x | .error e => .err e) := by
  have : ∀ (m : Tree κ V (R t)) (y : Sys V R), y.thread t = m → ∃ n, (runSched y (List.replicate n t)).dict = (m.run y.dict).2 ∧
      (runSched y (List.replicate n t)).thread t = (match (m.run y.dict).1 with | .ok x => .ret x | .error e => .err e) := by
    intro m
    induction m with
    | ret x => exact fun y h => ⟨0, rfl, h⟩
    | err e => exact fun y h => ⟨0, rfl, h⟩
    | get k f ih =>
      intro y h
      have h1 : (step y t).thread t = f (y.dict k) := by rw [step_self, h]; rfl
      have h2 : (step y t).dict = y.dict := by unfold step; rw [h]; rfl
      obtain ⟨n, g1, g2⟩ := ih _ (step y t) h1
      rw [h2] at g1 g2
      exact ⟨n + 1, g1, g2⟩
    | put k v m ih =>
      intro y h
      have h1 : (step y t).thread t = m := by rw [step_self, h]; rfl
      have h2 : (step y t).dict = Function.update y.dict k (some v) := by unfold step; rw [h]; rfl
      obtain ⟨n, g1, g2⟩ := ih (step y t) h1
      rw [h2] at g1 g2
      exact ⟨n + 1, g1, g2⟩
  exact this _ y rfl

end generic

/-! ## graph objects -/

variable {ι α : Type} {c : Ctx ι α}

/-- good entries of both kinds -/
def goodO (g : Proofs.Cache.GoodF c) (gm : MemoKey → ℚ → Prop) : (k : OKey ι) → OVal c.n α k → Prop
  | .inl k, v => g k v
  | .inr k, v => gm k v

variable [DecidableEq ι]
variable {g : Proofs.Cache.GoodF c} {gm : MemoKey → ℚ → Prop} {E : Err → Prop}

omit [DecidableEq ι] in
theorem wp_ofM {a : Type} {T : a → Key ι → Prop} {Q : a → Prop} {S : Key ι → Prop} {m : M c a}
    (h : Proofs.Cache.Sat g E S m T Q) : Wp (goodO g gm) E Q (ofM m) (fun k => ∃ k', k = .inl k' ∧ S k') := by
  unfold Proofs.Cache.Sat at h
  induction m generalizing S with
  | ret x => exact h.1
  | err e => exact h
  | get k f ih =>
    intro o ho hk
    refine (ih o (h o ho fun hs => hk ⟨k, rfl, hs⟩)).mono ?_ (fun _ h => h) (fun _ h => h)
    rintro _ ⟨k', rfl, h' | ⟨h', rfl⟩⟩
    · exact .inl ⟨k', rfl, h'⟩
    · exact .inr ⟨h', rfl⟩
  | put k v m ih =>
    refine ⟨h.1, (ih h.2).mono ?_ (fun _ h => h) (fun _ h => h)⟩
    rintro _ ⟨k', rfl, h' | rfl⟩
    · exact .inl ⟨k', rfl, h'⟩
    · exact .inr rfl

omit [DecidableEq ι] in
theorem wp_ofM_false {a : Type} {Q : a → Prop} {m : M c a}
    (h : Proofs.Cache.Sat g E (fun _ => False) m (fun _ _ => False) Q) : Wp (goodO g gm) E Q (ofM m) (fun _ => False) :=
  (wp_ofM h).mono (fun _ ⟨_, _, h⟩ => h) (fun _ h => h) (fun _ h => h)

omit [DecidableEq ι] in
theorem wp_readMemo {key : MemoKey} {S : OKey ι → Prop} (hS : S (.inr key)) :
    Wp (goodO g gm) E (gm key) (readMemo c key) S := by
  intro o ho hk
  obtain ⟨v, rfl⟩ := Option.isSome_iff_exists.1 (hk hS)
  exact ho v rfl

theorem wp_cacheitT {T : ℚ → Key ι → Prop} {key : MemoKey} {m : M c ℚ}
    (h : Proofs.Cache.Sat g E (fun _ => False) m T (gm key)) :
    Wp (goodO g gm) E (gm key) (cacheitT c key m) (fun _ => False) := by
  intro o ho hk
  change Wp _ _ _ (if Option.isSome (α := ℚ) o then _ else _) _
  by_cases h0 : Option.isSome (α := ℚ) o
  · rw [if_pos h0]
    exact wp_readMemo (.inr ⟨h0, rfl⟩)
  · rw [if_neg h0]
    refine Wp.bind ((wp_ofM h).mono (fun k hk => ?_) (fun _ h => h) (fun _ h => h)) fun v hv => ⟨hv, wp_readMemo (.inr rfl)⟩
    obtain ⟨_, _, h⟩ := hk
    exact h.elim

/-! ## uninterrupted calls are the sequential model -/

variable [LinearOrder α] [Zero α]

omit [LinearOrder α] [Zero α] in
theorem run_ofM {a : Type} (m : M c a) (o : Obj c) :
    (ofM m).run (theDict o) = ((onStore c m o).1, theDict (onStore c m o).2) := by
  obtain ⟨s, mm⟩ := o
  unfold onStore
  induction m generalizing s with
  | ret x => rfl
  | err e => rfl
  | get k f ih => exact ih (s k) s
  | put k v m ih =>
    have : Function.update (theDict (⟨s, mm⟩ : Obj c)) (.inl k) (some v) = theDict ⟨Function.update s k (some v), mm⟩ := by
      funext k'
      cases k' with
      | inl k' =>
        by_cases e : k' = k
        · subst e; simp [theDict]
        · rw [Function.update_of_ne (by simpa using e)]
          simp [theDict, Function.update_of_ne e]
      | inr k' => rw [Function.update_of_ne (by simp)]; rfl
    change (ofM m).run (Function.update (theDict (⟨s, mm⟩ : Obj c)) (.inl k) (some v)) = _
    rw [this, ih]
    rfl

omit [LinearOrder α] [Zero α] in
theorem run_readMemo {key : MemoKey} {o : Obj c} {v : ℚ} (h : o.memo key = some v) :
    (readMemo c key).run (theDict o) = (.ok v, theDict o) := by
  unfold readMemo
  rw [Tree.run]
  change Tree.run (match o.memo key with | some v => _ | none => _) _ = _
  rw [h]
  rfl

omit [LinearOrder α] [Zero α] in
theorem run_cacheitT (key : MemoKey) (m : M c ℚ) (o : Obj c) :
    (cacheitT c key m).run (theDict o) =
      ((Memo.cacheit c key m o).1, theDict (Memo.cacheit c key m o).2) := by
  unfold cacheitT Memo.cacheit
  rw [Tree.run]
  change Tree.run (if Option.isSome (o.memo key) then _ else _) _ = _
  cases h : o.memo key with
  | some v => rw [if_pos (by rfl)]; exact run_readMemo h
  | none =>
    rw [if_neg (by simp), run_bind, run_ofM]
    obtain ⟨x, o'⟩ := onStore c m o
    cases x with
    | error e => rfl
    | ok v =>
      have : Function.update (theDict o') (.inr key) (some v) =
          theDict ({ o' with memo := Function.update o'.memo key (some v) } : Obj c) := by
        funext k'
        cases k' with
        | inl k' => rw [Function.update_of_ne (by simp)]; rfl
        | inr k' =>
          by_cases e : k' = key
          · subst e; simp [theDict]
          · rw [Function.update_of_ne (by simpa using e)]
            simp [theDict, Function.update_of_ne e]
      change (readMemo c key).run (Function.update (theDict o') (.inr key) (some v)) = _
      rw [this]
      exact run_readMemo (Function.update_self ..)

theorem run_transitivityT (o : Obj c) :
    (transitivityT c).run (theDict o) = ((Memo.callTransitivity c o).1, theDict (Memo.callTransitivity c o).2) := by
  unfold transitivityT Memo.callTransitivity
  split_ifs
  · rfl
  · exact run_cacheitT ..
  · exact run_cacheitT ..

theorem run_averageT (mx : ι) (f : Memo.Norm α) (mask : NodeMask c.n) (wt cz : Bool) (o : Obj c) :
    (averageT c mx f mask wt cz).run (theDict o) =
      ((Memo.callAverage c mx f mask wt cz o).1, theDict (Memo.callAverage c mx f mask wt cz o).2) := by
  unfold averageT Memo.callAverage
  split_ifs
  · rfl
  · cases mask with
    | none => exact run_cacheitT ..
    | some p => exact run_ofM ..

end Proofs.Threads
