import Verif.Model.Cache
import Verif.Proofs.CacheMath

/-!
A small program logic for cache code.

`Sat g E S m T Q`: if the keys `S` are present at the start, all entries are `g`ood, and between any two accesses
of `m` the cache may change in any way that keeps all entries good and loses no key, then `m` writes good entries
only, and returns a value satisfying `Q` with the keys `T` present, or raises an error satisfying `E`.

`Sat.run` is the special case without changes from outside; `Proofs/Threads.lean` has the general one.
-/

open GB Spec.Prop Model Model.Cache

namespace Proofs.Cache

variable {ι α : Type} [DecidableEq ι] {c : Ctx ι α}

instance : LawfulMonad (M c) := LawfulMonad.mk'
  (id_map := fun m => by
    show m.bind (fun x => .ret x) = m
    induction m with
    | ret x => rfl
    | err e => rfl
    | get k f ih => exact congrArg (M.get k) (funext ih)
    | put k v m ih => exact congrArg (M.put k v) ih)
  (pure_bind := fun _ _ => rfl)
  (bind_assoc := fun m f g => by
    show (m.bind f).bind g = m.bind fun x => (f x).bind g
    induction m with
    | ret x => rfl
    | err e => rfl
    | get k h ih => exact congrArg (M.get k) (funext ih)
    | put k v m ih => exact congrArg (M.put k v) ih)

/-- per-key predicate on cached values -/
abbrev GoodF (c : Ctx ι α) := (k : Key ι) → Val c.n α k → Prop

/-- every cached value is good -/
def Inv (g : GoodF c) (s : Store ι c.n α) : Prop := ∀ k v, s k = some v → g k v

/-- the weakest-precondition form of `Sat` -/
def Wp {a : Type} (g : GoodF c) (E : Err → Prop) (T : a → Key ι → Prop) (Q : a → Prop) :
    M c a → (Key ι → Prop) → Prop
  | .ret x, S => Q x ∧ ∀ k, T x k → S k
  | .err e, _ => E e
  | .get k f, S => ∀ o, (∀ v, o = some v → g k v) → (S k → o.isSome) →
      Wp g E T Q (f o) (fun k' => S k' ∨ (o.isSome ∧ k' = k))
  | .put k v m, S => g k v ∧ Wp g E T Q m (fun k' => S k' ∨ k' = k)

def Sat {a : Type} (g : GoodF c) (E : Err → Prop) (S : Key ι → Prop) (m : M c a)
    (T : a → Key ι → Prop) (Q : a → Prop) : Prop := Wp g E T Q m S

variable {a b : Type} {g : GoodF c} {E E' : Err → Prop} {S S' : Key ι → Prop}
  {T : a → Key ι → Prop} {Q : a → Prop}

theorem Sat.conseq {m : M c a} {T' : a → Key ι → Prop} {Q' : a → Prop}
    (h : Sat g E' S' m T' Q') (hS : ∀ k, S' k → S k) (hE : ∀ e, E' e → E e)
    (hQ : ∀ x, Q' x → Q x) (hT : ∀ x k, Q' x → T x k → S k ∨ T' x k) : Sat g E S m T Q := by
  unfold Sat at *
  induction m generalizing S S' with
  | ret x =>
    refine ⟨hQ x h.1, fun k hk => ?_⟩
    rcases hT x k h.1 hk with h' | h'
    · exact h'
    · exact hS k (h.2 k h')
  | err e => exact hE e h
  | get k f ih =>
    intro o ho hk
    refine ih o (h o ho fun h => hk (hS k h)) ?_ ?_
    · rintro k' (h' | h')
      · exact .inl (hS k' h')
      · exact .inr h'
    · intro x k' hx hk'
      rcases hT x k' hx hk' with h' | h'
      · exact .inl (.inl h')
      · exact .inr h'
  | put k v m ih =>
    refine ⟨h.1, ih h.2 ?_ ?_⟩
    · rintro k' (h' | h')
      · exact .inl (hS k' h')
      · exact .inr h'
    · intro x k' hx hk'
      rcases hT x k' hx hk' with h' | h'
      · exact .inl (.inl h')
      · exact .inr h'

theorem sat_pure {x : a} (h : Q x) (hT : ∀ k, T x k → S k) : Sat g E S (pure x : M c a) T Q := ⟨h, hT⟩

theorem sat_throw {e : Err} (h : E e) : Sat g E S (throw e : M c a) T Q := h

theorem run_bind (m : M c a) (f : a → M c b) (s : Store ι c.n α) :
    (m >>= f).run s = match m.run s with
      | (.ok x, s') => (f x).run s'
      | (.error e, s') => (.error e, s') := by
  change (m.bind f).run s = _
  induction m generalizing s with
  | ret x => rfl
  | err e => rfl
  | get k g ih => exact ih (s k) s
  | put k v m ih => exact ih _

theorem sat_bind {m : M c a} {f : a → M c b} {T' : b → Key ι → Prop} {Q' : b → Prop}
    (h : Sat g E S m T Q) (hf : ∀ x, Q x → Sat g E (fun k => S k ∨ T x k) (f x) T' Q') :
    Sat g E S (m >>= f) T' Q' := by
  change Sat g E S (m.bind f) T' Q'
  induction m generalizing S with
  | ret x =>
    exact (hf x h.1).conseq (fun k hk => hk.elim id (h.2 k)) (fun _ h => h) (fun _ h => h) (fun _ _ _ h => .inr h)
  | err e => exact h
  | get k g' ih =>
    intro o ho hk
    refine ih o (h o ho hk) fun x hx => (hf x hx).conseq ?_ (fun _ h => h) (fun _ h => h) (fun _ _ _ h => .inr h)
    rintro k' (h' | h')
    · exact .inl (.inl h')
    · exact .inr h'
  | put k v m ih =>
    refine ⟨h.1, ih h.2 fun x hx => (hf x hx).conseq ?_ (fun _ h => h) (fun _ h => h) (fun _ _ _ h => .inr h)⟩
    rintro k' (h' | h')
    · exact .inl (.inl h')
    · exact .inr h'

/-- an uninterrupted run -/
theorem Sat.run {m : M c a} (h : Sat g E S m T Q) (s : Store ι c.n α) (hi : Inv g s)
    (hs : ∀ k, S k → (s k).isSome) :
    Inv g (m.run s).2 ∧ (∀ k, (s k).isSome → ((m.run s).2 k).isSome) ∧
    (∀ x, (m.run s).1 = .ok x → Q x ∧ ∀ k, T x k → ((m.run s).2 k).isSome) ∧
    (∀ e, (m.run s).1 = .error e → E e) := by
  unfold Sat at h
  induction m generalizing s S with
  | ret x =>
    refine ⟨hi, fun k hk => hk, ?_, ?_⟩
    · intro y hy; cases hy; exact ⟨h.1, fun k hk => hs k (h.2 k hk)⟩
    · intro e he; cases he
  | err e =>
    refine ⟨hi, fun k hk => hk, ?_, ?_⟩
    · intro y hy; cases hy
    · intro e' he; cases he; exact h
  | get k f ih =>
    refine ih (s k) (h (s k) (fun v hv => hi k v hv) (hs k)) s hi ?_
    rintro k' (h' | ⟨h', rfl⟩)
    · exact hs k' h'
    · exact h'
  | put k v m ih =>
    have h2 : ∀ k', (s k').isSome → (Function.update s k (some v) k').isSome := by
      intro k' hk'
      by_cases e : k' = k
      · subst e; simp
      · simpa only [Function.update_of_ne e] using hk'
    obtain ⟨g1, g2, g3⟩ := ih h.2 (Function.update s k (some v)) (by
        intro k' w hw
        by_cases e : k' = k
        · subst e
          simp only [Function.update_self, Option.some.injEq] at hw
          subst hw; exact h.1
        · exact hi k' w ((Function.update_of_ne e (some v) s).symm.trans hw)) (by
        rintro k' (h' | h')
        · exact h2 k' (hs k' h')
        · subst h'; simp)
    exact ⟨g1, fun k' hk' => g2 k' (h2 k' hk'), g3⟩

theorem sat_read {k : Key ι} (hk : S k) {T : Val c.n α k → Key ι → Prop} {Q : Val c.n α k → Prop}
    (hQ : ∀ v, g k v → Q v) (hT : ∀ v k', g k v → T v k' → S k') : Sat g E S (readK c k) T Q := by
  intro o ho hs
  cases o with
  | none => exact absurd (hs hk) (by simp)
  | some v => exact ⟨hQ v (ho v rfl), fun k' hk' => .inl (hT v k' (ho v rfl) hk')⟩

/-- reading a key that may be absent -/
theorem sat_read_or {k : Key ι} {T : Val c.n α k → Key ι → Prop} {Q : Val c.n α k → Prop}
    (hE : E .keyError)
    (hQ : ∀ v, g k v → Q v) (hT : ∀ v k', g k v → T v k' → S k' ∨ k' = k) :
    Sat g E S (readK c k) T Q := by
  intro o ho hs
  cases o with
  | none => exact hE
  | some v =>
    refine ⟨hQ v (ho v rfl), fun k' hk' => ?_⟩
    rcases hT v k' (ho v rfl) hk' with h | h
    · exact .inl h
    · exact .inr ⟨rfl, h⟩

theorem sat_peek {k : Key ι} :
    Sat g E S (peek c k) (fun o k' => o.isSome ∧ k' = k) (fun o => ∀ v, o = some v → g k v) :=
  fun _ ho _ => ⟨ho, fun _ hk' => .inr hk'⟩

theorem sat_has {k : Key ι} :
    Sat g E S (has c k) (fun x k' => x = true ∧ k' = k) (fun _ => True) :=
  fun _ _ _ => ⟨trivial, fun _ hk' => .inr hk'⟩

/-- a key known to be present is found -/
theorem sat_has' {k : Key ι} :
    Sat g E S (has c k) (fun x k' => x = true ∧ k' = k) (fun x => S k → x = true) :=
  fun _ _ hs => ⟨hs, fun _ hk' => .inr hk'⟩

theorem sat_put {k : Key ι} {v : Val c.n α k} (h : g k v) :
    Sat g E S (put c k v) (fun _ k' => k' = k) (fun _ => True) :=
  ⟨h, trivial, fun _ hk' => .inr hk'⟩

theorem sat_fill {k : Key ι} {m : M c (Val c.n α k)} {T' : Val c.n α k → Key ι → Prop}
    (h : Sat g E S m T' (g k)) :
    Sat g E S (fill c k m) (fun _ k' => k' = k) (fun _ => True) := by
  unfold fill
  refine sat_bind sat_has fun x _ => ?_
  cases x
  · refine sat_bind (h.conseq (T := T') (Q := g k) ?_ (fun _ h => h) (fun _ h => h) ?_)
      fun v hv => sat_put hv
    · exact fun _ h => Or.inl h
    · exact fun _ _ _ h => Or.inr h
  · exact sat_pure trivial (by simp)

theorem sat_ifMissing {k : Key ι} {m : M c Unit} (h : Sat g E S m (fun _ k' => k' = k) fun _ => True) :
    Sat g E S (ifMissing c k m) (fun _ k' => k' = k) (fun _ => True) := by
  unfold ifMissing
  refine sat_bind sat_has fun x _ => ?_
  cases x
  · exact h.conseq (fun _ h => Or.inl h) (fun _ h => h) (fun _ h => h) (by simp +contextual)
  · exact sat_pure trivial (by simp)

/-- `ifMissing` when the body need not set the key -/
theorem sat_ifMissing' {k : Key ι} {m : M c Unit} (h : Sat g E S m (fun _ _ => False) fun _ => True) :
    Sat g E S (ifMissing c k m) (fun _ _ => False) (fun _ => True) := by
  unfold ifMissing
  refine sat_bind sat_has fun x _ => ?_
  cases x
  · exact h.conseq (fun _ h => Or.inl h) (fun _ h => h) (fun _ h => h) (by simp +contextual)
  · exact sat_pure trivial (by simp)

theorem sat_ite {x : M c Bool} {p q : M c b} {Tx : Bool → Key ι → Prop} {Qx : Bool → Prop}
    {T : b → Key ι → Prop} {Q : b → Prop} (hx : Sat g E S x Tx Qx)
    (hp : Qx true → Sat g E (fun k => S k ∨ Tx true k) p T Q) (hq : Qx false → Sat g E S q T Q) :
    Sat g E S (x >>= fun t => if t = true then p else q) T Q := by
  refine sat_bind hx fun t ht => ?_
  cases t
  · exact (hq ht).conseq (fun _ h => Or.inl h) (fun _ h => h) (fun _ h => h) (by simp +contextual)
  · exact hp ht

theorem sat_and {x y : M c Bool} {Tx Ty : Bool → Key ι → Prop} {Qx Qy : Bool → Prop}
    (hx : Sat g E S x Tx Qx) (hy : Qx true → Sat g E (fun k => S k ∨ Tx true k) y Ty Qy) :
    Sat g E S (andM c x y) (fun t k => t = true ∧ (Tx true k ∨ Ty true k))
      (fun t => t = true → Qx true ∧ Qy true) := by
  unfold Cache.andM
  refine sat_bind hx fun t ht => ?_
  cases t
  · exact sat_pure (by simp) (by simp)
  · refine (hy ht).conseq (fun _ h => h) (fun _ h => h) ?_ ?_
    · intro r hr h; subst h; exact ⟨ht, hr⟩
    · rintro r k hr ⟨rfl, h | h⟩
      · exact Or.inl (Or.inr h)
      · exact Or.inr h

theorem sat_not {x : M c Bool} {Tx : Bool → Key ι → Prop} {Qx : Bool → Prop}
    (hx : Sat g E S x Tx Qx) :
    Sat g E S (notM c x) (fun t => Tx (!t)) (fun t => Qx (!t)) := by
  unfold Cache.notM
  exact sat_bind hx fun t ht => sat_pure (by simpa using ht) (by simp +contextual)

theorem sat_isB {k : Key ι} {hk : Val c.n α k = Bool} {t : Bool} :
    Sat g E S (isB c k hk t) (fun x k' => x = true ∧ k' = k)
      (fun x => x = true → ∀ v, cast hk v = t → g k v) := by
  intro o ho hs
  cases o with
  | none => exact ⟨fun h => (by simp at h), fun k' h => (by simp at h)⟩
  | some w =>
    refine ⟨?_, fun k' h => .inr ⟨rfl, h.2⟩⟩
    intro h v hvt
    simp only [Option.map_some, beq_iff_eq, Option.some.injEq] at h
    have : v = w := (cast_inj hk).1 (hvt.trans h.symm)
    subst this
    exact ho v rfl

theorem sat_selfFalse :
    Sat g E S (selfFalse c) (fun x k' => x = true ∧ k' = .hasSelf)
      (fun x => x = true → g .hasSelf false) := by
  intro o ho hs
  refine ⟨fun h => ho _ (by simpa using h), ?_⟩
  rintro k' ⟨h, rfl⟩
  have : o = some false := by simpa using h
  exact .inr ⟨by simp [this], rfl⟩

theorem sat_when {x : Bool} {m : M c Unit} (h : x = true → Sat g E S m (fun _ _ => False) fun _ => True) :
    Sat g E S (whenM c x m) (fun _ _ => False) (fun _ => True) := by
  unfold whenM
  split
  · next e => exact h e
  · exact sat_pure trivial (by simp)

theorem sat_sync {differ : M c Bool} {copy : M c Unit} {Td : Bool → Key ι → Prop} {Qd : Bool → Prop}
    (hd : Sat g E S differ Td Qd) (ht : Qd true → g .hasSelf true)
    (hc : g .hasSelf false → Sat g E S copy (fun _ _ => False) fun _ => True) :
    Sat g E S (sync c differ copy) (fun _ _ => False) (fun _ => True) := by
  unfold sync
  refine sat_ite (sat_and (sat_not sat_has) fun _ =>
    hd.conseq (Q := Qd) (T := Td) (fun _ h => Or.inl h) (fun _ h => h) (fun _ h => h) (by simp +contextual)) ?_ ?_
  · intro h
    exact (sat_put (S := S) (E := E) (ht (h rfl).2)).conseq (fun _ h => Or.inl h) (fun _ h => h)
      (fun _ _ => trivial) (by simp)
  · intro _
    refine sat_ite sat_selfFalse ?_ ?_
    · intro h
      exact (hc (h rfl)).conseq (fun _ h => Or.inl h) (fun _ h => h) (fun _ h => h) (by simp)
    · intro _; exact sat_pure trivial (by simp)

end Proofs.Cache

namespace Proofs.Cache

variable {ι α : Type} [DecidableEq ι] {c : Ctx ι α} {a b : Type} {g : GoodF c} {E : Err → Prop}
  {S : Key ι → Prop} {T : b → Key ι → Prop} {Q : b → Prop}

theorem sat_readT {k : Key ι} {f : Val c.n α k → M c b} (hk : S k)
    (h : ∀ v, g k v → Sat g E S (f v) T Q) : Sat g E S (readK c k >>= f) T Q :=
  sat_bind (sat_read (T := fun _ _ => False) (Q := g k) hk (fun _ h => h) (by simp)) fun v hv =>
    (h v hv).conseq (fun _ h => Or.inl h) (fun _ h => h) (fun _ h => h) (fun _ _ _ h => Or.inr h)

theorem sat_putT {k : Key ι} {v : Val c.n α k} {f : Unit → M c b} (hg : g k v)
    (h : Sat g E (fun k' => S k' ∨ k' = k) (f ()) T Q) : Sat g E S (put c k v >>= f) T Q :=
  sat_bind (sat_put hg) fun _ _ => h

theorem sat_fillT {k : Key ι} {m : M c (Val c.n α k)} {f : Unit → M c b}
    (hm : Sat g E S m (fun _ _ => False) (g k))
    (h : Sat g E (fun k' => S k' ∨ k' = k) (f ()) T Q) : Sat g E S (fill c k m >>= f) T Q :=
  sat_bind (sat_fill hm) fun _ _ => h

theorem sat_ifMissingT {k : Key ι} {m : M c Unit} {f : Unit → M c b}
    (hm : Sat g E S m (fun _ k' => k' = k) fun _ => True)
    (h : Sat g E (fun k' => S k' ∨ k' = k) (f ()) T Q) : Sat g E S (ifMissing c k m >>= f) T Q :=
  sat_bind (sat_ifMissing hm) fun _ _ => h

theorem sat_ifMissingT' {k : Key ι} {m : M c Unit} {f : Unit → M c b}
    (hm : Sat g E S m (fun _ _ => False) fun _ => True)
    (h : Sat g E S (f ()) T Q) : Sat g E S (ifMissing c k m >>= f) T Q :=
  sat_bind (sat_ifMissing' hm) fun _ _ => h.conseq (fun _ h => Or.inl h) (fun _ h => h)
    (fun _ h => h) (fun _ _ _ h => Or.inr h)

theorem sat_whenT {x : Bool} {m : M c Unit} {f : Unit → M c b}
    (hm : x = true → Sat g E S m (fun _ _ => False) fun _ => True)
    (h : Sat g E S (f ()) T Q) : Sat g E S (whenM c x m >>= f) T Q :=
  sat_bind (sat_when hm) fun _ _ => h.conseq (fun _ h => Or.inl h) (fun _ h => h) (fun _ h => h)
    (fun _ _ _ h => Or.inr h)

theorem sat_syncT {differ : M c Bool} {copy : M c Unit} {Td : Bool → Key ι → Prop}
    {Qd : Bool → Prop} {f : Unit → M c b}
    (hd : Sat g E S differ Td Qd) (ht : Qd true → g .hasSelf true)
    (hc : g .hasSelf false → Sat g E S copy (fun _ _ => False) fun _ => True)
    (h : Sat g E S (f ()) T Q) : Sat g E S (sync c differ copy >>= f) T Q :=
  sat_bind (sat_sync hd ht hc) fun _ _ => h.conseq (fun _ h => Or.inl h) (fun _ h => h)
    (fun _ h => h) (fun _ _ _ h => Or.inr h)

/-- a call whose effect on the key set is not needed -/
theorem sat_callT {m : M c a} {f : a → M c b} {Tm : a → Key ι → Prop} {Qm : a → Prop}
    (hm : Sat g E S m Tm Qm) (h : ∀ x, Qm x → Sat g E S (f x) T Q) : Sat g E S (m >>= f) T Q :=
  sat_bind hm fun x hx => (h x hx).conseq (fun _ h => Or.inl h) (fun _ h => h) (fun _ h => h)
    (fun _ _ _ h => Or.inr h)

theorem sat_putE {k : Key ι} {v : Val c.n α k} {T : Unit → Key ι → Prop} (hg : g k v)
    (hT : ∀ k', T () k' → S k' ∨ k' = k) :
    Sat g E S (put c k v) T (fun _ => True) :=
  (sat_put (S := S) (E := E) hg).conseq (fun _ h => h) (fun _ h => h) (fun _ _ => trivial)
    (fun _ k _ h => hT k h)

/-- the `else` branch of a presence test knows that the key was not already known present -/
theorem sat_iteHas {k : Key ι} {p q : M c b}
    (hp : Sat g E (fun k' => S k' ∨ k' = k) p T Q) (hq : ¬ S k → Sat g E S q T Q) :
    Sat g E S (has c k >>= fun t => if t = true then p else q) T Q := by
  by_cases h : S k
  · have : Sat g E S (has c k) (fun _ _ => False) (fun t => t = true) := by
      exact fun o ho hs => ⟨hs h, fun k' hk' => hk'.elim⟩
    refine sat_bind this fun t ht => ?_
    subst ht
    exact hp.conseq (by
      rintro k' (h' | rfl)
      · exact Or.inl h'
      · exact Or.inl h) (fun _ h => h) (fun _ h => h) (fun _ _ _ h => Or.inr h)
  · exact sat_ite sat_has (fun _ => hp.conseq (by
      rintro k' (h' | rfl)
      · exact Or.inl h'
      · exact Or.inr ⟨rfl, rfl⟩) (fun _ h => h) (fun _ h => h) (fun _ _ _ h => Or.inr h)) fun _ => hq h

end Proofs.Cache
