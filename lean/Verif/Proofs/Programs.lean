import Verif.Model.Programs
import Verif.Proofs.Memo
import Verif.Props.Cache

/-! Programs on a graph object: running them from a good cache agrees with `eval`. -/

open GB Spec.Prop Model Model.Cache Model.Memo Proofs.CacheMath Proofs.Cache

namespace Proofs.Prog

variable {ι α : Type} {c : Ctx ι α} {a b : Type}

theorem bind_def (p : Prog c a) (f : a → Prog c b) : (p >>= f) = p.bind f := rfl
@[simp] theorem pure_def (x : a) : (pure x : Prog c a) = .done (.ok x) := rfl

@[simp] theorem done_ok_bind (x : a) (f : a → Prog c b) : (Prog.done (.ok x) >>= f) = f x := rfl
@[simp] theorem done_error_bind (e : Err) (f : a → Prog c b) :
    (Prog.done (.error e) >>= f) = .done (.error e) := rfl
@[simp] theorem ask_bind (r : Req ι c.n) (k : Val c.n α r.key → Prog c a) (f : a → Prog c b) :
    (Prog.ask r k >>= f) = .ask r fun v => k v >>= f := rfl
theorem get_bind (key : Key ι) (mask : Option (VMask c.n)) (f : Val c.n α key → Prog c b) :
    (Prog.get key mask >>= f) = .ask { key := key, mask := mask } f := rfl
theorem lift_bind (x : Except Err a) (f : a → Prog c b) :
    (Prog.lift x >>= f) = match x with | .ok v => f v | .error e => .done (.error e) := by
  cases x <;> rfl

instance : LawfulMonad (Prog c) := LawfulMonad.mk'
  (id_map := fun p => by
    change p.bind _ = p
    induction p with
    | done x => cases x <;> rfl
    | ask r k ih => exact congrArg (Prog.ask r) (funext ih))
  (pure_bind := fun _ _ => rfl)
  (bind_assoc := fun p f g => by
    induction p with
    | done x => cases x <;> rfl
    | ask r k ih => exact congrArg (Prog.ask r) (funext ih))

variable [DecidableEq ι] [LinearOrder α] [Zero α]

@[simp] theorem eval_done (x : Except Err a) : (Prog.done (c := c) x).eval = x := rfl
@[simp] theorem eval_lift (x : Except Err a) : (Prog.lift (c := c) x).eval = x := rfl
@[simp] theorem eval_pure (x : a) : (pure x : Prog c a).eval = .ok x := rfl
@[simp] theorem eval_get (key : Key ι) (mask : Option (VMask c.n)) :
    (Prog.get key mask).eval = .ok (restrict mask key (value c key)) := rfl

theorem eval_bind (p : Prog c a) (f : a → Prog c b) :
    (p >>= f).eval = p.eval >>= fun x => (f x).eval := by
  induction p with
  | done x => cases x <;> rfl
  | ask r k ih => exact ih _

/-- a lookup followed by code: the code sees the defined value -/
theorem eval_get_bind (key : Key ι) (mask : Option (VMask c.n)) (f : Val c.n α key → Prog c b) :
    (Prog.get key mask >>= f).eval = (f (restrict mask key (value c key))).eval := rfl

theorem path_bind (p : Prog c a) (f : a → Prog c b) :
    (p >>= f).path = p.path ++ match p.eval with | .ok x => (f x).path | .error _ => [] := by
  induction p with
  | done x => cases x <;> simp [Prog.path]
  | ask r k ih =>
    exact congrArg (List.cons r) (ih _)

theorem eval_mapM {K : Type} (f : K → Prog c a) (l : List K) :
    (l.mapM f).eval = l.mapM fun x => (f x).eval := by
  induction l with
  | nil => rfl
  | cons x l ih =>
    simp only [List.mapM_cons, eval_bind, ih]
    rfl

/-! ## the store after a program -/

/-- a program changes the cache by the lookups it makes, and in no other way -/
theorem run_store (p : Prog c a) (s : Store ι c.n α) :
    (p.run.run s).2 = (p.trace s).foldl (fun s r => exec c r s) s := by
  induction p generalizing s with
  | done x => cases x <;> rfl
  | ask r k ih =>
    unfold Prog.run Prog.trace
    rw [run_bind]
    have he : exec c r s = ((getProp c r.al r.mask r.key).run s).2 := rfl
    rcases hm : (getProp c r.al r.mask r.key).run s with ⟨_ | v, s'⟩ <;> rw [hm] at he
    · simp only [List.foldl_cons, List.foldl_nil, he]
    · simp only [List.foldl_cons, he]
      exact ih v s'

/-! ## polite programs -/

/-- the condition on a single lookup; `off` tells that `offdiag` was looked up before, `risky` which
exceptions of lookups are acceptable -/
def OkReq (c : Ctx ι α) (risky : Err → Prop) (off : Prop) (r : Req ι c.n) : Prop :=
  Props.Safe c r ∧ (r.key = .neg .p ∨ r.key = .elem c.mn .p → c.iso.isSome = true ∨ ¬ Props.SelfEdge c) ∧
    (r.key = .negDiag → off) ∧ 
    ∀ e, Allowed c True r.key e → (e = .attributeError → ¬ off) → risky e

/-- the condition on the lookups of a program -/
def Polite (c : Ctx ι α) (risky : Err → Prop) (off : Prop) : List (Req ι c.n) → Prop
  | [] => True
  | r :: rs => OkReq c risky off r ∧ Polite c risky (off ∨ r.key = .offdiag) rs

variable {risky : Err → Prop}

theorem OkReq.mono {off off' : Prop} (h : off → off') {r : Req ι c.n} (hr : OkReq c risky off r) :
    OkReq c risky off' r := ⟨hr.1, hr.2.1, fun e => h (hr.2.2.1 e),
    fun e he hn => hr.2.2.2 e he fun h1 h2 => hn h1 (h h2)⟩

theorem OkReq.weaken {off : Prop} {p : Err → Prop} (h : ∀ e, risky e → p e) {r : Req ι c.n} (hr : OkReq c risky off r) :
    OkReq c p off r := ⟨hr.1, hr.2.1, hr.2.2.1, fun e he hn => h e (hr.2.2.2 e he hn)⟩

theorem Polite.mono {off off' : Prop} (h : off → off') {l : List (Req ι c.n)} (hl : Polite c risky off l) :
    Polite c risky off' l := by
  induction l generalizing off off' with
  | nil => trivial
  | cons r l ih => exact ⟨hl.1.mono h, ih (Or.imp_left h) hl.2⟩

theorem Polite.weaken {off : Prop} {p : Err → Prop} (h : ∀ e, risky e → p e) {l : List (Req ι c.n)} (hl : Polite c risky off l) :
    Polite c p off l := by
  induction l generalizing off with
  | nil => trivial
  | cons r l ih => exact ⟨hl.1.weaken h, ih hl.2⟩

theorem Polite.append {off : Prop} {l l' : List (Req ι c.n)} (hl : Polite c risky off l)
    (hl' : Polite c risky off l') : Polite c risky off (l ++ l') := by
  induction l generalizing off with
  | nil => exact hl'
  | cons r l ih => exact ⟨hl.1, ih hl.2 (hl'.mono Or.inl)⟩

theorem polite_bind {off : Prop} {p : Prog c a} {f : a → Prog c b} (hp : Polite c risky off p.path)
    (hf : ∀ x, p.eval = .ok x → Polite c risky off (f x).path) : Polite c risky off (p >>= f).path := by
  rw [path_bind]
  refine hp.append ?_
  cases h : p.eval with
  | error e => trivial
  | ok x => exact hf x h

theorem polite_get_bind {off : Prop} {key : Key ι} {mask : Option (VMask c.n)}
    {f : Val c.n α key → Prog c b} (h : OkReq c risky off { key := key, mask := mask })
    (hf : Polite c risky (off ∨ key = .offdiag) (f (restrict mask key (value c key))).path) :
    Polite c risky off (Prog.get key mask >>= f).path := ⟨h, hf⟩

theorem polite_get {off : Prop} {key : Key ι} {mask : Option (VMask c.n)}
    (h : OkReq c risky off { key := key, mask := mask }) :
    Polite c risky off (Prog.get (c := c) key mask).path := ⟨h, trivial⟩

theorem polite_lift {off : Prop} {x : Except Err a} : Polite c risky off (Prog.lift (c := c) x).path := trivial
theorem polite_pure {off : Prop} {x : a} : Polite c risky off (pure x : Prog c a).path := trivial

theorem polite_lift_bind {off : Prop} {x : Except Err a} {f : a → Prog c b}
    (hf : ∀ v, x = .ok v → Polite c risky off (f v).path) : Polite c risky off (Prog.lift x >>= f).path :=
  polite_bind polite_lift hf

theorem polite_ite {off : Prop} {q : Prop} [Decidable q] {p p' : Prog c a}
    (h : q → Polite c risky off p.path) (h' : ¬ q → Polite c risky off p'.path) :
    Polite c risky off (if q then p else p').path := by
  split_ifs with hq
  · exact h hq
  · exact h' hq

theorem polite_mapM {K : Type} {off : Prop} {f : K → Prog c a} {l : List K}
    (h : ∀ x ∈ l, Polite c risky off (f x).path) : Polite c risky off (l.mapM f).path := by
  induction l with
  | nil => trivial
  | cons x l ih =>
    rw [List.mapM_cons]
    refine polite_bind (h x (by simp)) fun y _ => polite_bind (ih fun z hz => h z (by simp [hz])) fun _ _ => ?_
    trivial

/-- names that no condition is attached to -/
def Plain (c : Ctx ι α) : Key ι → Prop
  | .neg _ | .negDiag | .totdeg .p | .isoVal | .elem _ .m => False
  | .elem o .p => o ≠ c.mn
  | .recip _ | .totrecip _ | .totdeg .m => c.dir = true
  | _ => True

theorem okReq_of_plain {off : Prop} {r : Req ι c.n} (h : Plain c r.key) : OkReq c risky off r := by
  obtain ⟨k, m, al⟩ := r
  refine ⟨?_, ?_, ?_, ?_⟩
  · rintro hd rfl -
    simp [Plain] at h
  · rintro (rfl | rfl) <;> simp [Plain] at h
  · rintro rfl; simp [Plain] at h
  · rintro e (⟨-, -, ⟨o, rfl⟩ | rfl⟩ | ⟨-, ⟨rfl, -⟩ | ⟨hd, s, rfl | rfl | rfl⟩⟩) -
    · simp [Plain] at h
    · simp [Plain] at h
    · simp [Plain] at h
    · simp [Plain, hd] at h
    · cases s <;> simp [Plain, hd] at h
    · simp [Plain, hd] at h

theorem ok_negM {off : Prop} {m : Option (VMask c.n)} (h : off) :
    OkReq c risky off { key := .neg .m, mask := m } := by
  refine ⟨by rintro - ⟨⟩, by simp, by simp, ?_⟩
  rintro e (⟨he, h1, -⟩ | ⟨-, ⟨h1, -⟩ | ⟨-, s, h1 | h1 | h1⟩⟩) hn <;> try cases h1
  exact absurd h (hn he)

theorem ok_elemM {off : Prop} {o : ι} {m : Option (VMask c.n)} (h : off) :
    OkReq c risky off { key := .elem o .m, mask := m } := by
  refine ⟨by rintro - ⟨⟩, by simp, by simp, ?_⟩
  rintro e (⟨he, h1, -⟩ | ⟨-, ⟨h1, -⟩ | ⟨-, s, h1 | h1 | h1⟩⟩) hn <;> try cases h1
  exact absurd h (hn he)

theorem ok_negP {off : Prop} {m : Option (VMask c.n)} (h : c.iso.isSome = true) :
    OkReq c risky off { key := .neg .p, mask := m } := by
  refine ⟨by rintro - ⟨⟩, fun _ => Or.inl h, by simp, ?_⟩
  rintro e he -
  simp [Allowed] at he

theorem ok_negDiag {off : Prop} {m : Option (VMask c.n)} (h : off) :
    OkReq c risky off { key := .negDiag, mask := m } := by
  refine ⟨by rintro - ⟨⟩, by simp, fun _ => h, ?_⟩
  rintro e he -
  simp [Allowed] at he

theorem ok_isoVal' {off : Prop} {m : Option (VMask c.n)} (h : c.iso = none → risky .keyError) :
    OkReq c risky off { key := .isoVal, mask := m } := by
  refine ⟨by rintro - ⟨⟩, by simp, by simp, ?_⟩
  rintro e he -
  simp [Allowed] at he
  rw [he.1]
  exact h he.2

theorem ok_isoVal {off : Prop} {m : Option (VMask c.n)} (h : c.iso.isSome = true) :
    OkReq c risky off { key := .isoVal, mask := m } :=
  ok_isoVal' fun hn => by simp [hn] at h

theorem ok_totdegP {off : Prop} {m : Option (VMask c.n)} (hd : c.dir = true)
    (h : m = none → ¬ Props.SelfEdge c) : OkReq c risky off { key := .totdeg .p, mask := m } := by
  refine ⟨fun _ _ hm => h hm, by simp, by simp, ?_⟩
  rintro e he -
  simp [Allowed, hd] at he

/-! ## the main lemma -/

theorem sat_run (hv : c.Valid) (p : Prog c a) (off : Prop) (hp : Polite c risky off p.path)
    (S : Key ι → Prop) (hS : off → S .hasSelf ∧ S .offdiag) :
    Sat (good c True True)
      (fun e => p.eval = .error e ∨ risky e) S
      p.run noK (fun x => p.eval = .ok x) := by
  induction p generalizing off S with
  | done x =>
    cases x with
    | ok v => exact sat_pure rfl (by mem)
    | error e => exact sat_throw (Or.inl rfl)
  | ask r k ih =>
    obtain ⟨⟨h1, h2, h3, h4⟩, hk⟩ := hp
    unfold Prog.run
    refine sat_bind ((sat_getProp' hv r.al r.mask r.key (fun e _ => ⟨trivial, (hS (h3 e)).1⟩)
      (fun a b d => Props.noSelf_iff_selfEdge.2 (h1 a b d))
      (fun _ e => (h2 e).imp_right Props.noSelf_iff_selfEdge.2)).conseq (fun _ h => h)
      (fun e he => Or.inr (h4 e he.1 fun h1 h2 => he.2 h1 (hS h2).2)) (fun _ h => h)
      (T := fun _ k' => r.key = .offdiag ∧ (k' = .hasSelf ∨ k' = .offdiag)) (fun _ _ _ h => Or.inr h)) fun v hres => ?_
    have hval : v = restrict r.mask r.key (value c r.key) := by
      obtain ⟨hr1, hr2⟩ := hres
      by_cases e1 : r.key = .hasSelf
      · have g := hr2 (Or.inl e1)
        obtain ⟨rk, rm, ra⟩ := r
        subst e1
        change v = value c .hasSelf
        rw [show value c .hasSelf = decide (∃ i, (c.A i i).isSome) from rfl]
        obtain ⟨g1, g2⟩ := g
        cases v
        · have : ¬ ∃ i, (c.A i i).isSome := Props.noSelf_iff_selfEdge.1 (g1 rfl)
          exact (decide_eq_false this).symm
        · have := g2 trivial rfl
          rw [Props.noSelf_iff_selfEdge, not_not] at this
          exact (decide_eq_true (show ∃ i, (c.A i i).isSome from this)).symm
      · by_cases e2 : r.key = .negDiag
        · have g := hr2 (Or.inr e2)
          obtain ⟨rk, rm, ra⟩ := r
          subst e2
          exact (g.1 trivial).2
        · exact hr1 e1 e2
    subst hval
    refine (ih _ _ hk _ ?_).conseq (fun _ h => h) (fun _ h => h) (fun _ h => h) (by mem)
    rintro (h | h)
    · exact ⟨Or.inl (hS h).1, Or.inl (hS h).2⟩
    · exact ⟨Or.inr ⟨h, Or.inl rfl⟩, Or.inr ⟨h, Or.inr rfl⟩⟩

theorem inv_run (hv : c.Valid) {p : Prog c a} (hp : Polite c risky False p.path) {s : Store ι c.n α}
    (hs : Inv (good c True True) s) : Inv (good c True True) (p.run.run s).2 :=
  ((sat_run hv p False hp (fun _ => False) (by simp)).run s hs (by simp)).1

theorem run_result (hv : c.Valid) {p : Prog c a} (hp : Polite c risky False p.path) {s : Store ι c.n α}
    (hs : Inv (good c True True) s) : (p.run.run s).1 = p.eval ∨
      ∃ e, (p.run.run s).1 = .error e ∧ risky e := by
  obtain ⟨-, -, h3, h4⟩ := (sat_run hv p False hp (fun _ => False) (by simp)).run s hs (by simp)
  cases hr : (p.run.run s).1 with
  | ok x => exact Or.inl (h3 x hr).1.symm
  | error e =>
    rcases h4 e hr with h | h
    · exact Or.inl h.symm
    · exact Or.inr ⟨e, rfl, h⟩

theorem inv_afterJobs (hv : c.Valid) (h : List (Job c)) (hh : ∀ p ∈ h, Polite c (fun _ => True) False p.2.path) :
    Inv (good c True True) (afterJobs h) := by
  unfold afterJobs
  have : ∀ s, Inv (good c True True) s →
      Inv (good c True True) (h.foldl (fun s p => (p.2.run.run s).2) s) := by
    induction h with
    | nil => exact fun _ h => h
    | cons p h ih =>
      intro s hs
      exact ih (fun q hq => hh q (List.mem_cons_of_mem _ hq)) _ (inv_run hv (hh p (List.mem_cons_self ..)) hs)
  exact this _ fun k v h => by simp at h

/-- after a history of polite calls, a polite call returns what it is defined to return -/
theorem call_result (hv : c.Valid) (h : List (Job c)) (hh : ∀ p ∈ h, Polite c (fun _ => True) False p.2.path)
    {p : Prog c a} (hp : Polite c risky False p.path) :
    call h p = p.eval ∨ ∃ e, call h p = .error e ∧ risky e :=
  run_result hv hp (inv_afterJobs hv h hh)

end Proofs.Prog
