import Verif.Proofs.CacheHoare

/-! Every getter keeps the cache good and returns the defined value. -/

open GB Spec.Prop Model Model.Cache Proofs.CacheMath

namespace Proofs.Cache

variable {ι α : Type} [DecidableEq ι] [LinearOrder α] [Zero α]

/-- graphs for which looking up `min_element+` cannot mislead `has_negative_diagonal` -/
def MinOK (c : Ctx ι α) : Prop := c.iso.isSome = true ∨ NoSelf c.A

/-- What is known about a cached value.  `strict` = "`has_self_edges` is exact": true as long as
`has_negative_diagonal` is never requested, or (`ex`) as long as `has_negative_edges+` and
`min_element+` are only requested when that cannot mislead `has_negative_diagonal`, which is then
exact, too.
All values are the defined ones, except: a cached `has_self_edges = True` may be wrong when not
`strict`; `has_negative_diagonal = True` only means that some edge is negative; `total_degrees+`
is only allowed in the cache of a graph without self-edges. -/
def good (c : Ctx ι α) (strict ex : Prop) : GoodF c
  | .hasSelf, v => (v = false → NoSelf c.A) ∧ (strict → v = true → ¬ NoSelf c.A)
  | .negDiag, v => (strict → ex ∧ v = value c .negDiag) ∧ (v = false → value c .negDiag = false) ∧
      (v = true → value c (.neg .p) = true)
  | .totdeg .p, v => v = value c (.totdeg .p) ∧ NoSelf c.A
  | .neg .p, v => v = value c (.neg .p) ∧ (ex → MinOK c)
  | .elem o .p, v => v = value c (.elem o .p) ∧ (ex → o = c.mn → MinOK c)
  | k, v => v = value c k

variable {n : Nat} {c : Ctx ι α} {strict ex : Prop} {E : Err → Prop} {S : Key ι → Prop}

theorem good_self {p : Prop} [Decidable p] (h : p ↔ ¬ NoSelf c.A) :
    good c strict ex .hasSelf (decide p) :=
  ⟨fun e => by simpa [h] using e, fun _ e => by simpa [h] using e⟩

/-- no extra keys claimed -/
abbrev noK {a : Type} : a → Key ι → Prop := fun _ _ => False

syntax "mem" : tactic
macro_rules | `(tactic| mem) => `(tactic| (first | simp; done | simp +contextual; done | tauto))

theorem sat_getDiag (mask : Option (VMask c.n)) :
    Sat (good c strict ex) E S (getDiag c mask) (fun _ k => k = .diag ∨ k = .hasSelf)
      (fun v => v = restrict mask .diag (value c .diag)) := by
  unfold getDiag
  refine sat_fillT ?_ (sat_fillT ?_ ?_)
  · refine sat_ite sat_selfFalse (fun h => ?_) fun _ => ?_
    · exact sat_pure (diag_of ((h rfl).1 rfl)).symm (by mem)
    refine sat_ite sat_has (fun _ => ?_) fun _ => ?_
    · exact sat_readT (by mem) fun v hv => sat_pure (by subst hv; exact diag_triu) (by mem)
    refine sat_ite sat_has (fun _ => ?_) fun _ => ?_
    · exact sat_readT (by mem) fun v hv => sat_pure (by subst hv; exact diag_tril) (by mem)
    · exact sat_pure rfl (by mem)
  · exact sat_readT (by mem) fun v hv => sat_pure
      (by subst hv; exact good_self nvals_diag_pos) (by mem)
  · cases mask
    · exact sat_read (by mem) (fun v hv => hv) (by mem)
    · exact sat_readT (by mem) fun v hv => sat_pure (by subst hv; rfl) (by mem)

/-! ## has_self_edges -/

theorem self_of_nneg (hs : c.Valid) (h : good c strict ex .negDiag true) :
    good c strict ex .hasSelf true := by
  refine ⟨by simp, fun hst _ hn => ?_⟩
  have h2 := (h.1 hst).2.symm
  simp only [value, decide_eq_true_eq] at h2
  obtain ⟨i, hi⟩ := h2
  rw [hn i] at hi; simp at hi

theorem sat_selfUndir (hv : c.Valid) (hd : c.dir = false) :
    Sat (good c strict ex) E S (selfUndir c) (fun _ k => k = .hasSelf) (good c strict ex .hasSelf) := by
  have e1 := cnt_offdiag c.A
  have e2 := cnt_lu c.A
  have e3 := cnt_symm (hv.symm hd)
  have e4 := cnt_triu c.A
  have e5 := cnt_tril c.A
  have e6 := nvals_diag_pos (A := c.A)
  unfold selfUndir
  refine sat_ifMissingT ?_ (sat_read (by mem) (fun v hv => hv) (by mem))
  refine sat_ite sat_has (fun _ => ?_) fun _ => ?_
  · refine sat_readT (by mem) fun v hv => sat_putE ?_ (by mem)
    subst hv; exact good_self (by rw [← e6]; change 2 * mnvals (tril c.A) > _ ↔ _; omega)
  refine sat_ite sat_has (fun _ => ?_) fun _ => ?_
  · refine sat_readT (by mem) fun v hv => sat_putE ?_ (by mem)
    subst hv; exact good_self (by rw [← e6]; change 2 * mnvals (tril1 c.A) < _ ↔ _; omega)
  refine sat_ite sat_has (fun _ => ?_) fun _ => ?_
  · refine sat_readT (by mem) fun v hv => sat_putE ?_ (by mem)
    subst hv; exact good_self (by rw [← e6]; change 2 * mnvals (triu c.A) > _ ↔ _; omega)
  refine sat_ite sat_has (fun _ => ?_) fun _ => ?_
  · refine sat_readT (by mem) fun v hv => sat_putE ?_ (by mem)
    subst hv; exact good_self (by rw [← e6]; change 2 * mnvals (triu1 c.A) < _ ↔ _; omega)
  refine sat_ite sat_has (fun _ => ?_) fun _ => ?_
  · refine sat_readT (by mem) fun v hv => sat_putE ?_ (by mem)
    subst hv; exact good_self (by rw [← e6]; change _ > mnvals (offdiag c.A) ↔ _; omega)
  refine sat_ite sat_isB (fun h => ?_) fun _ => ?_
  · exact sat_putE (self_of_nneg hv (h rfl true rfl)) (by mem)
  · exact sat_bind (sat_getDiag none) fun _ _ => sat_pure trivial (by mem)

theorem sat_selfDir (hv : c.Valid) :
    Sat (good c strict ex) E S (selfDir c) (fun _ k => k = .hasSelf) (good c strict ex .hasSelf) := by
  have e1 := cnt_offdiag c.A
  have e2 := cnt_lu c.A
  have e4 := cnt_triu c.A
  have e5 := cnt_tril c.A
  have e6 := nvals_diag_pos (A := c.A)
  unfold selfDir
  refine sat_ifMissingT ?_ (sat_read (by mem) (fun v hv => hv) (by mem))
  refine sat_ite sat_has (fun _ => ?_) fun _ => ?_
  · refine sat_readT (by mem) fun v hv => sat_putE ?_ (by mem)
    subst hv; exact good_self (by rw [← e6]; change _ > mnvals (offdiag c.A) ↔ _; omega)
  refine sat_ite (sat_and sat_has fun _ => sat_has) (fun _ => ?_) fun _ => ?_
  · refine sat_readT (by mem) fun v hv => sat_readT (by mem) fun w hw => sat_putE ?_ (by mem)
    subst hv hw; exact good_self (by rw [← e6]; change mnvals (tril1 c.A) < mnvals (tril c.A) ↔ _; omega)
  refine sat_ite (sat_and sat_has fun _ => sat_has) (fun _ => ?_) fun _ => ?_
  · refine sat_readT (by mem) fun v hv => sat_readT (by mem) fun w hw => sat_putE ?_ (by mem)
    subst hv hw; exact good_self
      (by rw [← e6]; change mnvals (tril c.A) + mnvals (triu c.A) > _ ↔ _; omega)
  refine sat_ite (sat_and sat_has fun _ => sat_has) (fun _ => ?_) fun _ => ?_
  · refine sat_readT (by mem) fun v hv => sat_readT (by mem) fun w hw => sat_putE ?_ (by mem)
    subst hv hw; exact good_self (by rw [← e6]; change mnvals (triu1 c.A) < mnvals (triu c.A) ↔ _; omega)
  refine sat_ite (sat_and sat_has fun _ => sat_has) (fun _ => ?_) fun _ => ?_
  · refine sat_readT (by mem) fun v hv => sat_readT (by mem) fun w hw => sat_putE ?_ (by mem)
    subst hv hw; exact good_self
      (by rw [← e6]; change mnvals (triu1 c.A) + mnvals (tril1 c.A) < _ ↔ _; omega)
  refine sat_ite sat_isB (fun h => ?_) fun _ => ?_
  · exact sat_putE (self_of_nneg hv (h rfl true rfl)) (by mem)
  refine sat_ite (sat_and sat_has fun _ => sat_has) (fun _ => ?_) fun _ => ?_
  · refine sat_readT (by mem) fun v hv => sat_readT (by mem) fun w hw => sat_putE ?_ (by mem)
    have := totrecip_split c.A
    subst hv hw
    exact good_self (by
      rw [← e6]; change mnvals (recipMat c.A) > mnvals (recipMat (offdiag c.A)) ↔ _; omega)
  refine sat_ite (sat_and sat_has fun _ => sat_has) (fun _ => ?_) fun _ => ?_
  · refine sat_readT (by mem) fun v hv => sat_readT (by mem) fun w hw => sat_putE ?_ (by mem)
    subst hv; obtain ⟨rfl, hn⟩ := hw; exact good_self totd_ne
  refine sat_ite (sat_and sat_has fun _ => sat_has) (fun _ => ?_) fun _ => ?_
  · refine sat_readT (by mem) fun v hv => sat_readT (by mem) fun w hw => sat_putE ?_ (by mem)
    subst hv hw; exact good_self recip_ne
  refine sat_ite sat_has (fun _ => ?_) fun _ => ?_
  · refine sat_readT (by mem) fun v hv => sat_putE ?_ (by mem)
    have := totd_sum (offdiag c.A)
    subst hv; exact good_self (by
      rw [← e6]; change (reduce _ (totd (offdiag c.A))).getD 0 < _ ↔ _; omega)
  refine sat_ite sat_has (fun _ => ?_) fun _ => ?_
  · refine sat_readT (by mem) fun v hv => sat_putE ?_ (by mem)
    have := totd_sum c.A
    obtain ⟨rfl, hn⟩ := hv
    have h0 : ¬ 0 < nvals (diagVec c.A) := by rw [e6]; exact fun h => h hn
    exact good_self (by
      rw [← e6]; change (reduce _ (totd c.A)).getD 0 > _ ↔ _; omega)
  · exact sat_bind (sat_getDiag none) fun _ _ => sat_pure trivial (by mem)

theorem sat_getSelf (hv : c.Valid) :
    Sat (good c strict ex) E S (getSelf c) (fun _ k => k = .hasSelf) (good c strict ex .hasSelf) := by
  unfold getSelf
  cases h : c.dir
  · exact sat_selfUndir hv h
  · exact sat_selfDir hv

/-! ## matrices -/

theorem sat_getAT (hv : c.Valid) :
    Sat (good c strict ex) E S (getAT c) noK (fun v => v = value c .AT) := by
  unfold getAT
  cases h : c.dir
  · refine sat_putT (k := .AT) ?_ (sat_read (by mem) (fun v hv => hv) (by mem))
    funext i j; exact hv.symm h i j
  · exact sat_fillT (sat_pure rfl (by mem)) (sat_read (by mem) (fun v hv => hv) (by mem))

theorem sat_getOffdiag' :
    Sat (good c strict ex) E S (getOffdiag c) (fun _ k => k = .hasSelf ∨ k = .offdiag)
      (fun v => v = value c .offdiag) := by
  have e1 := cnt_offdiag c.A
  have e6 := nvals_diag_pos (A := c.A)
  unfold getOffdiag
  refine sat_fillT ?_ (sat_fillT ?_ ?_)
  · refine sat_ite sat_selfFalse (fun h => ?_) fun _ => ?_
    · exact sat_pure (offdiag_of ((h rfl).1 rfl)).symm (by mem)
    · exact sat_pure rfl (by mem)
  · refine sat_readT (by mem) fun v hv => sat_pure ?_ (by mem)
    subst hv; exact good_self (by rw [← e6]; change _ > mnvals (offdiag c.A) ↔ _; omega)
  · refine sat_readT (by mem) fun h hh => sat_whenT (fun e => ?_)
      (sat_read (by mem) (fun v hv => hv) (by mem))
    refine sat_putE ?_ (by mem)
    exact (offdiag_of (hh.1 (by simpa using e))).symm

theorem sat_getOffdiag :
    Sat (good c strict ex) E S (getOffdiag c) noK (fun v => v = value c .offdiag) :=
  sat_getOffdiag'.conseq (fun _ h => h) (fun _ h => h) (fun _ h => h) (by mem)

section tri
variable (hv : c.Valid)
include hv

theorem sat_upUndir (hd : c.dir = false) :
    Sat (good c strict ex) E S (upUndir c) noK (fun v => v = value c (.U .p)) := by
  have e1 := cnt_offdiag c.A
  have e2 := cnt_lu c.A
  have e3 := cnt_symm (hv.symm hd)
  have e4 := cnt_triu c.A
  have e6 := nvals_diag_pos (A := c.A)
  unfold upUndir
  refine sat_fillT ?_ (sat_fillT ?_ ?_)
  · refine sat_ite (sat_and sat_has fun _ => sat_not (sat_getSelf hv)) (fun h => ?_) fun _ => ?_
    · exact sat_read (by mem) (fun v hv => hv.trans (triu_of ((h rfl).2.1 rfl)).symm) (by mem)
    · exact sat_pure rfl (by mem)
  · refine sat_readT (by mem) fun v hv => sat_pure ?_ (by mem)
    subst hv; exact good_self (by rw [← e6]; change 2 * mnvals (triu c.A) > _ ↔ _; omega)
  · refine sat_readT (by mem) fun h hh => sat_whenT (fun e => ?_)
      (sat_read (by mem) (fun v hv => hv) (by mem))
    exact sat_readT (by mem) fun v hv => sat_putE
      (hv.trans (triu_of (hh.1 (by simpa using e)))) (by mem)

theorem sat_lpUndir (hd : c.dir = false) :
    Sat (good c strict ex) E S (lpUndir c) noK (fun v => v = value c (.L .p)) := by
  have e1 := cnt_offdiag c.A
  have e2 := cnt_lu c.A
  have e3 := cnt_symm (hv.symm hd)
  have e4 := cnt_tril c.A
  have e6 := nvals_diag_pos (A := c.A)
  unfold lpUndir
  refine sat_fillT ?_ (sat_fillT ?_ ?_)
  · refine sat_ite (sat_and sat_has fun _ => sat_not (sat_getSelf hv)) (fun h => ?_) fun _ => ?_
    · exact sat_read (by mem) (fun v hv => hv.trans (tril_of ((h rfl).2.1 rfl)).symm) (by mem)
    · exact sat_pure rfl (by mem)
  · refine sat_readT (by mem) fun v hv => sat_pure ?_ (by mem)
    subst hv; exact good_self (by rw [← e6]; change 2 * mnvals (tril c.A) > _ ↔ _; omega)
  · refine sat_readT (by mem) fun h hh => sat_whenT (fun e => ?_)
      (sat_read (by mem) (fun v hv => hv) (by mem))
    exact sat_readT (by mem) fun v hv => sat_putE
      (hv.trans (tril_of (hh.1 (by simpa using e)))) (by mem)

theorem sat_umUndir (hd : c.dir = false) :
    Sat (good c strict ex) E S (umUndir c) noK (fun v => v = value c (.U .m)) := by
  have e1 := cnt_offdiag c.A
  have e2 := cnt_lu c.A
  have e3 := cnt_symm (hv.symm hd)
  have e6 := nvals_diag_pos (A := c.A)
  unfold umUndir
  refine sat_fillT ?_ (sat_fillT ?_ ?_)
  · refine sat_ite sat_has (fun _ => ?_) fun _ => ?_
    · refine sat_ite (sat_getSelf hv) (fun h => ?_) fun h => ?_
      · exact sat_readT (by mem) fun v hv => sat_pure (by subst hv; exact triu1_triu) (by mem)
      · exact sat_read (by mem) (fun v hv => hv.trans (triu_of (h.1 rfl))) (by mem)
    refine sat_ite sat_has (fun _ => ?_) fun _ => ?_
    · exact sat_readT (by mem) fun v hv => sat_pure (by subst hv; exact triu1_offdiag) (by mem)
    · exact sat_pure rfl (by mem)
  · refine sat_readT (by mem) fun v hv => sat_pure ?_ (by mem)
    subst hv; exact good_self (by rw [← e6]; change 2 * mnvals (triu1 c.A) < _ ↔ _; omega)
  · refine sat_readT (by mem) fun h hh => sat_whenT (fun e => ?_)
      (sat_read (by mem) (fun v hv => hv) (by mem))
    exact sat_readT (by mem) fun v hv => sat_putE
      (hv.trans (triu_of (hh.1 (by simpa using e))).symm) (by mem)

theorem sat_lmUndir (hd : c.dir = false) :
    Sat (good c strict ex) E S (lmUndir c) noK (fun v => v = value c (.L .m)) := by
  have e1 := cnt_offdiag c.A
  have e2 := cnt_lu c.A
  have e3 := cnt_symm (hv.symm hd)
  have e6 := nvals_diag_pos (A := c.A)
  unfold lmUndir
  refine sat_fillT ?_ (sat_fillT ?_ ?_)
  · refine sat_ite sat_has (fun _ => ?_) fun _ => ?_
    · refine sat_ite (sat_getSelf hv) (fun h => ?_) fun h => ?_
      · exact sat_readT (by mem) fun v hv => sat_pure (by subst hv; exact tril1_tril) (by mem)
      · exact sat_read (by mem) (fun v hv => hv.trans (tril_of (h.1 rfl))) (by mem)
    refine sat_ite sat_has (fun _ => ?_) fun _ => ?_
    · exact sat_readT (by mem) fun v hv => sat_pure (by subst hv; exact tril1_offdiag) (by mem)
    · exact sat_pure rfl (by mem)
  · refine sat_readT (by mem) fun v hv => sat_pure ?_ (by mem)
    subst hv; exact good_self (by rw [← e6]; change 2 * mnvals (tril1 c.A) < _ ↔ _; omega)
  · refine sat_readT (by mem) fun h hh => sat_whenT (fun e => ?_)
      (sat_read (by mem) (fun v hv => hv) (by mem))
    exact sat_readT (by mem) fun v hv => sat_putE
      (hv.trans (tril_of (hh.1 (by simpa using e))).symm) (by mem)

theorem sat_upDir :
    Sat (good c strict ex) E S (upDir c) noK (fun v => v = value c (.U .p)) := by
  have e1 := cnt_offdiag c.A
  have e2 := cnt_lu c.A
  have e4 := cnt_triu c.A
  have e5 := cnt_tril c.A
  have e6 := nvals_diag_pos (A := c.A)
  unfold upDir
  refine sat_fillT ?_ (sat_ifMissingT' ?_ ?_)
  · refine sat_ite (sat_and sat_has fun _ => sat_not (sat_getSelf hv)) (fun h => ?_) fun _ => ?_
    · exact sat_read (by mem) (fun v hv => hv.trans (triu_of ((h rfl).2.1 rfl)).symm) (by mem)
    · exact sat_pure rfl (by mem)
  · refine sat_ite sat_has (fun _ => ?_) fun _ => ?_
    · refine sat_readT (by mem) fun v hv => sat_readT (by mem) fun w hw => sat_putE ?_ (by mem)
      subst hv hw; exact good_self (by rw [← e6]; change mnvals (triu c.A) > mnvals (triu1 c.A) ↔ _; omega)
    refine sat_ite sat_has (fun _ => ?_) fun _ => ?_
    · refine sat_readT (by mem) fun v hv => sat_readT (by mem) fun w hw => sat_putE ?_ (by mem)
      subst hv hw; exact good_self
        (by rw [← e6]; change mnvals (triu c.A) + mnvals (tril c.A) > _ ↔ _; omega)
    · exact sat_pure trivial (by mem)
  · refine sat_callT sat_selfFalse fun h hh => sat_whenT (fun e => ?_)
      (sat_read (by mem) (fun v hv => hv) (by mem))
    exact sat_readT (by mem) fun v hv => sat_putE
      (hv.trans (triu_of ((hh e).1 rfl))) (by mem)

theorem sat_lpDir :
    Sat (good c strict ex) E S (lpDir c) noK (fun v => v = value c (.L .p)) := by
  have e1 := cnt_offdiag c.A
  have e2 := cnt_lu c.A
  have e4 := cnt_triu c.A
  have e5 := cnt_tril c.A
  have e6 := nvals_diag_pos (A := c.A)
  unfold lpDir
  refine sat_fillT ?_ (sat_ifMissingT' ?_ ?_)
  · refine sat_ite (sat_and sat_has fun _ => sat_not (sat_getSelf hv)) (fun h => ?_) fun _ => ?_
    · exact sat_read (by mem) (fun v hv => hv.trans (tril_of ((h rfl).2.1 rfl)).symm) (by mem)
    · exact sat_pure rfl (by mem)
  · refine sat_ite sat_has (fun _ => ?_) fun _ => ?_
    · refine sat_readT (by mem) fun v hv => sat_readT (by mem) fun w hw => sat_putE ?_ (by mem)
      subst hv hw; exact good_self (by rw [← e6]; change mnvals (tril c.A) > mnvals (tril1 c.A) ↔ _; omega)
    refine sat_ite sat_has (fun _ => ?_) fun _ => ?_
    · refine sat_readT (by mem) fun v hv => sat_readT (by mem) fun w hw => sat_putE ?_ (by mem)
      subst hv hw; exact good_self
        (by rw [← e6]; change mnvals (tril c.A) + mnvals (triu c.A) > _ ↔ _; omega)
    · exact sat_pure trivial (by mem)
  · refine sat_callT sat_selfFalse fun h hh => sat_whenT (fun e => ?_)
      (sat_read (by mem) (fun v hv => hv) (by mem))
    exact sat_readT (by mem) fun v hv => sat_putE
      (hv.trans (tril_of ((hh e).1 rfl))) (by mem)

omit hv in
theorem sat_umDir :
    Sat (good c strict ex) E S (umDir c) noK (fun v => v = value c (.U .m)) := by
  have e1 := cnt_offdiag c.A
  have e2 := cnt_lu c.A
  have e4 := cnt_triu c.A
  have e5 := cnt_tril c.A
  have e6 := nvals_diag_pos (A := c.A)
  unfold umDir
  refine sat_fillT ?_ (sat_ifMissingT' ?_ ?_)
  · refine sat_ite sat_has (fun _ => ?_) fun _ => ?_
    · refine sat_ite sat_selfFalse (fun h => ?_) fun h => ?_
      · exact sat_read (by mem) (fun v hv => hv.trans (triu_of ((h rfl).1 rfl))) (by mem)
      · exact sat_readT (by mem) fun v hv => sat_pure (by subst hv; exact triu1_triu) (by mem)
    refine sat_ite sat_has (fun _ => ?_) fun _ => ?_
    · exact sat_readT (by mem) fun v hv => sat_pure (by subst hv; exact triu1_offdiag) (by mem)
    · exact sat_pure rfl (by mem)
  · refine sat_ite sat_has (fun _ => ?_) fun _ => ?_
    · refine sat_readT (by mem) fun v hv => sat_readT (by mem) fun w hw => sat_putE ?_ (by mem)
      subst hv hw; exact good_self (by rw [← e6]; change mnvals (triu1 c.A) < mnvals (triu c.A) ↔ _; omega)
    refine sat_ite sat_has (fun _ => ?_) fun _ => ?_
    · refine sat_readT (by mem) fun v hv => sat_readT (by mem) fun w hw => sat_putE ?_ (by mem)
      subst hv hw; exact good_self
        (by rw [← e6]; change mnvals (triu1 c.A) + mnvals (tril1 c.A) < _ ↔ _; omega)
    · exact sat_pure trivial (by mem)
  · refine sat_callT sat_selfFalse fun h hh => sat_whenT (fun e => ?_)
      (sat_read (by mem) (fun v hv => hv) (by mem))
    exact sat_readT (by mem) fun v hv => sat_putE
      (hv.trans (triu_of ((hh e).1 rfl)).symm) (by mem)

omit hv in
theorem sat_lmDir :
    Sat (good c strict ex) E S (lmDir c) noK (fun v => v = value c (.L .m)) := by
  have e1 := cnt_offdiag c.A
  have e2 := cnt_lu c.A
  have e4 := cnt_triu c.A
  have e5 := cnt_tril c.A
  have e6 := nvals_diag_pos (A := c.A)
  unfold lmDir
  refine sat_fillT ?_ (sat_ifMissingT' ?_ ?_)
  · refine sat_ite sat_has (fun _ => ?_) fun _ => ?_
    · refine sat_ite sat_selfFalse (fun h => ?_) fun h => ?_
      · exact sat_read (by mem) (fun v hv => hv.trans (tril_of ((h rfl).1 rfl))) (by mem)
      · exact sat_readT (by mem) fun v hv => sat_pure (by subst hv; exact tril1_tril) (by mem)
    refine sat_ite sat_has (fun _ => ?_) fun _ => ?_
    · exact sat_readT (by mem) fun v hv => sat_pure (by subst hv; exact tril1_offdiag) (by mem)
    · exact sat_pure rfl (by mem)
  · refine sat_ite sat_has (fun _ => ?_) fun _ => ?_
    · refine sat_readT (by mem) fun v hv => sat_readT (by mem) fun w hw => sat_putE ?_ (by mem)
      subst hv hw; exact good_self (by rw [← e6]; change mnvals (tril1 c.A) < mnvals (tril c.A) ↔ _; omega)
    refine sat_ite sat_has (fun _ => ?_) fun _ => ?_
    · refine sat_readT (by mem) fun v hv => sat_readT (by mem) fun w hw => sat_putE ?_ (by mem)
      subst hv hw; exact good_self
        (by rw [← e6]; change mnvals (tril1 c.A) + mnvals (triu1 c.A) < _ ↔ _; omega)
    · exact sat_pure trivial (by mem)
  · refine sat_callT sat_selfFalse fun h hh => sat_whenT (fun e => ?_)
      (sat_read (by mem) (fun v hv => hv) (by mem))
    exact sat_readT (by mem) fun v hv => sat_putE
      (hv.trans (tril_of ((hh e).1 rfl)).symm) (by mem)

end tri

/-! ## reductions to vectors -/

theorem transpose_part (hv : c.Valid) (hd : c.dir = false) (s : Sign) :
    transpose (part s c.A) = part s c.A := by
  funext i j
  cases s
  · exact hv.symm hd j i
  · simp only [transpose, part, offdiag, eq_comm (a := j), hv.symm hd j i]

theorem meth_red (hv : c.Valid) (r : VOp ι) (ax : Axis) (s : Sign) :
    red c.f r (meth c ax) (part s c.A) = red c.f r ax (part s c.A) := by
  unfold meth
  cases h : c.dir
  · cases ax
    · rfl
    · simp only [red, transpose_part hv h]; rfl
  · rfl

theorem axis_red (hv : c.Valid) (hd : c.dir = false) (r : VOp ι) (ax ax' : Axis) (s : Sign) :
    red c.f r ax (part s c.A) = red c.f r ax' (part s c.A) := by
  cases ax <;> cases ax' <;> simp only [red, transpose_part hv hd]

theorem red_self (h : NoSelf c.A) (r : VOp ι) (ax : Axis) (s t : Sign) :
    red c.f r ax (part s c.A) = red c.f r ax (part t c.A) := by rw [part_of h s t]

/-- the value of a vector reduction in the cache -/
theorem good_vec {r : VOp ι} {s : Sign} {ax : Axis} {v} :
    good c strict ex (.vec r s ax) v ↔ v = red c.f r ax (part s c.A) := Iff.rfl

theorem self_of_ne {r : VOp ι} {s t : Sign} {ax : Axis} {β : Type}
    (F : Vec c.n (r.Ty α) → β)
    (h : F (red c.f r ax (part s c.A)) ≠ F (red c.f r ax (part t c.A))) :
    good c strict ex .hasSelf true :=
  ⟨by simp, fun _ _ hn => h (by rw [red_self hn r ax s t])⟩

theorem sat_vecSync (r : VOp ι) (ax : Axis) (s t : Sign) (hs : S (.vec r s ax)) :
    Sat (good c strict ex) E S (vecSync c r ax s t) noK (fun v => v = value c (.vec r s ax)) := by
  unfold vecSync
  refine sat_syncT
    (Qd := fun x => x = true → nvals (red c.f r ax (part s c.A)) ≠ nvals (red c.f r ax (part t c.A)))
    (Td := fun _ _ => False) ?_ ?_ ?_ (sat_read hs (fun v hv => hv) (by mem))
  · refine (sat_and (Qy := fun x => x = true →
      nvals (red c.f r ax (part s c.A)) ≠ nvals (red c.f r ax (part t c.A)))
      (Ty := fun _ _ => False) sat_has fun _ => ?_).conseq
      (fun _ h => h) (fun _ h => h) (fun x h hx => (h hx).2 rfl) (by mem)
    refine sat_readT (Or.inl hs) fun v hv => sat_readT (by mem) fun w hw => sat_pure ?_ (by mem)
    rw [good_vec] at hv hw; subst hv hw; simp
  · intro h; exact self_of_ne nvals (h rfl)
  · intro h
    refine sat_readT hs fun v hv => sat_putE ?_ (by mem)
    rw [good_vec] at hv ⊢; rw [hv]; exact red_self (h.1 rfl) r ax s t

theorem restrict_vec {r : VOp ι} {s : Sign} {ax : Axis} (m : VMask c.n) (v : Vec c.n (r.Ty α)) :
    vassignR m v = restrict (α := α) (some m) (.vec r s ax) v := rfl

theorem sat_getVecP (hv : c.Valid) (r : VOp ι) (ax : Axis) (mask : Option (VMask c.n)) :
    Sat (good c strict ex) E S (getVecP c r ax mask) noK
      (fun v => v = restrict mask (.vec r .p ax) (value c (.vec r .p ax))) := by
  have fresh : ∀ S, Sat (good c strict ex) E S (do
      if ← Cache.andM c (pure (meth c ax == .col)) (has c .AT) then
        return redRow c.f r (← readK c .AT)
      else pure (red c.f r (meth c ax) c.A)) noK
        (fun v => v = red c.f r ax (part .p c.A)) := by
    intro S
    refine sat_ite (sat_and (Qx := fun x => x = true → meth c ax = .col) (Tx := noK)
      (sat_pure (by simp) (by mem)) fun _ => sat_has) (fun h => ?_) fun _ => ?_
    · refine sat_readT (by mem) fun v hw => sat_pure ?_ (by mem)
      rw [← meth_red hv, (h rfl).1 rfl]
      rw [show v = transpose c.A from hw]
      rfl
    · exact sat_pure (meth_red hv r ax .p) (by mem)
  unfold getVecP
  cases mask with
  | none =>
    refine sat_fillT ?_ (sat_vecSync r ax .p .m (by mem))
    refine sat_ite (sat_and sat_selfFalse fun _ => sat_has) (fun h => ?_) fun _ => ?_
    · refine sat_read (by mem) (fun v hw => ?_) (by mem)
      rw [good_vec] at hw ⊢; rw [hw]; exact red_self (((h rfl).1 rfl).1 rfl) r ax .m .p
    · exact (fresh _).conseq (fun _ h => h) (fun _ h => h) (fun _ h => h) (by mem)
  | some m =>
    refine sat_ite sat_has (fun _ => ?_) fun _ => ?_
    · exact sat_readT (by mem) fun v hw => sat_pure (by rw [good_vec] at hw; subst hw; rfl) (by mem)
    refine sat_ite (sat_and sat_selfFalse fun _ => sat_has) (fun h => ?_) fun _ => ?_
    · refine sat_readT (by mem) fun v hw => sat_putT ?_ ?_
      · rw [good_vec] at hw ⊢; rw [hw]; exact red_self (((h rfl).1 rfl).1 rfl) r ax .m .p
      · exact sat_readT (by mem) fun v hw => sat_pure (by rw [good_vec] at hw; subst hw; rfl) (by mem)
    · exact sat_callT (fresh _) fun v hw => sat_pure (by subst hw; rfl) (by mem)

theorem lu_value (hv : c.Valid) (r : VOp ι) (ax : Axis) (h : (luOp c r).isSome) :
    ((luOp c r).getD fun _ y => y) (red c.f r (meth c ax) (tril1 c.A))
      (red c.f r (meth c ax) (triu1 c.A)) = red c.f r ax (part .m c.A) := by
  cases r with
  | count => simp [luOp] at h
  | mon o =>
    rw [← meth_red hv]
    exact lu_red c.f o (hv.assoc o) (hv.comm o) _ _

theorem lu_value_mask (hv : c.Valid) (r : VOp ι) (ax : Axis) (m : VMask c.n)
    (h : (luOp c r).isSome) :
    ((luOp c r).getD fun _ y => y) (vassignR m (red c.f r (meth c ax) (tril1 c.A)))
      (vassignR m (red c.f r (meth c ax) (triu1 c.A))) = vassignR m (red c.f r ax (part .m c.A)) := by
  cases r with
  | count => simp [luOp] at h
  | mon o =>
    rw [← meth_red hv]
    refine (vassignR_vadd m (c.f o) _ _).trans ?_
    congr 1
    exact lu_red c.f o (hv.assoc o) (hv.comm o) _ _

theorem sat_getVecM (hv : c.Valid) (al : Bool) (r : VOp ι) (ax : Axis)
    (mask : Option (VMask c.n)) :
    Sat (good c strict ex) E S (getVecM c al r ax mask) noK
      (fun v => v = restrict mask (.vec r .m ax) (value c (.vec r .m ax))) := by
  have hax : ∀ s, red c.f r (if (al && !c.dir) = true then Axis.row else ax) (part s c.A)
      = red c.f r ax (part s c.A) := by
    intro s
    split
    · next h => exact axis_red hv (by simp at h; exact h.2) r _ _ s
    · rfl
  have cond : ∀ S, Sat (good c strict ex) E S
      (Cache.andM c (has c (.L .m)) (Cache.andM c (has c (.U .m))
          (Cache.andM c (pure (luOp c r).isSome) (getSelf c))))
      (fun t k => t = true ∧ (k = .L .m ∨ k = .U .m))
      (fun t => t = true → (luOp c r).isSome) := by
    intro S
    refine (sat_and sat_has fun _ => sat_and sat_has fun _ => sat_and
      (Qx := fun x => x = true → (luOp c r).isSome) (Tx := noK)
      (sat_pure (by simp) (by mem)) fun _ => sat_getSelf hv).conseq (fun _ h => h) (fun _ h => h)
      (fun t h ht => ((((h ht).2 rfl).2 rfl).1 rfl)) (by mem)
  unfold getVecM
  cases mask with
  | none =>
    refine sat_fillT ?_ (sat_vecSync r ax .m .p (by mem))
    refine sat_ite (sat_and sat_selfFalse fun _ => sat_has) (fun h => ?_) fun _ => ?_
    · refine sat_read (by mem) (fun v hw => ?_) (by mem)
      rw [good_vec] at hw ⊢; rw [hw]; exact red_self (((h rfl).1 rfl).1 rfl) r ax .p .m
    refine sat_ite sat_has (fun _ => ?_) fun _ => ?_
    · refine sat_readT (by mem) fun v hw => sat_pure ?_ (by mem)
      rw [good_vec, show v = part .m c.A from hw, meth_red hv]
    refine sat_ite (cond _) (fun h => ?_) fun _ => ?_
    · refine sat_readT (by mem) fun l hl => sat_readT (by mem) fun u hu => sat_pure ?_ (by mem)
      rw [good_vec, show l = tril1 c.A from hl, show u = triu1 c.A from hu]
      exact lu_value hv r ax (h rfl)
    refine sat_callT (sat_getSelf hv) fun t ht => ?_
    split
    · next e =>
      refine (sat_getVecP hv r _ none).conseq (fun _ h => h) (fun _ h => h) (fun v hw => ?_) (by mem)
      rw [good_vec, hw]
      change red c.f r _ (part .p c.A) = _
      rw [hax, red_self (ht.1 (by simpa using e))]
    · refine sat_callT sat_getOffdiag fun v hw => sat_pure ?_ (by mem)
      rw [good_vec, show v = part .m c.A from hw, meth_red hv]
  | some m =>
    refine sat_ite sat_has (fun _ => ?_) fun _ => ?_
    · exact sat_readT (by mem) fun v hw => sat_pure (by rw [good_vec] at hw; subst hw; rfl) (by mem)
    refine sat_ite (sat_and sat_selfFalse fun _ => sat_has) (fun h => ?_) fun _ => ?_
    · refine sat_readT (by mem) fun v hw => sat_putT ?_ ?_
      · rw [good_vec] at hw ⊢; rw [hw]; exact red_self (((h rfl).1 rfl).1 rfl) r ax .p .m
      · exact sat_readT (by mem) fun v hw => sat_pure (by rw [good_vec] at hw; subst hw; rfl) (by mem)
    refine sat_ite sat_has (fun _ => ?_) fun _ => ?_
    · refine sat_readT (by mem) fun v hw => sat_pure ?_ (by mem)
      rw [show v = part .m c.A from hw, meth_red hv]; rfl
    refine sat_ite (cond _) (fun h => ?_) fun _ => ?_
    · refine sat_readT (by mem) fun l hl => sat_readT (by mem) fun u hu => sat_pure ?_ (by mem)
      rw [show l = tril1 c.A from hl, show u = triu1 c.A from hu]
      exact lu_value_mask hv r ax m (h rfl)
    refine sat_callT (sat_getSelf hv) fun t ht => ?_
    split
    · next e =>
      refine (sat_getVecP hv r _ (some m)).conseq (fun _ h => h) (fun _ h => h) (fun v hw => ?_) (by mem)
      rw [hw]
      change vassignR m (red c.f r _ (part .p c.A)) = vassignR m _
      rw [hax, red_self (ht.1 (by simpa using e)) r ax .p .m]
      rfl
    · refine sat_callT sat_getOffdiag fun v hw => sat_pure ?_ (by mem)
      rw [show v = part .m c.A from hw, meth_red hv]; rfl

/-! ## reductions to scalars -/

theorem good_elem {o : ι} {s : Sign} {v} :
    good c strict ex (.elem o s) v ↔ v = reduceScalar (c.f o) (part s c.A) ∧
      (ex → s = .p → o = c.mn → MinOK c) := by
  cases s
  · exact ⟨fun h => ⟨h.1, fun a _ => h.2 a⟩, fun h => ⟨h.1, fun a => h.2 a rfl⟩⟩
  · exact ⟨fun h => ⟨h, by simp⟩, fun h => h.1⟩

theorem elem_self (h : NoSelf c.A) (o : ι) (s t : Sign) :
    reduceScalar (c.f o) (part s c.A) = reduceScalar (c.f o) (part t c.A) := by rw [part_of h s t]

theorem elem_of_vec (hv : c.Valid) (o : ι) (s : Sign) (ax : Axis) :
    reduce (c.f o) (red c.f (.mon o) ax (part s c.A)) = reduceScalar (c.f o) (part s c.A) := by
  cases ax
  · rfl
  · exact reduce_col (hv.assoc o) (hv.comm o) _

theorem sat_elemSync (o : ι) (s t : Sign) (hs : S (.elem o s)) :
    Sat (good c strict ex) E S (elemSync c o s t) noK (fun v => v = value c (.elem o s)) := by
  unfold elemSync
  refine sat_syncT
    (Qd := fun x => x = true →
      reduceScalar (c.f o) (part s c.A) ≠ reduceScalar (c.f o) (part t c.A))
    (Td := fun _ _ => False) ?_ ?_ ?_ (sat_read hs (fun v hv => (good_elem.1 hv).1) (by mem))
  · refine (sat_and (Qy := fun x => x = true →
      reduceScalar (c.f o) (part s c.A) ≠ reduceScalar (c.f o) (part t c.A))
      (Ty := fun _ _ => False) sat_has fun _ => ?_).conseq
      (fun _ h => h) (fun _ h => h) (fun x h hx => (h hx).2 rfl) (by mem)
    refine sat_readT (Or.inl hs) fun v hv => sat_readT (by mem) fun w hw => sat_pure ?_ (by mem)
    rw [good_elem] at hv hw; obtain ⟨rfl, -⟩ := hv; obtain ⟨rfl, -⟩ := hw; simp
  · intro h; exact ⟨by simp, fun _ _ hn => h rfl (elem_self hn o s t)⟩
  · intro h
    refine sat_readT hs fun v hv => sat_putE ?_ (by mem)
    rw [good_elem] at hv ⊢; rw [hv.1]
    exact ⟨elem_self (h.1 rfl) o s t, fun _ _ _ => Or.inr (h.1 rfl)⟩

theorem sat_getElemP (hv : c.Valid) (o : ι) (hx : ex → o = c.mn → MinOK c) :
    Sat (good c strict ex) E S (getElemP c o) noK (fun v => v = value c (.elem o .p)) := by
  unfold getElemP
  refine sat_fillT ?_ (sat_elemSync o .p .m (by mem))
  refine sat_ite (sat_and sat_selfFalse fun _ => sat_has) (fun h => ?_) fun _ => ?_
  · refine sat_read (by mem) (fun v hw => ?_) (by mem)
    rw [good_elem] at hw ⊢; rw [hw.1]; exact ⟨elem_self (((h rfl).1 rfl).1 rfl) o .m .p, fun a _ => hx a⟩
  refine sat_ite sat_has (fun _ => ?_) fun _ => ?_
  · refine sat_readT (by mem) fun v hw => sat_pure ?_ (by mem)
    rw [good_vec] at hw; subst hw; exact ⟨elem_of_vec hv o .p .row, hx⟩
  refine sat_ite sat_has (fun _ => ?_) fun _ => ?_
  · refine sat_readT (by mem) fun v hw => sat_pure ?_ (by mem)
    rw [good_vec] at hw; subst hw; exact ⟨elem_of_vec hv o .p .col, hx⟩
  refine sat_ite (sat_and sat_selfFalse fun _ => sat_has) (fun h => ?_) fun _ => ?_
  · refine sat_readT (by mem) fun v hw => sat_pure ?_ (by mem)
    rw [good_vec] at hw; subst hw
    exact ⟨(elem_of_vec hv o .m .row).trans (elem_self (((h rfl).1 rfl).1 rfl) o .m .p), hx⟩
  refine sat_ite (sat_and sat_selfFalse fun _ => sat_has) (fun h => ?_) fun _ => ?_
  · refine sat_readT (by mem) fun v hw => sat_pure ?_ (by mem)
    rw [good_vec] at hw; subst hw
    exact ⟨(elem_of_vec hv o .m .col).trans (elem_self (((h rfl).1 rfl).1 rfl) o .m .p), hx⟩
  · exact sat_pure ⟨rfl, hx⟩ (by mem)

theorem sat_getElemM (hv : c.Valid) (o : ι)
    (hE : ¬ S .offdiag → good c strict ex .hasSelf true → E .attributeError) :
    Sat (good c strict ex) E S (getElemM c o) noK (fun v => v = value c (.elem o .m)) := by
  unfold getElemM
  refine sat_fillT ?_ (sat_elemSync o .m .p (by mem))
  refine sat_ite (sat_and sat_selfFalse fun _ => sat_has) (fun h => ?_) fun _ => ?_
  · refine sat_read (by mem) (fun v hw => ?_) (by mem)
    rw [good_elem] at hw ⊢; rw [hw.1]; exact ⟨elem_self (((h rfl).1 rfl).1 rfl) o .p .m, by simp⟩
  refine sat_ite sat_has (fun _ => ?_) fun _ => ?_
  · refine sat_readT (by mem) fun v hw => sat_pure ?_ (by mem)
    rw [good_vec] at hw; subst hw; exact elem_of_vec hv o .m .row
  refine sat_ite sat_has (fun _ => ?_) fun _ => ?_
  · refine sat_readT (by mem) fun v hw => sat_pure ?_ (by mem)
    rw [good_vec] at hw; subst hw; exact elem_of_vec hv o .m .col
  refine sat_ite (sat_and sat_selfFalse fun _ => sat_has) (fun h => ?_) fun _ => ?_
  · refine sat_readT (by mem) fun v hw => sat_pure ?_ (by mem)
    rw [good_vec] at hw; subst hw
    exact (elem_of_vec hv o .p .row).trans (elem_self (((h rfl).1 rfl).1 rfl) o .p .m)
  refine sat_ite (sat_and sat_selfFalse fun _ => sat_has) (fun h => ?_) fun _ => ?_
  · refine sat_readT (by mem) fun v hw => sat_pure ?_ (by mem)
    rw [good_vec] at hw; subst hw
    exact (elem_of_vec hv o .p .col).trans (elem_self (((h rfl).1 rfl).1 rfl) o .p .m)
  refine sat_ite sat_has' (fun _ => ?_) fun hoff => ?_
  · exact sat_readT (by mem) fun v hw => sat_pure (by subst hw; rfl) (by mem)
  refine sat_ite (sat_and sat_has fun _ => sat_and sat_has fun _ => sat_getSelf hv) (fun h => ?_)
    fun _ => ?_
  · exact sat_throw (hE (fun h => by simpa using hoff h) ((h rfl).2 rfl).2)
  refine sat_callT (sat_getSelf hv) fun t ht => ?_
  split
  · next e =>
    have hn := ht.1 (by simpa using e)
    refine (sat_getElemP hv o fun _ _ => Or.inr hn).conseq (fun _ h => h) (fun _ h => h)
      (fun v hw => ?_) (by mem)
    rw [good_elem, hw]; exact ⟨elem_self hn o .p .m, by simp⟩
  · exact sat_callT sat_getOffdiag fun v hw => sat_pure (by subst hw; rfl) (by mem)

theorem sat_getDiagRed (hv : c.Valid) (o : ι) :
    Sat (good c strict ex) E S (getDiagRed c o) noK (fun v => v = value c (.diagRed o)) := by
  unfold getDiagRed
  refine sat_fillT ?_ (sat_read (by mem) (fun v hv => hv) (by mem))
  refine sat_callT (sat_getSelf hv) fun t ht => ?_
  split
  · next e =>
    refine sat_pure ?_ (by mem)
    change none = reduce (c.f o) (diagVec c.A)
    exact ((reduce_eq_none _ _).2 fun i => ht.1 (by simpa using e) i).symm
  · exact sat_callT (sat_getDiag none) fun v hw => sat_pure (by subst hw; rfl) (by mem)

/-! ## negativity -/

/-- some edge (of the part) is negative -/
def Neg (s : Sign) (A : Mat n n α) : Prop := ∃ i j, (part s A i j).any (· < 0) = true
/-- some self-edge is negative -/
def NegD (A : Mat n n α) : Prop := ∃ i, (A i i).any (· < 0) = true

theorem neg_m_p {A : Mat n n α} (h : Neg .m A) : Neg .p A := by
  obtain ⟨i, j, h⟩ := h
  refine ⟨i, j, ?_⟩
  unfold part offdiag at h
  dsimp only at h
  split at h
  · simp at h
  · exact h

theorem negD_p {A : Mat n n α} (h : NegD A) : Neg .p A := by
  obtain ⟨i, h⟩ := h; exact ⟨i, i, h⟩

theorem neg_p_cases {A : Mat n n α} (h : Neg .p A) : Neg .m A ∨ NegD A := by
  obtain ⟨i, j, h⟩ := h
  by_cases e : i = j
  · subst e; exact Or.inr ⟨i, h⟩
  · exact Or.inl ⟨i, j, by simpa [part, offdiag, e] using h⟩

theorem elem_neg (hv : c.Valid) (s : Sign) :
    ((reduceScalar (c.f c.mn) (part s c.A)).getD 0 < 0) ↔ Neg s c.A := by
  unfold reduceScalar
  rw [reduce_neg hv.min]
  refine exists_congr fun i => ?_
  have := reduce_neg hv.min (part s c.A i)
  rw [← this]
  change (reduce (c.f c.mn) (part s c.A i)).any (· < 0) = true ↔ _
  cases reduce (c.f c.mn) (part s c.A i) <;> simp

theorem diag_neg (hv : c.Valid) :
    ((reduce (c.f c.mn) (diagVec c.A)).getD 0 < 0) ↔ NegD c.A := reduce_neg hv.min _

theorem ltZ_iff (x : Option α) : ltZ x = true ↔ x.getD 0 < 0 := by cases x <;> simp [ltZ]

theorem value_neg (s : Sign) : value c (.neg s) = true ↔ Neg s c.A := by
  simp only [value, decide_eq_true_eq]; rfl
theorem value_negD : value c .negDiag = true ↔ NegD c.A := by
  simp only [value, decide_eq_true_eq]; rfl
theorem eq_neg {s : Sign} {v : Bool} : v = value c (.neg s) ↔ (v = true ↔ Neg s c.A) := by
  rw [← value_neg]
  cases v <;> cases value c (.neg s) <;> simp
theorem good_neg {s : Sign} {v : Bool} : good c strict ex (.neg s) v ↔
    (v = true ↔ Neg s c.A) ∧ (ex → s = .p → MinOK c) := by
  rw [← eq_neg]
  cases s
  · exact ⟨fun h => ⟨h.1, fun a _ => h.2 a⟩, fun h => ⟨h.1, fun a => h.2 a rfl⟩⟩
  · exact ⟨fun h => ⟨h, by simp⟩, fun h => h.1⟩

theorem nonneg_not (hv : c.Valid) (h : c.nonneg = true) (s : Sign) : ¬ Neg s c.A := by
  intro hn
  have : Neg .p c.A := by cases s; exacts [hn, neg_m_p hn]
  obtain ⟨i, j, hij⟩ := this
  change (c.A i j).any (· < 0) = true at hij
  cases hw : c.A i j with
  | none => simp [hw] at hij
  | some w =>
    have := hv.nonneg h i j w hw
    simp only [hw, Option.any_some, decide_eq_true_eq] at hij
    exact absurd hij (not_lt.2 this)

/-- a scalar lookup with default 0 that came out negative was in the cache -/
theorem elem_lt (hv : c.Valid) {s : Sign} {o : Option (Option α)}
    (ho : ∀ v, o = some v → good c strict ex (.elem c.mn s) v) (h : ltZ (o.getD (some 0)) = true) :
    Neg s c.A ∧ (ex → s = .p → MinOK c) := by
  cases o with
  | none => simp [ltZ] at h
  | some v =>
    have := ho v rfl
    rw [good_elem] at this
    obtain ⟨rfl, hm⟩ := this
    rw [Option.getD_some, ltZ_iff] at h
    exact ⟨(elem_neg hv s).1 h, fun a b => hm a b rfl⟩

theorem sat_negDiagTest (hv : c.Valid) :
    Sat (good c strict ex) E S (negDiagTest c) noK
      (fun x => x = true → Neg .p c.A ∧ (ex → MinOK c)) := by
  unfold negDiagTest
  refine sat_callT sat_isB fun np hnp => sat_callT sat_peek fun mp hmp => sat_callT sat_peek
    fun mm hmm => sat_callT sat_isB fun nm hnm => sat_pure ?_ (by mem)
  intro h
  simp only [Bool.or_eq_true, Bool.and_eq_true] at h
  rcases h with (⟨h, _⟩ | ⟨h, _⟩) | ⟨h, _⟩
  · have := good_neg.1 (hnp h true rfl); exact ⟨this.1.1 rfl, fun a => this.2 a rfl⟩
  · have := good_neg.1 (hnp h true rfl); exact ⟨this.1.1 rfl, fun a => this.2 a rfl⟩
  · have := elem_lt hv hmp h; exact ⟨this.1, fun a => this.2 a rfl⟩

/-- with `has_self_edges` in the cache, a failed test means that there is a self-edge -/
theorem sat_selfFalse' (hst : strict → S .hasSelf) :
    Sat (good c strict ex) E S (selfFalse c) (fun x k' => x = true ∧ k' = .hasSelf)
      (fun x => (x = true → good c strict ex .hasSelf false) ∧
        (x = false → strict → ¬ NoSelf c.A)) := by
  intro o ho hs
  have h0 := sat_selfFalse (g := good c strict ex) (E := E) (S := S) o ho hs
  refine ⟨⟨h0.1, fun hf st => ?_⟩, h0.2⟩
  obtain ⟨b, rfl⟩ := Option.isSome_iff_exists.1 (hs (hst st))
  have : b = true := by
    cases b
    · exact absurd hf (by simp)
    · rfl
  subst this
  exact (ho _ rfl).2 st rfl

theorem sat_getNegDiag (hv : c.Valid) (hst : strict → ex ∧ S .hasSelf) :
    Sat (good c strict ex) E S (getNegDiag c) noK (fun v => good c strict ex .negDiag v) := by
  unfold getNegDiag
  refine sat_fillT ?_ (sat_read (by mem) (fun v hv => hv) (by mem))
  have vF : ¬ NegD c.A → value c .negDiag = false := fun h => by
    rw [← Bool.not_eq_true, value_negD]; exact h
  have gF : ¬ NegD c.A → good c strict ex .negDiag false := fun h =>
    ⟨fun st => ⟨(hst st).1, (vF h).symm⟩, fun _ => vF h, by simp⟩
  have gT : Neg .p c.A → (strict → NegD c.A) → good c strict ex .negDiag true := fun h h' =>
    ⟨fun st => ⟨(hst st).1, (value_negD.2 (h' st)).symm⟩, by simp, fun _ => (value_neg .p).2 h⟩
  split
  · next h => exact sat_pure (gF fun hd => nonneg_not hv h .p (negD_p hd)) (by mem)
  refine sat_ite (sat_selfFalse' fun st => (hst st).2) (fun h => ?_) fun hs => ?_
  · refine sat_pure (gF ?_) (by mem)
    rintro ⟨i, hi⟩; rw [(h.1 rfl).1 rfl i] at hi; simp at hi
  refine sat_ite (sat_negDiagTest hv) (fun h => ?_) fun _ => ?_
  · refine sat_pure (gT (h rfl).1 fun st => ?_) (by mem)
    have h1 := hs.2 rfl st
    rcases (h rfl).2 (hst st).1 with h2 | h2
    · obtain ⟨x, hx⟩ := Option.isSome_iff_exists.1 h2
      obtain ⟨_, hall⟩ := hv.iso x hx
      obtain ⟨i, j, hij⟩ := (h rfl).1
      obtain ⟨d, hd⟩ := not_noSelf.1 h1
      obtain ⟨w, hw⟩ := Option.isSome_iff_exists.1 hd
      change (c.A i j).any _ = true at hij
      refine ⟨d, ?_⟩
      cases hw' : c.A i j with
      | none => simp [hw'] at hij
      | some w' =>
        rw [hw', hall _ _ _ hw'] at hij
        rw [hw, hall _ _ _ hw]; exact hij
    · exact absurd h2 h1
  · refine sat_callT (sat_getDiagRed hv c.mn) fun v hw => sat_pure ?_ (by mem)
    subst hw
    have hd := diag_neg hv
    change good c strict ex .negDiag (decide ((reduce (c.f c.mn) (diagVec c.A)).getD 0 < 0))
    by_cases h : NegD c.A
    · rw [decide_eq_true (hd.2 h)]; exact gT (negD_p h) fun _ => h
    · rw [decide_eq_false fun h' => h (hd.1 h')]; exact gF h

theorem sat_negPTest (hv : c.Valid) :
    Sat (good c strict ex) E S (negPTest c) noK (fun x => x = true → Neg .p c.A) := by
  unfold negPTest
  refine sat_callT sat_isB fun nm hnm => sat_callT sat_peek fun mp hmp => sat_callT sat_peek
    fun mm hmm => sat_callT sat_peek fun md hmd => sat_callT sat_isB fun nd hnd => sat_pure ?_ (by mem)
  intro h
  simp only [Bool.or_eq_true] at h
  rcases h with (((h | h) | h) | h) | h
  · exact neg_m_p ((good_neg.1 (hnm h true rfl)).1.1 rfl)
  · exact (elem_lt hv hmp h).1
  · exact neg_m_p (elem_lt hv hmm h).1
  · cases md with
    | none => simp [ltZ] at h
    | some v =>
      have := hmd v rfl
      rw [show v = reduce (c.f c.mn) (diagVec c.A) from this, Option.getD_some, ltZ_iff] at h
      exact negD_p ((diag_neg hv).1 h)
  · exact (value_neg .p).1 ((hnd h true rfl).2.2 rfl)

theorem good_neg_decide {s : Sign} {p : Prop} [Decidable p] (hx : ex → s = .p → MinOK c)
    (h : p ↔ Neg s c.A) : good c strict ex (.neg s) (decide p) := by
  rw [good_neg, decide_eq_true_iff]; exact ⟨h, hx⟩

theorem sat_getNegP (hv : c.Valid) (hm : ex → MinOK c) :
    Sat (good c strict ex) E S (getNegP c) noK (fun v => v = value c (.neg .p)) := by
  unfold getNegP
  refine sat_fillT ?_ (sat_read (by mem) (fun v hv => eq_neg.2 (good_neg.1 hv).1) (by mem))
  split
  · next h =>
    exact sat_pure (good_neg.2 ⟨⟨by simp, fun h' => absurd h' (nonneg_not hv h .p)⟩, fun a _ => hm a⟩) (by mem)
  refine sat_ite (sat_negPTest hv) (fun h => ?_) fun _ => ?_
  · exact sat_pure (good_neg.2 ⟨⟨fun _ => h rfl, fun _ => rfl⟩, fun a _ => hm a⟩) (by mem)
  refine sat_callT sat_peek fun o ho => ?_
  have rest : Sat (good c strict ex) E S (do
        if ← isB c (.neg .m) rfl false then
          return decide ((← getDiagRed c c.mn).getD 0 < 0)
        else return decide ((← getElemP c c.mn).getD 0 < 0)) noK (good c strict ex (.neg .p)) := by
    refine sat_ite sat_isB (fun h => ?_) fun _ => ?_
    · refine sat_callT (sat_getDiagRed hv c.mn) fun v hw => sat_pure ?_ (by mem)
      subst hw
      refine good_neg_decide (fun a _ => hm a) ((diag_neg hv).trans ⟨negD_p, fun h' => ?_⟩)
      rcases neg_p_cases h' with h' | h'
      · exact absurd ((good_neg.1 (h rfl false rfl)).1.2 h') (by simp)
      · exact h'
    · refine sat_callT (sat_getElemP hv c.mn fun a _ => hm a) fun v hw => sat_pure ?_ (by mem)
      subst hw
      exact good_neg_decide (fun a _ => hm a) (elem_neg hv .p)
  split
  · next x =>
    refine sat_pure (good_neg_decide (fun a _ => hm a) ?_) (by mem)
    have hx : c.iso = some x := (ho _ rfl).symm
    obtain ⟨⟨i, j, hij⟩, hall⟩ := hv.iso x hx
    constructor
    · intro h; exact ⟨i, j, by simpa [part, hij] using h⟩
    · rintro ⟨i', j', h⟩
      change (c.A i' j').any _ = true at h
      cases hw : c.A i' j' with
      | none => simp [hw] at h
      | some w => rw [hw, hall i' j' w hw] at h; simpa using h
  · exact rest

theorem sat_getNegM (hv : c.Valid) (hE : ¬ S .offdiag → good c strict ex .hasSelf true → E .attributeError) :
    Sat (good c strict ex) E S (getNegM c) noK (fun v => v = value c (.neg .m)) := by
  unfold getNegM
  refine sat_fillT ?_ (sat_read (by mem) (fun v hv => eq_neg.2 (good_neg.1 hv).1) (by mem))
  split
  · next h =>
    exact sat_pure (good_neg.2 ⟨⟨by simp, fun h' => absurd h' (nonneg_not hv h .m)⟩, by simp⟩) (by mem)
  refine sat_ite (sat_and (Qy := fun x => x = true → ¬ NegD c.A) (Ty := noK) sat_isB fun _ => ?_)
    (fun h => ?_) fun _ => ?_
  · refine sat_ite sat_selfFalse (fun h => ?_) fun _ => ?_
    · refine sat_pure (fun _ => ?_) (by mem)
      rintro ⟨i, hi⟩; rw [(h rfl).1 rfl i] at hi; simp at hi
    · refine sat_isB.conseq (fun _ h => h) (fun _ h => h) (fun x h hx => ?_) (by mem)
      have := (h hx false rfl).2.1 rfl
      rw [← value_negD, this]; simp
  · refine sat_pure (good_neg.2 ⟨⟨fun _ => ?_, fun _ => rfl⟩, by simp⟩) (by mem)
    rcases neg_p_cases ((good_neg.1 ((h rfl).1 rfl true rfl)).1.1 rfl) with h' | h'
    · exact h'
    · exact absurd h' ((h rfl).2 rfl)
  · refine sat_callT (sat_getElemM hv c.mn hE) fun v hw => sat_pure ?_ (by mem)
    subst hw
    exact good_neg_decide (by simp) (elem_neg hv .m)

/-! ## iso values -/

theorem sat_getIsIso : Sat (good c strict ex) E S (getIsIso c) noK (fun v => v = value c .isIso) := by
  unfold getIsIso
  refine sat_fillT ?_ (sat_read (by mem) (fun v hv => hv) (by mem))
  refine sat_ite sat_has (fun h => ?_) fun _ => ?_
  · exact sat_readT (by mem) fun v hw => sat_pure (by subst hw; rfl) (by mem)
  · exact sat_pure rfl (by mem)

theorem sat_getIsoVal (hE : c.iso = none → E .keyError) :
    Sat (good c strict ex) E S (getIsoVal c) noK (fun v => v = value c .isoVal) := by
  unfold getIsoVal
  refine sat_ifMissingT ?_ (sat_read (by mem) (fun v hv => hv) (by mem))
  refine sat_ite sat_has (fun h => ?_) fun _ => ?_
  · refine sat_readT (by mem) fun v hw => ?_
    split
    · exact sat_putE rfl (by mem)
    · next e =>
      have : c.iso = none := by
        rw [show v = c.iso.isSome from hw] at e; simpa using e
      exact sat_bind (T := fun _ k => k = .isoVal) (Q := fun _ => True)
        (sat_read_or (hE this) (fun _ _ => trivial) (by mem)) fun _ _ => sat_pure trivial (by mem)
  split
  · next h =>
    exact sat_putT rfl (sat_putE (show true = c.iso.isSome by rw [h]) (by mem))
  · next h =>
    have h : c.iso = none := by simpa using h
    exact sat_putT (show none = c.iso by rw [h])
      (sat_putE (show false = c.iso.isSome by rw [h]; rfl) (by mem))

/-! ## directed degrees -/

theorem good_recip {s : Sign} {v} :
    good c strict ex (.recip s) v ↔ v = countRow (recipMat (part s c.A)) := Iff.rfl

theorem recip_self (h : NoSelf c.A) (s t : Sign) :
    countRow (recipMat (part s c.A)) = countRow (recipMat (part t c.A)) := by rw [part_of h s t]

theorem sat_recipSync (s t : Sign) (hst : (s = .p ∧ t = .m) ∨ (s = .m ∧ t = .p)) (hs : S (.recip s)) :
    Sat (good c strict ex) E S (recipSync c s t) noK (fun v => v = value c (.recip s)) := by
  unfold recipSync
  refine sat_syncT
    (Qd := fun x => x = true → nvals (countRow (recipMat (part .m c.A)))
      ≠ nvals (countRow (recipMat (part .p c.A))))
    (Td := fun _ _ => False) ?_ ?_ ?_ (sat_read hs (fun v hv => hv) (by mem))
  · refine (sat_and (Qy := fun x => x = true → nvals (countRow (recipMat (part .m c.A)))
      ≠ nvals (countRow (recipMat (part .p c.A))))
      (Ty := fun _ _ => False) sat_has fun _ => ?_).conseq
      (fun _ h => h) (fun _ h => h) (fun x h hx => (h hx).2 rfl) (by mem)
    have h1 : S (.recip .m) ∨ (true = true ∧ (Key.recip .m : Key ι) = .recip t) := by
      rcases hst with ⟨rfl, rfl⟩ | ⟨rfl, rfl⟩
      · exact Or.inr ⟨rfl, rfl⟩
      · exact Or.inl hs
    have h2 : S (.recip .p) ∨ (true = true ∧ (Key.recip .p : Key ι) = .recip t) := by
      rcases hst with ⟨rfl, rfl⟩ | ⟨rfl, rfl⟩
      · exact Or.inl hs
      · exact Or.inr ⟨rfl, rfl⟩
    refine sat_readT h1 fun v hv => sat_readT h2 fun w hw => sat_pure ?_ (by mem)
    rw [good_recip] at hv hw; subst hv hw; simp
  · intro h; exact ⟨by simp, fun _ _ hn => h rfl (by rw [recip_self hn .m .p])⟩
  · intro h
    refine sat_readT hs fun v hv => sat_putE ?_ (by mem)
    rw [good_recip] at hv ⊢; rw [hv]; exact recip_self (h.1 rfl) s t

theorem recip_add (d : Vec c.n α) (hd : d = value c .diag) (r : Vec c.n Nat)
    (hr : r = countRow (recipMat (part .m c.A))) :
    vadd (· + ·) (oneOf c d) r = countRow (recipMat (part .p c.A)) := by
  subst hd hr; exact recip_plus c.A

theorem sat_getRecipP (hv : c.Valid) (mask : Option (VMask c.n)) :
    Sat (good c strict ex) E S (getRecipP c mask) noK
      (fun v => v = restrict mask (.recip .p) (value c (.recip .p))) := by
  unfold getRecipP
  refine sat_callT sat_peek fun o ho => ?_
  have hAT : pairRow c c.A (o.getD (transpose c.A)) = countRow (recipMat (part .p c.A)) := by
    have : o.getD (transpose c.A) = transpose c.A := by
      cases o with
      | none => rfl
      | some v => exact ho v rfl
    rw [this]; exact pairRow_eq _ _
  cases mask with
  | none =>
    refine sat_fillT ?_ (sat_recipSync .p .m (by simp) (by mem))
    refine sat_ite (sat_and sat_selfFalse fun _ => sat_has) (fun h => ?_) fun _ => ?_
    · refine sat_read (by mem) (fun v hw => ?_) (by mem)
      rw [good_recip] at hw ⊢; rw [hw]; exact recip_self (((h rfl).1 rfl).1 rfl) .m .p
    refine sat_ite (sat_and sat_has fun _ => sat_has) (fun h => ?_) fun _ => ?_
    · refine sat_readT (by mem) fun v hd => sat_readT (by mem) fun w hw => sat_pure ?_ (by mem)
      exact recip_add v hd w hw
    refine sat_ite (sat_and sat_has fun _ => sat_not (sat_getSelf hv)) (fun h => ?_) fun _ => ?_
    · refine sat_read (by mem) (fun v hw => ?_) (by mem)
      rw [good_recip] at hw ⊢; rw [hw]; exact recip_self ((h rfl).2.1 rfl) .m .p
    · exact sat_pure hAT (by mem)
  | some m =>
    refine sat_ite sat_has (fun _ => ?_) fun _ => ?_
    · exact sat_readT (by mem) fun v hw => sat_pure (by subst hw; rfl) (by mem)
    refine sat_ite (sat_and sat_selfFalse fun _ => sat_has) (fun h => ?_) fun _ => ?_
    · have hn := ((h rfl).1 rfl).1 rfl
      refine sat_readT (by mem) fun v hw => sat_putT ?_ (sat_readT (by mem) fun v hw => sat_pure ?_ (by mem))
      · rw [good_recip] at hw ⊢; rw [hw]; exact recip_self hn .m .p
      · rw [good_recip] at hw; rw [hw, recip_self hn .m .p]; rfl
    refine sat_ite (sat_and sat_has fun _ => sat_has) (fun h => ?_) fun _ => ?_
    · refine sat_readT (by mem) fun v hd => sat_readT (by mem) fun w hw => sat_pure ?_ (by mem)
      rw [recip_add v hd w hw]; rfl
    refine sat_ite (sat_and sat_has fun _ => sat_not (sat_getSelf hv)) (fun h => ?_) fun _ => ?_
    · refine sat_readT (by mem) fun v hw => sat_pure ?_ (by mem)
      rw [good_recip] at hw; rw [hw, recip_self ((h rfl).2.1 rfl) .m .p]; rfl
    · exact sat_pure (by rw [hAT]; rfl) (by mem)

theorem pair_off (T : Mat c.n c.n α) (hT : T = transpose c.A ∨ T = transpose (offdiag c.A)) :
    pairRow c (offdiag c.A) T = countRow (recipMat (part .m c.A)) := by
  unfold pairRow
  rw [pairRow_eq]
  rcases hT with rfl | rfl
  · rw [pair_offdiag]; rfl
  · rfl

theorem pair_lu (T : Mat c.n c.n α) (hT : T = transpose c.A ∨ T = transpose (offdiag c.A)) :
    vadd (· + ·) (pairRow c (tril1 c.A) T) (pairRow c (triu1 c.A) T)
      = countRow (recipMat (part .m c.A)) := by
  unfold pairRow
  rw [pairRow_eq, pairRow_eq]
  rcases hT with rfl | rfl
  · exact recip_lu c.A
  · have := recip_lu (offdiag c.A)
    rw [tril1_offdiag, triu1_offdiag, show offdiag (offdiag c.A) = offdiag c.A from by
      funext i j; unfold offdiag; split <;> simp_all] at this
    exact this

theorem mask_vapply (m : VMask n) (v : Vec n α) :
    vapply (fun _ => (1 : Nat)) (vassignR m v) = vassignR m (vapply (fun _ => 1) v) := by
  funext i; unfold vapply vassignR; split <;> rfl

theorem minus_mask (m : VMask c.n) :
    minusDrop c (vassignR m (countRow (recipMat c.A))) (oneOf c (vassignR m (diagVec c.A)))
      = vassignR m (countRow (recipMat (offdiag c.A))) := by
  funext i
  unfold minusDrop oneOf
  rw [mask_vapply, vassignR_vadd]
  exact recip_minus_mask c.A m i

theorem sat_getRecipM (hv : c.Valid) (mask : Option (VMask c.n)) :
    Sat (good c strict ex) E S (getRecipM c mask) noK
      (fun v => v = restrict mask (.recip .m) (value c (.recip .m))) := by
  unfold getRecipM
  refine sat_callT sat_peek fun o ho => sat_bind sat_peek fun q hq => ?_
  set T := o.getD (transpose (q.getD c.A)) with hTdef
  have hT : T = transpose c.A ∨ T = transpose (offdiag c.A) := by
    cases o with
    | none =>
      cases q with
      | none => exact Or.inl rfl
      | some v => right; rw [hTdef, Option.getD_none, Option.getD_some, show v = offdiag c.A from hq v rfl]
    | some v => exact Or.inl (ho v rfl)
  -- when `T` is the transposed off-diagonal part, "offdiag" is in the cache
  have hT' : T = transpose c.A ∨ q.isSome := by
    cases o with
    | none => cases q <;> simp [hTdef]
    | some v => exact Or.inl (ho v rfl)
  cases mask with
  | none =>
    refine sat_fillT ?_ (sat_recipSync .m .p (by simp) (by mem))
    refine sat_ite (sat_and sat_selfFalse fun _ => sat_has) (fun h => ?_) fun _ => ?_
    · refine sat_read (by mem) (fun v hw => ?_) (by mem)
      rw [good_recip] at hw ⊢; rw [hw]; exact recip_self (((h rfl).1 rfl).1 rfl) .p .m
    refine sat_ite (sat_and sat_has fun _ => sat_has) (fun h => ?_) fun _ => ?_
    · refine sat_readT (by mem) fun v hd => sat_readT (by mem) fun w hw => sat_pure ?_ (by mem)
      rw [good_recip] at hw
      rw [show v = diagVec c.A from hd, hw]
      funext i; exact recip_minus_at c.A i
    refine sat_callT (sat_getSelf hv) fun t ht => ?_
    split
    · next e =>
      refine (sat_getRecipP hv none).conseq (fun _ h => h) (fun _ h => h) (fun v hw => ?_) (by mem)
      rw [hw]; exact recip_self (ht.1 (by simpa using e)) .p .m
    refine sat_iteHas ?_ fun hno => ?_
    · refine sat_readT (by mem) fun v hw => sat_pure ?_ (by mem)
      rw [show v = offdiag c.A from hw]; exact pair_off T hT
    refine sat_ite (sat_and sat_has fun _ => sat_has) (fun h => ?_) fun _ => ?_
    · refine sat_readT (by mem) fun l hl => sat_readT (by mem) fun u hu => sat_pure ?_ (by mem)
      rw [show l = tril1 c.A from hl, show u = triu1 c.A from hu]; exact pair_lu T hT
    · refine sat_callT (sat_getDiag none) fun d hd => sat_pure ?_ (by mem)
      have hTT : T = transpose c.A := hT'.resolve_right fun h => hno (Or.inr ⟨h, rfl⟩)
      rw [hTT, show d = diagVec c.A from hd]
      unfold pairRow
      rw [pairRow_eq]
      funext i; exact recip_minus_at c.A i
  | some m =>
    refine sat_ite sat_has (fun _ => ?_) fun _ => ?_
    · exact sat_readT (by mem) fun v hw => sat_pure (by subst hw; rfl) (by mem)
    refine sat_ite (sat_and sat_selfFalse fun _ => sat_has) (fun h => ?_) fun _ => ?_
    · have hn := ((h rfl).1 rfl).1 rfl
      refine sat_readT (by mem) fun v hw => sat_putT ?_ (sat_readT (by mem) fun v hw => sat_pure ?_ (by mem))
      · rw [good_recip] at hw ⊢; rw [hw]; exact recip_self hn .p .m
      · rw [good_recip] at hw; rw [hw]; rfl
    refine sat_ite (sat_and sat_has fun _ => sat_has) (fun h => ?_) fun _ => ?_
    · refine sat_readT (by mem) fun v hd => sat_readT (by mem) fun w hw => sat_pure ?_ (by mem)
      rw [good_recip] at hw
      rw [show v = diagVec c.A from hd, hw]
      funext i; exact recip_minus_mask c.A m i
    refine sat_callT (sat_getSelf hv) fun t ht => ?_
    split
    · next e =>
      refine (sat_getRecipP hv (some m)).conseq (fun _ h => h) (fun _ h => h) (fun v hw => ?_) (by mem)
      rw [hw]
      change vassignR m (countRow (recipMat (part .p c.A))) = vassignR m (countRow (recipMat (part .m c.A)))
      rw [recip_self (ht.1 (by simpa using e)) .p .m]
    refine sat_iteHas ?_ fun hno => ?_
    · refine sat_readT (by mem) fun v hw => sat_pure ?_ (by mem)
      rw [show v = offdiag c.A from hw, pair_off T hT]; rfl
    refine sat_ite (sat_and sat_has fun _ => sat_has) (fun h => ?_) fun _ => ?_
    · refine sat_readT (by mem) fun l hl => sat_readT (by mem) fun u hu => sat_pure ?_ (by mem)
      rw [show l = tril1 c.A from hl, show u = triu1 c.A from hu, vassignR_vadd, pair_lu T hT]; rfl
    · refine sat_callT (sat_getDiag (some m)) fun d hd => sat_pure ?_ (by mem)
      have hTT : T = transpose c.A := hT'.resolve_right fun h => hno (Or.inr ⟨h, rfl⟩)
      rw [hTT, show d = vassignR m (diagVec c.A) from hd]
      unfold pairRow
      rw [pairRow_eq]
      exact minus_mask m

/-! ### total degrees -/

theorem totd_self (h : NoSelf c.A) (s t : Sign) : totd (part s c.A) = totd (part t c.A) := by
  rw [part_of h s t]

theorem good_totdeg {s : Sign} {v} :
    good c strict ex (.totdeg s) v ↔ v = totd (part s c.A) ∧ (s = .p → NoSelf c.A) := by
  cases s
  · exact ⟨fun h => ⟨h.1, fun _ => h.2⟩, fun h => ⟨h.1, h.2 rfl⟩⟩
  · exact ⟨fun h => ⟨h, by simp⟩, fun h => h.1⟩

theorem sat_totdegSync (s t : Sign) (hst : (s = .p ∧ t = .m) ∨ (s = .m ∧ t = .p))
    (hs : S (.totdeg s)) :
    Sat (good c strict ex) E S (totdegSync c s t) noK (fun v => v = value c (.totdeg s)) := by
  unfold totdegSync
  refine sat_syncT
    (Qd := fun x => x = true → nvals (totd (part .m c.A)) ≠ nvals (totd (part .p c.A)))
    (Td := fun _ _ => False) ?_ ?_ ?_
    (sat_read hs (fun v hv => (good_totdeg.1 hv).1) (by mem))
  · refine (sat_and (Qy := fun x => x = true → nvals (totd (part .m c.A)) ≠ nvals (totd (part .p c.A)))
      (Ty := fun _ _ => False) sat_has fun _ => ?_).conseq
      (fun _ h => h) (fun _ h => h) (fun x h hx => (h hx).2 rfl) (by mem)
    have h1 : S (.totdeg .m) ∨ (true = true ∧ (Key.totdeg .m : Key ι) = .totdeg t) := by
      rcases hst with ⟨rfl, rfl⟩ | ⟨rfl, rfl⟩
      · exact Or.inr ⟨rfl, rfl⟩
      · exact Or.inl hs
    have h2 : S (.totdeg .p) ∨ (true = true ∧ (Key.totdeg .p : Key ι) = .totdeg t) := by
      rcases hst with ⟨rfl, rfl⟩ | ⟨rfl, rfl⟩
      · exact Or.inl hs
      · exact Or.inr ⟨rfl, rfl⟩
    refine sat_readT h1 fun v hv => sat_readT h2 fun w hw => sat_pure ?_ (by mem)
    rw [good_totdeg] at hv hw; rw [hv.1, hw.1]; simp
  · intro h; exact ⟨by simp, fun _ _ hn => h rfl (by rw [totd_self hn .m .p])⟩
  · intro h
    refine sat_readT hs fun v hv => sat_putE ?_ (by mem)
    rw [good_totdeg] at hv ⊢
    exact ⟨hv.1.trans (totd_self (h.1 rfl) s t), fun _ => h.1 rfl⟩

theorem sat_degOf (hv : c.Valid) (s : Sign) (ax : Axis) (mask : Option (VMask c.n)) :
    Sat (good c strict ex) E S (degOf c s ax mask) noK
      (fun v => v = restrict mask (.vec .count s ax) (value c (.vec .count s ax))) := by
  cases s
  · exact sat_getVecP hv .count ax mask
  · exact sat_getVecM hv false .count ax mask

theorem sat_getTotdeg (hv : c.Valid) (s t : Sign) (hst : (s = .p ∧ t = .m) ∨ (s = .m ∧ t = .p))
    (mask : Option (VMask c.n)) (hok : s = .p → mask = none → NoSelf c.A) :
    Sat (good c strict ex) E S (getTotdeg c s t mask) noK
      (fun v => v = restrict mask (.totdeg s) (value c (.totdeg s))) := by
  unfold getTotdeg
  cases mask with
  | none =>
    refine sat_fillT ?_ (sat_totdegSync s t hst (by mem))
    refine sat_ite (sat_and sat_selfFalse fun _ => sat_has) (fun h => ?_) fun _ => ?_
    · have hn := ((h rfl).1 rfl).1 rfl
      refine sat_read (by mem) (fun v hw => ?_) (by mem)
      rw [good_totdeg] at hw ⊢
      exact ⟨hw.1.trans (totd_self hn t s), fun _ => hn⟩
    · refine sat_callT (sat_degOf hv s .row none) fun x hx => sat_callT (sat_degOf hv s .col none)
        fun y hy => sat_pure ?_ (by mem)
      rw [good_totdeg]
      refine ⟨?_, fun h => hok h rfl⟩
      rw [hx, hy]; rfl
  | some m =>
    refine sat_ite sat_has (fun _ => ?_) fun _ => ?_
    · refine sat_readT (by mem) fun v hw => sat_pure ?_ (by mem)
      rw [good_totdeg] at hw; rw [hw.1]; rfl
    refine sat_ite (sat_and sat_selfFalse fun _ => sat_has) (fun h => ?_) fun _ => ?_
    · have hn := ((h rfl).1 rfl).1 rfl
      refine sat_readT (by mem) fun v hw => sat_putT ?_ (sat_readT (by mem) fun v hw => sat_pure ?_ (by mem))
      · rw [good_totdeg] at hw ⊢
        exact ⟨hw.1.trans (totd_self hn t s), fun _ => hn⟩
      · rw [good_totdeg] at hw; rw [hw.1]; rfl
    · refine sat_callT (sat_degOf hv s .row (some m)) fun x hx =>
        sat_callT (sat_degOf hv s .col (some m)) fun y hy => sat_pure ?_ (by mem)
      rw [hx, hy]
      exact vassignR_vadd m (· + ·) _ _

/-! ### reciprocal totals -/

theorem good_totrecip {s : Sign} {v} :
    good c strict ex (.totrecip s) v ↔ v = mnvals (recipMat (part s c.A)) := Iff.rfl

theorem sat_totrecipSync (s t : Sign) (hst : (s = .p ∧ t = .m) ∨ (s = .m ∧ t = .p))
    (hs : S (.totrecip s)) :
    Sat (good c strict ex) E S (totrecipSync c s t) noK (fun v => v = value c (.totrecip s)) := by
  have e6 := nvals_diag_pos (A := c.A)
  have e7 := totrecip_split c.A
  unfold totrecipSync
  refine sat_bind (sat_and (sat_not sat_has) fun _ => sat_has) fun x hx => ?_
  refine sat_whenT (fun e => ?_) (sat_callT sat_selfFalse fun h hh => sat_whenT (fun e => ?_)
      (sat_read (by left; exact hs) (fun v hv => hv) (by mem)))
  · subst e
    have h1 : S (.totrecip .m) ∨ (true = true ∧ ((true = true) ∧ False ∨
        ((true = true) ∧ (Key.totrecip .m : Key ι) = .totrecip t))) := by
      rcases hst with ⟨rfl, rfl⟩ | ⟨rfl, rfl⟩
      · exact Or.inr ⟨rfl, Or.inr ⟨rfl, rfl⟩⟩
      · exact Or.inl hs
    have h2 : S (.totrecip .p) ∨ (true = true ∧ ((true = true) ∧ False ∨
        ((true = true) ∧ (Key.totrecip .p : Key ι) = .totrecip t))) := by
      rcases hst with ⟨rfl, rfl⟩ | ⟨rfl, rfl⟩
      · exact Or.inl hs
      · exact Or.inr ⟨rfl, Or.inr ⟨rfl, rfl⟩⟩
    refine sat_readT ?_ fun v hv => sat_readT ?_ fun w hw => sat_putE ?_ (by mem)
    · rcases h2 with h2 | h2
      · exact Or.inl h2
      · exact Or.inr (by simpa using h2)
    · rcases h1 with h1 | h1
      · exact Or.inl h1
      · exact Or.inr (by simpa using h1)
    rw [good_totrecip] at hv hw; subst hv hw
    exact good_self (by
      rw [← e6]; change mnvals (recipMat c.A) > mnvals (recipMat (offdiag c.A)) ↔ _; omega)
  · refine sat_readT (by left; exact hs) fun v hv => sat_putE ?_ (by mem)
    rw [good_totrecip] at hv ⊢
    rw [hv, part_of ((hh e).1 rfl) s t]

theorem sat_getTotrecipP :
    Sat (good c strict ex) E S (getTotrecipP c) noK (fun v => v = value c (.totrecip .p)) := by
  unfold getTotrecipP
  refine sat_fillT ?_ (sat_totrecipSync .p .m (by simp) (by mem))
  refine sat_ite (sat_and sat_has fun _ => sat_selfFalse) (fun h => ?_) fun _ => ?_
  · refine sat_read (by mem) (fun v hw => ?_) (by mem)
    rw [good_totrecip] at hw ⊢; rw [hw, part_of (((h rfl).2 rfl).1 rfl) .m .p]
  refine sat_ite sat_has (fun h => ?_) fun _ => ?_
  · refine sat_readT (by mem) fun v hw => sat_pure ?_ (by mem)
    rw [good_recip] at hw; rw [hw]; exact mnvals_recip _
  · refine sat_callT sat_peek fun o ho => sat_pure ?_ (by mem)
    have : o.getD (transpose c.A) = transpose c.A := by
      cases o with
      | none => rfl
      | some v => exact ho v rfl
    rw [this, good_totrecip]
    unfold reduceScalar
    rw [pairRow_eq]
    exact mnvals_recip _

theorem sat_getTotrecipM (hv : c.Valid) :
    Sat (good c strict ex) E S (getTotrecipM c) noK (fun v => v = value c (.totrecip .m)) := by
  unfold getTotrecipM
  refine sat_fillT ?_ (sat_totrecipSync .m .p (by simp) (by mem))
  refine sat_ite (sat_and sat_has fun _ => sat_selfFalse) (fun h => ?_) fun _ => ?_
  · refine sat_read (by mem) (fun v hw => ?_) (by mem)
    rw [good_totrecip] at hw ⊢; rw [hw, part_of (((h rfl).2 rfl).1 rfl) .p .m]
  · refine sat_callT (sat_getRecipM hv none) fun v hw => sat_pure ?_ (by mem)
    rw [hw]; exact mnvals_recip _

/-! ## get_property -/

/-- the result of a lookup -/
def Result (c : Ctx ι α) (strict ex : Prop) (mask : Option (VMask c.n)) (k : Key ι)
    (v : Val c.n α k) : Prop :=
  (k ≠ .hasSelf → k ≠ .negDiag → v = restrict mask k (value c k)) ∧ (k = .hasSelf ∨ k = .negDiag → good c strict ex k v)

/-- the errors a lookup may raise -/
def Allowed (c : Ctx ι α) (strict : Prop) (k : Key ι) (e : Err) : Prop :=
  (e = .attributeError ∧ (strict → ¬ NoSelf c.A) ∧ ((∃ o, k = .elem o .m) ∨ k = .neg .m)) ∨
  (e = .keyError ∧ ((k = .isoVal ∧ c.iso = none) ∨
    (c.dir = false ∧ ∃ s, k = .recip s ∨ k = .totdeg s ∨ k = .totrecip s)))

/-- as `sat_getProp`; `AttributeError` needs a cache without `offdiag` -/
theorem sat_getProp' (hv : c.Valid) (al : Bool) (mask : Option (VMask c.n)) (k : Key ι)
    (h1 : k = .negDiag → strict → ex ∧ S .hasSelf)
    (h2 : c.dir = true → k = .totdeg .p → mask = none → NoSelf c.A)
    (h3 : ex → k = .neg .p ∨ k = .elem c.mn .p → MinOK c) :
    Sat (good c strict ex) (fun e => Allowed c strict k e ∧ (e = .attributeError → ¬ S .offdiag)) S (getProp c al mask k)
      (fun _ k' => k = .offdiag ∧ (k' = .hasSelf ∨ k' = .offdiag)) (Result c strict ex mask k) := by
  have fin : ∀ {m : M c (Val c.n α k)}, k ≠ .hasSelf → k ≠ .negDiag →
      Sat (good c strict ex) (fun e => Allowed c strict k e ∧ (e = .attributeError → ¬ S .offdiag)) S m noK (fun v => v = restrict mask k (value c k)) →
      Sat (good c strict ex) (fun e => Allowed c strict k e ∧ (e = .attributeError → ¬ S .offdiag)) S m noK (Result c strict ex mask k) := by
    intro m ha hb h
    exact h.conseq (fun _ h => h) (fun _ h => h)
      (fun v hv => ⟨fun _ _ => hv, fun h => (h.elim ha hb).elim⟩) (by mem)
  by_cases ho : k = .offdiag
  · subst ho
    exact sat_getOffdiag'.conseq (fun _ h => h) (fun _ h => h)
      (fun v hv => ⟨fun _ _ => hv, by simp⟩) (by mem)
  refine Sat.conseq (Q' := Result c strict ex mask k) (T' := noK) (S' := S)
    (E' := fun e => Allowed c strict k e ∧ (e = .attributeError → ¬ S .offdiag)) ?_ (fun _ h => h) (fun _ h => h) (fun _ h => h)
    (fun _ _ _ h => absurd h.1 ho)
  cases k with
  | A => exact fin (by simp) (by simp) (sat_pure rfl (by mem))
  | AT => exact fin (by simp) (by simp) (sat_getAT hv)
  | offdiag => exact fin (by simp) (by simp) sat_getOffdiag
  | U s =>
    refine fin (by simp) (by simp) ?_
    cases s <;> simp only [getProp] <;> cases h : c.dir
    · exact sat_upUndir hv h
    · exact sat_upDir hv
    · exact sat_umUndir hv h
    · exact sat_umDir
  | L s =>
    refine fin (by simp) (by simp) ?_
    cases s <;> simp only [getProp] <;> cases h : c.dir
    · exact sat_lpUndir hv h
    · exact sat_lpDir hv
    · exact sat_lmUndir hv h
    · exact sat_lmDir
  | diag =>
    exact fin (by simp) (by simp) ((sat_getDiag mask).conseq (fun _ h => h) (fun _ h => h)
      (fun _ h => h) (by mem))
  | vec r s ax =>
    refine fin (by simp) (by simp) ?_
    cases s
    · exact sat_getVecP hv r ax mask
    · exact sat_getVecM hv al r ax mask
  | elem o s =>
    refine fin (by simp) (by simp) ?_
    cases s
    · exact sat_getElemP hv o fun a b => h3 a (Or.inr (by rw [b]))
    · exact sat_getElemM hv o fun ho h => ⟨Or.inl ⟨rfl, fun hs => h.2 hs rfl, Or.inl ⟨o, rfl⟩⟩, fun _ => ho⟩
  | diagRed o => exact fin (by simp) (by simp) (sat_getDiagRed hv o)
  | recip s =>
    refine fin (by simp) (by simp) ?_
    cases s <;> simp only [getProp] <;> cases h : c.dir
    · exact sat_throw ⟨Or.inr ⟨rfl, Or.inr ⟨h, _, Or.inl rfl⟩⟩, by simp⟩
    · exact sat_getRecipP hv mask
    · exact sat_throw ⟨Or.inr ⟨rfl, Or.inr ⟨h, _, Or.inl rfl⟩⟩, by simp⟩
    · exact sat_getRecipM hv mask
  | totdeg s =>
    refine fin (by simp) (by simp) ?_
    cases s <;> simp only [getProp] <;> cases h : c.dir
    · exact sat_throw ⟨Or.inr ⟨rfl, Or.inr ⟨h, _, Or.inr (Or.inl rfl)⟩⟩, by simp⟩
    · exact sat_getTotdeg hv .p .m (by simp) mask fun _ hm => h2 h rfl hm
    · exact sat_throw ⟨Or.inr ⟨rfl, Or.inr ⟨h, _, Or.inr (Or.inl rfl)⟩⟩, by simp⟩
    · exact sat_getTotdeg hv .m .p (by simp) mask (by simp)
  | totrecip s =>
    refine fin (by simp) (by simp) ?_
    cases s <;> simp only [getProp] <;> cases h : c.dir
    · exact sat_throw ⟨Or.inr ⟨rfl, Or.inr ⟨h, _, Or.inr (Or.inr rfl)⟩⟩, by simp⟩
    · exact sat_getTotrecipP
    · exact sat_throw ⟨Or.inr ⟨rfl, Or.inr ⟨h, _, Or.inr (Or.inr rfl)⟩⟩, by simp⟩
    · exact sat_getTotrecipM hv
  | hasSelf =>
    exact (sat_getSelf hv).conseq (fun _ h => h) (fun _ h => h)
      (fun v h => ⟨by simp, fun _ => h⟩) (by mem)
  | negDiag =>
    exact (sat_getNegDiag hv (h1 rfl)).conseq (fun _ h => h) (fun _ h => h)
      (fun v h => ⟨by simp, fun _ => h⟩) (by mem)
  | neg s =>
    refine fin (by simp) (by simp) ?_
    cases s
    · exact sat_getNegP hv fun a => h3 a (Or.inl rfl)
    · exact sat_getNegM hv fun ho h => ⟨Or.inl ⟨rfl, fun hs => h.2 hs rfl, Or.inr rfl⟩, fun _ => ho⟩
  | isIso => exact fin (by simp) (by simp) sat_getIsIso
  | isoVal => exact fin (by simp) (by simp) (sat_getIsoVal fun h => ⟨Or.inr ⟨rfl, Or.inl ⟨rfl, h⟩⟩, by simp⟩)

theorem sat_getProp (hv : c.Valid) (al : Bool) (mask : Option (VMask c.n)) (k : Key ι)
    (h1 : k = .negDiag → strict → ex ∧ S .hasSelf)
    (h2 : c.dir = true → k = .totdeg .p → mask = none → NoSelf c.A)
    (h3 : ex → k = .neg .p ∨ k = .elem c.mn .p → MinOK c) :
    Sat (good c strict ex) (Allowed c strict k) S (getProp c al mask k)
      (fun _ k' => k = .offdiag ∧ k' = .hasSelf) (Result c strict ex mask k) :=
  (sat_getProp' hv al mask k h1 h2 h3).conseq (fun _ h => h) (fun _ h => h.1) (fun _ h => h) (by mem)

/-! ## get_properties -/

theorem sat_evalAll (hv : c.Valid) (al : Bool) (mask : Option (VMask c.n)) (E : Err → Prop)
    (ks : List (Key ι)) (d : Store ι c.n α)
    (h1 : ∀ k ∈ ks, k = .negDiag → strict → ex ∧ S .hasSelf)
    (h2 : ∀ k ∈ ks, c.dir = true → k = .totdeg .p → mask = none → NoSelf c.A)
    (h3 : ex → ∀ k ∈ ks, k = .neg .p ∨ k = .elem c.mn .p → MinOK c)
    (hE : ∀ k ∈ ks, ∀ e, Allowed c strict k e → E e)
    (hd : ∀ k v, d k = some v → Result c strict ex mask k v) :
    Sat (good c strict ex) E S (evalAll c al mask ks d) noK
      (fun d' => (∀ k v, d' k = some v → Result c strict ex mask k v) ∧
        (∀ k, (d k).isSome → (d' k).isSome) ∧ ∀ k ∈ ks, (d' k).isSome) := by
  induction ks generalizing d S with
  | nil => exact sat_pure ⟨hd, fun _ h => h, by simp⟩ (by mem)
  | cons k ks ih =>
    unfold evalAll
    refine sat_callT ((sat_getProp hv al mask k (h1 k (by simp)) (h2 k (by simp))
      fun a => h3 a k (by simp)).conseq
      (Q := Result c strict ex mask k) (T := noK) (fun _ h => h) (hE k (by simp)) (fun _ h => h) (by mem))
      fun v hr => ?_
    refine (ih (Function.update d k (some v)) (fun k hk => h1 k (by simp [hk]))
      (fun k hk => h2 k (by simp [hk])) (fun a k hk => h3 a k (by simp [hk])) (fun k hk => hE k (by simp [hk])) ?_).conseq
      (fun _ h => h) (fun _ h => h) ?_ (by mem)
    · intro k' w hw
      by_cases e : k' = k
      · subst e
        simp only [Function.update_self, Option.some.injEq] at hw
        subst hw; exact hr
      · rw [Function.update_of_ne e] at hw; exact hd k' w hw
    · rintro d' ⟨g1, g2, g3⟩
      refine ⟨g1, fun k' hk' => ?_, ?_⟩
      · apply g2
        by_cases e : k' = k
        · subst e; simp
        · rw [Function.update_of_ne e]; exact hk'
      · intro k' hk'
        rcases List.mem_cons.1 hk' with rfl | hk'
        · exact g2 _ (by simp)
        · exact g3 k' hk'

theorem sat_pickAll (d : Store ι c.n α) (ks : List (Key ι)) (E : Err → Prop)
    (hd : ∀ k ∈ ks, (d k).isSome) :
    Sat (good c strict ex) E S (pickAll c d ks) noK
      (fun l => l.map Sigma.fst = ks ∧ ∀ p ∈ l, d p.1 = some p.2) := by
  induction ks generalizing S with
  | nil => exact sat_pure ⟨rfl, by simp⟩ (by mem)
  | cons k ks ih =>
    unfold pickAll
    obtain ⟨v, hv⟩ := Option.isSome_iff_exists.1 (hd k (by simp))
    have : pick c d k = pure ⟨k, v⟩ := by unfold pick; rw [hv]
    rw [this]
    refine sat_callT (sat_pure (Q := fun x => x = ⟨k, v⟩) (T := noK) rfl (by mem)) fun x hx => ?_
    refine sat_callT (ih fun k hk => hd k (by simp [hk])) fun xs hxs => sat_pure ?_ (by mem)
    subst hx
    refine ⟨by simp [hxs.1], ?_⟩
    intro p hp
    rcases List.mem_cons.1 hp with rfl | hp
    · exact hv
    · exact hxs.2 p hp

theorem sat_getProps (hv : c.Valid) (prio : Key ι → Nat) (al : Bool) (mask : Option (VMask c.n))
    (names : List (Key ι)) (E : Err → Prop)
    (h1 : ∀ k ∈ names, k = .negDiag → strict → ex ∧ S .hasSelf)
    (h2 : ∀ k ∈ names, c.dir = true → k = .totdeg .p → mask = none → NoSelf c.A)
    (h3 : ex → ∀ k ∈ names, k = .neg .p ∨ k = .elem c.mn .p → MinOK c)
    (hE : ∀ k ∈ names, ∀ e, Allowed c strict k e → E e) :
    Sat (good c strict ex) E S (getProps c prio al mask names) noK
      (fun l => l.map Sigma.fst = names ∧ ∀ p ∈ l, Result c strict ex mask p.1 p.2) := by
  unfold getProps
  have hm : ∀ k, k ∈ names.insertionSort (fun a b => prio a ≤ prio b) ↔ k ∈ names :=
    fun k => List.mem_insertionSort _
  refine sat_callT (sat_evalAll hv al mask E _ _ (fun k hk => h1 k ((hm k).1 hk))
    (fun k hk => h2 k ((hm k).1 hk)) (fun a k hk => h3 a k ((hm k).1 hk)) (fun k hk => hE k ((hm k).1 hk)) (by simp)) fun d hd => ?_
  refine (sat_pickAll d names E fun k hk => hd.2.2 k ((hm k).2 hk)).conseq (fun _ h => h)
    (fun _ h => h) ?_ (by mem)
  rintro l ⟨g1, g2⟩
  exact ⟨g1, fun p hp => hd.1 _ _ (g2 p hp)⟩

end Proofs.Cache
