import Verif.Spec.Buffers

open GB Model Model.Buffers Spec.Buf

namespace Proofs.Buf

variable {F : Type} {n : Nat}

theorem bind_run {β γ : Type} (m : HM n F β) (f : β → HM n F γ) (h : Heap n F) :
    (m >>= f) h = match m h with
      | (.ok b, h') => f b h'
      | (.error e, h') => (.error e, h') := rfl

theorem bind_ok {β γ : Type} {m : HM n F β} {f : β → HM n F γ} {h h' : Heap n F} {b : β}
    (e : m h = (.ok b, h')) : (m >>= f) h = f b h' := by rw [bind_run, e]

theorem bind_error {β γ : Type} {m : HM n F β} {f : β → HM n F γ} {h h' : Heap n F} {x : Err}
    (e : m h = (.error x, h')) : (m >>= f) h = (.error x, h') := by rw [bind_run, e]

theorem pure_run {β : Type} (b : β) (h : Heap n F) : (pure b : HM n F β) h = (.ok b, h) := rfl

theorem pure_bind' {β γ : Type} (b : β) (f : β → HM n F γ) (h : Heap n F) :
    (pure b >>= f) h = f b h := rfl

theorem read_bind {γ : Type} (a : Nat) (f : Vec n F → HM n F γ) (h : Heap n F) :
    (read a >>= f) h = f (h.cell a) h := rfl

/-- the heap after an assignment -/
def put (h : Heap n F) (a : Nat) (v : Vec n F) : Heap n F :=
  { h with cell := Function.update h.cell a v }

theorem put_same (h : Heap n F) (a : Nat) (v : Vec n F) : (put h a v).cell a = v := by
  simp [put]

theorem put_ne (h : Heap n F) {a b : Nat} (v : Vec n F) (hb : b ≠ a) :
    (put h a v).cell b = h.cell b := by
  simp [put, Function.update_of_ne hb]

theorem put_next (h : Heap n F) (a : Nat) (v : Vec n F) : (put h a v).next = h.next := rfl

theorem put_put (h : Heap n F) (a : Nat) (v w : Vec n F) : put (put h a v) a w = put h a w := by
  simp [put]

theorem put_self (h : Heap n F) (a : Nat) : put h a (h.cell a) = h := by
  simp [put]

theorem write_run (a : Nat) (v : Vec n F) (h : Heap n F) : write a v h = (.ok (), put h a v) := rfl

theorem write_bind {γ : Type} (a : Nat) (v : Vec n F) (f : Unit → HM n F γ) (h : Heap n F) :
    (write a v >>= f) h = f () (put h a v) := rfl

/-- the heap after an allocation -/
def grow (h : Heap n F) (v : Vec n F) : Heap n F :=
  { next := h.next + 1, cell := Function.update h.cell h.next v }

theorem grow_next (h : Heap n F) (v : Vec n F) : (grow h v).next = h.next + 1 := rfl
theorem grow_same (h : Heap n F) (v : Vec n F) : (grow h v).cell h.next = v := by simp [grow]
theorem grow_old (h : Heap n F) (v : Vec n F) {a : Nat} (ha : a < h.next) :
    (grow h v).cell a = h.cell a := by
  simp [grow, Function.update_of_ne (Nat.ne_of_lt ha)]

theorem new_run (v : Vec n F) (h : Heap n F) : new v h = (.ok h.next, grow h v) := rfl
theorem new_bind {γ : Type} (v : Vec n F) (f : Nat → HM n F γ) (h : Heap n F) :
    (new v >>= f) h = f h.next (grow h v) := rfl
theorem newEmpty_bind {γ : Type} (f : Nat → HM n F γ) (h : Heap n F) :
    (newEmpty >>= f) h = f h.next (grow h vempty) := rfl
theorem raise_run {β : Type} (e : Err) (h : Heap n F) : (raise e : HM n F β) h = (.error e, h) := rfl
theorem raise_bind {β γ : Type} (e : Err) (f : β → HM n F γ) (h : Heap n F) :
    (raise e >>= f) h = (.error e, h) := rfl

section
variable [Field F] [LinearOrder F]

theorem normalizeB_run (sqrt : F → F) (x : Nat) (how : How) (h : Heap n F) :
    normalizeB sqrt x how h = (.ok (), put h x (scaleBy (denomOf sqrt how (h.cell x)) (h.cell x))) := by
  unfold normalizeB scaleBy
  rw [read_bind]
  by_cases hd : denomOf sqrt how (h.cell x) = 0
  · rw [if_pos hd, if_pos hd, put_self]; rfl
  · rw [if_neg hd, if_neg hd]; rfl

theorem isConvergedB_run (xprev x : Nat) (tol : F) (h : Heap n F) :
    isConvergedB xprev x tol h = (.ok (isConverged tol (h.cell xprev) (h.cell x)),
      put h xprev (vapply abs (vadd (· - ·) (h.cell xprev) (h.cell x)))) := by
  unfold isConvergedB
  simp only [read_bind, write_bind, put_same, put_put, pure_run]
  rfl

/-- what holds after a loop that works on the vectors of `own` and returns one of them -/
structure Loop (own : List Nat) (h : Heap n F) (out : Except Err (Vec n F))
    (r : Except Err Nat × Heap n F) : Prop where
  returns : ∀ v, out = .ok v → ∃ a ∈ own, r.1 = .ok a ∧ r.2.cell a = v
  raises : ∀ e, out = .error e → r.1 = .error e
  frame : ∀ a, a ∉ own → r.2.cell a = h.cell a
  next : r.2.next = h.next

/-! ## pagerank -/

/-- the configuration that the addresses denote -/
def cfgOf (h : Heap n F) (iso : Option F) (S : Nat) (md : Option (Nat × Option Nat)) (p : F ⊕ Nat) :
    PRCfg n F where
  S := h.cell S
  mul := prMul iso
  mask := md.map fun m => h.cell m.1
  dw := md.bind fun m => m.2.map h.cell
  p := p.map id h.cell

/-- the addresses the loop of pagerank reads besides its own -/
def prReads (S : Nat) (md : Option (Nat × Option Nat)) (p : F ⊕ Nat) : List Nat :=
  S :: ((match md with | none => [] | some (m, none) => [m] | some (m, some d) => [m, d]) ++
    (match p with | .inl _ => [] | .inr a => [a]))

theorem cfgOf_congr {h h' : Heap n F} {iso : Option F} {S : Nat} {md : Option (Nat × Option Nat)}
    {p : F ⊕ Nat} (hc : ∀ a ∈ prReads S md p, h'.cell a = h.cell a) :
    cfgOf h' iso S md p = cfgOf h iso S md p := by
  have hS : h'.cell S = h.cell S := hc S (by simp [prReads])
  unfold cfgOf
  congr 1
  · rcases md with _ | ⟨m, _ | d⟩
    · rfl
    · simp [hc m (by simp [prReads])]
    · simp [hc m (by simp [prReads])]
  · rcases md with _ | ⟨m, _ | d⟩
    · rfl
    · rfl
    · simp [hc d (by simp [prReads])]
  · rcases p with c | a
    · rfl
    · simp [hc a (by simp [prReads])]

theorem prBodyB_run (A : Mat n n F) (iso : Option F) {S : Nat} {md : Option (Nat × Option Nat)}
    {p : F ⊕ Nat} {x xprev w : Nat} (hxp : x ≠ xprev) (hxw : x ≠ w) (hpw : xprev ≠ w)
    (hr : ∀ a ∈ prReads S md p, a ≠ x ∧ a ≠ xprev ∧ a ≠ w) (h : Heap n F) :
    ∃ h', prBodyB A iso S md p x xprev w h = (.ok (), h') ∧
      h'.cell x = prStep A (cfgOf h iso S md p) (h.cell xprev) ∧ h'.cell xprev = h.cell xprev ∧
      (∀ a, a ≠ x → a ≠ w → h'.cell a = h.cell a) ∧ h'.next = h.next := by
  have hS := hr S (by simp [prReads])
  have hm : ∀ m o, md = some (m, o) → m ≠ x := fun m o e => by
    subst e; cases o <;> exact (hr m (by simp [prReads])).1
  have hd : ∀ m d, md = some (m, some d) → d ≠ x := fun m d e => by
    subst e; exact (hr d (by simp [prReads])).1
  have hp : ∀ a, p = .inr a → a ≠ x := fun a e => by subst e; exact (hr a (by simp [prReads])).1
  have hp1 := hxp.symm
  have hw1 := hxw.symm
  have hw2 := hpw.symm
  rcases p with c | a <;> rcases md with _ | ⟨m, _ | d⟩
  all_goals
    unfold prBodyB
    simp only [read_bind, write_bind, write_run, pure_bind', put_same, put_put]
    refine ⟨_, rfl, ?_, ?_, ?_, rfl⟩
    · simp [put_same, put_ne, prStep, prAddDangling, prBase, cfgOf, *]
    · simp [put_same, put_ne, *]
    · intro b hbx hbw
      simp [put_same, put_ne, *]

/-- the convergence step of a loop, from the contents -/
theorem conv_bind {γ : Type} (xprev x : Nat) (tol : F) (f : Bool → HM n F γ) (h : Heap n F) :
    (isConvergedB xprev x tol >>= f) h = f (isConverged tol (h.cell xprev) (h.cell x))
      (put h xprev (vapply abs (vadd (· - ·) (h.cell xprev) (h.cell x)))) :=
  bind_ok (isConvergedB_run xprev x tol h)

theorem norm_bind {γ : Type} (sqrt : F → F) (x : Nat) (how : How) (f : Unit → HM n F γ) (h : Heap n F) :
    (normalizeB sqrt x how >>= f) h =
      f () (put h x (scaleBy (denomOf sqrt how (h.cell x)) (h.cell x))) :=
  bind_ok (normalizeB_run sqrt x how h)

theorem prLoopB_run (A : Mat n n F) (iso : Option F) {S : Nat} {md : Option (Nat × Option Nat)}
    {p : F ⊕ Nat} (tol : F) {w : Nat} (c : PRCfg n F) :
    ∀ (k : Nat) {x xprev : Nat} (_ : x ≠ xprev) (_ : x ≠ w) (_ : xprev ≠ w)
    (_ : ∀ a ∈ prReads S md p, a ≠ x ∧ a ≠ xprev ∧ a ≠ w) (h : Heap n F) (_ : cfgOf h iso S md p = c),
    Loop [x, xprev, w] h (powerIter (prStep A c) (isConverged tol) k (h.cell x))
      (prLoopB A iso S md p tol w k x xprev h)
  | 0, x, xprev, _, _, _, _, h, _ =>
    ⟨fun v e => by simp [powerIter] at e, fun e he => by simp [powerIter] at he; subst he; rfl,
      fun a _ => rfl, rfl⟩
  | k + 1, x, xprev, hxp, hxw, hpw, hr, h, hc => by
    obtain ⟨h', e, h1, h2, h3, h4⟩ := prBodyB_run A iso (S := S) (md := md) (p := p) (x := xprev)
      (xprev := x) (w := w) hxp.symm hpw hxw (fun a ha => ⟨(hr a ha).2.1, (hr a ha).1, (hr a ha).2.2⟩) h
    have hrun : prLoopB A iso S md p tol w (k + 1) x xprev h =
        (if isConverged tol (h.cell x) (prStep A c (h.cell x)) then
            (pure xprev : HM n F Nat)
          else prLoopB A iso S md p tol w k xprev x)
          (put h' x (vapply abs (vadd (· - ·) (h.cell x) (prStep A c (h.cell x))))) := by
      show (prBodyB A iso S md p xprev x w >>= fun _ => isConvergedB x xprev tol >>= fun c =>
        if c then pure xprev else prLoopB A iso S md p tol w k xprev x) h = _
      rw [bind_ok e, conv_bind, h1, h2, hc]
    rw [hrun, powerIter]
    by_cases hcv : isConverged tol (h.cell x) (prStep A c (h.cell x)) = true
    · rw [if_pos hcv, if_pos hcv]
      refine ⟨fun v hv => ⟨xprev, by simp, rfl, ?_⟩, (fun e he => by cases he), fun a ha => ?_, h4⟩
      · cases hv
        show (put h' x _).cell xprev = _
        rw [put_ne _ _ hxp.symm, h1, hc]
      · simp only [List.mem_cons, List.not_mem_nil, or_false, not_or] at ha
        show (put h' x _).cell a = _
        rw [put_ne _ _ ha.1, h3 a ha.2.1 ha.2.2]
    · rw [if_neg hcv, if_neg hcv]
      have ih := prLoopB_run A iso (S := S) (md := md) (p := p) tol (w := w) c k (x := xprev) (xprev := x)
        hxp.symm hpw hxw (fun a ha => ⟨(hr a ha).2.1, (hr a ha).1, (hr a ha).2.2⟩)
        (put h' x (vapply abs (vadd (· - ·) (h.cell x) (prStep A c (h.cell x)))))
        (by
          rw [← hc]
          refine cfgOf_congr fun a ha => ?_
          obtain ⟨a1, a2, a3⟩ := hr a ha
          rw [put_ne _ _ a1, h3 a a2 a3])
      rw [put_ne _ _ hxp.symm, h1, hc] at ih
      refine ⟨fun v hv => ?_, ih.raises, fun a ha => ?_, ih.next.trans h4⟩
      · obtain ⟨a, ha, hb⟩ := ih.returns v hv
        refine ⟨a, ?_, hb⟩
        simp only [List.mem_cons, List.not_mem_nil, or_false] at ha ⊢
        rcases ha with h | h | h <;> simp [h]
      · simp only [List.mem_cons, List.not_mem_nil, or_false, not_or] at ha
        rw [ih.frame a (by simp [ha]), put_ne _ _ ha.1, h3 a ha.2.1 ha.2.2]

/-! ### before the loop -/

omit [Field F] [LinearOrder F] in
/-- the heap has grown and nothing that existed has changed -/
def Ext (h h' : Heap n F) : Prop := h.next ≤ h'.next ∧ ∀ a < h.next, h'.cell a = h.cell a

omit [Field F] [LinearOrder F] in
theorem Ext.refl (h : Heap n F) : Ext h h := ⟨le_refl _, fun _ _ => rfl⟩

omit [Field F] [LinearOrder F] in
theorem Ext.trans {h h' h'' : Heap n F} (a : Ext h h') (b : Ext h' h'') : Ext h h'' :=
  ⟨a.1.trans b.1, fun x hx => (b.2 x (lt_of_lt_of_le hx a.1)).trans (a.2 x hx)⟩

omit [Field F] [LinearOrder F] in
theorem Ext.grow (h : Heap n F) (v : Vec n F) : Ext h (grow h v) :=
  ⟨Nat.le_succ _, fun _ ha => grow_old h v ha⟩

omit [Field F] [LinearOrder F] in
theorem Ext.put {h h' : Heap n F} (e : Ext h h') {a : Nat} (ha : h.next ≤ a) (v : Vec n F) :
    Ext h (put h' a v) :=
  ⟨e.1, fun b hb => (put_ne _ _ (Nat.ne_of_lt (lt_of_lt_of_le hb ha))).trans (e.2 b hb)⟩

omit [Field F] [LinearOrder F] in
/-- a straight-line piece of code: it raises what `out` raises, or returns a `b` related to the value of
`out`; nothing that existed changes -/
def Does {β γ : Type} (m : HM n F β) (h : Heap n F) (out : Except Err γ)
    (R : β → Heap n F → γ → Prop) : Prop :=
  match out with
  | .ok v => ∃ b h', m h = (.ok b, h') ∧ Ext h h' ∧ R b h' v
  | .error e => ∃ h', m h = (.error e, h') ∧ Ext h h'

omit [Field F] [LinearOrder F] in
/-- a new vector with given contents -/
def IsNew (h : Heap n F) (b : Nat) (h' : Heap n F) (v : Vec n F) : Prop :=
  h.next ≤ b ∧ b < h'.next ∧ h'.cell b = v

theorem prInitB_does (nstart : Option Nat) (h : Heap n F) (hs : ∀ s, nstart = some s → s < h.next) :
    Does (prInitB nstart) h (prInit (nstart.map h.cell)) (IsNew h) := by
  unfold prInitB prInit
  rcases nstart with _ | s
  · exact ⟨h.next, _, rfl, (Ext.grow h _).put (le_refl _) _, le_refl _, Nat.lt_succ_self _, put_same _ _ _⟩
  · have e : (grow h vempty).cell s = h.cell s := grow_old h _ (hs s rfl)
    have run : ∀ (f : Nat → Vec n F → HM n F Nat), (newEmpty >>= fun x => read s >>= f x) h =
      f h.next (h.cell s) (grow h vempty) := fun f => by
        rw [newEmpty_bind, read_bind, e]
    dsimp only [Option.map]
    by_cases hz : vsum (h.cell s) = 0
    · rw [if_pos hz]
      refine ⟨grow h vempty, ?_, Ext.grow h _⟩
      rw [run]
      have hz' : (reduce (· + ·) (h.cell s)).getD 0 = 0 := hz
      simp only [if_pos hz', raise_bind]
    · rw [if_neg hz]
      refine ⟨h.next, _, ?_, (Ext.grow h vempty).put (le_refl _) _, le_refl _, Nat.lt_succ_self _,
        put_same _ _ _⟩
      rw [run]
      have hz' : ¬ (reduce (· + ·) (h.cell s)).getD 0 = 0 := hz
      simp only [if_neg hz', write_bind]
      rfl

/-- a number, or a new vector -/
def IsNewP (h : Heap n F) (b : F ⊕ Nat) (h' : Heap n F) (v : F ⊕ Vec n F) : Prop :=
  v = b.map id h'.cell ∧ ∀ a, b = .inr a → h.next ≤ a ∧ a < h'.next

theorem prPB_does (pers : Option Nat) (h : Heap n F) :
    Does (prPB pers) h (prP (pers.map h.cell)) (IsNewP h) := by
  unfold prPB prP
  rcases pers with _ | s
  · exact ⟨_, h, rfl, Ext.refl h, rfl, fun a e => by cases e⟩
  · dsimp only [Option.map]
    by_cases hz : vsum (h.cell s) = 0
    · rw [if_pos hz]
      refine ⟨h, ?_, Ext.refl h⟩
      rw [read_bind]
      have hz' : (reduce (· + ·) (h.cell s)).getD 0 = 0 := hz
      simp only [if_pos hz', raise_run]
    · rw [if_neg hz]
      refine ⟨.inr h.next, _, ?_, Ext.grow h (vapply (fun a => a / vsum (h.cell s)) (h.cell s)), ?_, ?_⟩
      · rw [read_bind]
        have hz' : ¬ (reduce (· + ·) (h.cell s)).getD 0 = 0 := hz
        simp only [if_neg hz', new_bind]
        rfl
      · simp [grow_same]
      · rintro a ⟨⟩
        exact ⟨le_refl _, Nat.lt_succ_self _⟩

theorem prSB_does (alpha : F) (rd : Nat) (iso : Option F) (h : Heap n F) :
    ∃ h', prSB alpha rd iso h = (.ok h.next, h') ∧ Ext h h' ∧ h'.next = h.next + 1 ∧
      h'.cell h.next = prS alpha (h.cell rd) iso := by
  unfold prSB prS
  rw [read_bind, new_bind]
  rcases iso with _ | c
  · exact ⟨_, rfl, Ext.grow h _, rfl, grow_same _ _⟩
  · by_cases hc : c ≠ 1
    · simp only [if_pos hc]
      exact ⟨_, rfl, (Ext.grow h _).put (le_refl _) _, rfl,
        (put_same _ _ _).trans (by rw [grow_same])⟩
    · simp only [if_neg hc]
      exact ⟨_, rfl, Ext.grow h _, rfl, grow_same _ _⟩

/-- the dangling vectors are new -/
def IsNewD (h : Heap n F) (b : Option (Nat × Option Nat)) (h' : Heap n F)
    (v : Option (Vec n F) × Option (Vec n F)) : Prop :=
  v.1 = b.map (fun m => h'.cell m.1) ∧ v.2 = b.bind (fun m => m.2.map h'.cell) ∧
    (∀ m o, b = some (m, o) → h.next ≤ m ∧ m < h'.next) ∧
    (∀ m d, b = some (m, some d) → h.next ≤ d ∧ d < h'.next)

theorem prDanglingB_does (alpha : F) (S : Nat) (p : F ⊕ Nat) (dangling : Option Nat) (h : Heap n F)
    (hp : ∀ a, p = .inr a → a < h.next) (hd : ∀ a, dangling = some a → a < h.next) :
    Does (prDanglingB alpha S p dangling) h
      (prDangling alpha (h.cell S) (p.map id h.cell) (dangling.map h.cell)) (IsNewD h) := by
  unfold prDanglingB prDangling
  by_cases hn : nvals (h.cell S) < n
  · rw [if_pos hn]
    have run : ∀ (f : Nat → HM n F (Option (Nat × Option Nat))),
        (newEmpty >>= fun m => read m >>= fun v => write m (vassignC (vnot (vS (h.cell S))) v 1) >>=
          fun _ => f m) h = f h.next (put (grow h vempty) h.next (prMask (h.cell S))) := fun f => by
      rw [newEmpty_bind, read_bind, write_bind, grow_same]; rfl
    have old : ∀ a < h.next, (put (grow h vempty) h.next (prMask (h.cell S))).cell a = h.cell a :=
      fun a ha => by rw [put_ne _ _ (Nat.ne_of_lt ha), grow_old _ _ ha]
    have ex : Ext h (put (grow h vempty) h.next (prMask (h.cell S))) :=
      (Ext.grow h _).put (le_refl _) _
    have hnx : (put (grow h vempty) h.next (prMask (h.cell S))).next = h.next + 1 := rfl
    rcases dangling with _ | d
    · rcases p with c | p
      · refine ⟨some (h.next, none), _, ?_, ex.put (le_refl _) (vassignC (vS (prMask (h.cell S)))
          (prMask (h.cell S)) (alpha * c)), ?_, rfl, ?_, ?_⟩
        · rw [read_bind]; simp only [if_pos hn]
          rw [run, read_bind, write_bind, put_same]; rfl
        · simp [put_same]
        · rintro m o ⟨⟩; exact ⟨le_refl _, Nat.lt_succ_self _⟩
        · rintro m d ⟨⟩
      · refine ⟨some (h.next, some (h.next + 1)), _, ?_, ex.trans (Ext.grow _
          (vapply (fun a => alpha * a) (h.cell p))), ?_, ?_, ?_, ?_⟩
        · rw [read_bind]; simp only [if_pos hn]
          rw [run, read_bind, new_bind, old p (hp p rfl)]; rfl
        · simp only [Option.map]
          rw [grow_old _ _ (by rw [hnx]; exact Nat.lt_succ_self _), put_same]
        · simp only [Option.bind, Option.map, Sum.map]
          rw [← hnx, grow_same]
        · rintro m o ⟨⟩; exact ⟨le_refl _, by rw [grow_next, hnx]; omega⟩
        · rintro m d ⟨⟩; exact ⟨by omega, by rw [grow_next, hnx]; omega⟩
    · dsimp only [Option.map]
      by_cases hz : vsum (h.cell d) = 0
      · rw [if_pos hz]
        refine ⟨_, ?_, ex⟩
        rw [read_bind]; simp only [if_pos hn]
        have hz' : (reduce (· + ·) (h.cell d)).getD 0 = 0 := hz
        rw [run, read_bind, old d (hd d rfl)]; simp only [if_pos hz']; rfl
      · rw [if_neg hz]
        refine ⟨some (h.next, some (h.next + 1)), _, ?_, ex.trans (Ext.grow _
          (vapply (fun a => alpha / vsum (h.cell d) * a) (h.cell d))), ?_, ?_, ?_, ?_⟩
        · rw [read_bind]; simp only [if_pos hn]
          have hz' : ¬ (reduce (· + ·) (h.cell d)).getD 0 = 0 := hz
          rw [run, read_bind, old d (hd d rfl)]; simp only [if_neg hz']; rfl
        · simp only [Option.map]
          rw [grow_old _ _ (by rw [hnx]; exact Nat.lt_succ_self _), put_same]
        · simp only [Option.bind, Option.map]
          rw [← hnx, grow_same]
        · rintro m o ⟨⟩; exact ⟨le_refl _, by rw [grow_next, hnx]; omega⟩
        · rintro m d ⟨⟩; exact ⟨by omega, by rw [grow_next, hnx]; omega⟩
  · rw [if_neg hn]
    refine ⟨none, h, ?_, Ext.refl h, rfl, rfl, ?_, ?_⟩
    · rw [read_bind]; simp only [if_neg hn]; rfl
    · rintro m o ⟨⟩
    · rintro m o ⟨⟩

theorem prScalePB_run (alpha : F) (p : F ⊕ Nat) (h : Heap n F) :
    ∃ h' p', prScalePB alpha p h = (.ok p', h') ∧ h'.next = h.next ∧
      p'.map id h'.cell = prScaleP alpha (p.map id h.cell) ∧
      (∀ a, p' = .inr a → p = .inr a) ∧ ∀ a, p ≠ .inr a → h'.cell a = h.cell a := by
  rcases p with c | a
  · exact ⟨h, .inl (c * (1 - alpha)), rfl, rfl, rfl, (fun a e => by cases e), fun a _ => rfl⟩
  · refine ⟨_, .inr a, rfl, rfl, ?_, (fun b e => e), fun b hb => ?_⟩
    · simp only [Sum.map, prScaleP]
      exact congrArg Sum.inr (put_same h a _)
    · exact put_ne h _ (fun e => hb (by rw [e]))

theorem prReads_iff {S : Nat} {md : Option (Nat × Option Nat)} {p : F ⊕ Nat} {a : Nat}
    (ha : a ∈ prReads S md p) :
    a = S ∨ (∃ o, md = some (a, o)) ∨ (∃ m, md = some (m, some a)) ∨ p = .inr a := by
  rcases md with _ | ⟨m, _ | d⟩ <;> rcases p with c | b <;> simp [prReads] at ha ⊢ <;> tauto

theorem pagerankB_yields (A : Mat n n F) (iso : Option F) (alpha : F) (pers : Option Nat) (maxIter : Int)
    (tol : F) (nstart dangling : Option Nat) (rd : Nat) (h : Heap n F)
    (hp : ∀ a, pers = some a → a < h.next) (hs : ∀ a, nstart = some a → a < h.next)
    (hd : ∀ a, dangling = some a → a < h.next) (hr : rd < h.next)
    (hrd : h.cell rd = reduceRow (· + ·) A) :
    Yields (pagerankB A iso alpha pers maxIter tol nstart dangling rd) h
      (pagerankV A iso alpha (pers.map h.cell) maxIter tol (nstart.map h.cell) (dangling.map h.cell)) := by
  unfold pagerankB pagerankV
  by_cases h0 : mnvals A = 0
  · rw [if_pos h0, if_pos h0]
    refine ⟨fun v hv => ⟨h.next, rfl, le_refl _, Nat.lt_succ_self _, ?_⟩, (fun e he => by cases he),
      fun a ha => grow_old h _ ha⟩
    cases hv
    exact grow_same h _
  rw [if_neg h0, if_neg h0]
  have raised : ∀ {m : HM n F Nat} {e : Err} {h' : Heap n F}, m h = (.error e, h') → Ext h h' →
      Yields m h (.error e) := fun hm he =>
    ⟨(fun v hv => by cases hv), (fun e' he' => by cases he'; rw [hm]), fun a ha => by rw [hm]; exact he.2 a ha⟩
  -- the initial vector
  have d1 := prInitB_does nstart h hs
  cases o1 : prInit (nstart.map h.cell) with
  | error e => rw [o1] at d1; obtain ⟨h1, r1, e1⟩ := d1; exact raised (bind_error r1) e1
  | ok x0 =>
  rw [o1] at d1
  obtain ⟨x, h1, r1, e1, hx1, hx2, hx3⟩ := d1
  -- the personalization
  have d2 := prPB_does pers h1
  have c2 : pers.map h1.cell = pers.map h.cell := by
    rcases pers with _ | s
    · rfl
    · simp [e1.2 s (hp s rfl)]
  rw [c2] at d2
  cases o2 : prP (pers.map h.cell) with
  | error e =>
    rw [o2] at d2; obtain ⟨h2, r2, e2⟩ := d2
    exact raised ((bind_ok r1).trans (bind_error r2)) (e1.trans e2)
  | ok p0 =>
  rw [o2] at d2
  obtain ⟨p, h2, r2, e2, hp2, hpa⟩ := d2
  have e12 := e1.trans e2
  -- `S`
  obtain ⟨h3, r3, e3, hn3, hS⟩ := prSB_does alpha rd iso h2
  rw [e12.2 rd hr, hrd] at hS
  have e13 := e12.trans e3
  -- the dangling vectors
  have d4 := prDanglingB_does alpha h2.next p dangling h3
    (fun a ha => lt_of_lt_of_le (hpa a ha).2 e3.1) (fun a ha => lt_of_lt_of_le (hd a ha) e13.1)
  have c4 : p.map id h3.cell = p0 := by
    rw [hp2]
    rcases p with c | a
    · rfl
    · simp [e3.2 a (hpa a rfl).2]
  have c4' : dangling.map h3.cell = dangling.map h.cell := by
    rcases dangling with _ | s
    · rfl
    · simp [e13.2 s (hd s rfl)]
  rw [hS, c4, c4'] at d4
  cases o4 : prDangling alpha (prS alpha (reduceRow (· + ·) A) iso) p0 (dangling.map h.cell) with
  | error e =>
    rw [o4] at d4; obtain ⟨h4, r4, e4⟩ := d4
    show Yields _ h (prDangling alpha (prS alpha (reduceRow (· + ·) A) iso) p0 (dangling.map h.cell) >>= _)
    rw [o4]
    exact raised ((bind_ok r1).trans ((bind_ok r2).trans ((bind_ok r3).trans (bind_error r4))))
      (e13.trans e4)
  | ok md0 =>
  rw [o4] at d4
  obtain ⟨md, h4, r4, e4, hm1, hm2, hm3, hm4⟩ := d4
  -- `p *= 1 - alpha`
  obtain ⟨h5, p', r5, hn5, hp5, hpp, hf5⟩ := prScalePB_run alpha p h4
  have hrun : ∀ (f : Nat → Nat → Option (Nat × Option Nat) → F ⊕ Nat → HM n F Nat),
      (do
        let x ← prInitB nstart
        let p ← prPB pers
        let S ← prSB alpha rd iso
        let md ← prDanglingB alpha S p dangling
        let p ← prScalePB alpha p
        f x S md p) h = f x h2.next md p' h5 := fun f =>
    (bind_ok r1).trans ((bind_ok r2).trans ((bind_ok r3).trans ((bind_ok r4).trans (bind_ok r5))))
  have hx4 : x < h4.next := lt_of_lt_of_le hx2 (e2.1.trans (e3.1.trans e4.1))
  have hS4 : h2.next < h4.next := lt_of_lt_of_le (by rw [hn3]; exact Nat.lt_succ_self _) e4.1
  have hp4 : ∀ a, p = .inr a → a < h4.next := fun a ha =>
    lt_of_lt_of_le (hpa a ha).2 (e3.1.trans e4.1)
  have xlt : x < h1.next := hx2
  -- the heap at the start of the loop
  have e7 : Ext h5 (grow (grow h5 vempty) vempty) := (Ext.grow _ _).trans (Ext.grow _ _)
  have hxe : (grow (grow h5 vempty) vempty).cell x = x0 := by
    rw [e7.2 x (by rw [hn5]; exact hx4), hf5 x (fun e => by have := (hpa x e).1; omega),
      e4.2 x (lt_of_lt_of_le hx2 (e2.1.trans e3.1)), e3.2 x (lt_of_lt_of_le hx2 e2.1), e2.2 x hx2, hx3]
  have hpS : ∀ a, p = .inr a → a ≠ h2.next := fun a e => by have := (hpa a e).2; omega
  have hpm : ∀ a o, p = .inr a → md = some o → a ≠ o.1 := fun a o e eo => by
    have := (hpa a e).2; have := (hm3 o.1 o.2 eo).1; have := e3.1; omega
  have hcfg : cfgOf (grow (grow h5 vempty) vempty) iso h2.next md p' =
      { S := prS alpha (reduceRow (· + ·) A) iso, mul := prMul iso, mask := md0.1, dw := md0.2,
        p := prScaleP alpha p0 } := by
    have cS : (grow (grow h5 vempty) vempty).cell h2.next = prS alpha (reduceRow (· + ·) A) iso := by
      rw [e7.2 _ (by rw [hn5]; exact hS4), hf5 _ (fun e => hpS _ e rfl),
        e4.2 _ (by rw [hn3]; exact Nat.lt_succ_self _), hS]
    have cm : ∀ m o, md = some (m, o) → (grow (grow h5 vempty) vempty).cell m = h4.cell m := fun m o e => by
      rw [e7.2 _ (by rw [hn5]; exact (hm3 m o e).2), hf5 _ (fun e' => hpm _ (m, o) e' e rfl)]
    have cd : ∀ m d, md = some (m, some d) → (grow (grow h5 vempty) vempty).cell d = h4.cell d :=
      fun m d e => by
        rw [e7.2 _ (by rw [hn5]; exact (hm4 m d e).2), hf5 _ (fun e' => by
          have := (hpa d e').2; have := (hm4 m d e).1; have := e3.1; omega)]
    unfold cfgOf
    congr 1
    · rw [hm1]
      rcases md with _ | ⟨m, o⟩
      · rfl
      · simp [cm m o rfl]
    · rw [hm2]
      rcases md with _ | ⟨m, _ | d⟩
      · rfl
      · rfl
      · simp [cd m d rfl]
    · rw [← c4]
      have : p.map id h4.cell = p.map id h3.cell := by
        rcases p with c | a
        · rfl
        · simp [e4.2 a (lt_of_lt_of_le (hpa a rfl).2 e3.1)]
      rw [← this, ← hp5]
      rcases p' with c | a
      · rfl
      · simp [e7.2 a (by rw [hn5]; exact hp4 a (hpp a rfl))]
  have lp := prLoopB_run A iso (S := h2.next) (md := md) (p := p') tol (w := h5.next + 1) _ maxIter.toNat
    (x := x) (xprev := h5.next) (by omega) (by omega) (by omega)
    (fun a ha => by
      rcases prReads_iff ha with e | ⟨o, e⟩ | ⟨m, e⟩ | e
      · subst e; exact ⟨by have := e2.1; omega, by omega, by omega⟩
      · have := (hm3 a o e).1; have := (hm3 a o e).2; have := e2.1; have := e3.1
        exact ⟨by omega, by omega, by omega⟩
      · have := (hm4 m a e).1; have := (hm4 m a e).2; have := e2.1; have := e3.1
        exact ⟨by omega, by omega, by omega⟩
      · have h1' := (hpa a (hpp a e)).1; have := hp4 a (hpp a e)
        exact ⟨by omega, by omega, by omega⟩)
    (grow (grow h5 vempty) vempty) hcfg
  rw [hxe] at lp
  have hfin := hrun fun x S md p => do
    let xprev ← newEmpty
    let w ← newEmpty
    prLoopB A iso S md p tol w maxIter.toNat x xprev
  have hfin' := hfin.trans (show _ = prLoopB A iso h2.next md p' tol (h5.next + 1) maxIter.toNat x h5.next
    (grow (grow h5 vempty) vempty) from rfl)
  show Yields _ h (prDangling alpha (prS alpha (reduceRow (· + ·) A) iso) p0 (dangling.map h.cell) >>= _)
  rw [o4]
  have own : ∀ a ∈ [x, h5.next, h5.next + 1], h.next ≤ a ∧ a < h5.next + 2 := by
    have := e12.1; have := e13.1; have := e4.1
    intro a ha
    simp only [List.mem_cons, List.not_mem_nil, or_false] at ha
    rcases ha with h | h | h <;> subst h <;> omega
  refine ⟨fun v hv => ?_, fun e he => ?_, fun a ha => ?_⟩
  · obtain ⟨a, ha, hb, hc⟩ := lp.returns v hv
    refine ⟨a, (congrArg Prod.fst hfin').trans hb, (own a ha).1, ?_, (congrArg (fun q => q.2.cell a) hfin').trans hc⟩
    exact lt_of_lt_of_eq (own a ha).2 ((congrArg (fun q => q.2.next) hfin').trans lp.next).symm
  · exact (congrArg Prod.fst hfin').trans (lp.raises e he)
  · refine (congrArg (fun q => q.2.cell a) hfin').trans ((lp.frame a fun hm => ?_).trans ?_)
    · exact absurd (own a hm).1 (by omega)
    · rw [e7.2 a (by have := e13.1; have := e4.1; omega), hf5 a (fun e => by have := (hpa a e).1; have := e1.1; omega)]
      exact (e13.trans e4).2 a ha

/-! ## katz -/

/-- the vector `beta` denotes -/
def betaOf (h : Heap n F) (b : F ⊕ Nat) : F ⊕ Vec n F := b.map id h.cell

theorem katzLoopB_run (fill : Bool) (sqrt : F → F) (A : Mat n n F) (iso : Option F) (alpha : F)
    (b : F ⊕ Nat) (tol : F) (normalized : Bool) (bv : F ⊕ Vec n F) :
    ∀ (k : Nat) {x xprev : Nat} (_ : x ≠ xprev) (_ : ∀ a, b = .inr a → a ≠ x ∧ a ≠ xprev)
    (h : Heap n F) (_ : betaOf h b = bv),
    Loop [x, xprev] h
      ((powerIter (katzStep fill A iso alpha bv) (isConverged tol) k (h.cell x)).map
        fun v => if normalized then normalizeL2 sqrt v else v)
      (katzLoopB fill sqrt A iso (katzAlpha iso alpha) b tol normalized k x xprev h)
  | 0, x, xprev, _, _, h, _ =>
    ⟨fun v e => by simp [powerIter, Except.map] at e,
      fun e he => by simp [powerIter, Except.map] at he; subst he; rfl, fun a _ => rfl, rfl⟩
  | k + 1, x, xprev, hxp, hr, h, hc => by
    -- the heap before the test
    obtain ⟨h', hrun, h1, h2, h3, h4⟩ : ∃ h' : Heap n F,
        katzLoopB fill sqrt A iso (katzAlpha iso alpha) b tol normalized (k + 1) x xprev h =
          (isConvergedB x xprev tol >>= fun c =>
            if c then (do
              if normalized then normalizeB sqrt xprev .l2 else pure ()
              pure xprev)
            else katzLoopB fill sqrt A iso (katzAlpha iso alpha) b tol normalized k xprev x) h' ∧
        h'.cell xprev = katzStep fill A iso alpha bv (h.cell x) ∧ h'.cell x = h.cell x ∧
        (∀ a, a ≠ xprev → h'.cell a = h.cell a) ∧ h'.next = h.next := by
      rcases b with c | a
      · refine ⟨put h xprev (katzStep fill A iso alpha bv (h.cell x)), ?_, put_same _ _ _,
          put_ne _ _ hxp, fun a ha => put_ne _ _ ha, rfl⟩
        rw [← hc]
        rw [katzLoopB]
        simp only [read_bind, write_bind, put_same, put_put]
        rfl
      · have ha := hr a rfl
        refine ⟨put h xprev (katzStep fill A iso alpha bv (h.cell x)), ?_, put_same _ _ _,
          put_ne _ _ hxp, fun a ha => put_ne _ _ ha, rfl⟩
        rw [← hc]
        rw [katzLoopB]
        simp only [read_bind, write_bind, put_same, put_put, put_ne _ _ ha.2]
        rfl
    rw [hrun, conv_bind, h1, h2, powerIter]
    by_cases hcv : isConverged tol (h.cell x) (katzStep fill A iso alpha bv (h.cell x)) = true
    · rw [if_pos hcv, if_pos hcv]
      have : ∀ (g : Heap n F), (do
          if normalized then normalizeB sqrt xprev .l2 else pure ()
          pure xprev : HM n F Nat) g = (.ok xprev, put g xprev
            (if normalized then normalizeL2 sqrt (g.cell xprev) else g.cell xprev)) := fun g => by
        cases normalized
        · simp only [Bool.false_eq_true, if_false, put_self]; rfl
        · simp only [if_true, norm_bind]; rfl
      rw [this]
      refine ⟨fun v hv => ⟨xprev, by simp, rfl, ?_⟩, (fun e he => by cases he), fun a ha => ?_, h4⟩
      · cases hv
        show (put _ xprev _).cell xprev = _
        rw [put_same, put_ne _ _ hxp.symm, h1]
      · simp only [List.mem_cons, List.not_mem_nil, or_false, not_or] at ha
        show (put (put h' x _) xprev _).cell a = _
        rw [put_ne _ _ ha.2, put_ne _ _ ha.1, h3 a ha.2]
    · rw [if_neg hcv, if_neg hcv]
      have ih := katzLoopB_run fill sqrt A iso alpha b tol normalized bv k (x := xprev) (xprev := x)
        hxp.symm (fun a ha => (hr a ha).symm)
        (put h' x (vapply abs (vadd (· - ·) (h.cell x) (katzStep fill A iso alpha bv (h.cell x)))))
        (by
          rw [← hc]
          rcases b with c | a
          · rfl
          · obtain ⟨a1, a2⟩ := hr a rfl
            exact congrArg Sum.inr ((put_ne _ _ a1).trans (h3 a a2)))
      rw [put_ne _ _ hxp.symm, h1] at ih
      refine ⟨fun v hv => ?_, ih.raises, fun a ha => ?_, ih.next.trans h4⟩
      · obtain ⟨a, ha, hb⟩ := ih.returns v hv
        refine ⟨a, ?_, hb⟩
        simp only [List.mem_cons, List.not_mem_nil, or_false] at ha ⊢
        exact ha.symm
      · simp only [List.mem_cons, List.not_mem_nil, or_false, not_or] at ha
        rw [ih.frame a (by simp [ha]), put_ne _ _ ha.1, h3 a ha.2]

omit [Field F] [LinearOrder F] in
/-- a loop on new vectors, as a whole call -/
theorem yields_of_loop {m : HM n F Nat} {h g : Heap n F} {out : Except Err (Vec n F)} {own : List Nat}
    {r : Except Err Nat × Heap n F} (hm : m h = r) (lp : Loop own g out r) (e : Ext h g)
    (ho : ∀ a ∈ own, h.next ≤ a ∧ a < g.next) : Yields m h out := by
  subst hm
  refine ⟨fun v hv => ?_, lp.raises, fun a ha => ?_⟩
  · obtain ⟨a, ha, hb, hc⟩ := lp.returns v hv
    exact ⟨a, hb, (ho a ha).1, lt_of_lt_of_eq (ho a ha).2 lp.next.symm, hc⟩
  · rw [lp.frame a (fun hm => absurd (ho a hm).1 (by omega)), e.2 a ha]

theorem katzB_yields (fill : Bool) (sqrt : F → F) (A : Mat n n F) (iso : Option F) (alpha : F)
    (beta : F ⊕ Nat) (maxIter : Int) (tol : F) (nstart : Option Nat) (normalized : Bool) (h : Heap n F)
    (hb : ∀ a, beta = .inr a → a < h.next) (hs : ∀ a, nstart = some a → a < h.next) :
    Yields (katzB fill sqrt A iso alpha beta maxIter tol nstart normalized) h
      (katzV fill sqrt A iso alpha (beta.map id h.cell) maxIter tol (nstart.map h.cell) normalized) := by
  -- the start vector
  obtain ⟨h1, r1, e1, hn1, hx⟩ : ∃ h1 : Heap n F, (∀ f : Nat → HM n F Nat, (do
      let x ← newEmpty
      match nstart with
      | none => write x fun _ => some 0
      | some s =>
        let v ← read s
        write x v
      f x) h = f h.next h1) ∧ Ext h h1 ∧ h1.next = h.next + 1 ∧
      h1.cell h.next = katzInit (nstart.map h.cell) := by
    rcases nstart with _ | s
    · exact ⟨_, fun f => rfl, (Ext.grow h _).put (le_refl _) _, rfl, put_same _ _ _⟩
    · refine ⟨put (grow h vempty) h.next (h.cell s), fun f => ?_, (Ext.grow h _).put (le_refl _) _, rfl,
        put_same _ _ _⟩
      rw [newEmpty_bind]
      simp only [read_bind, write_bind, grow_old h _ (hs s rfl)]
  have hrun := r1 fun x => do
    match beta with
    | .inl _ => pure ()
    | .inr b =>
      let v ← read b
      if nvals v ≠ n then raise .algorithm else pure ()
    let alpha := katzAlpha iso alpha
    let xprev ← newEmpty
    katzLoopB fill sqrt A iso alpha beta tol normalized maxIter.toNat x xprev
  have lp : Loop [h.next, h.next + 1] (grow h1 vempty) ((powerIter (katzStep fill A iso alpha
        (beta.map id h.cell)) (isConverged tol) maxIter.toNat (katzInit (nstart.map h.cell))).map
        fun v => if normalized then normalizeL2 sqrt v else v)
        (katzLoopB fill sqrt A iso (katzAlpha iso alpha) beta tol normalized maxIter.toNat h.next (h.next + 1)
          (grow h1 vempty)) := by
    have := katzLoopB_run fill sqrt A iso alpha beta tol normalized (beta.map id h.cell) maxIter.toNat
      (x := h.next) (xprev := h.next + 1) (by omega)
      (fun a ha => by have := hb a ha; exact ⟨by omega, by omega⟩) (grow h1 vempty) (by
        rcases beta with c | a
        · rfl
        · have := hb a rfl
          exact congrArg Sum.inr ((grow_old _ _ (by omega)).trans (e1.2 a this)))
    rw [grow_old _ _ (by omega), hx] at this
    exact this
  have ext : Ext h (grow h1 vempty) := e1.trans (Ext.grow _ _)
  have own : ∀ a ∈ [h.next, h.next + 1], h.next ≤ a ∧ a < (grow h1 vempty).next := by
    intro a ha
    rw [grow_next, hn1]
    simp only [List.mem_cons, List.not_mem_nil, or_false] at ha
    rcases ha with e | e <;> subst e <;> omega
  have fin : katzCheck (beta.map id h.cell) = .ok () →
      katzB fill sqrt A iso alpha beta maxIter tol nstart normalized h =
        katzLoopB fill sqrt A iso (katzAlpha iso alpha) beta tol normalized maxIter.toNat h.next (h.next + 1)
          (grow h1 vempty) := fun hk => by
    refine hrun.trans ?_
    rw [← hn1]
    rcases beta with c | b
    · rfl
    · change (if nvals (h.cell b) ≠ n then Except.error Err.algorithm else Except.ok ()) = _ at hk
      have hk' : ¬ nvals (h1.cell b) ≠ n := by
        rw [e1.2 b (hb b rfl)]
        intro hne
        rw [if_pos hne] at hk
        cases hk
      simp only [read_bind, if_neg hk', pure_bind', newEmpty_bind]
  unfold katzV
  cases hk : katzCheck (beta.map id h.cell) with
  | ok u =>
    cases u
    have hE : ∀ (q : Except Err (Vec n F)), (do
        let x ← q
        return if normalized then normalizeL2 sqrt x else x) =
        q.map fun v => if normalized then normalizeL2 sqrt v else v := fun q => by cases q <;> rfl
    show Yields _ h (do
        let x ← powerIter (katzStep fill A iso alpha (beta.map id h.cell)) (isConverged tol) maxIter.toNat
          (katzInit (nstart.map h.cell))
        return if normalized then normalizeL2 sqrt x else x)
    rw [hE]
    exact yields_of_loop (fin hk) lp ext own
  | error e =>
    rcases beta with c | b
    · cases hk
    · change (if nvals (h.cell b) ≠ n then Except.error Err.algorithm else Except.ok ()) = _ at hk
      split_ifs at hk with hne
      cases hk
      have hk' : nvals (h1.cell b) ≠ n := by rw [e1.2 b (hb b rfl)]; exact hne
      have hrun' : katzB fill sqrt A iso alpha (.inr b) maxIter tol nstart normalized h =
          (.error .algorithm, h1) := by
        refine hrun.trans ?_
        simp only [read_bind, if_pos hk', raise_bind]
      exact ⟨(fun v hv => by cases hv), (fun e he => by cases he; rw [hrun']), fun a ha => by
        rw [hrun']; exact e1.2 a ha⟩

/-! ## eigenvector centrality -/

theorem eigLoopB_run (sqrt : F → F) (A : Mat n n F) (tol : F) {x xprev : Nat} (hxp : x ≠ xprev) :
    ∀ (k : Nat) (h : Heap n F),
    Loop [x, xprev] h (powerIter (eigStep sqrt A) (isConverged tol) k (h.cell x))
      (eigLoopB sqrt A tol x xprev k h)
  | 0, h =>
    ⟨fun v e => by simp [powerIter] at e, fun e he => by simp [powerIter] at he; subst he; rfl,
      fun a _ => rfl, rfl⟩
  | k + 1, h => by
    have hrun : eigLoopB sqrt A tol x xprev (k + 1) h =
        (if isConverged tol (h.cell x) (eigStep sqrt A (h.cell x)) then (pure x : HM n F Nat)
          else eigLoopB sqrt A tol x xprev k)
        (put (put (put h xprev (h.cell x)) x (eigStep sqrt A (h.cell x))) xprev
          (vapply abs (vadd (· - ·) (h.cell x) (eigStep sqrt A (h.cell x))))) := by
      rw [eigLoopB]
      simp only [read_bind, write_bind, norm_bind, conv_bind, put_same, put_put, put_ne _ _ hxp,
        put_ne _ _ hxp.symm]
      rfl
    have hx : (put (put (put h xprev (h.cell x)) x (eigStep sqrt A (h.cell x))) xprev
          (vapply abs (vadd (· - ·) (h.cell x) (eigStep sqrt A (h.cell x))))).cell x =
        eigStep sqrt A (h.cell x) := by rw [put_ne _ _ hxp, put_same]
    have hf : ∀ a, a ∉ [x, xprev] → (put (put (put h xprev (h.cell x)) x (eigStep sqrt A (h.cell x))) xprev
          (vapply abs (vadd (· - ·) (h.cell x) (eigStep sqrt A (h.cell x))))).cell a = h.cell a :=
      fun a ha => by
        simp only [List.mem_cons, List.not_mem_nil, or_false, not_or] at ha
        rw [put_ne _ _ ha.2, put_ne _ _ ha.1, put_ne _ _ ha.2]
    rw [hrun, powerIter]
    by_cases hcv : isConverged tol (h.cell x) (eigStep sqrt A (h.cell x)) = true
    · rw [if_pos hcv, if_pos hcv]
      exact ⟨fun v hv => ⟨x, by simp, rfl, by cases hv; exact hx⟩, (fun e he => by cases he), hf, rfl⟩
    · rw [if_neg hcv, if_neg hcv]
      have ih := eigLoopB_run sqrt A tol hxp k (put (put (put h xprev (h.cell x)) x
        (eigStep sqrt A (h.cell x))) xprev
          (vapply abs (vadd (· - ·) (h.cell x) (eigStep sqrt A (h.cell x)))))
      rw [hx] at ih
      exact ⟨ih.returns, ih.raises, fun a ha => (ih.frame a ha).trans (hf a ha), ih.next⟩

theorem startB_run (err : Err) (nstart : Option Nat) (h : Heap n F) (x : Nat) :
    (∃ s, nstart = some s ∧ vsum (h.cell s) = 0 ∧
      startB err nstart x h = (.error err, put h x (h.cell s))) ∨
    ∃ v : Vec n F, (nstart = none ∧ v = (fun _ => some (1 / (n : F))) ∨
        ∃ s, nstart = some s ∧ vsum (h.cell s) ≠ 0 ∧
        v = vapply (fun a => a * (1 / vsum (h.cell s))) (h.cell s)) ∧
      startB err nstart x h = (.ok (), put h x v) := by
  rcases nstart with _ | s
  · exact .inr ⟨_, .inl ⟨rfl, rfl⟩, rfl⟩
  · unfold startB
    by_cases hz : vsum (h.cell s) = 0
    · refine .inl ⟨s, rfl, hz, ?_⟩
      have hz' : (reduce (· + ·) (h.cell s)).getD 0 = 0 := hz
      simp only [read_bind, write_bind, put_same, if_pos hz']
      rfl
    · refine .inr ⟨_, .inr ⟨s, rfl, hz, rfl⟩, ?_⟩
      have hz' : ¬ (reduce (· + ·) (h.cell s)).getD 0 = 0 := hz
      simp only [read_bind, write_bind, put_same, if_neg hz', write_run, put_put]
      rfl

theorem eigB_yields (sqrt : F → F) (A : Mat n n F) (maxIter : Int) (tol : F) (nstart : Option Nat)
    (h : Heap n F) (hs : ∀ a, nstart = some a → a < h.next) :
    Yields (eigB sqrt A maxIter tol nstart) h (eigV sqrt A maxIter tol (nstart.map h.cell)) := by
  unfold eigB eigV
  by_cases h0 : n = 0
  · rw [if_pos h0, if_pos h0]
    exact ⟨(fun v hv => by cases hv), (fun e he => by cases he; rfl), fun a _ => rfl⟩
  rw [if_neg h0, if_neg h0]
  have old : ∀ s, nstart = some s → (grow h vempty).cell s = h.cell s := fun s e =>
    grow_old h _ (hs s e)
  rcases startB_run .algorithm nstart (grow h vempty) h.next with ⟨s, e1, e2, e3⟩ | ⟨v, hv, e3⟩
  · subst e1
    have hz : vsum (h.cell s) = 0 := by rw [← old s rfl]; exact e2
    have ho : eigInit (Option.map h.cell (some s)) = .error .algorithm := by
      simp only [Option.map, eigInit, if_pos hz]
    rw [ho]
    refine ⟨(fun v hv => by cases hv), (fun e he => by cases he; rw [newEmpty_bind, bind_error e3]),
      fun a ha => ?_⟩
    rw [newEmpty_bind, bind_error e3]
    exact (put_ne _ _ (Nat.ne_of_lt ha)).trans (grow_old _ _ ha)
  · have ho : eigInit (nstart.map h.cell) = .ok v := by
      rcases hv with ⟨e, rfl⟩ | ⟨s, e, hz, rfl⟩
      · subst e; rfl
      · subst e
        rw [old s rfl] at hz ⊢
        simp only [Option.map, eigInit, if_neg hz]
    rw [ho]
    have lp := eigLoopB_run sqrt A tol (x := h.next) (xprev := h.next + 1) (by omega) maxIter.toNat
      (grow (put (grow h vempty) h.next v) vempty)
    rw [grow_old _ _ (Nat.lt_succ_self _), put_same] at lp
    refine yields_of_loop ((newEmpty_bind _ _).trans (bind_ok e3)) lp
      (((Ext.grow h _).put (le_refl _) _).trans (Ext.grow _ _)) ?_
    intro a ha
    simp only [List.mem_cons, List.not_mem_nil, or_false] at ha
    show h.next ≤ a ∧ a < h.next + 1 + 1
    rcases ha with e | e <;> subst e <;> omega

/-! ## hits -/

theorem hitsAuthLoopB_run (sqrt : F → F) (A : Mat n n F) (tol : F) {hh : Nat} :
    ∀ (k : Nat) {a aprev : Nat} (_ : a ≠ aprev) (_ : hh ≠ a) (_ : hh ≠ aprev) (h : Heap n F),
    let r := hitsAuthLoopB sqrt A (authMatrix A) tol hh k a aprev h
    Loop [a, aprev] (put h hh (r.2.cell hh)) (powerIter (hitsAuthStep A) (isConverged tol) k (h.cell a)) r ∧
      ∀ b, r.1 = .ok b → r.2.cell hh = mxv (· + ·) (· * ·) A (r.2.cell b)
  | 0, a, aprev, _, _, _, h =>
    ⟨⟨fun v e => by simp [powerIter] at e, fun e he => by simp [powerIter] at he; subst he; rfl,
      fun b _ => by
        show h.cell b = (put h hh (h.cell hh)).cell b
        rw [put_self], rfl⟩, fun b hb => by cases hb⟩
  | k + 1, a, aprev, hap, hha, hhp, h => by
    intro r
    have hrun : r = (if isConverged tol (h.cell a) (hitsAuthStep A (h.cell a)) then
          (do
            let v ← read aprev
            write hh (mxv (· + ·) (· * ·) A v)
            pure aprev : HM n F Nat)
          else hitsAuthLoopB sqrt A (authMatrix A) tol hh k aprev a)
        (put (put h aprev (hitsAuthStep A (h.cell a))) a
          (vapply abs (vadd (· - ·) (h.cell a) (hitsAuthStep A (h.cell a))))) := by
      show hitsAuthLoopB sqrt A (authMatrix A) tol hh (k + 1) a aprev h = _
      rw [hitsAuthLoopB]
      simp only [read_bind, write_bind, norm_bind, conv_bind, put_same, put_put, put_ne _ _ hap]
      rfl
    clear_value r
    have hx : (put (put h aprev (hitsAuthStep A (h.cell a))) a
          (vapply abs (vadd (· - ·) (h.cell a) (hitsAuthStep A (h.cell a))))).cell aprev =
        hitsAuthStep A (h.cell a) := by rw [put_ne _ _ hap.symm, put_same]
    rw [powerIter]
    by_cases hcv : isConverged tol (h.cell a) (hitsAuthStep A (h.cell a)) = true
    · rw [if_pos hcv] at hrun
      rw [if_pos hcv]
      rw [read_bind, write_bind, pure_run, hx] at hrun
      subst hrun
      refine ⟨⟨fun v hv => ⟨aprev, by simp, rfl, ?_⟩, (fun e he => by cases he), fun b hb => ?_, rfl⟩,
        fun b hb => ?_⟩
      · cases hv
        show (put _ hh _).cell aprev = _
        rw [put_ne _ _ hhp.symm, hx]
      · simp only [List.mem_cons, List.not_mem_nil, or_false, not_or] at hb
        by_cases hbh : b = hh
        · subst hbh; simp only [put_same]
        · show (put _ hh _).cell b = _
          rw [put_ne _ _ hbh, put_ne _ _ hbh, put_ne _ _ hb.1, put_ne _ _ hb.2]
      · cases hb
        show (put _ hh _).cell hh = mxv (· + ·) (· * ·) A ((put _ hh _).cell aprev)
        rw [put_same, put_ne _ _ hhp.symm, hx]
    · rw [if_neg hcv] at hrun
      rw [if_neg hcv]
      have ih := hitsAuthLoopB_run sqrt A tol k hap.symm hhp hha
        (put (put h aprev (hitsAuthStep A (h.cell a))) a
          (vapply abs (vadd (· - ·) (h.cell a) (hitsAuthStep A (h.cell a)))))
      dsimp only at ih
      rw [← hrun, hx] at ih
      obtain ⟨ih, ih2⟩ := ih
      refine ⟨⟨fun v hv => ?_, ih.raises, fun b hb => ?_, ih.next⟩, ih2⟩
      · obtain ⟨b, hb, hc⟩ := ih.returns v hv
        refine ⟨b, ?_, hc⟩
        simp only [List.mem_cons, List.not_mem_nil, or_false] at hb ⊢
        exact hb.symm
      · simp only [List.mem_cons, List.not_mem_nil, or_false, not_or] at hb
        rw [ih.frame b (by simp [hb])]
        by_cases hbh : b = hh
        · subst hbh; rw [put_same, put_same]
        · rw [put_ne _ _ hbh, put_ne _ _ hbh, put_ne _ _ hb.1, put_ne _ _ hb.2]

theorem hitsLoopB_run (sqrt : F → F) (A : Mat n n F) (tol : F) {a : Nat} :
    ∀ (k : Nat) {hh hprev : Nat} (_ : hh ≠ hprev) (_ : a ≠ hh) (_ : a ≠ hprev) (h : Heap n F)
    (w : Vec n F),
    let r := hitsLoopB sqrt A tol a k hh hprev h
    Loop [hh, hprev] (put h a (r.2.cell a))
      ((powerIter (hitsStep A) (fun s t => isConverged tol s.1 t.1) k (h.cell hh, w)).map (·.1)) r ∧
      ∀ s, powerIter (hitsStep A) (fun s t => isConverged tol s.1 t.1) k (h.cell hh, w) = .ok s →
        r.2.cell a = s.2
  | 0, hh, hprev, _, _, _, h, w =>
    ⟨⟨fun v e => by simp [powerIter, Except.map] at e,
      fun e he => by simp [powerIter, Except.map] at he; subst he; rfl,
      fun b _ => by
        show h.cell b = (put h a (h.cell a)).cell b
        rw [put_self], rfl⟩, fun b hb => by cases hb⟩
  | k + 1, hh, hprev, hap, hha, hhp, h, w => by
    intro r
    have hst : hitsStep A (h.cell hh, w) = (normalizeLinf (mxv (· + ·) (· * ·) A (hitsA A (h.cell hh))),
      hitsA A (h.cell hh)) := rfl
    have hrun : r = (if isConverged tol (h.cell hh) (hitsStep A (h.cell hh, w)).1 then
          (pure hprev : HM n F Nat)
          else hitsLoopB sqrt A tol a k hprev hh)
        (put (put (put h a (hitsA A (h.cell hh))) hprev (hitsStep A (h.cell hh, w)).1) hh
          (vapply abs (vadd (· - ·) (h.cell hh) (hitsStep A (h.cell hh, w)).1))) := by
      show hitsLoopB sqrt A tol a (k + 1) hh hprev h = _
      rw [hitsLoopB]
      simp only [read_bind, write_bind, norm_bind, conv_bind, put_same, put_put, put_ne _ _ hap,
        put_ne _ _ hha.symm]
      rfl
    clear_value r
    have hx : (put (put (put h a (hitsA A (h.cell hh))) hprev (hitsStep A (h.cell hh, w)).1) hh
          (vapply abs (vadd (· - ·) (h.cell hh) (hitsStep A (h.cell hh, w)).1))).cell hprev =
        (hitsStep A (h.cell hh, w)).1 := by rw [put_ne _ _ hap.symm, put_same]
    have ha : (put (put (put h a (hitsA A (h.cell hh))) hprev (hitsStep A (h.cell hh, w)).1) hh
          (vapply abs (vadd (· - ·) (h.cell hh) (hitsStep A (h.cell hh, w)).1))).cell a =
        (hitsStep A (h.cell hh, w)).2 := by rw [put_ne _ _ hha, put_ne _ _ hhp, put_same]; rfl
    rw [powerIter]
    by_cases hcv : isConverged tol (h.cell hh) (hitsStep A (h.cell hh, w)).1 = true
    · rw [if_pos hcv, pure_run] at hrun
      rw [if_pos hcv]
      subst hrun
      refine ⟨⟨fun v hv => ⟨hprev, by simp, rfl, ?_⟩, (fun e he => by cases he), fun b hb => ?_, rfl⟩,
        fun s hs => ?_⟩
      · cases hv
        exact hx
      · simp only [List.mem_cons, List.not_mem_nil, or_false, not_or] at hb
        by_cases hba : b = a
        · subst hba; rw [put_same]
        · show (put _ hh _).cell b = _
          rw [put_ne _ _ hba, put_ne _ _ hb.1, put_ne _ _ hb.2, put_ne _ _ hba]
      · cases hs
        exact ha
    · rw [if_neg hcv] at hrun
      rw [if_neg hcv]
      have ih := hitsLoopB_run sqrt A tol k hap.symm hhp hha
        (put (put (put h a (hitsA A (h.cell hh))) hprev (hitsStep A (h.cell hh, w)).1) hh
          (vapply abs (vadd (· - ·) (h.cell hh) (hitsStep A (h.cell hh, w)).1)))
        (hitsStep A (h.cell hh, w)).2
      dsimp only at ih
      rw [← hrun, hx] at ih
      obtain ⟨ih, ih2⟩ := ih
      refine ⟨⟨fun v hv => ?_, ih.raises, fun b hb => ?_, ih.next⟩, ih2⟩
      · obtain ⟨b, hb, hc⟩ := ih.returns v hv
        refine ⟨b, ?_, hc⟩
        simp only [List.mem_cons, List.not_mem_nil, or_false] at hb ⊢
        exact hb.symm
      · simp only [List.mem_cons, List.not_mem_nil, or_false, not_or] at hb
        rw [ih.frame b (by simp [hb])]
        by_cases hba : b = a
        · subst hba; rw [put_same, put_same]
        · rw [put_ne _ _ hba, put_ne _ _ hb.1, put_ne _ _ hb.2, put_ne _ _ hba, put_ne _ _ hba]

omit [Field F] [LinearOrder F] in
theorem yields₂_error {m : HM n F (Nat × Nat)} {h h' : Heap n F} {e : Err} (hm : m h = (.error e, h'))
    (he : ∀ a < h.next, h'.cell a = h.cell a) : Yields₂ m h (.error e) :=
  ⟨(fun v w hv => by cases hv), (fun e' he' => by cases he'; rw [hm]), fun a ha => by
    rw [hm]; exact he a ha⟩

omit [Field F] [LinearOrder F] in
theorem yields₂_ok {m : HM n F (Nat × Nat)} {h h' : Heap n F} {a b : Nat} {v w : Vec n F}
    (hm : m h = (.ok (a, b), h')) (hab : a ≠ b) (h1 : h.next ≤ a) (h2 : a < h'.next) (h3 : h.next ≤ b)
    (h4 : b < h'.next) (h5 : h'.cell a = v) (h6 : h'.cell b = w)
    (he : ∀ a < h.next, h'.cell a = h.cell a) : Yields₂ m h (.ok (v, w)) :=
  ⟨(fun v' w' hv => by cases hv; exact ⟨a, b, by rw [hm], hab, h1, by rw [hm]; exact h2, h3,
      by rw [hm]; exact h4, by rw [hm]; exact h5, by rw [hm]; exact h6⟩),
    (fun e' he' => by cases he'), fun a ha => by rw [hm]; exact he a ha⟩

/-- the result of `hits`, with or without the authority matrix -/
def hitsOut (A : Mat n n F) (maxIter : Int) (tol : F) (nstart : Option (Vec n F))
    (normalized withAuthority : Bool) : Except Err (Vec n F × Vec n F) :=
  if withAuthority then hitsAuthV A maxIter tol nstart normalized
  else hitsV A maxIter tol nstart normalized

theorem hitsB_yields (sqrt : F → F) (A : Mat n n F) (maxIter : Int) (tol : F) (nstart : Option Nat)
    (normalized withAuthority : Bool) (h : Heap n F) (hs : ∀ a, nstart = some a → a < h.next) :
    Yields₂ (hitsB sqrt A maxIter tol nstart normalized withAuthority) h
      (hitsOut A maxIter tol (nstart.map h.cell) normalized withAuthority) := by
  have gold : ∀ a < h.next, (grow (grow h (vempty : Vec n F)) vempty).cell a = h.cell a := fun a ha => by
    rw [grow_old _ _ (by rw [grow_next]; omega), grow_old _ _ ha]
  unfold hitsB
  by_cases h0 : n = 0
  · have hout : hitsOut A maxIter tol (nstart.map h.cell) normalized withAuthority = .ok (vempty, vempty) := by
      unfold hitsOut hitsAuthV hitsV
      rw [if_pos h0, if_pos h0]
      split_ifs <;> rfl
    rw [hout]
    simp only [if_pos h0]
    refine yields₂_ok (h' := grow (grow h vempty) vempty) (a := h.next) (b := h.next + 1) rfl (by omega)
      (le_refl _) (by simp only [grow_next]; omega) (by omega) (by simp only [grow_next]; omega) ?_ ?_ gold
    · rw [grow_old _ _ (by rw [grow_next]; omega), grow_same]
    · exact grow_same (grow h vempty) vempty
  simp only [if_neg h0]
  have old : ∀ s, nstart = some s → (grow (grow h vempty) vempty).cell s = h.cell s := fun s e =>
    gold s (hs s e)
  rcases startB_run .zeroDivision nstart (grow (grow h vempty) vempty) h.next with
    ⟨s, e1, e2, e3⟩ | ⟨v, hv, e3⟩
  · subst e1
    have hz : vsum (h.cell s) = 0 := by rw [← old s rfl]; exact e2
    have ho : hitsInit (Option.map h.cell (some s)) = .error .zeroDivision := by
      simp only [Option.map, hitsInit, if_pos hz]
    have hout : hitsOut A maxIter tol (Option.map h.cell (some s)) normalized withAuthority =
        .error .zeroDivision := by
      unfold hitsOut hitsAuthV hitsV
      rw [if_neg h0, if_neg h0, ho]
      split_ifs <;> rfl
    rw [hout]
    refine yields₂_error (h' := put (grow (grow h vempty) vempty) h.next
      ((grow (grow h vempty) vempty).cell s)) ?_ ?_
    · rw [newEmpty_bind, newEmpty_bind]
      exact bind_error e3
    · intro a ha
      rw [put_ne _ _ (Nat.ne_of_lt ha), gold a ha]
  have ho : hitsInit (nstart.map h.cell) = .ok v := by
    rcases hv with ⟨e, rfl⟩ | ⟨s, e, hz, rfl⟩
    · subst e; rfl
    · subst e
      rw [old s rfl] at hz ⊢
      simp only [Option.map, hitsInit, if_neg hz]
  have run0 : ∀ f : Nat → Nat → HM n F (Nat × Nat), (newEmpty >>= fun x => newEmpty >>= fun y =>
      startB .zeroDivision nstart x >>= fun _ => newEmpty >>= fun z => f y z) h = f (h.next + 1) (h.next + 2)
        (grow (put (grow (grow h vempty) vempty) h.next v) vempty) := fun f =>
    (newEmpty_bind _ _).trans ((newEmpty_bind _ _).trans ((bind_ok e3).trans rfl))
  obtain ⟨g, hg⟩ : ∃ g, g = grow (put (grow (grow h vempty) vempty) h.next v) vempty := ⟨_, rfl⟩
  have gx : g.cell h.next = v := by
    rw [hg, grow_old _ _ (by show h.next < h.next + 1 + 1; omega), put_same]
  have gn : g.next = h.next + 3 := by rw [hg]; rfl
  have gf : ∀ a < h.next, g.cell a = h.cell a := fun a ha => by
    rw [hg, grow_old _ _ (by show a < h.next + 1 + 1; omega), put_ne _ _ (Nat.ne_of_lt ha), gold a ha]
  have own : ∀ c ∈ [h.next, h.next + 2], h.next ≤ c ∧ c < h.next + 3 ∧ c ≠ h.next + 1 := by
    intro c hc
    simp only [List.mem_cons, List.not_mem_nil, or_false] at hc
    rcases hc with e | e <;> subst e <;> omega
  rcases withAuthority with _ | _
  · -- without
    obtain ⟨lp, lp2⟩ := hitsLoopB_run sqrt A tol (a := h.next + 1) maxIter.toNat (hh := h.next)
      (hprev := h.next + 2) (by omega) (by omega) (by omega) g vempty
    rw [gx] at lp lp2
    obtain ⟨⟨r1, r2⟩, hr⟩ : ∃ r, r = hitsLoopB sqrt A tol (h.next + 1) maxIter.toNat h.next (h.next + 2) g :=
      ⟨_, rfl⟩
    rw [← hr] at lp lp2
    have rf : ∀ c < h.next, r2.cell c = h.cell c := fun c hc =>
      (lp.frame c (fun hm => by have := (own c hm).1; omega)).trans
        ((put_ne _ _ (by omega)).trans (gf c hc))
    have rn : r2.next = h.next + 3 := lp.next.trans gn
    have run1 := run0 fun a hprev => do
      let h ← hitsLoopB sqrt A tol a maxIter.toNat h.next hprev
      if normalized then do
        normalizeB sqrt h .l1
        normalizeB sqrt a .l1
      else normalizeB sqrt a .linf
      pure (h, a)
    rw [← hg] at run1
    have hout : hitsOut A maxIter tol (nstart.map h.cell) normalized false =
        (powerIter (hitsStep A) (fun s t => isConverged tol s.1 t.1) maxIter.toNat (v, vempty)).map
          fun s => if normalized then (normalizeL1 s.1, normalizeL1 s.2) else (s.1, normalizeLinf s.2) := by
      unfold hitsOut hitsV
      rw [if_neg h0, ho]
      simp only [Bool.false_eq_true, if_false, bind, Except.bind]
      cases powerIter (hitsStep A) (fun s t => isConverged tol s.1 t.1) maxIter.toNat (v, vempty) <;> rfl
    rw [hout]
    cases hp : powerIter (hitsStep A) (fun s t => isConverged tol s.1 t.1) maxIter.toNat (v, vempty) with
    | error e =>
      rw [hp] at lp
      have hr1 : r1 = .error e := lp.raises e rfl
      subst hr1
      exact yields₂_error (h' := r2) (run1.trans (bind_error hr.symm)) rf
    | ok s =>
      rw [hp] at lp
      obtain ⟨b, hb, hb1, hb2⟩ := lp.returns s.1 rfl
      have hr1 : r1 = .ok b := hb1
      subst hr1
      have hb2' : r2.cell b = s.1 := hb2
      have ha2 : r2.cell (h.next + 1) = s.2 := lp2 s hp
      obtain ⟨o1, o2, o3⟩ := own b hb
      cases normalized
      · refine yields₂_ok (a := b) (b := h.next + 1) (h' := put r2 (h.next + 1) (normalizeLinf s.2))
          (run1.trans ((bind_ok hr.symm).trans ?_)) o3 o1 (by rw [put_next, rn]; omega) (by omega)
          (by rw [put_next, rn]; omega) ?_ ?_ (fun c hc => ?_)
        · simp only [Bool.false_eq_true, if_false]
          rw [norm_bind, ha2]; rfl
        · rw [put_ne _ _ o3, hb2']
        · rw [put_same]
        · rw [put_ne _ _ (by omega), rf c hc]
      · refine yields₂_ok (a := b) (b := h.next + 1)
          (h' := put (put r2 b (normalizeL1 s.1)) (h.next + 1) (normalizeL1 s.2))
          (run1.trans ((bind_ok hr.symm).trans ?_)) o3 o1 (by rw [put_next, put_next, rn]; omega) (by omega)
          (by rw [put_next, put_next, rn]; omega) ?_ ?_ (fun c hc => ?_)
        · simp only [if_true]
          rw [norm_bind, norm_bind, hb2', put_ne _ _ o3.symm, ha2]; rfl
        · rw [put_ne _ _ o3, put_same]
        · rw [put_same]
        · rw [put_ne _ _ (by omega), put_ne _ _ (by omega), rf c hc]
  · obtain ⟨lp, lp2⟩ := hitsAuthLoopB_run sqrt A tol (hh := h.next + 1) maxIter.toNat (a := h.next)
      (aprev := h.next + 2) (by omega) (by omega) (by omega) g
    rw [gx] at lp
    obtain ⟨⟨r1, r2⟩, hr⟩ : ∃ r, r = hitsAuthLoopB sqrt A (authMatrix A) tol (h.next + 1) maxIter.toNat h.next
      (h.next + 2) g := ⟨_, rfl⟩
    rw [← hr] at lp lp2
    have rf : ∀ c < h.next, r2.cell c = h.cell c := fun c hc =>
      (lp.frame c (fun hm => by have := (own c hm).1; omega)).trans
        ((put_ne _ _ (by omega)).trans (gf c hc))
    have rn : r2.next = h.next + 3 := lp.next.trans gn
    have run1 := run0 fun a aprev => do
      let h' ← hitsAuthLoopB sqrt A (authMatrix A) tol a maxIter.toNat h.next aprev
      if normalized then do
        normalizeB sqrt a .l1
        normalizeB sqrt h' .l1
      else normalizeB sqrt a .linf
      pure (a, h')
    rw [← hg] at run1
    have hout : hitsOut A maxIter tol (nstart.map h.cell) normalized true =
        (powerIter (hitsAuthStep A) (isConverged tol) maxIter.toNat v).map
          fun a => if normalized then (normalizeL1 (mxv (· + ·) (· * ·) A a), normalizeL1 a)
            else (normalizeLinf (mxv (· + ·) (· * ·) A a), a) := by
      unfold hitsOut hitsAuthV
      rw [if_neg h0, ho]
      simp only [if_true, bind, Except.bind]
      cases powerIter (hitsAuthStep A) (isConverged tol) maxIter.toNat v <;> rfl
    rw [hout]
    cases hp : powerIter (hitsAuthStep A) (isConverged tol) maxIter.toNat v with
    | error e =>
      rw [hp] at lp
      have hr1 : r1 = .error e := lp.raises e rfl
      subst hr1
      exact yields₂_error (h' := r2) (run1.trans (bind_error hr.symm)) rf
    | ok s =>
      rw [hp] at lp
      obtain ⟨b, hb, hb1, hb2⟩ := lp.returns s rfl
      have hr1 : r1 = .ok b := hb1
      subst hr1
      have hb2' : r2.cell b = s := hb2
      have ha2 : r2.cell (h.next + 1) = mxv (· + ·) (· * ·) A s := by rw [← hb2']; exact lp2 b rfl
      obtain ⟨o1, o2, o3⟩ := own b hb
      cases normalized
      · refine yields₂_ok (a := h.next + 1) (b := b)
          (h' := put r2 (h.next + 1) (normalizeLinf (mxv (· + ·) (· * ·) A s)))
          (run1.trans ((bind_ok hr.symm).trans ?_)) o3.symm (by omega) (by rw [put_next, rn]; omega) o1
          (by rw [put_next, rn]; omega) ?_ ?_ (fun c hc => ?_)
        · simp only [Bool.false_eq_true, if_false]
          rw [norm_bind, ha2]; rfl
        · rw [put_same]
        · rw [put_ne _ _ o3, hb2']
        · rw [put_ne _ _ (by omega), rf c hc]
      · refine yields₂_ok (a := h.next + 1) (b := b)
          (h' := put (put r2 (h.next + 1) (normalizeL1 (mxv (· + ·) (· * ·) A s))) b (normalizeL1 s))
          (run1.trans ((bind_ok hr.symm).trans ?_)) o3.symm (by omega)
          (by rw [put_next, put_next, rn]; omega) o1
          (by rw [put_next, put_next, rn]; omega) ?_ ?_ (fun c hc => ?_)
        · simp only [if_true]
          rw [norm_bind, norm_bind, ha2, put_ne _ _ o3, hb2']; rfl
        · rw [put_ne _ _ o3.symm, put_same]
        · rw [put_same]
        · rw [put_ne _ _ (by omega), put_ne _ _ (by omega), rf c hc]

end

end Proofs.Buf
