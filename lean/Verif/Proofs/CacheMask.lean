import Verif.Proofs.Cache

/-!
Masked and unmasked lookups from the same, arbitrary cache.
-/

set_option linter.unusedSectionVars false

open GB Spec.Prop Model Model.Cache

namespace Proofs.Cache

variable {ι α : Type} [DecidableEq ι] [LinearOrder α] [Zero α] {c : Ctx ι α}

@[simp] theorem run_pure {a : Type} (x : a) (s : Store ι c.n α) : (pure x : M c a).run s = (.ok x, s) := rfl
@[simp] theorem run_throw {a : Type} (e : Err) (s : Store ι c.n α) : (throw e : M c a).run s = (.error e, s) := rfl
@[simp] theorem run_has (k : Key ι) (s : Store ι c.n α) : (has c k).run s = (.ok (s k).isSome, s) := rfl
@[simp] theorem run_peek (k : Key ι) (s : Store ι c.n α) : (peek c k).run s = (.ok (s k), s) := rfl
@[simp] theorem run_put (k : Key ι) (v : Val c.n α k) (s : Store ι c.n α) :
    (put c k v).run s = (.ok (), Function.update s k (some v)) := rfl
@[simp] theorem run_selfFalse (s : Store ι c.n α) :
    (selfFalse c).run s = (.ok (s .hasSelf == some false), s) := rfl
theorem run_readK {k : Key ι} {s : Store ι c.n α} {v : Val c.n α k} (h : s k = some v) :
    (readK c k).run s = (.ok v, s) := by
  show (match s k with | some v => M.ret v | none => M.err .keyError : M c _).run s = _
  rw [h]; rfl

theorem run_readK_none {k : Key ι} {s : Store ι c.n α} (h : s k = none) :
    (readK c k).run s = (.error .keyError, s) := by
  show (match s k with | some v => M.ret v | none => M.err .keyError : M c _).run s = _
  rw [h]; rfl

theorem run_andM (x y : M c Bool) {s s' : Store ι c.n α} {b : Bool} (h : x.run s = (.ok b, s')) :
    (Model.Cache.andM c x y).run s = if b then y.run s' else (.ok false, s') := by
  unfold Model.Cache.andM; rw [run_bind, h]; cases b <;> rfl

theorem run_ite_bind {a : Type} {x : M c Bool} {y z : M c a} {s s' : Store ι c.n α} {b : Bool}
    (h : x.run s = (.ok b, s')) :
    (do if ← x then y else z).run s = if b then y.run s' else z.run s' := by
  rw [run_bind, h]; cases b <;> rfl

theorem fill_some {k : Key ι} {g : M c (Val c.n α k)} {s : Store ι c.n α} {v} (h : s k = some v) :
    (fill c k g).run s = (.ok (), s) := by
  unfold fill; rw [run_ite_bind (run_has _ _), h]; rfl

theorem fill_none {k : Key ι} {g : M c (Val c.n α k)} {s : Store ι c.n α} (h : s k = none) :
    (fill c k g).run s = match g.run s with
      | (.ok v, s') => (.ok (), Function.update s' k (some v))
      | (.error e, s') => (.error e, s') := by
  unfold fill; rw [run_ite_bind (run_has _ _), h]
  show (g >>= fun v => put c k v).run s = _
  rw [run_bind]
  rcases g.run s with ⟨⟨e⟩ | ⟨v⟩, s'⟩ <;> rfl

theorem fill_none_then {k : Key ι} {a : Type} {g : M c (Val c.n α k)} {y : M c a} {s : Store ι c.n α}
    (h : s k = none) : (do fill c k g; y).run s = match g.run s with
      | (.ok v, s') => y.run (Function.update s' k (some v))
      | (.error e, s') => (.error e, s') := by
  rw [run_bind, fill_none h]
  rcases g.run s with ⟨⟨e⟩ | ⟨v⟩, s'⟩ <;> rfl

/-- `if k not in cache: cache[k] = g` and then code that returns the entry -/
theorem fill_then {k : Key ι} {g y : M c (Val c.n α k)} {s : Store ι c.n α}
    (hy : ∀ s v, s k = some v → (y.run s).1 = .ok v) :
    ((do fill c k g; y).run s).1 = match s k with
      | some v => .ok v
      | none => (g.run s).1 := by
  rw [run_bind]
  cases h : s k with
  | some v => rw [fill_some h]; exact hy s v h
  | none =>
    rw [fill_none h]
    rcases g.run s with ⟨⟨e⟩ | ⟨v⟩, s'⟩
    · rfl
    · exact hy _ v (by simp)

/-- the closing lines leave the entry of the requested sign alone -/
theorem sync_read {k k' : Key ι} (hk : k ≠ .hasSelf) (hk' : k ≠ k')
    {differ : M c Bool} {s : Store ι c.n α} {v : Val c.n α k}
    {w : Val c.n α k → Val c.n α k'}
    (hd : ∃ b, differ.run s = (.ok b, s)) (h : s k = some v) :
    ((do sync c differ (do put c k' (w (← readK c k))); readK c k).run s).1 = .ok v := by
  obtain ⟨b, hb⟩ := hd
  rw [run_bind]
  have : ∃ s', (sync c differ (do put c k' (w (← readK c k)))).run s = (.ok (), s') ∧ s' k = some v := by
    unfold sync
    have e : (Model.Cache.andM c (notM c (has c .hasSelf)) differ).run s =
        (.ok (!(s .hasSelf).isSome && b), s) := by
      rw [run_andM (s' := s) (b := !(s .hasSelf).isSome) _ _ rfl, hb]
      cases (s Key.hasSelf).isSome <;> rfl
    rw [run_ite_bind e]
    split
    · exact ⟨_, rfl, by simpa [Function.update_of_ne hk] using h⟩
    · rw [run_ite_bind (run_selfFalse _)]
      split
      · refine ⟨Function.update s k' (some (w v)), ?_, by rw [Function.update_of_ne hk']; exact h⟩
        rw [run_bind, run_readK h]; rfl
      · exact ⟨s, rfl, h⟩
  obtain ⟨s', e, h'⟩ := this
  rw [e]
  exact congrArg Prod.fst (run_readK h')

theorem vecSync_read {r : VOp ι} {ax : Axis} {σ τ : Sign} (hne : σ ≠ τ) {s : Store ι c.n α}
    {v : Vec c.n (r.Ty α)} (h : s (.vec r σ ax) = some v) :
    ((vecSync c r ax σ τ).run s).1 = .ok v := by
  unfold vecSync
  refine sync_read (k := .vec r σ ax) (k' := .vec r τ ax) (w := fun x => x) (by simp) (by simpa using hne) ?_ h
  cases ht : s (.vec r τ ax) with
  | none => exact ⟨false, by rw [run_andM (b := false) (s' := s) _ _ (by rw [run_has, ht]; rfl)]; rfl⟩
  | some w =>
    refine ⟨decide (nvals v ≠ nvals w), ?_⟩
    rw [run_andM (b := true) (s' := s) _ _ (by rw [run_has, ht]; rfl), if_pos rfl, run_bind, run_readK h]
    dsimp only
    rw [run_bind, run_readK ht]
    rfl

/-- `x` returns (or raises) what `y` does, up to `f` -/
def Rel {a b : Type} (f : a → b) (x : M c b) (y : M c a) (s : Store ι c.n α) : Prop :=
  (x.run s).1 = ((y.run s).1).map f

theorem rel_bind {a b d : Type} {f : a → b} {p : M c d} {x : d → M c b} {y : d → M c a}
    {s : Store ι c.n α} (h : ∀ v s', Rel f (x v) (y v) s') : Rel f (p >>= x) (p >>= y) s := by
  unfold Rel
  rw [run_bind, run_bind]
  rcases p.run s with ⟨⟨e⟩ | ⟨v⟩, s'⟩
  · rfl
  · exact h v s'

theorem rel_ite {a b : Type} {f : a → b} {p : M c Bool} {x x' : M c b} {y y' : M c a}
    {s : Store ι c.n α} (h : ∀ s', Rel f x y s') (h' : ∀ s', Rel f x' y' s') :
    Rel f (do if ← p then x else x') (do if ← p then y else y') s :=
  rel_bind fun v s' => by cases v <;> simp [h, h']

theorem rel_pure {a b : Type} {f : a → b} {x : a} {s : Store ι c.n α} :
    Rel f (pure (f x) : M c b) (pure x) s := rfl

/-- the branch that copies the entry of the other sign -/
theorem rel_copy {k k' : Key ι} {b : Type}
    {w : Val c.n α k' → Val c.n α k} 
    {f : Val c.n α k → b} {s : Store ι c.n α} :
    Rel f (do
        let x ← readK c k'
        put c k (w x)
        return f (← readK c k)) (do return w (← readK c k')) s := by
  refine rel_bind fun v s' => ?_
  unfold Rel
  rw [run_bind, run_put]
  dsimp only
  rw [run_bind, run_readK (v := w v) (by simp)]
  rfl

/-- masked form and unmasked form of the lookups that come in `+`/`-` pairs -/
theorem rel_pair {k : Key ι}
    {f : Val c.n α k → Val c.n α k} {g g' y x x' : M c (Val c.n α k)}
    {cond : M c Bool}
    (hy : ∀ s v, s k = some v → (y.run s).1 = .ok v)
    {s : Store ι c.n α} (hx : ∀ s', Rel f x' x s') (hg : ∀ s', Rel f g' g s') :
    Rel f (do
        if ← has c k then return f (← readK c k)
        else if ← cond then x'
        else g')
      (do
        fill c k (do
          if ← cond then x else g)
        y) s := by
  unfold Rel
  rw [fill_then hy]
  cases h : s k with
  | some v =>
    rw [run_ite_bind (run_has _ _), h]
    dsimp only [Option.isSome]
    rw [if_pos rfl, run_bind, run_readK h]; rfl
  | none =>
    rw [run_ite_bind (run_has _ _), h]
    dsimp only [Option.isSome]
    rw [if_neg (by simp)]
    exact rel_ite hx hg

theorem rel_map {a b : Type} {f : a → b} {g : M c a} {s : Store ι c.n α} :
    Rel f (do return f (← g)) g s := by
  unfold Rel
  rw [run_bind]
  rcases g.run s with ⟨⟨e⟩ | ⟨v⟩, s'⟩ <;> rfl

theorem mask_vecP (r : VOp ι) (ax : Axis) (m : VMask c.n) (s : Store ι c.n α) :
    Rel (vassignR m) (getVecP c r ax (some m)) (getVecP c r ax none) s := by
  unfold getVecP
  dsimp only
  refine rel_pair (k := .vec r .p ax) (fun s v h => vecSync_read (by simp) h) (fun s' => ?_) (fun s' => rel_map)
  have := rel_copy (c := c) (k := .vec r .p ax) (k' := .vec r .m ax) (w := fun x => x) (f := vassignR m) (s := s')
  simp only [bind_pure] at this
  exact this

theorem vassignR_vadd {β : Type} {n : Nat} (m : VMask n) (f : β → β → β) (x y : Vec n β) :
    vadd f (vassignR m x) (vassignR m y) = vassignR m (vadd f x y) := by
  funext i
  unfold vassignR vadd
  cases h : m i <;> simp [omerge, h]

theorem mask_vecM (al : Bool) (r : VOp ι) (ax : Axis) (m : VMask c.n) (s : Store ι c.n α) :
    Rel (vassignR m) (getVecM c al r ax (some m)) (getVecM c al r ax none) s := by
  unfold getVecM
  dsimp only
  refine rel_pair (k := .vec r .m ax) (fun s v h => vecSync_read (by simp) h) (fun s' => ?_) (fun s' => ?_)
  · have := rel_copy (c := c) (k := .vec r .m ax) (k' := .vec r .p ax) (w := fun x => x) (f := vassignR m) (s := s')
    simp only [bind_pure] at this
    exact this
  · refine rel_ite (fun s1 => rel_bind fun v s2 => rfl) fun s1 => ?_
    refine rel_ite (fun s2 => rel_bind fun v s3 => rel_bind fun w s4 => ?_) fun s2 => ?_
    · unfold Rel
      cases r with
      | mon o => exact congrArg Except.ok (vassignR_vadd m _ _ _)
      | count => rfl
    · refine rel_bind fun b s3 => ?_
      cases b
      · exact mask_vecP r _ m s3
      · exact rel_bind fun v s4 => rfl

theorem mask_diag (m : VMask c.n) (s : Store ι c.n α) :
    Rel (vassignR m) (getDiag c (some m)) (getDiag c none) s := by
  unfold getDiag
  dsimp only
  exact rel_bind fun _ s1 => rel_bind fun _ s2 => rel_map

theorem recipSync_read {σ τ : Sign} (hne : σ ≠ τ) {s : Store ι c.n α}
    {v : Vec c.n Nat} (h : s (.recip σ) = some v) :
    ((recipSync c σ τ).run s).1 = .ok v := by
  unfold recipSync
  refine sync_read (k := .recip σ) (k' := .recip τ) (w := fun x => x) (by simp) (by simpa using hne) ?_ h
  cases ht : s (.recip τ) with
  | none => exact ⟨false, by rw [run_andM (b := false) (s' := s) _ _ (by rw [run_has, ht]; rfl)]; rfl⟩
  | some w =>
    have : ∃ x y, s (.recip .m) = some x ∧ s (.recip .p) = some y := by
      cases σ <;> cases τ
      · exact absurd rfl hne
      · exact ⟨w, v, ht, h⟩
      · exact ⟨v, w, h, ht⟩
      · exact absurd rfl hne
    obtain ⟨x, y, hx, hy⟩ := this
    refine ⟨decide (nvals x ≠ nvals y), ?_⟩
    rw [run_andM (b := true) (s' := s) _ _ (by rw [run_has, ht]; rfl), if_pos rfl, run_bind, run_readK hx]
    dsimp only
    rw [run_bind, run_readK hy]
    rfl

theorem mask_recipP (m : VMask c.n) (s : Store ι c.n α) :
    Rel (vassignR m) (getRecipP c (some m)) (getRecipP c none) s := by
  unfold getRecipP
  refine rel_bind fun o s0 => ?_
  dsimp only
  refine rel_pair (k := .recip .p) (fun s v h => recipSync_read (by simp) h) (fun s' => ?_) (fun s' => ?_)
  · unfold Rel
    cases h : s' (.recip .m) with
    | none =>
      rw [run_bind, run_readK_none h]; rfl
    | some v =>
      rw [run_bind, run_readK h]
      dsimp only
      rw [run_bind, run_put]
      dsimp only
      rw [run_bind, run_readK (v := v) (by rw [Function.update_of_ne (by simp)]; exact h)]
      rfl
  · refine rel_ite (fun s1 => rel_bind fun v s2 => rel_bind fun w s3 => rfl) fun s1 => ?_
    exact rel_ite (fun s1 => rel_map) fun s1 => rfl

theorem vassignR_oneOf (m : VMask c.n) (d : Vec c.n α) : oneOf c (vassignR m d) = vassignR m (oneOf c d) := by
  funext i
  unfold oneOf vassignR vapply
  cases h : m i <;> simp [h]

theorem vassignR_minusDrop (m : VMask c.n) (x y : Vec c.n Nat) :
    minusDrop c (vassignR m x) (vassignR m y) = vassignR m (minusDrop c x y) := by
  unfold minusDrop
  rw [vassignR_vadd]
  funext i
  unfold vassignR
  split <;> rfl

theorem mask_recipM (m : VMask c.n) (s : Store ι c.n α) :
    Rel (vassignR m) (getRecipM c (some m)) (getRecipM c none) s := by
  unfold getRecipM
  refine rel_bind fun o s0 => rel_bind fun o' s0' => ?_
  dsimp only
  refine rel_pair (k := .recip .m) (fun s v h => recipSync_read (by simp) h) (fun s' => ?_) (fun s' => ?_)
  · have := rel_copy (c := c) (k := .recip .m) (k' := .recip .p) (w := fun x => x) (f := vassignR m) (s := s')
    simp only [bind_pure] at this
    exact this
  · refine rel_ite (fun s1 => rel_bind fun v s2 => rel_bind fun w s3 => ?_) fun s1 => ?_
    · refine congrArg Except.ok ?_
      funext i
      unfold vassignR minusDrop
      split <;> rfl
    refine rel_bind fun b s2 => ?_
    cases b
    · exact mask_recipP m s2
    refine rel_ite (fun s3 => rel_bind fun v s4 => rfl) fun s3 => ?_
    refine rel_ite (fun s4 => rel_bind fun v s5 => rel_bind fun w s6 => ?_) fun s4 => ?_
    · exact congrArg Except.ok (vassignR_vadd m _ _ _)
    · have := mask_diag m s4
      unfold Rel at this ⊢
      rw [run_bind, run_bind]
      rcases e : (getDiag c none).run s4 with ⟨⟨e⟩ | ⟨v⟩, s5⟩ <;>
        rcases e' : (getDiag c (some m)).run s4 with ⟨⟨e2⟩ | ⟨v2⟩, s6⟩ <;> rw [e, e'] at this
      · cases this; rfl
      · cases this
      · cases this
      · cases this
        refine congrArg Except.ok ?_
        rw [vassignR_oneOf, vassignR_minusDrop]

/-! ## total degrees: two lookups in a row -/

/-- code that neither reads nor writes the keys `X` -/
def Av {a : Type} (X : Key ι → Prop) : M c a → Prop
  | .ret _ | .err _ => True
  | .get k f => ¬ X k ∧ ∀ o, Av X (f o)
  | .put k _ m => ¬ X k ∧ Av X m

/-- two caches with the same entries outside `X` -/
def AgreeOff (X : Key ι → Prop) (s s' : Store ι c.n α) : Prop := ∀ k, ¬ X k → s k = s' k

theorem av_run {a : Type} {X : Key ι → Prop} {m : M c a} (h : Av X m) {s s' : Store ι c.n α}
    (hs : AgreeOff X s s') : (m.run s).1 = (m.run s').1 ∧ AgreeOff X (m.run s).2 (m.run s').2 := by
  induction m generalizing s s' with
  | ret x => exact ⟨rfl, hs⟩
  | err e => exact ⟨rfl, hs⟩
  | get k f ih =>
    show ((f (s k)).run s).1 = ((f (s' k)).run s').1 ∧ AgreeOff X ((f (s k)).run s).2 ((f (s' k)).run s').2
    rw [hs k h.1]
    exact ih _ (h.2 _) hs
  | put k v m ih =>
    refine ih h.2 fun k' hk' => ?_
    by_cases e : k' = k
    · subst e; simp
    · rw [Function.update_of_ne e, Function.update_of_ne e]; exact hs k' hk'

theorem av_bind {a b : Type} {X : Key ι → Prop} {m : M c a} {f : a → M c b} (h : Av X m)
    (hf : ∀ x, Av X (f x)) : Av X (m >>= f) := by
  change Av X (m.bind f)
  induction m with
  | ret x => exact hf x
  | err e => trivial
  | get k g ih => exact ⟨h.1, fun o => ih o (h.2 o)⟩
  | put k v m ih => exact ⟨h.1, ih h.2⟩

theorem av_ite {a : Type} {X : Key ι → Prop} {p : Prop} [Decidable p] {x y : M c a} (hx : Av X x) (hy : Av X y) :
    Av X (if p then x else y) := by split <;> assumption

theorem av_pure {a : Type} {X : Key ι → Prop} (x : a) : Av X (pure x : M c a) := trivial
theorem av_has {X : Key ι → Prop} {k : Key ι} (h : ¬ X k) : Av X (has c k) := ⟨h, fun _ => trivial⟩
theorem av_peek {X : Key ι → Prop} {k : Key ι} (h : ¬ X k) : Av X (peek c k) := ⟨h, fun _ => trivial⟩
theorem av_put {X : Key ι → Prop} {k : Key ι} {v} (h : ¬ X k) : Av X (put c k v) := ⟨h, trivial⟩
theorem av_readK {X : Key ι → Prop} {k : Key ι} (h : ¬ X k) : Av X (readK c k) :=
  ⟨h, fun o => by cases o <;> trivial⟩
theorem av_selfFalse {X : Key ι → Prop} (h : ¬ X .hasSelf) : Av X (selfFalse c) := ⟨h, fun _ => trivial⟩
theorem av_isB {X : Key ι → Prop} {k : Key ι} {hk b} (h : ¬ X k) : Av X (isB c k hk b) :=
  ⟨h, fun _ => trivial⟩

theorem run_mono {a : Type} (m : M c a) (s : Store ι c.n α) {k : Key ι} (h : (s k).isSome) :
    ((m.run s).2 k).isSome := by
  induction m generalizing s with
  | ret x => exact h
  | err e => exact h
  | get k' f ih => exact ih _ s h
  | put k' v m ih =>
    refine ih _ ?_
    by_cases e : k = k'
    · subst e; simp
    · rw [Function.update_of_ne e]; exact h

/-- the row-wise edge counts -/
def RowCount (k : Key ι) : Prop := ∃ s, k = .vec .count s .row

macro "av" : tactic => `(tactic| repeat' (first
  | intro _
  | apply av_bind
  | apply av_ite
  | apply av_pure
  | (apply av_has; simp [RowCount]; done)
  | (apply av_peek; simp [RowCount]; done)
  | (apply av_put; simp [RowCount]; done)
  | (apply av_readK; simp [RowCount]; done)
  | (apply av_selfFalse; simp [RowCount]; done)
  | (apply av_isB; simp [RowCount]; done)))

theorem av_getDiag : Av (c := c) RowCount (getDiag c none) := by
  unfold getDiag fill
  dsimp only
  av

theorem av_getSelf : Av (c := c) RowCount (getSelf c) := by
  unfold getSelf
  apply av_ite
  · unfold selfDir ifMissing Model.Cache.andM
    av
    all_goals exact av_getDiag
  · unfold selfUndir ifMissing
    av
    all_goals exact av_getDiag

theorem av_getOffdiag : Av (c := c) RowCount (getOffdiag c) := by
  unfold getOffdiag fill whenM
  av

theorem av_vecP_col : Av (c := c) RowCount (getVecP c .count .col none) := by
  unfold getVecP vecSync fill sync Model.Cache.andM Model.Cache.notM
  dsimp only
  av

theorem av_vecM_col : Av (c := c) RowCount (getVecM c false .count .col none) := by
  unfold getVecM vecSync fill sync Model.Cache.andM Model.Cache.notM
  dsimp only
  av
  all_goals first | exact av_getSelf | exact av_getOffdiag | exact av_vecP_col

/-- while `has_self_edges` is unknown, the two row-wise edge counts that are cached have equally many entries -/
def CountsAgree (s : Store ι c.n α) : Prop :=
  s .hasSelf = none → ∀ v w, s (.vec .count .m .row) = some v → s (.vec .count .p .row) = some w →
    nvals v = nvals w

theorem sync_run {differ : M c Bool} {copy : M c Unit} {s : Store ι c.n α} {b : Bool}
    (hd : differ.run s = (.ok b, s)) :
    (sync c differ copy).run s = if s .hasSelf = none ∧ b = true then
        (.ok (), Function.update s .hasSelf (some true))
      else if s .hasSelf = some false then copy.run s else (.ok (), s) := by
  unfold sync
  have e : (Model.Cache.andM c (Model.Cache.notM c (has c .hasSelf)) differ).run s =
      (.ok (!(s .hasSelf).isSome && b), s) := by
    rw [run_andM (s' := s) (b := !(s .hasSelf).isSome) _ _ rfl, hd]
    cases (s Key.hasSelf).isSome <;> rfl
  rw [run_ite_bind e]
  cases h : s .hasSelf with
  | none =>
    cases b
    · simp only [Option.isSome]
      rw [if_neg (by simp), if_neg (by simp), run_ite_bind (run_selfFalse _), h]; rfl
    · simp only [Option.isSome]
      rw [if_pos (by simp), if_pos (by simp)]; rfl
  | some x =>
    simp only [Option.isSome]
    rw [if_neg (by simp), if_neg (by simp), run_ite_bind (run_selfFalse _), h]
    cases x <;> rfl

theorem readK_store (k : Key ι) (s : Store ι c.n α) : ((readK c k).run s).2 = s := by
  cases h : s k with
  | none => rw [run_readK_none h]
  | some v => rw [run_readK h]

/-- what the closing lines of a count do to the cache -/
theorem vecSync_store {σ τ : Sign} {ax : Axis} {s : Store ι c.n α}
    {v : Vec c.n Nat} (h : s (.vec .count σ ax) = some v) :
    ((vecSync c .count ax σ τ).run s).2 =
      if s .hasSelf = none ∧ ((s (.vec .count τ ax)).any fun w => decide (nvals v ≠ nvals w)) = true then
        Function.update s .hasSelf (some true)
      else if s .hasSelf = some false then Function.update s (.vec .count τ ax) (some v)
      else s := by
  have hd : (Model.Cache.andM c (has c (.vec .count τ ax)) (do
      return decide (nvals (← readK c (.vec .count σ ax)) ≠ nvals (← readK c (.vec .count τ ax))))).run s =
      (.ok ((s (.vec .count τ ax)).any fun w => decide (nvals v ≠ nvals w)), s) := by
    cases ht : s (.vec .count τ ax) with
    | none => rw [run_andM (b := false) (s' := s) _ _ (by rw [run_has, ht]; rfl)]; rfl
    | some w =>
      rw [run_andM (b := true) (s' := s) _ _ (by rw [run_has, ht]; rfl), if_pos rfl, run_bind, run_readK h]
      dsimp only
      rw [run_bind, run_readK ht]
      rfl
  unfold vecSync
  rw [run_bind, sync_run hd]
  by_cases h1 : s .hasSelf = none ∧ ((s (.vec .count τ ax)).any fun w => decide (nvals v ≠ nvals w)) = true
  · rw [if_pos h1, if_pos h1]; exact readK_store _ _
  · rw [if_neg h1, if_neg h1]
    by_cases h2 : s .hasSelf = some false
    · rw [if_pos h2, if_pos h2, run_bind, run_readK h]; exact readK_store _ _
    · rw [if_neg h2, if_neg h2]; exact readK_store _ _

theorem agree_update {s : Store ι c.n α} {σ : Sign} {v} :
    AgreeOff RowCount (Function.update s (.vec .count σ .row) v) s := by
  intro k hk
  rw [Function.update_of_ne]
  rintro rfl
  exact hk ⟨σ, rfl⟩

theorem AgreeOff.trans {X : Key ι → Prop} {s s' s'' : Store ι c.n α} (h : AgreeOff X s s') (h' : AgreeOff X s' s'') :
    AgreeOff X s s'' := fun k hk => (h k hk).trans (h' k hk)
theorem AgreeOff.symm {X : Key ι → Prop} {s s' : Store ι c.n α} (h : AgreeOff X s s') : AgreeOff X s' s :=
  fun k hk => (h k hk).symm
theorem AgreeOff.refl {X : Key ι → Prop} (s : Store ι c.n α) : AgreeOff X s s := fun _ _ => rfl

/-- once `has_self_edges` is known, a row-wise count touches only row-wise counts -/
theorem vecSync_agree {σ τ : Sign} {s : Store ι c.n α} {v : Vec c.n Nat} (h : s (.vec .count σ .row) = some v)
    (hk : (s .hasSelf).isSome) : AgreeOff RowCount ((vecSync c .count .row σ τ).run s).2 s := by
  rw [vecSync_store h, if_neg (by rintro ⟨h, -⟩; rw [h] at hk; cases hk)]
  split
  · exact agree_update
  · exact .refl s

/-- the closing lines after the entry has been filled in -/
theorem fill_store {k : Key ι} {g y : M c (Val c.n α k)} {s : Store ι c.n α} {Q : Store ι c.n α → Prop}
    (h1 : ∀ v, s k = some v → Q (y.run s).2)
    (h2 : s k = none → ∀ v s', g.run s = (.ok v, s') → Q (y.run (Function.update s' k (some v))).2)
    (h3 : s k = none → ∀ e s', g.run s = (.error e, s') → Q s') :
    Q ((do fill c k g; y).run s).2 := by
  rw [run_bind]
  cases h : s k with
  | some v => rw [fill_some h]; exact h1 v h
  | none =>
    rw [fill_none h]
    rcases hg : g.run s with ⟨⟨e⟩ | ⟨v⟩, s'⟩
    · exact h3 h e s' hg
    · exact h2 h v s' hg

/-- `reduce` from `AT` or `A`, as the `+` counts do when nothing is cached -/
abbrev freshVec (c : Ctx ι α) (r : VOp ι) (ax : Axis) : M c (Vec c.n (r.Ty α)) := do
  if ← Model.Cache.andM c (pure (meth c ax == .col)) (has c .AT) then
    return redRow c.f r (← readK c .AT)
  else pure (red c.f r (meth c ax) c.A)

theorem freshVec_run (r : VOp ι) (ax : Axis) (s : Store ι c.n α) :
    (freshVec c r ax).run s = (.ok (if meth c ax = .col then
      (s .AT).elim (red c.f r (meth c ax) c.A) (redRow c.f r) else red c.f r (meth c ax) c.A), s) := by
  unfold freshVec
  have e : (Model.Cache.andM c (pure (meth c ax == .col)) (has c .AT)).run s =
      (.ok (meth c ax == .col && (s .AT).isSome), s) := by
    rw [run_andM (s' := s) (b := meth c ax == .col) _ _ rfl, run_has]
    cases meth c ax <;> rfl
  rw [run_ite_bind e]
  cases meth c ax with
  | row => rfl
  | col =>
    cases h : s .AT with
    | none => rfl
    | some B =>
      rw [if_pos (by rfl), run_bind, run_readK h]; rfl

theorem cond_run {k : Key ι} (s : Store ι c.n α) :
    (Model.Cache.andM c (selfFalse c) (has c k)).run s =
      (.ok (decide (s .hasSelf = some false) && (s k).isSome), s) := by
  rw [run_andM (s' := s) (b := decide (s .hasSelf = some false)) _ _ ?_, run_has]
  · by_cases h : s .hasSelf = some false <;> simp [h]
  · rw [run_selfFalse]
    rcases s .hasSelf with _ | _ | _ <;> rfl

/-- the value of an unmasked `+` count, in terms of the cache -/
theorem vecP_val (ax : Axis) (s : Store ι c.n α) :
    ((getVecP c .count ax none).run s).1 = match s (.vec .count .p ax) with
      | some v => .ok v
      | none => match (if s .hasSelf = some false then s (.vec .count .m ax) else none) with
        | some w => .ok w
        | none => .ok (if meth c ax = .col then
            (s .AT).elim (red c.f .count (meth c ax) c.A) (redRow c.f .count) else red c.f .count (meth c ax) c.A) := by
  unfold getVecP
  dsimp only
  rw [fill_then (y := vecSync c .count ax .p .m) fun s v h => vecSync_read (by simp) h]
  cases h : s (.vec .count .p ax) with
  | some v => rfl
  | none =>
    dsimp only
    rw [run_ite_bind (cond_run s)]
    by_cases hs : s .hasSelf = some false
    · rw [if_pos hs]
      cases hm : s (.vec .count .m ax) with
      | some w => simp only [hs, decide_true, Option.isSome, Bool.and_self, if_true]; rw [run_readK hm]
      | none => simp only [hs, decide_true, Option.isSome, Bool.and_false]; exact congrArg Prod.fst (freshVec_run _ _ _)
    · rw [if_neg hs]
      simp only [hs, decide_false, Bool.false_and]; exact congrArg Prod.fst (freshVec_run _ _ _)

/-- the same value from caches that differ in row-wise counts, and in `has_self_edges` between unknown and true -/
theorem vecP_col_congr {s s' : Store ι c.n α}
    (h : AgreeOff (fun k => RowCount k ∨ k = .hasSelf) s s')
    (hf : s .hasSelf = some false ↔ s' .hasSelf = some false) :
    ((getVecP c .count .col none).run s).1 = ((getVecP c .count .col none).run s').1 := by
  rw [vecP_val, vecP_val, h (.vec .count .p .col) (by simp [RowCount]), h (.vec .count .m .col) (by simp [RowCount]),
    h .AT (by simp [RowCount])]
  simp only [hf]

/-- the cache after an unmasked row-wise `+` count -/
theorem vecP_row_store (s : Store ι c.n α) :
    AgreeOff RowCount ((getVecP c .count .row none).run s).2 s ∨
      (s .hasSelf = none ∧ AgreeOff RowCount ((getVecP c .count .row none).run s).2
        (Function.update s .hasSelf (some true))) := by
  have key : ∀ s' v, s' (.vec .count .p .row) = some v → AgreeOff RowCount s' s →
      AgreeOff RowCount ((vecSync c .count .row .p .m).run s').2 s ∨
      (s .hasSelf = none ∧ AgreeOff RowCount ((vecSync c .count .row .p .m).run s').2
        (Function.update s .hasSelf (some true))) := by
    intro s' v hv ha
    have hh : s' .hasSelf = s .hasSelf := ha _ (by simp [RowCount])
    rw [vecSync_store hv]
    split_ifs with h1 h2
    · refine .inr ⟨hh ▸ h1.1, fun k hk => ?_⟩
      by_cases e : k = .hasSelf
      · subst e; simp
      · rw [Function.update_of_ne e, Function.update_of_ne e]; exact ha k hk
    · exact .inl (agree_update.trans ha)
    · exact .inl ha
  unfold getVecP
  dsimp only
  refine fill_store (k := .vec .count .p .row) (Q := fun s2 => AgreeOff RowCount s2 s ∨
      (s .hasSelf = none ∧ AgreeOff RowCount s2 (Function.update s .hasSelf (some true))))
    (fun v hv => key s v hv (.refl s)) (fun hn v s' hg => ?_) (fun hn e s' hg => ?_)
  · rw [run_ite_bind (cond_run s)] at hg
    have : s' = s := by
      by_cases h : (decide (s .hasSelf = some false) && (s (.vec .count .m .row)).isSome) = true
      · rw [if_pos h] at hg
        have := readK_store (c := c) (.vec .count .m .row) s
        rw [hg] at this; exact this
      · rw [if_neg h] at hg
        exact ((congrArg Prod.snd (freshVec_run (c := c) .count .row s)).symm.trans (congrArg Prod.snd hg)).symm
    subst this
    exact key _ v (by simp) agree_update
  · rw [run_ite_bind (cond_run s)] at hg
    by_cases h : (decide (s .hasSelf = some false) && (s (.vec .count .m .row)).isSome) = true
    · rw [if_pos h] at hg
      have := readK_store (c := c) (.vec .count .m .row) s
      rw [hg] at this
      exact .inl (this ▸ .refl _)
    · rw [if_neg h] at hg
      have := congrArg Prod.snd (freshVec_run (c := c) .count .row s)
      have e : s = s' := this.symm.trans (congrArg Prod.snd hg)
      exact .inl (e ▸ .refl _)

/-- the cache after a masked row-wise `+` count -/
theorem vecP_row_store_mask (m : VMask c.n) (s : Store ι c.n α) :
    AgreeOff RowCount ((getVecP c .count .row (some m)).run s).2 s := by
  unfold getVecP
  dsimp only
  cases h : s (.vec .count .p .row) with
  | some v =>
    rw [run_ite_bind (run_has _ _), h]
    dsimp only [Option.isSome]
    rw [if_pos rfl, run_bind, run_readK h]; exact .refl s
  | none =>
    rw [run_ite_bind (run_has _ _), h]
    dsimp only [Option.isSome]
    rw [if_neg (by simp), run_ite_bind (cond_run s)]
    split
    · next h' =>
      simp only [Bool.and_eq_true, Option.isSome_iff_exists] at h'
      obtain ⟨-, w, hw⟩ := h'
      rw [run_bind, run_readK hw]
      dsimp only
      rw [run_bind, run_put]
      dsimp only
      rw [run_bind, run_readK (k := .vec .count .p .row) (v := w) (by simp)]
      exact agree_update
    · have := freshVec_run (c := c) .count .row s
      rw [run_bind, this]
      exact .refl s

/-! the `-` counts -/

/-- what the `-` counts do when no cached vector or off-diagonal matrix helps -/
abbrev slowVecM (c : Ctx ι α) (ax : Axis) : M c (Vec c.n Nat) := do
  if !(← getSelf c) then getVecP c .count ax none
  else return red c.f .count (meth c ax) (← getOffdiag c)

theorem noLu_run (s : Store ι c.n α) :
    (Model.Cache.andM c (has c (.L .m)) (Model.Cache.andM c (has c (.U .m))
      (Model.Cache.andM c (pure (luOp c (.count : VOp ι)).isSome) (getSelf c)))).run s = (.ok false, s) := by
  rw [run_andM (s' := s) (b := (s (.L .m)).isSome) _ _ rfl]
  split
  · rw [run_andM (s' := s) (b := (s (.U .m)).isSome) _ _ rfl]
    split
    · rw [run_andM (s' := s) (b := false) _ _ rfl]; rfl
    · rfl
  · rfl

/-- the value of an unmasked `-` count, in terms of the cache -/
theorem vecM_val (ax : Axis) (s : Store ι c.n α) :
    ((getVecM c false .count ax none).run s).1 = match s (.vec .count .m ax) with
      | some v => .ok v
      | none => match (if s .hasSelf = some false then s (.vec .count .p ax) else none) with
        | some w => .ok w
        | none => match s .offdiag with
          | some O => .ok (red c.f .count (meth c ax) O)
          | none => ((slowVecM c ax).run s).1 := by
  unfold getVecM
  dsimp only
  rw [fill_then (y := vecSync c .count ax .m .p) fun s v h => vecSync_read (by simp) h]
  cases h : s (.vec .count .m ax) with
  | some v => rfl
  | none =>
    dsimp only
    rw [run_ite_bind (cond_run s)]
    have rest : ∀ b : Bool, b = false → ((if b = true then (readK c (.vec .count .p ax)).run s else
        (do
          if ← has c .offdiag then
            return red c.f .count (meth c ax) (← readK c .offdiag)
          else if ← Model.Cache.andM c (has c (.L .m)) (Model.Cache.andM c (has c (.U .m))
              (Model.Cache.andM c (pure (luOp c (.count : VOp ι)).isSome) (getSelf c))) then
            let l ← readK c (.L .m)
            let u ← readK c (.U .m)
            return ((luOp c .count).getD fun _ y => y)
              (red c.f .count (meth c ax) l) (red c.f .count (meth c ax) u)
          else if !(← getSelf c) then getVecP c .count ax none
          else return red c.f .count (meth c ax) (← getOffdiag c) : M c (Vec c.n Nat)).run s)).1 =
        match s .offdiag with
          | some O => .ok (red c.f .count (meth c ax) O)
          | none => ((slowVecM c ax).run s).1 := by
      rintro b rfl
      rw [if_neg (by simp), run_ite_bind (run_has _ _)]
      cases ho : s .offdiag with
      | some O => rw [if_pos (by rfl), run_bind, run_readK ho]; rfl
      | none =>
        rw [if_neg (by simp), run_ite_bind (noLu_run s), if_neg (by simp)]
    by_cases hs : s .hasSelf = some false
    · rw [if_pos hs]
      cases hm : s (.vec .count .p ax) with
      | some w => simp only [hs, decide_true, Option.isSome, Bool.and_self, if_true]; rw [run_readK hm]
      | none => exact rest _ (by simp)
    · rw [if_neg hs]
      exact rest _ (by simp [hs])

theorem getSelf_known {s s' : Store ι c.n α} {b : Bool} (h : (getSelf c).run s = (.ok b, s')) :
    s' .hasSelf = some b := by
  have key : ∀ x : M c Unit, (x >>= fun _ => readK c .hasSelf).run s = (.ok b, s') → s' .hasSelf = some b := by
    intro x hx
    rw [run_bind] at hx
    rcases hr : x.run s with ⟨⟨e⟩ | ⟨v⟩, s2⟩ <;> rw [hr] at hx
    · cases hx
    · dsimp only at hx
      cases hh : s2 .hasSelf with
      | none => rw [run_readK_none hh] at hx; cases hx
      | some b' =>
        rw [run_readK hh] at hx
        cases hx
        exact hh
  unfold getSelf at h
  split at h
  · exact key _ h
  · exact key _ h

/-- the caches after a masked and an unmasked row-wise `-` count -/
theorem vecM_row_stores (m : VMask c.n) {s : Store ι c.n α} (hj : CountsAgree s) :
    AgreeOff RowCount ((getVecM c false .count .row (some m)).run s).2 ((getVecM c false .count .row none).run s).2 ∨
    (s .hasSelf = none ∧ (s .offdiag).isSome ∧ 
      AgreeOff RowCount ((getVecM c false .count .row (some m)).run s).2 s ∧
      AgreeOff RowCount ((getVecM c false .count .row none).run s).2 (Function.update s .hasSelf (some true))) := by
  unfold getVecM
  dsimp only
  cases h : s (.vec .count .m .row) with
  | some v =>
    left
    rw [run_ite_bind (run_has _ _), h, if_pos (by rfl), run_bind, run_readK h, run_bind, fill_some h]
    dsimp only
    rw [vecSync_store h, if_neg]
    · split
      · exact agree_update.symm
      · exact .refl s
    · rintro ⟨h1, h2⟩
      rw [Option.any_eq_true] at h2
      obtain ⟨w, hw, hne⟩ := h2
      exact (of_decide_eq_true hne) (hj h1 v w h hw)
  | none =>
    rw [run_ite_bind (run_has _ _), h, if_neg (by simp), run_ite_bind (cond_run s), fill_none_then h,
      run_ite_bind (cond_run s)]
    by_cases hc : (decide (s .hasSelf = some false) && (s (.vec .count .p .row)).isSome) = true
    · left
      rw [if_pos hc, if_pos hc]
      simp only [Bool.and_eq_true, Option.isSome_iff_exists, decide_eq_true_eq] at hc
      obtain ⟨hf, w, hw⟩ := hc
      rw [run_bind, run_readK hw]
      dsimp only
      rw [run_bind, run_put]
      dsimp only
      rw [run_bind, run_readK (k := .vec .count .m .row) (v := w) (by simp)]
      refine AgreeOff.trans agree_update (AgreeOff.symm ?_)
      refine (vecSync_agree (v := w) (by simp) ?_).trans agree_update
      rw [Function.update_of_ne (by simp), hf]; rfl
    · rw [if_neg hc, if_neg hc, run_ite_bind (run_has _ _), run_ite_bind (run_has _ _)]
      cases ho : s .offdiag with
      | some O =>
        rw [if_pos (by rfl), if_pos (by rfl), run_bind, run_readK ho, run_bind, run_readK ho]
        dsimp only [run_pure]
        rw [vecSync_store (v := red c.f .count (meth c .row) O) (by simp)]
        have hs : ∀ x, Function.update s (.vec .count .m .row) (some x) .hasSelf = s .hasSelf :=
          fun x => by rw [Function.update_of_ne (by simp)]
        split_ifs with h1 h2
        · refine .inr ⟨(hs _).symm.trans h1.1, rfl, .refl s, fun k hk => ?_⟩
          by_cases e : k = .hasSelf
          · subst e; simp
          · rw [Function.update_of_ne e, Function.update_of_ne e]; exact agree_update k hk
        · exact .inl (agree_update.trans agree_update).symm
        · exact .inl agree_update.symm
      | none =>
        left
        simp only [Option.isSome_none, Bool.false_eq_true, if_false]
        rw [run_ite_bind (noLu_run s), run_ite_bind (noLu_run s)]
        simp only [Bool.false_eq_true, if_false]
        rw [run_bind, run_bind]
        rcases hg : (getSelf c).run s with ⟨⟨e⟩ | ⟨b⟩, s'⟩
        · exact .refl s'
        · have hk := getSelf_known hg
          cases b
          · simp only [Bool.not_false, Bool.false_and, ite_self, if_true]
            refine (vecP_row_store_mask m s').trans (AgreeOff.symm ?_)
            have hp := (vecP_row_store (c := c) s').resolve_right (by rw [hk]; simp)
            rcases hv : (getVecP c .count .row none).run s' with ⟨⟨e⟩ | ⟨v⟩, s2⟩ <;> rw [hv] at hp
            · exact hp
            · replace hp : AgreeOff RowCount s2 s' := hp
              refine AgreeOff.trans (vecSync_agree (v := v) (by simp) ?_) (agree_update.trans hp)
              rw [Function.update_of_ne (by simp), hp .hasSelf (by simp [RowCount]), hk]; rfl
          · simp only [Bool.not_true, Bool.false_eq_true, if_false]
            rw [run_bind, run_bind]
            have hm := run_mono (getOffdiag c) s' (k := .hasSelf) (by rw [hk]; rfl)
            rcases hv : (getOffdiag c).run s' with ⟨⟨e⟩ | ⟨v⟩, s2⟩ <;> rw [hv] at hm
            · exact .refl s2
            · refine AgreeOff.symm (AgreeOff.trans (vecSync_agree (v := red c.f .count (meth c .row) v) ?_ ?_)
                agree_update)
              · simp
              · rw [Function.update_of_ne (by simp)]; exact hm

/-- the column counts are the same after a masked and an unmasked row count -/
theorem vecM_col_congr (m : VMask c.n) {s : Store ι c.n α} (hj : CountsAgree s) :
    ((getVecM c false .count .col none).run ((getVecM c false .count .row (some m)).run s).2).1 =
      ((getVecM c false .count .col none).run ((getVecM c false .count .row none).run s).2).1 := by
  rcases vecM_row_stores m hj with h | ⟨h1, h2, h3, h4⟩
  · exact (av_run av_vecM_col h).1
  · obtain ⟨O, hO⟩ := Option.isSome_iff_exists.1 h2
    rw [vecM_val, vecM_val]
    have e : ∀ k, ¬ RowCount k → k ≠ .hasSelf → ((getVecM c false .count .row (some m)).run s).2 k =
        ((getVecM c false .count .row none).run s).2 k := fun k hk hk' => by
      rw [h3 k hk, h4 k hk, Function.update_of_ne hk']
    rw [e (.vec .count .m .col) (by simp [RowCount]) (by simp)]
    rw [if_neg (by rw [h3 .hasSelf (by simp [RowCount]), h1]; simp),
      if_neg (by rw [h4 .hasSelf (by simp [RowCount])]; simp)]
    dsimp only
    rw [h3 .offdiag (by simp [RowCount]), h4 .offdiag (by simp [RowCount]), Function.update_of_ne (by simp), hO]

theorem vecP_col_congr' (m : VMask c.n) (s : Store ι c.n α) :
    ((getVecP c .count .col none).run ((getVecP c .count .row (some m)).run s).2).1 =
      ((getVecP c .count .col none).run ((getVecP c .count .row none).run s).2).1 := by
  have h3 := vecP_row_store_mask m s
  rcases vecP_row_store s with h | ⟨h1, h4⟩
  · exact (av_run av_vecP_col (h3.trans h.symm)).1
  · refine vecP_col_congr (fun k hk => ?_) ?_
    · rw [h3 k (fun h => hk (.inl h)), h4 k (fun h => hk (.inl h)), Function.update_of_ne (fun h => hk (.inr h))]
    · rw [h3 .hasSelf (by simp [RowCount]), h4 .hasSelf (by simp [RowCount]), h1]; simp

theorem totdegSync_read {σ τ : Sign} (hne : σ ≠ τ) {s : Store ι c.n α}
    {v : Vec c.n Nat} (h : s (.totdeg σ) = some v) :
    ((totdegSync c σ τ).run s).1 = .ok v := by
  unfold totdegSync
  refine sync_read (k := .totdeg σ) (k' := .totdeg τ) (w := fun x => x) (by simp) (by simpa using hne) ?_ h
  cases ht : s (.totdeg τ) with
  | none => exact ⟨false, by rw [run_andM (b := false) (s' := s) _ _ (by rw [run_has, ht]; rfl)]; rfl⟩
  | some w =>
    have : ∃ x y, s (.totdeg .m) = some x ∧ s (.totdeg .p) = some y := by
      cases σ <;> cases τ
      · exact absurd rfl hne
      · exact ⟨w, v, ht, h⟩
      · exact ⟨v, w, h, ht⟩
      · exact absurd rfl hne
    obtain ⟨x, y, hx, hy⟩ := this
    refine ⟨decide (nvals x ≠ nvals y), ?_⟩
    rw [run_andM (b := true) (s' := s) _ _ (by rw [run_has, ht]; rfl), if_pos rfl, run_bind, run_readK hx]
    dsimp only
    rw [run_bind, run_readK hy]
    rfl

theorem mask_totdeg {σ τ : Sign} (hne : σ ≠ τ) (m : VMask c.n) {s : Store ι c.n α} (hj : CountsAgree s) :
    Rel (vassignR m) (getTotdeg c σ τ (some m)) (getTotdeg c σ τ none) s := by
  have two : Rel (vassignR m) (do return vadd (· + ·) (← degOf c σ .row (some m)) (← degOf c σ .col (some m)))
      (do return vadd (· + ·) (← degOf c σ .row none) (← degOf c σ .col none)) s := by
    have row : Rel (vassignR m) (degOf c σ .row (some m)) (degOf c σ .row none) s := by
      cases σ
      · exact mask_vecP _ _ _ _
      · exact mask_vecM _ _ _ _ _
    have col : ∀ s', Rel (vassignR m) (degOf c σ .col (some m)) (degOf c σ .col none) s' := by
      cases σ
      · exact mask_vecP _ _ _
      · exact mask_vecM _ _ _ _
    have congr : ((degOf c σ .col none).run ((degOf c σ .row (some m)).run s).2).1 =
        ((degOf c σ .col none).run ((degOf c σ .row none).run s).2).1 := by
      cases σ
      · exact vecP_col_congr' m s
      · exact vecM_col_congr m hj
    unfold Rel at *
    rw [run_bind, run_bind]
    rcases e1 : (degOf c σ .row none).run s with ⟨⟨e⟩ | ⟨v⟩, s1⟩ <;>
      rcases e2 : (degOf c σ .row (some m)).run s with ⟨⟨e'⟩ | ⟨v'⟩, s2⟩ <;> rw [e1, e2] at row congr
    · cases row; rfl
    · cases row
    · cases row
    · cases row
      dsimp only at congr ⊢
      rw [run_bind, run_bind]
      have hc := (col s2).trans (congrArg (Except.map (vassignR m)) congr)
      rcases e3 : (degOf c σ .col none).run s1 with ⟨⟨e⟩ | ⟨w⟩, s3⟩ <;>
        rcases e4 : (degOf c σ .col (some m)).run s2 with ⟨⟨e'⟩ | ⟨w'⟩, s4⟩ <;> rw [e3, e4] at hc
      · cases hc; rfl
      · cases hc
      · cases hc
      · cases hc
        exact congrArg Except.ok (vassignR_vadd m _ _ _)
  unfold getTotdeg
  dsimp only
  unfold Rel at two ⊢
  rw [fill_then (k := .totdeg σ) (y := totdegSync c σ τ) fun s v h => totdegSync_read hne h]
  cases h : s (.totdeg σ) with
  | some v =>
    rw [run_ite_bind (run_has _ _), h, if_pos (by rfl), run_bind, run_readK h]; rfl
  | none =>
    rw [run_ite_bind (run_has _ _), h, if_neg (by simp)]
    dsimp only
    rw [run_ite_bind (cond_run s), run_ite_bind (cond_run s)]
    by_cases hc : (decide (s .hasSelf = some false) && (s (.totdeg τ)).isSome) = true
    · rw [if_pos hc, if_pos hc]
      have := rel_copy (c := c) (k := .totdeg σ) (k' := .totdeg τ) (w := fun x => x) (f := vassignR m) (s := s)
      simp only [bind_pure] at this
      exact this
    · rw [if_neg hc, if_neg hc]; exact two

/-! ## every reachable cache meets `CountsAgree` -/

theorem av_frame {a : Type} {X : Key ι → Prop} {m : M c a} (h : Av X m) (s : Store ι c.n α) {k : Key ι} (hk : X k) :
    (m.run s).2 k = s k := by
  induction m generalizing s with
  | ret x => rfl
  | err e => rfl
  | get k' f ih => exact ih _ (h.2 _) s
  | put k' v m ih =>
    refine (ih h.2 _).trans ?_
    rw [Function.update_of_ne]
    rintro rfl
    exact h.1 hk

/-- code that keeps `CountsAgree` -/
def Pres {a : Type} (m : M c a) : Prop := ∀ s, CountsAgree s → CountsAgree (m.run s).2

theorem pres_of_av {a : Type} {m : M c a} (h : Av RowCount m) : Pres m := by
  intro s hj hn v w hv hw
  rw [av_frame h s ⟨_, rfl⟩] at hv hw
  refine hj ?_ v w hv hw
  by_contra hne
  have := run_mono m s (k := .hasSelf) (Option.ne_none_iff_isSome.1 hne)
  rw [hn] at this
  cases this

theorem pres_bind {a b : Type} {m : M c a} {f : a → M c b} (h : Pres m) (hf : ∀ x, Pres (f x)) : Pres (m >>= f) := by
  intro s hj
  rw [run_bind]
  have := h s hj
  rcases hr : m.run s with ⟨⟨e⟩ | ⟨v⟩, s'⟩ <;> rw [hr] at this
  · exact this
  · exact hf v s' this

theorem pres_ite {a : Type} {p : Prop} [Decidable p] {x y : M c a} (hx : Pres x) (hy : Pres y) :
    Pres (if p then x else y) := by split <;> assumption

theorem vecSync_counts {σ τ : Sign} (hne : σ ≠ τ) {s : Store ι c.n α} {v : Vec c.n Nat}
    (h : s (.vec .count σ .row) = some v) : CountsAgree ((vecSync c .count .row σ τ).run s).2 := by
  rw [vecSync_store h]
  split_ifs with h1 h2
  · intro hn; simp at hn
  · intro hn; rw [Function.update_of_ne (by simp), h2] at hn; cases hn
  · intro hn x y hx hy
    have : ∀ w, s (.vec .count τ .row) = some w → nvals v = nvals w := by
      intro w hw
      by_contra hc
      exact h1 ⟨hn, by rw [hw]; simpa using hc⟩
    cases σ <;> cases τ
    · exact absurd rfl hne
    · rw [h] at hy; cases hy; exact (this x hx).symm
    · rw [h] at hx; cases hx; exact this y hy
    · exact absurd rfl hne

theorem vecP_row_ok (s : Store ι c.n α) : ∃ v, ((getVecP c .count .row none).run s).1 = .ok v := by
  rw [vecP_val]
  split
  · exact ⟨_, rfl⟩
  · split <;> exact ⟨_, rfl⟩

theorem pres_vecP_row : Pres (getVecP c .count .row none) := by
  intro s hj
  obtain ⟨v, hv⟩ := vecP_row_ok s
  unfold getVecP at hv ⊢
  dsimp only at hv ⊢
  refine fill_store (k := .vec .count .p .row) (Q := CountsAgree) (fun v hv => vecSync_counts (by simp) hv)
    (fun _ v s' _ => vecSync_counts (v := v) (by simp) (by simp)) (fun hn e s' hg => ?_)
  rw [fill_none_then hn, hg] at hv
  cases hv

theorem pres_vecP_row_mask (m : VMask c.n) : Pres (getVecP c .count .row (some m)) := by
  intro s hj
  unfold getVecP
  dsimp only
  cases h : s (.vec .count .p .row) with
  | some v =>
    rw [run_ite_bind (run_has _ _), h, if_pos (by rfl), run_bind, run_readK h]; exact hj
  | none =>
    rw [run_ite_bind (run_has _ _), h, if_neg (by simp), run_ite_bind (cond_run s)]
    split
    · next h' =>
      simp only [Bool.and_eq_true, Option.isSome_iff_exists, decide_eq_true_eq] at h'
      obtain ⟨hf, w, hw⟩ := h'
      rw [run_bind, run_readK hw]
      dsimp only
      rw [run_bind, run_put]
      dsimp only
      rw [run_bind, run_readK (k := .vec .count .p .row) (v := w) (by simp)]
      intro hn
      simp only [run_pure] at hn
      rw [Function.update_of_ne (by simp), hf] at hn
      cases hn
    · have := freshVec_run (c := c) .count .row s
      rw [run_bind, this]
      exact hj

theorem pres_slow {a : Type} {f : Mat c.n c.n α → M c a} {x : M c a} (hx : Pres x)
    (hf : ∀ v, Av RowCount (f v)) : Pres (do
      if !(← getSelf c) then x
      else f (← getOffdiag c)) :=
  pres_bind (pres_of_av av_getSelf) fun _ => pres_ite hx
    (pres_of_av (av_bind av_getOffdiag hf))

theorem pres_vecM_row_mask (m : VMask c.n) : Pres (getVecM c false .count .row (some m)) := by
  intro s hj
  unfold getVecM
  dsimp only
  cases h : s (.vec .count .m .row) with
  | some v =>
    rw [run_ite_bind (run_has _ _), h, if_pos (by rfl), run_bind, run_readK h]; exact hj
  | none =>
    rw [run_ite_bind (run_has _ _), h, if_neg (by simp), run_ite_bind (cond_run s)]
    split
    · next h' =>
      simp only [Bool.and_eq_true, Option.isSome_iff_exists, decide_eq_true_eq] at h'
      obtain ⟨hf, w, hw⟩ := h'
      rw [run_bind, run_readK hw]
      dsimp only
      rw [run_bind, run_put]
      dsimp only
      rw [run_bind, run_readK (k := .vec .count .m .row) (v := w) (by simp)]
      intro hn
      simp only [run_pure] at hn
      rw [Function.update_of_ne (by simp), hf] at hn
      cases hn
    · refine pres_bind (pres_of_av (av_has (by simp [RowCount]))) (fun _ => pres_ite ?_ ?_) s hj
      · exact pres_of_av (av_bind (av_readK (by simp [RowCount])) fun _ => av_pure _)
      · intro s hj
        rw [run_ite_bind (noLu_run s)]
        simp only [Bool.false_and, ite_self, Bool.false_eq_true, if_false]
        exact pres_slow (pres_vecP_row_mask m) (fun _ => av_pure _) s hj

theorem pres_vecM_row : Pres (getVecM c false .count .row none) := by
  intro s hj
  unfold getVecM
  dsimp only
  refine fill_store (k := .vec .count .m .row) (Q := CountsAgree) (fun v hv => vecSync_counts (by simp) hv)
    (fun _ v s' _ => vecSync_counts (v := v) (by simp) (by simp)) (fun hn e s' hg => ?_)
  have key : CountsAgree ((.error e, s') : Except Err (Vec c.n Nat) × Store ι c.n α).2 := by
    rw [← hg, run_ite_bind (cond_run s)]
    split
    · rw [readK_store]; exact hj
    · refine pres_bind (pres_of_av (av_has (by simp [RowCount]))) (fun _ => pres_ite ?_ ?_) s hj
      · exact pres_of_av (av_bind (av_readK (by simp [RowCount])) fun _ => av_pure _)
      · intro s hj
        rw [run_ite_bind (noLu_run s)]
        simp only [Bool.false_and, ite_self, Bool.false_eq_true, if_false]
        exact pres_slow pres_vecP_row (fun _ => av_pure _) s hj
  exact key

theorem av_diag (mask : Option (VMask c.n)) : Av (c := c) RowCount (getDiag c mask) := by
  unfold getDiag fill
  cases mask <;> dsimp only <;> av

theorem av_vecP {r : VOp ι} {ax : Axis} (h : ¬ (r = .count ∧ ax = .row)) (mask : Option (VMask c.n)) :
    Av (c := c) RowCount (getVecP c r ax mask) := by
  have hk : ∀ s, ¬ RowCount (.vec r s ax) := by
    rintro s ⟨s', e⟩; cases e; exact h ⟨rfl, rfl⟩
  unfold getVecP vecSync fill sync Model.Cache.andM Model.Cache.notM
  cases mask <;> dsimp only <;> av
  all_goals first
    | exact av_has (hk _) | exact av_readK (hk _) | exact av_put (hk _)

theorem av_vecM (hd : c.dir = true) (al : Bool) {r : VOp ι} {ax : Axis} (h : ¬ (r = .count ∧ ax = .row))
    (mask : Option (VMask c.n)) : Av (c := c) RowCount (getVecM c al r ax mask) := by
  have hk : ∀ s, ¬ RowCount (.vec r s ax) := by
    rintro s ⟨s', e⟩; cases e; exact h ⟨rfl, rfl⟩
  unfold getVecM vecSync fill sync Model.Cache.andM Model.Cache.notM
  simp only [hd, Bool.not_true, Bool.and_false, Bool.false_eq_true, if_false]
  cases mask <;> dsimp only <;> av
  all_goals first
    | exact av_has (hk _) | exact av_readK (hk _) | exact av_put (hk _)
    | exact av_getSelf | exact av_getOffdiag | exact av_vecP h _

theorem pres_degOf (hd : c.dir = true) (σ : Sign) (ax : Axis) (mask : Option (VMask c.n)) :
    Pres (degOf c σ ax mask) := by
  cases σ <;> cases ax <;> cases mask
  · exact pres_vecP_row
  · exact pres_vecP_row_mask _
  · exact pres_of_av (av_vecP (r := .count) (ax := .col) (by simp) none)
  · exact pres_of_av (av_vecP (r := .count) (ax := .col) (by simp) (some _))
  · exact pres_vecM_row
  · exact pres_vecM_row_mask _
  · exact pres_of_av (av_vecM hd false (r := .count) (ax := .col) (by simp) none)
  · exact pres_of_av (av_vecM hd false (r := .count) (ax := .col) (by simp) (some _))

theorem getVecM_al (hd : c.dir = true) (al : Bool) (r : VOp ι) (ax : Axis) (mask : Option (VMask c.n)) :
    getVecM c al r ax mask = getVecM c false r ax mask := by
  unfold getVecM
  simp only [hd, Bool.not_true, Bool.and_false]

theorem pres_totdeg (hd : c.dir = true) (σ τ : Sign) (mask : Option (VMask c.n)) : Pres (getTotdeg c σ τ mask) := by
  have hk : ∀ s : Sign, ¬ RowCount (.totdeg s : Key ι) := by
    rintro s ⟨s', e⟩; cases e
  unfold getTotdeg
  cases mask with
  | some m =>
    dsimp only
    refine pres_bind (pres_of_av (av_has (hk _))) fun _ => pres_ite
      (pres_of_av (av_bind (av_readK (hk _)) fun _ => av_pure _)) ?_
    refine pres_bind (pres_of_av ?_) fun _ => pres_ite (pres_of_av ?_) ?_
    · unfold Model.Cache.andM; av
    · av
    · exact pres_bind (pres_degOf hd _ _ _) fun _ => pres_bind (pres_degOf hd _ _ _) fun _ => pres_of_av (av_pure _)
  | none =>
    dsimp only
    unfold fill
    refine pres_bind (pres_bind (pres_of_av (av_has (hk _))) fun _ => pres_ite (pres_of_av (av_pure _))
      (pres_bind (pres_bind (pres_of_av ?_) fun _ => pres_ite (pres_of_av (av_readK (hk _)))
        (pres_bind (pres_degOf hd _ _ _) fun _ => pres_bind (pres_degOf hd _ _ _) fun _ => pres_of_av (av_pure _)))
        fun _ => pres_of_av (av_put (hk _)))) fun _ => pres_of_av ?_
    · unfold Model.Cache.andM; av
    · unfold totdegSync sync Model.Cache.andM Model.Cache.notM; av

theorem av_recipP (mask : Option (VMask c.n)) : Av (c := c) RowCount (getRecipP c mask) := by
  unfold getRecipP recipSync fill sync Model.Cache.andM Model.Cache.notM
  cases mask <;> dsimp only <;> av
  all_goals exact av_getSelf

theorem av_recipM (mask : Option (VMask c.n)) : Av (c := c) RowCount (getRecipM c mask) := by
  unfold getRecipM recipSync fill sync Model.Cache.andM Model.Cache.notM
  cases mask <;> dsimp only <;> av
  all_goals first | exact av_getSelf | exact av_recipP _ | exact av_diag _

theorem av_elemP (o : ι) : Av (c := c) RowCount (getElemP c o) := by
  unfold getElemP elemSync fill sync Model.Cache.andM Model.Cache.notM
  av

theorem av_elemM (o : ι) : Av (c := c) RowCount (getElemM c o) := by
  unfold getElemM elemSync fill sync Model.Cache.andM Model.Cache.notM
  av
  all_goals first | exact av_getSelf | exact av_elemP _ | exact av_getOffdiag | trivial

theorem av_diagRed (o : ι) : Av (c := c) RowCount (getDiagRed c o) := by
  unfold getDiagRed fill
  av
  all_goals first | exact av_getSelf | exact av_getDiag

theorem av_negDiagTest : Av (c := c) RowCount (negDiagTest c) := by
  unfold negDiagTest
  av

theorem av_negPTest : Av (c := c) RowCount (negPTest c) := by
  unfold negPTest
  av

theorem av_fill {X : Key ι → Prop} {k : Key ι} {g : M c (Val c.n α k)} (hk : ¬ X k) (hg : Av X g) :
    Av X (fill c k g) :=
  av_bind (av_has hk) fun _ => av_ite (av_pure _) (av_bind hg fun _ => av_put hk)

theorem av_negDiag : Av (c := c) RowCount (getNegDiag c) :=
  av_bind (av_fill (by simp [RowCount]) (av_ite (av_pure _) (av_bind (av_selfFalse (by simp [RowCount])) fun _ =>
    av_ite (av_pure _) (av_bind av_negDiagTest fun _ => av_ite (av_pure _) (av_bind (av_diagRed _) fun _ =>
      av_pure _))))) fun _ => av_readK (by simp [RowCount])

theorem av_negP : Av (c := c) RowCount (getNegP c) := by
  refine av_bind (av_fill (by simp [RowCount]) (av_ite (av_pure _) (av_bind av_negPTest fun _ => av_ite (av_pure _)
    (av_bind (av_peek (by simp [RowCount])) fun o => ?_)))) fun _ => av_readK (by simp [RowCount])
  rcases o with _ | _ | x
  · exact av_bind (av_isB (by simp [RowCount])) fun _ => av_ite (av_bind (av_diagRed _) fun _ => av_pure _)
      (av_bind (av_elemP _) fun _ => av_pure _)
  · exact av_bind (av_isB (by simp [RowCount])) fun _ => av_ite (av_bind (av_diagRed _) fun _ => av_pure _)
      (av_bind (av_elemP _) fun _ => av_pure _)
  · exact av_pure _

theorem av_negM : Av (c := c) RowCount (getNegM c) := by
  refine av_bind (av_fill (by simp [RowCount]) (av_ite (av_pure _) (av_bind ?_ fun _ => av_ite (av_pure _)
    (av_bind (av_elemM _) fun _ => av_pure _)))) fun _ => av_readK (by simp [RowCount])
  unfold Model.Cache.andM
  av

theorem av_isIso : Av (c := c) RowCount (getIsIso c) := by
  unfold getIsIso fill
  av

theorem av_isoVal : Av (c := c) RowCount (getIsoVal c) := by
  unfold getIsoVal ifMissing
  av

theorem pres_getProp (hd : c.dir = true) (al : Bool) (mask : Option (VMask c.n)) (k : Key ι) :
    Pres (getProp c al mask k) := by
  cases k with
  | A => exact pres_of_av (av_pure _)
  | AT => exact pres_of_av (by unfold getProp getAT fill; av)
  | offdiag => exact pres_of_av av_getOffdiag
  | U s =>
    cases s
    · exact pres_of_av (by
        unfold getProp upDir upUndir fill ifMissing whenM Model.Cache.andM Model.Cache.notM; av
        all_goals exact av_getSelf)
    · exact pres_of_av (by
        unfold getProp umDir umUndir fill ifMissing whenM; av
        all_goals exact av_getSelf)
  | L s =>
    cases s
    · exact pres_of_av (by
        unfold getProp lpDir lpUndir fill ifMissing whenM Model.Cache.andM Model.Cache.notM; av
        all_goals exact av_getSelf)
    · exact pres_of_av (by
        unfold getProp lmDir lmUndir fill ifMissing whenM; av
        all_goals exact av_getSelf)
  | diag => exact pres_of_av (av_diag _)
  | vec r s ax =>
    by_cases h : r = .count ∧ ax = .row
    · obtain ⟨rfl, rfl⟩ := h
      cases s
      · exact pres_degOf hd .p .row mask
      · show Pres (getVecM c al .count .row mask)
        rw [getVecM_al hd]
        exact pres_degOf hd .m .row mask
    · cases s
      · exact pres_of_av (av_vecP h _)
      · exact pres_of_av (av_vecM hd _ h _)
  | elem o s =>
    cases s
    · exact pres_of_av (av_elemP o)
    · exact pres_of_av (av_elemM o)
  | diagRed o => exact pres_of_av (av_diagRed o)
  | recip s =>
    cases s
    · exact pres_of_av (by unfold getProp; exact av_ite (av_recipP _) trivial)
    · exact pres_of_av (by unfold getProp; exact av_ite (av_recipM _) trivial)
  | totdeg s =>
    cases s
    · exact pres_ite (pres_totdeg hd _ _ _) (pres_of_av trivial)
    · exact pres_ite (pres_totdeg hd _ _ _) (pres_of_av trivial)
  | totrecip s =>
    cases s
    · exact pres_of_av (by
        unfold getProp getTotrecipP totrecipSync fill whenM Model.Cache.andM Model.Cache.notM; av
        all_goals trivial)
    · exact pres_of_av (by
        unfold getProp getTotrecipM totrecipSync fill whenM Model.Cache.andM Model.Cache.notM; av
        all_goals first | exact av_recipM _ | trivial)
  | hasSelf => exact pres_of_av av_getSelf
  | negDiag => exact pres_of_av av_negDiag
  | neg s =>
    cases s
    · exact pres_of_av av_negP
    · exact pres_of_av av_negM
  | isIso => exact pres_of_av av_isIso
  | isoVal => exact pres_of_av av_isoVal

theorem counts_reachable (hd : c.dir = true) (h : List (Req ι c.n)) : CountsAgree (after c h) := by
  have : ∀ (l : List (Req ι c.n)) (s : Store ι c.n α), CountsAgree s →
      CountsAgree (l.foldl (fun s r => exec c r s) s) := by
    intro l
    induction l with
    | nil => exact fun s h => h
    | cons r l ih => exact fun s h => ih _ (pres_getProp hd _ _ _ s h)
  exact this h _ (fun _ v w hv => by cases hv)

theorem rel_if {a b : Type} {f : a → b} {p : Prop} [Decidable p] {x y : M c b} {x' y' : M c a}
    {s : Store ι c.n α} (h : p → Rel f x x' s) (h' : ¬ p → Rel f y y' s) :
    Rel f (if p then x else y) (if p then x' else y') s := by
  split
  · exact h ‹_›
  · exact h' ‹_›

/-- a masked lookup and an unmasked one from the same reachable cache -/
theorem mask_getProp (h : List (Req ι c.n)) (al : Bool) (m : VMask c.n) (k : Key ι) :
    Rel (restrict (some m) k) (getProp c al (some m) k) (getProp c al none k) (after c h) := by
  have same : ∀ {a : Type} (x : M c a) (s : Store ι c.n α), Rel (fun v => v) x x s := by
    intro a x s
    unfold Rel
    rcases x.run s with ⟨⟨e⟩ | ⟨v⟩, s'⟩ <;> rfl
  cases k with
  | diag => exact mask_diag m _
  | vec r s ax =>
    cases s
    · exact mask_vecP r ax m _
    · exact mask_vecM al r ax m _
  | recip s =>
    cases s
    · exact rel_if (fun _ => mask_recipP m _) fun _ => rfl
    · exact rel_if (fun _ => mask_recipM m _) fun _ => rfl
  | totdeg s =>
    cases s
    · exact rel_if (fun hd => mask_totdeg (σ := .p) (τ := .m) (by simp) m (counts_reachable hd h)) fun _ => rfl
    · exact rel_if (fun hd => mask_totdeg (σ := .m) (τ := .p) (by simp) m (counts_reachable hd h)) fun _ => rfl
  | A => exact same _ _
  | AT => exact same _ _
  | offdiag => exact same _ _
  | U s => cases s <;> exact same _ _
  | L s => cases s <;> exact same _ _
  | elem o s => cases s <;> exact same _ _
  | diagRed o => exact same _ _
  | totrecip s => cases s <;> exact same _ _
  | hasSelf => exact same _ _
  | negDiag => exact same _ _
  | neg s => cases s <;> exact same _ _
  | isIso => exact same _ _
  | isoVal => exact same _ _

end Proofs.Cache
