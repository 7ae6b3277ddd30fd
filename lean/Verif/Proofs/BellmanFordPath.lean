import Verif.Proofs.BellmanFord
import Verif.Model.BellmanFordPath
import Verif.Spec.Path
import Verif.Proofs.Except

/-! Lemmas about `bellman_ford_path`. -/

open GB Spec Model Proofs.BF Proofs

namespace Proofs.BFP

section mono
variable {α : Type} {n : Nat} [Zero α] [Add α] [LinearOrder α]

/-! ### chasing parents -/

section
omit [Zero α] [Add α] [LinearOrder α]

/-- the node reached after `k` parent steps -/
def iter (p : Vec n (Fin n)) : Nat → Fin n → Option (Fin n)
  | 0, j => some j
  | k + 1, j => (p j).bind (iter p k)

theorem iter_add (p : Vec n (Fin n)) (a b : Nat) (j : Fin n) :
    iter p (a + b) j = (iter p a j).bind (iter p b) := by
  induction a generalizing j with
  | zero => simp [iter]
  | succ a ih =>
    rw [Nat.succ_add]
    simp only [iter]
    cases p j with
    | none => rfl
    | some q => simpa using ih q

/-- the chase with fuel `f` ends with `diverges` iff `f` steps are possible and `src` is not met -/
theorem chase_diverges_iff (p : Vec n (Fin n)) (src : Fin n) (f : Nat) (j : Fin n) :
    chaseParents p src f j = .error .diverges ↔ ∀ k ≤ f, ∃ x, iter p k j = some x ∧ x ≠ src := by
  induction f generalizing j with
  | zero =>
    unfold chaseParents
    constructor
    · intro h k hk
      obtain rfl : k = 0 := by omega
      refine ⟨j, rfl, ?_⟩
      rintro rfl
      simp at h
    · intro h
      obtain ⟨x, hx, hne⟩ := h 0 le_rfl
      cases hx
      simp [hne]
  | succ f ih =>
    unfold chaseParents
    by_cases hj : j = src
    · rw [if_pos hj]
      simp only [reduceCtorEq, false_iff]
      intro h
      obtain ⟨x, hx, hne⟩ := h 0 (by omega)
      cases hx
      exact hne hj
    · rw [if_neg hj]
      cases hp : p j with
      | none =>
        simp only
        constructor
        · intro h; cases h
        · intro h
          obtain ⟨x, hx, -⟩ := h 1 (by omega)
          simp [iter, hp] at hx
      | some q =>
        simp only
        have : ((do let rest ← chaseParents p src f q; return j :: rest : Except Err _) =
            .error .diverges) ↔ chaseParents p src f q = .error .diverges := by
          cases chaseParents p src f q <;> simp [bind, Except.bind, pure, Except.pure]
        rw [this, ih q]
        constructor
        · intro h k hk
          cases k with
          | zero => exact ⟨j, rfl, hj⟩
          | succ k => simpa [iter, hp] using h k (by omega)
        · intro h k hk
          simpa [iter, hp] using h (k+1) (by omega)

/-- when `n` steps do not meet `src`, no number of steps does: the Python loop never ends -/
theorem chase_diverges {p : Vec n (Fin n)} {src j : Fin n}
    (h : chaseParents p src n j = .error .diverges) (f : Nat) :
    chaseParents p src f j = .error .diverges := by
  rw [chase_diverges_iff] at h ⊢
  choose g hg hne using h
  -- two of the first n+1 nodes coincide
  obtain ⟨a, b, hab, he⟩ : ∃ a b : Fin (n+1), a < b ∧ g a (by omega) = g b (by omega) := by
    have hninj : ¬ Function.Injective (fun a : Fin (n+1) => g a (by omega)) := by
      intro hinj
      have := Fintype.card_le_of_injective _ hinj
      simp at this
    unfold Function.Injective at hninj
    push Not at hninj
    obtain ⟨a, b, he, hab⟩ := hninj
    rcases lt_or_gt_of_ne hab with h | h
    · exact ⟨a, b, h, he⟩
    · exact ⟨b, a, h, he.symm⟩
  have key : ∀ k, ∃ x, iter p k j = some x ∧ x ≠ src := by
    intro k
    induction k using Nat.strong_induction_on with
    | _ k ih =>
      by_cases hk : k ≤ n
      · exact ⟨_, hg k hk, hne k hk⟩
      · have h1 := hg a (by omega)
        have h2 := hg b (by omega)
        obtain ⟨x, hx, hxs⟩ := ih (k - (b.val - a.val)) (by omega)
        refine ⟨x, ?_, hxs⟩
        have e1 : k - (b.val - a.val) = a.val + (k - b.val) := by omega
        rw [e1, iter_add, h1] at hx
        have e2 : k = b.val + (k - b.val) := by omega
        rw [e2, iter_add, h2, ← he]
        exact hx
  exact fun k _ => key k

end

variable {A : Mat n n α} {k : Nat} {cut : Option α} {d prev : Vec n α} {p : Vec n (Fin n)}

theorem bfPathLoop_fst (prune : Option (Fin n)) (m : Nat) (cut : Option α) (d prev : Vec n α)
    (p : Vec n (Fin n)) :
    (bfPathLoop A prune m cut d prev p).1 = bfLoop A prune m cut d prev := by
  induction m generalizing cut d prev p with
  | zero => rfl
  | succ m ih =>
    unfold bfPathLoop bfLoop
    simp only
    split
    · rfl
    · exact ih _ _ _ _

/-- parent invariant with ghost rounds `r` -/
structure PInv (A : Mat n n α) (s : Fin n) (k : Nat) (d prev : Vec n α) (p : Vec n (Fin n))
    (r : Fin n → Nat) : Prop where
  pat : ∀ j, (p j).isSome ↔ (d j).isSome
  par : ∀ j c, d j = some c → j = s ∧ c = 0 ∧ p j = some s ∨
    ∃ i a c1 c1', p j = some i ∧ A i j = some a ∧ c1 + a = c ∧ d i = some c1' ∧
      (c1' < c1 ∨ c1' = c1 ∧ r i + 1 = r j)
  prev_d : ∀ j c, prev j = some c → d j = some c ∧ r j = k
  le : ∀ j, r j ≤ k

theorem bfParents_some {cur : Vec n α} {j i : Fin n} (h : bfParents A prev cur j = some i) :
    ∃ c1 a, prev i = some c1 ∧ A i j = some a ∧ cur j = some (c1 + a) := by
  unfold bfParents reduceCol reduceRow transpose at h
  obtain ⟨i', hi⟩ := reduce_selective (fun a b => min_choice a b) h
  simp only [mselect, Option.map_eq_some_iff] at hi
  obtain ⟨b, hb, rfl⟩ := hi
  rw [Option.filter_eq_some_iff] at hb
  obtain ⟨hb, ht⟩ := hb
  obtain ⟨x, y, hx, hy, rfl⟩ := ointer_eq_some.1 hb
  obtain ⟨c1, a, hc1, ha, rfl⟩ := ointer_eq_some.1 hx
  refine ⟨c1, a, hc1, ?_, ?_⟩
  · split at ha
    · exact ha
    · cases ha
  · simp at ht; rw [hy, ht]

theorem bfParents_isSome {cur : Vec n α} {j : Fin n}
    (h : ∃ i c1 a, prev i = some c1 ∧ A i j = some a ∧ cur j = some (c1 + a)) :
    (bfParents A prev cur j).isSome := by
  obtain ⟨i, c1, a, h1, h2, h3⟩ := h
  unfold bfParents reduceCol reduceRow transpose
  rw [reduce_isSome]
  refine ⟨i, ?_⟩
  simp [mselect, h1, h2, h3]

/-- after a round, parents are stored exactly where the frontier is -/
theorem parents_round {j : Fin n} :
    (bfParents A prev (bfRound A cut d prev) j).isSome ↔ (bfRound A cut d prev j).isSome := by
  constructor
  · intro h
    obtain ⟨i, hi⟩ := Option.isSome_iff_exists.1 h
    obtain ⟨_, _, _, _, h3⟩ := bfParents_some hi
    rw [h3]; rfl
  · intro h
    obtain ⟨c, hc⟩ := Option.isSome_iff_exists.1 h
    obtain ⟨⟨i, c1, a, h1, h2, h3⟩, -⟩ := relax_mem (bfRound_some.1 hc).1
    exact bfParents_isSome ⟨i, c1, a, h1, h2, by rw [hc, h3]⟩

theorem pinv_step {s : Fin n} {r : Fin n → Nat} (h : PInv A s k d prev p r) :
    let cur := bfRound A cut d prev
    let idx := bfParents A prev cur
    PInv A s (k+1) (upd d cur) cur (vassign (vS idx) p idx)
      (fun j => if (cur j).isSome then k + 1 else r j) := by
  intro cur idx
  have hidx : ∀ j, vS idx j = true ↔ (cur j).isSome := fun j => parents_round
  refine ⟨fun j => ?_, fun j c hc => ?_, fun j c hc => ?_, fun j => ?_⟩
  · unfold vassign
    split
    · rename_i hj
      have hc := (hidx j).1 hj
      obtain ⟨c, hc'⟩ := Option.isSome_iff_exists.1 hc
      rw [upd_of_some hc']
      exact iff_of_true hj rfl
    · rename_i hj
      have hc : cur j = none := by
        rw [hidx] at hj; simpa using hj
      rw [upd_of_none hc]; exact h.pat j
  · -- values only improve
    have mono : ∀ i c1', d i = some c1' → ∃ c2, upd d cur i = some c2 ∧
        (c2 < c1' ∨ c2 = c1' ∧ cur i = none) := by
      intro i c1' hd
      cases hr : cur i with
      | none => exact ⟨c1', by rw [upd_of_none hr]; exact hd, Or.inr ⟨rfl, rfl⟩⟩
      | some x => exact ⟨x, upd_of_some hr, Or.inl ((bfRound_some.1 hr).2 _ hd)⟩
    cases hr : cur j with
    | some x =>
      have hcx : x = c := by rw [upd_of_some hr] at hc; exact Option.some.inj hc
      subst hcx
      right
      have hj : vS idx j = true := (hidx j).2 (by rw [hr]; rfl)
      obtain ⟨i, hi⟩ := Option.isSome_iff_exists.1 hj
      obtain ⟨c1, a, h1, h2, h3⟩ := bfParents_some hi
      have hxe : x = c1 + a := by
        rw [hr] at h3; exact Option.some.inj h3
      subst hxe
      obtain ⟨hdi, hri⟩ := h.prev_d i c1 h1
      obtain ⟨c2, hc2, hlt⟩ := mono i c1 hdi
      refine ⟨i, a, c1, c2, ?_, h2, rfl, hc2, hlt.imp id ?_⟩
      · unfold vassign; rw [if_pos hj]; exact hi
      · rintro ⟨rfl, hn⟩
        exact ⟨rfl, by simp [hn, hri]⟩
    | none =>
      rw [upd_of_none hr] at hc
      have hj : ¬ vS idx j = true := by rw [hidx, hr]; simp
      have hp : vassign (vS idx) p idx j = p j := by unfold vassign; rw [if_neg hj]
      rw [hp]
      refine (h.par j c hc).imp id ?_
      rintro ⟨i, a, c1, c1', e1, e2, e3, e4, e5⟩
      obtain ⟨c2, hc2, hlt⟩ := mono i c1' e4
      refine ⟨i, a, c1, c2, e1, e2, e3, hc2, ?_⟩
      rcases hlt with hlt | ⟨rfl, hn⟩
      · left
        rcases e5 with e5 | ⟨rfl, -⟩
        · exact hlt.trans e5
        · exact hlt
      · refine e5.imp id ?_
        rintro ⟨rfl, er⟩
        exact ⟨rfl, by simp [hn, er]⟩
  · exact ⟨upd_of_some hc, by simp [hc]⟩
  · have := h.le j
    show (if (cur j).isSome then k + 1 else r j) ≤ k + 1
    split <;> omega

theorem pinv_loop {s : Fin n} (prune : Option (Fin n)) (m : Nat) {r : Fin n → Nat}
    (h : PInv A s k d prev p r) :
    ∃ k' prev' r', k' ≤ k + m ∧ PInv A s k' (bfPathLoop A prune m cut d prev p).1.d prev'
      (bfPathLoop A prune m cut d prev p).2 r' := by
  induction m generalizing k cut d prev p r with
  | zero => exact ⟨k, prev, r, le_rfl, h⟩
  | succ m ih =>
    unfold bfPathLoop
    simp only
    split
    · exact ⟨k, prev, r, by omega, h⟩
    · obtain ⟨k', prev', r', h1, h2⟩ := ih (cut := bfNextCut prune cut (bfRound A cut d prev))
        (pinv_step (cut := cut) h)
      exact ⟨k', prev', r', by omega, h2⟩

theorem pinv_init (A : Mat n n α) (s : Fin n) :
    PInv A s 0 (vset vempty s 0) (vset vempty s 0) (vset vempty s s) (fun _ => 0) := by
  refine ⟨fun j => ?_, fun j c hc => ?_, fun j c hc => ⟨hc, rfl⟩, fun _ => le_rfl⟩
  · unfold vset vempty; split <;> simp
  · left
    obtain ⟨rfl, rfl⟩ := (src_init s j c).1 hc
    exact ⟨rfl, rfl, by simp [vset]⟩

/-! ### non-negative weights, monotone addition -/

/-- along a parent pointer the value does not grow, and if it stays the round decreases -/
theorem PInv.decreases [MonoAdd α] {s : Fin n} {r : Fin n → Nat} (hA : Nonneg A) (h : PInv A s k d prev p r)
    {j i : Fin n} {c : α} (hd : d j = some c) (hp : p j = some i) (hj : j ≠ s) :
    ∃ a c', A i j = some a ∧ d i = some c' ∧ c' + a ≤ c ∧ (c' < c ∨ c' = c ∧ r i < r j) := by
  rcases h.par j c hd with ⟨h1, -⟩ | ⟨i', a, c1, c1', e1, e2, e3, e4, e5⟩
  · exact absurd h1 hj
  · obtain rfl : i' = i := by rw [e1] at hp; exact Option.some.inj hp
    have h1 : c1' ≤ c1 := by rcases e5 with e | ⟨e, -⟩; exacts [e.le, e.le]
    have h2 : c1 ≤ c := e3 ▸ MonoAdd.le_add c1 (hA _ _ _ e2)
    refine ⟨a, c1', e2, e4, e3 ▸ MonoAdd.add_mono a h1, ?_⟩
    rcases e5 with e | ⟨e, er⟩
    · exact Or.inl (e.trans_le h2)
    · rcases h2.lt_or_eq with h3 | h3
      · exact Or.inl (e ▸ h3)
      · exact Or.inr ⟨e.trans h3, by omega⟩

/-- chasing the parents ends at the source -/
theorem chase_ends [MonoAdd α] {s : Fin n} {r : Fin n → Nat} (hA : Nonneg A) (h : PInv A s k d prev p r)
    {j : Fin n} (hj : (d j).isSome) : ∃ l, chaseParents p s n j = .ok l := by
  have noKey : ∀ f j, (d j).isSome → (∃ l, chaseParents p s f j = .ok l) ∨ chaseParents p s f j = .error .diverges := by
    intro f
    induction f with
    | zero =>
      intro j _
      unfold chaseParents
      split
      · exact Or.inl ⟨_, rfl⟩
      · exact Or.inr rfl
    | succ f ih =>
      intro j hj
      unfold chaseParents
      by_cases hjs : j = s
      · rw [if_pos hjs]; exact Or.inl ⟨_, rfl⟩
      · rw [if_neg hjs]
        obtain ⟨i, hi⟩ := Option.isSome_iff_exists.1 ((h.pat j).2 hj)
        obtain ⟨c, hc⟩ := Option.isSome_iff_exists.1 hj
        obtain ⟨_, c', -, hc', -⟩ := h.decreases hA hc hi hjs
        rcases ih i (by rw [hc']; rfl) with ⟨l, hl⟩ | hl
        · exact Or.inl ⟨j :: l, by simp only [hi, hl]; rfl⟩
        · exact Or.inr (by simp only [hi, hl]; rfl)
  rcases noKey n j hj with hl | hl
  · exact hl
  · exfalso
    rw [chase_diverges_iff] at hl
    choose g hg hne using hl
    -- the measure decreases along the chase
    have hdef : ∀ k (hk : k ≤ n), (d (g k hk)).isSome := by
      intro k
      induction k with
      | zero =>
        intro hk
        have := hg 0 hk
        simp only [iter, Option.some.injEq] at this
        rw [← this]; exact hj
      | succ k ih =>
        intro hk
        have h1 := ih (by omega)
        obtain ⟨c, hc⟩ := Option.isSome_iff_exists.1 h1
        obtain ⟨i, hi⟩ := Option.isSome_iff_exists.1 ((h.pat _).2 h1)
        obtain ⟨_, c', -, hc', -⟩ := h.decreases hA hc hi (hne k (by omega))
        have : g (k+1) hk = i := by
          have e := hg (k+1) hk
          rw [iter_add p k 1, hg k (by omega)] at e
          simp only [Option.bind_some, iter, hi] at e
          exact (Option.some.inj e).symm
        rw [this, hc']; rfl
    have hnext : ∀ k (hk : k + 1 ≤ n), p (g k (by omega)) = some (g (k+1) hk) := by
      intro k hk
      have e := hg (k+1) hk
      rw [iter_add p k 1, hg k (by omega)] at e
      simp only [Option.bind_some, iter] at e
      cases hp : p (g k (by omega)) with
      | none => rw [hp] at e; cases e
      | some i => rw [hp] at e; exact e
    have hdec : ∀ a b (ha : a ≤ n) (hb : b ≤ n), a < b → ∀ c c', d (g a ha) = some c → d (g b hb) = some c' →
        c' < c ∨ c' = c ∧ r (g b hb) < r (g a ha) := by
      intro a b ha hb hab
      induction b, hab using Nat.le_induction with
      | base =>
        intro c c' h1 h2
        obtain ⟨_, c2, -, h3, -, h4⟩ := h.decreases hA h1 (hnext a hb) (hne a ha)
        rw [h3] at h2
        obtain rfl := Option.some.inj h2
        exact h4
      | succ b hab ih =>
        intro c c' h1 h2
        obtain ⟨c1, hc1⟩ := Option.isSome_iff_exists.1 (hdef b (by omega))
        obtain ⟨_, c2, -, h3, -, h4⟩ := h.decreases hA hc1 (hnext b hb) (hne b (by omega))
        rw [h3] at h2
        obtain rfl := Option.some.inj h2
        rcases ih (by omega) c c1 h1 hc1 with h5 | ⟨h5, h6⟩ <;> rcases h4 with h7 | ⟨h7, h8⟩
        · exact Or.inl (h7.trans h5)
        · exact Or.inl (h7 ▸ h5)
        · exact Or.inl (h5 ▸ h7)
        · exact Or.inr ⟨h7.trans h5, h8.trans h6⟩
    obtain ⟨a, b, hab, he⟩ : ∃ a b : Fin (n+1), a < b ∧ g a (by omega) = g b (by omega) := by
      have hninj : ¬ Function.Injective (fun a : Fin (n+1) => g a (by omega)) := by
        intro hinj
        have := Fintype.card_le_of_injective _ hinj
        simp at this
      simp only [Function.Injective, not_forall] at hninj
      obtain ⟨a, b, he, hab⟩ := hninj
      rcases lt_or_gt_of_ne hab with hlt | hlt
      · exact ⟨a, b, hlt, he⟩
      · exact ⟨b, a, hlt, he.symm⟩
    obtain ⟨c, hc⟩ := Option.isSome_iff_exists.1 (hdef a (by omega))
    rcases hdec a b (by omega) (by omega) hab c c hc (he ▸ hc) with h1 | ⟨-, h1⟩
    · exact lt_irrefl _ h1
    · rw [he] at h1; exact lt_irrefl _ h1

/-- the nodes on the chase, from the source: their left-to-right sum is at most the value -/
theorem chase_weight [MonoAdd α] {s : Fin n} {r : Fin n → Nat} (hA : Nonneg A) (h : PInv A s k d prev p r)
    (h0 : d s = some 0) :
    ∀ (f : Nat) (j : Fin n) (c : α) (l : List (Fin n)), d j = some c → chaseParents p s f j = .ok l →
      l.head? = some j ∧ l.getLast? = some s ∧ ∃ c', c' ≤ c ∧ RunWeight (MW A) l.reverse c' := by
  intro f
  induction f with
  | zero =>
    intro j c l hd hl
    unfold chaseParents at hl
    split at hl
    · rename_i hjs
      subst hjs
      cases hl
      rw [h0] at hd
      exact ⟨rfl, rfl, 0, (Option.some.inj hd).le, .single j⟩
    · cases hl
  | succ f ih =>
    intro j c l hd hl
    unfold chaseParents at hl
    by_cases hjs : j = s
    · rw [if_pos hjs] at hl
      subst hjs
      cases hl
      rw [h0] at hd
      exact ⟨rfl, rfl, 0, (Option.some.inj hd).le, .single j⟩
    · rw [if_neg hjs] at hl
      obtain ⟨i, hi⟩ := Option.isSome_iff_exists.1 ((h.pat j).2 (by rw [hd]; rfl))
      obtain ⟨a, c', ha, hc', hle, -⟩ := h.decreases hA hd hi hjs
      simp only [hi] at hl
      cases hrest : chaseParents p s f i with
      | error e => rw [hrest] at hl; cases hl
      | ok rest =>
        rw [hrest] at hl
        obtain rfl : j :: rest = l := by injection hl
        obtain ⟨h1, h2, c2, h3, h4⟩ := ih i c' rest hc' hrest
        cases rest with
        | nil => cases h1
        | cons x rest =>
          obtain rfl : x = i := by simpa using h1
          refine ⟨rfl, by simpa [List.getLast?_cons_cons] using h2, c2 + a, (MonoAdd.add_mono a h3).trans hle, ?_⟩
          rw [List.reverse_cons, List.reverse_cons]
          rw [List.reverse_cons] at h4
          exact .snoc h4 ha

omit [LinearOrder α] in
theorem RunWeight.walk {V : Type} {W : V → V → α → Prop} {l : List V} {c : α} (h : RunWeight W l c) :
    ∀ {s t : V}, l.head? = some s → l.getLast? = some t → ∃ m, WWalk W m c s t := by
  induction h with
  | single u =>
    intro s t h1 h2
    obtain rfl : u = s := by simpa using h1
    obtain rfl : u = t := by simpa using h2
    exact ⟨0, .nil u⟩
  | @snoc l u v c a hl e ih =>
    intro s t h1 h2
    obtain rfl : v = t := by simpa using h2
    have h3 : (l ++ [u]).head? = some s := by
      cases l with
      | nil => simpa using h1
      | cons x l => simpa using h1
    obtain ⟨m, hm⟩ := ih (t := u) h3 (by simp)
    exact ⟨m + 1, hm.snoc e⟩

omit [LinearOrder α] in
theorem RunWeight.mono {V : Type} {W W' : V → V → α → Prop} (hW : ∀ u v a, W u v a → W' u v a) {l : List V} {c : α}
    (h : RunWeight W l c) : RunWeight W' l c := by
  induction h with
  | single u => exact .single u
  | snoc _ e ih => exact .snoc ih (hW _ _ _ e)

/-- non-negative weights: the path found has the value of the distance -/
theorem path_core_nonneg [MonoAdd α] (A : Mat n n α) (hA : Nonneg A) (s t : Fin n) :
    (∃ l c, bfPathCore A s t = .ok l ∧ l.head? = some s ∧ l.getLast? = some t ∧
      RunWeight (MW A) l c ∧ IsWDist (MW A) s c t) ∨
    (¬ WReach (MW A) s t ∧ bfPathCore A s t = .ok []) := by
  have hO := hA.offdiag
  have hnn : ∀ {m c x y}, WWalk (MW (offdiag A)) m c x y → 0 ≤ c := by
    intro m c x y hw
    induction hw with
    | nil => exact le_rfl
    | snoc _ e ih => exact ih.trans (MonoAdd.le_add _ (hO _ _ _ e))
  have hdiag : hasNegDiag A = false := by
    by_contra h
    obtain ⟨i, a, h1, h2⟩ := hasNegDiag_iff.1 (by simpa using h)
    exact absurd (hA _ _ _ h1) (not_le.2 h2)
  obtain ⟨dc, hdc, hdc'⟩ := target_nonneg hA s t
  unfold bfCore at hdc
  unfold bfPathCore
  simp only at hdc ⊢
  generalize hpr : (if hasNegEdgesM A then none else some t : Option (Fin n)) = prune at *
  have hprt : prune = none ∨ prune = some t := by
    rw [← hpr]; split <;> simp
  obtain ⟨k, hk, hinv, hpo, -, -⟩ := end_spec A s prune none (Or.inl hO)
  have est : bfLoop (offdiag A) prune (n-1) none (vset vempty s 0) (vset vempty s 0) =
    endState A s prune none := rfl
  obtain ⟨k', prev', r', hk', hP⟩ := pinv_loop (cut := none) prune (n-1) (pinv_init (offdiag A) s)
  rw [est] at hdc
  rw [← est, ← bfPathLoop_fst (p := vset vempty s s)] at hinv hpo hdc
  generalize bfPathLoop (offdiag A) prune (n-1) none (vset vempty s 0) (vset vempty s 0)
    (vset vempty s s) = res at *
  obtain ⟨st, p⟩ := res
  simp only [hdiag, Bool.false_and] at *
  have h0 : st.d s = some 0 := by
    refine hinv.best s 0 ⟨⟨0, Nat.zero_le _, s, rfl, .nil s⟩, ?_⟩ ?_
    · rintro c ⟨m, -, x, -, hw⟩
      exact hnn hw
    · intro x hx
      rw [hx] at hpo
      rcases hprt with rfl | rfl
      · exact absurd hpo (by simp [PruneOk])
      · rcases hpo with hpo | ⟨-, hpo⟩
        · cases hpo
        · obtain ⟨m, -, y, -, hw⟩ := hinv.sound t x hpo
          exact hnn hw
  split at hdc
  · cases hdc
  · rename_i hneg
    simp only [Bool.false_eq_true, if_false, Except.ok.injEq] at hdc
    subst hdc
    rw [if_neg hneg]
    cases hd : st.d t with
    | none =>
      right
      have hp : p t = none := by
        have := (hP.pat t).not.2 (by rw [hd]; simp)
        simpa using this
      refine ⟨?_, by simp [reconstructPath, hp, bind, Except.bind, pure, Except.pure]⟩
      rintro ⟨m, c, hw⟩
      obtain ⟨b, hb⟩ := exists_wdist_nonneg (mw_fin A) hA hw
      rw [(hdc' b).2 hb] at hd; cases hd
    | some c =>
      left
      have hx := (hdc' c).1 hd
      obtain ⟨l, hl⟩ := chase_ends hO hP (j := t) (by rw [hd]; rfl)
      obtain ⟨h1, h2, c', h3, h4⟩ := chase_weight hO hP h0 n t c l hd hl
      obtain ⟨q, hq⟩ := Option.isSome_iff_exists.1 ((hP.pat t).2 (by rw [hd]; rfl))
      have e1 : l.reverse.head? = some s := by rw [List.head?_reverse]; exact h2
      have e2 : l.reverse.getLast? = some t := by rw [List.getLast?_reverse]; exact h1
      have h5 : RunWeight (MW A) l.reverse c' := by
        refine RunWeight.mono ?_ h4
        intro u v a e
        rw [mw_offdiag] at e
        exact e.2
      obtain ⟨m, hm⟩ := RunWeight.walk h5 e1 e2
      obtain rfl : c' = c := le_antisymm h3 (hx.2 _ _ hm)
      refine ⟨l.reverse, c', ?_, e1, e2, h5, hx⟩
      simp [reconstructPath, hq, hl, bind, Except.bind, pure, Except.pure]

end mono

section group
variable {α : Type} {n : Nat} [AddCommGroup α] [LinearOrder α] [IsOrderedAddMonoid α]
variable {A : Mat n n α} {k : Nat} {cut : Option α} {d prev : Vec n α} {p : Vec n (Fin n)}

/-! ### paths -/

omit [LinearOrder α] [IsOrderedAddMonoid α] in
theorem pathWeight_snoc {V : Type} {W : V → V → α → Prop} {l : List V} {c a : α} {u v : V}
    (h : PathWeight W (l ++ [u]) c) (e : W u v a) : PathWeight W (l ++ [u] ++ [v]) (c + a) := by
  induction l generalizing c with
  | nil =>
    cases h
    rw [zero_add, ← add_zero a]
    exact .cons e (.single v)
  | cons x l ih =>
    cases l with
    | nil =>
      simp only [List.nil_append, List.cons_append] at h ih ⊢
      cases h with
      | cons e' h' =>
        rw [add_assoc]
        exact .cons e' (ih h')
    | cons y l =>
      simp only [List.cons_append] at h ih ⊢
      cases h with
      | cons e' h' =>
        rw [add_assoc]
        exact .cons e' (ih h')

/-- following parents from a node whose value is the exact distance gives a shortest path -/
theorem chase_exact {s : Fin n} {r : Fin n → Nat} (h : PInv A s k d prev p r)
    (sound : ∀ j c, d j = some c → WReach (MW A) s j ∧ ∃ m, WWalk (MW A) m c s j)
    (hno : ¬ NegCycleFrom (MW A) s) :
    ∀ (m : Nat) (j : Fin n) (c : α) (f : Nat), r j ≤ m → m ≤ f → d j = some c →
      IsWDist (MW A) s c j →
      ∃ l, chaseParents p s f j = .ok (l ++ [s]) ∧ (l ++ [s]).head? = some j ∧
        PathWeight (MW A) (s :: l.reverse) c := by
  intro m
  induction m with
  | zero =>
    intro j c f hr hf hd hx
    have hjs : j = s := by
      rcases h.par j c hd with ⟨rfl, -⟩ | ⟨i, a, c1, c1', e1, e2, e3, e4, e5⟩
      · rfl
      · exfalso
        rcases e5 with e5 | ⟨-, e5⟩
        · obtain ⟨-, m', hw⟩ := sound _ _ e4
          have h1 := hx.2 _ _ (hw.snoc e2)
          rw [← e3] at h1
          exact absurd h1 (not_le.2 (add_lt_add_left e5 a))
        · omega
    subst hjs
    have hc : c = 0 := by
      apply le_antisymm (hx.2 0 0 (.nil j))
      by_contra hlt
      obtain ⟨m', hw⟩ := hx.1
      exact hno ⟨j, .refl j, m', c, hw, not_le.1 hlt⟩
    subst hc
    refine ⟨[], ?_, rfl, .single j⟩
    unfold chaseParents
    simp
  | succ m ih =>
    intro j c f hr hf hd hx
    by_cases hjs : j = s
    · subst hjs
      have hc : c = 0 := by
        apply le_antisymm (hx.2 0 0 (.nil j))
        by_contra hlt
        obtain ⟨m', hw⟩ := hx.1
        exact hno ⟨j, .refl j, m', c, hw, not_le.1 hlt⟩
      subst hc
      refine ⟨[], ?_, rfl, .single j⟩
      unfold chaseParents
      simp
    · rcases h.par j c hd with ⟨h1, -⟩ | ⟨i, a, c1, c1', e1, e2, e3, e4, e5⟩
      · exact absurd h1 hjs
      · obtain ⟨-, m', hw⟩ := sound _ _ e4
        have h1 := hx.2 _ _ (hw.snoc e2)
        rw [← e3] at h1
        have h2 : c1 ≤ c1' := le_of_add_le_add_right h1
        rcases e5 with e5 | ⟨rfl, e5⟩
        · exact absurd h2 (not_le.2 e5)
        · have hxi : IsWDist (MW A) s c1' i := by
            refine ⟨⟨m', hw⟩, fun q c' hw' => ?_⟩
            have := hx.2 _ _ (hw'.snoc e2)
            rw [← e3] at this
            exact le_of_add_le_add_right this
          obtain ⟨f, rfl⟩ : ∃ f', f = f' + 1 := ⟨f - 1, by omega⟩
          obtain ⟨l, hl, hh, hw'⟩ := ih i c1' f (by omega) (by omega) e4 hxi
          refine ⟨j :: l, ?_, rfl, ?_⟩
          · unfold chaseParents
            rw [if_neg hjs, e1]
            simp only [hl]
            rfl
          · subst e3
            rw [List.reverse_cons]
            cases l with
            | nil =>
              simp at hh; subst hh
              exact pathWeight_snoc (l := []) hw' e2
            | cons x l =>
              simp at hh; subst hh
              rw [List.reverse_cons] at hw' ⊢
              have := pathWeight_snoc (l := s :: l.reverse) (by simpa using hw') e2
              simpa using this

/-- the whole computation, when there is no negative self-loop in the graph -/
theorem path_core_spec (A : Mat n n α) (s t : Fin n) (hno : ¬ NegCycleFrom (MW A) s)
    (hdiag : hasNegDiag A = false) :
    (∃ l, bfPathCore A s t = .ok l ∧ IsShortestPath (MW A) s t l) ∨
    (¬ WReach (MW A) s t ∧ bfPathCore A s t = .ok []) := by
  have hprune : Nonneg (offdiag A) ∨
      ((if hasNegEdgesM A then none else some t : Option (Fin n)) = none ∧ (none : Option α) = none) := by
    cases h : hasNegEdgesM A with
    | true => exact Or.inr ⟨rfl, rfl⟩
    | false => exact Or.inl (hasNegEdgesM_false h)
  obtain ⟨dc, hdc, hdc'⟩ := (target_spec A s t).2 hno
  unfold bfCore at hdc
  unfold bfPathCore
  simp only at hdc ⊢
  generalize hpr : (if hasNegEdgesM A then none else some t : Option (Fin n)) = prune at *
  obtain ⟨k, hk, hinv, -, -, -⟩ := end_spec A s prune none hprune
  have est : bfLoop (offdiag A) prune (n-1) none (vset vempty s 0) (vset vempty s 0) =
    endState A s prune none := rfl
  obtain ⟨k', prev', r', hk', hP⟩ := pinv_loop (cut := none) prune (n-1) (pinv_init (offdiag A) s)
  rw [est] at hdc
  rw [← est, ← bfPathLoop_fst (p := vset vempty s s)] at hinv
  rw [← est, ← bfPathLoop_fst (p := vset vempty s s)] at hdc
  generalize bfPathLoop (offdiag A) prune (n-1) none (vset vempty s 0) (vset vempty s 0)
    (vset vempty s s) = res at *
  obtain ⟨st, p⟩ := res
  simp only [hdiag, Bool.false_and] at *
  split at hdc
  · cases hdc
  · rename_i hneg
    simp only [Bool.false_eq_true, if_false, Except.ok.injEq] at hdc
    subst hdc
    rw [if_neg hneg]
    obtain ⟨hn, hl⟩ := noNeg_split.1 hno
    have hloop : ∀ x a, WReach (MW A) s x → MW A x x a → 0 ≤ a := by
      intro x a hx ha
      by_contra h0
      exact hl ⟨x, a, hx, ha, not_le.1 h0⟩
    cases hd : st.d t with
    | none =>
      right
      have hp : p t = none := by
        have := (hP.pat t).not.2 (by rw [hd]; simp)
        simpa using this
      refine ⟨?_, by simp [reconstructPath, hp, bind, Except.bind, pure, Except.pure]⟩
      rintro ⟨m, c, hw⟩
      obtain ⟨k', c', hk', -, -, hw'⟩ := shorten (noNeg_single.2 hno) rfl hw
      obtain ⟨b, -, hb⟩ := best_exists (S := (· = s)) (k := n) (mw_fin A)
        ⟨k', by rw [Fintype.card_fin] at hk'; omega, s, rfl, hw'⟩
      have : IsWDist (MW A) s b t := by
        rw [← distW_single]
        refine ⟨⟨_, hb.1⟩, ?_⟩
        rintro m c'' ⟨m', -, _, rfl, hw''⟩
        obtain ⟨k2, c2, h1, -, h2, h3⟩ := shorten (noNeg_single.2 hno) rfl hw''
        rw [Fintype.card_fin] at h1
        exact (hb.2 c2 ⟨k2, by omega, _, rfl, h3⟩).trans h2
      rw [(hdc' b).2 this] at hd; cases hd
    | some c =>
      left
      have hx := (hdc' c).1 hd
      have hxo : IsWDist (MW (offdiag A)) s c t := by
        rw [mw_offdiag', isWDist_offLoop hloop]; exact hx
      obtain ⟨l, h1, h2, h3⟩ := chase_exact hP
        (fun j c hc => by
          obtain ⟨m, -, _, rfl, hw⟩ := hinv.sound j c hc
          exact ⟨⟨m, c, hw⟩, m, hw⟩)
        (noNeg_single.1 hn) k' t c n (hP.le t) (by omega) hd hxo
      obtain ⟨q, hq⟩ := Option.isSome_iff_exists.1 ((hP.pat t).2 (by rw [hd]; rfl))
      refine ⟨(l ++ [s]).reverse, ?_, ?_, ?_, c, ?_, hx⟩
      · simp [reconstructPath, hq, h1, bind, Except.bind, pure, Except.pure]
      · simp
      · rw [List.getLast?_reverse, h2]
      · have : ∀ l c, PathWeight (MW (offdiag A)) l c → PathWeight (MW A) l c := by
          intro l c h
          induction h with
          | single u => exact .single u
          | cons e _ ih =>
            rw [mw_offdiag] at e
            exact .cons e.2 ih
        simpa using this _ _ h3

end group

end Proofs.BFP
