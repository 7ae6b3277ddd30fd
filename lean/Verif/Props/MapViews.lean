import Verif.Props.Maps
import Verif.Props.SetOps
import Verif.Model.MapViews

/-!
# C123 Reading a NodeMap as a whole, and update

`lookupOf G c s k` is the value of `m[k]` (`none` when it raises KeyError); a dict is the list of its items.
-/

open GB Spec Model Model.Graph Proofs

namespace Props

variable {K α U R : Type} [DecidableEq K] {G : Graph K α} {c : Codec U R}

namespace MapViews

/-- `m[k]` raises exactly for the keys without a value -/
theorem nmAt_eq (h : G.WF) {s : NMap G.n U R} (hd : Decodable c s) (k : K) :
    nmAt G c s k = match lookupOf G c s k with
      | some u => .ok u
      | none => .error .keyError := by
  by_cases hk : G.Node k
  · obtain ⟨i, hi⟩ := hk.exists_id h
    have e : nmGetitem G c s k = match (stored G c s k).orElse fun _ => s.fill with
        | some u => .ok (.val (some u))
        | none => .error .keyError := by
      unfold nmGetitem
      rw [(getId_eq_ok h).2 hi]
      show (nmLookup c s i >>= fun o => _) = _
      rw [(stored_at h hd hi).1]
      generalize ((stored G c s k).orElse fun _ => s.fill) = x
      cases x <;> rfl
    unfold nmAt lookupOf
    rw [e]
    generalize ((stored G c s k).orElse fun _ => s.fill) = x
    cases x <;> rfl
  · rw [lookupOf_not_node h hk]
    unfold nmAt nmGetitem
    rw [getId_eq_error h hk]; rfl

theorem contains_iff (h : G.WF) {s : NMap G.n U R} (hd : Decodable c s) {k : K} {i} (hi : G.At k i) :
    (s.fill.isSome || (s.vec i).isSome) = (lookupOf G c s k).isSome := by
  rw [lookupOf_at h hi, (stored_at h hd hi).1, ← (stored_at h hd hi).2]
  show _ = ((stored G c s k).orElse fun _ => s.fill).isSome
  cases stored G c s k <;> cases s.fill <;> rfl

theorem keys_ok (h : G.WF) {s : NMap G.n U R} (hd : Decodable c s) :
    ∃ l, nmKeys G s = .ok l ∧ l.length = nmLen G s ∧ IsEnum l fun k => (lookupOf G c s k).isSome := by
  have hv : ∀ {k i}, G.At k i → lookupOf G c s k = (stored G c s k).orElse fun _ => s.fill := fun hi => by
    rw [lookupOf_at h hi, (stored_at h hd hi).1]
  cases hf : s.fill with
  | some f =>
    refine ⟨G.nodes, ?_, ?_, h.keys_nodup, fun k => ?_⟩
    · unfold nmKeys nmIter; rw [hf]; rfl
    · unfold nmLen; rw [hf]; simp [Graph.nodes]
    · show k ∈ G.nodes ↔ (lookupOf G c s k).isSome
      by_cases hk : G.Node k
      · obtain ⟨i, hi⟩ := hk.exists_id h
        rw [hv hi, hf]
        refine iff_of_true hk ?_
        cases stored G c s k <;> rfl
      · rw [lookupOf_not_node h hk]
        exact iff_of_false hk (by simp)
  | none =>
    obtain ⟨l, h1, h2, h3⟩ := nm_enum h hd
    refine ⟨l, ?_, ?_, h3.1, fun k => (h3.2 k).trans ?_⟩
    · unfold nmKeys nmIter; rw [hf, h1]; rfl
    · unfold nmLen; rw [hf]; exact h2
    · show (stored G c s k).isSome ↔ (lookupOf G c s k).isSome
      by_cases hk : G.Node k
      · obtain ⟨i, hi⟩ := hk.exists_id h
        rw [hv hi, hf]
        cases stored G c s k <;> rfl
      · rw [lookupOf_not_node h hk, stored_none h hk]

omit [DecidableEq K] in
theorem dict_from_keys {D : K → Option U} {f : K → Except Err U}
    (hf : ∀ k, f k = match D k with
      | some u => .ok u
      | none => .error .keyError) (l : List K) (hl : ∀ k ∈ l, (D k).isSome) :
    ∃ ps : List (K × U), (l.mapM fun k => (f k).map fun u => (k, u)) = .ok ps ∧ l.mapM f = .ok (ps.map Prod.snd) ∧
      ps.map Prod.fst = l ∧ ∀ p ∈ ps, D p.1 = some p.2 := by
  induction l with
  | nil => exact ⟨[], rfl, rfl, rfl, by simp⟩
  | cons a l ih =>
    obtain ⟨ps, e1, e2, e3, e4⟩ := ih fun k hk => hl k (by simp [hk])
    obtain ⟨u, hu⟩ := Option.isSome_iff_exists.1 (hl a (by simp))
    have ha : f a = .ok u := by rw [hf, hu]
    refine ⟨(a, u) :: ps, ?_, ?_, by simp [e3], ?_⟩
    · rw [List.mapM_cons, ha, e1]; rfl
    · rw [List.mapM_cons, ha, e2]; rfl
    · intro p hp
      rcases List.mem_cons.1 hp with rfl | hp
      · exact hu
      · exact e4 p hp

end MapViews

open MapViews

/-- **C123.** `dict(m)`, `list(m.items())`, `list(m.values())`, `list(m)` and `len(m)` of any NodeMap — with or without fill
value, values may be nodes — succeed and tell the same: the items are the keys, each once, with the values of `m[k]`;
the values come in the order of the keys; the length is the number of items. -/
theorem nodemap_views (h : G.WF) {s : NMap G.n U R} (hd : Decodable c s) :
    ∃ ps : List (K × U), nmDict G c s = .ok ps ∧ nmKeys G s = .ok (ps.map Prod.fst) ∧
      nmValues G c s = .ok (ps.map Prod.snd) ∧ nmLen G s = ps.length ∧ (ps.map Prod.fst).Nodup ∧
      (∀ k, ps.lookup k = lookupOf G c s k) ∧ (∀ k u, (k, u) ∈ ps ↔ lookupOf G c s k = some u) := by
  obtain ⟨l, h1, h2, h3, h4⟩ := keys_ok (c := c) h hd
  obtain ⟨ps, e1, e2, e3, e4⟩ := dict_from_keys (D := lookupOf G c s) (f := nmAt G c s) (nmAt_eq h hd) l
    fun k hk => (h4 k).1 hk
  have hnd : (ps.map Prod.fst).Nodup := by rw [e3]; exact h3
  have hmem : ∀ k u, (k, u) ∈ ps ↔ lookupOf G c s k = some u := by
    intro k u
    constructor
    · exact fun hp => e4 _ hp
    · intro hu
      have hk : k ∈ ps.map Prod.fst := by
        rw [e3]; exact (h4 k).2 (by show (lookupOf G c s k).isSome; rw [hu]; rfl)
      obtain ⟨⟨k', u'⟩, hp, rfl⟩ := List.mem_map.1 hk
      have := e4 _ hp
      rw [hu] at this
      cases this
      exact hp
  refine ⟨ps, ?_, ?_, ?_, ?_, hnd, ?_, hmem⟩
  · unfold nmDict; rw [h1]; exact e1
  · rw [h1, e3]
  · unfold nmValues; rw [h1]; exact e2
  · rw [← h2, ← e3, List.length_map]
  · intro k
    cases hu : lookupOf G c s k with
    | some u => exact (lookup_eq_some_iff hnd).2 ((hmem k u).2 hu)
    | none =>
      cases hl : ps.lookup k with
      | none => rfl
      | some u =>
        have := (hmem k u).1 ((lookup_eq_some_iff hnd).1 hl)
        rw [hu] at this; cases this

/-- **C123.** Membership in the views: `(k, u) in m.items()` and `u in m.values()` are right for all `k` and `u` and never
raise; `k in m.keys()` is right for a node and raises KeyError for anything else. -/
theorem nodemap_view_membership [DecidableEq U] (h : G.WF) {s : NMap G.n U R} (hd : Decodable c s) (k : K) (u : U) :
    nmItemsContains G c s k u = .ok (decide (lookupOf G c s k = some u)) ∧
    (∃ b, nmValuesContains G c s u = .ok b ∧ (b = true ↔ ∃ k, lookupOf G c s k = some u)) ∧
    (G.Node k → nmKeysContains G s k = .ok (lookupOf G c s k).isSome) ∧
    (¬ G.Node k → nmKeysContains G s k = .error .keyError) := by
  refine ⟨?_, ?_, fun hk => ?_, fun hk => ?_⟩
  · unfold nmItemsContains
    rw [nmAt_eq h hd]
    cases lookupOf G c s k with
    | none => simp
    | some v => simp
  · obtain ⟨l, h1, -, -, h4⟩ := keys_ok (c := c) h hd
    have hA := SetOps.allE_cases (p := fun k => (nmAt G c s k).map fun v => !decide (v = u))
      (P := fun k => lookupOf G c s k ≠ some u) (A := fun k => (lookupOf G c s k).isSome)
      (fun k hk => by
        obtain ⟨v, hv⟩ := Option.isSome_iff_exists.1 hk
        refine ⟨!decide (v = u), ?_, ?_⟩
        · rw [nmAt_eq h hd, hv]; rfl
        · rw [hv]; simp)
      (fun k hk => by
        have hn : lookupOf G c s k = none := by simpa using hk
        rw [nmAt_eq h hd, hn]; rfl) l
    obtain ⟨b, hb⟩ := hA.2.1 fun k hk => (h4 k).1 hk
    refine ⟨!b, ?_, ?_⟩
    · unfold nmValuesContains
      rw [h1]
      show (allE _ l).map _ = _
      rw [hb]; rfl
    · obtain ⟨a1, a2⟩ := hA.1 b hb
      cases b with
      | true =>
        simp only [Bool.not_true, Bool.false_eq_true, false_iff, not_exists]
        intro k hk
        exact a1 rfl k ((h4 k).2 (by show (lookupOf G c s k).isSome; rw [hk]; rfl)) hk
      | false =>
        simp only [Bool.not_false, true_iff]
        obtain ⟨k, -, hk⟩ := a2 rfl
        exact ⟨k, not_not.1 hk⟩
  · obtain ⟨i, hi⟩ := hk.exists_id h
    unfold nmKeysContains
    rw [(getId_eq_ok h).2 hi, ← contains_iff h hd hi]; rfl
  · unfold nmKeysContains
    rw [getId_eq_error h hk]; rfl

/-- **C123.** `m.keys() - other` is right for every builtin set; `m.keys() & other` is right if `other` has only nodes and raises
KeyError otherwise. -/
theorem nodemap_keys_algebra (h : G.WF) {s : NMap G.n U R} (hd : Decodable c s) (other : List K) :
    (∃ l, nmKeysSub G s other = .ok l ∧ l.Nodup ∧ ∀ k, k ∈ l ↔ (lookupOf G c s k).isSome ∧ k ∉ other) ∧
    ((∀ k ∈ other, G.Node k) → ∃ l, nmKeysAnd G s other = .ok l ∧ l.Nodup ∧
      ∀ k, k ∈ l ↔ (lookupOf G c s k).isSome ∧ k ∈ other) ∧
    ((∃ k ∈ other, ¬ G.Node k) → nmKeysAnd G s other = .error .keyError) := by
  have hF := SetOps.filterE_cases (p := nmKeysContains G s) (P := fun k => (lookupOf G c s k).isSome)
    (A := fun k => G.Node k)
    (fun k hk => by
      obtain ⟨i, hi⟩ := hk.exists_id h
      refine ⟨(lookupOf G c s k).isSome, ?_, Iff.rfl⟩
      unfold nmKeysContains
      rw [(getId_eq_ok h).2 hi, ← contains_iff h hd hi]; rfl)
    (fun k hk => by
      unfold nmKeysContains
      rw [getId_eq_error h hk]; rfl) other
  refine ⟨?_, fun hn => ?_, fun hn => ?_⟩
  · obtain ⟨l, h1, -, h3, h4⟩ := keys_ok (c := c) h hd
    refine ⟨l.filter fun k => !decide (k ∈ other), ?_, h3.filter _, fun k => ?_⟩
    · unfold nmKeysSub; rw [h1]; rfl
    · rw [List.mem_filter, h4]; simp
  · rcases hF with ⟨-, l, he, hl⟩ | ⟨⟨k, hk, hx⟩, -⟩
    · refine ⟨l.dedup, ?_, List.nodup_dedup _, fun k => ?_⟩
      · unfold nmKeysAnd; rw [he]; rfl
      · rw [List.mem_dedup, hl, and_comm]
    · exact absurd (hn k hk) hx
  · rcases hF with ⟨hA, -⟩ | ⟨-, he⟩
    · obtain ⟨k, hk, hx⟩ := hn
      exact absurd (hA k hk) hx
    · unfold nmKeysAnd; rw [he]; rfl

/-! ### update -/

/-- the map after storing the pairs in order -/
def overwrite (D : K → Option U) : List (K × U) → K → Option U
  | [] => D
  | p :: ps => overwrite (Function.update D p.1 (some p.2)) ps

/-- a pair that can be stored: the key is a node and the value can be represented -/
def Storable (G : Graph K α) (c : Codec U R) (p : K × U) : Prop := G.Node p.1 ∧ ∃ r, c.enc p.2 = .ok r

namespace MapViews

theorem lookupOf_eq (h : G.WF) {s : NMap G.n U R} (hd : Decodable c s) :
    lookupOf G c s = fun k => if G.Node k then (stored G c s k).orElse fun _ => s.fill else none := by
  classical
  funext k
  by_cases hk : G.Node k
  · obtain ⟨i, hi⟩ := hk.exists_id h
    rw [if_pos hk, lookupOf_at h hi, (stored_at h hd hi).1]
  · rw [if_neg hk, lookupOf_not_node h hk]

theorem set_ok (h : G.WF) (hc : Codec.Sound c) {s : NMap G.n U R} (hd : Decodable c s) {p : K × U}
    (hp : Storable G c p) : ∃ s', nmSet G c s p.1 p.2 = (.ok .unit, s') ∧ Decodable c s' ∧ s'.fill = s.fill ∧
      lookupOf G c s' = Function.update (lookupOf G c s) p.1 (some p.2) := by
  obtain ⟨hk, r, hr⟩ := hp
  obtain ⟨i, hi⟩ := hk.exists_id h
  have hdec := hc _ _ hr
  have hd' : Decodable c { s with vec := vset s.vec i r } := by
    intro j q hq
    simp only [vset] at hq
    split_ifs at hq with e
    · cases hq; exact ⟨_, hdec⟩
    · exact hd j q hq
  refine ⟨{ s with vec := vset s.vec i r }, ?_, hd', rfl, ?_⟩
  · unfold nmSet; rw [(getId_eq_ok h).2 hi]; simp only [hr]
  · rw [lookupOf_eq h hd', lookupOf_eq h hd, stored_set h hi hdec]
    funext k
    simp only [Function.update_apply]
    by_cases e : k = p.1
    · subst e; simp [hk]
    · simp [e]

theorem set_error (h : G.WF) {s : NMap G.n U R} {p : K × U} (hp : ¬ Storable G c p) :
    ∃ e, nmSet G c s p.1 p.2 = (.error e, s) ∧ (¬ G.Node p.1 → e = .keyError) ∧
      (G.Node p.1 → c.enc p.2 = .error e) := by
  by_cases hk : G.Node p.1
  · obtain ⟨i, hi⟩ := hk.exists_id h
    cases he : c.enc p.2 with
    | ok r => exact absurd ⟨hk, r, he⟩ hp
    | error e =>
      refine ⟨e, ?_, fun hn => absurd hk hn, fun _ => rfl⟩
      unfold nmSet; rw [(getId_eq_ok h).2 hi]; simp only [he]
  · refine ⟨.keyError, ?_, fun _ => rfl, fun hn => absurd hn hk⟩
    unfold nmSet; rw [getId_eq_error h hk]

end MapViews

/-- **C123.** `m.update(pairs)`: if every pair can be stored it succeeds, and `m` shows what it showed, overwritten by the pairs
in order; the fill value is kept.  Otherwise it raises (KeyError for a key that is no node, or what storing the value
raises) and exactly the pairs before the first impossible one have been stored. -/
theorem nodemap_update (h : G.WF) (hc : Codec.Sound c) (ps : List (K × U)) : ∀ {s : NMap G.n U R}, Decodable c s →
    Decodable c (nmUpdate G c s ps).2 ∧ (nmUpdate G c s ps).2.fill = s.fill ∧
    (((∀ p ∈ ps, Storable G c p) ∧ (nmUpdate G c s ps).1 = .ok () ∧
        lookupOf G c (nmUpdate G c s ps).2 = overwrite (lookupOf G c s) ps) ∨
      ∃ q p t e, ps = q ++ p :: t ∧ (∀ x ∈ q, Storable G c x) ∧ ¬ Storable G c p ∧ (nmUpdate G c s ps).1 = .error e ∧
        (¬ G.Node p.1 → e = .keyError) ∧ (G.Node p.1 → c.enc p.2 = .error e) ∧
        lookupOf G c (nmUpdate G c s ps).2 = overwrite (lookupOf G c s) q) := by
  induction ps with
  | nil => intro s hd; exact ⟨hd, rfl, Or.inl ⟨by simp, rfl, rfl⟩⟩
  | cons p ps ih =>
    intro s hd
    by_cases hp : Storable G c p
    · obtain ⟨s', e, hd', hf, hl⟩ := set_ok h hc hd hp
      have eu : nmUpdate G c s (p :: ps) = nmUpdate G c s' ps := by
        simp only [nmUpdate, e]
      rw [eu]
      obtain ⟨i1, i2, i3⟩ := ih hd'
      refine ⟨i1, i2.trans hf, ?_⟩
      rcases i3 with ⟨j1, j2, j3⟩ | ⟨q, x, t, er, rfl, j2, j3, j4, j5, j6, j7⟩
      · refine Or.inl ⟨?_, j2, ?_⟩
        · intro y hy; rcases List.mem_cons.1 hy with rfl | hy
          · exact hp
          · exact j1 y hy
        · rw [j3, hl]; rfl
      · refine Or.inr ⟨p :: q, x, t, er, rfl, ?_, j3, j4, j5, j6, ?_⟩
        · intro y hy; rcases List.mem_cons.1 hy with rfl | hy
          · exact hp
          · exact j2 y hy
        · rw [j7, hl]; rfl
    · obtain ⟨e, he, e1, e2⟩ := set_error (c := c) h (s := s) hp
      have eu : nmUpdate G c s (p :: ps) = (.error e, s) := by simp only [nmUpdate, he]
      rw [eu]
      exact ⟨hd, rfl, Or.inr ⟨[], p, ps, e, rfl, by simp, hp, rfl, e1, e2, rfl⟩⟩

/-- what overwriting means: the last pair for a key wins -/
theorem overwrite_apply (D : K → Option U) (ps : List (K × U)) (k : K) :
    overwrite D ps k = (ps.reverse.lookup k).orElse fun _ => D k := by
  induction ps generalizing D with
  | nil => rfl
  | cons p ps ih =>
    obtain ⟨a, b⟩ := p
    rw [overwrite, ih, List.reverse_cons, List.lookup_append]
    cases ps.reverse.lookup k with
    | some u => rfl
    | none =>
      simp only [Function.update_apply, List.lookup_cons, List.lookup_nil]
      by_cases e : k = a
      · subst e; simp
      · have : (k == a) = false := by simpa using e
        simp [e, this]

/-- **C123.** `m.update(other)` for a NodeMap of any graph whose items can all be stored: afterwards `m` shows the value of
`other` where it has one, and what it showed elsewhere. -/
theorem nodemap_update_from {β R' : Type} {H : Graph K β} (h : G.WF) (hH : H.WF) (hc : Codec.Sound c) {s : NMap G.n U R}
    (hd : Decodable c s) {c' : Codec U R'} {t : NMap H.n U R'} (hd' : Decodable c' t)
    (hst : ∀ k u, lookupOf H c' t k = some u → Storable G c (k, u)) :
    (nmUpdateFrom G c s c' t).1 = .ok () ∧
    ∀ k, lookupOf G c (nmUpdateFrom G c s c' t).2 k = (lookupOf H c' t k).orElse fun _ => lookupOf G c s k := by
  obtain ⟨ps, e1, -, -, -, e5, e6, e7⟩ := nodemap_views hH hd'
  have eu : nmUpdateFrom G c s c' t = nmUpdate G c s ps := by unfold nmUpdateFrom; rw [e1]
  rw [eu]
  obtain ⟨-, -, hu⟩ := nodemap_update h hc ps hd
  have hall : ∀ p ∈ ps, Storable G c p := fun p hp => hst p.1 p.2 ((e7 p.1 p.2).1 hp)
  rcases hu with ⟨-, j2, j3⟩ | ⟨q, x, t', er, rfl, -, j3, -⟩
  · refine ⟨j2, fun k => ?_⟩
    rw [j3, overwrite_apply]
    have : ps.reverse.lookup k = ps.lookup k := by
      have hr : (ps.reverse.map Prod.fst).Nodup := by
        rw [List.map_reverse]; exact List.nodup_reverse.2 e5
      cases hl : ps.lookup k with
      | some u =>
        exact (lookup_eq_some_iff hr).2 (List.mem_reverse.2 ((lookup_eq_some_iff e5).1 hl))
      | none =>
        cases hl' : ps.reverse.lookup k with
        | none => rfl
        | some u =>
          have := (lookup_eq_some_iff e5).2 (List.mem_reverse.1 ((lookup_eq_some_iff hr).1 hl'))
          rw [hl] at this; cases this
    rw [this, e6]
  · exact absurd (hall x (by simp)) j3

/-! ### concrete cases -/

/-- the map `10 ↦ 20, 30 ↦ 40` (values are nodes), its items, membership tests and an update that stops half-way -/
example : nmDict Ex.dg exCodec exMap = .ok [(30, 40), (10, 20)] ∧ nmValues Ex.dg exCodec exMap = .ok [40, 20] ∧
    nmItemsContains Ex.dg exCodec exMap 30 40 = .ok true ∧ nmItemsContains Ex.dg exCodec exMap 99 40 = .ok false ∧
    nmValuesContains Ex.dg exCodec exMap 20 = .ok true ∧ nmValuesContains Ex.dg exCodec exMap 30 = .ok false ∧
    nmKeysContains Ex.dg exMap 99 = .error .keyError ∧ nmKeysSub Ex.dg exMap [10, 99] = .ok [30] ∧
    nmKeysAnd Ex.dg exMap [40, 10] = .ok [10] ∧
    (nmUpdate Ex.dg exCodec exMap [(10, 10), (40, 30), (99, 10), (20, 20)]).1 = .error .keyError ∧
    nmDict Ex.dg exCodec (nmUpdate Ex.dg exCodec exMap [(10, 10), (40, 30), (99, 10), (20, 20)]).2 =
      .ok [(30, 40), (10, 10), (40, 30)] := by decide +kernel

example : Storable Ex.dg exCodec (40, 30) ∧ ¬ Storable Ex.dg exCodec (99, 10) ∧ ¬ Storable Ex.dg exCodec (10, 99) := by
  refine ⟨⟨by decide, 1, by decide⟩, fun h => absurd h.1 (by decide), ?_⟩
  rintro ⟨-, r, hr⟩
  have : exCodec.enc 99 = .error .keyError := by decide
  rw [this] at hr; cases hr

end Props
