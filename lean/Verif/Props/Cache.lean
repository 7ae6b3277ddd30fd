import Verif.Proofs.Cache
import Verif.Proofs.CacheMask
import Verif.Proofs.CacheStable
import Verif.Props.Examples

/-!
# Property lookups do not depend on the history: C01 - C04

`lookup c h r` is the outcome of `G.get_property(r.key, mask=r.mask)` on a graph object on which
the requests `h` were made before (in that order, with any masks; requests that raised an
exception included).  `Spec.Prop.value c k` is the value the docstring of `k` defines from the
adjacency matrix alone, `restrict` applies a mask to vector-valued properties.
-/

open GB Spec.Prop Model Model.Cache Proofs.CacheMath Proofs.Cache

namespace Props

variable {ι α : Type} [DecidableEq ι] [LinearOrder α] [Zero α] {c : Ctx ι α}

/-- some node has an edge to itself -/
def SelfEdge (c : Ctx ι α) : Prop := ∃ i, (c.A i i).isSome

/-- The requests that a `DiGraph` with self-edges handles wrongly (see
`total_degrees_poisons_has_self_edges`): `total_degrees+` without a mask. -/
def Safe (c : Ctx ι α) (r : Req ι c.n) : Prop :=
  c.dir = true → r.key = .totdeg .p → r.mask = none → ¬ SelfEdge c

theorem safe_of_graph (hd : c.dir = false) (r : Req ι c.n) : Safe c r :=
  fun h => by simp [hd] at h

theorem noSelf_iff_selfEdge : NoSelf c.A ↔ ¬ SelfEdge c := noSelf_iff

theorem after_inv (hv : c.Valid) (strict : Prop) (h : List (Req ι c.n))
    (hs : ∀ r ∈ h, Safe c r ∧ (r.key = .negDiag → ¬ strict)) :
    Inv (good c strict False) (after c h) := by
  unfold after
  have : ∀ s, Inv (good c strict False) s → Inv (good c strict False) (h.foldl (fun s r => exec c r s) s) := by
    induction h with
    | nil => exact fun s hs => hs
    | cons r h ih =>
      intro s hi
      refine ih (fun r' hr' => hs r' (List.mem_cons_of_mem _ hr')) _ ?_
      obtain ⟨h1, h2⟩ := hs r (List.mem_cons_self ..)
      exact ((sat_getProp (S := fun _ => False) (ex := False) hv r.al r.mask r.key (fun a b => (h2 a b).elim)
        (fun a b d => noSelf_iff_selfEdge.2 (h1 a b d)) (by simp)).run s hi (by simp)).1
  exact this _ fun k v h => by simp at h

theorem lookup_result_safe (hv : c.Valid) (strict : Prop) (h : List (Req ι c.n)) (r : Req ι c.n)
    (hs : ∀ r ∈ h, Safe c r ∧ (r.key = .negDiag → ¬ strict)) (hr : Safe c r)
    (hn : r.key = .negDiag → ¬ strict) :
    (∀ v, lookup c h r = .ok v → Result c strict False r.mask r.key v) ∧
    (∀ e, lookup c h r = .error e → Allowed c strict r.key e) := by
  have := (sat_getProp (S := fun _ => False) (ex := False) hv r.al r.mask r.key
    (fun a b => (hn a b).elim) (fun a b d => noSelf_iff_selfEdge.2 (hr a b d)) (by simp)).run (after c h) (after_inv hv strict h hs) (by simp)
  exact ⟨fun v hv => (this.2.2.1 v hv).1, this.2.2.2⟩

/-- **C04**: a lookup with a mask returns exactly what the lookup without it would have returned at that moment,
restricted to the mask (and raises the exception it would have raised): for every matrix, property name, mask and
history of earlier requests, the ones that corrupt the cache included. -/
theorem masked_lookup_same_history (h : List (Req ι c.n)) (k : Key ι) (m : VMask c.n) (al : Bool) :
    lookup c h { key := k, mask := some m, al := al } =
      (lookup c h { key := k, al := al }).map (restrict (some m) k) :=
  mask_getProp h al m k

/-- an unmasked lookup is a lookup with a mask that selects everything -/
theorem unmasked_lookup_eq (h : List (Req ι c.n)) (k : Key ι) (al : Bool) :
    lookup c h { key := k, al := al } = lookup c h { key := k, mask := some fun _ => true, al := al } := by
  have hid : restrict (some fun _ => true) k = fun v : Val c.n α k => v := by
    cases k <;> rfl
  have := masked_lookup_same_history h k (fun _ => true) al
  rw [hid] at this
  refine Eq.trans ?_ this.symm
  cases lookup c h { key := k, al := al } <;> rfl

theorem lookup_result (hv : c.Valid) (strict : Prop) (h : List (Req ι c.n)) (r : Req ι c.n)
    (hs : ∀ r ∈ h, Safe c r ∧ (r.key = .negDiag → ¬ strict))
    (hn : r.key = .negDiag → ¬ strict) :
    (∀ v, lookup c h r = .ok v → Result c strict False r.mask r.key v) ∧
    (∀ e, lookup c h r = .error e → Allowed c strict r.key e) := by
  by_cases hr : Safe c r
  · exact lookup_result_safe hv strict h r hs hr hn
  · obtain ⟨k, m, al⟩ := r
    have hm : m = none := by
      by_contra hm
      exact hr fun _ _ h => absurd h hm
    subst hm
    have := lookup_result_safe hv strict h { key := k, mask := some fun _ => true, al := al } hs
      (fun _ _ h => by cases h) hn
    rw [← unmasked_lookup_eq h k al] at this
    refine ⟨fun v hv => ?_, this.2⟩
    obtain ⟨h1, h2⟩ := this.1 v hv
    refine ⟨fun a b => (h1 a b).trans ?_, h2⟩
    cases k <;> rfl

/-- The lookups that may raise: `{op}_element-` and `has_negative_edges-` (`AttributeError`, see
`element_minus_attribute_error`), `iso_value` when the matrix is not iso-valued (`KeyError`, see
`iso_value_key_error`), and the names a `Graph` does not have (`KeyError`). -/
def MayRaise (c : Ctx ι α) (k : Key ι) (e : Err) : Prop :=
  (e = .attributeError ∧ ((∃ o, k = .elem o .m) ∨ k = .neg .m)) ∨
  (e = .keyError ∧ ((k = .isoVal ∧ c.iso = none) ∨
    (c.dir = false ∧ ∃ s, k = .recip s ∨ k = .totdeg s ∨ k = .totrecip s)))

/-- **C01** (all names but `has_self_edges` and `has_negative_diagonal`): on a `Graph` with a
symmetric matrix, whatever was requested before, a lookup returns the defined value (restricted
to the mask). -/
theorem graph_lookup_history_independent_partial (hv : c.Valid) (hd : c.dir = false)
    (h : List (Req ι c.n)) (r : Req ι c.n) (h1 : r.key ≠ .hasSelf) (h2 : r.key ≠ .negDiag)
    {v} (hl : lookup c h r = .ok v) : v = restrict r.mask r.key (value c r.key) :=
  ((lookup_result hv False h r (fun _ _ => ⟨safe_of_graph hd _, by simp⟩) (by simp)).1 v hl).1 h1 h2

/-- **C01**: ... and it raises only in the listed cases. -/
theorem graph_lookup_errors (hv : c.Valid) (hd : c.dir = false)
    (h : List (Req ι c.n)) (r : Req ι c.n) {e} (hl : lookup c h r = .error e) :
    MayRaise c r.key e := by
  rcases (lookup_result hv False h r (fun _ _ => ⟨safe_of_graph hd _, by simp⟩)
    (by simp)).2 e hl with ⟨h1, _, h2⟩ | h
  · exact Or.inl ⟨h1, h2⟩
  · exact Or.inr h

/-- **C02** (all names but `has_self_edges` and `has_negative_diagonal`): on a `DiGraph`, for
histories that do not ask for the unmasked `total_degrees+` of a graph with self-edges. -/
theorem digraph_lookup_history_independent_partial (hv : c.Valid)
    (h : List (Req ι c.n)) (hs : ∀ r ∈ h, Safe c r) (r : Req ι c.n)
    (h1 : r.key ≠ .hasSelf) (h2 : r.key ≠ .negDiag)
    {v} (hl : lookup c h r = .ok v) : v = restrict r.mask r.key (value c r.key) :=
  ((lookup_result hv False h r (fun r hr => ⟨hs r hr, by simp⟩) (by simp)).1 v hl).1 h1 h2

theorem digraph_lookup_errors (hv : c.Valid)
    (h : List (Req ι c.n)) (hs : ∀ r ∈ h, Safe c r) (r : Req ι c.n)
    {e} (hl : lookup c h r = .error e) : MayRaise c r.key e := by
  rcases (lookup_result hv False h r (fun r hr => ⟨hs r hr, by simp⟩) (by simp)).2 e hl with
    ⟨h1, _, h2⟩ | h
  · exact Or.inl ⟨h1, h2⟩
  · exact Or.inr h

/-- **C01/C02**, `has_negative_diagonal`: `False` is always right, and `True` is right whenever
the graph has no negative edge at all (so it is exact on graphs with nonnegative weights). -/
theorem has_negative_diagonal_partial (hv : c.Valid)
    (h : List (Req ι c.n)) (hs : ∀ r ∈ h, Safe c r) (m : Option (VMask c.n)) (al : Bool)
    {b : Bool} (hl : lookup c h { key := .negDiag, mask := m, al := al } = .ok b) :
    (b = false → ¬ ∃ i w, c.A i i = some w ∧ w < 0) ∧
    (b = true → ∃ i j w, c.A i j = some w ∧ w < 0) := by
  have := ((lookup_result hv False h { key := .negDiag, mask := m, al := al }
    (fun r hr => ⟨hs r hr, by simp⟩) (by simp)).1 b hl).2 (Or.inr rfl)
  obtain ⟨-, h1, h2⟩ := this
  constructor
  · rintro hb ⟨i, w, hw, hlt⟩
    have := h1 hb
    rw [← Bool.not_eq_true, value_negD] at this
    exact this ⟨i, by simpa [hw] using hlt⟩
  · intro hb
    obtain ⟨i, j, hij⟩ := (value_neg .p).1 (h2 hb)
    change (c.A i j).any _ = true at hij
    cases hw : c.A i j with
    | none => simp [hw] at hij
    | some w => exact ⟨i, j, w, hw, by simpa [hw] using hij⟩

/-- **C03**: if `has_negative_diagonal` was not requested before, `has_self_edges` is exact
(for a `DiGraph`: and no unmasked `total_degrees+` of a graph with self-edges). -/
theorem has_self_edges_exact_partial (hv : c.Valid)
    (h : List (Req ι c.n)) (hs : ∀ r ∈ h, Safe c r ∧ r.key ≠ .negDiag) (m : Option (VMask c.n))
    (al : Bool) {b : Bool} (hl : lookup c h { key := .hasSelf, mask := m, al := al } = .ok b) :
    b = true ↔ SelfEdge c := by
  have := ((lookup_result hv True h { key := .hasSelf, mask := m, al := al }
    (fun r hr => ⟨(hs r hr).1, fun h => absurd h (hs r hr).2⟩) (by simp)).1 b hl).2
    (Or.inl rfl)
  obtain ⟨h1, h2⟩ := this
  cases b
  · simpa using noSelf_iff_selfEdge.1 (h1 rfl)
  · have := h2 trivial rfl
    rw [noSelf_iff_selfEdge, not_not] at this
    simpa using this

/-- **C03**: `has_self_edges` always returns (no exception), and `False` is right after every
history of safe requests. -/
theorem has_self_edges_sound (hv : c.Valid)
    (h : List (Req ι c.n)) (hs : ∀ r ∈ h, Safe c r) (m : Option (VMask c.n)) (al : Bool) :
    ∃ b : Bool, lookup c h { key := .hasSelf, mask := m, al := al } = .ok b ∧
      (b = false → ¬ SelfEdge c) := by
  have := lookup_result hv False h { key := .hasSelf, mask := m, al := al }
    (fun r hr => ⟨hs r hr, by simp⟩) (by simp)
  cases hl : lookup c h { key := .hasSelf, mask := m, al := al } with
  | error e =>
    have := this.2 e hl
    simp [Allowed] at this
  | ok b =>
    exact ⟨b, rfl, fun hb => noSelf_iff_selfEdge.1 (((this.1 b hl).2 (Or.inl rfl)).1 hb)⟩

/-- **C03**: once a lookup has shown `has_self_edges`, every later lookup shows the same value, whatever was
requested before and in between. -/
theorem has_self_edges_stable (h h' : List (Req ι c.n)) (m m' : Option (VMask c.n)) (al al' : Bool) {b : Bool}
    (hl : lookup c h { key := .hasSelf, mask := m, al := al } = .ok b) :
    lookup c (h ++ [{ key := .hasSelf, mask := m, al := al }] ++ h') { key := .hasSelf, mask := m', al := al' } =
      .ok b := by
  have h1 : (after c (h ++ [{ key := .hasSelf, mask := m, al := al }])) .hasSelf = some b := by
    unfold after
    rw [List.foldl_append]
    refine getSelf_known (s := after c h) ?_
    exact Prod.ext hl rfl
  have h2 : (after c (h ++ [{ key := .hasSelf, mask := m, al := al }] ++ h')) .hasSelf = some b := by
    unfold after at h1 ⊢
    rw [List.foldl_append]
    exact stab_after h' _ h1
  exact getSelf_cached h2

/-- **C04**: for a vector-valued property, a masked lookup after any (safe) history is the
unmasked lookup (after any other history) restricted to the mask. -/
theorem masked_lookup_is_restriction (hv : c.Valid) (h h' : List (Req ι c.n))
    (hs : ∀ r ∈ h, Safe c r) (hs' : ∀ r ∈ h', Safe c r) (k : Key ι) (m : VMask c.n)
    (hk : k ≠ .hasSelf ∧ k ≠ .negDiag) (al al' : Bool) {v w}
    (hl : lookup c h { key := k, mask := some m, al := al } = .ok v)
    (hl' : lookup c h' { key := k, al := al' } = .ok w) : v = restrict (some m) k w := by
  have e1 := digraph_lookup_history_independent_partial hv h hs
    { key := k, mask := some m, al := al } hk.1 hk.2 hl
  have e2 := digraph_lookup_history_independent_partial hv h' hs' { key := k, al := al' }
    hk.1 hk.2 hl'
  rw [e1, e2]
  cases k <;> rfl

/-- **C04**: unmasked lookups after a history of masked ones are unaffected: they show the
defined value. -/
theorem unmasked_after_masked (hv : c.Valid) (h : List (Req ι c.n)) (hm : ∀ r ∈ h, r.mask ≠ none)
    (k : Key ι) (hk : k ≠ .hasSelf ∧ k ≠ .negDiag) (al : Bool) {v}
    (hl : lookup c h { key := k, al := al } = .ok v) : v = value c k := by
  have := digraph_lookup_history_independent_partial hv h
    (fun r hr _ _ hn => absurd hn (hm r hr)) { key := k, al := al } hk.1 hk.2 hl
  rw [this]
  cases k <;> rfl

/-- **C01/C02**: without self-edges (and without earlier `has_negative_diagonal` requests) the
only lookups that raise are `iso_value` and names the class does not have. -/
theorem lookup_total_without_self_edges (hv : c.Valid) (h : List (Req ι c.n))
    (hs : ∀ r ∈ h, r.key ≠ .negDiag) (hn : ¬ SelfEdge c) (r : Req ι c.n)
    (h1 : r.key ≠ .isoVal) (h3 : r.key ≠ .negDiag)
    (h2 : c.dir = false → ∀ s, r.key ≠ .recip s ∧ r.key ≠ .totdeg s ∧ r.key ≠ .totrecip s) :
    ∃ v, lookup c h r = .ok v := by
  have safe : ∀ r : Req ι c.n, Safe c r := fun r _ _ _ => hn
  cases hl : lookup c h r with
  | ok v => exact ⟨v, rfl⟩
  | error e =>
    exfalso
    rcases (lookup_result hv True h r (fun r hr => ⟨safe r, fun h => absurd h (hs r hr)⟩)
      (fun h => absurd h h3)).2 e hl with ⟨_, h, _⟩ | ⟨_, ⟨h, _⟩ | ⟨hd, s, h⟩⟩
    · exact h trivial (noSelf_iff_selfEdge.2 hn)
    · exact h1 h
    · have := h2 hd s
      tauto

theorem after_append (h : List (Req ι c.n)) (r : Req ι c.n) : after c (h ++ [r]) = exec c r (after c h) := by
  unfold after; rw [List.foldl_append]; rfl

theorem evalAll_lookups (al : Bool) (mask : Option (VMask c.n)) (ks : List (Key ι)) :
    ∀ (h : List (Req ι c.n)) (d d' : Store ι c.n α) (s' : Store ι c.n α),
      (evalAll c al mask ks d).run (after c h) = (.ok d', s') → ∀ k v, d' k = some v →
        (k ∉ ks ∧ d k = some v) ∨ ∃ pre post, ks = pre ++ k :: post ∧ k ∉ post ∧
          lookup c (h ++ pre.map fun k => { key := k, mask := mask, al := al })
            { key := k, mask := mask, al := al } = .ok v := by
  induction ks with
  | nil =>
    intro h d d' s' he k v hk
    cases he
    exact .inl ⟨by simp, hk⟩
  | cons k0 ks ih =>
    intro h d d' s' he k v hk
    unfold evalAll at he
    rw [run_bind] at he
    rcases hg : (getProp c al mask k0).run (after c h) with ⟨⟨e⟩ | ⟨v0⟩, s1⟩ <;> rw [hg] at he
    · cases he
    have hs1 : s1 = after c (h ++ [{ key := k0, mask := mask, al := al }]) := by
      rw [after_append]; exact (congrArg Prod.snd hg).symm
    subst hs1
    rcases ih _ _ _ _ he k v hk with ⟨hn, hd⟩ | ⟨pre, post, e1, e2, e3⟩
    · by_cases e : k = k0
      · subst e
        rw [Function.update_self] at hd
        cases hd
        refine .inr ⟨[], ks, rfl, hn, ?_⟩
        rw [List.map_nil, List.append_nil]
        exact congrArg Prod.fst hg
      · rw [Function.update_of_ne e] at hd
        exact .inl ⟨by simp [e, hn], hd⟩
    · refine .inr ⟨k0 :: pre, post, by rw [e1]; rfl, e2, ?_⟩
      rw [List.append_assoc] at e3
      exact e3

theorem pickAll_spec (d : Store ι c.n α) (names : List (Key ι)) :
    ∀ (s s' : Store ι c.n α) (l), (pickAll c d names).run s = (.ok l, s') →
      l.map Sigma.fst = names ∧ ∀ p ∈ l, d p.1 = some p.2 := by
  induction names with
  | nil => intro s s' l hl; cases hl; simp
  | cons k ks ih =>
    intro s s' l hl
    unfold pickAll at hl
    rw [run_bind] at hl
    unfold pick at hl
    cases hk : d k with
    | none => rw [hk] at hl; cases hl
    | some v =>
      rw [hk] at hl
      dsimp only [run_pure] at hl
      rw [run_bind] at hl
      rcases hr : (pickAll c d ks).run s with ⟨⟨e⟩ | ⟨l'⟩, s2⟩ <;> rw [hr] at hl
      · cases hl
      · cases hl
        obtain ⟨h1, h2⟩ := ih _ _ _ hr
        refine ⟨by rw [List.map_cons, h1], fun p hp => ?_⟩
        rcases List.mem_cons.1 hp with rfl | hp
        · exact hk
        · exact h2 p hp

/-- **C05**: after any history whatsoever, `get_properties(names)` returns one value per requested name, in the
requested order, and each value is what a `get_property` call returns: the calls are made one after the other on
the same object, in an order of nondecreasing priority. -/
theorem get_properties_as_lookups (h : List (Req ι c.n)) (al : Bool) (mask : Option (VMask c.n))
    (names : List (Key ι)) {l} (hl : lookups c h al mask names = .ok l) :
    l.map Sigma.fst = names ∧ ∃ order : List (Key ι), order.Perm names ∧
      order.Pairwise (fun a b => priority c.dir a ≤ priority c.dir b) ∧
      ∀ p ∈ l, ∃ pre post, order = pre ++ p.1 :: post ∧ p.1 ∉ post ∧
        lookup c (h ++ pre.map fun k => { key := k, mask := mask, al := al })
          { key := p.1, mask := mask, al := al } = .ok p.2 := by
  unfold lookups getProps at hl
  rw [run_bind] at hl
  rcases he : (evalAll c al mask (names.insertionSort fun a b => priority c.dir a ≤ priority c.dir b)
    fun _ => none).run (after c h) with ⟨⟨e⟩ | ⟨d⟩, s1⟩ <;> rw [he] at hl
  · cases hl
  rcases hp : (pickAll c d names).run s1 with ⟨⟨e⟩ | ⟨l'⟩, s2⟩ <;> dsimp only at hl <;> rw [hp] at hl
  · cases hl
  cases hl
  obtain ⟨h1, h2⟩ := pickAll_spec d names _ _ _ hp
  refine ⟨h1, _, List.perm_insertionSort (fun a b => priority c.dir a ≤ priority c.dir b) names, ?_, fun p hpl => ?_⟩
  · haveI : Std.Total (fun a b : Key ι => priority c.dir a ≤ priority c.dir b) := ⟨fun a b => Nat.le_total _ _⟩
    haveI : IsTrans (Key ι) (fun a b => priority c.dir a ≤ priority c.dir b) := ⟨fun a b d => Nat.le_trans⟩
    exact List.pairwise_insertionSort _ names
  · rcases evalAll_lookups al mask _ h _ _ _ he p.1 p.2 (h2 p hpl) with ⟨_, h⟩ | h
    · cases h
    · exact h

/-- **C05**: `get_properties(names)` returns one value per requested name, in the requested order
(whatever the internal priorities), each the value `get_property` is defined to return; `names`
may contain repetitions. -/
theorem get_properties_correct_partial (hv : c.Valid) (h : List (Req ι c.n))
    (hs : ∀ r ∈ h, Safe c r) (al : Bool) (mask : Option (VMask c.n)) (names : List (Key ι))
    (hn : ∀ k ∈ names, Safe c { key := k, mask := mask }) {l}
    (hl : lookups c h al mask names = .ok l) :
    l.map Sigma.fst = names ∧ ∀ p ∈ l, p.1 ≠ .hasSelf → p.1 ≠ .negDiag →
      p.2 = restrict mask p.1 (value c p.1) := by
  have := (sat_getProps (strict := False) (ex := False) (S := fun _ => False) hv (priority c.dir) al mask names
    (fun _ => True) (by simp) (fun k hk a b d => noSelf_iff_selfEdge.2 (hn k hk a b d)) (by simp)
    (fun _ _ _ _ => trivial)).run (after c h) (after_inv hv False h fun r hr => ⟨hs r hr, by simp⟩) (by simp)
  obtain ⟨⟨g1, g2⟩, -⟩ := this.2.2.1 l hl
  exact ⟨g1, fun p hp h1 h2 => (g2 p hp).1 h1 h2⟩

/-- **C05**: in histories and name lists without `has_negative_diagonal`, all values are the
defined ones, `has_self_edges` included. -/
theorem get_properties_correct (hv : c.Valid) (h : List (Req ι c.n))
    (hs : ∀ r ∈ h, Safe c r ∧ r.key ≠ .negDiag) (al : Bool) (mask : Option (VMask c.n))
    (names : List (Key ι))
    (hn : ∀ k ∈ names, Safe c { key := k, mask := mask } ∧ k ≠ .negDiag) {l}
    (hl : lookups c h al mask names = .ok l) :
    l = names.map fun k => ⟨k, restrict mask k (value c k)⟩ := by
  have := (sat_getProps (strict := True) (ex := False) (S := fun _ => False) hv (priority c.dir) al mask names
    (fun _ => True) (fun k hk h => absurd h (hn k hk).2)
    (fun k hk a b d => noSelf_iff_selfEdge.2 ((hn k hk).1 a b d)) (by simp)
    (fun _ _ _ _ => trivial)).run (after c h)
    (after_inv hv True h fun r hr => ⟨(hs r hr).1, fun h => absurd h (hs r hr).2⟩) (by simp)
  obtain ⟨⟨g1, g2⟩, -⟩ := this.2.2.1 l hl
  subst g1
  rw [List.map_map]
  conv_lhs => rw [← List.map_id l]
  refine List.map_congr_left fun p hp => ?_
  obtain ⟨k, v⟩ := p
  have hr := g2 _ hp
  have hk := (hn k (List.mem_map_of_mem (f := Sigma.fst) hp)).2
  change (⟨k, v⟩ : Σ k : Key ι, Val c.n α k) = ⟨k, restrict mask k (value c k)⟩
  congr 1
  by_cases e : k = .hasSelf
  · subst e
    have := hr.2 (Or.inl rfl)
    obtain ⟨h1, h2⟩ := this
    change v = decide (∃ i, (c.A i i).isSome)
    have hv' : v = true ↔ ∃ i, (c.A i i).isSome := by
      rw [← not_noSelf]
      constructor
      · exact h2 trivial
      · intro h'
        cases hb : v
        · exact absurd (h1 hb) h'
        · rfl
    cases hb : v
    · rw [hb] at hv'; simpa using hv'
    · rw [hb] at hv'; simpa using hv'
  · exact hr.1 e hk

/-- **C05**: `get_properties` raises only when one of the names may raise in `get_property`. -/
theorem get_properties_errors (hv : c.Valid) (h : List (Req ι c.n))
    (hs : ∀ r ∈ h, Safe c r) (al : Bool) (mask : Option (VMask c.n)) (names : List (Key ι))
    (hn : ∀ k ∈ names, Safe c { key := k, mask := mask }) {e}
    (hl : lookups c h al mask names = .error e) : ∃ k ∈ names, MayRaise c k e := by
  have := (sat_getProps (strict := False) (ex := False) (S := fun _ => False) hv (priority c.dir) al mask names
    (fun e => ∃ k ∈ names, MayRaise c k e) (by simp)
    (fun k hk a b d => noSelf_iff_selfEdge.2 (hn k hk a b d)) (by simp)
    (fun k hk e he => ⟨k, hk, by
      rcases he with ⟨h1, _, h2⟩ | h
      · exact Or.inl ⟨h1, h2⟩
      · exact Or.inr h⟩)).run
    (after c h) (after_inv hv False h fun r hr => ⟨hs r hr, by simp⟩) (by simp)
  exact this.2.2.2 e hl

/-! ## non-vacuity, and the histories on which the full statements fail -/

end Props

namespace Ex

/-- the operator names used below -/
inductive Op | plus | min | max deriving DecidableEq

/-- their meaning -/
def opf : Op → Int → Int → Int
  | .plus, a, b => a + b
  | .min, a, b => min a b
  | .max, a, b => max a b

theorem opf_assoc (o : Op) (a b d : Int) : opf o (opf o a b) d = opf o a (opf o b d) := by
  cases o <;> simp only [opf]
  · omega
  · omega
  · omega
theorem opf_comm (o : Op) (a b : Int) : opf o a b = opf o b a := by
  cases o <;> simp only [opf] <;> omega

/-- undirected: 0 - 1 with weight -2, self-loop of weight 1 at 0, node 2 isolated -/
def cu : Ctx Op Int where
  n := 3
  A := ofTriples 3 [(0,1,-2), (1,0,-2), (0,0,1)]
  f := opf
  mn := .min
  nonneg := false
  iso := none
  dir := false

/-- the same matrix as a `DiGraph` -/
def cd : Ctx Op Int := { cu with dir := true }

/-- directed 0 → 1 of weight -1: iso-valued, no self-edges, acyclic -/
def cn : Ctx Op Int where
  n := 2
  A := ofTriples 2 [(0,1,-1)]
  f := opf
  mn := .min
  nonneg := false
  iso := some (-1)
  dir := true

theorem cu_valid : cu.Valid where
  assoc := opf_assoc
  comm := opf_comm
  min := fun _ _ => rfl
  nonneg := by simp [cu]
  iso := by simp [cu]
  symm := by unfold cu; decide

theorem cd_valid : cd.Valid where
  assoc := opf_assoc
  comm := opf_comm
  min := fun _ _ => rfl
  nonneg := by simp [cd, cu]
  iso := by simp [cd, cu]
  symm := by simp [cd]

theorem cn_valid : cn.Valid where
  assoc := opf_assoc
  comm := opf_comm
  min := fun _ _ => rfl
  nonneg := by simp [cn]
  iso := by
    intro x hx
    have : x = -1 := by simpa [cn] using hx.symm
    subst this
    refine ⟨⟨⟨0, by decide⟩, ⟨1, by decide⟩, by decide⟩, ?_⟩
    have : ∀ i j : Fin cn.n, cn.A i j = none ∨ cn.A i j = some (-1) := by decide
    intro i j w hw
    rcases this i j with h | h <;> rw [h] at hw
    · simp at hw
    · simpa using hw.symm
  symm := by simp [cn]

end Ex

namespace Props
open Ex

-- the hypotheses of the theorems above are met, with non-trivial histories
example : (lookup cu [{ key := .U .m }, { key := .elem .min .p, mask := some fun _ => true },
      { key := .hasSelf }] { key := .vec (.mon .plus) .m .row, mask := some fun i => i.val == 0 }).map
      (fun v => List.ofFn v) = .ok [some (-2), none, none] := by decide +kernel
example : lookup cd [{ key := .recip .m }, { key := .totdeg .m }, { key := .diag }]
    { key := .totrecip .p } = .ok 3 := by decide +kernel
example : lookup cd [{ key := .totdeg .p, mask := some fun _ => true }, { key := .U .m }]
    { key := .hasSelf } = .ok true := by decide +kernel
example : ∀ r ∈ ([{ key := .recip .m }, { key := .totdeg .m }, { key := .diag }] : List (Req Op cd.n)),
    Safe cd r := by simp [Safe]

example : (lookups cd [{ key := .U .p }] false none
      [.hasSelf, .elem .min .m, .hasSelf, .totrecip .p]).map (fun l => l.map Sigma.fst)
    = .ok [.hasSelf, .elem .min .m, .hasSelf, .totrecip .p] := by decide +kernel

/-- **C01/C02 fail for `has_negative_diagonal`**: after `has_negative_edges+` the graph `cu`
(self-loop of weight 1, other edges negative) is reported to have a negative self-edge, because
the missing `min_element-` defaults to 0 (graph.py:147-152). -/
theorem has_negative_diagonal_depends_on_history :
    lookup cu [] { key := .negDiag } = .ok false ∧
    lookup cu [{ key := .neg .p }] { key := .negDiag } = .ok true ∧
    lookup cd [{ key := .neg .p }] { key := .negDiag } = .ok true ∧
    value cu .negDiag = false := by decide +kernel

/-- **C03 fails after `has_negative_diagonal`**: on the self-edge-free digraph `0 → 1` of weight
-1, `has_negative_edges+` and `has_negative_diagonal` make `has_self_edges` report `True`. -/
theorem has_self_edges_wrong_after_negative_diagonal :
    lookup cn [] { key := .hasSelf } = .ok false ∧
    lookup cn [{ key := .isoVal }, { key := .neg .p }, { key := .negDiag }] { key := .hasSelf } = .ok true ∧
    ¬ SelfEdge cn := by
  refine ⟨by decide +kernel, by decide +kernel, ?_⟩
  unfold SelfEdge; decide

/-- **C02/C03 fail after `total_degrees+`**: the digraph `cd` has a self-edge, but after
`total_degrees+` it is reported to have none (digraph.py:373-374 compares the sum of
`total_degrees+` with twice the number of edges; they are always equal), and the `-` properties
then include the self-edge. -/
theorem total_degrees_poisons_has_self_edges :
    lookup cd [] { key := .hasSelf } = .ok true ∧
    lookup cd [{ key := .totdeg .p }] { key := .hasSelf } = .ok false ∧
    lookup cd [{ key := .totdeg .p }] { key := .recip .m } ≠ .ok (value cd (.recip .m)) := by
  decide +kernel

/-- **C04 fails after `total_degrees+`** in its second half: on the digraph `cd`, which has a self-edge, `offdiag` is
right after `total_degrees+`, but wrong if `degrees-` of a single node is requested in between (with a mask).
(`masked_lookup_same_history`, the first half, has no exception: the masked value itself is the wrong value
restricted.) -/
theorem masked_lookup_corrupts_after_total_degrees :
    lookup cd [{ key := .totdeg .p }] { key := .offdiag } = .ok (value cd .offdiag) ∧
    lookup cd [{ key := .totdeg .p }, { key := .vec .count .m .row, mask := some fun i => i.val == 1 }]
      { key := .offdiag } ≠ .ok (value cd .offdiag) := by
  decide +kernel

/-- **C05 fails with `total_degrees+` among the names**: on the digraph `cd`, `sum_rowwise-` alone (written
`plus_rowwise-`) is right, but asked for together with `total_degrees+` it includes the self-edge. -/
theorem get_properties_wrong_with_total_degrees :
    lookup cd [] { key := .vec (.mon .plus) .m .row } = .ok (value cd (.vec (.mon .plus) .m .row)) ∧
    (lookups cd [] false none [.vec (.mon .plus) .m .row, .totdeg .p]).map (fun l => l.map fun p =>
      if h : p.1 = .vec (.mon .plus) .m .row then
        decide ((cast (congrArg (Val cd.n Int) h) p.2 : Vec cd.n Int) = value cd (.vec (.mon .plus) .m .row)) else true) =
      .ok [false, true] := by
  decide +kernel

-- a history that corrupts the cache, and the two lookups of `masked_lookup_same_history`
example : (lookup cd [{ key := .totdeg .p }, { key := .hasSelf }] { key := .recip .m }).map (fun v => List.ofFn v) =
    .ok [some 2, some 1, none] ∧
    (lookup cd [{ key := .totdeg .p }, { key := .hasSelf }]
      { key := .recip .m, mask := some fun i => i.val == 0 }).map (fun v => List.ofFn v) =
    .ok [some 2, none, none] := by decide +kernel

/-- **C01**: `{op}_element-` raises `AttributeError` when `L-` and `U-` are cached and the graph
has a self-edge (`Matrix.reduce` does not exist, _caching.py:124-132), although it is fine on a
fresh graph. -/
theorem element_minus_attribute_error :
    lookup cu [] { key := .elem .min .m } = .ok (some (-2)) ∧
    lookup cu [{ key := .L .m }, { key := .U .m }] { key := .elem .min .m } = .error .attributeError := by
  decide +kernel

/-- **C01**: `iso_value` raises `KeyError` after `is_iso` on a matrix that is not iso-valued
(graph.py:247-248), although it is `None` on a fresh graph. -/
theorem iso_value_key_error :
    lookup cu [] { key := .isoVal } = .ok none ∧
    lookup cu [{ key := .isIso }] { key := .isoVal } = .error .keyError := by decide +kernel

end Props
