import Verif.Props.NodeRows
import Verif.Model.SetOps
import Verif.Proofs.BfsApi

/-!
# C122 Comparing and combining NodeSets with other sets

`den o` is the set of values an operand holds, `Knows o k` says that `k in o` can be asked without an exception.
-/

open GB Spec Model Model.Graph Proofs

namespace Props

variable {K α : Type} [DecidableEq K] {G : Graph K α}

namespace SetOps

/-- the values an operand holds -/
def den : Operand K α → Set K
  | .set l => {k | k ∈ l}
  | .nodeset H w => members H w
  | .iter l => {k | k ∈ l}

/-- operands that exist: the elements of a builtin set are distinct, a node set belongs to a graph -/
def Valid : Operand K α → Prop
  | .set l => l.Nodup
  | .nodeset H _ => H.WF
  | .iter _ => True

/-- `k in o` does not raise -/
def Knows : Operand K α → K → Prop
  | .nodeset H _, k => H.Node k
  | _, _ => True

/-- the operand is a set -/
def IsSet : Operand K α → Prop
  | .iter _ => False
  | _ => True

theorem isSet_iff (o : Operand K α) : o.isSet = true ↔ IsSet o := by
  cases o <;> simp [Operand.isSet, IsSet]

/-! ### the callbacks -/

theorem elems_ok {o : Operand K α} (ho : Valid o) :
    ∃ l, o.elems = .ok l ∧ (∀ k, k ∈ l ↔ k ∈ den o) ∧ (IsSet o → l.Nodup ∧ l.length = o.len) := by
  cases o with
  | set l => exact ⟨l, rfl, fun k => Iff.rfl, fun _ => ⟨ho, rfl⟩⟩
  | iter l => exact ⟨l, rfl, fun k => Iff.rfl, fun h => h.elim⟩
  | nodeset H w =>
    obtain ⟨l, h1, h2, h3, h4⟩ := listToKeys_indices (G := H) ho w
    exact ⟨l, h1, h4, fun _ => ⟨h3, h2⟩⟩

theorem self_elems (h : G.WF) (v : Vec G.n Bool) :
    ∃ l, listToKeys G (indices v) = .ok l ∧ (∀ k, k ∈ l ↔ k ∈ members G v) ∧ l.Nodup ∧ l.length = nvals v := by
  obtain ⟨l, h1, h2, h3, h4⟩ := listToKeys_indices h v
  exact ⟨l, h1, h4, h3, h2⟩

theorem contains_ok {o : Operand K α} (ho : Valid o) {k : K} (hk : Knows o k) :
    ∃ b, o.contains k = .ok b ∧ (b = true ↔ k ∈ den o) := by
  cases o with
  | set l => exact ⟨_, rfl, by simp [den]⟩
  | iter l => exact ⟨_, rfl, by simp [den]⟩
  | nodeset H w => exact ⟨_, nsContains_ok (G := H) ho hk, Iff.rfl⟩

theorem contains_error {o : Operand K α} (ho : Valid o) {k : K} (hk : ¬ Knows o k) :
    o.contains k = .error .keyError ∧ k ∉ den o := by
  cases o with
  | set l => exact absurd trivial hk
  | iter l => exact absurd trivial hk
  | nodeset H w =>
    refine ⟨?_, not_mem_members ho hk⟩
    simp only [Operand.contains, nsContains, getId_eq_error ho hk]; rfl

theorem node_of_mem (h : G.WF) {v : Vec G.n Bool} {k : K} (hk : k ∈ members G v) : G.Node k := by
  by_contra hn; exact not_mem_members h hn hk

theorem self_contains_error (h : G.WF) {v : Vec G.n Bool} {k : K} (hk : ¬ G.Node k) :
    nsContains G v k = .error .keyError := by
  simp only [nsContains, getId_eq_error h hk]; rfl

/-! ### the loops -/

omit [DecidableEq K] in
/-- a test that answers about `P` or raises KeyError -/
theorem allE_cases {p : K → Except Err Bool} {P A : K → Prop} (h1 : ∀ k, A k → ∃ b, p k = .ok b ∧ (b = true ↔ P k))
    (h2 : ∀ k, ¬ A k → p k = .error .keyError) (l : List K) :
    (∀ b, allE p l = .ok b → (b = true → ∀ k ∈ l, P k) ∧ (b = false → ∃ k ∈ l, ¬ P k)) ∧
    ((∀ k ∈ l, A k) → ∃ b, allE p l = .ok b) ∧ (∀ e, allE p l = .error e → e = .keyError) := by
  induction l with
  | nil => simp [allE]
  | cons a l ih =>
    by_cases ha : A a
    · obtain ⟨b, hb, hP⟩ := h1 a ha
      cases b with
      | true =>
        have hPa : P a := hP.1 rfl
        simp only [allE, hb]
        refine ⟨fun b e => ?_, fun hA => ih.2.1 fun k hk => hA k (by simp [hk]), ih.2.2⟩
        obtain ⟨i1, i2⟩ := ih.1 b e
        refine ⟨fun hb => ?_, fun hb => ?_⟩
        · intro k hk; rcases List.mem_cons.1 hk with rfl | hk
          · exact hPa
          · exact i1 hb k hk
        · obtain ⟨k, hk, hn⟩ := i2 hb; exact ⟨k, by simp [hk], hn⟩
      | false =>
        have hPa : ¬ P a := fun hp => by simpa using hP.2 hp
        simp only [allE, hb]
        refine ⟨fun b e => ?_, fun _ => ⟨_, rfl⟩, fun e he => by simp at he⟩
        cases e
        exact ⟨fun hb => by simp at hb, fun _ => ⟨a, by simp, hPa⟩⟩
    · simp only [allE, h2 a ha]
      exact ⟨fun b e => (by simp at e), fun hA => absurd (hA a (by simp)) ha, fun e he => by cases he; rfl⟩

omit [DecidableEq K] in
theorem filterE_cases {p : K → Except Err Bool} {P A : K → Prop} (h1 : ∀ k, A k → ∃ b, p k = .ok b ∧ (b = true ↔ P k))
    (h2 : ∀ k, ¬ A k → p k = .error .keyError) (l : List K) :
    ((∀ k ∈ l, A k) ∧ ∃ l', filterE p l = .ok l' ∧ ∀ k, k ∈ l' ↔ k ∈ l ∧ P k) ∨
    ((∃ k ∈ l, ¬ A k) ∧ filterE p l = .error .keyError) := by
  induction l with
  | nil => exact Or.inl ⟨by simp, [], rfl, by simp⟩
  | cons a l ih =>
    by_cases ha : A a
    · obtain ⟨b, hb, hP⟩ := h1 a ha
      rcases ih with ⟨hA, l', he, hl⟩ | ⟨⟨k, hk, hn⟩, he⟩
      · refine Or.inl ⟨fun k hk => ?_, if b then a :: l' else l', ?_, fun k => ?_⟩
        · rcases List.mem_cons.1 hk with rfl | hk
          · exact ha
          · exact hA k hk
        · unfold filterE; rw [hb, he]; rfl
        · cases b with
          | true =>
            simp only [if_true, List.mem_cons, hl]
            constructor
            · rintro (rfl | hk)
              · exact ⟨Or.inl rfl, hP.1 rfl⟩
              · exact ⟨Or.inr hk.1, hk.2⟩
            · rintro ⟨rfl | hk, hp⟩
              · exact Or.inl rfl
              · exact Or.inr ⟨hk, hp⟩
          | false =>
            simp only [Bool.false_eq_true, if_false, List.mem_cons, hl]
            constructor
            · exact fun hk => ⟨Or.inr hk.1, hk.2⟩
            · rintro ⟨rfl | hk, hp⟩
              · simpa using hP.2 hp
              · exact ⟨hk, hp⟩
      · refine Or.inr ⟨⟨k, by simp [hk], hn⟩, ?_⟩
        unfold filterE; rw [hb, he]; rfl
    · refine Or.inr ⟨⟨a, by simp, ha⟩, ?_⟩
      unfold filterE; rw [h2 a ha]; rfl

theorem fromIterable_cases (h : G.WF) (it : List K) :
    ((∀ k ∈ it, G.Node k) ∧ ∃ v, nsFromIterable G it = .ok v ∧ members G v = {k | k ∈ it}) ∨
    ((∃ k ∈ it, ¬ G.Node k) ∧ nsFromIterable G it = .error .keyError) := by
  by_cases hn : ∀ k ∈ it, G.Node k
  · exact Or.inl ⟨hn, fromIterable_ok h hn⟩
  · push Not at hn
    obtain ⟨k, hk, hx⟩ := hn
    refine Or.inr ⟨⟨k, hk, hx⟩, ?_⟩
    unfold nsFromIterable setToVector
    simp only [Bool.false_eq_true, if_false, Proofs.Bfs.listToIds_error h hk hx]
    rfl

end SetOps

open SetOps

/-! ### comparisons -/

namespace SetOps

/-- the number of values: distinct lists with the same members have the same length -/
theorem subset_of_len {l l' : List K} (hl : l.Nodup) (hs : ∀ k ∈ l, k ∈ l') : l.length ≤ l'.length :=
  (List.subperm_of_subset hl hs).length_le

theorem eq_of_len {l l' : List K} (hl : l.Nodup) (hs : ∀ k ∈ l, k ∈ l') (hn : l'.length ≤ l.length) :
    ∀ k ∈ l', k ∈ l := by
  intro k hk
  exact ((List.subperm_of_subset hl hs).perm_of_length_le hn).mem_iff.2 hk

end SetOps

/-- **C122.** `a <= s`, `a < s`, `a >= s`, `a > s` and `a.isdisjoint(s)` for a NodeSet and any set `s` — builtin, or a
NodeSet of this or another graph: if the answer is a truth value, it is the right one. -/
theorem nodeset_compare_sound (h : G.WF) (v : Vec G.n Bool) (o : Operand K α) (ho : Valid o) (b : Bool) :
    (nsLe G v o = .ok b → (b = true ↔ members G v ⊆ den o)) ∧
    (nsLt G v o = .ok b → (b = true ↔ members G v ⊂ den o)) ∧
    (nsGe G v o = .ok b → (b = true ↔ den o ⊆ members G v)) ∧
    (nsGt G v o = .ok b → (b = true ↔ den o ⊂ members G v)) ∧
    (nsIsdisjoint G v o = .ok b → (b = true ↔ Disjoint (members G v) (den o))) := by
  obtain ⟨l, h1, h2, h3, h4⟩ := self_elems h v
  obtain ⟨l', e1, e2, e3⟩ := elems_ok ho
  have hA := allE_cases (p := o.contains) (P := fun k => k ∈ den o) (A := Knows o)
    (fun k hk => contains_ok ho hk) (fun k hk => (contains_error ho hk).1) l
  have hB := allE_cases (p := nsContains G v) (P := fun k => k ∈ members G v) (A := fun k => G.Node k)
    (fun k hk => ⟨_, nsContains_ok h hk, Iff.rfl⟩) (fun k hk => self_contains_error h hk) l'
  have hC := allE_cases (p := fun k => (nsContains G v k).map (!·)) (P := fun k => k ∉ members G v)
    (A := fun k => G.Node k)
    (fun k hk => ⟨_, by rw [nsContains_ok h hk]; rfl, by simp [members]⟩)
    (fun k hk => by rw [self_contains_error h hk]; rfl) l'
  have le : ∀ b, nsLe G v o = .ok b → (b = true ↔ members G v ⊆ den o) := by
    intro b hb
    unfold nsLe at hb
    split_ifs at hb with c1 c2
    · cases hb
      simp only [Bool.false_eq_true, false_iff]
      intro hs
      have hset : IsSet o := (isSet_iff o).1 (by simpa using c1)
      have := subset_of_len h3 (l' := l') fun k hk => (e2 k).2 (hs ((h2 k).1 hk))
      rw [h4, (e3 hset).2] at this
      omega
    · rw [h1] at hb
      obtain ⟨a1, a2⟩ := hA.1 b hb
      constructor
      · exact fun hb k hk => a1 hb k ((h2 k).2 hk)
      · intro hs
        by_contra hf
        obtain ⟨k, hk, hn⟩ := a2 (by simpa using hf)
        exact hn (hs ((h2 k).1 hk))
  have ge : ∀ b, nsGe G v o = .ok b → (b = true ↔ den o ⊆ members G v) := by
    intro b hb
    unfold nsGe at hb
    split_ifs at hb with c1 c2
    · cases hb
      simp only [Bool.false_eq_true, false_iff]
      intro hs
      have hset : IsSet o := (isSet_iff o).1 (by simpa using c1)
      have := subset_of_len (e3 hset).1 (l' := l) fun k hk => (h2 k).2 (hs ((e2 k).1 hk))
      rw [h4, (e3 hset).2] at this
      omega
    · rw [e1] at hb
      obtain ⟨a1, a2⟩ := hB.1 b hb
      constructor
      · exact fun hb k hk => a1 hb k ((e2 k).2 hk)
      · intro hs
        by_contra hf
        obtain ⟨k, hk, hn⟩ := a2 (by simpa using hf)
        exact hn (hs ((e2 k).1 hk))
  refine ⟨le b, fun hb => ?_, ge b, fun hb => ?_, fun hb => ?_⟩
  · unfold nsLt at hb
    split_ifs at hb with c1 c2
    · have hset : IsSet o := (isSet_iff o).1 (by simpa using c1)
      rw [le b hb, Set.ssubset_def]
      refine ⟨fun hs => ⟨hs, fun hs' => ?_⟩, fun hs => hs.1⟩
      have := subset_of_len (e3 hset).1 (l' := l) fun k hk => (h2 k).2 (hs' ((e2 k).1 hk))
      rw [h4, (e3 hset).2] at this
      omega
    · cases hb
      simp only [Bool.false_eq_true, false_iff, Set.ssubset_def, not_and, not_not]
      have hset : IsSet o := (isSet_iff o).1 (by simpa using c1)
      intro hs k hk
      refine (h2 k).1 (eq_of_len h3 (l' := l') (fun k hk => (e2 k).2 (hs ((h2 k).1 hk))) ?_ k ((e2 k).2 hk))
      rw [h4, (e3 hset).2]; omega
  · unfold nsGt at hb
    split_ifs at hb with c1 c2
    · have hset : IsSet o := (isSet_iff o).1 (by simpa using c1)
      rw [ge b hb, Set.ssubset_def]
      refine ⟨fun hs => ⟨hs, fun hs' => ?_⟩, fun hs => hs.1⟩
      have := subset_of_len h3 (l' := l') fun k hk => (e2 k).2 (hs' ((h2 k).1 hk))
      rw [h4, (e3 hset).2] at this
      omega
    · cases hb
      simp only [Bool.false_eq_true, false_iff, Set.ssubset_def, not_and, not_not]
      have hset : IsSet o := (isSet_iff o).1 (by simpa using c1)
      intro hs k hk
      refine (e2 k).1 (eq_of_len (e3 hset).1 (l' := l) (fun k hk => (h2 k).2 (hs ((e2 k).1 hk))) ?_ k ((h2 k).2 hk))
      rw [h4, (e3 hset).2]; omega
  · unfold nsIsdisjoint at hb
    rw [e1] at hb
    obtain ⟨a1, a2⟩ := hC.1 b hb
    rw [Set.disjoint_left]
    constructor
    · exact fun hb k hk hk' => a1 hb k ((e2 k).2 hk') hk
    · intro hs
      by_contra hf
      obtain ⟨k, hk, hn⟩ := a2 (by simpa using hf)
      exact hs (not_not.1 hn) ((e2 k).1 hk)

/-- **C122.** When a comparison answers: `<=` and `<` whenever the other set can be asked about the members (always for a
builtin set), `>=`, `>` and `isdisjoint` whenever all values of the other set are nodes; `==` always answers, and for a
builtin set or a NodeSet of the same graph the answer is right. -/
theorem nodeset_compare_total (h : G.WF) (v : Vec G.n Bool) (o : Operand K α) (ho : Valid o) (hs : IsSet o) :
    ((∀ k ∈ members G v, Knows o k) → (∃ b, nsLe G v o = .ok b) ∧ ∃ b, nsLt G v o = .ok b) ∧
    ((∀ k ∈ den o, G.Node k) → (∃ b, nsGe G v o = .ok b) ∧ (∃ b, nsGt G v o = .ok b) ∧
      ∃ b, nsIsdisjoint G v o = .ok b) ∧
    (∃ b, nsEqO G v o = .ok b) := by
  obtain ⟨l, h1, h2, h3, h4⟩ := self_elems h v
  obtain ⟨l', e1, e2, e3⟩ := elems_ok ho
  have hA := allE_cases (p := o.contains) (P := fun k => k ∈ den o) (A := Knows o)
    (fun k hk => contains_ok ho hk) (fun k hk => (contains_error ho hk).1) l
  have hB := allE_cases (p := nsContains G v) (P := fun k => k ∈ members G v) (A := fun k => G.Node k)
    (fun k hk => ⟨_, nsContains_ok h hk, Iff.rfl⟩) (fun k hk => self_contains_error h hk) l'
  have hC := allE_cases (p := fun k => (nsContains G v k).map (!·)) (P := fun k => k ∉ members G v)
    (A := fun k => G.Node k)
    (fun k hk => ⟨_, by rw [nsContains_ok h hk]; rfl, by simp [members]⟩)
    (fun k hk => by rw [self_contains_error h hk]; rfl) l'
  have hsb : (!o.isSet) = false := by simp [(isSet_iff o).2 hs]
  have le : (∀ k ∈ members G v, Knows o k) → ∃ b, nsLe G v o = .ok b := by
    intro hk
    unfold nsLe
    rw [hsb, if_neg (by simp), h1]
    split_ifs
    · exact ⟨_, rfl⟩
    · exact hA.2.1 fun k hk' => hk k ((h2 k).1 hk')
  have ge : (∀ k ∈ den o, G.Node k) → ∃ b, nsGe G v o = .ok b := by
    intro hk
    unfold nsGe
    rw [hsb, if_neg (by simp), e1]
    split_ifs
    · exact ⟨_, rfl⟩
    · exact hB.2.1 fun k hk' => hk k ((e2 k).1 hk')
  refine ⟨fun hk => ⟨le hk, ?_⟩, fun hk => ⟨ge hk, ?_, ?_⟩, ?_⟩
  · unfold nsLt
    rw [hsb, if_neg (by simp)]
    split_ifs
    · exact le hk
    · exact ⟨_, rfl⟩
  · unfold nsGt
    rw [hsb, if_neg (by simp)]
    split_ifs
    · exact ge hk
    · exact ⟨_, rfl⟩
  · unfold nsIsdisjoint
    rw [e1]
    exact hC.2.1 fun k hk' => hk k ((e2 k).1 hk')
  · cases o with
    | iter l => exact hs.elim
    | nodeset H w => exact ⟨_, rfl⟩
    | set ls =>
      unfold nsEqO
      dsimp only
      split_ifs
      · exact le fun _ _ => trivial
      · exact ⟨_, rfl⟩

/-- **C122.** `a == s` for a builtin set and for a NodeSet of the same graph is equality of the members. -/
theorem nodeset_eq_set (h : G.WF) (v w : Vec G.n Bool) (l : List K) (hl : l.Nodup) :
    (∃ b, nsEqO G v (.set l) = .ok b ∧ (b = true ↔ members G v = {k | k ∈ l})) ∧
    (∃ b, nsEqO G v (.nodeset G w) = .ok b ∧ (b = true ↔ members G v = members G w)) := by
  refine ⟨?_, _, rfl, nodeset_eq_iff h v w⟩
  obtain ⟨b, hb⟩ := (nodeset_compare_total h v (.set l) hl trivial).2.2
  refine ⟨b, hb, ?_⟩
  obtain ⟨l0, h1, h2, h3, h4⟩ := self_elems h v
  unfold nsEqO at hb
  dsimp only at hb
  split_ifs at hb with hc
  · rw [(nodeset_compare_sound h v (.set l) hl b).1 hb]
    refine ⟨fun hs => Set.Subset.antisymm hs fun k hk => ?_, fun e => e.subset⟩
    exact (h2 k).1 (eq_of_len h3 (l' := l) (fun k hk => hs ((h2 k).1 hk)) (by rw [h4, hc]) k hk)
  · cases hb
    simp only [Bool.false_eq_true, false_iff]
    intro e
    apply hc
    rw [← h4]
    exact ((List.perm_ext_iff_of_nodup h3 hl).2 fun k => by rw [h2, e]; rfl).length_eq

/-- **C122, the part that fails.** A comparison with a set that has values outside the graph raises KeyError when it asks
for one: `{20} >= {99}`, `{20} > set of the same kind` and `{20}.isdisjoint({99})` do not answer. -/
theorem nodeset_compare_foreign (h : G.WF) (v : Vec G.n Bool) {x : K} (hx : ¬ G.Node x) (l : List K) :
    nsIsdisjoint G v (.set (x :: l)) = .error .keyError ∧
    (l.length < nvals v → nsGe G v (.set (x :: l)) = .error .keyError) ∧
    (l.length + 1 < nvals v → nsGt G v (.set (x :: l)) = .error .keyError) := by
  have e := self_contains_error h (v := v) hx
  have ge : l.length < nvals v → nsGe G v (.set (x :: l)) = .error .keyError := by
    intro hl
    unfold nsGe
    rw [if_neg (by simp [Operand.isSet]), if_neg (by simp [Operand.len]; omega)]
    show allE _ (x :: l) = _
    simp only [allE, e]
  refine ⟨?_, ge, ?_⟩
  · show allE (fun k => (nsContains G v k).map (!·)) (x :: l) = _
    simp only [allE, e]; rfl
  · intro hl
    unfold nsGt
    rw [if_neg (by simp [Operand.isSet]), if_pos (by simp [Operand.len]; omega)]
    exact ge (by omega)

/-! ### operators -/

namespace SetOps

/-- what coercion does -/
theorem coerce_cases (h : G.WF) {o : Operand K α} (ho : Valid o) :
    (∃ o', nsCoerce G o = .ok o' ∧ Valid o' ∧ den o' = den o ∧ IsSet o' ∧ (IsSet o → o' = o) ∧
      (¬ IsSet o → (∀ k ∈ den o, G.Node k) ∧ ∀ k, Knows o' k ↔ G.Node k)) ∨
    (¬ IsSet o ∧ (∃ k ∈ den o, ¬ G.Node k) ∧ nsCoerce G o = .error .keyError) := by
  cases o with
  | set l => exact Or.inl ⟨_, rfl, ho, rfl, trivial, fun _ => rfl, fun hn => absurd trivial hn⟩
  | nodeset H w => exact Or.inl ⟨_, rfl, ho, rfl, trivial, fun _ => rfl, fun hn => absurd trivial hn⟩
  | iter l =>
    rcases fromIterable_cases h l with ⟨hn, x, hx, hm⟩ | ⟨hn, hx⟩
    · refine Or.inl ⟨.nodeset G x, ?_, h, hm, trivial, fun hf => hf.elim, fun _ => ⟨hn, fun k => Iff.rfl⟩⟩
      simp only [nsCoerce, hx]; rfl
    · refine Or.inr ⟨fun hf => hf, hn, ?_⟩
      simp only [nsCoerce, hx]; rfl

/-- when `self - other` can be computed: a builtin set always, a NodeSet of another graph if it can be asked about all
members, any other iterable if it has nodes only -/
def CanSub (G : Graph K α) (v : Vec G.n Bool) : Operand K α → Prop
  | .set _ => True
  | .nodeset H _ => ∀ k ∈ members G v, H.Node k
  | .iter l => ∀ k ∈ l, G.Node k

/-- the result of an operator: the set `S` if `C` holds, else KeyError -/
def Gives (G : Graph K α) (C : Prop) (S : Set K) (r : Except Err (Vec G.n Bool)) : Prop :=
  (C ∧ ∃ x, r = .ok x ∧ members G x = S) ∨ (¬ C ∧ r = .error .keyError)

omit [DecidableEq K] in
theorem not_all {P Q : K → Prop} (h : ∃ k, P k ∧ ¬ Q k) : ¬ ∀ k, P k → Q k := fun ha => by
  obtain ⟨k, hp, hq⟩ := h; exact hq (ha k hp)

theorem sub_set (h : G.WF) (v : Vec G.n Bool) {o : Operand K α} (ho : Valid o) (hs : IsSet o) :
    Gives G (∀ k ∈ members G v, Knows o k) (members G v \ den o) (nsSubO G v o) := by
  obtain ⟨l, h1, h2, h3, h4⟩ := self_elems h v
  have hc : nsCoerce G o = .ok o := by
    cases o with
    | iter l => exact hs.elim
    | set l => rfl
    | nodeset H w => rfl
  unfold nsSubO
  rw [hc]
  show Gives _ _ _ (listToKeys G (indices v) >>= _)
  rw [h1]
  rcases filterE_cases (p := fun k => (o.contains k).map (!·)) (P := fun k => k ∉ den o) (A := Knows o)
    (fun k hk => by
      obtain ⟨b, hb, hP⟩ := contains_ok ho hk
      exact ⟨!b, by rw [hb]; rfl, by rw [← hP]; simp⟩)
    (fun k hk => by rw [(contains_error ho hk).1]; rfl) l with ⟨hA, l', he, hl⟩ | ⟨hA, he⟩
  · left
    refine ⟨fun k hk => hA k ((h2 k).2 hk), ?_⟩
    obtain ⟨x, hx, hm⟩ := fromIterable_ok h (it := l') fun k hk => node_of_mem h ((h2 k).1 ((hl k).1 hk).1)
    refine ⟨x, ?_, ?_⟩
    · show (filterE _ l >>= _) = _
      rw [he]; exact hx
    · rw [hm]; ext k; simp [hl, h2]
  · right
    refine ⟨?_, ?_⟩
    · obtain ⟨k, hk, hn⟩ := hA
      exact fun ha => hn (ha k ((h2 k).1 hk))
    · show (filterE _ l >>= _) = _
      rw [he]; rfl

theorem sub_any (h : G.WF) (v : Vec G.n Bool) {o : Operand K α} (ho : Valid o) :
    Gives G (CanSub G v o) (members G v \ den o) (nsSubO G v o) := by
  cases o with
  | set l =>
    have := sub_set h v (o := .set l) ho trivial
    rcases this with ⟨-, hx⟩ | ⟨hc, -⟩
    · exact Or.inl ⟨trivial, hx⟩
    · exact absurd (fun _ _ => trivial) hc
  | nodeset H w => exact sub_set h v (o := .nodeset H w) ho trivial
  | iter l =>
    rcases fromIterable_cases h l with ⟨hn, x, hx, hm⟩ | ⟨hn, hx⟩
    · have := sub_set h v (o := .nodeset G x) h trivial
      have e : nsSubO G v (.iter l) = nsSubO G v (.nodeset G x) := by
        unfold nsSubO
        have : nsCoerce G (.iter l) = .ok (.nodeset G x) := by simp only [nsCoerce, hx]; rfl
        rw [this]; rfl
      rw [e]
      rcases this with ⟨-, y, hy, hy'⟩ | ⟨hc, -⟩
      · refine Or.inl ⟨hn, y, hy, hy'.trans ?_⟩
        show members G v \ members G x = _
        rw [hm]; rfl
      · exact absurd (fun k hk => node_of_mem h hk) hc
    · right
      refine ⟨fun hc => ?_, ?_⟩
      · obtain ⟨k, hk, hx⟩ := hn; exact hx (hc k hk)
      · unfold nsSubO
        have : nsCoerce G (.iter l) = .error .keyError := by simp only [nsCoerce, hx]; rfl
        rw [this]; rfl

theorem or_any (h : G.WF) (v : Vec G.n Bool) {o : Operand K α} (ho : Valid o) :
    Gives G (∀ k ∈ den o, G.Node k) (members G v ∪ den o) (nsOrO G v o) := by
  obtain ⟨l, h1, h2, h3, h4⟩ := self_elems h v
  obtain ⟨l', e1, e2, e3⟩ := elems_ok ho
  unfold nsOrO
  rw [h1, e1]
  show Gives _ _ _ (nsFromIterable G (l ++ l'))
  rcases fromIterable_cases h (l ++ l') with ⟨hn, x, hx, hm⟩ | ⟨⟨k, hk, hn⟩, hx⟩
  · refine Or.inl ⟨fun k hk => hn k (by simp [(e2 k).2 hk]), x, hx, ?_⟩
    rw [hm]; ext k; simp [h2, e2]
  · refine Or.inr ⟨fun hc => hn ?_, hx⟩
    rcases List.mem_append.1 hk with hk | hk
    · exact node_of_mem h ((h2 k).1 hk)
    · exact hc k ((e2 k).1 hk)

theorem rsub_any (h : G.WF) (v : Vec G.n Bool) {o : Operand K α} (ho : Valid o) :
    Gives G (∀ k ∈ den o, G.Node k) (den o \ members G v) (nsRsub G v o) := by
  unfold nsRsub
  rcases coerce_cases h ho with ⟨o', hc, ho', hd, -, -, -⟩ | ⟨-, hn, hc⟩
  · rw [hc]
    obtain ⟨l', e1, e2, e3⟩ := elems_ok ho'
    show Gives _ _ _ (o'.elems >>= _)
    rw [e1]
    rcases filterE_cases (p := fun k => (nsContains G v k).map (!·)) (P := fun k => k ∉ members G v)
      (A := fun k => G.Node k) (fun k hk => ⟨_, by rw [nsContains_ok h hk]; rfl, by simp [members]⟩)
      (fun k hk => by rw [self_contains_error h hk]; rfl) l' with ⟨hA, l2, he, hl⟩ | ⟨⟨k, hk, hA⟩, he⟩
    · refine Or.inl ⟨fun k hk => hA k ((e2 k).2 (hd ▸ hk)), ?_⟩
      obtain ⟨x, hx, hm⟩ := fromIterable_ok h (it := l2) fun k hk => hA k ((hl k).1 hk).1
      refine ⟨x, ?_, ?_⟩
      · show (filterE _ l' >>= _) = _
        rw [he]; exact hx
      · rw [hm]; ext k; simp [hl, e2, hd]
    · refine Or.inr ⟨fun ha => hA (ha k (hd ▸ (e2 k).1 hk)), ?_⟩
      show (filterE _ l' >>= _) = _
      rw [he]; rfl
  · refine Or.inr ⟨not_all hn, ?_⟩
    rw [hc]; rfl

theorem and_any (h : G.WF) (v : Vec G.n Bool) {o : Operand K α} (ho : Valid o) :
    Gives G (∀ k ∈ den o, G.Node k) (members G v ∩ den o) (nsAndO G v o) := by
  obtain ⟨l', e1, e2, e3⟩ := elems_ok ho
  unfold nsAndO
  rw [e1]
  rcases filterE_cases (p := nsContains G v) (P := fun k => k ∈ members G v)
    (A := fun k => G.Node k) (fun k hk => ⟨_, nsContains_ok h hk, Iff.rfl⟩)
    (fun k hk => self_contains_error h hk) l' with ⟨hA, l2, he, hl⟩ | ⟨⟨k, hk, hA⟩, he⟩
  · refine Or.inl ⟨fun k hk => hA k ((e2 k).2 hk), ?_⟩
    obtain ⟨x, hx, hm⟩ := fromIterable_ok h (it := l2) fun k hk => hA k ((hl k).1 hk).1
    refine ⟨x, ?_, ?_⟩
    · show (filterE _ l' >>= _) = _
      rw [he]; exact hx
    · rw [hm]; ext k; simp [hl, e2, and_comm]
  · refine Or.inr ⟨fun ha => hA (ha k ((e2 k).1 hk)), ?_⟩
    show (filterE _ l' >>= _) = _
    rw [he]; rfl

/-- the symmetric difference -/
def symm (S T : Set K) : Set K := (S \ T) ∪ (T \ S)

theorem xor_set (h : G.WF) (v : Vec G.n Bool) {o : Operand K α} (ho : Valid o) (hs : IsSet o) :
    Gives G ((∀ k ∈ den o, G.Node k) ∧ ∀ k ∈ members G v, Knows o k) (symm (members G v) (den o)) (nsXorO G v o) := by
  have hc : nsCoerce G o = .ok o := by
    cases o with
    | iter l => exact hs.elim
    | set l => rfl
    | nodeset H w => rfl
  unfold nsXorO
  rw [hc]
  show Gives _ _ _ (nsSubO G v o >>= _)
  rcases sub_set h v ho hs with ⟨hk, a, ha, hma⟩ | ⟨hk, ha⟩
  swap
  · rw [ha]; exact Or.inr ⟨fun hc => hk hc.2, rfl⟩
  rw [ha]
  cases o with
  | iter l => exact hs.elim
  | set l =>
    show Gives _ _ _ (nsRsub G v (.set l) >>= _)
    rcases rsub_any h v (o := .set l) ho with ⟨hn, b, hb, hmb⟩ | ⟨hn, hb⟩
    · rw [hb]
      show Gives _ _ _ (nsOrO G a (.nodeset G b))
      rcases or_any h a (o := .nodeset G b) h with ⟨-, x, hx, hm⟩ | ⟨hn', -⟩
      · refine Or.inl ⟨⟨hn, hk⟩, x, hx, ?_⟩
        rw [hm, hma]; show _ ∪ members G b = _; rw [hmb]; rfl
      · exact absurd (fun k hk => node_of_mem h hk) hn'
    · rw [hb]; exact Or.inr ⟨fun hc => hn hc.1, rfl⟩
  | nodeset H w =>
    show Gives _ _ _ (nsSubO H w (.nodeset G v) >>= _)
    rcases sub_set (G := H) ho w (o := .nodeset G v) h trivial with ⟨hn, b, hb, hmb⟩ | ⟨hn, hb⟩
    · rw [hb]
      show Gives _ _ _ (nsOrO G a (.nodeset H b))
      rcases or_any h a (o := .nodeset H b) ho with ⟨hn', x, hx, hm⟩ | ⟨hn', hx⟩
      · refine Or.inl ⟨⟨hn, hk⟩, x, hx, ?_⟩
        rw [hm, hma]; show _ ∪ members H b = _; rw [hmb]; rfl
      · refine absurd (fun k hk => ?_) hn'
        have : k ∈ members H w \ den (.nodeset G v) := hmb ▸ hk
        exact hn k this.1
    · rw [hb]; exact Or.inr ⟨fun hc => hn hc.1, rfl⟩

end SetOps

/-- **C122.** `&`, `|`, `-`, `^` of a NodeSet with any other operand (builtin set, iterable, NodeSet of any graph), and the
reflected `-`, have exactly the members they should have, or raise KeyError; and which of the two is determined by the
operands: `&`, `|` and the reflected `-` need all values of the other operand to be nodes, `-` needs that only for an
iterable that is not a set (and for a NodeSet of another graph that all members are nodes of that graph), `^` needs both. -/
theorem nodeset_operators_any (h : G.WF) (v : Vec G.n Bool) (o : Operand K α) (ho : Valid o) :
    Gives G (∀ k ∈ den o, G.Node k) (members G v ∩ den o) (nsAndO G v o) ∧
    Gives G (∀ k ∈ den o, G.Node k) (members G v ∪ den o) (nsOrO G v o) ∧
    Gives G (CanSub G v o) (members G v \ den o) (nsSubO G v o) ∧
    Gives G (∀ k ∈ den o, G.Node k) (den o \ members G v) (nsRsub G v o) ∧
    Gives G ((∀ k ∈ den o, G.Node k) ∧ ∀ k ∈ members G v, Knows o k) (symm (members G v) (den o)) (nsXorO G v o) := by
  refine ⟨and_any h v ho, or_any h v ho, sub_any h v ho, rsub_any h v ho, ?_⟩
  by_cases hs : IsSet o
  · exact xor_set h v ho hs
  · have hkn : ∀ k ∈ members G v, Knows o k := by
      cases o with
      | iter l => exact fun _ _ => trivial
      | set l => exact absurd trivial hs
      | nodeset H w => exact absurd trivial hs
    rcases coerce_cases h ho with ⟨o', hc, ho', hd, hs', -, hno⟩ | ⟨-, hn, hc⟩
    · have e : nsXorO G v o = nsXorO G v o' := by
        unfold nsXorO
        have : nsCoerce G o' = .ok o' := by
          cases o' with
          | iter l => exact hs'.elim
          | set l => rfl
          | nodeset H w => rfl
        rw [hc, this]
      rw [e]
      rcases xor_set h v ho' hs' with ⟨hc', x, hx, hm⟩ | ⟨hc', -⟩
      · exact Or.inl ⟨⟨(hno hs).1, hkn⟩, x, hx, by rw [hm, hd]⟩
      · exact absurd ⟨fun k hk => (hno hs).1 k (hd ▸ hk), fun k hk => ((hno hs).2 k).2 (node_of_mem h hk)⟩ hc'
    · refine Or.inr ⟨fun hc' => not_all hn hc'.1, ?_⟩
      unfold nsXorO; rw [hc]; rfl

/-- **C122.** `a.union(*args)` never raises and is the builtin set of all members and all values of the arguments, nodes
or not. -/
theorem nodeset_union (h : G.WF) (v : Vec G.n Bool) (args : List (Operand K α)) (ha : ∀ o ∈ args, Valid o) :
    ∃ l, nsUnion G v args = .ok l ∧ l.Nodup ∧ ∀ k, k ∈ l ↔ k ∈ members G v ∨ ∃ o ∈ args, k ∈ den o := by
  obtain ⟨l, h1, h2, h3, h4⟩ := self_elems h v
  have : ∃ ls, args.mapM Operand.elems = .ok ls ∧ ∀ k, k ∈ ls.flatten ↔ ∃ o ∈ args, k ∈ den o := by
    clear h1 h2 h3 h4
    induction args with
    | nil => exact ⟨[], rfl, by simp⟩
    | cons o args ih =>
      obtain ⟨ls, e, hk⟩ := ih fun o ho => ha o (by simp [ho])
      obtain ⟨l', e1, e2, -⟩ := elems_ok (ha o (by simp))
      refine ⟨l' :: ls, ?_, fun k => ?_⟩
      · rw [List.mapM_cons, e1, e]; rfl
      · simp [e2, hk]
  obtain ⟨ls, e, hk⟩ := this
  refine ⟨(l ++ ls.flatten).dedup, ?_, List.nodup_dedup _, fun k => ?_⟩
  · unfold nsUnion; rw [h1, e]; rfl
  · rw [List.mem_dedup, List.mem_append, h2, hk]

/-! ### in-place operators -/

namespace SetOps

theorem addAll_spec (h : G.WF) (l : List K) : ∀ v : Vec G.n Bool,
    ((∀ k ∈ l, G.Node k) ∧ (addAll G v l).1 = .ok () ∧ members G (addAll G v l).2 = members G v ∪ {k | k ∈ l}) ∨
    ∃ p x t, l = p ++ x :: t ∧ (∀ k ∈ p, G.Node k) ∧ ¬ G.Node x ∧ (addAll G v l).1 = .error .keyError ∧
      members G (addAll G v l).2 = members G v ∪ {k | k ∈ p} := by
  induction l with
  | nil => intro v; exact Or.inl ⟨by simp, rfl, by simp [addAll]⟩
  | cons a l ih =>
    intro v
    by_cases ha : G.Node a
    · obtain ⟨i, hi⟩ := ha.exists_id h
      have e : addAll G v (a :: l) = addAll G (vset v i true) l := by simp only [addAll, (getId_eq_ok h).2 hi]
      rw [e]
      rcases ih (vset v i true) with ⟨hn, h1, h2⟩ | ⟨p, x, t, hl, hp, hx, h1, h2⟩
      · refine Or.inl ⟨?_, h1, ?_⟩
        · intro k hk; rcases List.mem_cons.1 hk with rfl | hk
          · exact ha
          · exact hn k hk
        · rw [h2, members_set h hi]; ext k; simp only [Set.mem_union, Set.mem_insert_iff, Set.mem_ofPred_eq, List.mem_cons]; tauto
      · refine Or.inr ⟨a :: p, x, t, by simp [hl], ?_, hx, h1, ?_⟩
        · intro k hk; rcases List.mem_cons.1 hk with rfl | hk
          · exact ha
          · exact hp k hk
        · rw [h2, members_set h hi]; ext k; simp only [Set.mem_union, Set.mem_insert_iff, Set.mem_ofPred_eq, List.mem_cons]; tauto
    · refine Or.inr ⟨[], a, l, rfl, by simp, ha, ?_, ?_⟩
      · simp only [addAll, getId_eq_error h ha]
      · simp only [addAll, getId_eq_error h ha]; simp

theorem discardAll_spec (h : G.WF) (l : List K) : ∀ v : Vec G.n Bool,
    ((∀ k ∈ l, G.Node k) ∧ (discardAll G v l).1 = .ok () ∧ members G (discardAll G v l).2 = members G v \ {k | k ∈ l}) ∨
    ∃ p x t, l = p ++ x :: t ∧ (∀ k ∈ p, G.Node k) ∧ ¬ G.Node x ∧ (discardAll G v l).1 = .error .keyError ∧
      members G (discardAll G v l).2 = members G v \ {k | k ∈ p} := by
  induction l with
  | nil => intro v; exact Or.inl ⟨by simp, rfl, by simp [discardAll]⟩
  | cons a l ih =>
    intro v
    by_cases ha : G.Node a
    · obtain ⟨i, hi⟩ := ha.exists_id h
      have e : discardAll G v (a :: l) = discardAll G (vdel v i) l := by simp only [discardAll, (getId_eq_ok h).2 hi]
      rw [e]
      rcases ih (vdel v i) with ⟨hn, h1, h2⟩ | ⟨p, x, t, hl, hp, hx, h1, h2⟩
      · refine Or.inl ⟨?_, h1, ?_⟩
        · intro k hk; rcases List.mem_cons.1 hk with rfl | hk
          · exact ha
          · exact hn k hk
        · rw [h2, members_del h hi]; ext k; simp [and_assoc]
      · refine Or.inr ⟨a :: p, x, t, by simp [hl], ?_, hx, h1, ?_⟩
        · intro k hk; rcases List.mem_cons.1 hk with rfl | hk
          · exact ha
          · exact hp k hk
        · rw [h2, members_del h hi]; ext k; simp [and_assoc]
    · refine Or.inr ⟨[], a, l, rfl, by simp, ha, ?_, ?_⟩
      · simp only [discardAll, getId_eq_error h ha]
      · simp only [discardAll, getId_eq_error h ha]; simp

theorem toggleAll_spec (h : G.WF) (l : List K) : ∀ (v : Vec G.n Bool), l.Nodup →
    ((∀ k ∈ l, G.Node k) ∧ (toggleAll G v l).1 = .ok () ∧
      members G (toggleAll G v l).2 = symm (members G v) {k | k ∈ l}) ∨
    ∃ p x t, l = p ++ x :: t ∧ (∀ k ∈ p, G.Node k) ∧ ¬ G.Node x ∧ (toggleAll G v l).1 = .error .keyError ∧
      members G (toggleAll G v l).2 = symm (members G v) {k | k ∈ p} := by
  induction l with
  | nil => intro v _; exact Or.inl ⟨by simp, rfl, by simp [toggleAll, symm]⟩
  | cons a l ih =>
    intro v hd
    by_cases ha : G.Node a
    · obtain ⟨i, hi⟩ := ha.exists_id h
      have e : toggleAll G v (a :: l) = toggleAll G (if (v i).isSome then vdel v i else vset v i true) l := by
        simp only [toggleAll, (getId_eq_ok h).2 hi]
      have hm : members G (if (v i).isSome then vdel v i else vset v i true) = symm (members G v) {a} := by
        by_cases hv : (v i).isSome
        · rw [if_pos hv, members_del h hi]
          have : a ∈ members G v := (mem_members_at h hi).2 hv
          ext k; simp only [symm, Set.mem_union, Set.mem_sdiff, Set.mem_singleton_iff]
          constructor
          · exact Or.inl
          · rintro (hk | ⟨rfl, hk⟩)
            · exact hk
            · exact absurd this hk
        · rw [if_neg hv, members_set h hi]
          have : a ∉ members G v := fun hc => hv ((mem_members_at h hi).1 hc)
          ext k; simp only [symm, Set.mem_union, Set.mem_sdiff, Set.mem_singleton_iff, Set.mem_insert_iff]
          constructor
          · rintro (rfl | hk)
            · exact Or.inr ⟨rfl, this⟩
            · exact Or.inl ⟨hk, fun e => this (e ▸ hk)⟩
          · rintro (hk | ⟨rfl, -⟩)
            · exact Or.inr hk.1
            · exact Or.inl rfl
      have hcomb : ∀ p : List K, a ∉ p → symm (symm (members G v) {a}) {k | k ∈ p} =
          symm (members G v) {k | k ∈ a :: p} := by
        intro p hp
        ext k
        simp only [symm, Set.mem_union, Set.mem_sdiff, Set.mem_singleton_iff, Set.mem_ofPred_eq, List.mem_cons]
        by_cases hk : k = a
        · subst hk; simp [hp]
        · simp [hk]
      rw [e]
      rcases ih _ (List.nodup_cons.1 hd).2 with ⟨hn, h1, h2⟩ | ⟨p, x, t, hl, hp, hx, h1, h2⟩
      · refine Or.inl ⟨?_, h1, ?_⟩
        · intro k hk; rcases List.mem_cons.1 hk with rfl | hk
          · exact ha
          · exact hn k hk
        · rw [h2, hm, hcomb l (List.nodup_cons.1 hd).1]
      · refine Or.inr ⟨a :: p, x, t, by simp [hl], ?_, hx, h1, ?_⟩
        · intro k hk; rcases List.mem_cons.1 hk with rfl | hk
          · exact ha
          · exact hp k hk
        · rw [h2, hm, hcomb p fun hp' => (List.nodup_cons.1 hd).1 (by simp [hl, hp'])]
    · refine Or.inr ⟨[], a, l, rfl, by simp, ha, ?_, ?_⟩
      · simp only [toggleAll, getId_eq_error h ha]
      · simp only [toggleAll, getId_eq_error h ha]; simp [symm]

theorem members_vempty : members G (vempty : Vec G.n Bool) = ∅ := by ext k; simp [members, view_vempty]

/-- the values of the operand of an in-place operator -/
def denI (G : Graph K α) (v : Vec G.n Bool) : InOperand K α → Set K
  | .self => members G v
  | .other o => den o

/-- operands that exist -/
def ValidI : InOperand K α → Prop
  | .self => True
  | .other o => Valid o

/-- `it` has a value that is not a node, met after values `p` that are nodes -/
def StopsAfter (G : Graph K α) (it : InOperand K α) (p : Set K) : Prop :=
  ∃ o l, it = .other o ∧ o.elems = .ok l ∧ ∃ q x t, l = q ++ x :: t ∧ (∀ k ∈ q, G.Node k) ∧ ¬ G.Node x ∧ p = {k | k ∈ q}

theorem stops_not {it : InOperand K α} {p : Set K} {v : Vec G.n Bool} (hi : ValidI it) (hs : StopsAfter G it p) :
    ¬ ∀ k ∈ denI G v it, G.Node k := by
  obtain ⟨o, l, rfl, he, q, x, t, rfl, -, hx, -⟩ := hs
  obtain ⟨l', e1, e2, -⟩ := elems_ok (o := o) hi
  rw [he] at e1; cases e1
  exact fun ha => hx (ha x ((e2 x).1 (by simp)))

end SetOps

/-- **C122.** `a |= it` and `a -= it`: if all values of `it` are nodes they succeed and the set is the union or the
difference; otherwise they raise KeyError, and the set has taken in (lost) exactly the values that come before the first
one that is not a node: the update is half done. -/
theorem nodeset_ior_isub (h : G.WF) (v : Vec G.n Bool) (it : InOperand K α) (hi : ValidI it) :
    (((∀ k ∈ denI G v it, G.Node k) ∧ (nsIor G v it).1 = .ok () ∧
        members G (nsIor G v it).2 = members G v ∪ denI G v it) ∨
      ∃ p, StopsAfter G it p ∧ (nsIor G v it).1 = .error .keyError ∧
        members G (nsIor G v it).2 = members G v ∪ p) ∧
    (((∀ k ∈ denI G v it, G.Node k) ∧ (nsIsub G v it).1 = .ok () ∧
        members G (nsIsub G v it).2 = members G v \ denI G v it) ∨
      ∃ p, StopsAfter G it p ∧ (nsIsub G v it).1 = .error .keyError ∧
        members G (nsIsub G v it).2 = members G v \ p) := by
  cases it with
  | self =>
    obtain ⟨l, h1, h2, h3, h4⟩ := self_elems h v
    have hn : ∀ k ∈ members G v, G.Node k := fun k hk => node_of_mem h hk
    refine ⟨Or.inl ⟨hn, ?_⟩, Or.inl ⟨hn, rfl, ?_⟩⟩
    · have e : nsIor G v .self = addAll G v l := by
        show overE v (listToKeys G (indices v)) _ = _
        rw [h1]; rfl
      rw [e]
      rcases addAll_spec h l v with ⟨-, a1, a2⟩ | ⟨p, x, t, hl, -, hx, -, -⟩
      · refine ⟨a1, a2.trans ?_⟩
        ext k; simp [h2, denI]
      · exact absurd (hn x ((h2 x).1 (by simp [hl]))) hx
    · show members G vempty = members G v \ members G v
      rw [members_vempty]; simp
  | other o =>
    obtain ⟨l, e1, e2, -⟩ := elems_ok (o := o) hi
    have ea : nsIor G v (.other o) = addAll G v l := by
      show overE v o.elems _ = _
      rw [e1]; rfl
    have ed : nsIsub G v (.other o) = discardAll G v l := by
      show overE v o.elems _ = _
      rw [e1]; rfl
    rw [ea, ed]
    have hden : {k | k ∈ l} = den o := by ext k; exact e2 k
    refine ⟨?_, ?_⟩
    · rcases addAll_spec h l v with ⟨hn, a1, a2⟩ | ⟨p, x, t, hl, hp, hx, a1, a2⟩
      · exact Or.inl ⟨fun k hk => hn k ((e2 k).2 hk), a1, by rw [a2, hden]; rfl⟩
      · exact Or.inr ⟨_, ⟨o, l, rfl, e1, p, x, t, hl, hp, hx, rfl⟩, a1, a2⟩
    · rcases discardAll_spec h l v with ⟨hn, a1, a2⟩ | ⟨p, x, t, hl, hp, hx, a1, a2⟩
      · exact Or.inl ⟨fun k hk => hn k ((e2 k).2 hk), a1, by rw [a2, hden]; rfl⟩
      · exact Or.inr ⟨_, ⟨o, l, rfl, e1, p, x, t, hl, hp, hx, rfl⟩, a1, a2⟩

/-- **C122.** `a &= it`: succeeds exactly when `a - it` does, with the intersection; otherwise it raises KeyError and the
set is unchanged. -/
theorem nodeset_iand (h : G.WF) (v : Vec G.n Bool) (it : InOperand K α) (hi : ValidI it) :
    (CanSub G v (it.get G v) ∧ (nsIand G v it).1 = .ok () ∧
      members G (nsIand G v it).2 = members G v ∩ denI G v it) ∨
    (¬ CanSub G v (it.get G v) ∧ nsIand G v it = (.error .keyError, v)) := by
  have hv : Valid (it.get G v) := by
    cases it with
    | self => exact h
    | other o => exact hi
  have hd : den (it.get G v) = denI G v it := by cases it <;> rfl
  rcases sub_any h v hv with ⟨hc, d, hd1, hd2⟩ | ⟨hc, hd1⟩
  · refine Or.inl ⟨hc, ?_⟩
    obtain ⟨l, h1, h2, -, -⟩ := self_elems h d
    have e : nsIand G v it = discardAll G v l := by
      unfold nsIand
      rw [hd1]
      show overE v (listToKeys G (indices d)) _ = _
      rw [h1]; rfl
    rw [e]
    rcases discardAll_spec h l v with ⟨-, a1, a2⟩ | ⟨p, x, t, hl, -, hx, -, -⟩
    · refine ⟨a1, ?_⟩
      rw [a2]
      ext k
      simp only [Set.mem_sdiff, Set.mem_ofPred_eq, h2, hd2, hd, Set.mem_inter_iff]
      tauto
    · exact absurd (node_of_mem h ((h2 x).1 (by simp [hl]))) hx
  · refine Or.inr ⟨hc, ?_⟩
    unfold nsIand
    rw [hd1]; rfl

/-- **C122.** `a ^= it`: if all values of `it` are nodes it succeeds with the symmetric difference; otherwise it raises
KeyError, leaving the set unchanged — except for a NodeSet of another graph, whose values before the first unknown one
have been toggled. -/
theorem nodeset_ixor (h : G.WF) (v : Vec G.n Bool) (it : InOperand K α) (hi : ValidI it) :
    ((∀ k ∈ denI G v it, G.Node k) ∧ (nsIxor G v it).1 = .ok () ∧
      members G (nsIxor G v it).2 = symm (members G v) (denI G v it)) ∨
    (¬ (∀ k ∈ denI G v it, G.Node k) ∧ (nsIxor G v it).1 = .error .keyError ∧
      ((nsIxor G v it).2 = v ∨ ∃ H w p, it = .other (.nodeset H w) ∧ StopsAfter G it p ∧
        members G (nsIxor G v it).2 = symm (members G v) p)) := by
  cases it with
  | self =>
    refine Or.inl ⟨fun k hk => node_of_mem h hk, rfl, ?_⟩
    show members G vempty = symm (members G v) (members G v)
    rw [members_vempty]; simp [SetOps.symm]
  | other o =>
    have plain : ∀ l : List K, o.elems = .ok l → (∀ k, k ∈ l ↔ k ∈ den o) →
        nsIxor G v (.other o) = overE v (nsFromIterable G l >>= fun w => listToKeys G (indices w)) (toggleAll G v) →
        ((∀ k ∈ denI G v (.other o), G.Node k) ∧ (nsIxor G v (.other o)).1 = .ok () ∧
          members G (nsIxor G v (.other o)).2 = symm (members G v) (denI G v (.other o))) ∨
        (¬ (∀ k ∈ denI G v (.other o), G.Node k) ∧ nsIxor G v (.other o) = (.error .keyError, v)) := by
      intro l _ e2 e
      rw [e]
      rcases fromIterable_cases h l with ⟨hn, w, hw, hm⟩ | ⟨⟨k, hk, hn⟩, hw⟩
      · left
        refine ⟨fun k hk => hn k ((e2 k).2 hk), ?_⟩
        obtain ⟨l2, h1, h2, h3, -⟩ := self_elems h w
        rw [hw]
        show (overE v (listToKeys G (indices w)) _).1 = _ ∧ members G (overE v (listToKeys G (indices w)) _).2 = _
        rw [h1]
        show (toggleAll G v l2).1 = _ ∧ members G (toggleAll G v l2).2 = _
        rcases toggleAll_spec h l2 v h3 with ⟨-, a1, a2⟩ | ⟨p, x, t, hl, -, hx, -, -⟩
        · refine ⟨a1, ?_⟩
          rw [a2]
          congr 1
          ext k
          show k ∈ l2 ↔ k ∈ den o
          rw [h2, hm]; exact e2 k
        · exact absurd (node_of_mem h ((h2 x).1 (by simp [hl]))) hx
      · right
        refine ⟨fun ha => hn (ha k ((e2 k).1 hk)), ?_⟩
        rw [hw]; rfl
    cases o with
    | set l =>
      rcases plain l rfl (fun k => Iff.rfl) rfl with hp | ⟨hn, hp⟩
      · exact Or.inl hp
      · exact Or.inr ⟨hn, by rw [hp], Or.inl (by rw [hp])⟩
    | iter l =>
      rcases plain l rfl (fun k => Iff.rfl) rfl with hp | ⟨hn, hp⟩
      · exact Or.inl hp
      · exact Or.inr ⟨hn, by rw [hp], Or.inl (by rw [hp])⟩
    | nodeset H w =>
      obtain ⟨l, e1, e2, e3⟩ := elems_ok (o := .nodeset H w) hi
      have e : nsIxor G v (.other (.nodeset H w)) = toggleAll G v l := by
        show overE v (listToKeys H (indices w)) _ = _
        have : listToKeys H (indices w) = .ok l := e1
        rw [this]; rfl
      rw [e]
      rcases toggleAll_spec h l v (e3 trivial).1 with ⟨hn, a1, a2⟩ | ⟨p, x, t, hl, hp, hx, a1, a2⟩
      · refine Or.inl ⟨fun k hk => hn k ((e2 k).2 hk), a1, ?_⟩
        rw [a2]; congr 1; ext k; exact e2 k
      · have hst : StopsAfter G (.other (.nodeset H w)) {k | k ∈ p} := ⟨_, l, rfl, e1, p, x, t, hl, hp, hx, rfl⟩
        exact Or.inr ⟨stops_not (it := .other (.nodeset H w)) hi hst, a1, Or.inr ⟨H, w, _, rfl, hst, a2⟩⟩

/-! ### concrete cases -/

/-- the node set `{20, 30}` of `Ex.dg`, whose nodes are 10, 20, 30 and 40 -/
def exSet : Vec _root_.Ex.dg.n Bool := fun i => if i.val < 2 then some true else none

/-- `{20, 30} <= {30, 99, 20}`, `< {30, 99, 20}` are true and `== {30, 20}` is; `>= {30}` is, `>= {99, 30}` and
`isdisjoint([99])` raise -/
example : _root_.Ex.dg.WF ∧ nsLe _root_.Ex.dg exSet (.set [30, 99, 20]) = .ok true ∧
    nsLt _root_.Ex.dg exSet (.set [30, 99, 20]) = .ok true ∧ nsLt _root_.Ex.dg exSet (.set [30, 20]) = .ok false ∧
    nsEqO _root_.Ex.dg exSet (.set [30, 20]) = .ok true ∧ nsGe _root_.Ex.dg exSet (.set [30]) = .ok true ∧
    nsGt _root_.Ex.dg exSet (.set [30]) = .ok true ∧ nsGe _root_.Ex.dg exSet (.set [99, 30]) = .error .keyError ∧
    nsIsdisjoint _root_.Ex.dg exSet (.iter [10, 40]) = .ok true ∧
    nsIsdisjoint _root_.Ex.dg exSet (.iter [99]) = .error .keyError := by
  refine ⟨_root_.Ex.dg_wf, ?_⟩; decide +kernel

/-- `{20, 30} - {99, 30}` is `{20}`, `{20, 30} - [99, 30]` raises, `{20, 30} ^ {30, 10}` is `{20, 10}`,
`{20, 30} | {99}` and `{20, 30} & {99}` raise -/
example : ((nsSubO _root_.Ex.dg exSet (.set [99, 30])).bind fun x => listToKeys _ (indices x)) = .ok [20] ∧
    ((nsSubO _root_.Ex.dg exSet (.iter [99, 30])).bind fun x => listToKeys _ (indices x)) = .error .keyError ∧
    ((nsXorO _root_.Ex.dg exSet (.set [30, 10])).bind fun x => listToKeys _ (indices x)) = .ok [20, 10] ∧
    ((nsOrO _root_.Ex.dg exSet (.set [99])).bind fun x => listToKeys _ (indices x)) = .error .keyError ∧
    ((nsAndO _root_.Ex.dg exSet (.set [99])).bind fun x => listToKeys _ (indices x)) = .error .keyError ∧
    nsUnion _root_.Ex.dg exSet [.set [99], .iter [20, 7]] = .ok [30, 99, 20, 7] := by decide +kernel

/-- `s -= [20, 99, 30]` raises and leaves `{30}`; `s &= {99, 20}` gives `{20}`; `s ^= {99}` raises and changes nothing -/
example : ((nsIsub _root_.Ex.dg exSet (.other (.iter [20, 99, 30]))).1 = .error .keyError ∧
      listToKeys _root_.Ex.dg (indices (nsIsub _root_.Ex.dg exSet (.other (.iter [20, 99, 30]))).2) = .ok [30]) ∧
    ((nsIand _root_.Ex.dg exSet (.other (.set [99, 20]))).1 = .ok () ∧
      listToKeys _root_.Ex.dg (indices (nsIand _root_.Ex.dg exSet (.other (.set [99, 20]))).2) = .ok [20]) ∧
    ((nsIxor _root_.Ex.dg exSet (.other (.set [99]))).1 = .error .keyError ∧
      listToKeys _root_.Ex.dg (indices (nsIxor _root_.Ex.dg exSet (.other (.set [99]))).2) = .ok [20, 30]) := by
  decide +kernel

end Props
