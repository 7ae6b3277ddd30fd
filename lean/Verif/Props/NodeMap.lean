import Verif.Proofs.NodeMap
import Verif.Props.Examples

/-!
# C11 NodeMap is a dict, C12 NodeMap with a fill value is a total map, C13 VectorNodeMap and
NodeNodeMap are dicts of rows, C14 NodeSet is a set
-/

open GB Spec Model Model.Graph Proofs

namespace Props

variable {K α β U R : Type} [DecidableEq K] {G : Graph K α}

/-! ### C11 -/

/-- the calls for which a NodeMap promises to act as a dict whose contents are `M`: keys given to
`get`, `in`, `m[k] = v` and `setdefault` are nodes, stored values can be represented, `del` is not
used on a node without a value, `setdefault` has a default other than None. -/
def Fits (G : Graph K α) (c : Codec U R) (M : K → Option U) : MOp K U → Prop
  | .get k _ => G.Node k
  | .contains k => G.Node k
  | .setitem k v => G.Node k ∧ ∃ r, c.enc v = .ok r
  | .delitem k => G.Node k → ∃ u, M k = some u
  | .setdefault k d => G.Node k ∧ ∃ u r, d = some u ∧ c.enc u = .ok r ∧ c.raw u = .ok r
  | _ => True

/-- every call of a run is one of these -/
def Polite (G : Graph K α) (c : Codec U R) : NMap G.n U R → List (MOp K U) → Prop
  | _, [] => True
  | s, op :: ops => Fits G c (stored G c s) op ∧ Polite G c (nmStep G c s op).2 ops

/-- plain values -/
theorem plain_sound : Codec.Sound (Codec.plain : Codec U U) := by
  intro u r h; cases h; rfl

/-- values that are nodes -/
theorem keys_sound (h : G.WF) (raw : K → Except Err Nat) : Codec.Sound (Codec.keys G raw) := by
  intro u r hu
  simp only [Codec.keys] at hu ⊢
  cases hl : G.keyToId.lookup u with
  | none => simp [hl] at hu
  | some i =>
    simp only [hl, Except.ok.injEq] at hu
    subst hu
    have := (lookup_eq_some_iff h.keys_nodup).1 hl
    unfold keyAt
    rw [(keyOf_eq_some h).2 this]

section
variable {c : Codec U R}

theorem nm_getitem_cases (h : G.WF) {s : NMap G.n U R} (hd : Decodable c s) (hf : s.fill = none) (k : K) :
    nmGetitem G c s k = match stored G c s k with
      | some u => .ok (.val (some u))
      | none => .error .keyError := by
  unfold nmGetitem
  by_cases hk : G.Node k
  · obtain ⟨i, hi⟩ := hk.exists_id h
    rw [(getId_eq_ok h).2 hi]
    show (nmLookup c s i >>= fun o => _) = _
    rw [(stored_at h hd hi).1, hf]
    cases stored G c s k <;> rfl
  · rw [getId_eq_error h hk, stored_none h hk]; rfl

theorem nm_enum (h : G.WF) {s : NMap G.n U R} (hd : Decodable c s) :
    ∃ l, listToKeys G (indices s.vec) = .ok l ∧ l.length = nvals s.vec ∧
      IsEnum l (fun k => (stored G c s k).isSome) := by
  obtain ⟨l, h1, h2, h3, h4⟩ := listToKeys_indices h s.vec
  refine ⟨l, h1, h2, h3, fun k => (h4 k).trans ?_⟩
  by_cases hk : G.Node k
  · obtain ⟨i, hi⟩ := hk.exists_id h
    simp only [view_at h hi, (stored_at h hd hi).2]
  · simp [view_none_of_not_node h hk, stored_none h hk]

theorem nm_step (h : G.WF) (hc : Codec.Sound c) {s : NMap G.n U R} (hd : Decodable c s)
    (hf : s.fill = none) (op : MOp K U) (hp : Fits G c (stored G c s) op) :
    DictStep (stored G c s) op (nmStep G c s op).1 (stored G c (nmStep G c s op).2) ∧
    Decodable c (nmStep G c s op).2 ∧ (nmStep G c s op).2.fill = none := by
  have hdel : ∀ {k : K} {u : U}, stored G c s k = some u →
      stored G c (nmDel (U := U) G s k).2 = Function.update (stored G c s) k none ∧
      Decodable c (nmDel (U := U) G s k).2 ∧ (nmDel (U := U) G s k).2.fill = none ∧
      (nmDel (U := U) G s k).1 = .ok .unit := by
    intro k u hu
    by_cases hk : G.Node k
    · obtain ⟨i, hi⟩ := hk.exists_id h
      unfold nmDel
      rw [(getId_eq_ok h).2 hi]
      exact ⟨stored_del h hi, decodable_del hd, hf, rfl⟩
    · rw [stored_none h hk] at hu; cases hu
  cases op with
  | getitem k =>
    refine ⟨?_, hd, hf⟩
    show DictStep _ _ (nmGetitem G c s k) (stored G c s)
    rw [nm_getitem_cases h hd hf]
    cases hs : stored G c s k with
    | none => exact .getitem_miss hs
    | some u => exact .getitem_hit hs
  | get k d =>
    refine ⟨?_, hd, hf⟩
    obtain ⟨i, hi⟩ := Node.exists_id h (u := k) hp
    show DictStep _ _ (nmGet G c s k d) (stored G c s)
    unfold nmGet
    rw [(getId_eq_ok h).2 hi]
    show DictStep _ _ (nmLookup c s i >>= fun o => _) _
    rw [(stored_at h hd hi).1, hf]
    cases hs : stored G c s k with
    | none => exact .get_miss hs
    | some u => exact .get_hit hs
  | setitem k v =>
    obtain ⟨hk, r, hr⟩ := hp
    obtain ⟨i, hi⟩ := hk.exists_id h
    simp only [nmStep, nmSet, (getId_eq_ok h).2 hi, hr]
    rw [stored_set h hi (hc _ _ hr)]
    exact ⟨.setitem, decodable_set hd (hc _ _ hr), hf⟩
  | delitem k =>
    by_cases hk : G.Node k
    · obtain ⟨u, hu⟩ := hp hk
      obtain ⟨h1, h2, h3, h4⟩ := hdel hu
      refine ⟨?_, h2, h3⟩
      show DictStep _ _ (nmDel (U := U) G s k).1 (stored G c (nmDel (U := U) G s k).2)
      rw [h1, h4]
      exact .del_hit hu
    · simp only [nmStep, nmDel, getId_eq_error h hk]
      exact ⟨.del_miss (stored_none h hk), hd, hf⟩
  | contains k =>
    refine ⟨?_, hd, hf⟩
    obtain ⟨i, hi⟩ := Node.exists_id h (u := k) hp
    have : (nmStep G c s (.contains k)).1 = .ok (.bool (stored G c s k).isSome) := by
      simp only [nmStep, (getId_eq_ok h).2 hi, hf, (stored_at h hd hi).2]
      rfl
    rw [this]; exact .contains
  | len =>
    refine ⟨?_, hd, hf⟩
    obtain ⟨l, h1, h2, h3⟩ := nm_enum h hd
    have : (nmStep G c s .len).1 = .ok (.nat l.length) := by
      simp only [nmStep, nmLen, hf, h2]
    rw [this]; exact .len h3
  | iter =>
    refine ⟨?_, hd, hf⟩
    obtain ⟨l, h1, h2, h3⟩ := nm_enum h hd
    have : (nmStep G c s .iter).1 = .ok (.keys l) := by
      simp only [nmStep, nmIter, hf, h1]; rfl
    rw [this]; exact .iter h3
  | clear =>
    have : stored G c (nmStep G c s .clear).2 = fun _ => none := by
      funext k; simp [nmStep, stored, view_vempty]
    rw [this]
    exact ⟨.clear, fun i r hr => by simp [nmStep, vempty] at hr, rfl⟩
  | setdefault k d =>
    obtain ⟨hk, u, r, rfl, hr, hraw⟩ := hp
    obtain ⟨i, hi⟩ := hk.exists_id h
    simp only [nmStep, nmSetdefault, (getId_eq_ok h).2 hi, (stored_at h hd hi).1, hf]
    cases hs : stored G c s k with
    | none =>
      have e := stored_set (s := s) h hi (hc _ _ hr)
      have e' := decodable_set (i := i) hd (hc _ _ hr)
      rw [hf] at e e'
      simp only [Option.orElse, hraw, e]
      exact ⟨.setdefault_miss hs, e', trivial⟩
    | some u' =>
      exact ⟨.setdefault_hit hs, hd, hf⟩
  | popitem =>
    simp only [nmStep, nmPopitem]
    cases ht : tocoo s.vec with
    | nil =>
      refine ⟨.popitem_empty fun k => ?_, hd, hf⟩
      have hv : ∀ i, s.vec i = none := by
        intro i
        cases hv : s.vec i with
        | none => rfl
        | some b => have := mem_tocoo.2 hv; rw [ht] at this; cases this
      simp [stored, view_all_none h hv]
    | cons p l =>
      obtain ⟨i, r⟩ := p
      have hv := tocoo_cons ht
      obtain ⟨u, hu⟩ := hd i r hv
      obtain ⟨k, hk⟩ := h.exists_key i
      have hk' : keyAt G i.val = .ok k := keyAt_eq_ok h hk
      simp only [hu, hk']
      rw [stored_del h hk]
      refine ⟨.popitem ?_, decodable_del hd, hf⟩
      simp [stored, view_at h hk, hv, hu, Except.toOption]
  | pop k =>
    simp only [nmStep, nmPop, nm_getitem_cases h hd hf]
    cases hs : stored G c s k with
    | none => exact ⟨.pop_miss hs, hd, hf⟩
    | some u =>
      obtain ⟨h1, h2, h3, -⟩ := hdel hs
      simp only [h1]
      exact ⟨.pop_hit hs, h2, h3⟩
  | popD k d =>
    simp only [nmStep, nmPopD, nm_getitem_cases h hd hf]
    cases hs : stored G c s k with
    | none => exact ⟨.popD_miss hs, hd, hf⟩
    | some u =>
      obtain ⟨h1, h2, h3, -⟩ := hdel hs
      simp only [h1]
      exact ⟨.popD_hit hs, h2, h3⟩

/-- **C11.** A `NodeMap` without a fill value behaves like a Python dict: for every sequence of calls
within the promise (`Fits`), each call returns or raises what the dict holding the stored values would,
and afterwards the map holds what the dict would hold -- also when values are themselves nodes. -/
theorem nodemap_is_dict_partial (h : G.WF) (hc : Codec.Sound c) (ops : List (MOp K U)) :
    ∀ s : NMap G.n U R, Decodable c s → s.fill = none → Polite G c s ops →
    DictRun (stored G c s) ops (nmRun G c s ops).1 (stored G c (nmRun G c s ops).2) := by
  induction ops with
  | nil => intro s _ _ _; exact .nil
  | cons op ops ih =>
    intro s hd hf ⟨hp, hps⟩
    obtain ⟨h1, h2, h3⟩ := nm_step h hc hd hf op hp
    exact .cons h1 (ih _ h2 h3 hps)

end

/-- **C11, the part that fails.** Outside the promise a `NodeMap` is not a dict: `k in m` and `m.get(k)`
raise KeyError for a non-node, deleting a node that has no value does nothing instead of raising
KeyError, `setdefault(k)` without a default stores nothing. -/
theorem nodemap_deviations (h : G.WF) (c : Codec U R) (s : NMap G.n U R) (hf : s.fill = none) (k : K) :
    (¬ G.Node k → (nmStep G c s (.contains k)).1 = .error .keyError ∧
      ∀ d, (nmStep G c s (.get k d)).1 = .error .keyError) ∧
    (G.Node k → G.view s.vec k = none →
      (nmStep G c s (.delitem k)).1 = .ok .unit ∧
      nmStep G c s (.setdefault k none) = (.ok (.val none), s)) := by
  refine ⟨fun hk => ?_, fun hk hv => ?_⟩
  · simp only [nmStep, nmGet, getId_eq_error h hk]
    exact ⟨rfl, fun _ => rfl⟩
  · obtain ⟨i, hi⟩ := hk.exists_id h
    rw [view_at h hi] at hv
    simp [nmStep, nmDel, nmSetdefault, (getId_eq_ok h).2 hi, nmLookup, hv, hf]

/-- a map on the nodes of `Ex.dg` whose values are nodes: 10 ↦ 20, 30 ↦ 40; storing an integer key
untranslated succeeds -/
def exMap : NMap Ex.dg.n Nat Nat := ⟨fun i => if i.val = 2 then some 0 else if i.val = 1 then some 3 else none, none⟩

/-- the codec of a map with `values_are_keys=True` over integer node names -/
abbrev exCodec : Codec Nat Nat := Codec.keys Ex.dg .ok

/-- **C11, the part that fails.** `setdefault` on a map whose values are nodes stores the default
without translating it: `m.setdefault(20, 10)` on a map with `values_are_keys=True` makes the next
`m[20]` raise KeyError. -/
theorem nodemap_setdefault_keys_wrong :
    (nmRun Ex.dg exCodec exMap [.setdefault 20 (some 10), .getitem 20]).1 =
      [.ok (.val (some 10)), .error .keyError] := by decide

/-- the hypotheses of `nodemap_is_dict_partial` hold on a run mixing all methods -/
example : Decodable exCodec exMap ∧ exMap.fill = none ∧
    (nmRun Ex.dg exCodec exMap [.setitem 20 40, .getitem 20, .len, .delitem 30, .contains 30, .pop 10,
      .popD 99 none, .setitem 40 40, .popitem]).1 =
    [.ok .unit, .ok (.val (some 40)), .ok (.nat 3), .ok .unit, .ok (.bool false), .ok (.val (some 20)),
      .ok (.val none), .ok .unit, .ok (.item 20 40)] := by
  refine ⟨fun i r hr => ?_, rfl, by decide⟩
  have : ∀ i : Fin Ex.dg.n, ∀ r ∈ exMap.vec i, (exCodec.dec r).toOption.isSome = true := by decide
  have := this i r hr
  cases e : exCodec.dec r with
  | ok u => exact ⟨u, rfl⟩
  | error x => rw [e] at this; cases this

example : Polite Ex.dg exCodec exMap [.setitem 20 40, .getitem 20, .delitem 30] := by
  refine ⟨⟨by decide, 3, by decide⟩, trivial, fun _ => ⟨40, by decide⟩, trivial⟩

/-! ### C12 -/

/-- the calls the total-map property is about: keys are nodes, stored values can be represented, no
`clear` (which also drops the fill value) -/
def FitsFill (G : Graph K α) (c : Codec U R) : MOp K U → Prop
  | .getitem k => G.Node k
  | .get k _ => G.Node k
  | .contains k => G.Node k
  | .setitem k v => G.Node k ∧ ∃ r, c.enc v = .ok r
  | .delitem k => G.Node k
  | .setdefault k _ => G.Node k
  | .pop k => G.Node k
  | .popD k _ => G.Node k
  | .clear => False
  | _ => True

section
variable {c : Codec U R}

theorem nm_lookup_fill (h : G.WF) {s : NMap G.n U R} (hd : Decodable c s) {f : U} (hf : s.fill = some f)
    {k : K} {i} (hi : G.At k i) : nmLookup c s i = .ok (some ((stored G c s k).getD f)) := by
  rw [(stored_at h hd hi).1, hf]
  cases stored G c s k <;> rfl

theorem nm_getitem_fill (h : G.WF) {s : NMap G.n U R} (hd : Decodable c s) {f : U} (hf : s.fill = some f)
    {k : K} {i} (hi : G.At k i) :
    nmGetitem G c s k = .ok (.val (some ((stored G c s k).getD f))) := by
  unfold nmGetitem
  rw [(getId_eq_ok h).2 hi]
  show (nmLookup c s i >>= fun o => _) = _
  rw [nm_lookup_fill h hd hf hi]; rfl

theorem nm_step_fill (h : G.WF) (hc : Codec.Sound c) {s : NMap G.n U R} (hd : Decodable c s) {f : U}
    (hf : s.fill = some f) (op : MOp K U) (hp : FitsFill G c op) :
    FillStep G.nodes f (stored G c s) op (nmStep G c s op).1 (stored G c (nmStep G c s op).2) ∧
    Decodable c (nmStep G c s op).2 ∧ (nmStep G c s op).2.fill = some f := by
  cases op with
  | getitem k =>
    obtain ⟨i, hi⟩ := Node.exists_id h (u := k) hp
    simp only [nmStep, nm_getitem_fill h hd hf hi]
    exact ⟨.getitem, hd, hf⟩
  | get k d =>
    obtain ⟨i, hi⟩ := Node.exists_id h (u := k) hp
    have : nmGet G c s k d = .ok (.val (some ((stored G c s k).getD f))) := by
      unfold nmGet
      rw [(getId_eq_ok h).2 hi]
      show (nmLookup c s i >>= fun o => _) = _
      rw [nm_lookup_fill h hd hf hi]; rfl
    simp only [nmStep, this]
    exact ⟨.get, hd, hf⟩
  | setitem k v =>
    obtain ⟨hk, r, hr⟩ := hp
    obtain ⟨i, hi⟩ := hk.exists_id h
    simp only [nmStep, nmSet, (getId_eq_ok h).2 hi, hr]
    rw [stored_set h hi (hc _ _ hr)]
    exact ⟨.setitem, decodable_set hd (hc _ _ hr), hf⟩
  | delitem k =>
    obtain ⟨i, hi⟩ := Node.exists_id h (u := k) hp
    simp only [nmStep, nmDel, (getId_eq_ok h).2 hi]
    rw [stored_del h hi]
    exact ⟨.del, decodable_del hd, hf⟩
  | contains k =>
    obtain ⟨i, hi⟩ := Node.exists_id h (u := k) hp
    refine ⟨?_, hd, hf⟩
    have : (nmStep G c s (.contains k)).1 = .ok (.bool true) := by
      simp only [nmStep, (getId_eq_ok h).2 hi, hf]
      rfl
    rw [this]; exact .contains
  | len =>
    refine ⟨?_, hd, hf⟩
    have : (nmStep G c s .len).1 = .ok (.nat G.nodes.length) := by
      simp only [nmStep, nmLen, hf, Graph.nodes, List.length_map]
    rw [this]; exact .len
  | iter =>
    refine ⟨?_, hd, hf⟩
    have : (nmStep G c s .iter).1 = .ok (.keys G.nodes) := by
      simp only [nmStep, nmIter, hf, Graph.nodes]
    rw [this]; exact .iter
  | clear => exact hp.elim
  | setdefault k d =>
    obtain ⟨i, hi⟩ := Node.exists_id h (u := k) hp
    simp only [nmStep, nmSetdefault, (getId_eq_ok h).2 hi, nm_lookup_fill h hd hf hi]
    exact ⟨.setdefault, hd, hf⟩
  | popitem =>
    simp only [nmStep, nmPopitem]
    cases ht : tocoo s.vec with
    | nil =>
      refine ⟨.popitem_empty fun k => ?_, hd, hf⟩
      have hv : ∀ i, s.vec i = none := by
        intro i
        cases hv : s.vec i with
        | none => rfl
        | some b => have := mem_tocoo.2 hv; rw [ht] at this; cases this
      simp [stored, view_all_none h hv]
    | cons p l =>
      obtain ⟨i, r⟩ := p
      have hv := tocoo_cons ht
      obtain ⟨u, hu⟩ := hd i r hv
      obtain ⟨k, hk⟩ := h.exists_key i
      have hk' : keyAt G i.val = .ok k := keyAt_eq_ok h hk
      simp only [hu, hk']
      rw [stored_del h hk]
      refine ⟨.popitem ?_, decodable_del hd, hf⟩
      simp [stored, view_at h hk, hv, hu, Except.toOption]
  | pop k =>
    obtain ⟨i, hi⟩ := Node.exists_id h (u := k) hp
    simp only [nmStep, nmPop, nm_getitem_fill h hd hf hi, nmDel, (getId_eq_ok h).2 hi]
    rw [stored_del h hi]
    exact ⟨.pop, decodable_del hd, hf⟩
  | popD k d =>
    obtain ⟨i, hi⟩ := Node.exists_id h (u := k) hp
    simp only [nmStep, nmPopD, nm_getitem_fill h hd hf hi, nmDel, (getId_eq_ok h).2 hi]
    rw [stored_del h hi]
    exact ⟨.popD, decodable_del hd, hf⟩

/-- **C12.** A `NodeMap` with a fill value `f` is a total map on the nodes of the graph: under every
sequence of calls with node keys, every node is present, reads as the value last stored for it or `f`,
`len` and iteration cover exactly the nodes of the graph, and deleting or popping resets to `f`. -/
theorem nodemap_fill_total (h : G.WF) (hc : Codec.Sound c) (f : U) (ops : List (MOp K U)) :
    (∀ op ∈ ops, FitsFill G c op) → ∀ s : NMap G.n U R, Decodable c s → s.fill = some f →
    FillRun G.nodes f (stored G c s) ops (nmRun G c s ops).1 (stored G c (nmRun G c s ops).2) ∧
    (nmRun G c s ops).2.fill = some f := by
  induction ops with
  | nil => intro _ s _ hf; exact ⟨.nil, hf⟩
  | cons op ops ih =>
    intro hops s hd hf
    obtain ⟨h1, h2, h3⟩ := nm_step_fill h hc hd hf op (hops _ (by simp))
    have := ih (fun o ho => hops o (by simp [ho])) _ h2 h3
    exact ⟨.cons h1 this.1, this.2⟩

/-- **C12.** `clear()` removes everything including the fill value: afterwards the map is an empty
dict. -/
theorem nodemap_fill_clear (s : NMap G.n U R) (k : K) :
    stored G c (nmStep G c s .clear).2 k = none ∧ (nmStep G c s .clear).2.fill = none ∧
    (nmStep G c (nmStep G c s .clear).2 .len).1 = .ok (.nat 0) := by
  refine ⟨by simp [nmStep, stored, view_vempty], rfl, ?_⟩
  simp [nmStep, nmLen, nvals, vempty]

end

/-- **C12, the part that fails.** a map with a fill value and nothing stored is not empty (`len` counts
all nodes), yet `popitem()` raises KeyError. -/
theorem nodemap_fill_popitem_empty (h : G.WF) (c : Codec U R) (f : U) (hn : G.nodes ≠ []) :
    ∃ l, (nmStep G c ⟨vempty, some f⟩ .len).1 = .ok (.nat l) ∧ 0 < l ∧
      (nmStep G c ⟨vempty, some f⟩ .popitem).1 = .error .keyError := by
  refine ⟨G.keyToId.length, rfl, ?_, ?_⟩
  · rw [List.length_pos_iff]; intro e; exact hn (by simp [Graph.nodes, e])
  · have : tocoo (vempty : Vec G.n R) = [] := by
      cases ht : tocoo (vempty : Vec G.n R) with
      | nil => rfl
      | cons p l => have := tocoo_cons ht; simp [vempty] at this
    simp only [nmStep, nmPopitem, this]

example : (∀ op ∈ ([.getitem 40, .setitem 40 7, .getitem 40, .delitem 40, .get 40 none, .len] :
      List (MOp Nat Nat)), FitsFill Ex.dg (Codec.plain : Codec Nat Nat) op) ∧
    (nmRun Ex.dg (Codec.plain : Codec Nat Nat) ⟨vempty, some 0⟩ [.getitem 40, .setitem 40 7, .getitem 40,
      .delitem 40, .get 40 none, .len]).1 =
    [.ok (.val (some 0)), .ok .unit, .ok (.val (some 7)), .ok .unit, .ok (.val (some 0)), .ok (.nat 4)] := by
  refine ⟨?_, by decide⟩
  intro op hop
  simp only [List.mem_cons, List.not_mem_nil, or_false] at hop
  rcases hop with rfl | rfl | rfl | rfl | rfl | rfl
  · show Ex.dg.Node 40; decide
  · exact ⟨by decide, 7, rfl⟩
  · show Ex.dg.Node 40; decide
  · show Ex.dg.Node 40; decide
  · show Ex.dg.Node 40; decide
  · trivial

end Props
