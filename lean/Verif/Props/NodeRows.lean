import Verif.Props.NodeMap
import Verif.Proofs.Count
import Verif.Proofs.Bfs
import Mathlib.Algebra.Order.BigOperators.Group.Finset

/-!
# C13 VectorNodeMap and NodeNodeMap are dicts of rows, C14 NodeSet is a set
-/

open GB Spec Model Model.Graph Proofs

namespace Props

variable {K α β U R : Type} [DecidableEq K] {G : Graph K α} {m : Nat}

/-! ### C13 -/

/-- the rows of the matrix by node: a node is present when its row has an entry -/
def rowsOf (G : Graph K α) (s : RMap G.n m R) (k : K) : Option (Vec m R) :=
  (G.idOf k).bind fun i => if nvals (s.A i) = 0 then none else some (s.A i)

/-- the lazily built index of non-empty rows, if built, is the set of non-empty rows -/
def RowsOK {n : Nat} (s : RMap n m R) : Prop :=
  ∀ r, s.rows = some r → ∀ i, (r i).isSome ↔ nvals (s.A i) ≠ 0

omit [DecidableEq K] in
theorem rmRows_spec {n : Nat} (s : RMap n m R) (hs : RowsOK s) :
    (∀ i, ((rmRows s).1 i).isSome ↔ nvals (s.A i) ≠ 0) ∧ (rmRows s).2.A = s.A ∧
    (rmRows s).2.fill = s.fill ∧ RowsOK (rmRows s).2 ∧ (rmRows s).2.rows = some (rmRows s).1 := by
  unfold rmRows
  cases hr : s.rows with
  | some r => exact ⟨hs r hr, rfl, rfl, hs, hr⟩
  | none =>
    have : ∀ i, ((vapply (fun _ => 1) (reduceRow any' s.A) : Vec n Nat) i).isSome ↔ nvals (s.A i) ≠ 0 := by
      intro i
      simp only [vapply, reduceRow, Option.isSome_map, reduce_isSome, ← nvals_pos]
      omega
    exact ⟨this, rfl, rfl, fun r hr i => by cases hr; exact this i, rfl⟩

theorem rowsOf_at (h : G.WF) {s : RMap G.n m R} {k : K} {i} (hi : G.At k i) :
    rowsOf G s k = if nvals (s.A i) = 0 then none else some (s.A i) := by
  simp [rowsOf, (idOf_eq_some h).2 hi]

theorem rowsOf_not_node (h : G.WF) {s : RMap G.n m R} {k : K} (hk : ¬ G.Node k) : rowsOf G s k = none := by
  simp [rowsOf, (idOf_eq_none h).2 hk]

theorem rowsOf_congr {s s' : RMap G.n m R} (e : s'.A = s.A) : rowsOf G s' = rowsOf G s := by
  funext k; simp [rowsOf, e]

/-- replacing one row by `v` -/
theorem rowsOf_update (h : G.WF) {s s' : RMap G.n m R} {k : K} {i} (hi : G.At k i) (v : Vec m R)
    (hA : ∀ a, s'.A a = if a = i then v else s.A a) :
    rowsOf G s' = Function.update (rowsOf G s) k (if nvals v = 0 then none else some v) := by
  funext k'
  rw [Function.update_apply]
  by_cases hk' : G.Node k'
  · obtain ⟨j, hj⟩ := hk'.exists_id h
    rw [rowsOf_at h hj, rowsOf_at h hj, hA]
    by_cases e : j = i
    · subst e; rw [if_pos rfl, if_pos (At.key_unique h hj hi)]
    · have hne : k' ≠ k := by rintro rfl; exact e (At.id_unique h hj hi)
      rw [if_neg e, if_neg hne]
  · rw [rowsOf_not_node h hk', rowsOf_not_node h hk', if_neg]
    rintro rfl; exact hk' hi.node

omit [DecidableEq K] in
theorem nvals_none : nvals (fun _ => none : Vec m R) = 0 := nvals_eq_zero.2 fun _ => rfl

theorem rowsOf_del (h : G.WF) {s : RMap G.n m R} {k : K} {i} (hi : G.At k i) :
    rowsOf G (rmDelRow s i) = Function.update (rowsOf G s) k none := by
  rw [rowsOf_update h hi (fun _ => none) (s := s), if_pos nvals_none]
  intro a
  by_cases e : a = i <;> simp [rmDelRow, e]

theorem rowsOf_set (h : G.WF) {s : RMap G.n m R} {k : K} {i} (hi : G.At k i) {v : Vec m R}
    (hv : nvals v ≠ 0) : rowsOf G (rmSetRow s i v) = Function.update (rowsOf G s) k (some v) := by
  rw [rowsOf_update h hi v (s := s), if_neg hv]
  intro a
  by_cases e : a = i <;> simp [rmSetRow, e]

omit [DecidableEq K] in
theorem rowsOK_del {n : Nat} {s : RMap n m R} (hs : RowsOK s) (i) : RowsOK (rmDelRow s i) := by
  intro r hr j
  simp only [rmDelRow, Option.map_eq_some_iff] at hr
  obtain ⟨r0, h0, rfl⟩ := hr
  by_cases e : j = i
  · simp [vdel, rmDelRow, e, nvals_eq_zero]
  · simpa [vdel, rmDelRow, e] using hs r0 h0 j

omit [DecidableEq K] in
theorem rowsOK_set {n : Nat} {s : RMap n m R} (hs : RowsOK s) (i) {v : Vec m R} (hv : nvals v ≠ 0) :
    RowsOK (rmSetRow s i v) := by
  intro r hr j
  simp only [rmSetRow, Option.map_eq_some_iff] at hr
  obtain ⟨r0, h0, rfl⟩ := hr
  by_cases e : j = i
  · simp [vset, rmSetRow, e, hv]
  · simpa [vset, rmSetRow, e] using hs r0 h0 j

/-- the calls considered: keys are nodes -/
def RowFits (G : Graph K α) : ROp K m R → Prop
  | .getitem k => G.Node k
  | .get k => G.Node k
  | .setitem k _ => G.Node k
  | .delitem k => G.Node k
  | .contains k => G.Node k
  | _ => True

/-- `get` is the method that `NodeNodeMap` gets wrong -/
def IsGet : ROp K m R → Prop
  | .get _ => True
  | _ => False

theorem rows_enum (h : G.WF) {s : RMap G.n m R} {r : Vec G.n Nat}
    (hr : ∀ i, (r i).isSome ↔ nvals (s.A i) ≠ 0) :
    ∃ l, listToKeys G (indices r) = .ok l ∧ l.length = nvals r ∧
      IsEnum l (fun k => (rowsOf G s k).isSome) := by
  obtain ⟨l, h1, h2, h3, h4⟩ := listToKeys_indices h r
  refine ⟨l, h1, h2, h3, fun k => (h4 k).trans ?_⟩
  by_cases hk : G.Node k
  · obtain ⟨i, hi⟩ := hk.exists_id h
    simp only [view_at h hi, rowsOf_at h hi, hr]
    split <;> simp_all
  · simp [view_none_of_not_node h hk, rowsOf_not_node h hk]

theorem rm_step (h : G.WF) (nn : Bool) {s : RMap G.n m R} (hs : RowsOK s) (hf : s.fill = none)
    (op : ROp K m R) (hp : RowFits G op) (hg : nn = true → ¬ IsGet op) :
    RowStep (rowsOf G s) op (rmStep G nn s op).1 (rowsOf G (rmStep G nn s op).2) ∧
    RowsOK (rmStep G nn s op).2 ∧ (rmStep G nn s op).2.fill = none := by
  obtain ⟨r1, r2, r3, r4, r5⟩ := rmRows_spec s hs
  have hA := rowsOf_congr (G := G) r2
  rw [hf] at r3
  have hfs : s.fill.isSome = false := by rw [hf]; rfl
  cases op with
  | getitem k =>
    obtain ⟨i, hi⟩ := Node.exists_id h (u := k) hp
    simp only [rmStep, (getId_eq_ok h).2 hi, hfs, Bool.false_eq_true, if_false]
    have hv := rowsOf_at h hi (s := s)
    by_cases hn : nvals (s.A i) = 0
    · rw [if_pos hn] at hv
      rw [if_neg (by rw [r1]; simpa using hn)]
      simp only [hA, r3]
      exact ⟨.getitem_miss hv, r4, trivial⟩
    · rw [if_neg hn] at hv
      rw [if_pos ((r1 i).2 hn)]
      simp only [hA, r3, r2]
      exact ⟨.getitem_hit hv, r4, trivial⟩
  | get k =>
    obtain ⟨i, hi⟩ := Node.exists_id h (u := k) hp
    have hnn : nn = false := by
      cases nn with
      | false => rfl
      | true => exact absurd trivial (hg rfl)
    subst hnn
    simp only [rmStep, (getId_eq_ok h).2 hi, hfs, Bool.false_eq_true, if_false]
    have hv := rowsOf_at h hi (s := s)
    by_cases hn : nvals (s.A i) = 0
    · rw [if_pos hn] at hv
      rw [if_neg (by rw [r1]; simpa using hn)]
      simp only [hA, r3]
      exact ⟨.get_miss hv, r4, trivial⟩
    · rw [if_neg hn] at hv
      rw [if_pos ((r1 i).2 hn)]
      simp only [hA, r3, r2]
      exact ⟨.get_hit hv, r4, trivial⟩
  | setitem k v =>
    obtain ⟨i, hi⟩ := Node.exists_id h (u := k) hp
    cases v with
    | none =>
      simp only [rmStep, (getId_eq_ok h).2 hi]
      exact ⟨.setitem_bad, hs, hf⟩
    | some v =>
      simp only [rmStep, (getId_eq_ok h).2 hi]
      by_cases hn : nvals v = 0
      · rw [if_pos hn, rowsOf_del h hi]
        exact ⟨.setitem_empty (nvals_eq_zero.1 hn), rowsOK_del hs i, hf⟩
      · rw [if_neg hn, rowsOf_set h hi hn]
        exact ⟨.setitem (nvals_pos.1 (Nat.pos_of_ne_zero hn)), rowsOK_set hs i hn, hf⟩
  | delitem k =>
    obtain ⟨i, hi⟩ := Node.exists_id h (u := k) hp
    simp only [rmStep, (getId_eq_ok h).2 hi]
    rw [rowsOf_del h hi]
    exact ⟨.del, rowsOK_del hs i, hf⟩
  | contains k =>
    obtain ⟨i, hi⟩ := Node.exists_id h (u := k) hp
    simp only [rmStep, (getId_eq_ok h).2 hi, hfs, Bool.false_eq_true, if_false, hA, r3]
    refine ⟨?_, r4, trivial⟩
    have : ((rmRows s).1 i).isSome = (rowsOf G s k).isSome := by
      rw [rowsOf_at h hi, Bool.eq_iff_iff, r1 i]
      split <;> simp_all
    rw [this]; exact .contains
  | len =>
    obtain ⟨l, h1, h2, h3⟩ := rows_enum h r1
    simp only [rmStep, hfs, Bool.false_eq_true, if_false, hA, r3, ← h2]
    exact ⟨.len h3, r4, trivial⟩
  | iter =>
    obtain ⟨l, h1, h2, h3⟩ := rows_enum h r1
    simp only [rmStep, hfs, Bool.false_eq_true, if_false, hA, r3, h1]
    exact ⟨.iter h3, r4, trivial⟩
  | clear =>
    have : rowsOf G (⟨mempty, none, none⟩ : RMap G.n m R) = fun _ => none := by
      funext k
      unfold rowsOf
      cases G.idOf k with
      | none => rfl
      | some i => exact if_pos (nvals_eq_zero.2 fun _ => rfl)
    simp only [rmStep, this]
    refine ⟨.clear, ?_, trivial⟩
    intro r hr; cases hr
  | popitem =>
    simp only [rmStep]
    cases ht : indices (rmRows s).1 with
    | nil =>
      simp only [hA, r3]
      refine ⟨.popitem_empty fun k => ?_, r4, trivial⟩
      by_cases hk : G.Node k
      · obtain ⟨i, hi⟩ := hk.exists_id h
        rw [rowsOf_at h hi, if_pos]
        by_contra hn
        have := mem_indices.2 ((r1 i).2 hn)
        rw [ht] at this; cases this
      · exact rowsOf_not_node h hk
    | cons i l =>
      have hi : ((rmRows s).1 i).isSome := mem_indices.1 (by rw [ht]; simp)
      obtain ⟨k, hk⟩ := h.exists_key i
      simp only [keyAt_eq_ok h hk, Except.map]
      rw [rowsOf_del h hk, hA, r2]
      refine ⟨.popitem ?_, rowsOK_del r4 i, r3⟩
      rw [rowsOf_at h hk, if_neg ((r1 i).1 hi)]

/-- **C13.** A `VectorNodeMap` behaves like a dict of non-empty rows: for every sequence of calls with
node keys, each call returns or raises what that dict would -- whenever the lazily built index of
non-empty rows was or was not built -- and afterwards the matrix holds the rows of that dict. -/
theorem vector_node_map_is_dict (h : G.WF) (ops : List (ROp K m R)) :
    (∀ op ∈ ops, RowFits G op) → ∀ s : RMap G.n m R, RowsOK s → s.fill = none →
    RowRun (rowsOf G s) ops (rmRun G false s ops).1 (rowsOf G (rmRun G false s ops).2) := by
  induction ops with
  | nil => intro _ s _ _; exact .nil
  | cons op ops ih =>
    intro hops s hs hf
    obtain ⟨h1, h2, h3⟩ := rm_step h false hs hf op (hops _ (by simp)) (by simp)
    exact .cons h1 (ih (fun o ho => hops o (by simp [ho])) _ h2 h3)

/-- **C13.** the same for a `NodeNodeMap` without a fill value, for every method except `get` -/
theorem node_node_map_is_dict_partial (h : G.WF) (ops : List (ROp K m R)) :
    (∀ op ∈ ops, RowFits G op ∧ ¬ IsGet op) → ∀ s : RMap G.n m R, RowsOK s → s.fill = none →
    RowRun (rowsOf G s) ops (rmRun G true s ops).1 (rowsOf G (rmRun G true s ops).2) := by
  induction ops with
  | nil => intro _ s _ _; exact .nil
  | cons op ops ih =>
    intro hops s hs hf
    obtain ⟨h1, h2, h3⟩ := rm_step h true hs hf op (hops _ (by simp)).1 (fun _ => (hops _ (by simp)).2)
    exact .cons h1 (ih (fun o ho => hops o (by simp [ho])) _ h2 h3)

/-- **C13, the part that fails.** `NodeNodeMap.get(k)` returns None for every node, also when the row
exists (and `m[k]` returns it). -/
theorem node_node_map_get_none (h : G.WF) {s : RMap G.n m R} {k : K}
    (hk : G.Node k) : (rmStep G true s (.get k)).1 = .ok .none := by
  obtain ⟨i, hi⟩ := hk.exists_id h
  simp only [rmStep, (getId_eq_ok h).2 hi]
  by_cases hf : s.fill.isSome
  · simp [hf]
  · simp only [hf]
    by_cases hr : ((rmRows s).1 i).isSome <;> simp [hr]

/-- **C13.** a `NodeNodeMap` with a fill value covers all nodes: every node is a member with its row,
`len` and iteration cover exactly the nodes, and nothing but `clear` changes that. -/
theorem node_node_map_fill (h : G.WF) {s : RMap G.n m R} (hf : s.fill.isSome) :
    (∀ k i, G.At k i → (rmStep G true s (.contains k)).1 = .ok (.bool true) ∧
      (rmStep G true s (.getitem k)).1 = .ok (.row (s.A i))) ∧
    (rmStep G true s .len).1 = .ok (.nat G.nodes.length) ∧
    (rmStep G true s .iter).1 = .ok (.keys G.nodes) ∧
    (∀ op, op ≠ .clear → (rmStep G true s op).2.fill = s.fill) := by
  have hfill : (rmRows s).2.fill = s.fill := by
    unfold rmRows; cases s.rows <;> rfl
  refine ⟨fun k i hi => ?_, ?_, ?_, fun op hop => ?_⟩
  · simp only [rmStep, (getId_eq_ok h).2 hi, hf, if_true]
    exact ⟨trivial, trivial⟩
  · simp [rmStep, hf, Graph.nodes]
  · simp [rmStep, hf, Graph.nodes]
  · cases op with
    | clear => exact absurd rfl hop
    | popitem =>
      simp only [rmStep]
      cases indices (rmRows s).1 with
      | nil => exact hfill
      | cons i l => exact hfill
    | len => simp [rmStep, hf]
    | iter => simp [rmStep, hf]
    | getitem k => simp only [rmStep]; cases G.getId k <;> simp [hf]
    | get k => simp only [rmStep]; cases G.getId k <;> simp [hf]
    | contains k => simp only [rmStep]; cases G.getId k <;> simp [hf]
    | delitem k => simp only [rmStep]; cases G.getId k <;> simp [rmDelRow]
    | setitem k v =>
      simp only [rmStep]
      cases G.getId k with
      | error e => rfl
      | ok i =>
        cases v with
        | none => rfl
        | some v => by_cases hn : nvals v = 0 <;> simp [hn, rmDelRow, rmSetRow]

omit [DecidableEq K] in
/-- **C13, the part that fails.** the row object handed out (`VectorMap`) returns None for a missing
index instead of raising KeyError. -/
theorem vector_map_getitem_none {v : Vec m R} {i : Fin m} (hv : v i = none) : vmGetitem v i = none := hv

/-- a 4 x 3 row map on the nodes of `Ex.dg`: only node 10 (row 2) has a row -/
def exRows : RMap Ex.dg.n 3 Nat := ⟨fun i j => if i.val = 2 ∧ j.val = 1 then some 5 else none, none, none⟩

example : RowsOK exRows ∧ exRows.fill = none ∧ (rowsOf Ex.dg exRows 10).isSome ∧
    (rowsOf Ex.dg exRows 20).isNone := by
  refine ⟨?_, rfl, by decide, by decide⟩
  intro r hr; cases hr

example : (match (rmRun Ex.dg false exRows [.len, .setitem 20 (some fun _ => some 1), .contains 20, .delitem 10,
    .len, .popitem, .len]).1 with
    | [.ok (.nat 1), .ok .unit, .ok (.bool true), .ok .unit, .ok (.nat 1), .ok (.item 20 _), .ok (.nat 0)] => true
    | _ => false) = true := by decide

/-! ### C14 -/

/-- the members of a node set -/
def members (G : Graph K α) (v : Vec G.n Bool) : Set K := {k | (G.view v k).isSome}

/-- the calls considered: keys are nodes (`remove` may be given anything) -/
def SetFits (G : Graph K α) : SOp K → Prop
  | .add k => G.Node k
  | .discard k => G.Node k
  | .contains k => G.Node k
  | _ => True

theorem mem_members_at (h : G.WF) {v : Vec G.n Bool} {k : K} {i} (hi : G.At k i) :
    k ∈ members G v ↔ (v i).isSome := by
  simp [members, view_at h hi]

theorem not_mem_members (h : G.WF) {v : Vec G.n Bool} {k : K} (hk : ¬ G.Node k) : k ∉ members G v := by
  simp [members, view_none_of_not_node h hk]

theorem members_set (h : G.WF) {v : Vec G.n Bool} {k : K} {i} (hi : G.At k i) :
    members G (vset v i true) = insert k (members G v) := by
  ext k'
  simp only [members, Set.mem_ofPred_eq, view_vset h hi, Set.mem_insert_iff]
  split <;> simp_all

theorem members_del (h : G.WF) {v : Vec G.n Bool} {k : K} {i} (hi : G.At k i) :
    members G (vdel v i) = members G v \ {k} := by
  ext k'
  simp only [members, Set.mem_ofPred_eq, view_vdel h hi, Set.mem_sdiff, Set.mem_singleton_iff]
  split <;> simp_all

theorem ns_step (h : G.WF) (v : Vec G.n Bool) (op : SOp K) (hp : SetFits G op) :
    SetStep (members G v) op (nsStep G v op).1 (members G (nsStep G v op).2) := by
  cases op with
  | add k =>
    obtain ⟨i, hi⟩ := Node.exists_id h (u := k) hp
    simp only [nsStep, (getId_eq_ok h).2 hi, members_set h hi]
    exact .add
  | discard k =>
    obtain ⟨i, hi⟩ := Node.exists_id h (u := k) hp
    simp only [nsStep, (getId_eq_ok h).2 hi, members_del h hi]
    exact .discard
  | remove k =>
    by_cases hk : G.Node k
    · obtain ⟨i, hi⟩ := Node.exists_id h (u := k) hk
      simp only [nsStep, (getId_eq_ok h).2 hi]
      by_cases hm : (v i).isSome
      · simp only [hm, if_true, members_del h hi]
        exact .remove_hit ((mem_members_at h hi).2 hm)
      · simp only [hm]
        exact .remove_miss fun hm' => hm ((mem_members_at h hi).1 hm')
    · simp only [nsStep, getId_eq_error h hk]
      exact .remove_miss (not_mem_members h hk)
  | pop =>
    simp only [nsStep]
    cases ht : indices v with
    | nil =>
      refine .pop_empty (Set.eq_empty_of_forall_notMem fun k hk => ?_)
      by_cases hn : G.Node k
      · obtain ⟨i, hi⟩ := hn.exists_id h
        have := mem_indices.2 ((mem_members_at h hi).1 hk)
        rw [ht] at this; cases this
      · exact not_mem_members h hn hk
    | cons i l =>
      obtain ⟨k, hk⟩ := h.exists_key i
      have hi : (v i).isSome := mem_indices.1 (by rw [ht]; simp)
      simp only [keyAt_eq_ok h hk, Except.map, members_del h hk]
      exact .pop ((mem_members_at h hk).2 hi)
  | clear =>
    have : members G (vempty : Vec G.n Bool) = ∅ := by
      ext k; simp [members, view_vempty]
    simp only [nsStep, this]
    exact .clear
  | contains k =>
    obtain ⟨i, hi⟩ := Node.exists_id h (u := k) hp
    simp only [nsStep, (getId_eq_ok h).2 hi, Except.map]
    by_cases hm : (v i).isSome
    · rw [hm]; exact .contains_hit ((mem_members_at h hi).2 hm)
    · simp only [hm]
      exact .contains_miss fun hm' => hm ((mem_members_at h hi).1 hm')
  | len =>
    obtain ⟨l, h1, h2, h3⟩ := listToKeys_indices h v
    simp only [nsStep, ← h2]
    exact .len h3
  | iter =>
    obtain ⟨l, h1, h2, h3⟩ := listToKeys_indices h v
    simp only [nsStep, h1]
    exact .iter h3

/-- **C14.** A `NodeSet` behaves like a Python set of nodes: for every sequence of calls in which
`add`, `discard` and `in` are given nodes, each call returns or raises what the set of its members
would, and afterwards it has the members that set would have. -/
theorem nodeset_is_set (h : G.WF) (ops : List (SOp K)) : (∀ op ∈ ops, SetFits G op) →
    ∀ v : Vec G.n Bool, SetRun (members G v) ops (nsRun G v ops).1 (members G (nsRun G v ops).2) := by
  induction ops with
  | nil => intro _ v; exact .nil
  | cons op ops ih =>
    intro hops v
    exact .cons (ns_step h v op (hops _ (by simp))) (ih (fun o ho => hops o (by simp [ho])) _)

/-- **C14, the part that fails.** `k in s` and `s.discard(k)` raise KeyError for a `k` that is not a
node, and `add` cannot add one. -/
theorem nodeset_non_node (h : G.WF) (v : Vec G.n Bool) {k : K} (hk : ¬ G.Node k) :
    (nsStep G v (.contains k)).1 = .error .keyError ∧ nsStep G v (.discard k) = (.error .keyError, v) ∧
    nsStep G v (.add k) = (.error .keyError, v) := by
  simp only [nsStep, getId_eq_error h hk]
  exact ⟨rfl, trivial, trivial⟩

omit [DecidableEq K] in
theorem same_support {n : Nat} {v w : Vec n Bool} :
    (nvals v = nvals w ∧ (dot (· + ·) pairN v w).getD 0 = nvals v) ↔ ∀ i, (v i).isSome = (w i).isSome := by
  have hd : (dot (· + ·) pairN v w).getD 0 = ∑ i, ind (v i) * ind (w i) := by
    rw [dot, reduce_add]; simp [ointer_pairN_getD]
  rw [hd, nvals_eq_sum, nvals_eq_sum]
  constructor
  · rintro ⟨h1, h2⟩ i
    have a1 := (Finset.sum_eq_sum_iff_of_le (s := Finset.univ)
      (fun i _ => show ind (v i) * ind (w i) ≤ ind (v i) from by
        cases v i <;> cases w i <;> simp)).1 h2 i (Finset.mem_univ i)
    have a2 := (Finset.sum_eq_sum_iff_of_le (s := Finset.univ)
      (fun i _ => show ind (v i) * ind (w i) ≤ ind (w i) from by
        cases v i <;> cases w i <;> simp)).1 (h2.trans h1) i (Finset.mem_univ i)
    revert a1 a2
    cases v i <;> cases w i <;> simp
  · intro h
    have : ∀ i, ind (v i) = ind (w i) := fun i => by simp [ind, h i]
    refine ⟨Finset.sum_congr rfl fun i _ => this i, Finset.sum_congr rfl fun i _ => ?_⟩
    rw [← this i, ind_mul_self]

theorem members_eq_iff (h : G.WF) {v w : Vec G.n Bool} :
    members G v = members G w ↔ ∀ i, (v i).isSome = (w i).isSome := by
  constructor
  · intro e i
    obtain ⟨k, hk⟩ := h.exists_key i
    rw [Bool.eq_iff_iff, ← mem_members_at h hk, ← mem_members_at h hk, e]
  · intro e
    ext k
    by_cases hn : G.Node k
    · obtain ⟨i, hi⟩ := hn.exists_id h
      rw [mem_members_at h hi, mem_members_at h hi, e]
    · exact iff_of_false (not_mem_members h hn) (not_mem_members h hn)

/-- **C14.** two node sets of the same graph compare equal exactly when they have the same members. -/
theorem nodeset_eq_iff (h : G.WF) (v w : Vec G.n Bool) :
    nsEq (H := G) G v w = true ↔ members G v = members G w := by
  have hall : (G.keyToId.all fun p => G.keyToId.lookup p.1 == some p.2) = true := by
    rw [List.all_eq_true]
    intro p hp
    rw [(lookup_eq_some_iff h.keys_nodup).2 hp]; simp
  unfold nsEq
  rw [dif_pos rfl]
  simp only [hall, Bool.and_true, Bool.and_eq_true, decide_eq_true_eq, members_eq_iff h, ← same_support]
  rfl

/-- **C14.** `a == b` never holds for node sets with different members, also across graphs. -/
theorem nodeset_eq_sound (h : G.WF) {H : Graph K α} (hH : H.WF) (v : Vec G.n Bool) (w : Vec H.n Bool)
    (he : nsEq G v w = true) : members G v = members H w := by
  unfold nsEq at he
  split at he
  case isFalse => cases he
  case isTrue hn =>
    simp only [Bool.and_eq_true, decide_eq_true_eq] at he
    obtain ⟨hs, hk1, hk2⟩ := he
    have hs := same_support.1 hs
    have hat : ∀ (k : K) (i : Fin G.n), G.At k i ↔ H.At k (i.cast hn) := by
      intro k i
      unfold Graph.At
      constructor
      · intro hm
        have := List.all_eq_true.1 hk1 _ hm
        exact (lookup_eq_some_iff hH.keys_nodup).1 (by simpa using this)
      · intro hm
        have := List.all_eq_true.1 hk2 _ hm
        exact (lookup_eq_some_iff h.keys_nodup).1 (by simpa using this)
    ext k
    by_cases hg : G.Node k
    · obtain ⟨i, hi⟩ := hg.exists_id h
      rw [mem_members_at h hi, mem_members_at hH ((hat k i).1 hi), hs i]
    · refine iff_of_false (not_mem_members h hg) (not_mem_members hH fun hh => ?_)
      obtain ⟨j, hj⟩ := hh.exists_id hH
      exact hg ((hat k (j.cast hn.symm)).2 (by simpa using hj)).node

/-- `Ex.dg` with its nodes numbered differently -/
def exRelabel : Graph Nat Int := { Ex.dg with keyToId := [(10,0), (20,1), (30,2), (40,3)] }

/-- **C14, the part that fails.** node sets of two graphs with the same nodes and the same members but
different row numbers do not compare equal. -/
theorem nodeset_eq_across_wrong : ∃ (v : Vec Ex.dg.n Bool) (w : Vec exRelabel.n Bool),
    Ex.dg.WF ∧ exRelabel.WF ∧ members Ex.dg v = {10} ∧ members exRelabel w = {10} ∧
    nsEq Ex.dg v w = false := by
  have hw : exRelabel.WF := ⟨by decide, by decide⟩
  refine ⟨vset vempty ⟨2, by decide⟩ true, vset vempty ⟨0, by decide⟩ true, Ex.dg_wf, hw, ?_, ?_, by decide⟩
  · rw [members_set Ex.dg_wf (k := 10) (by decide)]
    simp [members, view_vempty]
  · rw [members_set hw (k := 10) (by decide)]
    simp [members, view_vempty]

/-- **C14.** `a.isdisjoin(b)` (the method is spelt so) tells whether they share no member. -/
theorem nodeset_isdisjoin (h : G.WF) (v w : Vec G.n Bool) :
    nsIsdisjoin v w = true ↔ Disjoint (members G v) (members G w) := by
  have hval : (dot any' pairB v w).getD false = (dot any' pairB v w).isSome := by
    cases hd : dot any' pairB v w with
    | none => rfl
    | some b =>
      obtain ⟨i, hi⟩ := reduce_selective any_choice hd
      revert hi
      cases v i <;> cases w i <;> simp [pairB]
  unfold nsIsdisjoin
  rw [hval, Bool.not_eq_true', ← Bool.not_eq_true, dot_isSome, Set.disjoint_left]
  push Not
  constructor
  · intro hn k hk hk'
    by_cases hg : G.Node k
    · obtain ⟨i, hi⟩ := hg.exists_id h
      exact absurd ((mem_members_at h hi).1 hk') (by simpa using hn i ((mem_members_at h hi).1 hk))
    · exact not_mem_members h hg hk
  · intro hn i hi
    obtain ⟨k, hk⟩ := h.exists_key i
    have := hn ((mem_members_at h hk).2 hi)
    rw [mem_members_at h hk] at this
    simpa using this

/-! operators -/

theorem fromIterable_ok (h : G.WF) {it : List K} (hit : ∀ k ∈ it, G.Node k) :
    ∃ v, nsFromIterable G it = .ok v ∧ members G v = {k | k ∈ it} := by
  obtain ⟨ids, he, hf⟩ := Proofs.listToIds_ok h hit
  refine ⟨vofIds ids true, ?_, ?_⟩
  · unfold nsFromIterable setToVector
    simp only [Bool.false_eq_true, if_false, he]
    rfl
  · have hids : ∀ i, i ∈ ids ↔ ∃ k ∈ it, G.At k i := by
      intro i
      clear he hit
      induction hf with
      | nil => simp
      | cons ha _ ih =>
        simp only [List.mem_cons, exists_eq_or_imp, ih]
        refine or_congr ⟨?_, ?_⟩ Iff.rfl
        · rintro rfl; exact ha
        · intro ha'; exact At.id_unique h ha' ha
    ext k
    by_cases hg : G.Node k
    · obtain ⟨i, hi⟩ := hg.exists_id h
      rw [mem_members_at h hi, Proofs.Bfs.vofIds_isSome, hids]
      exact ⟨fun ⟨k', hk', ha⟩ => At.key_unique h ha hi ▸ hk', fun hk => ⟨k, hk, hi⟩⟩
    · exact iff_of_false (not_mem_members h hg) fun hk => hg (hit k hk)

omit [DecidableEq K] in
theorem filterE_ok {p : K → Except Err Bool} {q : K → Bool} {l : List K} (hp : ∀ k ∈ l, p k = .ok (q k)) :
    filterE p l = .ok (l.filter q) := by
  induction l with
  | nil => rfl
  | cons a l ih =>
    unfold filterE
    rw [hp a (by simp), ih fun k hk => hp k (by simp [hk])]
    show Except.ok _ = _
    rw [List.filter_cons]

theorem nsContains_ok (h : G.WF) {v : Vec G.n Bool} {k : K} (hk : G.Node k) :
    nsContains G v k = .ok (G.view v k).isSome := by
  obtain ⟨i, hi⟩ := hk.exists_id h
  simp [nsContains, (getId_eq_ok h).2 hi, view_at h hi, Except.map]

theorem ns_elems (h : G.WF) (v : Vec G.n Bool) :
    ∃ l, listToKeys G (indices v) = .ok l ∧ (∀ k, k ∈ l ↔ k ∈ members G v) ∧ ∀ k ∈ l, G.Node k := by
  obtain ⟨l, h1, -, -, h4⟩ := listToKeys_indices h v
  refine ⟨l, h1, h4, fun k hk => ?_⟩
  by_contra hn
  exact not_mem_members h hn ((h4 k).1 hk)

theorem ns_sub (h : G.WF) (v w : Vec G.n Bool) :
    ∃ x, nsSub G v w = .ok x ∧ members G x = members G v \ members G w := by
  obtain ⟨l, h1, h2, h3⟩ := ns_elems h v
  have hf : filterE (fun k => (nsContains G w k).map (!·)) l = .ok (l.filter fun k => !(G.view w k).isSome) :=
    filterE_ok fun k hk => by rw [nsContains_ok h (h3 k hk)]; rfl
  obtain ⟨x, hx, hm⟩ := fromIterable_ok h (it := l.filter fun k => !(G.view w k).isSome)
    fun k hk => h3 k (List.mem_filter.1 hk).1
  refine ⟨x, ?_, ?_⟩
  · unfold nsSub
    rw [h1]
    show (filterE _ l >>= fun l' => _) = _
    rw [hf]; exact hx
  · rw [hm]; ext k
    simp [h2, members]

theorem ns_or (h : G.WF) (v : Vec G.n Bool) (other : List K) (ho : ∀ k ∈ other, G.Node k) :
    ∃ x, nsOr G v other = .ok x ∧ members G x = members G v ∪ {k | k ∈ other} := by
  obtain ⟨l, h1, h2, h3⟩ := ns_elems h v
  obtain ⟨x, hx, hm⟩ := fromIterable_ok h (it := l ++ other) fun k hk =>
    (List.mem_append.1 hk).elim (h3 k) (ho k)
  refine ⟨x, ?_, ?_⟩
  · unfold nsOr; rw [h1]; exact hx
  · rw [hm]; ext k; simp [h2]

/-- **C14.** `a & it`, `a | it` for an iterable of nodes, `a - b` and `a ^ b` for two node sets of a
graph succeed and have the members of the intersection, union, difference and symmetric difference. -/
theorem nodeset_operators (h : G.WF) (v w : Vec G.n Bool) (other : List K) (ho : ∀ k ∈ other, G.Node k) :
    (∃ x, nsAnd G v other = .ok x ∧ members G x = members G v ∩ {k | k ∈ other}) ∧
    (∃ x, nsOr G v other = .ok x ∧ members G x = members G v ∪ {k | k ∈ other}) ∧
    (∃ x, nsSub G v w = .ok x ∧ members G x = members G v \ members G w) ∧
    (∃ x, nsXor G v w = .ok x ∧
      members G x = (members G v \ members G w) ∪ (members G w \ members G v)) := by
  refine ⟨?_, ns_or h v other ho, ns_sub h v w, ?_⟩
  · have hf : filterE (nsContains G v) other = .ok (other.filter fun k => (G.view v k).isSome) :=
      filterE_ok fun k hk => nsContains_ok h (ho k hk)
    obtain ⟨x, hx, hm⟩ := fromIterable_ok h (it := other.filter fun k => (G.view v k).isSome)
      fun k hk => ho k (List.mem_filter.1 hk).1
    refine ⟨x, ?_, ?_⟩
    · unfold nsAnd; rw [hf]; exact hx
    · rw [hm]; ext k
      simp [members, and_comm]
  · obtain ⟨a, ha, hma⟩ := ns_sub h v w
    obtain ⟨b, hb, hmb⟩ := ns_sub h w v
    obtain ⟨l, h1, h2, h3⟩ := ns_elems h b
    obtain ⟨x, hx, hm⟩ := ns_or h a l h3
    refine ⟨x, ?_, ?_⟩
    · unfold nsXor
      rw [ha]
      show (nsSub G w v >>= fun b => _) = _
      rw [hb]
      show (listToKeys G (indices b) >>= fun l => _) = _
      rw [h1]; exact hx
    · rw [hm, hma, ← hmb]
      congr 1
      ext k; exact h2 k

/-! copies -/

/-- **C14.** a copy is independent: whatever is done later to other set objects, an object that is not
touched keeps its members, and the copy starts with the members of the original. -/
theorem nodeset_copy_independent (G : Graph K α) {h h' : Heap G.n} {r c : Nat}
    (hc : heapCopy h r = some (c, h')) :
    h'[c]? = h[r]? ∧ (∀ x, x < h.length → h'[x]? = h[x]?) ∧ c ≠ r ∧
    ∀ (ops : List (Nat × SOp K)) (x : Nat), (∀ p ∈ ops, p.1 ≠ x) →
      (heapRun G h' ops).2[x]? = h'[x]? := by
  unfold heapCopy at hc
  cases hr : h[r]? with
  | none => simp [hr] at hc
  | some v =>
    simp only [hr, Option.map_some, Option.some.injEq, Prod.mk.injEq] at hc
    obtain ⟨rfl, rfl⟩ := hc
    refine ⟨by simp, fun x hx => ?_, ?_, fun ops => ?_⟩
    · exact List.getElem?_append_left hx
    · have := (List.getElem?_eq_some_iff.1 hr).1
      omega
    · generalize h ++ [v] = hp
      induction ops generalizing hp with
      | nil => intro x _; rfl
      | cons p ops ih =>
        intro x hx
        obtain ⟨a, op⟩ := p
        have hne : a ≠ x := hx (a, op) (by simp)
        show (heapRun G (heapStep G hp a op).2 ops).2[x]? = _
        rw [ih _ x fun q hq => hx q (by simp [hq])]
        unfold heapStep
        cases hp[a]? with
        | none => rfl
        | some u => exact List.getElem?_set_ne hne

example : members Ex.dg (vset vempty ⟨2, by decide⟩ true) = {10} := by
  rw [members_set Ex.dg_wf (k := 10) (by decide)]
  simp [members, view_vempty]

example : (match (nsRun Ex.dg vempty [.add 10, .add 30, .add 10, .len, .discard 20, .remove 40, .contains 30,
    .pop, .len]).1 with
    | [.ok .unit, .ok .unit, .ok .unit, .ok (.nat 2), .ok .unit, .error .keyError, .ok (.bool true),
       .ok (.key 30), .ok (.nat 1)] => true
    | _ => false) = true := by decide

end Props
