import Verif.Model.Maps
import Verif.Proofs.Operators
import Verif.Props.NodeMap
import Verif.Props.NodeRows

/-!
# C86: equality of maps; C87: `VectorMap` as a dict; C88: assigning a dict to a row
-/

open GB Spec Model Model.Graph Proofs

namespace Props

variable {K α U R : Type}

/-! ### C86 -/

/-- the value of `m[k]`, `none` when the call raises -/
def lookupOf [DecidableEq K] (G : Graph K α) (c : Codec U R) (s : NMap G.n U R) (k : K) : Option U :=
  match nmGetitem G c s k with
  | .ok (.val v) => v
  | _ => none

variable [DecidableEq K] {G H : Graph K α} {c : Codec U R}

theorem lookupOf_not_node (h : G.WF) {s : NMap G.n U R} {k : K} (hk : ¬ G.Node k) : lookupOf G c s k = none := by
  unfold lookupOf nmGetitem
  rw [getId_eq_error h hk]; rfl

theorem lookupOf_at (h : G.WF) {s : NMap G.n U R} {k : K} {i} (hi : G.At k i) :
    lookupOf G c s k = match nmLookup c s i with | .ok v => v | .error _ => none := by
  unfold lookupOf nmGetitem
  rw [(getId_eq_ok h).2 hi]
  simp only [bind, Except.bind]
  cases hn : nmLookup c s i with
  | error e => rfl
  | ok o => cases o <;> rfl

theorem isequal_iff [DecidableEq R] {m n : Nat} {v : Vec m R} {w : Vec n R} :
    isequal v w = true ↔ ∃ h : m = n, ∀ i, v i = w (i.cast h) := by
  unfold isequal
  split
  · next h => simp [h]
  · next h => simp [h]

theorem at_of_sameDict (hG : G.WF) (hH : H.WF) (hd : sameDict G H = true) (hn : G.n = H.n) (k : K) (i : Fin G.n) :
    G.At k i ↔ H.At k (i.cast hn) := (sameDict_iff hG hH).1 hd k i.val

theorem nodes_of_sameDict (hG : G.WF) (hH : H.WF) (hd : sameDict G H = true) (k : K) : G.Node k ↔ H.Node k := by
  unfold Graph.Node
  constructor <;> intro hk <;> obtain ⟨p, hp, rfl⟩ := List.mem_map.1 hk
  · exact List.mem_map.2 ⟨p, ((sameDict_iff hG hH).1 hd _ _).1 hp, rfl⟩
  · exact List.mem_map.2 ⟨p, ((sameDict_iff hG hH).1 hd _ _).2 hp, rfl⟩

theorem nmEq_sound_aux [DecidableEq U] [DecidableEq R] (hG : G.WF) (hH : H.WF) {c c' : Codec U R}
    {s : NMap G.n U R} {t : NMap H.n U R} {b : Bool} (h : nmEq G H b s t = true)
    (hc : sameDict G H = true → G.n = H.n → ∀ i r, s.vec i = some r → c.dec r = c'.dec r) (k : K) :
    lookupOf G c s k = lookupOf H c' t k := by
  unfold nmEq at h
  simp only [Bool.and_eq_true, decide_eq_true_eq] at h
  obtain ⟨⟨⟨-, hf⟩, hv⟩, hd⟩ := h
  obtain ⟨hn, hv⟩ := isequal_iff.1 hv
  by_cases hk : G.Node k
  · obtain ⟨i, hi⟩ := hk.exists_id hG
    rw [lookupOf_at hG hi, lookupOf_at hH ((at_of_sameDict hG hH hd hn k i).1 hi)]
    have : nmLookup c s i = nmLookup c' t (i.cast hn) := by
      unfold nmLookup
      rw [← hv i, ← hf]
      cases e : s.vec i with
      | none => rfl
      | some r => simp only [hc hd hn i r e]
    rw [this]
  · rw [lookupOf_not_node hG hk, lookupOf_not_node hH fun hk' => hk ((nodes_of_sameDict hG hH hd k).2 hk')]

/-- **C86, soundness.** Two `NodeMap`s that compare equal give the same value, or both raise, for every key,
even when they belong to different graphs. -/
theorem nodemap_eq_sound [DecidableEq U] (hG : G.WF) (hH : H.WF) {s : NMap G.n U U} {t : NMap H.n U U}
    (h : nmEq G H true s t = true) (k : K) : lookupOf G .plain s k = lookupOf H .plain t k :=
  nmEq_sound_aux hG hH h (fun _ _ _ _ _ => rfl) k

/-- **C86, soundness** for maps whose values are nodes -/
theorem nodemap_eq_sound_keys (hG : G.WF) (hH : H.WF) (raw raw' : K → Except Err Nat)
    {s : NMap G.n K Nat} {t : NMap H.n K Nat} (hlt : ∀ i r, s.vec i = some r → r < G.n)
    (h : nmEq G H true s t = true) (k : K) :
    lookupOf G (.keys G raw) s k = lookupOf H (.keys H raw') t k := by
  refine nmEq_sound_aux hG hH h (fun hd hn i r e => ?_) k
  obtain ⟨u, hu⟩ := hG.exists_key ⟨r, hlt i r e⟩
  show keyAt G r = keyAt H r
  have h1 := keyAt_eq_ok hG hu
  have h2 := keyAt_eq_ok hH ((at_of_sameDict hG hH hd hn u _).1 hu)
  simp only [Fin.val_cast] at h1 h2
  rw [h1, h2]

/-- **C86, completeness (partial).** Two maps of one graph without fill value that hold the same items compare
equal.  (With a fill value, or for graphs numbered differently, equal maps may compare unequal, see below.) -/
theorem nodemap_eq_complete_partial [DecidableEq U] (hG : G.WF) {s t : NMap G.n U U} (hs : s.fill = none)
    (ht : t.fill = none) (h : ∀ k, lookupOf G .plain s k = lookupOf G .plain t k) :
    nmEq G G true s t = true := by
  unfold nmEq
  have hd : sameDict G G = true := (sameDict_iff hG hG).2 fun _ _ => Iff.rfl
  have hv : isequal s.vec t.vec = true := by
    refine isequal_iff.2 ⟨rfl, fun i => ?_⟩
    obtain ⟨k, hk⟩ := hG.exists_key i
    have hk' := h k
    rw [lookupOf_at hG hk, lookupOf_at hG hk] at hk'
    unfold nmLookup at hk'
    rw [hs, ht] at hk'
    show s.vec i = t.vec i
    cases e : s.vec i <;> cases e' : t.vec i <;>
      simp [e, e', Codec.plain, Except.map] at hk' ⊢
    exact hk'
  simp [hs, ht, hv, hd]

/-- **C86 fails with fill values**: the map `{10: 0, ...}` stored explicitly and as a fill value -/
theorem nodemap_eq_fill_wrong :
    ∃ s t : NMap Ex.dg.n Nat Nat, (∀ k, lookupOf Ex.dg .plain s k = lookupOf Ex.dg .plain t k) ∧
      nmEq Ex.dg Ex.dg true s t = false := by
  refine ⟨⟨fun _ => some 0, none⟩, ⟨fun _ => none, some 0⟩, ?_, by decide +kernel⟩
  intro k
  by_cases hk : Ex.dg.Node k
  · obtain ⟨i, hi⟩ := hk.exists_id Ex.dg_wf
    rw [lookupOf_at Ex.dg_wf hi, lookupOf_at Ex.dg_wf hi]
    rfl
  · rw [lookupOf_not_node Ex.dg_wf hk, lookupOf_not_node Ex.dg_wf hk]

/-- **C86 fails across numberings**: the same items in maps of one graph built in two orders -/
theorem nodemap_eq_across_wrong :
    ∃ (s : NMap Ex.dg.n Nat Nat) (t : NMap exRelabel.n Nat Nat), Ex.dg.WF ∧ exRelabel.WF ∧
      (∀ k, lookupOf Ex.dg .plain s k = lookupOf exRelabel .plain t k) ∧
      nmEq Ex.dg exRelabel true s t = false := by
  have hw : exRelabel.WF := ⟨by decide, by decide⟩
  refine ⟨⟨fun _ => some 0, none⟩, ⟨fun _ => some 0, none⟩, Ex.dg_wf, hw, ?_, by decide +kernel⟩
  intro k
  have hn : Ex.dg.Node k ↔ exRelabel.Node k := by
    have h1 : ∀ k ∈ Ex.dg.keyToId.map Prod.fst, exRelabel.Node k := by decide
    have h2 : ∀ k ∈ exRelabel.keyToId.map Prod.fst, Ex.dg.Node k := by decide
    exact ⟨h1 k, h2 k⟩
  by_cases hk : Ex.dg.Node k
  · obtain ⟨i, hi⟩ := hk.exists_id Ex.dg_wf
    obtain ⟨j, hj⟩ := (hn.1 hk).exists_id hw
    rw [lookupOf_at Ex.dg_wf hi, lookupOf_at hw hj]
    rfl
  · rw [lookupOf_not_node Ex.dg_wf hk, lookupOf_not_node hw fun h => hk (hn.2 h)]

theorem mapM_pair {A B : Type} {f : A → Except Err B} {g : A → B} {l : List A} (h : ∀ a ∈ l, f a = .ok (g a)) :
    l.mapM f = .ok (l.map g) := by
  induction l with
  | nil => rfl
  | cons a l ih =>
    rw [List.mapM_cons, h a (by simp), ih fun b hb => h b (by simp [hb])]
    rfl

theorem lookup_map_pair {A B : Type} [DecidableEq A] (g : A → B) (l : List A) (a : A) :
    (l.map fun x => (x, g x)).lookup a = if a ∈ l then some (g a) else none := by
  induction l with
  | nil => rfl
  | cons b l ih =>
    rw [List.map_cons, List.lookup_cons, ih]
    by_cases e : a = b
    · have e2 : (a == b) = true := by simpa using e
      rw [e2]; simp [e]
    · have e2 : (a == b) = false := by simpa using e
      rw [e2]; simp [e]

theorem items_ok (hG : G.WF) {s : NMap G.n U R} (hd : Decodable c s) :
    ∃ l : List K, nmItems G c s = .ok (l.map fun k => (k, lookupOf G c s k)) ∧
      IsEnum l fun k => (lookupOf G c s k).isSome := by
  have hget : ∀ k, (lookupOf G c s k).isSome →
      (match nmGetitem G c s k with
        | .ok (.val v) => .ok (k, v)
        | .ok _ => .error .runtimeError
        | .error e => .error e : Except Err (K × Option U)) = .ok (k, lookupOf G c s k) := by
    intro k hk
    unfold lookupOf at hk ⊢
    cases e : nmGetitem G c s k with
    | error e' => rw [e] at hk; cases hk
    | ok o => cases o <;> first | rfl | (rw [e] at hk; cases hk)
  have hval : ∀ {k i}, G.At k i → lookupOf G c s k = (stored G c s k).orElse fun _ => s.fill := by
    intro k i hi
    rw [lookupOf_at hG hi, (stored_at hG hd hi).1]
  cases hf : s.fill with
  | some f =>
    have henum : IsEnum G.nodes fun k => (lookupOf G c s k).isSome := by
      refine ⟨hG.keys_nodup, fun k => ?_⟩
      show k ∈ G.nodes ↔ (lookupOf G c s k).isSome
      by_cases hk : G.Node k
      · obtain ⟨i, hi⟩ := hk.exists_id hG
        rw [hval hi, hf]
        refine iff_of_true hk ?_
        cases stored G c s k <;> rfl
      · rw [lookupOf_not_node hG hk]
        exact iff_of_false hk (by simp)
    refine ⟨G.nodes, ?_, henum⟩
    unfold nmItems nmIter
    rw [hf]
    exact mapM_pair fun k hk => hget k ((henum.2 k).1 hk)
  | none =>
    obtain ⟨l, h1, -, h3⟩ := nm_enum hG hd
    have henum : IsEnum l fun k => (lookupOf G c s k).isSome := by
      refine ⟨h3.1, fun k => (h3.2 k).trans ?_⟩
      show (stored G c s k).isSome ↔ (lookupOf G c s k).isSome
      by_cases hk : G.Node k
      · obtain ⟨i, hi⟩ := hk.exists_id hG
        rw [hval hi, hf]
        cases stored G c s k <;> rfl
      · rw [lookupOf_not_node hG hk, stored_none hG hk]
    refine ⟨l, ?_, henum⟩
    unfold nmItems nmIter
    rw [hf, h1]
    exact mapM_pair fun k hk => hget k ((henum.2 k).1 hk)

/-- **C86, dicts.** A `NodeMap` (with or without fill value, values may be nodes) compares equal to a dict exactly
when the dict has the same items, in any order. -/
theorem nodemap_eq_dict [DecidableEq U] (hG : G.WF) {s : NMap G.n U R} (hd : Decodable c s) (d : List (K × U))
    (hdk : (d.map Prod.fst).Nodup) :
    ∃ b, nmEqDict G c s d = .ok b ∧ (b = true ↔ ∀ k, lookupOf G c s k = d.lookup k) := by
  obtain ⟨l, hl, hle⟩ := items_ok hG hd
  unfold nmEqDict
  rw [hl]
  refine ⟨_, rfl, ?_⟩
  rw [Bool.and_eq_true, List.all_eq_true, List.all_eq_true]
  simp only [List.mem_map, forall_exists_index, and_imp, beq_iff_eq, lookup_map_pair]
  constructor
  · rintro ⟨h1, h2⟩ k
    by_cases hk : k ∈ l
    · exact (h1 _ k hk rfl).symm
    · have hn : lookupOf G c s k = none := by
        have := mt (hle.2 k).2 hk
        simpa using this
      rw [hn]
      cases e : d.lookup k with
      | none => rfl
      | some u =>
        have := h2 (k, u) ((lookup_eq_some_iff hdk).1 e)
        simp [hk] at this
  · intro h
    refine ⟨?_, ?_⟩
    · rintro p k hk rfl
      exact (h k).symm
    · rintro ⟨k, u⟩ hp
      have hu := (lookup_eq_some_iff hdk).2 hp
      have hk : k ∈ l := (hle.2 k).2 (by show (lookupOf G c s k).isSome; rw [h k, hu]; rfl)
      simp [hk, h k, hu]

/-- **C86 fails between `VectorMap` and `NodeMap`**: a map with a fill value compares equal to one that lacks the
filled keys. -/
theorem vectormap_eq_nodemap_wrong :
    ∃ (G : Graph Nat Nat) (v : Vec G.n Nat) (t : NMap G.n Nat Nat), G.WF ∧ vmEqNm v G t = true ∧
      ∃ i : Fin G.n, v i = none ∧ lookupOf G .plain t i.val = some 7 := by
  refine ⟨⟨2, fun _ _ => none, [(0, 0), (1, 1)], true, false⟩, fun i => if i.val = 0 then some 3 else none,
    ⟨fun i => if i.val = 0 then some 3 else none, some 7⟩, ⟨by decide, by decide⟩, by decide +kernel,
    (1 : Fin 2), by decide, by decide +kernel⟩

/-- the value of `m[k]` for a `VectorMap`: an entry of the vector -/
def vmLookup {m : Nat} (v : Vec m R) (k : Nat) : Option R := if h : k < m then v ⟨k, h⟩ else none

/-- **C86, VectorMap and NodeMap.** For a `NodeMap` without fill value and with plain values: a `VectorMap` compares
equal to it exactly when the nodes of the graph are the integers `0, …, m-1`, each stored in its own row, and
the two maps give the same value for every key. -/
theorem vectormap_eq_nodemap_partial [DecidableEq R] {G : Graph Nat α} (hG : G.WF) {m : Nat} (v : Vec m R)
    {t : NMap G.n R R} (hf : t.fill = none) :
    vmEqNm v G t = true ↔ m = G.n ∧ (∀ k (i : Fin G.n), G.At k i → k = i.val) ∧
      ∀ k, lookupOf G .plain t k = vmLookup v k := by
  have hval : ∀ {k} {i : Fin G.n}, G.At k i → lookupOf G .plain t k = t.vec i := by
    intro k i hi
    rw [lookupOf_at hG hi]
    unfold nmLookup Codec.plain
    rw [hf]
    cases h : t.vec i <;> rfl
  unfold vmEqNm
  rw [Bool.and_eq_true, Bool.and_eq_true, isequal_iff, List.all_eq_true, List.all_eq_true]
  constructor
  · rintro ⟨⟨hn, hv⟩, h1, h2⟩
    have hid : ∀ k (i : Fin G.n), G.At k i → k = i.val := fun k i hi =>
      (of_decide_eq_true (h1 (k, i.val) hi)).1
    refine ⟨hn, hid, fun k => ?_⟩
    by_cases hk : G.Node k
    · obtain ⟨i, hi⟩ := hk.exists_id hG
      obtain rfl := hid _ _ hi
      have hlt : i.val < m := hn ▸ i.isLt
      rw [hval hi]
      unfold vmLookup
      rw [dif_pos hlt, hv]
      rfl
    · rw [lookupOf_not_node hG hk]
      unfold vmLookup
      rw [dif_neg]
      intro hlt
      have := h2 k (List.mem_range.2 hlt)
      exact hk (List.mem_map.2 ⟨(k, k), (lookup_eq_some_iff hG.keys_nodup).1 (by simpa using this), rfl⟩)
  · rintro ⟨rfl, hid, hv⟩
    have hat : ∀ i : Fin G.n, G.At i.val i := by
      intro i
      obtain ⟨k, hk⟩ := hG.exists_key i
      exact (hid k i hk) ▸ hk
    refine ⟨⟨rfl, fun i => ?_⟩, ?_, ?_⟩
    · have := hv i.val
      rw [hval (hat i)] at this
      unfold vmLookup at this
      rw [dif_pos i.isLt] at this
      exact this.symm
    · rintro ⟨k, j⟩ hp
      have hj : j < G.n := List.mem_range.1 (hG.ids_perm.mem_iff.1 (List.mem_map.2 ⟨_, hp, rfl⟩))
      have : k = j := hid k ⟨j, hj⟩ hp
      subst this
      simpa using hj
    · intro i hi
      have := hat ⟨i, List.mem_range.1 hi⟩
      rw [beq_iff_eq]
      exact (lookup_eq_some_iff hG.keys_nodup).2 this

-- an instance: equal, and unequal because the second node is called 5
example : let G : Graph Nat Nat := ⟨2, fun _ _ => none, [(1, 1), (0, 0)], true, false⟩
    let H : Graph Nat Nat := ⟨2, fun _ _ => none, [(0, 0), (5, 1)], true, false⟩
    let v : Vec 2 Nat := fun i => if i.val = 0 then some 3 else none
    G.WF ∧ H.WF ∧ vmEqNm (U := Nat) v G ⟨v, none⟩ = true ∧ vmEqNm (U := Nat) v H ⟨v, none⟩ = false :=
  ⟨⟨by decide, by decide⟩, ⟨by decide, by decide⟩, by decide +kernel, by decide +kernel⟩

theorem misequal_iff [DecidableEq R] {m n : Nat} {A B : Mat m n R} :
    misequal A B = true ↔ A = B := by
  unfold misequal
  rw [dif_pos ⟨rfl, rfl⟩, decide_eq_true_iff]
  constructor
  · intro h; funext i j; exact h i j
  · rintro rfl i j; rfl

/-- **C86, maps of rows.** Two row maps of one graph without fill value compare equal exactly when they hold the
same rows. -/
theorem row_maps_eq [DecidableEq R] {m : Nat} (hG : G.WF) (s t : RMap G.n m R) (hs : s.fill = none)
    (ht : t.fill = none) :
    (vnmEq G G s t = true ↔ rowsOf G s = rowsOf G t) ∧ (nnmEq G G true s t = true ↔ rowsOf G s = rowsOf G t) := by
  have hd : sameDict G G = true := (sameDict_iff hG hG).2 fun _ _ => Iff.rfl
  have key : s.A = t.A ↔ rowsOf G s = rowsOf G t := by
    constructor
    · intro h; exact (rowsOf_congr h.symm).symm
    · intro h
      funext i
      obtain ⟨k, hk⟩ := hG.exists_key i
      have := congrFun h k
      rw [rowsOf_at hG hk, rowsOf_at hG hk] at this
      split at this <;> split at this
      · next h1 h2 =>
        funext j
        rw [nvals_eq_zero.1 h1 j, nvals_eq_zero.1 h2 j]
      · cases this
      · cases this
      · exact Option.some.inj this
  unfold vnmEq nnmEq
  simp [hs, ht, hd, misequal_iff, key]

/-- **C86.** A node map whose values are nodes never compares equal to one whose values are plain. -/
theorem nodemap_eq_modes [DecidableEq U] [DecidableEq R] (s : NMap G.n U R) (t : NMap H.n U R) (sameMode : Bool)
    (h : nmEq G H sameMode s t = true) : sameMode = true := by
  simp only [nmEq, Bool.and_eq_true] at h
  exact h.1.1.1

theorem misequal_rows [DecidableEq R] {m n m' : Nat} {A : Mat m n R} {B : Mat m' n R} (h : misequal A B = true) :
    ∃ e : m = m', ∀ i, A i = B (i.cast e) := by
  unfold misequal at h
  split at h
  · next e => exact ⟨e.1, fun i => funext fun j => (of_decide_eq_true h) i j⟩
  · cases h

/-- **C86, maps of rows of any two graphs.** If two row maps compare equal they hold the same rows, and a position
within a row stands for the same node in both; node-to-node maps also agree in fill value and in whether their
values are nodes (`sameMode`). -/
theorem row_maps_eq_sound [DecidableEq R] {m : Nat} (hG : G.WF) (hH : H.WF) (s : RMap G.n m R) (t : RMap H.n m R)
    (sameMode : Bool) (h : vnmEq G H s t = true ∨ nnmEq G H sameMode s t = true) :
    rowsOf G s = rowsOf H t ∧ (∀ k i, (k, i) ∈ G.keyToId ↔ (k, i) ∈ H.keyToId) ∧
    (nnmEq G H sameMode s t = true → s.fill = t.fill ∧ sameMode = true) := by
  have hm : misequal s.A t.A = true ∧ sameDict G H = true := by
    rcases h with h | h
    · simpa [vnmEq] using h
    · simp only [nnmEq, Bool.and_eq_true] at h; exact ⟨h.1.2, h.2⟩
  obtain ⟨e, he⟩ := misequal_rows hm.1
  refine ⟨?_, (sameDict_iff hG hH).1 hm.2, ?_⟩
  · funext k
    by_cases hk : G.Node k
    · obtain ⟨i, hi⟩ := hk.exists_id hG
      have hi' := (at_of_sameDict hG hH hm.2 e k i).1 hi
      rw [rowsOf_at hG hi, rowsOf_at hH hi', he i]
    · rw [rowsOf_not_node hG hk, rowsOf_not_node hH fun h => hk ((nodes_of_sameDict hG hH hm.2 k).2 h)]
  · intro h
    simp only [nnmEq, Bool.and_eq_true, decide_eq_true_iff] at h
    exact ⟨h.1.1.1, h.1.1.2⟩

/-- the maps of rows of two graphs with the same matrix whose nodes are numbered differently are not equal -/
example : (let s : RMap Ex.dg.n 2 Nat := ⟨fun i j => if i.val = 0 ∧ j.val = 0 then some 1 else none, none, none⟩
    vnmEq Ex.dg Ex.dg s s) = true := by decide +kernel

/-! ### C87 -/

/-- calls on which a `VectorMap` agrees with a dict: `m[k]`, `del m[k]` and `m.pop(k)` for a present key -/
def VFits {m : Nat} (v : Vec m R) : MOp (Fin m) R → Prop
  | .getitem k => (v k).isSome
  | .delitem k => (v k).isSome
  | .pop k => (v k).isSome
  | .popD k _ => (v k).isSome
  | .setdefault _ d => d.isSome
  | _ => True

/-- a sequence of such calls -/
def VPolite {m : Nat} : Vec m R → List (MOp (Fin m) R) → Prop
  | _, [] => True
  | v, op :: ops => VFits v op ∧ VPolite (vmStep v op).2 ops

theorem vset_update {m : Nat} (v : Vec m R) (i : Fin m) (r : R) : vset v i r = Function.update v i (some r) := by
  funext j; simp [vset, Function.update_apply]

theorem vdel_update {m : Nat} (v : Vec m R) (i : Fin m) : vdel v i = Function.update v i none := by
  funext j; simp [vdel, Function.update_apply]

theorem vec_enum {m : Nat} (v : Vec m R) : IsEnum (indices v) fun k => (v k).isSome :=
  ⟨indices_nodup v, fun _ => mem_indices⟩

theorem nvals_indices {m : Nat} (v : Vec m R) : nvals v = (indices v).length := by
  rw [nvals, ← List.toFinset_card_of_nodup (indices_nodup v)]
  congr 1; ext i; simp [mem_indices]

theorem vm_step {m : Nat} (v : Vec m R) (op : MOp (Fin m) R) (h : VFits v op) :
    DictStep v op (vmStep v op).1 (vmStep v op).2 := by
  cases op with
  | getitem k =>
    obtain ⟨u, hu⟩ := Option.isSome_iff_exists.1 h
    simp only [vmStep, hu]; exact .getitem_hit hu
  | get k d =>
    cases hu : v k with
    | none => simp only [vmStep, hu]; exact .get_miss hu
    | some u => simp only [vmStep, hu]; exact .get_hit hu
  | setitem k r => simp only [vmStep, vset_update]; exact .setitem
  | delitem k =>
    obtain ⟨u, hu⟩ := Option.isSome_iff_exists.1 h
    simp only [vmStep, vdel_update]; exact .del_hit hu
  | contains k => exact .contains
  | len => simp only [vmStep, nvals_indices]; exact .len (vec_enum v)
  | iter => exact .iter (vec_enum v)
  | clear => exact .clear
  | setdefault k d =>
    obtain ⟨r, rfl⟩ := Option.isSome_iff_exists.1 h
    cases hu : v k with
    | none => simp only [vmStep, hu, vset_update]; exact .setdefault_miss hu
    | some u => simp only [vmStep, hu]; exact .setdefault_hit hu
  | popitem =>
    cases ht : tocoo v with
    | nil =>
      simp only [vmStep, ht]
      refine .popitem_empty fun k => ?_
      unfold tocoo at ht
      rw [List.filterMap_eq_nil_iff] at ht
      have := ht k (List.mem_finRange k)
      simpa using this
    | cons p l =>
      obtain ⟨i, r⟩ := p
      have hm : (i, r) ∈ tocoo v := by rw [ht]; simp
      simp only [tocoo, List.mem_filterMap, Option.map_eq_some_iff] at hm
      obtain ⟨j, -, a, ha, e⟩ := hm
      cases e
      simp only [vmStep, ht, vdel_update]
      exact .popitem ha
  | pop k =>
    obtain ⟨u, hu⟩ := Option.isSome_iff_exists.1 h
    simp only [vmStep, vdel_update, hu]; exact .pop_hit hu
  | popD k d =>
    obtain ⟨u, hu⟩ := Option.isSome_iff_exists.1 h
    simp only [vmStep, vdel_update, hu]; exact .popD_hit hu

/-- **C87 (partial).** Any sequence of calls on a `VectorMap` gives what the same calls on a dict give, as long as
`m[k]`, `del m[k]`, `m.pop(k)` are called for present keys and `setdefault` with a default. -/
theorem vector_map_is_dict_partial {m : Nat} (ops : List (MOp (Fin m) R)) :
    ∀ v : Vec m R, VPolite v ops → DictRun v ops (vmRun v ops).1 (vmRun v ops).2 := by
  induction ops with
  | nil => intro v _; exact .nil
  | cons op ops ih => intro v h; exact .cons (vm_step v op h.1) (ih _ h.2)

/-- **C87 fails for absent keys**: `m[k]`, `m.pop(k)` and `m.pop(k, d)` return `None` (not the default), and
`del m[k]` does nothing; a dict raises KeyError or returns the default. -/
theorem vector_map_absent {m : Nat} (v : Vec m R) {k : Fin m} (hk : v k = none) (d : R) :
    vmStep v (.getitem k) = (.ok (.val none), v) ∧ vmStep v (.pop k) = (.ok (.val none), v) ∧
    vmStep v (.popD k (some d)) = (.ok (.val none), v) ∧ vmStep v (.delitem k) = (.ok .unit, v) := by
  have : vdel v k = v := by
    rw [vdel_update]; rw [← hk]; exact Function.update_eq_self k v
  simp [vmStep, hk, this]

/-- the hypotheses are met by a run that fills, reads and empties a map -/
example : VPolite (fun _ => none : Vec 3 Nat)
    [.setitem 1 5, .getitem 1, .contains 0, .setdefault 2 (some 4), .pop 1, .len, .popitem] := by
  simp [VPolite, VFits, vmStep, vset]

/-! ### C88 -/

/-- what `M[k] = d` should do: afterwards row `k` shows exactly the items of `d` -/
def RowShows {G : Graph Nat α} (s : RMap G.n G.n R) (k : Nat) (d : List (Nat × R)) : Prop :=
  ∀ i, G.At k i → ∀ v, G.view (s.A i) v = d.lookup v

/-- **C88, exactly what is stored.** `M[k] = d` for a node `k` and a non-empty dict `d` stores the value for `v`
under the node whose internal number is `v`. -/
theorem row_set_dict {G : Graph Nat α} (hG : G.WF) (nn : Bool) (s : RMap G.n G.n R) {k : Nat} (hk : G.Node k)
    (d : List (Nat × R)) (hne : d ≠ []) (hlt : ∀ p ∈ d, p.1 < G.n) :
    (rmSetDict nn s k d).1 = .ok .unit ∧
    ∀ i, G.At k i → ∀ v j, G.At v j → G.view ((rmSetDict nn s k d).2.A i) v = d.lookup j.val := by
  obtain ⟨i, hi⟩ := hk.exists_id hG
  have hf : fromDict G.n d = .ok fun i : Fin G.n => d.lookup i.val := by
    unfold fromDict
    rw [if_pos]
    rw [List.all_eq_true]
    intro p hp
    simpa using hlt p hp
  have hnv : nvals (fun i : Fin G.n => d.lookup i.val) ≠ 0 := by
    cases d with
    | nil => exact absurd rfl hne
    | cons p d =>
      intro h0
      have := nvals_eq_zero.1 h0 ⟨p.1, hlt p (by simp)⟩
      simp at this
  unfold rmSetDict
  rw [(getId_eq_ok hG).2 hi, hf]
  simp only [rmStep, (getId_eq_ok hG).2 hi, if_neg hnv]
  refine ⟨trivial, ?_⟩
  intro i' hi' v j hj
  rw [view_at hG hj, At.id_unique hG hi' hi]
  simp [rmSetRow]

/-- **C88** a dict with a key that is no internal number: IndexError, and the map is left as it was. -/
theorem row_set_dict_outside {G : Graph Nat α} (hG : G.WF) (nn : Bool) (s : RMap G.n G.n R) {k : Nat}
    (hk : G.Node k) (d : List (Nat × R)) (hout : ∃ p ∈ d, G.n ≤ p.1) :
    rmSetDict nn s k d = (.error .indexError, s) := by
  obtain ⟨i, hi⟩ := hk.exists_id hG
  obtain ⟨p, hp, hge⟩ := hout
  have hf : fromDict G.n d = .error .indexError := by
    unfold fromDict
    rw [if_neg]
    rw [List.all_eq_true]
    intro hall
    have := hall p hp
    simp only [decide_eq_true_eq] at this
    omega
  unfold rmSetDict
  rw [(getId_eq_ok hG).2 hi, hf]

/-- **C88 (partial)**: right when every node is its own internal number. -/
theorem row_set_dict_correct_partial {G : Graph Nat α} (hG : G.WF) (hid : ∀ p ∈ G.keyToId, p.1 = p.2)
    (nn : Bool) (s : RMap G.n G.n R) {k : Nat} (hk : G.Node k) (d : List (Nat × R)) (hne : d ≠ [])
    (hlt : ∀ p ∈ d, p.1 < G.n) :
    (rmSetDict nn s k d).1 = .ok .unit ∧ RowShows (rmSetDict nn s k d).2 k d := by
  obtain ⟨h1, h2⟩ := row_set_dict hG nn s hk d hne hlt
  refine ⟨h1, fun i hi v => ?_⟩
  by_cases hv : G.Node v
  · obtain ⟨j, hj⟩ := hv.exists_id hG
    rw [h2 i hi v j hj, show v = j.val from hid _ hj]
  · rw [view_none_of_not_node hG hv]
    cases e : d.lookup v with
    | none => rfl
    | some r =>
      exfalso
      obtain ⟨p, hp, rfl⟩ : ∃ p ∈ d, p.1 = v := by
        have : (d.lookup v).isSome := by rw [e]; rfl
        rw [lookup_isSome] at this
        obtain ⟨p, hp, h⟩ := List.mem_map.1 this
        exact ⟨p, hp, h⟩
      obtain ⟨u, hu⟩ := hG.exists_key ⟨p.1, hlt p hp⟩
      exact hv (by have := hid _ hu; simp only at this; rw [← this]; exact hu.node)

/-- nodes 1, 0 numbered 0, 1 -/
def Ex.swapped : Graph Nat Int where
  n := 2
  A := fun _ _ => none
  keyToId := [(1, 0), (0, 1)]
  directed := true

/-- **C88 fails** for other numberings: after `M[0] = {0: 5}` reading `M[0]` gives `{1: 5}`. -/
theorem row_set_dict_wrong : Ex.swapped.WF ∧
    (rmSetDict (G := Ex.swapped) true ⟨fun _ _ => none, none, none⟩ 0 [(0, 5)]).1 = .ok .unit ∧
    ¬ RowShows (rmSetDict (G := Ex.swapped) true ⟨fun _ _ => none, none, none⟩ 0 [(0, 5)]).2 0 [(0, 5)] := by
  have hw : Ex.swapped.WF := ⟨by decide, by decide⟩
  have h := row_set_dict hw true (⟨fun _ _ => none, none, none⟩ : RMap Ex.swapped.n Ex.swapped.n Nat) (k := 0)
    (by decide) [(0, 5)] (by simp) (by decide)
  refine ⟨hw, h.1, fun hs => ?_⟩
  have h0 : Ex.swapped.At 0 (1 : Fin 2) := by unfold Graph.At; decide
  have a := hs (1 : Fin 2) h0 0
  have b := h.2 (1 : Fin 2) h0 0 (1 : Fin 2) h0
  rw [a] at b
  exact absurd b (by decide)

end Props
