import Verif.Spec.GraphObj
import Verif.Proofs.Dict
import Verif.Model.Ego
import Verif.Proofs.Graph
import Verif.Props.Examples

/-!
# C92 building graph objects, C93 graph objects answer consistently
-/

open GB Spec Model Model.Graph Proofs

namespace Props

variable {K α V : Type} [DecidableEq K]

theorem lookup_dset {A B : Type} [DecidableEq A] (d : List (A × B)) (a : A) (b : B) :
    (fun x => (dset d a b).lookup x) = Function.update (fun x => d.lookup x) a (some b) := by
  funext x
  induction d with
  | nil =>
    simp only [dset, List.lookup_cons, List.lookup_nil, Function.update_apply]
    by_cases h : x = a
    · subst h; simp
    · rw [if_neg h, show (x == a) = false from beq_false_of_ne h]
  | cons p d ih =>
    obtain ⟨a', b'⟩ := p
    simp only [dset]
    by_cases ha : a' = a
    · subst ha
      rw [if_pos rfl]
      simp only [List.lookup_cons, Function.update_apply]
      by_cases h : x = a'
      · subst h; simp
      · rw [if_neg h, show (x == a') = false from beq_false_of_ne h]
    · rw [if_neg ha]
      simp only [List.lookup_cons, Function.update_apply] at ih ⊢
      by_cases h : x = a'
      · subst h; simp [ha]
      · rw [show (x == a') = false from beq_false_of_ne h]
        exact ih

/-! ### C92 -/

/-- **C92, errors.** A constructor raises ValueError exactly for a matrix that is not square and TypeError exactly
for something that is no matrix; otherwise it succeeds. -/
theorem construct_errors (int : Nat → K) (d m : Bool) (data : Data α) (keys : Option (List (K × Nat)))
    (attr : List (String × V)) :
    (newGraph int d m data keys attr = .error .valueError ↔ ∃ r c A, data = .matrix r c A ∧ r ≠ c) ∧
    (newGraph int d m data keys attr = .error .typeError ↔ data = .other) ∧
    ((∃ o, newGraph int d m data keys attr = .ok o) ↔ data = .none ∨ ∃ r A, data = .matrix r r A) := by
  cases data with
  | none => simp [newGraph, dataMatrix]
  | other => simp [newGraph, dataMatrix]
  | matrix r c A =>
    by_cases h : r = c
    · subst h
      simp [newGraph, dataMatrix]
    · simp only [newGraph, dataMatrix, dif_neg h]
      refine ⟨⟨fun _ => ⟨r, c, A, rfl, h⟩, fun _ => trivial⟩, by simp, ?_⟩
      constructor
      · rintro ⟨o, ho⟩; cases ho
      · rintro (ho | ⟨r', A', ho⟩)
        · cases ho
        · cases ho; exact absurd rfl h

/-- **C92, from a matrix.** Without `key_to_id` the nodes are `0, …, n-1` in this order and the weighted edges are
the entries of the matrix; keyword arguments become attributes. -/
theorem construct_matrix (int : Nat → K) (hint : Function.Injective int) (d m : Bool) {n : Nat} (A : Mat n n α)
    (attr : List (String × V)) (hattr : (attr.map Prod.fst).Nodup) :
    ∃ o, newGraph int d m (.matrix n n A) none attr = .ok o ∧ o.g.WF ∧
      o.g.nodes = (List.range n).map int ∧ o.g.directed = d ∧ o.g.multi = m ∧
      (∀ u v w, o.g.WEdge u v w ↔ ∃ i j : Fin n, u = int i ∧ v = int j ∧ A i j = some w) ∧
      ∀ a, o.attrs.lookup a = attr.lookup a := by
  have hk : (((List.range n).map fun i => (int i, i)) : List (K × Nat)).map Prod.fst = (List.range n).map int := by
    simp [List.map_map, Function.comp_def]
  refine ⟨_, by simp [newGraph, dataMatrix]; rfl, ⟨?_, ?_⟩, ?_, rfl, rfl, ?_, ?_⟩
  · simp only [Option.getD_none, hk]
    exact List.Nodup.map hint List.nodup_range
  · simp [List.map_map, Function.comp_def]
  · simp only [Graph.nodes, Option.getD_none, hk]
  · intro u v w
    simp only [WEdge, At, Option.getD_none, List.mem_map, List.mem_range, Prod.mk.injEq]
    constructor
    · rintro ⟨i, j, ⟨a, _, rfl, rfl⟩, ⟨b, _, rfl, rfl⟩, hw⟩
      exact ⟨i, j, rfl, rfl, hw⟩
    · rintro ⟨i, j, rfl, rfl, hw⟩
      exact ⟨i, j, ⟨i, i.2, rfl, rfl⟩, ⟨j, j.2, rfl, rfl⟩, hw⟩
  · intro a
    show (dictOf attr).lookup a = _
    rw [dictOf_nodup hattr]

/-- **C92, without data.** The graph has no nodes. -/
theorem construct_nothing (int : Nat → K) (d m : Bool) (attr : List (String × V)) :
    ∃ o : GObj K α V, newGraph int d m .none none attr = .ok o ∧ o.g.WF ∧ o.g.nodes = [] ∧ o.g.len = 0 := by
  refine ⟨_, rfl, ⟨?_, ?_⟩, rfl, rfl⟩ <;> simp

/-- **C92, with `key_to_id`.** The nodes are the keys of the dictionary in its order; the edges are the entries
between their numbers; the object is well-formed exactly when the dictionary numbers its keys `0, …, n-1`, each number
once. -/
theorem construct_keys (int : Nat → K) (d m : Bool) {n : Nat} (A : Mat n n α) (keys : List (K × Nat))
    (hkeys : (keys.map Prod.fst).Nodup) (attr : List (String × V)) :
    ∃ o, newGraph int d m (.matrix n n A) (some keys) attr = .ok o ∧ o.g.nodes = keys.map Prod.fst ∧
      o.g.len = n ∧ o.g.directed = d ∧ o.g.multi = m ∧
      (o.g.WF ↔ (keys.map Prod.snd).Perm (List.range n)) ∧
      ∀ u v w, o.g.WEdge u v w ↔ ∃ i j : Fin n, (u, i.val) ∈ keys ∧ (v, j.val) ∈ keys ∧ A i j = some w := by
  refine ⟨_, by simp [newGraph, dataMatrix]; rfl, rfl, rfl, rfl, rfl, ?_, fun _ _ _ => Iff.rfl⟩
  exact ⟨fun h => h.ids_perm, fun h => ⟨hkeys, h⟩⟩

/-- **C92 fails for dictionaries that do not fit**: they are accepted, and the object then has more or fewer nodes
than it iterates over. -/
theorem construct_keys_unchecked (int : Nat → K) (d m : Bool) {n : Nat} (A : Mat n n α) (keys : List (K × Nat))
    (attr : List (String × V)) (h : keys.length ≠ n) :
    ∃ o, newGraph int d m (.matrix n n A) (some keys) attr = .ok o ∧ ¬ o.g.WF ∧ o.g.nodes.length ≠ o.g.len := by
  refine ⟨_, by simp [newGraph, dataMatrix]; rfl, fun hw => h ?_, ?_⟩
  · exact hw.length
  · show (keys.map Prod.fst).length ≠ n
    rwa [List.length_map]

/-- a 2×2 matrix without names, with an attribute -/
example : ∃ o, newGraph (K := Nat) id true false (.matrix 2 2 fun i j => if i ≠ j then some 7 else none) none
    [("name", "x")] = .ok o ∧ o.g.WEdge 0 1 7 ∧ o.attrs.lookup "name" = some "x" := by
  obtain ⟨o, ho, -, -, -, -, he, ha⟩ := construct_matrix (K := Nat) id Function.injective_id true false
    (fun i j : Fin 2 => if i ≠ j then some 7 else none) [("name", "x")] (by decide)
  exact ⟨o, ho, (he 0 1 7).2 ⟨0, 1, rfl, rfl, by decide⟩, by rw [ha]; decide⟩

/-! ### C93 -/

/-- the built inverse dictionary, if any, inverts the node dictionary -/
def IdsOK (o : GObj K α V) : Prop :=
  ∀ d, o.idToKey = some d → ∀ i k, d.lookup i = some k ↔ (k, i) ∈ o.g.keyToId

/-- what the object is to its user -/
def infoOf (o : GObj K α V) : GraphInfo K where
  nodes := o.g.nodes
  num := fun k i => (k, i) ∈ o.g.keyToId
  directed := o.g.directed
  multi := o.g.multi

theorem inverse_dict {G : Graph K α} (hG : G.WF) (i : Nat) (k : K) :
    (dictOf (G.keyToId.map fun p => (p.2, p.1))).lookup i = some k ↔ (k, i) ∈ G.keyToId := by
  have hn : ((G.keyToId.map fun p => (p.2, p.1)).map Prod.fst).Nodup := by
    simpa [List.map_map, Function.comp_def] using hG.ids_nodup
  rw [dictOf_nodup hn, lookup_eq_some_iff hn]
  simp

theorem graph_step (empty : V) (o : GObj K α V) (hG : o.g.WF) (ho : IdsOK o) (op : GOp K V) :
    GraphStep empty (infoOf o) (fun a => o.attrs.lookup a) op (gStep empty o op).1
      (fun a => (gStep empty o op).2.attrs.lookup a) ∧
    (gStep empty o op).2.g = o.g ∧ IdsOK (gStep empty o op).2 := by
  have hlen : (infoOf o).nodes.length = o.g.n := by
    show (o.g.keyToId.map Prod.fst).length = _
    rw [List.length_map, hG.length]
  cases op with
  | iter => exact ⟨.iter, rfl, ho⟩
  | len => exact ⟨by have := GraphStep.len (empty := empty) (I := infoOf o) (M := fun a => o.attrs.lookup a)
                     rw [hlen] at this; exact this, rfl, ho⟩
  | numberOfNodes => exact ⟨by have := GraphStep.numberOfNodes (empty := empty) (I := infoOf o) (M := fun a => o.attrs.lookup a)
                               rw [hlen] at this; exact this, rfl, ho⟩
  | order => exact ⟨by have := GraphStep.order (empty := empty) (I := infoOf o) (M := fun a => o.attrs.lookup a)
                       rw [hlen] at this; exact this, rfl, ho⟩
  | isDirected => exact ⟨.isDirected, rfl, ho⟩
  | isMultigraph => exact ⟨.isMultigraph, rfl, ho⟩
  | name =>
    refine ⟨?_, rfl, ho⟩
    simp only [gStep]
    cases h : o.attrs.lookup "name" with
    | none => exact .name_unset h
    | some v => exact .name_set h
  | idToKey =>
    simp only [gStep]
    cases h : o.idToKey with
    | some d => exact ⟨.idToKey (ho d h), rfl, ho⟩
    | none => exact ⟨.idToKey (inverse_dict hG), rfl, fun d hd => by cases hd; exact inverse_dict hG⟩
  | contains k =>
    refine ⟨?_, by cases k <;> rfl, by cases k <;> exact ho⟩
    cases k with
    | none => exact .contains_unhashable
    | some k =>
      have : (o.g.keyToId.lookup k).isSome = decide (k ∈ (infoOf o).nodes) := by
        rw [Bool.eq_iff_iff, decide_eq_true_iff, lookup_isSome]; rfl
      simp only [gStep, this]
      exact .contains
  | setName s =>
    refine ⟨?_, rfl, ho⟩
    simp only [gStep, lookup_dset]
    exact .setName
  | setAttr a x =>
    refine ⟨?_, rfl, ho⟩
    simp only [gStep, lookup_dset]
    exact .setAttr
  | getAttr a => exact ⟨.getAttr, rfl, ho⟩

/-- **C93.** Whatever calls are made on a graph object in whatever order, they answer as the specification says:
iteration, `in`, `len`, `number_of_nodes`, `order` speak about one and the same set of nodes, `id_to_key` is the inverse
of the node numbering whether built before or not, and `name` is what was last assigned. -/
theorem graph_object_consistent (empty : V) (ops : List (GOp K V)) :
    ∀ o : GObj K α V, o.g.WF → IdsOK o →
      GraphRun empty (infoOf o) (fun a => o.attrs.lookup a) ops (gRun empty o ops).1
        (fun a => (gRun empty o ops).2.attrs.lookup a) ∧ (gRun empty o ops).2.g = o.g := by
  induction ops with
  | nil => intro o _ _; exact ⟨.nil, rfl⟩
  | cons op ops ih =>
    intro o hG ho
    obtain ⟨h1, h2, h3⟩ := graph_step empty o hG ho op
    obtain ⟨h4, h5⟩ := ih _ (h2 ▸ hG) h3
    have hi : infoOf (gStep empty o op).2 = infoOf o := by unfold infoOf; rw [h2]
    rw [hi] at h4
    exact ⟨.cons h1 h4, h5.trans h2⟩

/-- **C93.** A new object starts without inverse dictionary, so the theorem applies to it. -/
theorem new_object_ok {int : Nat → K} {d m : Bool} {data : Data α} {keys : Option (List (K × Nat))}
    {attr : List (String × V)} {o : GObj K α V} (h : newGraph int d m data keys attr = .ok o) : IdsOK o := by
  unfold newGraph at h
  split at h
  · cases h
  · cases h; intro d hd; cases hd

/-- **C93, graphs made from graphs.** `G.reverse()` keeps nodes, class and attributes; `G.to_undirected()` keeps the
nodes, is a plain undirected graph and has no attributes. -/
theorem derived_objects (int : Nat → K) (choose : α → α → α) (b : Bool) (o : GObj K α V)
    (hattr : (o.attrs.map Prod.fst).Nodup) :
    (∃ r, reverseObj int o = .ok r ∧ r.g = { o.g with A := transpose o.g.A } ∧
      (∀ a, r.attrs.lookup a = o.attrs.lookup a) ∧ IdsOK r) ∧
    ∃ r : GObj K α V, toUndirectedObj int choose b o = .ok r ∧ r.g = toUndirected choose o.g b ∧ r.attrs = [] ∧ IdsOK r := by
  refine ⟨⟨_, by simp [reverseObj, newGraph, dataMatrix]; rfl, rfl, ?_, fun d hd => by cases hd⟩,
    ⟨_, by simp [toUndirectedObj, newGraph, dataMatrix]; rfl, rfl, rfl, fun d hd => by cases hd⟩⟩
  intro a
  show (dictOf o.attrs).lookup a = _
  rw [dictOf_nodup hattr]

example : IdsOK (⟨Ex.dg, [("name", 1)], none⟩ : GObj Nat Int Nat) := fun d hd => by cases hd

/-- a session on a concrete object -/
example : (gRun 0 (⟨Ex.dg, [], none⟩ : GObj Nat Int Nat) [.len, .name, .setName 5, .name, .contains (some 20), .idToKey]).1 =
    [.nat 4, .val (some 0), .unit, .val (some 5), .bool true, .dict [(2, 10), (0, 20), (1, 30), (3, 40)]] := by
  rfl

end Props
