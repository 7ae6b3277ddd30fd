import Verif.Model.EffectsTable
import Verif.Proofs.Effects

/-!
# Property: calls do not modify existing objects

`Library` below is every function of `algorithms/`, `linalg/`, `generators/`, `nxapi/`, the conversions of
`classes/_utils.py`, the property lookups of `classes/graph.py` and `classes/digraph.py`, `DiGraph.reverse` and
`DiGraph.to_undirected`.
-/

namespace Props.Effects

open Model.Effects Model.Effects.Table

variable {V : Type}

/-- the state in which a user calls a function: every existing object counts as protected, nothing is returned yet -/
def AtCall (σ : State V) : Prop := (∀ r, σ.prot r ↔ (σ.heap r).isSome) ∧ σ.res = []

/-- The functions a user may expect to hand out an object that the graph (or the caller) also holds: property lookups,
wrappers around a given vector or matrix, `reverse(copy=False)`-like views of an existing graph, node keys, and
numbers remembered in the graph (`transitivity`, `average_clustering`). -/
def mayShare : List String :=
  ["classes._utils.id_to_key",
   "classes._utils.get_property",
   "classes._utils.vector_to_nodeset",
   "classes._utils.matrix_to_nodenodemap",
   "classes._utils.matrix_to_vectornodemap",
   "classes._utils._cacheit",
   "classes.digraph.get_AT",
   "classes.digraph.get_Up",
   "classes.digraph.get_Lp",
   "classes.digraph.get_Um",
   "classes.digraph.get_Lm",
   "classes.digraph.get_recip_degreesp",
   "classes.digraph.get_recip_degreesm",
   "classes.digraph.get_total_degreesp",
   "classes.digraph.get_total_degreesm",
   "classes.digraph.get_total_recipp",
   "classes.digraph.get_total_recipm",
   "classes.digraph.has_self_edges",
   "classes.digraph.DiGraph.reverse",
   "classes.graph.get_A",
   "classes.graph.get_AT",
   "classes.graph.get_offdiag",
   "classes.graph.get_Up",
   "classes.graph.get_Lp",
   "classes.graph.get_Um",
   "classes.graph.get_Lm",
   "classes.graph.get_diag",
   "classes.graph.has_negative_diagonal",
   "classes.graph.has_negative_edgesp",
   "classes.graph.has_negative_edgesm",
   "classes.graph.has_self_edges",
   "classes.graph.is_iso",
   "classes.graph.get_iso_value",
   "algorithms._bfs._get_cutoff",
   "algorithms.lowest_common_ancestors.lowest_common_ancestor",
   "algorithms.operators.unary.reverse",
   "linalg.laplacianmatrix._laplacian_helper",
   "nxapi.cluster.transitivity",
   "nxapi.cluster.average_clustering",
   "nxapi.lowest_common_ancestors.lowest_common_ancestor",
   "nxapi.operators.unary.reverse"]

/-- the internal helpers whose purpose is to overwrite one of their arguments, and that argument -/
def mayOverwrite : List (String × Var) :=
  [("classes._utils.vector_to_dict", "v"),
   ("classes._utils.vector_to_nodemap", "v"),
   ("algorithms._helpers.normalize", "x"),
   ("algorithms._helpers.is_converged", "xprev")]

/-- all functions except the four helpers -/
def Library : List Fn := Table.all.filter fun f => !(mayOverwrite.map Prod.fst).contains f.name

/-- those listed in `mayShare` -/
def returningShared : List Fn := Library.filter fun f => mayShare.contains f.name

/-- all the others -/
def returningNew : List Fn := Library.filter fun f => !mayShare.contains f.name

/-- the helpers with the argument they overwrite -/
def overwriting : List (Fn × Var) :=
  Table.all.filterMap fun f => (mayOverwrite.lookup f.name).map fun x => (f, x)

theorem mem_library {f : Fn} : f ∈ Library ↔ f ∈ returningNew ∨ f ∈ returningShared := by
  unfold returningNew returningShared
  simp only [List.mem_filter, List.contains_iff_mem, Bool.not_eq_true', ← Bool.not_eq_true]
  by_cases h : f.name ∈ mayShare
  · exact ⟨fun a => .inr ⟨a, h⟩, fun a => a.elim And.left And.left⟩
  · exact ⟨fun a => .inl ⟨a, h⟩, fun a => a.elim And.left And.left⟩

theorem AtCall.ok {σ : State V} (h : AtCall σ) : Ok σ := fun r => (h.1 r).1

theorem AtCall.res {σ : State V} (h : AtCall σ) (fr : Bool) : ResOk fr σ := by
  intro _ r hr; rw [h.2] at hr; cases hr

theorem checked_new : (returningNew.all fun f => (chk true f.body []).isSome) = true := by decide +kernel
theorem checked_shared : (returningShared.all fun f => (chk false f.body []).isSome) = true := by decide +kernel
theorem checked_overwriting :
    (overwriting.all fun p => p.1.params.contains p.2 && (chk false p.1.body [p.2]).isSome) = true := by
  decide +kernel

theorem call_frame {f : Fn} (hf : f ∈ Library) {σ σ' : State V} {c : Bool} (h0 : AtCall σ)
    (h : Exec f.body σ σ' c) : Frame σ σ' := by
  rcases mem_library.1 hf with hf | hf
  · obtain ⟨o, e⟩ := Option.isSome_iff_exists.1 (List.all_eq_true.1 checked_new f hf)
    exact (exec_sound h true [] o e (by intro x hx; cases hx) h0.ok (h0.res _)).1
  · obtain ⟨o, e⟩ := Option.isSome_iff_exists.1 (List.all_eq_true.1 checked_shared f hf)
    exact (exec_sound h false [] o e (by intro x hx; cases hx) h0.ok (h0.res _)).1

/-- **C90**: no function of the library modifies an object that existed when it was called - the graph's matrix, the
values the graph has cached, the vectors and matrices passed as arguments - whichever branches it takes, however often
its loops run, and also when it ends with an exception at any point. -/
theorem calls_keep_existing_objects {f : Fn} (hf : f ∈ Library) {σ σ' : State V} {c : Bool} (h0 : AtCall σ)
    (h : Exec f.body σ σ' c) : ∀ r v, σ.heap r = some v → σ'.heap r = some v := by
  intro r v hr
  rw [((call_frame hf h0 h).keep r ((h0.1 r).2 (by rw [hr]; rfl))).2, hr]

/-- **C90**: the objects returned by the functions of `returningNew` did not exist before the call and are not in the
graph's cache after it. -/
theorem results_are_new {f : Fn} (hf : f ∈ returningNew) {σ σ' : State V} {c : Bool} (h0 : AtCall σ)
    (h : Exec f.body σ σ' c) : ∀ r ∈ σ'.res, σ.heap r = none ∧ ¬ σ'.prot r ∧ (σ'.heap r).isSome := by
  obtain ⟨o, e⟩ := Option.isSome_iff_exists.1 (List.all_eq_true.1 checked_new f hf)
  obtain ⟨f1, _, f3, _⟩ := exec_sound h true [] o e (by intro x hx; cases hx) h0.ok (h0.res _)
  intro r hr
  obtain ⟨h1, h2⟩ := f3 rfl r hr
  refine ⟨?_, h1, h2⟩
  cases hh : σ.heap r with
  | none => rfl
  | some v => exact absurd (f1.keep r ((h0.1 r).2 (by rw [hh]; rfl))).1 h1

/-- **C90**: the four internal helpers that overwrite an argument overwrite only that one. -/
theorem helpers_overwrite_one_argument {f : Fn} {x : Var} (hf : (f, x) ∈ overwriting) {σ σ' : State V} {c : Bool}
    (hp : ∀ r, σ.prot r ↔ (σ.heap r).isSome ∧ σ.env x ≠ some r) (hx : ∀ r, σ.env x = some r → (σ.heap r).isSome)
    (hres : σ.res = []) (h : Exec f.body σ σ' c) :
    ∀ r v, σ.heap r = some v → σ.env x ≠ some r → σ'.heap r = some v := by
  intro r v hr hne
  have := List.all_eq_true.1 checked_overwriting (f, x) hf
  obtain ⟨o, e⟩ := Option.isSome_iff_exists.1 ((Bool.and_eq_true _ _).mp this).2
  have hi : Inv [x] σ := by
    intro y hy q hq
    rw [List.mem_singleton.1 hy] at hq
    exact ⟨fun hpq => ((hp q).1 hpq).2 hq, hx q hq⟩
  have f1 := (exec_sound h false [x] o e hi (fun q hq => ((hp q).1 hq).1) (by intro _ q hq; rw [hres] at hq; cases hq)).1
  rw [(f1.keep r ((hp r).2 ⟨by rw [hr]; rfl, hne⟩)).2, hr]

/-! ## whole sessions -/

/-- what a user's session consists of: all objects; those the graph holds (matrix, node dictionary, cache); those the
user got from a call and may change -/
structure World (V : Type) where
  heap : Ref → Option V
  graph : Ref → Prop
  user : Ref → Prop

/-- the state in which a function is called from world `w` with arguments `env` -/
def start (w : World V) (env : Var → Option Ref) : State V :=
  { env := env, heap := w.heap, prot := fun r => (w.heap r).isSome, res := [] }

/-- the world after a call: new cached values belong to the graph -/
def after (w : World V) (σ : State V) (got : Ref → Prop) : World V :=
  { heap := σ.heap, graph := fun r => w.graph r ∨ (σ.prot r ∧ w.heap r = none), user := fun r => w.user r ∨ got r }

/-- Arbitrary interleavings of calls (with any arguments, normal or failing) and of changes the user makes to objects
that calls of `returningNew` functions returned. -/
inductive Session : World V → World V → Prop
  | done (w) : Session w w
  | callNew (w w' env σ c) (f : Fn) (hf : f ∈ returningNew) (h : Exec f.body (start w env) σ c)
      (k : Session (after w σ fun r => r ∈ σ.res) w') : Session w w'
  | callShared (w w' env σ c) (f : Fn) (hf : f ∈ returningShared) (h : Exec f.body (start w env) σ c)
      (k : Session (after w σ fun _ => False) w') : Session w w'
  | userWrite (w w' r v) (h : w.user r) (k : Session { w with heap := upd w.heap r (some v) } w') : Session w w'

theorem start_atCall (w : World V) (env : Var → Option Ref) : AtCall (start w env) := ⟨fun _ => Iff.rfl, rfl⟩

/-- **C91**: changing results never changes the graph: throughout any session, the objects the graph holds - at the
start, or cached later - keep their contents. -/
theorem sessions_keep_the_graph {w w' : World V} (h : Session w w') (hg : ∀ r, w.graph r → (w.heap r).isSome)
    (hu : ∀ r, w.user r → (w.heap r).isSome ∧ ¬ w.graph r) :
    ∀ r, w.graph r → w'.graph r ∧ w'.heap r = w.heap r := by
  induction h with
  | done w => exact fun r hr => ⟨hr, rfl⟩
  | callNew w w' env σ c f hf h k ih =>
    have hf' := call_frame (mem_library.2 (.inl hf)) (start_atCall w env) h
    have hn := results_are_new hf (start_atCall w env) h
    have hok : ∀ r, (after w σ fun r => r ∈ σ.res).graph r → (σ.heap r).isSome := by
      rintro r (hr | ⟨hr, -⟩)
      · exact hf'.alive r (hg r hr)
      · obtain ⟨o, e⟩ := Option.isSome_iff_exists.1 (List.all_eq_true.1 checked_new f hf)
        exact (exec_sound h true [] o e (by intro x hx; cases hx) (start_atCall w env).ok ((start_atCall w env).res _)).2.1 r hr
    have := ih hok (by
      rintro r (hr | hr)
      · refine ⟨hf'.alive r (hu r hr).1, ?_⟩
        rintro (e | ⟨-, e⟩)
        · exact (hu r hr).2 e
        · have := (hu r hr).1; rw [e] at this; cases this
      · refine ⟨(hn r hr).2.2, ?_⟩
        rintro (e | ⟨e, -⟩)
        · have := hg r e
          have h1 : w.heap r = none := (hn r hr).1
          rw [h1] at this; cases this
        · exact (hn r hr).2.1 e)
    intro r hr
    obtain ⟨a, b⟩ := this r (.inl hr)
    exact ⟨a, b.trans (hf'.keep r (hg r hr)).2⟩
  | callShared w w' env σ c f hf h k ih =>
    have hf' := call_frame (mem_library.2 (.inr hf)) (start_atCall w env) h
    have hok : ∀ r, (after w σ fun _ => False).graph r → (σ.heap r).isSome := by
      rintro r (hr | ⟨hr, -⟩)
      · exact hf'.alive r (hg r hr)
      · obtain ⟨o, e⟩ := Option.isSome_iff_exists.1 (List.all_eq_true.1 checked_shared f hf)
        exact (exec_sound h false [] o e (by intro x hx; cases hx) (start_atCall w env).ok ((start_atCall w env).res _)).2.1 r hr
    have := ih hok (by
      rintro r (hr | hr)
      · refine ⟨hf'.alive r (hu r hr).1, ?_⟩
        rintro (e | ⟨-, e⟩)
        · exact (hu r hr).2 e
        · have := (hu r hr).1; rw [e] at this; cases this
      · cases hr)
    intro r hr
    obtain ⟨a, b⟩ := this r (.inl hr)
    exact ⟨a, b.trans (hf'.keep r (hg r hr)).2⟩
  | userWrite w w' r v h k ih =>
    have := ih (fun q hq => heap_upd_isSome _ _ _ _ (hg q hq))
      (fun q hq => ⟨heap_upd_isSome _ _ _ _ (hu q hq).1, (hu q hq).2⟩)
    intro q hq
    obtain ⟨a, b⟩ := this q hq
    refine ⟨a, b.trans (upd_ne _ _ ?_)⟩
    rintro rfl
    exact (hu _ h).2 hq

/-! ## concrete runs -/

/-- one object (the graph's matrix, number 0) exists -/
def s0 : State Nat := { env := fun x => if x = "G" then some 0 else none, heap := fun r => if r = 0 then some 7 else none, prot := fun r => r = 0, res := [] }

theorem s0_atCall : AtCall s0 := by
  refine ⟨fun r => ?_, rfl⟩
  show r = 0 ↔ (if r = 0 then some 7 else none : Option Nat).isSome = true
  split <;> simp_all

/-- `complement(G)` running to its end: it creates object 1, writes to it and returns it -/
example : ∃ σ' c, Exec algorithms_operators_unary_complement.body s0 σ' c ∧ σ'.res = [1] ∧ σ'.heap 1 = some 9 ∧
    σ'.heap 0 = some 7 :=
  ⟨_, _, .seqNext _ _ _ _ _ _ (.shared _ _ 0 rfl) (.seqNext _ _ _ _ _ _ (.new _ _ 1 8 rfl)
    (.seqNext _ _ _ _ _ _ (.write _ _ 1 9 rfl) (.seqNext _ _ _ _ _ _ (.move _ _ _ 1 rfl) (.ret _ _)))), rfl, rfl, rfl⟩

example : 200 < Library.length ∧ ∀ n ∈ ["algorithms.link_analysis.pagerank_alg.pagerank", "algorithms.core.k_truss",
    "nxapi.cluster.square_clustering", "linalg.graphmatrix.adjacency_matrix", "algorithms.cluster.single_triangle"],
    n ∈ returningNew.map Fn.name := by decide +kernel

/-- A property lookup hands out objects of the graph: `G.get_property("offdiag")` of a graph without self-edges is the
graph's own matrix, so that writing to it would change the graph.  (This is why the lookups are in `returningShared`
and why the algorithms above must not write to what they look up.) -/
theorem property_lookup_shares_the_matrix :
    ∃ σ' c, Exec classes_graph_get_offdiag.body s0 σ' c ∧ σ'.res = [0] ∧ s0.prot 0 :=
  ⟨_, _, .seqNext _ _ _ _ _ _ (.shared _ _ 0 rfl) (.seqNext _ _ _ _ _ _ (.shared _ _ 0 rfl)
    (.seqNext _ _ _ _ _ _ (.shared _ _ 0 rfl) (.ret _ _))), rfl, rfl⟩

/-- what the check rules out: an in-place write to a looked-up object; it does change the graph's matrix -/
example : chk false (.shared "S" ;; .write "S") [] = none ∧
    ∃ σ' c, Exec (.shared "S" ;; .write "S") s0 σ' c ∧ σ'.heap 0 = some 8 :=
  ⟨by decide, _, _, .seqNext _ _ _ _ _ _ (.shared _ _ 0 rfl) (.write _ _ 0 8 rfl), rfl⟩

end Props.Effects
