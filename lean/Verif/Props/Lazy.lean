import Verif.Proofs.Lazy
import Verif.Proofs.LazyGen
import Verif.Props.BellmanFord
import Verif.Props.Scale
import Mathlib.Data.List.TakeWhile

/-!
# C121: results that are produced lazily

`bfs_layers`, `all_pairs_shortest_path_length` and `all_pairs_bellman_ford_path_length` are generators.
-/

open GB Spec Model Model.Graph Model.Buffers Model.Lazy Spec.Lazy

namespace Props

variable {K α : Type} [DecidableEq K] {G : Graph K α}

/-! ### bfs_layers -/

theorem allLayers_eq (G : Graph K α) (sources : List K) :
    Proofs.Lazy.allLayers (listToIds G sources) (offdiag G.A) = bfsLayers G sources := by
  unfold Proofs.Lazy.allLayers bfsLayers
  cases listToIds G sources with
  | error e => rfl
  | ok ids =>
    show (if ids.length = 0 then _ else _) = (if ids.length = 0 then _ else _)
    split <;> rfl

/-- **C121** `bfs_layers(G, sources)`, consumed step by step.  Whatever the consumer does between the steps
to the vectors it holds - including the layers it was given - the vectors handed out so far held, when they
were handed out, the first layers of the full list in order; they are new objects, no two of them the same;
the generator returns exactly after the last layer, and raises only what the list would raise, at the first
`next()`. -/
theorem bfs_layers_lazy (G : Graph K α) (sources : List K) {h : Heap G.n Bool} {w : World G.n Bool LPos}
    (hw : Reaches (layersStep (listToIds G sources) (offdiag G.A)) (World.init h .start) w) :
    (∀ ls, bfsLayers G sources = .ok ls → w.given.map Prod.snd = ls.take w.given.length) ∧
    (∀ e, bfsLayers G sources = .error e → w.given = []) ∧
    (w.status = .finished none → bfsLayers G sources = .ok (w.given.map Prod.snd)) ∧
    (∀ e, w.status = .finished (some e) → bfsLayers G sources = .error e) ∧
    (w.given.map Prod.fst).Nodup ∧ ∀ p ∈ w.given, h.next ≤ p.1 := by
  have hi := Proofs.Lazy.inv_reaches hw
  have he := allLayers_eq G sources
  rw [← he]
  -- what has been handed out is a prefix
  have pre : w.given = [] ∨ ∃ rest, Proofs.Lazy.allLayers (listToIds G sources) (offdiag G.A) =
      .ok (w.given.map Prod.snd ++ rest) := by
    cases hs : w.status with
    | suspended p =>
      cases p with
      | start => exact Or.inl (hi.atStart hs)
      | «at» i v q => exact Or.inr ⟨_, (hi.atYield i v q hs).2.2.2.2.2⟩
    | finished e =>
      cases e with
      | none => exact Or.inr ⟨[], by rw [List.append_nil]; exact hi.atEnd hs⟩
      | some e => exact Or.inl (hi.atFail e hs).2
  refine ⟨?_, ?_, hi.atEnd, fun e hs => (hi.atFail e hs).1, hi.nodup, fun p hp => (hi.givenKnown p hp).2⟩
  · intro ls hl
    rcases pre with h0 | ⟨rest, hr⟩
    · rw [h0]; rfl
    · rw [hr] at hl
      cases hl
      rw [List.take_append_of_le_length (by simp)]
      simp
  · intro e hl
    rcases pre with h0 | ⟨rest, hr⟩
    · exact h0
    · rw [hr] at hl; cases hl

/-- **C121** a `next()` changes no vector the consumer holds: not the arguments, not the layers it was given
before. -/
theorem bfs_layers_next_keeps (G : Graph K α) (sources : List K) {h : Heap G.n Bool}
    {w : World G.n Bool LPos}
    (hw : Reaches (layersStep (listToIds G sources) (offdiag G.A)) (World.init h .start) w) {p : LPos}
    (hs : w.status = .suspended p) {a : Nat} (ha : w.known a) :
    (layersStep (listToIds G sources) (offdiag G.A) p w.heap).2.cell a = w.heap.cell a :=
  (Proofs.Lazy.next_spec (Proofs.Lazy.inv_reaches hw) hs).1 a ha

/-- **C121** in terms of nodes: the `t`-th vector handed out held exactly the nodes at distance `t` from the
nearest source; when the generator returns, every reachable node has been in one of them; it never raises,
and it hands out at most as many layers as there are nodes. -/
theorem bfs_layers_lazy_distances (hG : G.WF) {sources : List K} (hne : sources ≠ [])
    (hn : ∀ u ∈ sources, G.Node u) {h : Heap G.n Bool} {w : World G.n Bool LPos}
    (hw : Reaches (layersStep (listToIds G sources) (offdiag G.A)) (World.init h .start) w) :
    (∀ t a x, w.given[t]? = some (a, x) → ∀ u, (G.view x u).isSome ↔ IsDistFrom G.Edge (· ∈ sources) t u) ∧
    (w.status = .finished none → ∀ u d, IsDistFrom G.Edge (· ∈ sources) d u → d < w.given.length) ∧
    (∀ e, w.status ≠ .finished (some e)) ∧ w.given.length ≤ G.n := by
  obtain ⟨ls, h1, h2, h3⟩ := bfs_layers_correct hG hne hn
  obtain ⟨p1, -, p3, p4, -, -⟩ := bfs_layers_lazy G sources hw
  have hp := p1 ls h1
  have hlen : w.given.length ≤ ls.length := by
    have := congrArg List.length hp
    simp only [List.length_map, List.length_take] at this
    omega
  have hls : ls.length ≤ G.n := by
    unfold bfsLayers at h1
    cases hid : listToIds G sources with
    | error e => rw [hid] at h1; cases h1
    | ok ids =>
      rw [hid] at h1
      simp only [bind, Except.bind] at h1
      have loop : ∀ (m : Nat) (v q : Vec G.n Bool), (bfsLayersLoop (offdiag G.A) m v q).length ≤ m := by
        intro m
        induction m with
        | zero => intro v q; exact Nat.le_refl _
        | succ m ih =>
          intro v q
          unfold bfsLayersLoop
          dsimp only
          split
          · exact Nat.zero_le _
          · rw [List.length_cons]; exact Nat.succ_le_succ (ih _ _)
      split at h1
      · cases h1; exact Nat.zero_le _
      · rename_i hl
        cases h1
        obtain ⟨i, -⟩ := List.exists_mem_of_length_pos (Nat.pos_of_ne_zero hl)
        have := loop (G.n - 1) vempty (vofIds ids true)
        have := i.pos
        rw [List.length_cons]
        omega
  refine ⟨?_, ?_, ?_, le_trans hlen hls⟩
  · intro t a x hx
    refine (h2 t x ?_).1
    have hm : (w.given.map Prod.snd)[t]? = some x := by rw [List.getElem?_map, hx]; rfl
    rw [hp, List.getElem?_take] at hm
    split at hm
    · exact hm
    · cases hm
  · intro hs u d hd
    have := p3 hs
    rw [h1] at this
    cases this
    simpa using h3 u d hd
  · intro e hs
    have := p4 e hs
    rw [h1] at this
    cases this

/-! ### all_pairs_shortest_path_length -/

open Proofs.LazyGen

theorem zipIdx_each {n k : Nat} {β : Type} (nodes : List K) (hlen : k = nodes.length) (D : Fin k → Vec n β) :
    (Gen.forEach nodes.zipIdx fun (u, r) =>
      if h : r < k then Gen.give (u, D ⟨r, h⟩) else Gen.fail .indexError) =
    ofList (nodes.zipIdx.filterMap fun (u, r) => if h : r < k then some (u, D ⟨r, h⟩) else none) := by
  have hm : ∀ p ∈ nodes.zipIdx, p.2 < k := by
    intro p hp
    have := (List.mem_zipIdx hp).2.1
    omega
  have : ∀ l : List (K × Nat), (∀ p ∈ l, p.2 < k) →
      (Gen.forEach l fun (u, r) => if h : r < k then Gen.give (u, D ⟨r, h⟩) else Gen.fail .indexError) =
      ofList (l.filterMap fun (u, r) => if h : r < k then some (u, D ⟨r, h⟩) else none) := by
    intro l
    induction l with
    | nil => intro _; rfl
    | cons p l ih =>
      intro hp
      rw [forEach_cons, ih fun q hq => hp q (by simp [hq])]
      obtain ⟨u, r⟩ := p
      have hr : r < k := hp (u, r) (by simp)
      simp only [List.filterMap_cons, hr, dite_true]
      rfl
  exact this _ hm

/-- **C121** consuming everything gives the list of `Model.allPairsSPL` -/
theorem all_pairs_spl_toList (G : Graph K α) (cutoff : Option Int) (chunksize : Option Int) :
    (allPairsSPLGen G cutoff chunksize).toList = allPairsSPL G cutoff chunksize := by
  unfold allPairsSPLGen allPairsSPL
  cases chunksize with
  | none =>
    apply toList_each
    intro i _
    cases G.keyOf i.val <;> rfl
  | some c =>
    simp only
    split
    · apply toList_each
      intro u _
      rw [toList_bind]
      cases singleSourceSPL G u cutoff <;> rfl
    · rw [toList_forEach]
      congr 2
      funext p
      cases p with
      | elem a => rfl
      | chunk nodes =>
        simp only
        rw [toList_bind]
        cases hids : listToIds G nodes with
        | error e => rfl
        | ok ids =>
          show Gen.toList (Gen.forEach nodes.zipIdx _) = _
          have := zipIdx_each nodes (mapM_ok_length hids)
            (bfsLevelsFrom (offdiag G.A) (fun r : Fin ids.length => ids.get r) cutoff)
          refine (congrArg Gen.toList this).trans ?_
          rw [toList_ofList]; rfl

/-- **C121** `all_pairs_shortest_path_length`, for every cutoff and chunk size: there is one sequence of
correct pairs, every node once as source, and any `t` calls of `next()` bring its first `t` members; no call
raises. -/
theorem all_pairs_shortest_path_length_lazy (h : G.WF) (c : Option Int) (chunksize : Option Int) :
    ∃ items : List (K × Vec G.n Nat), (items.map Prod.fst).Perm (G.keyToId.map Prod.fst) ∧
      (∀ p ∈ items, singleSourceSPL G p.1 c = .ok p.2) ∧
      ∀ t, (allPairsSPLGen G c chunksize).take t = (items.take t, none) := by
  obtain ⟨L, h1, h2, h3⟩ := all_pairs_shortest_path_length_chunksize_independent h c chunksize
  refine ⟨L, h2, h3, fun t => ?_⟩
  rw [← all_pairs_spl_toList] at h1
  rw [toList_ok h1, take_done]

/-! ### all_pairs_bellman_ford_path_length -/

theorem flatten_singles (L : List K) : (L.map fun u => [u]).flatten = L := by
  induction L with
  | nil => rfl
  | cons a L ih => rw [List.map_cons, List.flatten_cons, ih]; rfl

section
variable [AddCommGroup α] [LinearOrder α]

/-- **C121** consuming everything gives the list of `Model.allPairsBF` -/
theorem all_pairs_bf_toList (G : Graph K α) (iso : Option α) (fdiv : α → α → Int) (chunksize : Option Int) :
    (allPairsBFGen G iso fdiv chunksize).toList = allPairsBF G iso fdiv chunksize := by
  unfold allPairsBFGen allPairsBF
  cases chunksize with
  | none =>
    simp only
    rw [toList_bind]
    cases bellmanFordPathLengths G iso (fun i => i) with
    | error e => rfl
    | ok D =>
      apply toList_each
      intro i _
      cases G.keyOf i.val <;> rfl
  | some c =>
    simp only
    split
    · apply toList_each
      intro u _
      rw [toList_bind]
      cases singleSourceBF G iso fdiv u none <;> rfl
    · rw [toList_forEach]
      congr 2
      funext p
      cases p with
      | elem a => rfl
      | chunk nodes =>
        simp only
        rw [toList_bind]
        cases hids : listToIds G nodes with
        | error e => rfl
        | ok ids =>
          show Gen.toList (Gen.bind (bellmanFordPathLengths G iso fun r : Fin ids.length => ids.get r) _) = _
          rw [toList_bind]
          show _ = (bellmanFordPathLengths G iso (fun r : Fin ids.length => ids.get r) >>= _)
          cases bellmanFordPathLengths G iso (fun r : Fin ids.length => ids.get r) with
          | error e => rfl
          | ok D =>
            show Gen.toList (Gen.forEach nodes.zipIdx _) = _
            refine (congrArg Gen.toList (zipIdx_each nodes (mapM_ok_length hids) D)).trans ?_
            rw [toList_ofList]; rfl

variable [IsOrderedAddMonoid α]

open Classical in
/-- **C121** `all_pairs_bellman_ford_path_length`, for every chunk size.  The sources are worked off in
blocks: all at once when the chunk size is None, one by one when it is below 2, else in blocks of at most
`chunksize`; in the last two cases in the order of the graph's nodes.  What `next()` brings is the correct
result for every source in the blocks before the first one in which some source reaches a negative cycle; the
following `next()` raises Unbounded, if there is such a block. -/
theorem all_pairs_bellman_ford_path_length_lazy (h : G.WF) (hsym : G.directed = false → G.Symm)
    {iso : Option α} (hiso : IsoValid G iso) (fdiv : α → α → Int) (chunksize : Option Int) :
    ∃ blocks : List (List K),
      blocks.flatten.Perm (G.keyToId.map Prod.fst) ∧
      (chunksize = none → blocks.length = 1) ∧
      (∀ c, chunksize = some c → c < 2 → blocks = (G.keyToId.map Prod.fst).map fun u => [u]) ∧
      (∀ c, chunksize = some c → 2 ≤ c → blocks.flatten = G.keyToId.map Prod.fst ∧ (∀ b ∈ blocks, b ≠ []) ∧
        (c < (G.keyToId.map Prod.fst).length → ∀ b ∈ blocks, (b.length : Int) ≤ c)) ∧
      ∃ items : List (K × Vec G.n α),
        items.map Prod.fst =
          (blocks.takeWhile fun b => decide (∀ u ∈ b, ¬ NegCycleFrom G.WEdge u)).flatten ∧
        (∀ p ∈ items, singleSourceBF G iso fdiv p.1 none = .ok p.2) ∧
        ∀ t, (allPairsBFGen G iso fdiv chunksize).take t =
          (items.take t, if items.length < t ∧ ∃ u, G.Node u ∧ NegCycleFrom G.WEdge u
            then some .unbounded else none) := by
  have hnode : ∀ u, u ∈ G.keyToId.map Prod.fst ↔ G.Node u := fun u => Iff.rfl
  -- the answer, as a total function
  let sp : K → Vec G.n α := fun u => match singleSourceBF G iso fdiv u none with
    | .ok d => d
    | .error _ => vempty
  have hone : ∀ u, G.Node u →
      (NegCycleFrom G.WEdge u ∧ singleSourceBF G iso fdiv u none = .error .unbounded) ∨
      (¬ NegCycleFrom G.WEdge u ∧ singleSourceBF G iso fdiv u none = .ok (sp u)) := by
    intro u hu
    rcases single_source_bellman_ford_path_length_correct h hsym hiso fdiv hu with h1 | ⟨h1, r, h2, -⟩
    · exact Or.inl h1
    · refine Or.inr ⟨h1, ?_⟩
      show _ = Except.ok (match singleSourceBF G iso fdiv u none with
        | .ok d => d
        | .error _ => vempty)
      rw [h2]
  -- once the generator is known block by block, the rest is counting
  have finish : ∀ (blocks : List (List K)) (f : List K → Gen (K × Vec G.n α)),
      (∀ u, u ∈ blocks.flatten ↔ G.Node u) →
      allPairsBFGen G iso fdiv chunksize = Gen.forEach blocks f →
      (∀ b ∈ blocks, (∀ u ∈ b, ¬ NegCycleFrom G.WEdge u) → f b = ofList (b.map fun u => (u, sp u))) →
      (∀ b ∈ blocks, ¬ (∀ u ∈ b, ¬ NegCycleFrom G.WEdge u) → f b = .fail .unbounded) →
      ∃ items : List (K × Vec G.n α),
        items.map Prod.fst =
          (blocks.takeWhile fun b => decide (∀ u ∈ b, ¬ NegCycleFrom G.WEdge u)).flatten ∧
        (∀ p ∈ items, singleSourceBF G iso fdiv p.1 none = .ok p.2) ∧
        ∀ t, (allPairsBFGen G iso fdiv chunksize).take t =
          (items.take t, if items.length < t ∧ ∃ u, G.Node u ∧ NegCycleFrom G.WEdge u
            then some .unbounded else none) := by
    intro blocks f hmem hgen h1 h2
    have hex : (∃ b ∈ blocks, ¬ ∀ u ∈ b, ¬ NegCycleFrom G.WEdge u) ↔
        ∃ u, G.Node u ∧ NegCycleFrom G.WEdge u := by
      constructor
      · rintro ⟨b, hb, hu⟩
        push Not at hu
        obtain ⟨u, hu, hn⟩ := hu
        exact ⟨u, (hmem u).1 (List.mem_flatten.2 ⟨b, hb, hu⟩), hn⟩
      · rintro ⟨u, hu, hn⟩
        obtain ⟨b, hb, hub⟩ := List.mem_flatten.1 ((hmem u).2 hu)
        exact ⟨b, hb, fun hall => hall u hub hn⟩
    have hsplit := forEach_blocks (e := .unbounded) h1 h2
      (last := if ∃ u, G.Node u ∧ NegCycleFrom G.WEdge u then .fail .unbounded else .done)
      (fun hall => if_neg fun hneg => by
        obtain ⟨b, hb, hu⟩ := hex.2 hneg
        exact hu (hall b hb))
      (fun hb => if_pos (hex.1 hb))
    refine ⟨(blocks.takeWhile fun b => decide (∀ u ∈ b, ¬ NegCycleFrom G.WEdge u)).flatMap
      fun b => b.map fun u => (u, sp u), ?_, ?_, ?_⟩
    · rw [List.map_flatMap]
      simp only [List.map_map, Function.comp_def, List.map_id']
      rw [List.flatMap_def, List.map_id'']
      intro b; rfl
    · intro p hp
      obtain ⟨b, hb, hpb⟩ := List.mem_flatMap.1 hp
      obtain ⟨u, hu, rfl⟩ := List.mem_map.1 hpb
      have hgood := List.mem_takeWhile_imp hb
      rw [decide_eq_true_eq] at hgood
      have hbm : b ∈ blocks := (List.takeWhile_sublist _).subset hb
      rcases hone u ((hmem u).1 (List.mem_flatten.2 ⟨b, hbm, hu⟩)) with ⟨hn, -⟩ | ⟨-, e⟩
      · exact absurd hn (hgood u hu)
      · exact e
    · intro t
      rw [hgen, hsplit]
      by_cases hneg : ∃ u, G.Node u ∧ NegCycleFrom G.WEdge u
      · rw [if_pos hneg, take_fail]
        congr 1
        by_cases ht : t ≤ ((blocks.takeWhile fun b => decide (∀ u ∈ b, ¬ NegCycleFrom G.WEdge u)).flatMap
            fun b => b.map fun u => (u, sp u)).length
        · rw [if_pos ht, if_neg (fun hc => absurd hc.1 (by omega))]
        · rw [if_neg ht, if_pos ⟨by omega, hneg⟩]
      · rw [if_neg hneg, append_done, take_done, if_neg (fun hc => hneg hc.2)]
  cases chunksize with
  | none =>
    choose key hkey using h.exists_key
    obtain ⟨D, hD⟩ : ∃ D, bellmanFordPathLengths G iso (fun i => i) = D := ⟨_, rfl⟩
    have hb := bellman_ford_path_lengths_batch h hsym hiso fdiv key (fun i => i) hkey
    rcases hb with ⟨⟨i, hi⟩, h2⟩ | ⟨h1, E, h2, h3⟩
    · have hgen : allPairsBFGen G iso fdiv none = .fail .unbounded := by
        simp only [allPairsBFGen]
        rw [h2]; rfl
      refine ⟨[G.keyToId.map Prod.fst], by simp, fun _ => rfl, (fun c hc => by cases hc),
        (fun c hc => by cases hc), ?_⟩
      refine finish _ (fun _ => .fail .unbounded) (fun u => by simp [Node]) ?_ ?_ (fun _ _ _ => rfl)
      · rw [hgen]; rfl
      · intro b hb hall
        rw [List.mem_singleton] at hb
        subst hb
        exact absurd hi (hall _ (hkey i).node)
    · have hno : ∀ u, G.Node u → ¬ NegCycleFrom G.WEdge u := by
        intro u hu
        obtain ⟨i, hi⟩ := hu.exists_id h
        have := At.key_unique h hi (hkey i)
        rw [this]; exact h1 i
      rcases all_pairs_bellman_ford_path_length_chunksize_independent h hsym hiso fdiv none with
        ⟨⟨u, hu, hn⟩, -⟩ | ⟨-, L, h4, h5, h6⟩
      · exact absurd hn (hno u hu)
      · rw [← all_pairs_bf_toList] at h4
        refine ⟨[L.map Prod.fst], by simpa using h5, fun _ => rfl, (fun c hc => by cases hc),
          (fun c hc => by cases hc), ?_⟩
        have hm : ∀ u, u ∈ L.map Prod.fst ↔ G.Node u := fun u => (h5.mem_iff).trans (hnode u)
        refine finish _ (fun _ => ofList L) (fun u => by simpa using hm u) ?_ ?_ ?_
        · rw [toList_ok h4]
          show _ = Gen.append (ofList L) .done
          rw [append_done]
        · intro b hb _
          rw [List.mem_singleton] at hb
          subst hb
          congr 1
          rw [List.map_map]
          symm
          conv_rhs => rw [← List.map_id L]
          apply List.map_congr_left
          intro p hp
          have := h6 p hp
          rcases hone p.1 ((hm p.1).1 (List.mem_map_of_mem hp)) with ⟨hn, -⟩ | ⟨-, e⟩
          · exact absurd hn (hno _ ((hm p.1).1 (List.mem_map_of_mem hp)))
          · rw [this] at e
            exact Prod.ext rfl (Except.ok.inj e).symm
        · intro b hb hnot
          rw [List.mem_singleton] at hb
          subst hb
          exact absurd (fun u hu => hno u ((hm u).1 hu)) hnot
  | some cs =>
    by_cases hcs : cs < 2
    · refine ⟨(G.keyToId.map Prod.fst).map fun u => [u], by rw [flatten_singles], (fun hc => by cases hc),
        (fun _ _ _ => rfl), (fun c hc h2 => by cases hc; omega), ?_⟩
      refine finish _ (fun b => Gen.forEach b fun source =>
          Gen.bind (singleSourceBF G iso fdiv source none) fun d => Gen.give (source, d))
        (fun u => by simp [Node]) ?_ ?_ ?_
      · simp only [allPairsBFGen, if_pos hcs]
        refine Eq.trans ?_ (forEach_map _ _ _).symm
        apply forEach_congr
        intro u _
        show _ = Gen.append _ .done
        rw [append_done]
      · intro b hb hall
        obtain ⟨u, hu, rfl⟩ := List.mem_map.1 hb
        show Gen.append (Gen.bind (singleSourceBF G iso fdiv u none) _) .done = _
        rw [append_done]
        rcases hone u hu with ⟨hn, -⟩ | ⟨-, e⟩
        · exact absurd hn (hall u (by simp))
        · rw [e]; rfl
      · intro b hb hnot
        obtain ⟨u, hu, rfl⟩ := List.mem_map.1 hb
        show Gen.append (Gen.bind (singleSourceBF G iso fdiv u none) _) .done = _
        rw [append_done]
        rcases hone u hu with ⟨-, e⟩ | ⟨hn, -⟩
        · rw [e]; rfl
        · exact absurd (by simpa using hn) hnot
    · obtain ⟨ps, hp, hflat, hne, hsize, -⟩ := partition_correct cs (G.keyToId.map Prod.fst) true (by omega)
      refine ⟨ps, by rw [hflat], (fun hc => by cases hc), (fun c hc h2 => by cases hc; omega),
        (fun c hc h2 => by cases hc; exact ⟨hflat, hne, hsize (by omega)⟩), ?_⟩
      have hmem : ∀ b ∈ ps, ∀ u ∈ b, G.Node u := by
        intro b hb u hu
        rw [← hnode, ← hflat]
        exact List.mem_flatten.2 ⟨b, hb, hu⟩
      have hchunk : ∀ nodes ∈ ps, ∀ f : List K → Gen (K × Vec G.n α),
          (∀ ns, f ns = Gen.bind (listToIds G ns) fun ids =>
            Gen.bind (bellmanFordPathLengths G iso (fun r : Fin ids.length => ids.get r)) fun D =>
            Gen.forEach ns.zipIdx fun (u, r) =>
              if h : r < ids.length then Gen.give (u, D ⟨r, h⟩) else Gen.fail .indexError) →
          ((∀ u ∈ nodes, ¬ NegCycleFrom G.WEdge u) → f nodes = ofList (nodes.map fun u => (u, sp u))) ∧
          (¬ (∀ u ∈ nodes, ¬ NegCycleFrom G.WEdge u) → f nodes = .fail .unbounded) := by
        intro nodes hb f hf
        obtain ⟨ids, hids, hF⟩ := Proofs.Bfs.listToIds_ok h (hmem nodes hb)
        have hlen := hF.length_eq
        rw [hf, hids]
        have hat : ∀ r : Fin ids.length, G.At (nodes.get ⟨r, by omega⟩) (ids.get r) := fun r =>
          (List.forall₂_iff_get.1 hF).2 r (by omega) r.2
        rcases bellman_ford_path_lengths_batch h hsym hiso fdiv
            (fun r : Fin ids.length => nodes.get ⟨r, by omega⟩) (fun r => ids.get r) hat with
          ⟨⟨r, hr⟩, h2⟩ | ⟨h1, D, h2, h3⟩
        · refine ⟨fun hall => absurd hr (hall _ (List.get_mem _ _)), fun _ => ?_⟩
          show Gen.bind (bellmanFordPathLengths G iso (fun r => ids.get r)) _ = _
          rw [h2]; rfl
        · have hall : ∀ u ∈ nodes, ¬ NegCycleFrom G.WEdge u := by
            intro u hu
            obtain ⟨r, hr⟩ := List.get_of_mem hu
            rw [← hr]
            exact h1 ⟨r, by omega⟩
          refine ⟨fun _ => ?_, fun hnot => absurd hall hnot⟩
          show Gen.bind (bellmanFordPathLengths G iso (fun r => ids.get r)) _ = _
          rw [h2]
          show Gen.forEach nodes.zipIdx _ = _
          refine (zipIdx_each nodes hlen.symm D).trans ?_
          congr 1
          have e : nodes.map (fun u => (u, sp u)) = nodes.zipIdx.filterMap (fun p => some (p.1, sp p.1)) := by
            conv_lhs => rw [← List.zipIdx_map_fst 0 nodes, List.map_map]
            rw [← List.filterMap_eq_map]; rfl
          rw [e]
          apply List.filterMap_congr
          rintro ⟨u, r⟩ hm
          have hr := List.mem_zipIdx hm
          simp only [Nat.zero_add, Nat.zero_le, Nat.sub_zero, true_and] at hr
          obtain ⟨hr1, hr2⟩ := hr
          have hr' : r < ids.length := by omega
          simp only [hr', dite_true]
          have h4 := h3 ⟨r, hr'⟩
          have h5 : nodes.get ⟨r, hr1⟩ = u := hr2.symm
          rcases hone u (hmem nodes hb u (h5 ▸ List.get_mem _ _)) with ⟨hn, -⟩ | ⟨-, e⟩
          · exact absurd hn (hall u (h5 ▸ List.get_mem _ _))
          · dsimp only at h4
            rw [h5, e] at h4
            rw [← Except.ok.inj h4]
      refine finish _ (fun nodes => Gen.bind (listToIds G nodes) fun ids =>
          Gen.bind (bellmanFordPathLengths G iso (fun r : Fin ids.length => ids.get r)) fun D =>
          Gen.forEach nodes.zipIdx fun (u, r) =>
            if h : r < ids.length then Gen.give (u, D ⟨r, h⟩) else Gen.fail .indexError)
        (fun u => by rw [hflat]; exact hnode u) ?_ (fun b hb => (hchunk b hb _ fun _ => rfl).1)
        (fun b hb => (hchunk b hb _ fun _ => rfl).2)
      simp only [allPairsBFGen, if_neg hcs]
      rw [hp, forEach_map]

end

/-! ### concrete runs -/

/-- a consumer of `bfs_layers` that wipes the first layer before it asks for the second: it still gets the
second layer -/
example : ∃ w : World Ex.dg.n Bool LPos,
    Reaches (layersStep (listToIds Ex.dg [10]) (offdiag Ex.dg.A))
      (World.init ⟨0, fun _ => vempty⟩ .start) w ∧
    w.heap.cell 2 = vempty ∧ w.given.length = 2 ∧
    (w.given.map fun p => [10, 20, 30, 40].map fun u => (Ex.dg.view p.2 u).isSome) =
      [[true, false, false, false], [false, true, false, false]] := by
  let ids := listToIds Ex.dg [10]
  let h0 : Heap Ex.dg.n Bool := ⟨0, fun _ => vempty⟩
  let h1 := (layersStep ids (offdiag Ex.dg.A) .start h0).2
  let h2 : Heap Ex.dg.n Bool := ⟨h1.next, Function.update h1.cell 2 vempty⟩
  let w1 : World Ex.dg.n Bool LPos :=
    ⟨h1, fun b => b < 0 ∨ b = 2, .suspended (.at 1 0 1), [(2, h1.cell 2)]⟩
  let w2 : World Ex.dg.n Bool LPos :=
    { w1 with heap := h2, known := fun a => w1.known a ∨ w1.heap.next ≤ a ∧ a < h2.next }
  have e1 : Event (layersStep ids (offdiag Ex.dg.A)) (World.init h0 .start) w1 := .gives rfl rfl
  have e2 : Event (layersStep ids (offdiag Ex.dg.A)) w1 w2 :=
    .consumer (le_refl _) fun a _ hk => Function.update_of_ne (fun h => hk (Or.inr h)) _ _
  have e3 : Event (layersStep ids (offdiag Ex.dg.A)) w2
      ⟨(layersStep ids (offdiag Ex.dg.A) (.at 1 0 1) h2).2, fun b => w2.known b ∨ b = 3,
        .suspended (.at 2 0 1),
        w2.given ++ [(3, (layersStep ids (offdiag Ex.dg.A) (.at 1 0 1) h2).2.cell 3)]⟩ := .gives rfl rfl
  refine ⟨_, .tail (.tail (.tail .refl e1) e2) e3, ?_, rfl, ?_⟩
  · funext i
    revert i
    decide +kernel
  · decide +kernel

/-- 1 → 2 → 5, and 3 → 4 → 3 with total weight -1 -/
def Ex.later : Graph Nat Int where
  n := 5
  A := _root_.Ex.ofTriples 5 [(0,1,4), (2,3,1), (3,2,-2), (1,4,2)]
  keyToId := [(1,0), (2,1), (3,2), (4,3), (5,4)]
  directed := true

example : Ex.later.WF := ⟨by decide, by decide⟩

/-- the names of the sources received, and the exception -/
def Ex.received {n : Nat} (x : List (Nat × Vec n Int) × Option Err) : List Nat × Option Err :=
  (x.1.map Prod.fst, x.2)

/-- the chunk size decides how much one gets before the exception -/
example : Ex.received ((allPairsBFGen Ex.later none (fun x c => x / c) (some 1)).take 5) =
    ([1, 2], some .unbounded) := by decide +kernel
example : Ex.received ((allPairsBFGen Ex.later none (fun x c => x / c) (some 3)).take 5) =
    ([], some .unbounded) := by decide +kernel
example : Ex.received ((allPairsBFGen Ex.later none (fun x c => x / c) none).take 5) =
    ([], some .unbounded) := by decide +kernel
example : Ex.received ((allPairsBFGen Ex.later none (fun x c => x / c) (some 2)).take 2) =
    ([1, 2], none) := by decide +kernel

end Props
