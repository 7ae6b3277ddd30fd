import Verif.Proofs.Threads
import Verif.Props.ProgramsNum

/-!
# C100 threads that share a graph object
-/

open GB Spec.Prop Model Model.Cache Model.Memo Model.Threads Proofs.Cache Proofs.Threads
open Model.Run (NumEnv)

namespace Props

section lookups
variable {ι α : Type} [DecidableEq ι] [LinearOrder α] [Zero α] {c : Ctx ι α} {τ : Type} [DecidableEq τ]

/-- threads that make property lookups, one after the other; they start on the cache left by the lookups `h` -/
def lookupThreads (c : Ctx ι α) (h : List (Req ι c.n)) (reqs : τ → List (Req ι c.n)) :
    Sys (OVal c.n α (ι := ι)) fun _ : τ => List (Σ r : Req ι c.n, Except Err (Val c.n α r.key)) where
  dict := theDict ⟨after c h, fun _ => none⟩
  thread := fun t => inTurn (fun r : Req ι c.n => (ofM (getProp c r.al r.mask r.key) : Code c _)) (reqs t)

theorem inv_theDict {g : Proofs.Cache.GoodF c} {gm : MemoKey → ℚ → Prop} {s : Store ι c.n α}
    {m : MemoKey → Option ℚ} (h : Proofs.Cache.Inv g s) (hm : ∀ k v, m k = some v → gm k v) :
    Proofs.Threads.Inv (goodO g gm) (theDict (⟨s, m⟩ : Obj c)) := by
  rintro (k | k) v hk
  · exact h k v hk
  · exact hm k v hk

/-- **C100**: any number of threads look properties of the same graph object up, with any schedule of their
accesses to the cache.  A thread that has finished got, for each of its requests in order, the defined value of the
property (restricted to the mask), or one of the errors of C01/C02.  No exception escapes.
(As in C01/C02, `has_self_edges` and `has_negative_diagonal` are excluded, and unmasked lookups of `total_degrees+` on a
`DiGraph` with self-edges.) -/
theorem concurrent_lookups_partial (hv : c.Valid) (h : List (Req ι c.n)) (hh : ∀ r ∈ h, Safe c r)
    (reqs : τ → List (Req ι c.n)) (hr : ∀ t, ∀ r ∈ reqs t, Safe c r) (sched : List τ) (t : τ) :
    (∀ l, (runSched (lookupThreads c h reqs) sched).thread t = .ret l →
      l.map Sigma.fst = reqs t ∧ ∀ p ∈ l,
        (∀ v, p.2 = .ok v → p.1.key ≠ .hasSelf → p.1.key ≠ .negDiag → v = restrict p.1.mask p.1.key (value c p.1.key)) ∧
        ∀ e, p.2 = .error e → MayRaise c p.1.key e) ∧
    ∀ e, (runSched (lookupThreads c h reqs) sched).thread t ≠ .err e := by
  obtain ⟨-, h1, h2⟩ := runSched_spec (g := goodO (good c False False) fun _ _ => True) (y := lookupThreads c h reqs)
    (E := fun _ _ => False)
    (Q := fun (t : τ) (l : List (Σ r : Req ι c.n, Except Err (Val c.n α r.key))) => l.map Sigma.fst = reqs t ∧ ∀ p ∈ l, (∀ x, p.2 = .ok x → Result c False False p.1.mask p.1.key x) ∧
      ∀ e, p.2 = .error e → Allowed c False p.1.key e) sched
    (inv_theDict (after_inv hv False h fun r hr => ⟨hh r hr, by simp⟩) (by simp)) fun t => ⟨fun _ => False, by simp, by
      refine wp_inTurn (g := goodO (good c False False) fun _ _ => True) (E := fun r e => Allowed c False r.key e)
        (Q := fun r x => Result c False False r.mask r.key x)
        (prog := fun r : Req ι c.n => (ofM (getProp c r.al r.mask r.key) : Code c _)) (reqs t) fun r hr' => ?_
      exact wp_ofM_false ((sat_getProp (c := c) (S := fun _ => False) (strict := False) (ex := False) hv r.al r.mask r.key (by simp)
        (fun a b d => noSelf_iff_selfEdge.2 (hr t r hr' a b d)) (by simp)).conseq (fun _ h => h) (fun _ h => h)
        (fun _ h => h) (by simp))⟩
  refine ⟨fun l hl => ?_, fun e he => h2 t e he⟩
  obtain ⟨g1, g2⟩ := h1 t l hl
  refine ⟨g1, fun p hp => ⟨fun v hv h3 h4 => ((g2 p hp).1 v hv).1 h3 h4, fun e he => ?_⟩⟩
  rcases (g2 p hp).2 e he with ⟨h3, _, h4⟩ | h3
  · exact Or.inl ⟨h3, h4⟩
  · exact Or.inr h3

/-- **C100**: `has_self_edges` as well, if nobody asks for `has_negative_diagonal`. -/
theorem concurrent_has_self_edges_partial (hv : c.Valid) (h : List (Req ι c.n))
    (hh : ∀ r ∈ h, Safe c r ∧ r.key ≠ .negDiag) (reqs : τ → List (Req ι c.n))
    (hr : ∀ t, ∀ r ∈ reqs t, Safe c r ∧ r.key ≠ .negDiag) (sched : List τ) (t : τ) {l}
    (hl : (runSched (lookupThreads c h reqs) sched).thread t = .ret l) :
    ∀ p ∈ l, ∀ v, p.2 = .ok v → v = restrict p.1.mask p.1.key (value c p.1.key) := by
  obtain ⟨-, h1, -⟩ := runSched_spec (g := goodO (good c True False) fun _ _ => True) (y := lookupThreads c h reqs)
    (E := fun _ _ => False)
    (Q := fun (t : τ) (l : List (Σ r : Req ι c.n, Except Err (Val c.n α r.key))) => l.map Sigma.fst = reqs t ∧ ∀ p ∈ l, (∀ x, p.2 = .ok x → Result c True False p.1.mask p.1.key x) ∧
      ∀ e, p.2 = .error e → Allowed c True p.1.key e) sched
    (inv_theDict (after_inv hv True h fun r hr => ⟨(hh r hr).1, fun e => absurd e (hh r hr).2⟩) (by simp)) fun t => ⟨fun _ => False, by simp, by
      refine wp_inTurn (g := goodO (good c True False) fun _ _ => True) (E := fun r e => Allowed c True r.key e)
        (Q := fun r x => Result c True False r.mask r.key x)
        (prog := fun r : Req ι c.n => (ofM (getProp c r.al r.mask r.key) : Code c _)) (reqs t) fun r hr' => ?_
      exact wp_ofM_false ((sat_getProp (c := c) (S := fun _ => False) (strict := True) (ex := False) hv r.al r.mask r.key
        (fun e => absurd e (hr t r hr').2)
        (fun a b d => noSelf_iff_selfEdge.2 ((hr t r hr').1 a b d)) (by simp)).conseq (fun _ h => h) (fun _ h => h)
        (fun _ h => h) (by simp))⟩
  obtain ⟨g1, g2⟩ := h1 t l hl
  rintro ⟨r, x⟩ hp v hv'
  obtain ⟨hr1, hr2⟩ := (g2 ⟨r, x⟩ hp).1 v hv'
  have hn : r.key ≠ .negDiag := by
    have : r ∈ reqs t := by rw [← g1]; exact List.mem_map_of_mem (f := Sigma.fst) hp
    exact (hr t r this).2
  by_cases e1 : r.key = .hasSelf
  · have g := hr2 (Or.inl e1)
    obtain ⟨rk, rm, ra⟩ := r
    subst e1
    change v = value c .hasSelf
    rw [show value c .hasSelf = decide (∃ i, (c.A i i).isSome) from rfl]
    obtain ⟨g1, g2⟩ := g
    cases v
    · have : ¬ ∃ i, (c.A i i).isSome := noSelf_iff_selfEdge.1 (g1 rfl)
      exact (decide_eq_false this).symm
    · have := g2 trivial rfl
      rw [noSelf_iff_selfEdge, not_not] at this
      exact (decide_eq_true (show ∃ i, (c.A i i).isSome from this)).symm
  · exact hr1 e1 hn

/-- **C100**: a thread that is scheduled again and again finishes, whatever the others do (there is nothing to wait
for). -/
theorem concurrent_lookups_finish (h : List (Req ι c.n)) (reqs : τ → List (Req ι c.n)) (σ : ℕ → τ) (t : τ)
    (hσ : ∀ n, ∃ m, n ≤ m ∧ σ m = t) :
    ∃ n, (∃ l, (runSched (lookupThreads c h reqs) ((List.range n).map σ)).thread t = .ret l) ∨
      ∃ e, (runSched (lookupThreads c h reqs) ((List.range n).map σ)).thread t = .err e :=
  finishes (lookupThreads c h reqs) σ t hσ

end lookups

section calls
variable {ι F K : Type} [DecidableEq ι] [Field F] [LinearOrder F] [DecidableEq K]
  {e : NumEnv ι F} {G : Graph K F} {o : Free G.n F} {o' : NumFree F} {mx : ι} {f : Norm F} {w : Bool → Bool}
  {τ : Type} [DecidableEq τ]

/-- a call of a library function, or a property lookup -/
inductive Call (ι K F : Type) (n : Nat)
  | query (q : Query K F)
  | num (q : NumQuery K F)
  | lookup (r : Req ι n)
  | transitivity
  | average (nodes : Option (List K)) (weighted countZeros : Bool)

/-- the type of its result -/
@[reducible] def Call.Out (G : Graph K F) : Call ι K F G.n → Type
  | .query q => q.Out G
  | .num q => q.Out G
  | .lookup r => Val G.n F r.key
  | .transitivity | .average _ _ _ => ℚ

/-- `nx.average_clustering`: `G.list_to_mask(nodes)` and the rest -- nxapi/cluster.py:60-78 -/
def averageCode (e : NumEnv ι F) (G : Graph K F) (mx : ι) (f : Norm F) (nodes : Option (List K))
    (weighted countZeros : Bool) : Code (e.toEnv.of G) ℚ :=
  if G.n = 0 then .err .zeroDivision
  else match listToMask G nodes with
    | .error er => .err er
    | .ok mask => averageT (e.toEnv.of G) mx f mask weighted countZeros

/-- the call, run on the graph object -/
def Call.prog (e : NumEnv ι F) (G : Graph K F) (o : Free G.n F) (o' : NumFree F) (mx : ι) (f : Norm F) :
    (k : Call ι K F G.n) → Code (e.toEnv.of G) (k.Out G)
  | .query q => ofM (q.prog e.toEnv G o).run
  | .num q => ofM (q.prog e G o').run
  | .lookup r => ofM (getProp (e.toEnv.of G) r.al r.mask r.key)
  | .transitivity => transitivityT (e.toEnv.of G)
  | .average nodes wt cz => averageCode e G mx f nodes wt cz

/-- what the weighted `nx.average_clustering` returns on a graph object that nobody has used before (what that is: C79) -/
def weightedAverageAlone (e : NumEnv ι F) (G : Graph K F) (mx : ι) (f : Norm F) (nodes : Option (List K))
    (countZeros : Bool) : Except Err ℚ :=
  if G.n = 0 then .error .zeroDivision
  else do
    let mask ← listToMask G nodes
    (callAverage (e.toEnv.of G) mx f mask true countZeros (Obj.fresh (e.toEnv.of G))).1

/-- what the call is defined to return -/
def Call.result (e : NumEnv ι F) (G : Graph K F) (o : Free G.n F) (o' : NumFree F) (mx : ι) (f : Norm F) :
    (k : Call ι K F G.n) → Except Err (k.Out G)
  | .query q => q.result G e.iso o
  | .num q => q.result G e.iso o'
  | .lookup r => .ok (restrict r.mask r.key (value (e.toEnv.of G) r.key))
  | .transitivity => .ok (if G.directed then Model.transitivityDirected G else Model.transitivity G)
  | .average nodes false cz => averageClustering G nodes cz
  | .average nodes true cz => weightedAverageAlone e G mx f nodes cz

/-- the exceptions that a call may raise instead: `AttributeError` and `KeyError` of property lookups (C01/C02), and
`KeyError` of `pagerank` and `katz_centrality` if the matrix is not stored as iso-valued (C06) -/
def Call.MayFail (e : NumEnv ι F) (G : Graph K F) : Call ι K F G.n → Err → Prop
  | .query _, _ => False
  | .num q, er => er = .keyError ∧ q.LooksUpIsoValue ∧ e.iso = none
  | .lookup r, er => MayRaise (e.toEnv.of G) r.key er
  | .transitivity, _ | .average _ _ _, _ => False

/-- excluded, as in C06 (the memo of `average_clustering` ignores the weight; `w` says for each value of `count_zeros`
whether the averages over all nodes are the weighted ones) -/
def Call.Tame (e : NumEnv ι F) (G : Graph K F) (w : Bool → Bool) : Call ι K F G.n → Prop
  | .query q => q.Tame G
  | .num q => q.Tame G
  | .lookup r => Event.Tame (K := K) e.toEnv G (.lookup r)
  | .transitivity => True
  | .average nodes wt cz => (nodes = none → wt = w cz) ∧ (wt = true → ¬ HasLoop G)

/-- what the call does to the dictionary of the graph object; a call marked `some n` is cut off after `n` accesses -/
def Call.effect (e : NumEnv ι F) (G : Graph K F) (o : Free G.n F) (o' : NumFree F) (mx : ι) (f : Norm F)
    (d : Dict (OKey ι) (OVal G.n F)) (k : Call ι K F G.n) : Option Nat → Dict (OKey ι) (OVal G.n F)
  | none => ((k.prog e G o o' mx f).run d).2
  | some n => cutOff n (k.prog e G o o' mx f) d

/-- the dictionary of the graph object after the calls `h`, one after the other -/
def dictAfter (e : NumEnv ι F) (G : Graph K F) (o : Free G.n F) (o' : NumFree F) (mx : ι) (f : Norm F)
    (h : List (Call ι K F G.n × Option Nat)) : Dict (OKey ι) (OVal G.n F) :=
  h.foldl (fun d k => k.1.effect e G o o' mx f d k.2) (theDict (Obj.fresh (e.toEnv.of G)))

/-- threads that call library functions on the same graph object, which has the dictionary left by `h` -/
def callThreads (e : NumEnv ι F) (G : Graph K F) (o : Free G.n F) (o' : NumFree F) (mx : ι) (f : Norm F)
    (h : List (Call ι K F G.n × Option Nat)) (calls : τ → List (Call ι K F G.n)) :
    Sys (OVal G.n F (ι := ι)) fun _ : τ => List (Σ k : Call ι K F G.n, Except Err (k.Out G)) where
  dict := dictAfter e G o o' mx f h
  thread := fun t => inTurn (Call.prog e G o o' mx f) (calls t)

open Proofs.Memo

/-- what may be memoised -/
def goodMemo (c : Ctx ι F) (mx : ι) (f : Norm F) (w : Bool → Bool) : MemoKey → ℚ → Prop
  | .transitivity, v => v = transVal c
  | .average cz, v => averageOf (clustVal c mx f (w cz) none) cz none = .ok v

/-- what may be in the dictionary -/
abbrev goodD (e : NumEnv ι F) (G : Graph K F) (mx : ι) (f : Norm F) (w : Bool → Bool) :=
  goodO (good (e.toEnv.of G) True True) (goodMemo (e.toEnv.of G) mx f w)

theorem transitivity_def (e : NumEnv ι F) (G : Graph K F) :
    (if G.n = 0 then 0 else transVal (e.toEnv.of G)) =
      (if G.directed then Model.transitivityDirected G else Model.transitivity G) := by
  unfold transVal
  change (if G.n = 0 then (0 : ℚ) else if G.directed = true then _ else _) = _
  cases G.directed
  · simp only [Bool.false_eq_true, if_false]
    rfl
  · simp only [if_true]
    rfl

theorem average_def (e : NumEnv ι F) (G : Graph K F) (mx : ι) (f : Norm F) (nodes : Option (List K))
    {mask : NodeMask G.n} (hm : listToMask G nodes = .ok mask) (h0 : G.n ≠ 0) (cz : Bool) :
    averageOf (clustVal (e.toEnv.of G) mx f false mask) cz mask = averageClustering G nodes cz := by
  unfold averageClustering
  rw [if_neg h0, hm]
  exact congrArg (fun v => averageOf v cz mask) (clustVal_unweighted (e.toEnv.of G) mx f mask)

theorem weightedAverage_def (hv : (e.toEnv.of G).Valid) (hl : ¬ HasLoop G) (mx : ι) (f : Norm F)
    (nodes : Option (List K)) {mask : NodeMask G.n} (hm : listToMask G nodes = .ok mask) (h0 : G.n ≠ 0) (cz : Bool) :
    averageOf (clustVal (e.toEnv.of G) mx f true mask) cz mask = weightedAverageAlone e G mx f nodes cz := by
  unfold weightedAverageAlone
  rw [if_neg h0, hm]
  have ho : ObjInv (e.toEnv.of G) True True mx f (fun _ => true) (Obj.fresh (e.toEnv.of G)) :=
    ⟨fun k v h => by simp [Obj.fresh] at h, by simp [Obj.fresh], by simp [Obj.fresh]⟩
  rcases (callAverage_inv hv ho mask true cz fun _ => rfl).2 with h | ⟨-, h, -⟩
  · rw [if_neg (show ¬ (e.toEnv.of G).n = 0 from h0)] at h
    exact h.symm
  · exact absurd (h trivial) hl

open Proofs.Prog in
theorem wp_call (hv : (e.toEnv.of G).Valid) (k : Call ι K F G.n) (hk : k.Tame e G w) :
    Wp (goodD e G mx f w) (fun er => k.result e G o o' mx f = .error er ∨ k.MayFail e G er)
      (fun x => k.result e G o o' mx f = .ok x) (k.prog e G o o' mx f) (fun _ => False) := by
  cases k with
  | query q =>
    have := sat_run hv (q.prog e.toEnv G o) False (query_polite e.toEnv G o q hk) (fun _ => False) (by simp)
    rw [query_eval] at this
    exact wp_ofM_false (this.conseq (fun _ h => h) (fun _ h => h) (fun _ h => h) (by simp))
  | num q =>
    have := sat_run hv (q.prog e G o') False (numQuery_polite e G o' q hk) (fun _ => False) (by simp)
    rw [numQuery_eval] at this
    exact wp_ofM_false (this.conseq (fun _ h => h) (fun _ h => h) (fun _ h => h) (by simp))
  | lookup r =>
    obtain ⟨h1, h2, h3⟩ := hk
    refine wp_ofM_false ((sat_getProp (S := fun _ => False) (strict := True) (ex := True) hv r.al r.mask r.key
      (fun h => absurd h h2) (fun a b d => noSelf_iff_selfEdge.2 (h1 a b d))
      (fun _ a => (h3 a).imp_right noSelf_iff_selfEdge.2)).conseq (fun _ h => h) ?_ ?_ (by simp))
    · rintro er (⟨h3, _, h4⟩ | h3)
      · exact Or.inr (Or.inl ⟨h3, h4⟩)
      · exact Or.inr (Or.inr h3)
    · intro v ⟨hr1, hr2⟩
      refine congrArg Except.ok (Eq.symm ?_)
      by_cases e1 : r.key = .hasSelf
      · have g := hr2 (Or.inl e1)
        obtain ⟨rk, rm, ra⟩ := r
        subst e1
        change v = value (e.toEnv.of G) .hasSelf
        rw [show value (e.toEnv.of G) .hasSelf = decide (∃ i, ((e.toEnv.of G).A i i).isSome) from rfl]
        obtain ⟨g1, g2⟩ := g
        cases v
        · have : ¬ ∃ i, ((e.toEnv.of G).A i i).isSome := noSelf_iff_selfEdge.1 (g1 rfl)
          exact (decide_eq_false this).symm
        · have := g2 trivial rfl
          rw [noSelf_iff_selfEdge, not_not] at this
          exact (decide_eq_true (show ∃ i, ((e.toEnv.of G).A i i).isSome from this)).symm
      · exact hr1 e1 h2
  | transitivity =>
    change Wp _ _ (fun x => Except.ok (if G.directed then Model.transitivityDirected G else Model.transitivity G) = .ok x)
      (transitivityT (e.toEnv.of G)) _
    rw [← transitivity_def e G]
    unfold transitivityT
    by_cases h0 : G.n = 0
    · rw [if_pos (show (e.toEnv.of G).n = 0 from h0), if_pos h0]
      exact rfl
    · rw [if_neg (show ¬ (e.toEnv.of G).n = 0 from h0), if_neg h0]
      refine (wp_cacheitT (gm := goodMemo (e.toEnv.of G) mx f w) (key := .transitivity)
        (sat_transitivity (strict := True) (ex := True) (S := fun _ => False) hv)).mono (fun _ h => h)
        (fun _ h => h.elim) (fun x hx => ?_)
      rw [show x = _ from hx]
  | average nodes wt cz =>
    obtain ⟨h1, h2⟩ := hk
    change Wp _ _ _ (averageCode e G mx f nodes wt cz) _
    unfold averageCode
    by_cases h0 : G.n = 0
    · rw [if_pos h0]
      refine Or.inl ?_
      cases wt
      · change averageClustering G nodes cz = _
        unfold averageClustering; rw [if_pos h0]
      · change weightedAverageAlone e G mx f nodes cz = _
        unfold weightedAverageAlone; rw [if_pos h0]
    · rw [if_neg h0]
      cases hm : listToMask G nodes with
      | error er =>
        refine Or.inl ?_
        cases wt
        · change averageClustering G nodes cz = _
          unfold averageClustering; rw [if_neg h0, hm]; rfl
        · change weightedAverageAlone e G mx f nodes cz = _
          unfold weightedAverageAlone; rw [if_neg h0, hm]; rfl
      | ok mask =>
        have hr : averageOf (clustVal (e.toEnv.of G) mx f wt mask) cz mask =
            (Call.average nodes wt cz : Call ι K F G.n).result e G o o' mx f := by
          cases wt
          · exact average_def e G mx f nodes hm h0 cz
          · exact weightedAverage_def hv (h2 rfl) mx f nodes hm h0 cz
        have hE : ∀ er, AvgErr (e.toEnv.of G) True mx f wt cz mask er →
            (Call.average nodes wt cz : Call ι K F G.n).result e G o o' mx f = .error er ∨
              (Call.average nodes wt cz : Call ι K F G.n).MayFail e G er := by
          rintro er (⟨h3, h4, -⟩ | h3)
          · exact absurd ((noSelf_iff_selfEdge (c := e.toEnv.of G)).2 (h2 h3)) (h4 trivial)
          · exact Or.inl (hr ▸ h3)
        have hs := sat_average (strict := True) (ex := True) (S := fun _ => False) hv mx f wt cz mask
        rw [← hr] at *
        dsimp only
        unfold averageT
        rw [if_neg (show ¬ (e.toEnv.of G).n = 0 from h0)]
        cases mask with
        | none =>
          have hw : wt = w cz := h1 (by
            cases nodes with
            | none => rfl
            | some l =>
              unfold listToMask at hm
              change (do let ids ← listToIds G l; pure (some (vofIds ids true))) = Except.ok none at hm
              cases h : listToIds G l <;> rw [h] at hm <;> cases hm)
          subst hw
          exact (wp_cacheitT (gm := goodMemo (e.toEnv.of G) mx f w) (key := .average cz) hs).mono (fun _ h => h)
            hE (fun x hx => hx)
        | some p => exact wp_ofM_false (hs.conseq (fun _ h => h) hE (fun _ h => h) (by simp))

theorem inv_dictAfter (hv : (e.toEnv.of G).Valid) (h : List (Call ι K F G.n × Option Nat))
    (hh : ∀ k ∈ h, k.1.Tame e G w) : Proofs.Threads.Inv (goodD e G mx f w) (dictAfter e G o o' mx f h) := by
  unfold dictAfter
  have : ∀ d, Proofs.Threads.Inv (goodD e G mx f w) d → Proofs.Threads.Inv (goodD e G mx f w) (h.foldl (fun d k => k.1.effect e G o o' mx f d k.2) d) := by
    induction h with
    | nil => exact fun _ h => h
    | cons k h ih =>
      intro d hd
      refine ih (fun k' hk' => hh k' (List.mem_cons_of_mem _ hk')) _ ?_
      have hw := wp_call (o := o) (o' := o') (mx := mx) (f := f) hv k.1 (hh k (List.mem_cons_self ..))
      obtain ⟨k, n⟩ := k
      cases n with
      | none => exact (run_spec hd ⟨_, by simp, hw⟩).1
      | some n => exact cutOff_inv n hd ⟨_, by simp, hw⟩
  exact this _ (inv_theDict (fun k v h => by simp at h) (by simp))

/-- **C101**: calls of library functions on a graph object, one after the other, each complete or cut off after any
number of accesses to the object's cache (`KeyboardInterrupt`, `MemoryError`): a complete call afterwards returns what
it is defined to return -- the same as on a fresh object -- or raises one of the exceptions of `Call.MayFail`.
Partial: the calls that C06 excludes are excluded here too. -/
theorem call_after_interrupts_partial (hv : (e.toEnv.of G).Valid) (h : List (Call ι K F G.n × Option Nat))
    (hh : ∀ k ∈ h, k.1.Tame e G w) (k : Call ι K F G.n) (hk : k.Tame e G w) :
    ((k.prog e G o o' mx f).run (dictAfter e G o o' mx f h)).1 = k.result e G o o' mx f ∨
    ∃ er, ((k.prog e G o o' mx f).run (dictAfter e G o o' mx f h)).1 = .error er ∧ k.MayFail e G er := by
  obtain ⟨-, h1, h2⟩ := run_spec (inv_dictAfter (o := o) (o' := o') (mx := mx) (f := f) hv h hh)
    ⟨_, by simp, wp_call (o := o) (o' := o') (mx := mx) (f := f) hv k hk⟩
  cases hx : ((k.prog e G o o' mx f).run (dictAfter e G o o' mx f h)).1 with
  | ok x => exact Or.inl (h1 x hx).symm
  | error er =>
    rcases h2 er hx with h3 | h3
    · exact Or.inl h3.symm
    · exact Or.inr ⟨er, rfl, h3⟩

/-- the calls of a graph without self-loops that are not excluded: no lookups of `has_negative_diagonal`, and the
averages over all nodes with the same `count_zeros` agree on whether they use weights -/
def Call.Plain (w : Bool → Bool) {n : Nat} : Call ι K F n → Prop
  | .lookup r => r.key ≠ .negDiag
  | .average none wt cz => wt = w cz
  | _ => True

theorem Call.Plain.tame (hl : ¬ HasLoop G) {k : Call ι K F G.n} (hk : k.Plain w) : k.Tame e G w := by
  match k, hk with
  | .query q, _ => exact fun _ _ => hl
  | .num q, _ => exact fun _ _ => hl
  | .lookup r, hk => exact ⟨fun _ _ _ => hl, hk, fun _ => Or.inr hl⟩
  | .transitivity, _ => trivial
  | .average none wt cz, hk => exact ⟨fun _ => hk, fun _ => hl⟩
  | .average (some l) wt cz, _ => exact ⟨fun h => by simp at h, fun _ => hl⟩

/-- **C101** on a graph without self-loops. -/
theorem call_after_interrupts_loop_free_partial (hv : (e.toEnv.of G).Valid) (hl : ¬ HasLoop G)
    (h : List (Call ι K F G.n × Option Nat)) (hh : ∀ k ∈ h, k.1.Plain w) (k : Call ι K F G.n) (hk : k.Plain w) :
    ((k.prog e G o o' mx f).run (dictAfter e G o o' mx f h)).1 = k.result e G o o' mx f ∨
    ∃ er, ((k.prog e G o o' mx f).run (dictAfter e G o o' mx f h)).1 = .error er ∧ k.MayFail e G er :=
  call_after_interrupts_partial hv h (fun k hk => (hh k hk).tame hl) k (hk.tame hl)

/-- **C100**: any number of threads call library functions on the same graph object (55 functions, and property
lookups), with any arguments and any schedule of their accesses to the object's cache, after any history of complete
and cut off calls.  A thread that has finished got for each of its calls, in order, what the call is defined to
return -- the same as on a fresh object that nobody else uses -- or raised one of the exceptions of `Call.MayFail`.
(A thread that is stopped for good is one the schedule does not name any more.)
Partial: the calls that C06 excludes are excluded here too. -/
theorem concurrent_calls_partial (hv : (e.toEnv.of G).Valid) (h : List (Call ι K F G.n × Option Nat))
    (hh : ∀ k ∈ h, k.1.Tame e G w)
    (calls : τ → List (Call ι K F G.n)) (hc : ∀ t, ∀ k ∈ calls t, k.Tame e G w) (sched : List τ) (t : τ) :
    (∀ l, (runSched (callThreads e G o o' mx f h calls) sched).thread t = .ret l →
      l.map Sigma.fst = calls t ∧
      ∀ p ∈ l, p.2 = p.1.result e G o o' mx f ∨ ∃ er, p.2 = .error er ∧ p.1.MayFail e G er) ∧
    ∀ er, (runSched (callThreads e G o o' mx f h calls) sched).thread t ≠ .err er := by
  obtain ⟨-, h1, h2⟩ := runSched_spec (g := goodD e G mx f w) (y := callThreads e G o o' mx f h calls)
    (E := fun _ _ => False)
    (Q := fun (t : τ) (l : List (Σ k : Call ι K F G.n, Except Err (k.Out G))) => l.map Sigma.fst = calls t ∧ ∀ p ∈ l, (∀ x, p.2 = .ok x → p.1.result e G o o' mx f = .ok x) ∧
      ∀ er, p.2 = .error er → p.1.result e G o o' mx f = .error er ∨ p.1.MayFail e G er) sched
    (inv_dictAfter hv h hh) fun t => ⟨fun _ => False, by simp,
      wp_inTurn (calls t) fun k hk => wp_call hv k (hc t k hk)⟩
  refine ⟨fun l hl => ?_, fun er he => h2 t er he⟩
  obtain ⟨g1, g2⟩ := h1 t l hl
  refine ⟨g1, fun p hp => ?_⟩
  obtain ⟨g3, g4⟩ := g2 p hp
  cases hp2 : p.2 with
  | ok x => exact Or.inl (g3 x hp2).symm
  | error er =>
    rcases g4 er hp2 with h5 | h5
    · exact Or.inl h5.symm
    · exact Or.inr ⟨er, rfl, h5⟩

/-- **C100**: and each thread that is scheduled again and again finishes. -/
theorem concurrent_calls_finish (h : List (Call ι K F G.n × Option Nat)) (calls : τ → List (Call ι K F G.n))
    (σ : ℕ → τ) (t : τ) (hσ : ∀ n, ∃ m, n ≤ m ∧ σ m = t) :
    ∃ n, (∃ l, (runSched (callThreads e G o o' mx f h calls) ((List.range n).map σ)).thread t = .ret l) ∨
      ∃ er, (runSched (callThreads e G o o' mx f h calls) ((List.range n).map σ)).thread t = .err er :=
  finishes (callThreads e G o o' mx f h calls) σ t hσ

/-- **C100** on a graph without self-loops. -/
theorem concurrent_calls_loop_free_partial (hv : (e.toEnv.of G).Valid) (hl : ¬ HasLoop G)
    (h : List (Call ι K F G.n × Option Nat)) (hh : ∀ k ∈ h, k.1.Plain w) (calls : τ → List (Call ι K F G.n))
    (hc : ∀ t, ∀ k ∈ calls t, k.Plain w) (sched : List τ) (t : τ) {l}
    (hl' : (runSched (callThreads e G o o' mx f h calls) sched).thread t = .ret l) :
    l.map Sigma.fst = calls t ∧
    ∀ p ∈ l, p.2 = p.1.result e G o o' mx f ∨ ∃ er, p.2 = .error er ∧ p.1.MayFail e G er :=
  (concurrent_calls_partial hv h (fun k hk => (hh k hk).tame hl) calls (fun t k hk => (hc t k hk).tame hl) sched t).1
    l hl'

/-- the events of C06 as calls -/
def NumEvent.IsCall (G : Graph K F) : NumEvent ι K F G.n → Call ι K F G.n → Prop
  | .num q, k => k = .num q
  | .old (.query q), k => k = .query q
  | .old (.lookup r), k => k = .lookup r
  | .old .transitivity, k => k = .transitivity
  | .old (.average mask wt cz), k => ∃ nodes, listToMask G nodes = .ok mask ∧ k = .average nodes wt cz

/-- **C100, C101**: complete calls, one after the other, have the effect that C06 speaks about. -/
theorem complete_calls_sequential (x : Obj (e.toEnv.of G)) (u : NumEvent ι K F G.n) (k : Call ι K F G.n)
    (hu : u.IsCall G k) :
    ((k.prog e G o o' mx f).run (theDict x)).2 = theDict (u.step e G o o' mx f x) := by
  match u, hu with
  | .num q, hu => cases hu; exact congrArg Prod.snd (run_ofM (q.prog e G o').run x)
  | .old (.query q), hu => cases hu; exact congrArg Prod.snd (run_ofM (q.prog e.toEnv G o).run x)
  | .old (.lookup r), hu =>
    cases hu; exact congrArg Prod.snd (run_ofM (getProp (e.toEnv.of G) r.al r.mask r.key) x)
  | .old .transitivity, hu => cases hu; exact congrArg Prod.snd (run_transitivityT x)
  | .old (.average mask wt cz), hu =>
    obtain ⟨nodes, hm, rfl⟩ := hu
    change ((averageCode e G mx f nodes wt cz).run (theDict x)).2 = theDict (callAverage (e.toEnv.of G) mx f mask wt cz x).2
    unfold averageCode
    by_cases h0 : G.n = 0
    · rw [if_pos h0]
      unfold callAverage
      rw [if_pos (show (e.toEnv.of G).n = 0 from h0)]
      rfl
    · rw [if_neg h0, hm]
      exact congrArg Prod.snd (run_averageT mx f mask wt cz x)

end calls

/-! ## examples -/

section examples
open _root_.Ex

/-- thread `false` looks `has_self_edges` up and then `degrees+`, thread `true` `degrees-` and then `degrees+` -/
def twoReqs : Bool → List (Req Op 3)
  | false => [⟨.hasSelf, none, true⟩, ⟨.vec .count .p .row, none, true⟩]
  | true => [⟨.vec .count .m .row, none, true⟩, ⟨.vec .count .p .row, none, false⟩]

example : ∀ t, ∀ r ∈ twoReqs t, Safe cu r := fun t r hr => by
  intro h; simp [cu] at h

/-- strictly alternating -/
def alternate (n : Nat) : List Bool := (List.range n).map fun i => i % 2 == 0

/-- the degrees of the three nodes as digits -/
def sums : Code cu (List (Σ r : Req Op 3, Except Err (Val 3 Int r.key))) → Option (List (Option Nat))
  | .ret l => some (l.map fun
    | ⟨⟨.vec .count _ _, _, _⟩, .ok v⟩ => some ((v 0).getD 0 + 10 * (v 1).getD 0 + 100 * (v 2).getD 0)
    | ⟨⟨.hasSelf, _, _⟩, .ok true⟩ => some 1
    | _ => none)
  | _ => none

example : sums ((runSched (lookupThreads cu [] twoReqs) (alternate 100)).thread false) = some [some 1, some 12] ∧
    sums ((runSched (lookupThreads cu [] twoReqs) (alternate 100)).thread true) = some [some 11, some 12] := by
  decide +kernel

/-- thread `false` calls `pagerank`, thread `true` calls `bellman_ford_path_length(G, 0, 1)` -/
def raceCalls : Bool → List (Call QOp Nat ℚ 2)
  | false => [.num (.pagerank (1/2) none 100 1 none none)]
  | true => [.query (.bellmanFordPathLength 0 1)]

/-- the rank of row 0 that thread `false` got -/
def rankSeen : Code (eQ.toEnv.of twoQ) (List (Σ k : Call QOp Nat ℚ 2, Except Err (k.Out twoQ))) →
    Option (Except Err (Option ℚ))
  | .ret [⟨.num (.pagerank _ _ _ _ _ _), x⟩] => some (rankOf0 x)
  | _ => none

/-- the two threads, after a schedule -/
def race (sched : List Bool) : Option (Except Err (Option ℚ)) :=
  rankSeen ((runSched (callThreads eQ twoQ ⟨fun a _ => a, fun a _ => a, fun a b => ⌊a / b⌋⟩ ⟨true, fun a => a⟩ .max
    (fun _ a => a) [] raceCalls) sched).thread false)

/-- **C100**, the exception of `Call.MayFail` in a race: alone, `pagerank` succeeds; whether it raises KeyError when
another thread calls `bellman_ford_path_length` depends on the schedule. -/
theorem pagerank_races_with_bellman_ford :
    race (List.replicate 60 false) = some (.ok (some (1/2))) ∧
    race (List.replicate 8 false ++ List.replicate 60 true ++ List.replicate 60 false) = some (.error .keyError) ∧
    race (List.replicate 9 false ++ List.replicate 60 true ++ List.replicate 60 false) = some (.ok (some (1/2))) := by
  decide +kernel

-- the hypotheses of `concurrent_calls_loop_free_partial` hold of this system
example : (eQ.toEnv.of twoQ).Valid ∧ ¬ HasLoop twoQ ∧ ∀ t r, Call.lookup r ∈ raceCalls t → r.key ≠ .negDiag :=
  ⟨twoQ_env_valid, by unfold HasLoop; decide, fun t r h => by cases t <;> simp [raceCalls] at h⟩

/-- a history: `transitivity` interrupted after 5 accesses, a complete `average_clustering`, and `has_self_edges`
interrupted after 1 -/
def interrupted : List (Call QOp Nat ℚ 2 × Option Nat) :=
  [(.transitivity, some 5), (.average none false true, none), (.lookup ⟨.hasSelf, none, true⟩, some 1)]

/-- the dictionary it leaves -/
def leftBehind (h : List (Call QOp Nat ℚ 2 × Option Nat)) : Dict (OKey QOp) (OVal 2 ℚ) :=
  dictAfter eQ twoQ ⟨fun a _ => a, fun a _ => a, fun a b => ⌊a / b⌋⟩ ⟨true, fun a => a⟩ .max (fun _ a => a) h

-- `transitivity` was cut off in the middle: it has stored properties, but not yet its result
example : (leftBehind interrupted (.inr .transitivity)).isSome = false ∧
    (leftBehind [(.transitivity, some 5)] (.inl .AT)).isSome = true ∧
    (leftBehind [(.transitivity, none)] (.inr .transitivity)).isSome = true ∧
    (leftBehind interrupted (.inr (.average true))).isSome = true := by
  decide +kernel

-- the hypotheses of `call_after_interrupts_loop_free_partial` hold
example : (eQ.toEnv.of twoQ).Valid ∧ ¬ HasLoop twoQ ∧
    (∀ k ∈ interrupted, k.1.Plain fun _ => false) ∧ (Call.transitivity : Call QOp Nat ℚ 2).Plain fun _ => false :=
  ⟨twoQ_env_valid, by unfold HasLoop; decide, fun k h => by
    simp only [interrupted, List.mem_cons, List.not_mem_nil, or_false] at h
    rcases h with rfl | rfl | rfl
    · trivial
    · rfl
    · exact fun h => (by cases h), trivial⟩

end examples

end Props
