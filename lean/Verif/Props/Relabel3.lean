import Verif.Props.Relabel2
import Verif.Props.PageRank
import Verif.Props.Centrality

/-!
# C83 Results do not depend on node names or on the internal numbering: centralities
-/

open GB Spec Model Model.Graph Proofs Proofs.Power

namespace Props

variable {K K' F : Type} [Field F] [LinearOrder F] [DecidableEq K] [DecidableEq K'] {f : K → K'}
  {G : Graph K F} {H : Graph K' F}

/-- a dict argument with its keys renamed -/
def renameDict (f : K → K') (d : List (K × F)) : List (K' × F) := d.map fun p => (f p.1, p.2)

/-- both results are present and agree -/
def SameOpt {β : Type} (f : K → K') (G : Graph K F) (H : Graph K' F) (R : Option (Vec G.n β))
    (R' : Option (Vec H.n β)) : Prop := ∃ r r', R = some r ∧ R' = some r' ∧ SameMap f G H r r'

/-- two functions on the nodes correspond -/
def Corr (f : K → K') (G : Graph K F) (x : K → F) (y : K' → F) : Prop := ∀ u, G.Node u → y (f u) = x u

omit [LinearOrder F] in
theorem valueIn_rename (hf : Function.Injective f) (d : List (K × F)) (u : K) :
    valueIn (renameDict f d) (f u) = valueIn d u := by
  unfold valueIn renameDict
  congr 1
  induction d with
  | nil => rfl
  | cons p d ih =>
    rw [List.map_cons, List.lookup_cons, List.lookup_cons, ih]
    by_cases e : u = p.1
    · have e2 : (u == p.1) = true := by simpa using e
      have e3 : (f u == f p.1) = true := by simpa using congrArg f e
      rw [e3, e2]
    · have e2 : (u == p.1) = false := by simpa using e
      have e3 : (f u == f p.1) = false := by simpa using fun h => e (hf h)
      rw [e3, e2]

omit [LinearOrder F] [DecidableEq K] [DecidableEq K'] in
theorem corr_sum (h : Relabels f G H) (hG : G.WF) (hH : H.WF) {x : K → F} {y : K' → F} (hxy : Corr f G x y) :
    sumOver H.nodes y = sumOver G.nodes x := by
  rw [Relabel.sumOver_eq h hG hH]
  unfold sumOver
  congr 1
  exact List.map_congr_left fun u hu => hxy u hu

omit [DecidableEq K] [DecidableEq K'] in
theorem corr_l1 (h : Relabels f G H) (hG : G.WF) (hH : H.WF) {x x' : K → F} {y y' : K' → F}
    (hxy : Corr f G x y) (hxy' : Corr f G x' y') : l1 H.nodes y y' = l1 G.nodes x x' :=
  corr_sum h hG hH (x := fun v => |x v - x' v|) (y := fun v => |y v - y' v|) fun u hu => by
    simp only [hxy u hu, hxy' u hu]

omit [LinearOrder F] [DecidableEq K] [DecidableEq K'] in
theorem corr_iter {T : (K → F) → K → F} {T' : (K' → F) → K' → F}
    (hT : ∀ x y, Corr f G x y → Corr f G (T x) (T' y)) {x : K → F} {y : K' → F} (hxy : Corr f G x y) (k : Nat) :
    Corr f G (T^[k] x) (T'^[k] y) := by
  induction k with
  | zero => exact hxy
  | succ k ih => rw [Function.iterate_succ_apply', Function.iterate_succ_apply']; exact hT _ _ ih

omit [DecidableEq K] [DecidableEq K'] in
theorem corr_firstConverged (h : Relabels f G H) (hG : G.WF) (hH : H.WF) {T : (K → F) → K → F}
    {T' : (K' → F) → K' → F} (hT : ∀ x y, Corr f G x y → Corr f G (T x) (T' y)) {x : K → F} {y : K' → F}
    (hxy : Corr f G x y) (tol : F) (k : Nat) :
    FirstConverged H.nodes tol T' y k ↔ FirstConverged G.nodes tol T x k := by
  unfold FirstConverged
  rw [Relabel.length h hG hH]
  simp only [fun j => corr_l1 h hG hH (corr_iter hT hxy j) (corr_iter hT hxy (j + 1))]

omit [DecidableEq K] in
theorem firstConverged_unique {N : List K} {tol : F} {T : (K → F) → K → F} {x : K → F} {k k' : Nat}
    (h : FirstConverged N tol T x k) (h' : FirstConverged N tol T x k') : k = k' := by
  rcases lt_trichotomy k k' with hl | he | hl
  · exact absurd h.1 (h'.2 k hl)
  · exact he
  · exact absurd h'.1 (h.2 k' hl)

omit [LinearOrder F] in
theorem corr_outWeight (h : Relabels f G H) (hG : G.WF) (hH : H.WF) (u : K) :
    outWeight H.nodes H.weight? (f u) = outWeight G.nodes G.weight? u := by
  unfold outWeight
  rw [Relabel.sumOver_eq h hG hH]
  simp only [Relabel.weight h hG hH]

omit [LinearOrder F] in
theorem dangling_relabel (h : Relabels f G H) (hG : G.WF) (hH : H.WF) (u : K) :
    Dangling H.nodes H.weight? (f u) ↔ Dangling G.nodes G.weight? u := by
  unfold Dangling
  constructor
  · intro hh v hv
    rw [← Relabel.weight h hG hH]; exact hh _ ((Relabel.node' h).2 hv)
  · intro hh x hx
    obtain ⟨v, hv, rfl⟩ := (h.node x).1 hx
    rw [Relabel.weight h hG hH]; exact hh v hv

omit [LinearOrder F] in
theorem sum_rename (h : Relabels f G H) (hG : G.WF) (hH : H.WF) (l : List (K × F)) :
    sumOver H.nodes (valueIn (renameDict f l)) = sumOver G.nodes (valueIn l) :=
  corr_sum h hG hH fun u _ => valueIn_rename h.inj l u

omit [LinearOrder F] in
theorem validDict_rename (h : Relabels f G H) {l : List (K × F)} (hl : ValidDict G l) :
    ValidDict H (renameDict f l) := by
  obtain ⟨h1, h2, h3⟩ := hl
  refine ⟨by simpa [renameDict] using h1, ?_, ?_⟩
  · have : (renameDict f l).map Prod.fst = (l.map Prod.fst).map f := by
      unfold renameDict; rw [List.map_map, List.map_map]; rfl
    rw [this]; exact h2.map h.inj
  · intro k b hk
    obtain ⟨⟨u, b'⟩, hu, e⟩ := List.mem_map.1 hk
    cases e
    exact (Relabel.node' h).2 (h3 u b' hu)

omit [LinearOrder F] in
theorem corr_dist (h : Relabels f G H) (hG : G.WF) (hH : H.WF) (d : Option (List (K × F))) {x : K → F}
    {y : K' → F} (hxy : Corr f G x y) :
    Corr f G (distOf G.nodes d x) (distOf H.nodes (d.map (renameDict f)) y) := by
  intro u hu
  cases d with
  | none => exact hxy u hu
  | some l =>
    show valueIn (renameDict f l) (f u) / sumOver H.nodes (valueIn (renameDict f l)) = _
    rw [valueIn_rename h.inj, sum_rename h hG hH]; rfl

omit [LinearOrder F] [DecidableEq K] [DecidableEq K'] in
theorem corr_uniform (h : Relabels f G H) (hG : G.WF) (hH : H.WF) :
    Corr f G (uniform G.nodes) (uniform H.nodes) := by
  intro u _
  unfold uniform
  rw [Relabel.length h hG hH]

omit [LinearOrder F] in
theorem corr_prMap (h : Relabels f G H) (hG : G.WF) (hH : H.WF) (alpha : F) {p d : K → F} {p' d' : K' → F}
    (hp : Corr f G p p') (hd : Corr f G d d') (x : K → F) (y : K' → F) (hxy : Corr f G x y) :
    Corr f G (prMap G.nodes G.weight? alpha p d x) (prMap H.nodes H.weight? alpha p' d' y) := by
  intro u hu
  unfold prMap
  rw [hp u hu]
  congr 2
  refine corr_sum h hG hH fun v hv => ?_
  simp only [hxy v hv, hd u hu, Relabel.weight h hG hH, corr_outWeight h hG hH, dangling_relabel h hG hH]

/-- the hypotheses of `pagerank_correct` carry over -/
theorem prArgs_relabel (h : Relabels f G H) (hG : G.WF) (hH : H.WF) {iso : Option F}
    {pers nstart dangling : Option (List (K × F))} (ha : PRArgs G iso pers nstart dangling) :
    PRArgs H iso (pers.map (renameDict f)) (nstart.map (renameDict f)) (dangling.map (renameDict f)) where
  iso := by
    intro c hc x y a e
    obtain ⟨u, v, rfl, rfl, e'⟩ := Relabel.wedge_exists h e
    exact ha.iso c hc u v a e'
  rows := by
    intro x hx hd
    obtain ⟨u, hu, rfl⟩ := (h.node x).1 hx
    rw [corr_outWeight h hG hH]
    exact ha.rows u hu (by rwa [dangling_relabel h hG hH] at hd)
  pers := by
    intro l hl
    obtain ⟨l0, rfl, rfl⟩ := Option.map_eq_some_iff.1 hl
    rw [sum_rename h hG hH]
    exact ⟨validDict_rename h (ha.pers l0 rfl).1, (ha.pers l0 rfl).2⟩
  nstart := by
    intro l hl
    obtain ⟨l0, rfl, rfl⟩ := Option.map_eq_some_iff.1 hl
    rw [sum_rename h hG hH]
    exact ⟨validDict_rename h (ha.nstart l0 rfl).1, (ha.nstart l0 rfl).2⟩
  dangling := by
    rintro ⟨x, hx, hd⟩ l hl
    obtain ⟨u, hu, rfl⟩ := (h.node x).1 hx
    obtain ⟨l0, rfl, rfl⟩ := Option.map_eq_some_iff.1 hl
    rw [sum_rename h hG hH]
    have := ha.dangling ⟨u, hu, by rwa [dangling_relabel h hG hH] at hd⟩ l0 rfl
    exact ⟨validDict_rename h this.1, this.2⟩

theorem sameMap_of_nodes {K K' α β : Type} [DecidableEq K] [DecidableEq K'] {f : K → K'} {G : Graph K α}
    {H : Graph K' α} (h : Relabels f G H) (hG : G.WF) (hH : H.WF) {r : Vec G.n β}
    {s : Vec H.n β} (hn : ∀ u, G.Node u → H.view s (f u) = G.view r u) : SameMap f G H r s := by
  intro u
  by_cases hu : G.Node u
  · exact hn u hu
  · rw [Proofs.view_none_of_not_node hG hu,
      Proofs.view_none_of_not_node hH (fun h' => hu ((Relabel.node' h).1 h'))]

variable [IsStrictOrderedRing F]

/-- **C83.** `pagerank`: same values, or ConvergenceFailure for both -/
theorem relabel_pagerank (h : Relabels f G H) (hG : G.WF) (hH : H.WF) (hE : ∃ u v, G.Edge u v) {iso : Option F}
    {pers nstart dangling : Option (List (K × F))} (ha : PRArgs G iso pers nstart dangling)
    (alpha : F) (maxIter : Int) (tol : F) :
    Agree (SameOpt f G H) (pagerank G iso alpha pers maxIter tol nstart dangling)
      (pagerank H iso alpha (pers.map (renameDict f)) maxIter tol (nstart.map (renameDict f))
        (dangling.map (renameDict f))) := by
  have hE' : ∃ x y, H.Edge x y := by
    obtain ⟨u, v, e⟩ := hE; exact ⟨f u, f v, (Relabel.edge h u v).2 e⟩
  have hc := pagerank_correct hG hE ha alpha maxIter tol
  have hc' := pagerank_correct hH hE' (prArgs_relabel h hG hH ha) alpha maxIter tol
  have hp := corr_dist h hG hH pers (corr_uniform h hG hH)
  have hT := corr_prMap h hG hH alpha hp (corr_dist h hG hH dangling hp)
  have hx := corr_dist h hG hH nstart (corr_uniform h hG hH)
  have hit := corr_iter hT hx
  have hl : ∀ j, _ := fun j => corr_l1 h hG hH (hit j) (hit (j + 1))
  cases e : pagerank G iso alpha pers maxIter tol nstart dangling with
  | error er =>
    obtain ⟨rfl, hno⟩ := (hc.2 er).1 e
    refine Agree.errors rfl ((hc'.2 _).2 ⟨rfl, fun j hj => ?_⟩)
    rw [Relabel.length h hG hH]
    exact (hl j) ▸ hno j hj
  | ok R =>
    obtain ⟨k, hk, ⟨r, rfl, hr⟩, hlt, hfirst⟩ := hc.1 R e
    cases e' : pagerank H iso alpha (pers.map (renameDict f)) maxIter tol (nstart.map (renameDict f))
        (dangling.map (renameDict f)) with
    | error er =>
      obtain ⟨-, hno⟩ := (hc'.2 er).1 e'
      refine absurd ?_ (hno k hk)
      rw [Relabel.length h hG hH]
      exact (hl k).symm ▸ hlt
    | ok R' =>
      obtain ⟨k', hk', ⟨r', rfl, hr'⟩, hlt', hfirst'⟩ := hc'.1 R' e'
      rw [Relabel.length h hG hH] at hlt' hfirst'
      have hkk : k = k' := by
        rcases lt_trichotomy k k' with hl' | he | hl'
        · exact absurd ((hl k).symm ▸ hlt) (hfirst' k hl')
        · exact he
        · exact absurd ((hl k') ▸ hlt') (hfirst k' hl')
      subst hkk
      refine ⟨r, r', rfl, rfl, sameMap_of_nodes h hG hH fun u hu => ?_⟩
      rw [hr u hu, hr' (f u) ((Relabel.node' h).2 hu)]
      exact congrArg some (hit (k + 1) u hu)

/-- two runs of a power iteration whose steps correspond stop together -/
theorem agree_power (h : Relabels f G H) (hG : G.WF) (hH : H.WF) {A B : Type} {x : Except Err A} {y : Except Err B}
    {T : (K → F) → K → F} {T' : (K' → F) → K' → F} (hT : ∀ x y, Corr f G x y → Corr f G (T x) (T' y))
    {x0 : K → F} {y0 : K' → F} (h0 : Corr f G x0 y0) {maxIter : Int} {tol : F} {e0 : Err}
    {P : A → Nat → Prop} {Q : B → Nat → Prop} {rel : A → B → Prop}
    (hx : ∀ a, x = .ok a → ∃ k : Nat, (k : Int) < maxIter ∧ FirstConverged G.nodes tol T x0 k ∧ P a k)
    (hx' : ∀ e, x = .error e ↔ e = e0 ∧ ∀ k : Nat, (k : Int) < maxIter → ¬ FirstConverged G.nodes tol T x0 k)
    (hy : ∀ a, y = .ok a → ∃ k : Nat, (k : Int) < maxIter ∧ FirstConverged H.nodes tol T' y0 k ∧ Q a k)
    (hy' : ∀ e, y = .error e ↔ e = e0 ∧ ∀ k : Nat, (k : Int) < maxIter → ¬ FirstConverged H.nodes tol T' y0 k)
    (hrel : ∀ a b k, P a k → Q b k → rel a b) : Agree rel x y := by
  have hc := corr_firstConverged h hG hH hT h0 tol
  cases ex : x with
  | error er =>
    obtain ⟨rfl, hno⟩ := (hx' er).1 ex
    exact Agree.errors rfl ((hy' _).2 ⟨rfl, fun k hk => by rw [hc]; exact hno k hk⟩)
  | ok a =>
    obtain ⟨k, hk, hf, hP⟩ := hx a ex
    cases ey : y with
    | error er =>
      obtain ⟨-, hno⟩ := (hy' er).1 ey
      exact absurd ((hc k).2 hf) (hno k hk)
    | ok b =>
      obtain ⟨k', hk', hf', hQ⟩ := hy b ey
      have := firstConverged_unique hf ((hc k').1 hf')
      subst this
      exact hrel a b k hP hQ

omit [LinearOrder F] [IsStrictOrderedRing F] in
theorem corr_inSum (h : Relabels f G H) (hG : G.WF) (hH : H.WF) {x : K → F} {y : K' → F} (hxy : Corr f G x y) :
    Corr f G (inSum G.nodes G.weight? x) (inSum H.nodes H.weight? y) := by
  intro u _
  exact corr_sum h hG hH (x := fun v => x v * _) (y := fun v => y v * _) fun v hv => by
    simp only [hxy v hv, Relabel.weight h hG hH]

omit [LinearOrder F] [IsStrictOrderedRing F] in
theorem corr_outSum (h : Relabels f G H) (hG : G.WF) (hH : H.WF) {x : K → F} {y : K' → F} (hxy : Corr f G x y) :
    Corr f G (outSum G.nodes G.weight? x) (outSum H.nodes H.weight? y) := by
  intro u _
  exact corr_sum h hG hH (x := fun v => _ * x v) (y := fun v => _ * y v) fun v hv => by
    simp only [hxy v hv, Relabel.weight h hG hH]

omit [IsStrictOrderedRing F] [DecidableEq K] [DecidableEq K'] in
theorem corr_over {c c' : F} (hc : c' = c) {x : K → F} {y : K' → F} (hxy : Corr f G x y) :
    Corr f G (over c x) (over c' y) := by
  intro u hu
  subst hc
  unfold over
  split
  · exact hxy u hu
  · show y (f u) / _ = x u / _
    rw [hxy u hu]

omit [LinearOrder F] [IsStrictOrderedRing F] [DecidableEq K] [DecidableEq K'] in
theorem corr_norm2 (h : Relabels f G H) (hG : G.WF) (hH : H.WF) (sqrt : F → F) {x : K → F} {y : K' → F}
    (hxy : Corr f G x y) : norm2 sqrt H.nodes y = norm2 sqrt G.nodes x := by
  unfold norm2
  rw [corr_sum h hG hH (x := fun v => x v * x v) (y := fun v => y v * y v) fun v hv => by
    simp only [hxy v hv]]

omit [IsStrictOrderedRing F] [DecidableEq K] [DecidableEq K'] in
theorem corr_max (h : Relabels f G H) (hG : G.WF) (hH : H.WF) {x : K → F} {y : K' → F} (hxy : Corr f G x y) :
    maxOver H.nodes y = maxOver G.nodes x := by
  unfold maxOver
  have hp : (H.nodes.map y).Perm (G.nodes.map x) := by
    refine ((Relabel.nodes_perm h hG hH).map y).trans (List.Perm.of_eq ?_)
    rw [List.map_map]
    exact List.map_congr_left fun u hu => hxy u hu
  exact hp.foldr_eq' (f := max) (fun a _ b _ z => max_left_comm b a z) 0

/-- renaming the `beta` argument of `katz_centrality` -/
def renameBeta (f : K → K') : F ⊕ List (K × F) → F ⊕ List (K' × F)
  | .inl c => .inl c
  | .inr l => .inr (renameDict f l)

/-- **C83.** `katz_centrality` -/
theorem relabel_katz (h : Relabels f G H) (hG : G.WF) (hH : H.WF) {fill : Bool} {iso : Option F}
    {beta : F ⊕ List (K × F)} {nstart : Option (List (K × F))} (ha : KatzArgs G fill iso beta nstart)
    (sqrt : F → F) (alpha : F) (maxIter : Int) (tol : F) (normalized : Bool) :
    Agree (SameOpt f G H) (katzCentrality fill sqrt G iso alpha beta maxIter tol nstart normalized)
      (katzCentrality fill sqrt H iso alpha (renameBeta f beta) maxIter tol (nstart.map (renameDict f))
        normalized) := by
  have ha' : KatzArgs H fill iso (renameBeta f beta) (nstart.map (renameDict f)) := by
    refine ⟨h.multi.trans ha.simple, ?_, ?_, ?_, ?_, ?_⟩
    · have := ha.nonempty
      rw [← List.length_pos_iff] at this ⊢
      rwa [Relabel.length h hG hH]
    · intro c hc x y a e
      obtain ⟨u, v, rfl, rfl, e'⟩ := Relabel.wedge_exists h e
      exact ha.iso_ok c hc u v a e'
    · intro l hl
      obtain ⟨l0, rfl, rfl⟩ := Option.map_eq_some_iff.1 hl
      exact validDict_rename h (ha.nstart_ok l0 rfl)
    · intro l hl
      cases beta with
      | inl c => cases hl
      | inr l0 =>
        cases hl
        refine ⟨validDict_rename h (ha.beta_ok l0 rfl).1, fun x hx => ?_⟩
        obtain ⟨u, hu, rfl⟩ := (h.node x).1 hx
        obtain ⟨b, hb⟩ := (ha.beta_ok l0 rfl).2 u hu
        exact ⟨b, List.mem_map.2 ⟨_, hb, rfl⟩⟩
    · rcases ha.fill_ok with h1 | ⟨l, rfl⟩ | ⟨h1, h2⟩
      · exact Or.inl h1
      · exact Or.inr (Or.inl ⟨_, rfl⟩)
      · refine Or.inr (Or.inr ⟨by rw [h1]; rfl, fun x hx => ?_⟩)
        obtain ⟨v, hv, rfl⟩ := (h.node x).1 hx
        obtain ⟨u, hu, e⟩ := h2 v hv
        exact ⟨f u, (Relabel.node' h).2 hu, (Relabel.edge h u v).2 e⟩
  have hc := katz_correct hG ha sqrt alpha maxIter tol normalized
  have hc' := katz_correct hH ha' sqrt alpha maxIter tol normalized
  have hb : Corr f G (betaOf beta) (betaOf (renameBeta f beta)) := by
    intro u _
    cases beta with
    | inl c => rfl
    | inr l => exact valueIn_rename h.inj l u
  have h0 : Corr f G (katzStart nstart) (katzStart (nstart.map (renameDict f))) := by
    intro u _
    cases nstart with
    | none => rfl
    | some l => exact valueIn_rename h.inj l u
  have hT : ∀ x y, Corr f G x y → Corr f G (katzMap G.nodes G.weight? alpha (betaOf beta) x)
      (katzMap H.nodes H.weight? alpha (betaOf (renameBeta f beta)) y) := by
    intro x y hxy u hu
    unfold katzMap
    rw [corr_inSum h hG hH hxy u hu, hb u hu]
  refine agree_power h hG hH hT h0 (fun a ea => ?_) (hc.2) (fun b eb => ?_) hc'.2 (P := fun R k => ∃ r, R = some r ∧
    ∀ u, G.Node u → G.view r u = some (
          let y := (katzMap G.nodes G.weight? alpha (betaOf beta))^[k + 1] (katzStart nstart)
          if normalized then over (norm2 sqrt G.nodes y) y u else y u)) (Q := fun R k => ∃ r, R = some r ∧
    ∀ u, H.Node u → H.view r u = some (
          let y := (katzMap H.nodes H.weight? alpha (betaOf (renameBeta f beta)))^[k + 1]
            (katzStart (nstart.map (renameDict f)))
          if normalized then over (norm2 sqrt H.nodes y) y u else y u)) ?_
  · obtain ⟨k, r, hk, hr, hf, hv⟩ := hc.1 a ea
    exact ⟨k, hk, hf, r, hr, hv⟩
  · obtain ⟨k, r, hk, hr, hf, hv⟩ := hc'.1 b eb
    exact ⟨k, hk, hf, r, hr, hv⟩
  · rintro R R' k ⟨r, rfl, hr⟩ ⟨r', rfl, hr'⟩
    refine ⟨r, r', rfl, rfl, sameMap_of_nodes h hG hH fun u hu => ?_⟩
    rw [hr u hu, hr' (f u) ((Relabel.node' h).2 hu)]
    have hy := corr_iter hT h0 (k + 1)
    congr 1
    cases normalized with
    | true => exact corr_over (corr_norm2 h hG hH sqrt hy) hy u hu
    | false => exact hy u hu

/-- **C83.** `eigenvector_centrality` -/
theorem relabel_eigenvector (h : Relabels f G H) (hG : G.WF) (hH : H.WF) (hm : G.multi = false)
    (hne : G.nodes ≠ []) {nstart : Option (List (K × F))}
    (hs : ∀ l, nstart = some l → ValidDict G l ∧ sumOver G.nodes (valueIn l) ≠ 0)
    (sqrt : F → F) (maxIter : Int) (tol : F) :
    Agree (fun r r' => ∀ u, G.Node u → (H.view r' (f u)).getD 0 = (G.view r u).getD 0)
      (eigenvectorCentrality sqrt G maxIter tol nstart)
      (eigenvectorCentrality sqrt H maxIter tol (nstart.map (renameDict f))) := by
  have hs' : ∀ l, nstart.map (renameDict f) = some l → ValidDict H l ∧ sumOver H.nodes (valueIn l) ≠ 0 := by
    intro l hl
    obtain ⟨l0, rfl, rfl⟩ := Option.map_eq_some_iff.1 hl
    rw [sum_rename h hG hH]
    exact ⟨validDict_rename h (hs l0 rfl).1, (hs l0 rfl).2⟩
  have hne' : H.nodes ≠ [] := by
    rw [← List.length_pos_iff] at hne ⊢
    rwa [Relabel.length h hG hH]
  have hc := eigenvector_correct hG hm hne hs sqrt maxIter tol
  have hc' := eigenvector_correct hH (h.multi.trans hm) hne' hs' sqrt maxIter tol
  have h0 : Corr f G (prStart G nstart) (prStart H (nstart.map (renameDict f))) :=
    corr_dist h hG hH nstart (corr_uniform h hG hH)
  have hT : ∀ x y, Corr f G x y → Corr f G (eigMap sqrt G.nodes G.weight? x) (eigMap sqrt H.nodes H.weight? y) := by
    intro x y hxy
    have hz : Corr f G (fun v => x v + inSum G.nodes G.weight? x v) (fun v => y v + inSum H.nodes H.weight? y v) := by
      intro u hu
      simp only [hxy u hu, corr_inSum h hG hH hxy u hu]
    exact corr_over (corr_norm2 h hG hH sqrt hz) hz
  refine agree_power h hG hH hT h0 (fun a ea => ?_) (hc.2) (fun b eb => ?_) hc'.2 (P := fun r k =>
    ∀ u, G.Node u → (G.view r u).getD 0 = (eigMap sqrt G.nodes G.weight?)^[k + 1] (prStart G nstart) u)
    (Q := fun r k => ∀ u, H.Node u → (H.view r u).getD 0 =
      (eigMap sqrt H.nodes H.weight?)^[k + 1] (prStart H (nstart.map (renameDict f))) u) ?_
  · obtain ⟨k, hk, hf, hv, -⟩ := hc.1 a ea
    exact ⟨k, hk, hf, hv⟩
  · obtain ⟨k, hk, hf, hv, -⟩ := hc'.1 b eb
    exact ⟨k, hk, hf, hv⟩
  · intro r r' k hr hr' u hu
    rw [hr u hu, hr' (f u) ((Relabel.node' h).2 hu)]
    exact corr_iter hT h0 (k + 1) u hu

/-- **C83.** `hits` -/
theorem relabel_hits (h : Relabels f G H) (hG : G.WF) (hH : H.WF) (hne : G.nodes ≠ [])
    (hw : ∀ u v a, G.WEdge u v a → 0 ≤ a) {nstart : Option (List (K × F))}
    (hs : ∀ l, nstart = some l → ValidDict G l ∧ sumOver G.nodes (valueIn l) ≠ 0 ∧
      ∀ k b, (k, b) ∈ l → 0 ≤ b) (maxIter : Int) (tol : F) (normalized : Bool) :
    Agree (fun R R' => ∃ p p', R = some p ∧ R' = some p' ∧ SameMap f G H p.1 p'.1 ∧ SameMap f G H p.2 p'.2)
      (hits G maxIter tol nstart normalized) (hits H maxIter tol (nstart.map (renameDict f)) normalized) := by
  have hw' : ∀ x y a, H.WEdge x y a → 0 ≤ a := by
    intro x y a e
    obtain ⟨u, v, rfl, rfl, e'⟩ := Relabel.wedge_exists h e
    exact hw u v a e'
  have hs' : ∀ l, nstart.map (renameDict f) = some l → ValidDict H l ∧ sumOver H.nodes (valueIn l) ≠ 0 ∧
      ∀ k b, (k, b) ∈ l → 0 ≤ b := by
    intro l hl
    obtain ⟨l0, rfl, rfl⟩ := Option.map_eq_some_iff.1 hl
    rw [sum_rename h hG hH]
    refine ⟨validDict_rename h (hs l0 rfl).1, (hs l0 rfl).2.1, ?_⟩
    intro k b hk
    obtain ⟨⟨u, b'⟩, hu, e⟩ := List.mem_map.1 hk
    cases e
    exact (hs l0 rfl).2.2 u _ hu
  have hne' : H.nodes ≠ [] := by
    rw [← List.length_pos_iff] at hne ⊢
    rwa [Relabel.length h hG hH]
  have hc := hits_correct hG hne hw hs maxIter tol normalized
  have hc' := hits_correct hH hne' hw' hs' maxIter tol normalized
  have h0 : Corr f G (prStart G nstart) (prStart H (nstart.map (renameDict f))) :=
    corr_dist h hG hH nstart (corr_uniform h hG hH)
  have hT : ∀ x y, Corr f G x y → Corr f G (hubMap G.nodes G.weight? x) (hubMap H.nodes H.weight? y) := by
    intro x y hxy
    have hz := corr_outSum h hG hH (corr_inSum h hG hH hxy)
    exact corr_over (corr_max h hG hH hz) hz
  refine agree_power h hG hH hT h0 (fun a ea => ?_) (hc.2) (fun b eb => ?_) hc'.2 (P := fun R k =>
    ∃ hub auth : Vec G.n F, R = some (hub, auth) ∧ (∀ u, G.Node u → G.view hub u = some (
          let y := (hubMap G.nodes G.weight?)^[k + 1] (prStart G nstart)
          if normalized then over (sumOver G.nodes y) y u else y u)) ∧
        (∀ u, G.Node u → G.view auth u = some (hitsScale G.nodes normalized
          (inSum G.nodes G.weight? ((hubMap G.nodes G.weight?)^[k] (prStart G nstart))) u)))
    (Q := fun R k =>
    ∃ hub auth : Vec H.n F, R = some (hub, auth) ∧ (∀ u, H.Node u → H.view hub u = some (
          let y := (hubMap H.nodes H.weight?)^[k + 1] (prStart H (nstart.map (renameDict f)))
          if normalized then over (sumOver H.nodes y) y u else y u)) ∧
        (∀ u, H.Node u → H.view auth u = some (hitsScale H.nodes normalized
          (inSum H.nodes H.weight? ((hubMap H.nodes H.weight?)^[k] (prStart H (nstart.map (renameDict f))))) u))) ?_
  · obtain ⟨k, hub, auth, hk, hR, hf, hv, hv2⟩ := hc.1 a ea
    exact ⟨k, hk, hf, hub, auth, hR, hv, hv2⟩
  · obtain ⟨k, hub, auth, hk, hR, hf, hv, hv2⟩ := hc'.1 b eb
    exact ⟨k, hk, hf, hub, auth, hR, hv, hv2⟩
  · rintro R R' k ⟨hub, auth, rfl, h1, h2⟩ ⟨hub', auth', rfl, h1', h2'⟩
    have hy := corr_iter hT h0 (k + 1)
    have hz := corr_inSum h hG hH (corr_iter hT h0 k)
    refine ⟨_, _, rfl, rfl, sameMap_of_nodes h hG hH fun u hu => ?_, sameMap_of_nodes h hG hH fun u hu => ?_⟩
    · rw [h1 u hu, h1' (f u) ((Relabel.node' h).2 hu)]
      congr 1
      cases normalized with
      | true => exact corr_over (corr_sum h hG hH hy) hy u hu
      | false => exact hy u hu
    · rw [h2 u hu, h2' (f u) ((Relabel.node' h).2 hu)]
      congr 1
      unfold hitsScale
      cases normalized with
      | true => exact corr_over (corr_sum h hG hH hz) hz u hu
      | false => exact corr_over (corr_max h hG hH hz) hz u hu

section
variable {α F : Type} [Field F] {G : Graph K α} {H : Graph K' α}

/-- **C83.** `degree_centrality`, `in_degree_centrality`, `out_degree_centrality` -/
theorem relabel_degree_centrality (h : Relabels f G H) (hG : G.WF) (hH : H.WF) :
    SameMap f G H (degreeCentrality G : Vec G.n F) (degreeCentrality H) ∧
    Agree (SameMap f G H) (inDegreeCentrality G : Except Err (Vec G.n F)) (inDegreeCentrality H) ∧
    Agree (SameMap f G H) (outDegreeCentrality G : Except Err (Vec G.n F)) (outDegreeCentrality H) := by
  cases hd : G.directed with
  | true =>
    have hd' := h.directed.trans hd
    refine ⟨sameMap_of_nodes h hG hH fun u hu => ?_, ?_⟩
    · rw [degree_centrality_directed hG hd hu, degree_centrality_directed hH hd' ((Relabel.node' h).2 hu),
        Relabel.length h hG hH, Relabel.outDeg h hG hH, Relabel.inDeg h hG hH]
    · obtain ⟨a, b, ea, eb, hab⟩ := in_out_degree_centrality (F := F) hG hd
      obtain ⟨a', b', ea', eb', hab'⟩ := in_out_degree_centrality (F := F) hH hd'
      refine ⟨Agree.oks ea ea' (sameMap_of_nodes h hG hH fun u hu => ?_),
        Agree.oks eb eb' (sameMap_of_nodes h hG hH fun u hu => ?_)⟩
      · rw [(hab u hu).1, (hab' (f u) ((Relabel.node' h).2 hu)).1, Relabel.length h hG hH, Relabel.inDeg h hG hH]
      · rw [(hab u hu).2, (hab' (f u) ((Relabel.node' h).2 hu)).2, Relabel.length h hG hH, Relabel.outDeg h hG hH]
  | false =>
    have hd' := h.directed.trans hd
    refine ⟨sameMap_of_nodes h hG hH fun u hu => ?_, ?_⟩
    · rw [degree_centrality_undirected hG hd hu, degree_centrality_undirected hH hd' ((Relabel.node' h).2 hu),
        Relabel.length h hG hH, Relabel.outDeg h hG hH]
    · have e := in_out_degree_centrality_undirected (F := F) hd
      have e' := in_out_degree_centrality_undirected (F := F) hd'
      exact ⟨Agree.errors e.1 e'.1, Agree.errors e.2 e'.2⟩
end

/-! ### The hypotheses are met: the graph and arguments of the PageRank examples, renumbered backwards -/

example : Relabels (fun u : Nat => u + 10) prG (relabelled (fun u : Nat => u + 10) prG (Fin.revPerm (n := 3))) ∧
    (relabelled (fun u : Nat => u + 10) prG (Fin.revPerm (n := 3))).WF :=
  relabels_relabelled (fun a b h => by simpa using h) prG_wf _

example : ∃ u v, prG.Edge u v := ⟨1, 2, by decide⟩

example : PRArgs prG none (some [(1, 1), (3, 3)]) none (some [(2, 2)]) := prG_args

end Props
