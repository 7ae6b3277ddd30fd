import Verif.Proofs.SubGraph
import Verif.Proofs.WWalk
import Verif.Spec.Small
import Verif.Proofs.Cluster
import Verif.Props.Utils

/-!
# Renaming / renumbering the nodes of a graph

Support for C81: the spec-level quantities of a graph and of a relabelled copy of it agree.
-/

open GB Spec Model Model.Graph

namespace Spec

variable {K K' α : Type}

/-- `H` is `G` with every node `u` renamed to `f u`, stored with any numbering and in any order:
same kind of graph, the same nodes, the same weighted edges. With `f = id`: the same graph, built differently. -/
structure Relabels (f : K → K') (G : Graph K α) (H : Graph K' α) : Prop where
  inj : Function.Injective f
  directed : H.directed = G.directed
  multi : H.multi = G.multi
  node : ∀ x, H.Node x ↔ ∃ u, G.Node u ∧ f u = x
  wedge : ∀ u v w, H.WEdge (f u) (f v) w ↔ G.WEdge u v w

/-- two calls agree: both raise the same error, or both return, with related results -/
def Agree {A B : Type} (rel : A → B → Prop) : Except Err A → Except Err B → Prop
  | .ok a, .ok b => rel a b
  | .error e, .error e' => e = e'
  | _, _ => False

end Spec

namespace Proofs

theorem sumOver_perm {V R : Type*} [AddCommMonoid R] {N M : List V} (h : N.Perm M) (g : V → R) :
    sumOver N g = sumOver M g := (h.map g).sum_eq

theorem countOf_perm {V : Type*} {N M : List V} (h : N.Perm M) (p : V → Prop) [DecidablePred p] :
    countOf N p = countOf M p := h.countP_eq _

variable {K K' α : Type} {f : K → K'} {G : Graph K α} {H : Graph K' α}

namespace Relabel

theorem node' (h : Relabels f G H) {u : K} : H.Node (f u) ↔ G.Node u := by
  rw [h.node]
  constructor
  · rintro ⟨v, hv, e⟩; rwa [← h.inj e]
  · intro hu; exact ⟨u, hu, rfl⟩

theorem wedge_exists (h : Relabels f G H) {x y : K'} {w : α} (e : H.WEdge x y w) :
    ∃ u v, f u = x ∧ f v = y ∧ G.WEdge u v w := by
  obtain ⟨i, j, hi, hj, ha⟩ := id e
  obtain ⟨u, -, rfl⟩ := (h.node x).1 hi.node
  obtain ⟨v, -, rfl⟩ := (h.node y).1 hj.node
  exact ⟨u, v, rfl, rfl, (h.wedge u v w).1 e⟩

theorem edge_iff_wedge {K α : Type} {G : Graph K α} {u v : K} : G.Edge u v ↔ ∃ w, G.WEdge u v w := by
  constructor
  · rintro ⟨i, j, hi, hj, e⟩
    obtain ⟨w, e⟩ := Option.isSome_iff_exists.1 e
    exact ⟨w, i, j, hi, hj, e⟩
  · rintro ⟨w, i, j, hi, hj, e⟩
    exact ⟨i, j, hi, hj, by rw [e]; rfl⟩

theorem edge (h : Relabels f G H) (u v : K) : H.Edge (f u) (f v) ↔ G.Edge u v := by
  simp only [edge_iff_wedge, h.wedge]

theorem edge_exists (h : Relabels f G H) {x y : K'} (e : H.Edge x y) :
    ∃ u v, f u = x ∧ f v = y ∧ G.Edge u v := by
  obtain ⟨w, e⟩ := edge_iff_wedge.1 e
  obtain ⟨u, v, hu, hv, e⟩ := wedge_exists h e
  exact ⟨u, v, hu, hv, edge_iff_wedge.2 ⟨w, e⟩⟩

theorem edge_left (h : Relabels f G H) {u : K} {y : K'} : H.Edge (f u) y ↔ ∃ v, f v = y ∧ G.Edge u v := by
  constructor
  · intro e
    obtain ⟨u', v, hu, hv, e⟩ := edge_exists h e
    rw [h.inj hu] at e
    exact ⟨v, hv, e⟩
  · rintro ⟨v, rfl, e⟩; exact (edge h u v).2 e

theorem edge_right (h : Relabels f G H) {u : K} {y : K'} : H.Edge y (f u) ↔ ∃ v, f v = y ∧ G.Edge v u := by
  constructor
  · intro e
    obtain ⟨v, u', hv, hu, e⟩ := edge_exists h e
    rw [h.inj hu] at e
    exact ⟨v, hv, e⟩
  · rintro ⟨v, rfl, e⟩; exact (edge h v u).2 e

theorem nodes_perm (h : Relabels f G H) (hG : G.WF) (hH : H.WF) : H.nodes.Perm (G.nodes.map f) := by
  refine (List.perm_ext_iff_of_nodup hH.keys_nodup ?_).2 ?_
  · exact hG.keys_nodup.map h.inj
  · intro x
    show H.Node x ↔ x ∈ G.nodes.map f
    rw [List.mem_map]
    exact h.node x

theorem length (h : Relabels f G H) (hG : G.WF) (hH : H.WF) : H.nodes.length = G.nodes.length := by
  rw [(nodes_perm h hG hH).length_eq, List.length_map]

theorem sumOver_eq {R : Type*} [AddCommMonoid R] (h : Relabels f G H) (hG : G.WF) (hH : H.WF) (g : K' → R) :
    sumOver H.nodes g = sumOver G.nodes (fun u => g (f u)) := by
  rw [sumOver_perm (nodes_perm h hG hH)]
  unfold sumOver
  rw [List.map_map]; rfl

theorem countOf_eq (h : Relabels f G H) (hG : G.WF) (hH : H.WF) (p : K' → Prop) {_ : DecidablePred p}
    (q : K → Prop) {_ : DecidablePred q} (hpq : ∀ u, p (f u) ↔ q u) :
    countOf H.nodes p = countOf G.nodes q := by
  rw [countOf_perm (nodes_perm h hG hH)]
  unfold countOf
  rw [List.countP_map]
  refine List.countP_congr fun u _ => ?_
  simp [hpq]

theorem symm (h : Relabels f G H) (hH : H.WF) (hs : G.Symm) : H.Symm := by
  have key : ∀ (i j : Fin H.n) w, H.A i j = some w → H.A j i = some w := by
    intro i j w e
    obtain ⟨x, hx⟩ := hH.exists_key i
    obtain ⟨y, hy⟩ := hH.exists_key j
    obtain ⟨u, v, rfl, rfl, a, b, ha, hb, e'⟩ := wedge_exists h ⟨i, j, hx, hy, e⟩
    rw [hs] at e'
    obtain ⟨j', i', hj, hi, e''⟩ := (h.wedge v u w).2 ⟨b, a, hb, ha, e'⟩
    rw [At.id_unique hH hj hy, At.id_unique hH hi hx] at e''
    exact e''
  intro i j
  cases e : H.A i j with
  | some w => exact (key i j w e).symm
  | none =>
    cases e' : H.A j i with
    | none => rfl
    | some w => rw [key j i w e'] at e; cases e

/-! walks -/

theorem walk (h : Relabels f G H) {k : Nat} {u : K} {x : K'} :
    Walk H.Edge k (f u) x ↔ ∃ v, f v = x ∧ Walk G.Edge k u v := by
  constructor
  · intro hw
    induction k generalizing x with
    | zero => cases hw; exact ⟨u, rfl, .nil u⟩
    | succ k ih =>
      cases hw with
      | snoc hw e =>
        obtain ⟨v, rfl, hv⟩ := ih hw
        obtain ⟨v', rfl, e'⟩ := (edge_left h).1 e
        exact ⟨v', rfl, hv.snoc e'⟩
  · rintro ⟨v, rfl, hw⟩
    induction hw with
    | nil => exact .nil _
    | snoc _ e ih => exact ih.snoc ((edge h _ _).2 e)

theorem walk' (h : Relabels f G H) {k : Nat} {u v : K} :
    Walk H.Edge k (f u) (f v) ↔ Walk G.Edge k u v := by
  rw [walk h]
  constructor
  · rintro ⟨v', e, hw⟩; rwa [← h.inj e]
  · intro hw; exact ⟨v, rfl, hw⟩

theorem reach (h : Relabels f G H) {u v : K} : Reach H.Edge (f u) (f v) ↔ Reach G.Edge u v := by
  simp only [Reach, walk' h]

theorem isDist (h : Relabels f G H) {u v : K} {d : Nat} :
    IsDist H.Edge (f u) d (f v) ↔ IsDist G.Edge u d v := by
  simp only [IsDist, walk' h]

theorem isDistFrom (h : Relabels f G H) {S : List K} {v : K} {d : Nat} :
    IsDistFrom H.Edge (· ∈ S.map f) d (f v) ↔ IsDistFrom G.Edge (· ∈ S) d v := by
  simp only [IsDistFrom, List.mem_map]
  constructor
  · rintro ⟨⟨_, ⟨s, hs, rfl⟩, hw⟩, hm⟩
    exact ⟨⟨s, hs, (walk' h).1 hw⟩, fun k s hs hw => hm k (f s) ⟨s, hs, rfl⟩ ((walk' h).2 hw)⟩
  · rintro ⟨⟨s, hs, hw⟩, hm⟩
    refine ⟨⟨_, ⟨s, hs, rfl⟩, (walk' h).2 hw⟩, ?_⟩
    rintro k _ ⟨s, hs, rfl⟩ hw
    exact hm k s hs ((walk' h).1 hw)

theorem sym_walk (h : Relabels f G H) {k : Nat} {u : K} {x : K'} :
    Walk (Spec.Sym H.Edge) k (f u) x ↔ ∃ v, f v = x ∧ Walk (Spec.Sym G.Edge) k u v := by
  constructor
  · intro hw
    induction k generalizing x with
    | zero => cases hw; exact ⟨u, rfl, .nil u⟩
    | succ k ih =>
      cases hw with
      | snoc hw e =>
        obtain ⟨v, rfl, hv⟩ := ih hw
        rcases e with e | e
        · obtain ⟨v', rfl, e'⟩ := (edge_left h).1 e
          exact ⟨v', rfl, hv.snoc (Or.inl e')⟩
        · obtain ⟨v', rfl, e'⟩ := (edge_right h).1 e
          exact ⟨v', rfl, hv.snoc (Or.inr e')⟩
  · rintro ⟨v, rfl, hw⟩
    induction hw with
    | nil => exact .nil _
    | snoc _ e ih => exact ih.snoc (e.imp (edge h _ _).2 (edge h _ _).2)

theorem sym_reach (h : Relabels f G H) {u v : K} :
    Reach (Spec.Sym H.Edge) (f u) (f v) ↔ Reach (Spec.Sym G.Edge) u v := by
  simp only [Reach, sym_walk h]
  constructor
  · rintro ⟨k, v', e, hw⟩; exact ⟨k, by rwa [← h.inj e]⟩
  · rintro ⟨k, hw⟩; exact ⟨k, v, rfl, hw⟩

/-! weighted walks -/
section
variable [Zero α] [Add α]

theorem wwalk (h : Relabels f G H) {k : Nat} {c : α} {u : K} {x : K'} :
    WWalk H.WEdge k c (f u) x ↔ ∃ v, f v = x ∧ WWalk G.WEdge k c u v := by
  constructor
  · intro hw
    induction k generalizing x c with
    | zero => cases hw; exact ⟨u, rfl, .nil u⟩
    | succ k ih =>
      cases hw with
      | snoc hw e =>
        obtain ⟨v, rfl, hv⟩ := ih hw
        obtain ⟨v1, v', h1, rfl, e'⟩ := wedge_exists h e
        rw [h.inj h1] at e'
        exact ⟨v', rfl, hv.snoc e'⟩
  · rintro ⟨v, rfl, hw⟩
    induction hw with
    | nil => exact .nil _
    | snoc _ e ih => exact ih.snoc ((h.wedge _ _ _).2 e)

theorem wwalk' (h : Relabels f G H) {k : Nat} {c : α} {u v : K} :
    WWalk H.WEdge k c (f u) (f v) ↔ WWalk G.WEdge k c u v := by
  rw [wwalk h]
  constructor
  · rintro ⟨v', e, hw⟩; rwa [← h.inj e]
  · intro hw; exact ⟨v, rfl, hw⟩

theorem wreach (h : Relabels f G H) {u v : K} : WReach H.WEdge (f u) (f v) ↔ WReach G.WEdge u v := by
  simp only [WReach, wwalk' h]

theorem isWDist [LE α] (h : Relabels f G H) {u v : K} {d : α} :
    IsWDist H.WEdge (f u) d (f v) ↔ IsWDist G.WEdge u d v := by
  simp only [IsWDist, wwalk' h]

theorem negCycleAt [LT α] (h : Relabels f G H) {u : K} : NegCycleAt H.WEdge (f u) ↔ NegCycleAt G.WEdge u := by
  simp only [NegCycleAt, wwalk' h]

theorem negCycleFrom [LT α] (h : Relabels f G H) {u : K} :
    NegCycleFrom H.WEdge (f u) ↔ NegCycleFrom G.WEdge u := by
  constructor
  · rintro ⟨x, ⟨k, c, hw⟩, hn⟩
    obtain ⟨v, rfl, hw'⟩ := (wwalk h).1 hw
    exact ⟨v, ⟨k, c, hw'⟩, (negCycleAt h).1 hn⟩
  · rintro ⟨v, hr, hn⟩
    exact ⟨f v, (wreach h).2 hr, (negCycleAt h).2 hn⟩
end

section
variable [DecidableEq K] [DecidableEq K']

theorem weight (h : Relabels f G H) (hG : G.WF) (hH : H.WF) (u v : K) :
    H.weight? (f u) (f v) = G.weight? u v := by
  have key : ∀ {K : Type} [DecidableEq K] {G : Graph K α}, G.WF → ∀ u v w,
      G.weight? u v = some w ↔ G.WEdge u v w := by
    intro K _ G hG u v w
    unfold Graph.weight? Graph.WEdge
    simp only [Option.bind_eq_some_iff, idOf_eq_some hG]
    constructor
    · rintro ⟨i, hi, j, hj, e⟩; exact ⟨i, j, hi, hj, e⟩
    · rintro ⟨i, j, hi, hj, e⟩; exact ⟨i, hi, j, hj, e⟩
  apply Option.ext
  intro w
  show H.weight? (f u) (f v) = some w ↔ G.weight? u v = some w
  rw [key hH, key hG, h.wedge]

theorem triPairs (h : Relabels f G H) (hG : G.WF) (hH : H.WF) (u : K) :
    Spec.triPairs H.nodes H.Edge (f u) = Spec.triPairs G.nodes G.Edge u := by
  unfold Spec.triPairs
  rw [sumOver_eq h hG hH]
  congr 1; funext a
  exact countOf_eq h hG hH _ _ fun b => by simp only [ne_eq, h.inj.eq_iff, edge h]

theorem degree (h : Relabels f G H) (hG : G.WF) (hH : H.WF) (u : K) :
    Spec.degree H.nodes H.Edge (f u) = Spec.degree G.nodes G.Edge u :=
  countOf_eq h hG hH _ _ fun b => by simp only [ne_eq, h.inj.eq_iff, edge h]

theorem outDeg (h : Relabels f G H) (hG : G.WF) (hH : H.WF) (u : K) :
    Spec.outDeg H.nodes H.Edge (f u) = Spec.outDeg G.nodes G.Edge u :=
  countOf_eq h hG hH _ _ fun _ => edge h _ _

theorem inDeg (h : Relabels f G H) (hG : G.WF) (hH : H.WF) (u : K) :
    Spec.inDeg H.nodes H.Edge (f u) = Spec.inDeg G.nodes G.Edge u :=
  countOf_eq h hG hH _ _ fun _ => edge h _ _

theorem mutualDeg (h : Relabels f G H) (hG : G.WF) (hH : H.WF) (u : K) :
    Spec.mutualDeg H.nodes H.Edge (f u) = Spec.mutualDeg G.nodes G.Edge u :=
  countOf_eq h hG hH _ _ fun b => by simp only [edge h]

theorem edgeCount (h : Relabels f G H) (hG : G.WF) (hH : H.WF) :
    Spec.edgeCount H.nodes H.Edge = Spec.edgeCount G.nodes G.Edge := by
  unfold Spec.edgeCount
  rw [sumOver_eq h hG hH]
  simp only [outDeg h hG hH]

theorem between (h : Relabels f G H) (a b : K) :
    Spec.between H.Edge (f a) (f b) = Spec.between G.Edge a b := by
  unfold Spec.between
  simp only [edge h]

theorem dirTriPairs (h : Relabels f G H) (hG : G.WF) (hH : H.WF) (u : K) :
    Spec.dirTriPairs H.nodes H.Edge (f u) = Spec.dirTriPairs G.nodes G.Edge u := by
  unfold Spec.dirTriPairs
  rw [sumOver_eq h hG hH]
  congr 1; funext a
  rw [sumOver_eq h hG hH]
  simp only [ne_eq, h.inj.eq_iff, between h]

theorem totalDegree (h : Relabels f G H) (hG : G.WF) (hH : H.WF) (u : K) :
    Spec.totalDegree H.nodes H.Edge (f u) = Spec.totalDegree G.nodes G.Edge u := by
  unfold Spec.totalDegree
  rw [degree h hG hH]
  congr 1
  exact countOf_eq h hG hH _ _ fun b => by simp only [ne_eq, h.inj.eq_iff, edge h]

theorem recipDegree (h : Relabels f G H) (hG : G.WF) (hH : H.WF) (u : K) :
    Spec.recipDegree H.nodes H.Edge (f u) = Spec.recipDegree G.nodes G.Edge u :=
  countOf_eq h hG hH _ _ fun b => by simp only [ne_eq, h.inj.eq_iff, edge h]

end

end Relabel
end Proofs
