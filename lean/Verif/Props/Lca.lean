import Verif.Props.Bfs
import Mathlib.Data.List.FinRange

/-!
# C26: `lowest_common_ancestor` on every graph, cyclic ones included
-/

open GB Spec Model Model.Graph Proofs Proofs.Bfs

namespace Spec

/-- `a` reaches both `u` and `v` -/
def CommonAncestor {V : Type*} (E : V → V → Prop) (u v a : V) : Prop := Reach E a u ∧ Reach E a v

/-- no successor of the common ancestor `a` is a common ancestor -/
def LowestCommonAncestor {V : Type*} (E : V → V → Prop) (u v a : V) : Prop :=
  CommonAncestor E u v a ∧ ∀ b, E a b → ¬ CommonAncestor E u v b

end Spec

namespace Props

variable {K α : Type} [DecidableEq K] {G : Graph K α}

omit [DecidableEq K] in
theorem indices_head_le {n : Nat} {β : Type} {v : Vec n β} {i j : Fin n} (h : (indices v).head? = some i)
    (hj : (v j).isSome) : i ≤ j := by
  have hsorted : (indices v).Pairwise (· < ·) := (List.pairwise_lt_finRange n).filter _
  have hm := mem_indices.2 hj
  cases hl : indices v with
  | nil => rw [hl] at h; cases h
  | cons a l =>
    rw [hl] at h hm hsorted
    cases h
    rcases List.mem_cons.1 hm with rfl | hm
    · exact le_rfl
    · exact (List.rel_of_pairwise_cons hsorted hm).le

/-- **C26, exactly, on every graph.**  `default` is returned exactly if there is no common ancestor; IndexError is
raised exactly if there are common ancestors but each of them has a successor that is one too; otherwise the result is
the lowest common ancestor that comes first in the node numbering. -/
theorem lowest_common_ancestor_exact (h : G.WF) (hsym : G.directed = false → G.Symm) {u v : K} (hu : G.Node u)
    (hv : G.Node v) :
    (lowestCommonAncestor G u v = .ok none ↔ ¬ ∃ a, G.Node a ∧ CommonAncestor G.Edge u v a) ∧
    (lowestCommonAncestor G u v = .error .indexError ↔
      (∃ a, G.Node a ∧ CommonAncestor G.Edge u v a) ∧ ¬ ∃ a, G.Node a ∧ LowestCommonAncestor G.Edge u v a) ∧
    (∀ a, lowestCommonAncestor G u v = .ok (some a) ↔ G.Node a ∧ LowestCommonAncestor G.Edge u v a ∧
      ∀ b i j, LowestCommonAncestor G.Edge u v b → G.At a i → G.At b j → i ≤ j) := by
  obtain ⟨i, hi⟩ := hu.exists_id h
  obtain ⟨j, hj⟩ := hv.exists_id h
  unfold lowestCommonAncestor
  rw [bfsPlain_ok h hi, bfsPlain_ok h hj]
  have hbind : ∀ {β γ : Type} (a : β) (f : β → Except Err γ),
    ((Except.ok a : Except Err β) >>= f) = f a := fun _ _ => rfl
  simp only [hbind]
  generalize hca : (vmul pairB (bfsPlainFrom (bfsMatrix G true) [i] none none)
    (bfsPlainFrom (bfsMatrix G true) [j] none none) : Vec G.n Bool) = ca
  have hcas : ∀ {a x}, G.At a x → ((ca x).isSome ↔ CommonAncestor G.Edge u v a) := by
    intro a x hx
    rw [← hca]
    simp only [vmul, isSome_ointer, Bool.and_eq_true, plain_bwd hsym, CommonAncestor, reach_iff h hx hi,
      reach_iff h hx hj]
  split
  · rename_i hz
    rw [nvals_eq_zero] at hz
    have hno : ¬ ∃ a, G.Node a ∧ CommonAncestor G.Edge u v a := by
      rintro ⟨a, ha, hc⟩
      obtain ⟨x, hx⟩ := ha.exists_id h
      rw [← hcas hx, hz x] at hc
      cases hc
    refine ⟨⟨fun _ => hno, fun _ => rfl⟩, ⟨fun e => (by cases e), fun e => absurd e.1 hno⟩,
      fun a => ⟨fun e => (by cases e), fun e => absurd ⟨a, e.1, e.2.1.1⟩ hno⟩⟩
  · rename_i hz
    obtain ⟨c, hc⟩ := nvals_pos.1 (Nat.pos_of_ne_zero hz)
    have hex : ∃ a, G.Node a ∧ CommonAncestor G.Edge u v a := by
      obtain ⟨a, ha⟩ := h.exists_key c
      exact ⟨a, ha.node, (hcas ha).1 hc⟩
    generalize hoa : (vassignR (vS ca) (mxv any' pairB G.A ca) : Vec G.n Bool) = oa
    have hoas : ∀ x, (oa x).isSome ↔ (ca x).isSome ∧ ∃ y, Adj G.A x y ∧ (ca y).isSome := by
      intro x
      rw [← hoa]
      unfold vassignR vS
      split
      · rename_i hx; rw [mxv_isSome]; simp [hx, Adj]
      · rename_i hx; simp [hx]
    generalize hfin : (vassignR (vnot (vS oa)) ca : Vec G.n Bool) = fin
    have hfins' : ∀ x, (fin x).isSome ↔ (ca x).isSome ∧ ∀ y, Adj G.A x y → ¬ (ca y).isSome := by
      intro x
      rw [← hfin]
      unfold vassignR vnot vS
      by_cases hx : (oa x).isSome
      · rw [if_neg (by simp [hx])]
        simp only [Option.isSome_none, Bool.false_eq_true, false_iff, not_and, not_forall]
        intro _
        obtain ⟨-, y, h1, h2⟩ := (hoas x).1 hx
        exact ⟨y, h1, fun hn => hn h2⟩
      · rw [if_pos (by simpa using hx)]
        constructor
        · intro hc
          refine ⟨hc, fun y hy hcy => hx ((hoas x).2 ⟨hc, y, hy, hcy⟩)⟩
        · exact fun h => h.1
    have hfins : ∀ {a x}, G.At a x → ((fin x).isSome ↔ LowestCommonAncestor G.Edge u v a) := by
      intro a x hx
      rw [hfins', hcas hx]
      refine and_congr_right fun _ => ⟨fun hs b hab => ?_, fun hs y hy => ?_⟩
      · obtain ⟨z, hz⟩ := hab.node_right.exists_id h
        rw [← hcas hz]
        exact hs z ((edge_iff h hx hz).1 hab)
      · obtain ⟨b, hb⟩ := h.exists_key y
        rw [hcas hb]
        exact hs b ((edge_iff h hx hb).2 hy)
    cases hh : (indices fin).head? with
    | none =>
      rw [List.head?_eq_none_iff] at hh
      have hno : ¬ ∃ a, G.Node a ∧ LowestCommonAncestor G.Edge u v a := by
        rintro ⟨a, ha, hl⟩
        obtain ⟨x, hx⟩ := ha.exists_id h
        have := mem_indices.2 ((hfins hx).2 hl)
        rw [hh] at this; cases this
      exact ⟨⟨fun e => (by cases e), fun e => absurd hex e⟩, ⟨fun _ => ⟨hex, hno⟩, fun _ => rfl⟩,
        fun a => ⟨fun e => (by cases e), fun e => absurd ⟨a, e.1, e.2.1⟩ hno⟩⟩
    | some y =>
      have hy : y ∈ indices fin := List.mem_of_head? hh
      rw [mem_indices] at hy
      obtain ⟨a, ha⟩ := h.exists_key y
      have hla := (hfins ha).1 hy
      simp only [(keyOf_eq_some h).2 ha]
      refine ⟨⟨fun e => (by cases e), fun e => absurd hex e⟩,
        ⟨fun e => (by cases e), fun e => absurd ⟨a, ha.node, hla⟩ e.2⟩, fun a' => ⟨fun e => ?_, fun e => ?_⟩⟩
      · cases e
        refine ⟨ha.node, hla, fun b x z hb hx hz => ?_⟩
        obtain rfl := At.id_unique h hx ha
        exact indices_head_le hh ((hfins hz).2 hb)
      · obtain ⟨z, hz⟩ := e.1.exists_id h
        have h1 : z ≤ y := e.2.2 a z y hla hz ha
        have h2 : y ≤ z := indices_head_le hh ((hfins hz).2 e.2.1)
        obtain rfl := le_antisymm h1 h2
        rw [At.key_unique h ha hz]
        rfl

/-- **C26, finding, exactly.**  With a cycle through a common ancestor every lowest common ancestor may be lost: asked
for two nodes of one cycle, or for a node of a cycle twice, the call always raises IndexError. -/
theorem lowest_common_ancestor_on_cycle (h : G.WF) (hdir : G.directed = true) {u v : K} (hu : G.Node u)
    (hv : G.Node v) (huv : Reach G.Edge u v) (hvu : Reach G.Edge v u) (hc : ∃ w, G.Edge u w ∧ Reach G.Edge w u) :
    lowestCommonAncestor G u v = .error .indexError := by
  refine (lowest_common_ancestor_exact h (by simp [hdir]) hu hv).2.1.2 ⟨⟨u, hu, .refl _, huv⟩, ?_⟩
  rintro ⟨a, ha, ⟨hau, hav⟩, hlow⟩
  have next : ∃ b, G.Edge a b ∧ Reach G.Edge b u := by
    obtain ⟨k, hw⟩ := hau
    cases k with
    | zero =>
      obtain ⟨w, h1, h2⟩ := hc
      cases hw
      exact ⟨w, h1, h2⟩
    | succ k =>
      obtain ⟨b, e, hb⟩ := walk_succ'.1 hw
      exact ⟨b, e, ⟨k, hb⟩⟩
  obtain ⟨b, e, hb⟩ := next
  exact hlow b e ⟨hb, hb.trans huv⟩

example : lowestCommonAncestor (K := Nat) (α := Int)
    { n := 3, A := Ex.ofTriples 3 [(0,1,1),(1,0,1),(2,0,1)], keyToId := [(0,0),(1,1),(2,2)], directed := true } 0 1 =
      .error .indexError ∧
    lowestCommonAncestor (K := Nat) (α := Int)
    { n := 3, A := Ex.ofTriples 3 [(0,1,1),(1,0,1),(2,0,1)], keyToId := [(0,0),(1,1),(2,2)], directed := true } 2 0 =
      .ok (some 2) := by decide +kernel

end Props
