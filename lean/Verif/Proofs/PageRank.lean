import Verif.Proofs.PowerIter
import Verif.Props.Convert

/-! One pass of the pagerank loop computes `Spec.prMap`. -/

open GB Spec Model Model.Graph Proofs

namespace Proofs.Power

variable {K F : Type} [Field F] [LinearOrder F] [DecidableEq K] {G : Graph K F}

/-- a valid dict argument: not empty, one value per key, all keys are nodes -/
def ValidDict (G : Graph K F) (d : List (K × F)) : Prop :=
  d ≠ [] ∧ (d.map Prod.fst).Nodup ∧ ∀ k b, (k, b) ∈ d → G.Node k

omit [LinearOrder F] in
theorem lookup_eq_some {d : List (K × F)} (hnd : (d.map Prod.fst).Nodup) {k b} :
    d.lookup k = some b ↔ (k, b) ∈ d := by
  induction d with
  | nil => simp
  | cons p d ih =>
    obtain ⟨k', b'⟩ := p
    simp only [List.map_cons, List.nodup_cons] at hnd
    rw [List.lookup_cons]
    by_cases hk : k = k'
    · subst hk
      simp only [beq_self_eq_true, Option.some.injEq, List.mem_cons, Prod.mk.injEq]
      constructor
      · rintro rfl; simp
      · rintro (⟨-, rfl⟩ | hm)
        · rfl
        · exact absurd (List.mem_map.2 ⟨_, hm, rfl⟩) hnd.1
    · have : (k == k') = false := by simpa using hk
      simp only [this, List.mem_cons, Prod.mk.injEq, hk, false_and, false_or]
      exact ih hnd.2

theorem dict_rep (h : G.WF) {d : List (K × F)} (hd : ValidDict G d) :
    ∃ v, dictToVector G d = .ok v ∧ Rep h v (valueIn d) := by
  obtain ⟨v, hv, hm⟩ := Props.dictToVector_ok h hd.1 hd.2.1 hd.2.2
  refine ⟨v, hv, fun i => ?_⟩
  unfold valueIn
  congr 1
  cases hl : d.lookup (keyFn h i) with
  | none =>
    cases hvi : v i with
    | none => rfl
    | some b =>
      have := (lookup_eq_some hd.2.1).2 ((hm _ i b (keyFn_at h i)).1 hvi)
      rw [hl] at this; cases this
  | some b => exact (hm _ i b (keyFn_at h i)).2 ((lookup_eq_some hd.2.1).1 hl)

theorem dict?_rep (h : G.WF) {d : Option (List (K × F))} (hd : ∀ l, d = some l → ValidDict G l) :
    ∃ v, dictToVector? G d = .ok v ∧ (d = none → v = none) ∧
      ∀ l, d = some l → ∃ v', v = some v' ∧ Rep h v' (valueIn l) := by
  cases d with
  | none => exact ⟨none, rfl, fun _ => rfl, by simp⟩
  | some l =>
    obtain ⟨v, hv, hr⟩ := dict_rep h (hd l rfl)
    refine ⟨some v, ?_, by simp, ?_⟩
    · show (dictToVector G l).map some = _
      rw [hv]; rfl
    · rintro l' hl; cases hl
      exact ⟨v, rfl, hr⟩

/-! ### dangling rows -/

omit [LinearOrder F] in
theorem dangling_iff (h : G.WF) (i : Fin G.n) :
    Dangling G.nodes G.weight? (keyFn h i) ↔ ∀ j, G.A i j = none := by
  constructor
  · intro hd j
    have := hd (keyFn h j) (keyFn_at h j).node
    rwa [weight?_keyFn] at this
  · intro hd v hv
    obtain ⟨j, rfl⟩ := exists_keyFn h hv
    rw [weight?_keyFn, hd j]

omit [DecidableEq K] [LinearOrder F] in
theorem reduceRow_isSome {n : Nat} (A : Mat n n F) (i : Fin n) :
    (reduceRow (· + ·) A i).isSome = true ↔ ¬ ∀ j, A i j = none := by
  unfold reduceRow
  rw [reduce_isSome]
  simp only [not_forall, ← Option.isSome_iff_ne_none, ne_eq]

omit [DecidableEq K] [LinearOrder F] in
theorem nvals_lt {n : Nat} (v : Vec n F) : nvals v < n ↔ ∃ i, v i = none := by
  constructor
  · intro hlt
    by_contra hc
    push Not at hc
    have : nvals v = n := by
      rw [nvals_eq_sum]
      have : ∀ i, ind (v i) = 1 := fun i => by
        obtain ⟨a, ha⟩ := Option.ne_none_iff_exists'.1 (hc i)
        simp [ha]
      simp [this]
    omega
  · rintro ⟨i, hi⟩
    rw [nvals_eq_sum]
    have : ∑ j, ind (v j) < ∑ _j : Fin n, 1 := by
      refine Finset.sum_lt_sum (fun j _ => ind_le _) ⟨i, Finset.mem_univ i, by simp [hi]⟩
    simpa using this

omit [LinearOrder F] in
theorem outWeight_eq (h : G.WF) (i : Fin G.n) :
    outWeight G.nodes G.weight? (keyFn h i) = ∑ j, (G.A i j).getD 0 := by
  unfold outWeight
  rw [sumOver_nodes h]
  exact Finset.sum_congr rfl fun j _ => by rw [weight?_keyFn]

/-! ### the matrix part -/

theorem prS_isSome {n : Nat} (alpha : F) (r : Vec n F) (iso : Option F) (i) :
    (prS alpha r iso i).isSome = (r i).isSome := by
  unfold prS
  cases iso with
  | none => simp [vapply]
  | some c => dsimp only; split <;> simp [vapply]

theorem matrix_part (h : G.WF) (alpha : F) (iso : Option F)
    (hiso : ∀ c, iso = some c → ∀ i j a, G.A i j = some a → a = c)
    {v : Vec G.n F} {x : K → F} (hv : Rep h v x) (j : Fin G.n) :
    (vxm (· + ·) (prMul iso) (vmul (· * ·) v (prS alpha (reduceRow (· + ·) G.A) iso)) G.A j).getD 0 =
      ∑ i, if Dangling G.nodes G.weight? (keyFn h i) then 0
        else alpha * (x (keyFn h i) * ((G.weight? (keyFn h i) (keyFn h j)).getD 0 /
          outWeight G.nodes G.weight? (keyFn h i))) := by
  unfold vxm
  rw [reduce_add]
  refine Finset.sum_congr rfl fun i _ => ?_
  rw [weight?_keyFn, outWeight_eq]
  by_cases hd : Dangling G.nodes G.weight? (keyFn h i)
  · rw [if_pos hd, (dangling_iff h i).1 hd j]; simp
  · rw [if_neg hd]
    have hsome : (reduceRow (· + ·) G.A i).isSome := (reduceRow_isSome _ _).2 (by rwa [← dangling_iff h])
    obtain ⟨r, hr⟩ := Option.isSome_iff_exists.1 hsome
    have hrv : r = ∑ j, (G.A i j).getD 0 := by
      have := reduceRow_getD G.A i
      rw [hr] at this; simpa using this
    rw [← hv i, ← hrv]
    cases hA : G.A i j with
    | none => simp
    | some a =>
      unfold vmul prS prMul
      cases iso with
      | none =>
        cases hvi : v i with
        | none => simp
        | some b => simp [vapply, hr]; ring
      | some c =>
        have hac := hiso c rfl i j a hA
        subst hac
        dsimp only
        cases hvi : v i with
        | none => simp
        | some b =>
          split
          · simp [vapply, hr, first]; ring
          · rename_i h1
            simp only [ne_eq, not_not] at h1
            simp [vapply, hr, first, h1]; ring

/-! ### the dangling part -/

/-- `prP` with its key-level meaning -/
def PRep (h : G.WF) (p : F ⊕ Vec G.n F) (x : K → F) : Prop :=
  match p with
  | .inl c => ∀ u, x u = c
  | .inr v => Rep h v x

omit [LinearOrder F] in
theorem prBase_rep (h : G.WF) {p : F ⊕ Vec G.n F} {x : K → F} (hp : PRep h p x) (alpha : F) :
    Rep h (prBase (prScaleP alpha p)) (fun u => (1 - alpha) * x u) := by
  intro i
  cases p with
  | inl c => simp [prScaleP, prBase, hp (keyFn h i), mul_comm]
  | inr v =>
    have := hp i
    simp only [prScaleP, prBase, vapply, ← this]
    cases v i <;> simp [mul_comm]

/-- the two cases of the loop: what `prDangling` prepares -/
theorem dangling_part (h : G.WF) (alpha : F) {S : Vec G.n F}
    (hS : ∀ i, (S i).isSome = true ↔ ¬ Dangling G.nodes G.weight? (keyFn h i))
    {p : F ⊕ Vec G.n F} {px : K → F} (hp : PRep h p px)
    {dangling : Option (Vec G.n F)} {dx : K → F}
    (hd : ∀ v, dangling = some v → vsum v ≠ 0 ∧ Rep h (vapply (fun a => a / vsum v) v) dx)
    (hdn : dangling = none → dx = px) :
    ∃ md, prDangling alpha S p dangling = .ok md ∧
      ∀ (mul : F → F → F) {v : Vec G.n F} {x : K → F}, Rep h v x → ∀ j,
        (prAddDangling ⟨S, mul, md.1, md.2, prScaleP alpha p⟩ v
          (prBase (prScaleP alpha p)) j).getD 0 = (1 - alpha) * px (keyFn h j) +
          ∑ i, if Dangling G.nodes G.weight? (keyFn h i) then alpha * (x (keyFn h i) * dx (keyFn h j))
            else 0 := by
  by_cases hlt : nvals S < G.n
  · have hmask : ∀ i, prMask S i =
        if Dangling G.nodes G.weight? (keyFn h i) then some 1 else none := by
      intro i
      have := hS i
      unfold prMask vassignC vnot vS vempty
      by_cases hdi : Dangling G.nodes G.weight? (keyFn h i)
      · have : (S i).isSome = false := by simpa [hdi] using this
        simp [this, hdi]
      · have : (S i).isSome = true := this.2 hdi
        simp [this, hdi]
    have hslow : ∀ (dw : Vec G.n F), Rep h dw (fun u => alpha * dx u) → ∀ (mul : F → F → F)
        {v : Vec G.n F} {x : K → F}, Rep h v x → ∀ j,
        (prAddDangling ⟨S, mul, some (prMask S), some dw, prScaleP alpha p⟩ v
          (prBase (prScaleP alpha p)) j).getD 0 = (1 - alpha) * px (keyFn h j) +
          ∑ i, if Dangling G.nodes G.weight? (keyFn h i) then alpha * (x (keyFn h i) * dx (keyFn h j))
            else 0 := by
      intro dw hdw mul v x hv j
      unfold prAddDangling
      dsimp only
      unfold vadd
      rw [omerge_getD, prBase_rep h hp alpha j]
      congr 1
      have e1 : (vapply (fun a => (dot (· + ·) first v
          (prMask S)).getD 0 * a) dw j).getD 0 =
          (dot (· + ·) first v (prMask S)).getD 0 *
            (alpha * dx (keyFn h j)) := by
        have hj : (dw j).getD 0 = alpha * dx (keyFn h j) := hdw j
        rw [← hj]
        unfold vapply
        cases dw j <;> simp
      rw [e1]
      unfold dot
      rw [reduce_add, Finset.sum_mul]
      refine Finset.sum_congr rfl fun i _ => ?_
      rw [hmask i, ← hv i]
      by_cases hdi : Dangling G.nodes G.weight? (keyFn h i)
      · rw [if_pos hdi, if_pos hdi]
        cases v i <;> simp [first]; ring
      · rw [if_neg hdi, if_neg hdi]; simp
    cases hdg : dangling with
    | some d =>
      obtain ⟨h0, hr⟩ := hd d hdg
      refine ⟨(some (prMask S), some (vapply (fun a => alpha / vsum d * a) d)), ?_, hslow (vapply (fun a => alpha / vsum d * a) d) ?_⟩
      · unfold prDangling
        rw [if_pos hlt]
        dsimp only
        rw [if_neg h0]
      · intro i
        have := hr i
        show _ = alpha * dx (keyFn h i)
        rw [← this]
        unfold vapply
        cases d i <;> simp; ring
    | none =>
      cases p with
      | inr v =>
        refine ⟨(some (prMask S), some (vapply (fun a => alpha * a) v)), ?_, hslow (vapply (fun a => alpha * a) v) ?_⟩
        · unfold prDangling
          rw [if_pos hlt]
        · intro i
          have := hp i
          rw [hdn hdg]
          simp only [← this, vapply]
          cases v i <;> simp
      | inl c =>
        refine ⟨(some (vassignC (vS (prMask S))
          (prMask S) (alpha * c)), none), ?_, ?_⟩
        · unfold prDangling
          rw [if_pos hlt]
        · intro mul v x hv j
          rw [hdn hdg]
          unfold prAddDangling
          dsimp only
          have e1 : ∀ (b : F), (vapply (fun a => a + b) (prBase (prScaleP alpha (.inl c))) j :
              Option F).getD 0 = (1 - alpha) * px (keyFn h j) + b := by
            intro b
            simp [vapply, prBase, prScaleP, hp (keyFn h j), mul_comm]
          rw [e1]
          congr 1
          unfold dot
          rw [reduce_add]
          refine Finset.sum_congr rfl fun i _ => ?_
          have hm2 : vassignC (vS (prMask S))
              (prMask S) (alpha * c) i =
              if Dangling G.nodes G.weight? (keyFn h i) then some (alpha * c) else none := by
            unfold vassignC vS
            rw [hmask i]
            by_cases hdi : Dangling G.nodes G.weight? (keyFn h i) <;> simp [hdi]
          rw [hm2, ← hv i, hp (keyFn h j)]
          by_cases hdi : Dangling G.nodes G.weight? (keyFn h i)
          · rw [if_pos hdi, if_pos hdi]
            cases v i <;> simp; ring
          · rw [if_neg hdi, if_neg hdi]; simp
  · refine ⟨(none, none), ?_, ?_⟩
    · unfold prDangling
      rw [if_neg hlt]
    · intro mul v x hv j
      unfold prAddDangling
      dsimp only
      rw [prBase_rep h hp alpha j, Finset.sum_eq_zero, add_zero]
      intro i _
      rw [if_neg]
      rw [nvals_lt] at hlt
      push Not at hlt
      exact (hS i).1 (Option.isSome_iff_ne_none.2 (hlt i))

/-- one pass of the loop -/
theorem prStep_rep (h : G.WF) (alpha : F) (iso : Option F)
    (hiso : ∀ c, iso = some c → ∀ i j a, G.A i j = some a → a = c)
    {p : F ⊕ Vec G.n F} {px dx : K → F} {md : Option (Vec G.n F) × Option (Vec G.n F)}
    (hmd : ∀ (mul : F → F → F) {v : Vec G.n F} {x : K → F}, Rep h v x → ∀ j,
        (prAddDangling ⟨prS alpha (reduceRow (· + ·) G.A) iso, mul, md.1, md.2, prScaleP alpha p⟩ v
          (prBase (prScaleP alpha p)) j).getD 0 = (1 - alpha) * px (keyFn h j) +
          ∑ i, if Dangling G.nodes G.weight? (keyFn h i) then alpha * (x (keyFn h i) * dx (keyFn h j))
            else 0)
    {v : Vec G.n F} {x : K → F} (hv : Rep h v x) :
    Rep h (prStep G.A ⟨prS alpha (reduceRow (· + ·) G.A) iso, prMul iso, md.1, md.2, prScaleP alpha p⟩ v)
      (prMap G.nodes G.weight? alpha px dx x) := by
  intro j
  unfold prStep vadd
  rw [omerge_getD, hmd _ hv j, matrix_part h alpha iso hiso hv j]
  unfold prMap
  rw [sumOver_nodes h, Finset.mul_sum, add_comm (∑ i, _), add_assoc, ← Finset.sum_add_distrib]
  congr 1
  refine Finset.sum_congr rfl fun i _ => ?_
  by_cases hd : Dangling G.nodes G.weight? (keyFn h i) <;> simp [hd]

theorem div_rep (h : G.WF) {v : Vec G.n F} {d : List (K × F)} (hv : Rep h v (valueIn d))
    (dflt : K → F) :
    Rep h (vapply (fun a => a / vsum v) v) (distOf G.nodes (some d) dflt) := by
  intro i
  unfold distOf
  dsimp only
  rw [← hv i, ← vsum_rep h hv]
  unfold vapply
  cases v i <;> simp

theorem prInit_rep (h : G.WF) {d : Option (List (K × F))} {v : Option (Vec G.n F)}
    (hn : d = none → v = none) (hs : ∀ l, d = some l → ∃ v', v = some v' ∧ Rep h v' (valueIn l))
    (h0 : ∀ l, d = some l → sumOver G.nodes (valueIn l) ≠ 0) :
    ∃ x, prInit v = .ok x ∧ Rep h x (distOf G.nodes d (uniform G.nodes)) := by
  cases d with
  | none =>
    rw [hn rfl]
    exact ⟨_, rfl, fun i => by simp [distOf, uniform, nodes_length h]⟩
  | some l =>
    obtain ⟨v', rfl, hr⟩ := hs l rfl
    refine ⟨_, ?_, div_rep h hr _⟩
    unfold prInit
    dsimp only
    rw [if_neg]
    rw [vsum_rep h hr]; exact h0 l rfl

theorem prP_rep (h : G.WF) {d : Option (List (K × F))} {v : Option (Vec G.n F)}
    (hn : d = none → v = none) (hs : ∀ l, d = some l → ∃ v', v = some v' ∧ Rep h v' (valueIn l))
    (h0 : ∀ l, d = some l → sumOver G.nodes (valueIn l) ≠ 0) :
    ∃ x, prP v = .ok x ∧ PRep h x (distOf G.nodes d (uniform G.nodes)) := by
  cases d with
  | none =>
    rw [hn rfl]
    exact ⟨_, rfl, fun i => by simp [distOf, uniform, nodes_length h]⟩
  | some l =>
    obtain ⟨v', rfl, hr⟩ := hs l rfl
    refine ⟨.inr (vapply (fun a => a / vsum v') v'), ?_, div_rep h hr _⟩
    unfold prP
    dsimp only
    rw [if_neg]
    rw [vsum_rep h hr]; exact h0 l rfl

end Proofs.Power
