import Verif.Model.Convert
import Verif.Proofs.Dict
import Verif.Proofs.SubGraph
import Verif.Proofs.Operators

open GB Spec Model Model.Graph

namespace Proofs

variable {K α β γ : Type}

theorem mem_tocoo {n : Nat} {v : Vec n β} {i : Fin n} {b : β} : (i, b) ∈ tocoo v ↔ v i = some b := by
  unfold tocoo
  simp only [List.mem_filterMap, List.mem_finRange, true_and, Option.map_eq_some_iff, Prod.mk.injEq]
  constructor
  · rintro ⟨a, x, h, rfl, rfl⟩; exact h
  · intro h; exact ⟨i, b, h, rfl, rfl⟩

theorem tocoo_fst {n : Nat} (v : Vec n β) : (tocoo v).map Prod.fst = indices v := by
  unfold tocoo indices
  generalize List.finRange n = l
  induction l with
  | nil => rfl
  | cons x xs ih =>
    cases h : v x with
    | none => simp [h, ih]
    | some b => simp [h, ih]

theorem tocoo_nodup {n : Nat} (v : Vec n β) : ((tocoo v).map Prod.fst).Nodup := by
  rw [tocoo_fst]; exact indices_nodup v

theorem tocoo_isEmpty {n : Nat} {v : Vec n β} : (tocoo v).isEmpty = true ↔ ∀ i, v i = none := by
  rw [List.isEmpty_iff]
  constructor
  · intro h i
    cases hv : v i with
    | none => rfl
    | some b => have := mem_tocoo.2 hv; rw [h] at this; cases this
  · intro h
    by_contra hne
    obtain ⟨⟨i, b⟩, hm⟩ := List.exists_mem_of_ne_nil _ hne
    rw [mem_tocoo, h] at hm; cases hm

theorem mem_tocoo2 {m n : Nat} {A : Mat m n β} {i j b} : (i, j, b) ∈ tocoo2 A ↔ A i j = some b := by
  unfold tocoo2
  simp only [List.mem_flatMap, List.mem_finRange, true_and, List.mem_map, Prod.mk.injEq, Prod.exists]
  constructor
  · rintro ⟨i', j', b', h, rfl, rfl, rfl⟩; exact mem_tocoo.1 h
  · intro h; exact ⟨i, j, b, mem_tocoo.2 h, rfl, rfl, rfl⟩

theorem keyAt_ok {G : Graph K α} (h : G.WF) (i : Fin G.n) : keyAt G i.val = .ok (keyFn h i) := by
  classical
  unfold keyAt; rw [keyOf_keyFn h]

theorem keyAt_eq_ok {G : Graph K α} (h : G.WF) {u : K} {i : Fin G.n} (hu : G.At u i) :
    keyAt G i.val = .ok u := by
  rw [keyAt_ok h, keyFn_eq h hu]

/-! ### windows over the row pointers -/

theorem windows_slices {ι ι' X Y E Z : Type} (row : ι → ι') (f : ι → List X) (g : ι → List Y)
    (hfg : ∀ i, (f i).length = (g i).length) (F : ι' → List X → List Y → Except E Z) (rs : List ι) :
    ∀ (p : List X) (q : List Y) (hpq : p.length = q.length),
    ((rs.map row).zip (((rs.map fun i => (f i).length).scanl (· + ·) p.length).zip
      ((rs.map fun i => (f i).length).scanl (· + ·) p.length).tail)).mapM
      (fun t => F t.1 (slice (p ++ (rs.map f).flatten) t.2.1 t.2.2)
        (slice (q ++ (rs.map g).flatten) t.2.1 t.2.2)) =
    rs.mapM fun i => F (row i) (f i) (g i) := by
  induction rs with
  | nil => intros; rfl
  | cons r rs ih =>
    intro p q hpq
    have e1 : slice (p ++ ((r :: rs).map f).flatten) p.length (p.length + (f r).length) = f r := by
      simp only [slice, List.map_cons, List.flatten_cons, ← List.append_assoc]
      rw [← List.length_append, List.take_left, List.drop_left]
    have e2 : slice (q ++ ((r :: rs).map g).flatten) p.length (p.length + (f r).length) = g r := by
      simp only [slice, List.map_cons, List.flatten_cons, ← List.append_assoc]
      rw [hfg, hpq, ← List.length_append, List.take_left, List.drop_left]
    have hs : ∀ (b : Nat) (l : List Nat), ∃ t, List.scanl (· + ·) b l = b :: t := by
      intro b l; cases l <;> simp
    obtain ⟨t, ht⟩ := hs (p.length + (f r).length) (rs.map fun i => (f i).length)
    have := ih (p ++ f r) (q ++ g r) (by simp [hpq, hfg])
    simp only [List.length_append, ht, List.tail_cons] at this
    simp only [List.map_cons, List.scanl_cons, List.tail_cons, ht, List.zip_cons_cons, List.mapM_cons]
    simp only [List.map_cons] at e1 e2
    rw [e1, e2]
    simp only [List.flatten_cons, ← List.append_assoc, this]

variable [DecidableEq K] {G : Graph K α}

/-- key of an axis -/
noncomputable def axk (h : G.WF) (raw : Bool) (i : Fin G.n) : K ⊕ Nat :=
  if raw then .inr i.val else .inl (keyFn h i)

omit [DecidableEq K] in
theorem axk_inj (h : G.WF) (raw : Bool) {i j : Fin G.n} (e : axk h raw i = axk h raw j) : i = j := by
  unfold axk at e
  cases raw
  · simp only [Bool.false_eq_true, if_false, Sum.inl.injEq] at e; exact keyFn_inj h e
  · simp only [if_true, Sum.inr.injEq] at e; exact Fin.ext e

theorem axisKey_ok (h : G.WF) (raw : Bool) (i : Fin G.n) : axisKey G raw i.val = .ok (axk h raw i) := by
  unfold axisKey axk
  cases raw
  · simp only [Bool.false_eq_true, if_false]; rw [keyAt_ok h]; rfl
  · rfl

theorem rowDict_ok (h : G.WF) (raw : Bool) (v : Vec G.n β) (g : β → γ) :
    rowDict G raw ((tocoo v).map fun p => p.1.val) (((tocoo v).map fun p => p.2).map g) =
      .ok ((tocoo v).map fun p => (axk h raw p.1, g p.2)) := by
  unfold rowDict
  have e : ((tocoo v).map fun p => p.1.val).zip (((tocoo v).map fun p => p.2).map g) =
      (tocoo v).map fun p => (p.1.val, g p.2) := by
    rw [List.map_map, List.zip_map']
    rfl
  rw [e, List.mapM_map]
  have : (tocoo v).mapM ((fun p : Nat × γ => do let k ← axisKey G raw p.1; (.ok (k, p.2) : Except Err _)) ∘
      fun p => (p.1.val, g p.2)) = .ok ((tocoo v).map fun p => (axk h raw p.1, g p.2)) := by
    apply mapM_ok
    intro p _
    simp only [Function.comp_apply]
    rw [axisKey_ok h]; rfl
  rw [this]
  show Except.ok (dictOf _) = _
  rw [dictOf_nodup]
  rw [List.map_map]
  have : (Prod.fst ∘ fun p : Fin G.n × β => (axk h raw p.1, g p.2)) = axk h raw ∘ Prod.fst := rfl
  rw [this, ← List.map_map]
  exact (tocoo_nodup v).map fun _ _ => axk_inj h raw

/-- the rows that have entries -/
def nonEmptyRows {m n : Nat} (A : Mat m n β) : List (Fin m) :=
  (List.finRange m).filter fun i => !(tocoo (A i)).isEmpty

theorem hyperToDicts_ok (h : G.WF) (A : Mat G.n G.n β) (hA : ∃ i j, (A i j).isSome)
    (dec : β → Except Err γ) (g : β → γ) (hdec : ∀ i j x, A i j = some x → dec x = .ok (g x))
    (rawR rawC : Bool) :
    hyperToDicts G dec rawR rawC (hypercsr A) =
      .ok ((nonEmptyRows A).map fun i =>
        (axk h rawR i, (tocoo (A i)).map fun p => (axk h rawC p.1, g p.2))) := by
  have hvals : (hypercsr A).vals.mapM dec =
      .ok ((nonEmptyRows A).map fun i => ((tocoo (A i)).map fun p => p.2).map g).flatten := by
    have : ((nonEmptyRows A).map fun i => ((tocoo (A i)).map fun p => p.2).map g).flatten =
        (hypercsr A).vals.map g := by
      simp only [hypercsr, nonEmptyRows, List.map_flatten, List.map_map, Function.comp_def]
    rw [this]
    apply mapM_ok
    intro x hx
    simp only [hypercsr, List.mem_flatten, List.mem_map] at hx
    obtain ⟨_, ⟨i, -, rfl⟩, hx⟩ := hx
    simp only [List.mem_map] at hx
    obtain ⟨⟨j, x'⟩, hm, rfl⟩ := hx
    exact hdec i j _ (mem_tocoo.1 hm)
  have hne : nonEmptyRows A ≠ [] := by
    obtain ⟨i, j, hij⟩ := hA
    intro e
    have : i ∈ nonEmptyRows A := by
      unfold nonEmptyRows
      simp only [List.mem_filter, List.mem_finRange, true_and, Bool.not_eq_true']
      rw [← Bool.not_eq_true, tocoo_isEmpty]
      intro c; rw [c j] at hij; cases hij
    rw [e] at this; cases this
  have hlen : ¬ (hypercsr A).indptr.length < 2 := by
    have : (hypercsr A).indptr.length = (nonEmptyRows A).length + 1 := by
      simp [hypercsr, nonEmptyRows]
    have h2 : 0 < (nonEmptyRows A).length := List.length_pos_iff.2 hne
    omega
  unfold hyperToDicts
  rw [hvals]
  show (if _ then _ else _) = _
  rw [if_neg hlen]
  have key := windows_slices (fun i : Fin G.n => i.val)
    (fun i => (tocoo (A i)).map fun p => p.1.val)
    (fun i => ((tocoo (A i)).map fun p => p.2).map g) (by intro i; simp)
    (fun r (cs : List Nat) (vs : List γ) => (do
      let k ← axisKey G rawR r
      let d ← rowDict G rawC cs vs
      .ok (k, d) : Except Err ((K ⊕ Nat) × List ((K ⊕ Nat) × γ)))) (nonEmptyRows A) [] [] rfl
  simp only [List.nil_append, List.length_nil, List.length_map] at key
  have e1 : (hypercsr A).rows = (nonEmptyRows A).map fun i => i.val := rfl
  have e2 : (hypercsr A).indptr = ((nonEmptyRows A).map fun i => (tocoo (A i)).length).scanl (· + ·) 0 := rfl
  have e3 : (hypercsr A).cols = ((nonEmptyRows A).map fun i => (tocoo (A i)).map fun p => p.1.val).flatten := rfl
  rw [e1, e2, e3, key]
  rw [mapM_ok (g := fun i => (axk h rawR i, (tocoo (A i)).map fun p => (axk h rawC p.1, g p.2)))]
  · show Except.ok (dictOf _) = _
    rw [dictOf_nodup]
    rw [List.map_map]
    exact (List.Nodup.filter _ (List.nodup_finRange _)).map fun i j e => axk_inj h rawR e
  · intro i _
    rw [axisKey_ok h, rowDict_ok h]; rfl

end Proofs
