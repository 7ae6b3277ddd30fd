import Verif.Spec.Lazy
import Verif.Proofs.Buffers

open GB Model Model.Buffers Model.Lazy Spec.Lazy

namespace Proofs.Lazy

open Proofs.Buf

variable {β : Type} {n : Nat}

/-- the layers, all at once -/
def allLayers (ids : Except Err (List (Fin n))) (A : Mat n n β) : Except Err (List (Vec n Bool)) :=
  match ids with
  | .error e => .error e
  | .ok ids =>
    if ids.length = 0 then .ok []
    else .ok (vofIds ids true :: bfsLayersLoop A (n - 1) vempty (vofIds ids true))

theorem dup_bind {γ : Type} (a : Nat) (f : Nat → HM n Bool γ) (h : Heap n Bool) :
    (dup a >>= f) h = f h.next (grow h (h.cell a)) := rfl

/-- the first `next()` -/
theorem start_run (A : Mat n n β) {ids : List (Fin n)} (hl : ids.length ≠ 0) (h : Heap n Bool) :
    layersStep (.ok ids) A .start h =
      (.ok (some (h.next + 2, .at 1 h.next (h.next + 1))),
        grow (grow (grow h vempty) (vofIds ids true)) (vofIds ids true)) := by
  unfold layersStep
  simp only [if_neg hl]
  rw [newEmpty_bind, new_bind, dup_bind]
  simp only [grow_next, pure_run]
  congr 2
  exact grow_same (grow h vempty) _

/-- a later `next()` -/
theorem at_run (ids : Except Err (List (Fin n))) (A : Mat n n β) {i v q : Nat} (hvq : v ≠ q) (hi : i < n)
    (h : Heap n Bool) :
    layersStep ids A (.at i v q) h =
      (let x := vassignC (vS (h.cell q)) (h.cell v) true
       let y := bfsStep A x (h.cell q)
       let g := put (put h v x) q y
       if nvals y = 0 then (.ok none, g) else (.ok (some (h.next, .at (i + 1) v q)), grow g y)) := by
  unfold layersStep
  simp only [if_pos hi]
  rw [read_bind, read_bind, write_bind, read_bind, read_bind, write_bind, read_bind]
  rw [put_same, put_ne _ _ hvq.symm, put_same]
  split
  · rfl
  · rw [dup_bind, put_same]; rfl

theorem at_end (ids : Except Err (List (Fin n))) (A : Mat n n β) {i v q : Nat} (hi : ¬ i < n)
    (h : Heap n Bool) : layersStep ids A (.at i v q) h = (.ok none, h) := by
  unfold layersStep
  simp only [if_neg hi]
  rfl

structure Inv (ids : Except Err (List (Fin n))) (A : Mat n n β) (h0 : Heap n Bool)
    (w : World n Bool LPos) : Prop where
  atStart : w.status = .suspended .start → w.given = []
  atYield : ∀ i v q, w.status = .suspended (.at i v q) → v ≠ q ∧ v < w.heap.next ∧ q < w.heap.next ∧
    ¬ w.known v ∧ ¬ w.known q ∧ allLayers ids A = .ok (w.given.map Prod.snd ++
      bfsLayersLoop A (n - i) (w.heap.cell v) (w.heap.cell q))
  atEnd : w.status = .finished none → allLayers ids A = .ok (w.given.map Prod.snd)
  atFail : ∀ e, w.status = .finished (some e) → allLayers ids A = .error e ∧ w.given = []
  knownOld : ∀ a, w.known a → a < w.heap.next
  old : h0.next ≤ w.heap.next
  oldKnown : ∀ a < h0.next, w.known a
  givenKnown : ∀ p ∈ w.given, w.known p.1 ∧ h0.next ≤ p.1
  nodup : (w.given.map Prod.fst).Nodup

theorem inv_init (ids : Except Err (List (Fin n))) (A : Mat n n β) (h0 : Heap n Bool) :
    Inv ids A h0 (World.init h0 .start) where
  atStart := fun _ => rfl
  atYield := by intro i v q h; cases h
  atEnd := by intro h; cases h
  atFail := by intro e h; cases h
  knownOld := fun a h => h
  old := le_refl _
  oldKnown := fun a h => h
  givenKnown := by intro p hp; cases hp
  nodup := List.nodup_nil

theorem ne_of_known {P : Nat → Prop} {a b : Nat} (ha : P a) (hb : ¬ P b) : a ≠ b := by
  rintro rfl; exact hb ha

/-- one `next()` from a good world: what it does to the vectors the consumer holds, and what it hands out -/
theorem next_spec {ids : Except Err (List (Fin n))} {A : Mat n n β} {h0 : Heap n Bool}
    {w : World n Bool LPos} (hw : Inv ids A h0 w) {p : LPos} (hs : w.status = .suspended p) :
    (∀ a, w.known a → (layersStep ids A p w.heap).2.cell a = w.heap.cell a) ∧
    w.heap.next ≤ (layersStep ids A p w.heap).2.next ∧
    (∀ e, (layersStep ids A p w.heap).1 = .error e → allLayers ids A = .error e ∧ w.given = []) ∧
    ((layersStep ids A p w.heap).1 = .ok none → allLayers ids A = .ok (w.given.map Prod.snd)) ∧
    (∀ a p', (layersStep ids A p w.heap).1 = .ok (some (a, p')) →
      w.heap.next ≤ a ∧ a < (layersStep ids A p w.heap).2.next ∧ ∃ i v q, p' = .at i v q ∧ v ≠ q ∧
        a ≠ v ∧ a ≠ q ∧ v < (layersStep ids A p w.heap).2.next ∧ q < (layersStep ids A p w.heap).2.next ∧
        ¬ w.known v ∧ ¬ w.known q ∧
        allLayers ids A = .ok (w.given.map Prod.snd ++ [(layersStep ids A p w.heap).2.cell a] ++
          bfsLayersLoop A (n - i) ((layersStep ids A p w.heap).2.cell v)
            ((layersStep ids A p w.heap).2.cell q))) := by
  cases p with
  | start =>
    have hg := hw.atStart hs
    cases ids with
    | error e =>
      refine ⟨fun a _ => rfl, le_refl _, ?_, ?_, ?_⟩
      · intro e' h; cases h; exact ⟨rfl, hg⟩
      · intro h; cases h
      · intro a p' h; cases h
    | ok ids =>
      by_cases hl : ids.length = 0
      · have e : layersStep (.ok ids) A .start w.heap = (.ok none, w.heap) := by
          unfold layersStep; simp only [if_pos hl]; rfl
        rw [e]
        refine ⟨fun a _ => rfl, le_refl _, ?_, ?_, ?_⟩
        · intro e' h; cases h
        · intro _; rw [hg]; simp only [allLayers, if_pos hl]; rfl
        · intro a p' h; cases h
      · rw [start_run A hl]
        have hk := hw.knownOld
        refine ⟨fun a ha => ?_, by simp only [grow_next]; omega, ?_, ?_, ?_⟩
        · have := hk a ha
          dsimp only
          rw [grow_old _ _ (by simp only [grow_next]; omega), grow_old _ _ (by simp only [grow_next]; omega),
            grow_old _ _ this]
        · intro e' h; cases h
        · intro h; cases h
        · intro a p' h
          cases h
          have c1 : (grow (grow (grow w.heap vempty) (vofIds ids true)) (vofIds ids true)).cell
              (w.heap.next) = vempty := by
            rw [grow_old _ _ (by simp only [grow_next]; omega), grow_old _ _ (by simp only [grow_next]; omega),
              grow_same]
          have c2 : (grow (grow (grow w.heap vempty) (vofIds ids true)) (vofIds ids true)).cell
              (w.heap.next + 1) = vofIds ids true := by
            rw [grow_old _ _ (by simp only [grow_next]; omega)]
            exact grow_same (grow w.heap vempty) _
          have c3 : (grow (grow (grow w.heap vempty) (vofIds ids true)) (vofIds ids true)).cell
              (w.heap.next + 2) = vofIds ids true :=
            grow_same (grow (grow w.heap vempty) (vofIds ids true)) _
          refine ⟨by omega, by simp only [grow_next]; omega, 1, _, _, rfl, by omega, by omega, by omega,
            by simp only [grow_next]; omega, by simp only [grow_next]; omega, fun h => ?_, fun h => ?_, ?_⟩
          · have := hk _ h; omega
          · have := hk _ h; omega
          · dsimp only
            rw [c1, c2, c3, hg]
            simp only [allLayers, if_neg hl]
            rfl
  | «at» i v q =>
    obtain ⟨hvq, hv, hq, hkv, hkq, ha⟩ := hw.atYield i v q hs
    by_cases hi : i < n
    · rw [at_run ids A hvq hi]
      obtain ⟨m, hm⟩ : ∃ m, n - i = m + 1 := ⟨n - i - 1, by omega⟩
      have hm' : n - (i + 1) = m := by omega
      rw [hm, bfsLayersLoop] at ha
      dsimp only at ha ⊢
      set x := vassignC (vS (w.heap.cell q)) (w.heap.cell v) true with hx
      set y := bfsStep A x (w.heap.cell q) with hy
      by_cases hz : nvals y = 0
      · simp only [if_pos hz] at ha ⊢
        refine ⟨fun a hka => ?_, le_refl _, ?_, ?_, ?_⟩
        · rw [put_ne _ _ (ne_of_known hka hkq), put_ne _ _ (ne_of_known hka hkv)]
        · intro e h; cases h
        · intro _; rw [ha, List.append_nil]
        · intro a p' h; cases h
      · simp only [if_neg hz] at ha ⊢
        refine ⟨fun a hka => ?_, by simp only [grow_next, put_next]; omega, ?_, ?_, ?_⟩
        · rw [grow_old _ _ (by simp only [put_next]; exact hw.knownOld a hka),
            put_ne _ _ (ne_of_known hka hkq), put_ne _ _ (ne_of_known hka hkv)]
        · intro e h; cases h
        · intro h; cases h
        · intro a p' h
          cases h
          refine ⟨le_refl _, by simp only [grow_next, put_next]; omega, i + 1, v, q, rfl, hvq, by omega, by omega,
            by simp only [grow_next, put_next]; omega, by simp only [grow_next, put_next]; omega, hkv, hkq, ?_⟩
          have c1 : (grow (put (put w.heap v x) q y) y).cell v = x := by
            rw [grow_old _ _ (by simp only [put_next]; exact hv), put_ne _ _ hvq, put_same]
          have c2 : (grow (put (put w.heap v x) q y) y).cell q = y := by
            rw [grow_old _ _ (by simp only [put_next]; exact hq), put_same]
          have c3 : (grow (put (put w.heap v x) q y) y).cell w.heap.next = y :=
            grow_same (put (put w.heap v x) q y) y
          rw [c1, c2, c3, hm', ha, List.append_assoc]
          rfl
    · rw [at_end ids A hi]
      refine ⟨fun a _ => rfl, le_refl _, ?_, ?_, ?_⟩
      · intro e h; cases h
      · intro _
        rw [ha, show n - i = 0 by omega, bfsLayersLoop, List.append_nil]
      · intro a p' h; cases h

theorem inv_event {ids : Except Err (List (Fin n))} {A : Mat n n β} {h0 : Heap n Bool}
    {w w' : World n Bool LPos} (hw : Inv ids A h0 w) (he : Event (layersStep ids A) w w') :
    Inv ids A h0 w' := by
  cases he with
  | consumer hn hc =>
    refine ⟨hw.atStart, ?_, hw.atEnd, hw.atFail, ?_, le_trans hw.old hn, fun a ha => Or.inl (hw.oldKnown a ha),
      fun p hp => ⟨Or.inl (hw.givenKnown p hp).1, (hw.givenKnown p hp).2⟩, hw.nodup⟩
    · intro i v q hs
      obtain ⟨hvq, hv, hq, hkv, hkq, ha⟩ := hw.atYield i v q hs
      refine ⟨hvq, lt_of_lt_of_le hv hn, lt_of_lt_of_le hq hn, ?_, ?_, ?_⟩
      · rintro (h | ⟨h, -⟩)
        · exact hkv h
        · omega
      · rintro (h | ⟨h, -⟩)
        · exact hkq h
        · omega
      · rw [hc v hv hkv, hc q hq hkq]; exact ha
    · rintro a (h | ⟨-, h⟩)
      · exact lt_of_lt_of_le (hw.knownOld a h) hn
      · exact h
  | @gives p p' a h hs hr =>
    obtain ⟨-, s2, -, -, s5⟩ := next_spec hw hs
    rw [hr] at s2 s5
    obtain ⟨t1, t2, i, v, q, rfl, hvq, hav, haq, hv, hq, hkv, hkq, hall⟩ := s5 a p' rfl
    dsimp only at *
    refine ⟨(fun h => by cases h), ?_, (fun h => by cases h), (fun _ h => by cases h), ?_, le_trans hw.old s2,
      fun a ha => Or.inl (hw.oldKnown a ha), ?_, ?_⟩
    · intro i' v' q' he
      cases he
      refine ⟨hvq, hv, hq, ?_, ?_, ?_⟩
      · rintro (h | h)
        · exact hkv h
        · exact hav h.symm
      · rintro (h | h)
        · exact hkq h
        · exact haq h.symm
      · rw [hall]; simp
    · rintro b (h | rfl)
      · exact lt_of_lt_of_le (hw.knownOld b h) s2
      · exact t2
    · intro p hp
      rcases List.mem_append.1 hp with hp | hp
      · exact ⟨Or.inl (hw.givenKnown p hp).1, (hw.givenKnown p hp).2⟩
      · rw [List.mem_singleton] at hp
        subst hp
        exact ⟨Or.inr rfl, le_trans hw.old t1⟩
    · rw [List.map_append, List.nodup_append]
      refine ⟨hw.nodup, by simp, ?_⟩
      intro b hb c hc
      obtain ⟨p, hp, rfl⟩ := List.mem_map.1 hb
      have h1 := hw.knownOld _ (hw.givenKnown p hp).1
      simp only [List.map_cons, List.map_nil, List.mem_singleton] at hc
      omega
  | @returns p h hs hr =>
    obtain ⟨-, s2, -, s4, -⟩ := next_spec hw hs
    rw [hr] at s2 s4
    exact ⟨(fun h => by cases h), (fun _ _ _ h => by cases h), fun _ => s4 rfl, (fun _ h => by cases h),
      fun a ha => lt_of_lt_of_le (hw.knownOld a ha) s2, le_trans hw.old s2, hw.oldKnown, hw.givenKnown, hw.nodup⟩
  | @raises p e h hs hr =>
    obtain ⟨-, s2, s3, -, -⟩ := next_spec hw hs
    rw [hr] at s2 s3
    refine ⟨(fun h => by cases h), (fun _ _ _ h => by cases h), (fun h => by cases h), ?_,
      fun a ha => lt_of_lt_of_le (hw.knownOld a ha) s2, le_trans hw.old s2, hw.oldKnown, hw.givenKnown, hw.nodup⟩
    intro e' h
    cases h
    exact s3 e rfl

theorem inv_reaches {ids : Except Err (List (Fin n))} {A : Mat n n β} {h0 : Heap n Bool}
    {w : World n Bool LPos} (h : Reaches (layersStep ids A) (World.init h0 .start) w) : Inv ids A h0 w := by
  induction h with
  | refl => exact inv_init ids A h0
  | tail _ he ih => exact inv_event ih he

end Proofs.Lazy
