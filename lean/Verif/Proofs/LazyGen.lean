import Verif.Model.Lazy
import Verif.Proofs.Except

open GB Model Model.Lazy Model.Lazy.Gen

namespace Proofs.LazyGen

variable {β γ : Type}

/-- the generator that hands out the members of a list -/
def ofList (L : List β) : Gen β := L.foldr Gen.yield Gen.done

theorem append_done (g : Gen β) : append g .done = g := by
  induction g with
  | done => rfl
  | fail e => rfl
  | yield b r ih => simp only [append, ih]

theorem append_assoc (g h k : Gen β) : append (append g h) k = append g (append h k) := by
  induction g with
  | done => rfl
  | fail e => rfl
  | yield b r ih => simp only [append, ih]

theorem ofList_append (L M : List β) : append (ofList L) (ofList M) = ofList (L ++ M) := by
  induction L with
  | nil => rfl
  | cons a L ih =>
    show Gen.yield a (append (ofList L) (ofList M)) = _
    rw [ih]; rfl

theorem forEach_cons (x : γ) (l : List γ) (f : γ → Gen β) :
    forEach (x :: l) f = append (f x) (forEach l f) := rfl

theorem forEach_congr {l : List γ} {f g : γ → Gen β} (h : ∀ x ∈ l, f x = g x) : forEach l f = forEach l g := by
  induction l with
  | nil => rfl
  | cons x l ih =>
    rw [forEach_cons, forEach_cons, h x (by simp), ih fun y hy => h y (by simp [hy])]

theorem forEach_map {δ : Type} (l : List δ) (k : δ → γ) (f : γ → Gen β) :
    forEach (l.map k) f = forEach l fun x => f (k x) := by
  induction l with
  | nil => rfl
  | cons x l ih => rw [List.map_cons, forEach_cons, forEach_cons, ih]

theorem forEach_give (l : List γ) (k : γ → β) : (forEach l fun x => give (k x)) = ofList (l.map k) := by
  induction l with
  | nil => rfl
  | cons x l ih => rw [forEach_cons, ih]; rfl

/-- a loop whose passes either hand out a list or raise `e` -/
theorem forEach_blocks {l : List γ} {f : γ → Gen β} {items : γ → List β} {good : γ → Prop}
    [DecidablePred good] {e : Err} (h1 : ∀ x ∈ l, good x → f x = ofList (items x))
    (h2 : ∀ x ∈ l, ¬ good x → f x = .fail e) {last : Gen β}
    (h3 : (∀ x ∈ l, good x) → last = .done) (h4 : (∃ x ∈ l, ¬ good x) → last = .fail e) :
    forEach l f = append (ofList ((l.takeWhile fun x => decide (good x)).flatMap items)) last := by
  induction l with
  | nil => rw [h3 (by simp)]; rfl
  | cons x l ih =>
    rw [forEach_cons]
    by_cases hx : good x
    · rw [ih (fun y hy => h1 y (by simp [hy])) (fun y hy => h2 y (by simp [hy]))
        (fun h => h3 (by simpa [hx] using h)) (fun ⟨y, hy, h⟩ => h4 ⟨y, by simp [hy], h⟩), h1 x (by simp) hx]
      simp only [List.takeWhile_cons, hx, decide_true, if_true, List.flatMap_cons]
      rw [← append_assoc, ofList_append]
    · rw [h2 x (by simp) hx, h4 ⟨x, by simp, hx⟩]
      simp only [List.takeWhile_cons, hx, decide_false, Bool.false_eq_true, if_false, List.flatMap_nil]
      rfl

theorem take_done (L : List β) (t : Nat) : take t (ofList L) = (L.take t, none) := by
  induction L generalizing t with
  | nil => cases t <;> rfl
  | cons a L ih =>
    cases t with
    | zero => rfl
    | succ t =>
      show (let (bs, e) := take t (ofList L); (a :: bs, e)) = _
      rw [ih]; rfl

theorem take_fail (L : List β) (e : Err) (t : Nat) :
    take t (append (ofList L) (.fail e)) = (L.take t, if t ≤ L.length then none else some e) := by
  induction L generalizing t with
  | nil =>
    cases t with
    | zero => rfl
    | succ t => simp [ofList, append, take]
  | cons a L ih =>
    cases t with
    | zero => simp [take]
    | succ t =>
      show (let (bs, e) := take t (append (ofList L) (.fail e)); (a :: bs, e)) = _
      rw [ih]; simp

theorem toList_ok {g : Gen β} {L : List β} (h : g.toList = .ok L) : g = ofList L := by
  induction g generalizing L with
  | done => cases h; rfl
  | fail e => cases h
  | yield b r ih =>
    simp only [toList] at h
    cases hr : r.toList with
    | error e => rw [hr] at h; cases h
    | ok bs => rw [hr] at h; cases h; rw [ih hr]; rfl

theorem toList_ofList (L : List β) : (ofList L).toList = .ok L := by
  induction L with
  | nil => rfl
  | cons a L ih =>
    show toList (Gen.yield a (ofList L)) = _
    simp only [toList, ih]

theorem toList_append (g h : Gen β) :
    (append g h).toList = (do let a ← g.toList; let b ← h.toList; return a ++ b) := by
  induction g with
  | done =>
    show h.toList = (do let b ← h.toList; return [] ++ b)
    cases h.toList <;> rfl
  | fail e => rfl
  | yield b r ih =>
    simp only [append, toList, ih]
    cases r.toList with
    | error e => rfl
    | ok a => cases h.toList <;> rfl

theorem toList_forEach (l : List γ) (f : γ → Gen β) :
    (forEach l f).toList = (do let a ← l.mapM fun x => (f x).toList; return a.flatten) := by
  induction l with
  | nil => rfl
  | cons x l ih =>
    rw [forEach_cons, toList_append, ih, List.mapM_cons]
    cases (f x).toList with
    | error e => rfl
    | ok a =>
      show ((do let b ← (do let a ← l.mapM _; return a.flatten); return a ++ b) : Except Err (List β)) = _
      cases (l.mapM fun x => (f x).toList) <;> rfl

theorem toList_bind {δ : Type} (x : Except Err δ) (f : δ → Gen β) :
    (Gen.bind x f).toList = (do let c ← x; (f c).toList) := by
  cases x <;> rfl

/-- a loop that hands out one value per pass -/
theorem toList_each {l : List γ} {f : γ → Gen β} {k : γ → Except Err β}
    (h : ∀ x ∈ l, (f x).toList = (do let b ← k x; return [b])) : (forEach l f).toList = l.mapM k := by
  induction l with
  | nil => rfl
  | cons x l ih =>
    rw [forEach_cons, toList_append, ih fun y hy => h y (by simp [hy]), h x (by simp), List.mapM_cons]
    cases k x with
    | error e => rfl
    | ok b =>
      show ((do let b' ← l.mapM k; return [b] ++ b') : Except Err (List β)) = _
      cases l.mapM k <;> rfl

end Proofs.LazyGen
