import Verif.Props.FloatRank64
import Verif.Props.Centrality
import Verif.Proofs.FloatHits

/-!
# C130: `hits` with rounding and in IEEE 754 double precision
-/

open GB Spec Model Model.Graph Proofs Proofs.Power Proofs.Fr

namespace Props

variable {K F : Type} [Field F] [LinearOrder F] [IsStrictOrderedRing F] [DecidableEq K] {G : Graph K F}

/-- weights and `nstart` are nonnegative numbers of the format; the weights into and out of any node total at most `D`,
the values of `nstart` total at most `B`, and not 0 -/
structure FhInput (G : Graph K F) (Rp : F → Prop) (D B : F) (nstart : Option (List (K × F))) : Prop where
  weights : ∀ u v a, G.WEdge u v a → Rp a ∧ 0 ≤ a
  out : ∀ u, G.Node u → sumOver G.nodes (fun v => (G.weight? u v).getD 0) ≤ D
  into : ∀ v, G.Node v → sumOver G.nodes (fun u => (G.weight? u v).getD 0) ≤ D
  valid : ∀ l, nstart = some l → ValidDict G l
  values : ∀ l, nstart = some l → ∀ k b, (k, b) ∈ l → Rp b ∧ 0 ≤ b
  total : ∀ l, nstart = some l → 0 < sumOver G.nodes (valueIn l) ∧ sumOver G.nodes (valueIn l) ≤ B

/-- Scores: every node has one, they are nonnegative, and they are all 0 or else they sum to 1 up to `e₁` (normalized),
or none is above `1 + e₂` and some is within `e₂` of 1 (not normalized). -/
def Scores (G : Graph K F) (normalized : Bool) (e₁ e₂ : F) (r : Vec G.n F) : Prop :=
  (∀ v, G.Node v → ∃ y, G.view r v = some y ∧ 0 ≤ y) ∧
  ((∀ v, G.Node v → G.view r v = some 0) ∨
    if normalized then |sumOver G.nodes (fun v => (G.view r v).getD 0) - 1| ≤ e₁
    else (∀ v, G.Node v → (G.view r v).getD 0 ≤ 1 + e₂) ∧ ∃ v, G.Node v ∧ |(G.view r v).getD 0 - 1| ≤ e₂)

theorem scores_of (h : G.WF) {Rp : F → Prop} {r : Vec G.n F} (hr : Good Rp r) {normalized : Bool} {e₁ e₂ : F}
    (hz : (∀ i, (r i).getD 0 = 0) ∨
      if normalized then |∑ i, (r i).getD 0 - 1| ≤ e₁
      else (∀ i, (r i).getD 0 ≤ 1 + e₂) ∧ ∃ i, |(r i).getD 0 - 1| ≤ e₂) :
    Scores G normalized e₁ e₂ (nodemapFill none r 0) := by
  have hv : ∀ i, G.view (nodemapFill none r 0) (keyFn h i) = some ((r i).getD 0) := by
    intro i
    rw [view_keyFn]
    rfl
  constructor
  · intro v hvn
    obtain ⟨i, rfl⟩ := exists_keyFn h hvn
    exact ⟨_, hv i, hr.val i⟩
  rcases hz with hz | hz
  · left
    intro v hvn
    obtain ⟨i, rfl⟩ := exists_keyFn h hvn
    rw [hv, hz]
  right
  cases normalized with
  | true =>
    simp only [if_true] at hz ⊢
    rw [sumOver_nodes h]
    simpa only [hv, Option.getD_some] using hz
  | false =>
    rw [if_neg (by simp)] at hz ⊢
    refine ⟨fun v hvn => ?_, ?_⟩
    · obtain ⟨i, rfl⟩ := exists_keyFn h hvn
      rw [hv]; exact hz.1 i
    · obtain ⟨i, hi⟩ := hz.2
      refine ⟨keyFn h i, (keyFn_at h i).node, ?_⟩
      rw [hv]; exact hi

/-- rounding error of a total of 1 -/
def hitsError (u η D : F) (n : Nat) : F := (growth u ^ (n + 2) - 1) + n * (η * (8 * D + 4))

/-- rounding error of a maximum of 1 -/
def hitsPeak (u η D : F) : F := (growth u ^ 2 - 1) + (η + growth u * (η * (8 * (D + 1) ^ 2)))

/-- **C130.** In rounded arithmetic, hub and authority scores returned by `hits`: every node has both, they are
nonnegative, and the hubs (authorities) are all 0, or sum to 1 up to rounding (`normalized`), or have maximum 1 up to
rounding -- however many passes were made.  The errors raised are the two that stand for "not converged". -/
theorem float_hits (h : G.WF) {o : Arith F} {Rp : F → Prop} {u η D B : F} (R : Rounded o Rp u η)
    {nstart : Option (List (K × F))} (hi : FhInput G Rp D B nstart) (hs : HitsSize u η D B G.nodes.length)
    (maxIter : Int) (tol : F) (normalized : Bool) :
    (∀ hub auth, Model.Fh.hits o G maxIter tol nstart normalized = .ok (some (hub, auth)) →
      Scores G normalized (hitsError u η D G.nodes.length) (hitsPeak u η D) hub ∧
      Scores G normalized (hitsError u η D G.nodes.length) (hitsPeak u η D) auth) ∧
    ∀ e, Model.Fh.hits o G maxIter tol nstart normalized = .error e →
      e = if maxIter < 1 then .valueError else .convergence := by
  have hlen : G.nodes.length = G.n := nodes_length h
  rw [hlen] at hs ⊢
  unfold Model.Fh.hits
  by_cases hn : G.n = 0
  · rw [if_pos hn]
    exact ⟨fun _ _ e => by simp at e, fun _ e => by simp at e⟩
  rw [if_neg hn]
  have hg := one_le_growth R
  have he := R.eta0
  have hD := hs.D0
  obtain ⟨hnη, hη, hηY⟩ := hs.eta he
  obtain ⟨xv, hx1, hx2, hx3⟩ := fr_dict h (d := nstart) (Rp := Rp) hi.valid
    (fun l hl k b hm => (hi.values l hl k b hm).2) (fun l hl k b hm => (hi.values l hl k b hm).1)
  have hxv : ∀ v, xv = some v → Good Rp v ∧ 0 < ∑ i, (v i).getD 0 ∧ ∑ i, (v i).getD 0 ≤ B := by
    intro v hv
    cases hc : nstart with
    | none => rw [hx2 hc] at hv; cases hv
    | some l =>
      obtain ⟨v', h1, h2, h3, -⟩ := hx3 l hc
      rw [h1] at hv; cases hv
      have e : ∑ i, (v i).getD 0 = sumOver G.nodes (valueIn l) := by
        rw [sumOver_nodes h]
        exact Finset.sum_congr rfl fun i _ => h2 i
      rw [e]
      exact ⟨h3, (hi.total l hc).1, (hi.total l hc).2⟩
  have hA : ∀ i j a, G.A i j = some a → Rp a ∧ 0 ≤ a := fun i j a hA =>
    hi.weights _ _ a ⟨i, j, keyFn_at h i, keyFn_at h j, hA⟩
  have hout : ∀ i, ∑ j, (G.A i j).getD 0 ≤ D := by
    intro i
    have := hi.out (keyFn h i) (keyFn_at h i).node
    rw [sumOver_nodes h] at this
    simpa only [weight?_keyFn] using this
  have hin : ∀ j, ∑ i, (G.A i j).getD 0 ≤ D := by
    intro j
    have := hi.into (keyFn h j) (keyFn_at h j).node
    rw [sumOver_nodes h] at this
    simpa only [weight?_keyFn] using this
  obtain ⟨x0, i1, i2, i3⟩ := hits_init R hs hn hxv
  have inv : ∀ k, let s := (Model.Fh.hitsStep o G.A)^[k] (x0, vempty)
      Good Rp s.1 ∧ ∀ i, (s.1 i).getD 0 ≤ 2 := by
    intro k
    induction k with
    | zero => exact ⟨i2, i3⟩
    | succ k ih =>
      rw [Function.iterate_succ_apply']
      obtain ⟨-, b, c, -⟩ := hits_step R hs hA hout hin ih.1 ih.2
      exact ⟨b, c⟩
  rw [hx1]
  show (∀ hub auth, (match Model.Fh.hitsV o G.A maxIter tol xv normalized with
    | .ok s => Except.ok (some (nodemapFill none s.1 (o.nat 0), nodemapFill none s.2 (o.nat 0)))
    | .error e => .error (if e = Err.convergence ∧ maxIter < 1 then Err.valueError else e)) = .ok (some (hub, auth)) → _) ∧
    ∀ e, (match Model.Fh.hitsV o G.A maxIter tol xv normalized with
    | .ok s => Except.ok (some (nodemapFill none s.1 (o.nat 0), nodemapFill none s.2 (o.nat 0)))
    | .error e => .error (if e = Err.convergence ∧ maxIter < 1 then Err.valueError else e)) = .error e → _
  have hV : Model.Fh.hitsV o G.A maxIter tol xv normalized =
      (powerIter (Model.Fh.hitsStep o G.A) (fun s t => Model.Fr.converged o tol s.1 t.1) maxIter.toNat (x0, vempty)).map
        fun s => if normalized then (Model.Fh.normalizeL1 o s.1, Model.Fh.normalizeL1 o s.2)
          else (s.1, Model.Fh.normalizeLinf o s.2) := by
    unfold Model.Fh.hitsV
    rw [if_neg hn, i1]
    show (Except.bind (powerIter _ _ _ _) fun s => _) = _
    cases powerIter (Model.Fh.hitsStep o G.A) (fun s t => Model.Fr.converged o tol s.1 t.1) maxIter.toNat
      (x0, vempty) <;> rfl
  rw [hV]
  cases hp : powerIter (Model.Fh.hitsStep o G.A) (fun s t => Model.Fr.converged o tol s.1 t.1) maxIter.toNat
      (x0, vempty) with
  | error e =>
    refine ⟨fun _ _ hr => (by cases hr), fun e' he' => ?_⟩
    obtain ⟨rfl, -⟩ := powerIter_error.1 hp
    cases he'
    simp
  | ok s =>
    refine ⟨fun hub auth hr => ?_, fun _ hr => (by cases hr)⟩
    obtain ⟨k, -, rfl, -⟩ := powerIter_ok.1 hp
    cases hr
    rw [Function.iterate_succ_apply']
    obtain ⟨⟨a1, a2⟩, b1, b2, b3, b4⟩ := hits_step R hs hA hout hin (inv k).1 (inv k).2
    have g1 : growth u ^ 2 ≤ 3 / 2 := (pow_le_pow_right₀ hg (by omega)).trans hs.growth
    have g2 : growth u ≤ 3 / 2 := (le_self_pow₀ hg (by norm_num)).trans g1
    have hn0 : (0 : F) ≤ G.n := Nat.cast_nonneg _
    have total : ∀ (v : Vec G.n F) (X : F), (∀ i, (v i).getD 0 ≤ X) → 0 ≤ X → X ≤ 4 * D + 2 →
        (growth u ^ (G.n + 2) - 1) + G.n * η + growth u * (η * ∑ i, (v i).getD 0) ≤ hitsError u η D G.n := by
      intro v X hX hX0 hX1
      have t : ∑ i, (v i).getD 0 ≤ G.n * X := by
        refine (Finset.sum_le_sum fun i _ => hX i).trans ?_
        simp
      have t1 : η * ∑ i, (v i).getD 0 ≤ η * (G.n * (4 * D + 2)) :=
        mul_le_mul_of_nonneg_left (t.trans (mul_le_mul_of_nonneg_left hX1 hn0)) he
      have t0 : 0 ≤ η * (G.n * (4 * D + 2)) := by positivity
      have t2 : growth u * (η * ∑ i, (v i).getD 0) ≤ 3 / 2 * (η * (G.n * (4 * D + 2))) :=
        (mul_le_mul_of_nonneg_left t1 (by linarith)).trans (mul_le_mul_of_nonneg_right g2 t0)
      unfold hitsError
      have e : 3 / 2 * (η * (G.n * (4 * D + 2))) = G.n * η * (6 * D) + 3 * (G.n * η) := by ring
      have e2 : G.n * (η * (8 * D + 4)) = G.n * η * (6 * D) + G.n * η * (2 * D) + 4 * (G.n * η) := by ring
      have : 0 ≤ G.n * η * (2 * D) := by positivity
      linarith
    cases normalized with
    | true =>
      simp only [if_true]
      rw [R.zero]
      constructor
      · obtain ⟨n1, n2⟩ := normalizeL1_near R b1
        refine scores_of h n1 (n2.imp_right fun e => ?_)
        rw [if_pos rfl]
        exact e.trans (total _ 2 b2 (by norm_num) (by linarith))
      · obtain ⟨n1, n2⟩ := normalizeL1_near R a1
        refine scores_of h n1 (n2.imp_right fun e => ?_)
        rw [if_pos rfl]
        exact e.trans (total _ (4 * D + 1) a2 (by linarith) (by linarith))
    | false =>
      simp only [Bool.false_eq_true, if_false]
      rw [R.zero]
      have e1 : 1 + hitsPeak u η D = growth u ^ 2 + (η + growth u * (η * (8 * (D + 1) ^ 2))) := by
        unfold hitsPeak; ring
      constructor
      · refine scores_of h b1 (b4.imp_right fun e => ?_)
        rw [if_neg (by simp)]
        exact ⟨fun i => (b3 i).trans e1.ge, e⟩
      · obtain ⟨n1, n2, n3⟩ := normalizeLinf_near R (Y := 8 * (D + 1) ^ 2) a1 (fun i => (a2 i).trans (by
          have : 0 ≤ D ^ 2 := sq_nonneg D
          have e : 8 * (D + 1) ^ 2 = 8 * D ^ 2 + 16 * D + 8 := by ring
          linarith)) (by positivity)
        refine scores_of h n1 (n3.imp_right fun e => ?_)
        rw [if_neg (by simp)]
        exact ⟨fun i => (n2 i).trans e1.ge, e⟩

omit [IsStrictOrderedRing F] in
/-- **C130.** with exact arithmetic this is the model that C67 is about -/
theorem float_hits_exact (G : Graph K F) (maxIter : Int) (tol : F) (nstart : Option (List (K × F)))
    (normalized : Bool) :
    Model.Fh.hits (Arith.exact F) G maxIter tol nstart normalized = hits G maxIter tol nstart normalized := by
  have ec : ∀ {n : Nat}, Model.Fr.converged (n := n) (Arith.exact F) tol = isConverged tol := by
    intro n
    funext x y
    unfold Model.Fr.converged isConverged Model.Fr.vsum vsum
    rw [fsum_exact]
    simp [Arith.exact]
  have es : ∀ {n : Nat} (v : Vec n F), Model.Fr.vsum (Arith.exact F) v = vsum v := by
    intro n v
    unfold Model.Fr.vsum vsum
    rw [fsum_exact]
    simp [Arith.exact]
  have eb : ∀ {n : Nat} (d : F) (x : Vec n F), Model.Fh.scaleBy (Arith.exact F) d x = scaleBy d x := by
    intro n d x
    simp [Model.Fh.scaleBy, scaleBy, Arith.exact]
  have e1 : ∀ {n : Nat} (x : Vec n F), Model.Fh.normalizeL1 (Arith.exact F) x = normalizeL1 x := by
    intro n x
    unfold Model.Fh.normalizeL1 normalizeL1
    rw [es, eb]
  have e2 : ∀ {n : Nat} (x : Vec n F), Model.Fh.normalizeLinf (Arith.exact F) x = normalizeLinf x := by
    intro n x
    unfold Model.Fh.normalizeLinf normalizeLinf
    rw [eb]
    simp [Arith.exact]
  have ei : ∀ {n : Nat} (x : Option (Vec n F)), Model.Fh.hitsInit (Arith.exact F) x = hitsInit x := by
    intro n x
    cases x with
    | none => simp [Model.Fh.hitsInit, hitsInit, Arith.exact]
    | some s =>
      unfold Model.Fh.hitsInit hitsInit
      simp only [es]
      simp [Arith.exact]
  have ea : ∀ {n : Nat} (A : Mat n n F) (x : Vec n F), Model.Fh.hitsA (Arith.exact F) A x = hitsA A x := by
    intro n A x
    funext j
    exact fsum_exact _
  have em : ∀ {n : Nat} (A : Mat n n F) (x : Vec n F),
      Model.Fh.mxv (Arith.exact F) A x = GB.mxv (· + ·) (· * ·) A x := by
    intro n A x
    funext j
    exact fsum_exact _
  have et : ∀ {n : Nat} (A : Mat n n F), Model.Fh.hitsStep (Arith.exact F) A = hitsStep A := by
    intro n A
    funext s
    unfold Model.Fh.hitsStep hitsStep
    rw [ea, em, e2]
  have ev : ∀ {n : Nat} (A : Mat n n F) (x : Option (Vec n F)),
      Model.Fh.hitsV (Arith.exact F) A maxIter tol x normalized = hitsV A maxIter tol x normalized := by
    intro n A x
    unfold Model.Fh.hitsV hitsV
    simp only [ec, ei, et, e1, e2]
  have e0 : (Arith.exact F).nat 0 = 0 := by simp [Arith.exact]
  unfold Model.Fh.hits hits
  simp only [ev, e0]
  split
  · rfl
  · cases dictToVector? G nstart with
    | error e => rfl
    | ok x =>
      show (match hitsV G.A maxIter tol x normalized with
        | .ok s => _
        | .error e => _) = (match hitsV G.A maxIter tol x normalized with
        | .ok s => _
        | .error e => _)
      cases hitsV G.A maxIter tol x normalized <;> rfl

end Props
