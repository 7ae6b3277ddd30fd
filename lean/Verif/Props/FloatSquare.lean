import Verif.Props.FloatRatio
import Verif.Props.Square

/-!
# C128: square clustering in double precision

The one-node call divides two Python ints, the others divide two INT64 vectors after converting them to FP64; chunked
or not, all give the correctly rounded coefficient.
-/

open GB Spec Model Model.Graph Proofs Proofs.Flt Proofs.Square

namespace Props

variable {K : Type} [DecidableEq K] {G : Graph K Int} {q : IntDiv} {r : ℚ → ℚ}

/-- numerator and denominator stay below `2⁵³` on graphs of at most 131072 nodes -/
theorem square_counts_le (h : Simple G) (hN : G.nodes.length ≤ 2 ^ 17) {u : K} (hu : G.Node u) :
    squarePotential G.nodes G.Edge u ≤ 2 ^ 53 := by
  set N := G.nodes.length with hNd
  have hterm : ∀ a b : K, (if a ≠ b ∧ G.Edge u a ∧ G.Edge u b then
      (countOf G.nodes (G.Edge a) - (squaresAt G.nodes G.Edge u a b + 1 + if G.Edge a b then 1 else 0) : Int) +
      (countOf G.nodes (G.Edge b) - (squaresAt G.nodes G.Edge u a b + 1 + if G.Edge a b then 1 else 0) : Int) +
      squaresAt G.nodes G.Edge u a b else 0) ≤ 3 * (N : Int) := by
    intro a b
    have h1 : (countOf G.nodes (G.Edge a) : Int) ≤ N := by exact_mod_cast List.countP_le_length
    have h2 : (countOf G.nodes (G.Edge b) : Int) ≤ N := by exact_mod_cast List.countP_le_length
    have h3 : (0 : Int) ≤ squaresAt G.nodes G.Edge u a b := Int.natCast_nonneg _
    split
    · split_ifs <;> omega
    · omega
  have hs : ∀ (f : K → Int) (c : Int) (l : List K), (∀ a, f a ≤ c) → sumOver l f ≤ l.length * c := by
    intro f c l hf
    have := List.sum_le_card_nsmul (l.map f) c (by simpa using fun a _ => hf a)
    simpa [sumOver] using this
  have h2 := hs _ _ G.nodes (fun a => hs _ _ G.nodes (hterm a))
  refine le_trans h2 ?_
  rw [← hNd]
  have hN' : (N : Int) ≤ 2 ^ 17 := by exact_mod_cast hN
  have h0 : (0 : Int) ≤ N := Int.natCast_nonneg _
  have h3 : (N : Int) * N ≤ 2 ^ 17 * 2 ^ 17 := mul_le_mul hN' hN' h0 (by norm_num)
  have h4 : (N : Int) * N * N ≤ 2 ^ 17 * 2 ^ 17 * 2 ^ 17 := mul_le_mul h3 hN' h0 (by norm_num)
  have e : (N : Int) * (N * (3 * N)) = 3 * (N * N * N) := by ring
  rw [e]
  linarith

theorem squareVec_via (hq : Via q r) (h : Simple G) (hN : G.nodes.length ≤ 2 ^ 17)
    (ids : Option (List (Fin G.n))) : Ra.squareVec q G.A ids = vapply r (squareVec G.A ids) := by
  funext i
  show _ = (squareVec G.A ids i).map r
  rw [squareVec_eq h.symm h.one]
  refine (squareParts_eq h.symm q.gb ids i).trans ?_
  by_cases hc : inIds ids i ∧ SS (az G.A) i ≠ 0
  · rw [if_pos hc, if_pos hc, denW_unit h.one]
    have hb := square_counts_le h hN (keyFn_at h.wf i).node
    have hle := (square_clustering_bounds h (keyFn_at h.wf i).node).1
    have h2 := two_den h.symm h.diag i
    rw [← squarePotential_eq h.wf] at h2
    have hp := SS_pairs h i
    have h0 : (0 : Int) ≤ (squarePairs G.nodes G.Edge (keyFn h.wf i) : Int) := Int.natCast_nonneg _
    have b1 : |SS (az G.A) i / 2| ≤ 2 ^ 53 := by rw [abs_le]; constructor <;> omega
    have b2 : |den G.A i| ≤ 2 ^ 53 := by rw [abs_le]; constructor <;> omega
    rw [hq.gb _ _ b1 b2]; rfl
  · rw [if_neg hc, if_neg hc]; rfl

theorem vadd_any_map {n : Nat} (f : ℚ → ℚ) (x y : Vec n ℚ) :
    vadd any' (vapply f x) (vapply f y) = vapply f (vadd any' x y) := by
  funext i
  simp only [vadd, vapply]
  cases x i <;> cases y i <;> rfl

theorem squareSplitLoop_via (hq : Via q r) (h : Simple G) (hN : G.nodes.length ≤ 2 ^ 17)
    (ps : List (Piece (Fin G.n))) (x : Option (Vec G.n ℚ)) :
    Ra.squareSplitLoop q G.A ps (x.map (vapply r)) = (squareSplitLoop G.A ps x).map (vapply r) := by
  induction ps generalizing x with
  | nil => rfl
  | cons p ps ih =>
    unfold Ra.squareSplitLoop squareSplitLoop
    dsimp only
    rw [squareVec_via hq h hN]
    cases x with
    | none => exact ih (some _)
    | some x =>
      simp only [Option.map_some]
      rw [vadd_any_map]
      exact ih (some _)

theorem squareResult_via (hq : Via q r) (h : Simple G) (hN : G.nodes.length ≤ 2 ^ 17)
    (ids : Option (List (Fin G.n))) (c : Option Int) :
    Ra.squareResult q G.A ids c = (squareResult G.A ids c).map (vapply r) := by
  unfold Ra.squareResult squareResult squareSplit
  cases c with
  | none => simp only [squareVec_via hq h hN]; rfl
  | some c =>
    cases ids with
    | none =>
      dsimp only
      have := squareSplitLoop_via hq h hN (partition c (indices (reduceRow any' G.A))) none
      rw [Option.map_none] at this
      rw [this]
      cases squareSplitLoop G.A (partition c (indices (reduceRow any' G.A))) none <;> rfl
    | some l =>
      dsimp only
      have := squareSplitLoop_via hq h hN (partition c l) none
      rw [Option.map_none] at this
      rw [this]
      cases squareSplitLoop G.A (partition c l) none <;> rfl

theorem squareClustering_via (hq : Via q r) (h : Simple G) (hN : G.nodes.length ≤ 2 ^ 17) (c : Option Int) :
    Ra.squareClustering q G c = (squareClustering G c).map (vapply r) := by
  unfold Ra.squareClustering squareClustering
  rw [squareResult_via hq h hN]
  cases squareResult G.A none c with
  | error e => rfl
  | ok v =>
    show Except.ok _ = Except.ok _
    congr 1
    exact nodemapFill_map none v _ hq.zero fun i => rfl

theorem squareClusteringOf_via (hq : Via q r) (h : Simple G) (hN : G.nodes.length ≤ 2 ^ 17) (nodes : List K)
    (c : Option Int) : Ra.squareClusteringOf q G nodes c = (squareClusteringOf G nodes c).map (vapply r) := by
  unfold Ra.squareClusteringOf squareClusteringOf
  cases listToIds G nodes with
  | error e => rfl
  | ok l => exact squareResult_via hq h hN (some l) c

omit [DecidableEq K] in
theorem singleSquareAt_via (hq : Via q r) (i : Fin G.n) :
    Ra.singleSquareAt q G.A i = (singleSquareAt G.A i).map r := by
  unfold Ra.singleSquareAt singleSquareAt
  dsimp only
  split
  · show _ = Except.ok _; rw [hq.zero]
  · split
    · show _ = Except.ok _; rw [hq.zero]
    · cases dot (· + ·) (· * ·) (G.A i) (degZ G.A) with
      | none => rfl
      | some uw =>
        dsimp only
        split
        · rfl
        · rw [hq.py]; rfl

theorem squareClusteringSingle_via (hq : Via q r) (u : K) :
    Ra.squareClusteringSingle q G u = (squareClusteringSingle G u).map r := by
  unfold Ra.squareClusteringSingle squareClusteringSingle
  cases G.getId u with
  | error e => rfl
  | ok i => exact singleSquareAt_via hq i

/-- **C128.** `square_clustering` in double precision, whole or in chunks of any size, for all nodes, for a list and
for one node: the same correctly rounded number, in `[0, 1]`; it is 1 or 0 only if the exact coefficient is. -/
theorem double_square_clustering (h : Simple G) (hN : G.nodes.length ≤ 2 ^ 17) (c : Option Int)
    (hc : c = none ∨ ∃ u v, G.Edge u v) {nodes : List K} (hn : ∀ u ∈ nodes, G.Node u) (hne : nodes ≠ []) :
    (∃ R, Ra.squareClustering .double G c = .ok R ∧
      ∀ u x, G.view R u = some x ↔ G.Node u ∧ x = rnd64 (squareCoeff G.nodes G.Edge u)) ∧
    (∃ R, Ra.squareClusteringOf .double G nodes c = .ok R ∧ ∀ u x, G.view R u = some x ↔
      u ∈ nodes ∧ 0 < squarePairs G.nodes G.Edge u ∧ x = rnd64 (squareCoeff G.nodes G.Edge u)) ∧
    ∀ u, G.Node u → Ra.squareClusteringSingle .double G u = .ok (rnd64 (squareCoeff G.nodes G.Edge u)) ∧
      0 ≤ rnd64 (squareCoeff G.nodes G.Edge u) ∧ rnd64 (squareCoeff G.nodes G.Edge u) ≤ 1 ∧
      (rnd64 (squareCoeff G.nodes G.Edge u) = 1 ↔ squareCoeff G.nodes G.Edge u = 1) ∧
      (rnd64 (squareCoeff G.nodes G.Edge u) = 0 ↔ squareCoeff G.nodes G.Edge u = 0) := by
  refine ⟨?_, ?_, fun u hu => ?_⟩
  · obtain ⟨R, hR, hv⟩ := square_clustering_correct h c hc
    rw [squareClustering_via via_double h hN, hR]
    refine ⟨_, rfl, fun u x => ?_⟩
    rw [view_vmap, Option.map_eq_some_iff]
    constructor
    · rintro ⟨y, hy, rfl⟩
      obtain ⟨h1, rfl⟩ := (hv u y).1 hy
      exact ⟨h1, rfl⟩
    · rintro ⟨h1, rfl⟩
      exact ⟨_, (hv u _).2 ⟨h1, rfl⟩, rfl⟩
  · obtain ⟨R, hR, hv⟩ := square_clustering_subset_partial h hn hne c
    rw [squareClusteringOf_via via_double h hN, hR]
    refine ⟨_, rfl, fun u x => ?_⟩
    rw [view_vmap, Option.map_eq_some_iff]
    constructor
    · rintro ⟨y, hy, rfl⟩
      obtain ⟨h1, h2, rfl⟩ := (hv u y).1 hy
      exact ⟨h1, h2, rfl⟩
    · rintro ⟨h1, h2, rfl⟩
      exact ⟨_, (hv u _).2 ⟨h1, h2, rfl⟩, rfl⟩
  · rw [squareClusteringSingle_via via_double, square_clustering_single h hu]
    have hb := square_counts_le h hN hu
    have hle := (square_clustering_bounds h hu).1
    have h0 : (0 : Int) ≤ (squarePairs G.nodes G.Edge u : Int) := Int.natCast_nonneg _
    obtain ⟨p, hp⟩ := Int.eq_ofNat_of_zero_le (h0.trans hle)
    have hc1 : squareCoeff G.nodes G.Edge u = (squarePairs G.nodes G.Edge u : ℚ) / (p : ℚ) := by
      unfold squareCoeff; rw [hp]; push_cast; rfl
    have hpb : p ≤ 2 ^ 53 := by
      have : (p : Int) ≤ 2 ^ 53 := hp ▸ hb
      exact_mod_cast this
    have hpl : squarePairs G.nodes G.Edge u ≤ p := by
      have : (squarePairs G.nodes G.Edge u : Int) ≤ p := hp ▸ hle
      exact_mod_cast this
    obtain ⟨f1, f2, f3, f4⟩ := rnd64_fraction hpl hpb
    rw [hc1]
    refine ⟨rfl, f1, f2, ?_, ?_⟩
    · rcases Nat.eq_zero_or_pos p with rfl | hpos
      · simp [rnd64_zero]
      · rw [f3 hpos, div_eq_one_iff_eq (by exact_mod_cast hpos.ne')]
        exact_mod_cast Iff.rfl
    · rw [f4, div_eq_zero_iff]
      exact_mod_cast Iff.rfl

/-- with exact divisions it is the function of C40 -/
theorem square_ratio_exact (h : Simple G) (hN : G.nodes.length ≤ 2 ^ 17) (c : Option Int) :
    Ra.squareClustering .exact G c = squareClustering G c := by
  rw [squareClustering_via via_exact h hN]
  cases squareClustering G c with
  | error e => rfl
  | ok v =>
    show Except.ok _ = Except.ok _
    congr 1; funext i; show (v i).map id = _; simp

/-- a graph the theorem is about: node 1 of the example has coefficient 1/5, which no double equals -/
example : Simple Ex.sq ∧ Ex.sq.nodes.length ≤ 2 ^ 17 ∧ (∃ u v, Ex.sq.Edge u v) ∧
    Ra.squareClusteringSingle .double Ex.sq 1 = .ok (rnd64 (1 / 5)) ∧ rnd64 (1 / 5) ≠ 1 / 5 := by
  refine ⟨sq_simple, by decide, ⟨1, 2, by decide⟩, by decide +kernel, by decide +kernel⟩

end Props
