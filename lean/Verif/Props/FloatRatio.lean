import Verif.Props.Float64
import Verif.Props.Ranges
import Verif.Props.Cuts
import Verif.Props.Small2
import Verif.Props.Centrality
import Verif.Model.FloatRatio

/-!
# C128: quotients in double precision

Results that are quotients of counts (clustering, transitivity, reciprocity, conductance and the expansions,
efficiency, degree centrality), with divisions rounded as they are on a computer.
-/

open GB Spec Model Model.Graph Proofs Proofs.Flt Proofs.Cluster

namespace Props

/-! ### rounding to binary64 -/

theorem rnd64_zero : rnd64 0 = 0 := double_of isDouble_zero

theorem rnd64_mono {x y : ℚ} (h : x ≤ y) : rnd64 x ≤ rnd64 y := double.mono h

theorem isDouble_int {k : ℤ} (h : |k| ≤ 2 ^ 53) : IsDouble k := by
  rcases lt_or_eq_of_le h with h | h
  · exact ⟨k, 0, h, by norm_num, by simp⟩
  · rcases abs_eq (by norm_num : (0 : ℤ) ≤ 2 ^ 53) |>.1 h with rfl | rfl
    · exact ⟨2 ^ 52, 1, by norm_num, by norm_num, by norm_num⟩
    · exact ⟨-2 ^ 52, 1, by norm_num, by norm_num, by norm_num⟩

theorem rnd64_int {k : ℤ} (h : |k| ≤ 2 ^ 53) : rnd64 k = k := double_of (isDouble_int h)

theorem isDouble_below_one : IsDouble (1 - 1 / 2 ^ 53) :=
  ⟨2 ^ 53 - 1, -53, by norm_num, by norm_num, by
    rw [zpow_neg]; norm_num⟩

/-- a double as near to `x` as any -/
def NearestDouble (x r : ℚ) : Prop := IsDouble r ∧ ∀ d, IsDouble d → |r - x| ≤ |d - x|

theorem rnd64_nearest (x : ℚ) : NearestDouble x (rnd64 x) := ⟨B64.rnd_double x, B64.rnd_nearest x⟩

/-- a correctly rounded fraction lies in `[0, 1]`, is 1 only when numerator and denominator are equal, and 0 only when
the numerator is -/
theorem rnd64_fraction {a b : ℕ} (hab : a ≤ b) (hb : b ≤ 2 ^ 53) :
    0 ≤ rnd64 ((a : ℚ) / b) ∧ rnd64 ((a : ℚ) / b) ≤ 1 ∧
    (0 < b → (rnd64 ((a : ℚ) / b) = 1 ↔ a = b)) ∧ (rnd64 ((a : ℚ) / b) = 0 ↔ a = 0 ∨ b = 0) := by
  have hb0 : (0 : ℚ) ≤ b := Nat.cast_nonneg b
  have ha0 : (0 : ℚ) ≤ a := Nat.cast_nonneg a
  have hb53 : (b : ℚ) ≤ 2 ^ 53 := by exact_mod_cast hb
  have h0 : 0 ≤ rnd64 ((a : ℚ) / b) := B64.rnd_nonneg (by positivity)
  have one : rnd64 1 = 1 := B64.rnd_one
  refine ⟨h0, ?_, fun hb' => ⟨fun e => ?_, fun e => ?_⟩, fun e => ?_, ?_⟩
  · rw [← one]
    refine rnd64_mono (div_le_one_of_le₀ (by exact_mod_cast hab) hb0)
  · by_contra hne
    have hlt : a + 1 ≤ b := by omega
    have hlt' : (a : ℚ) + 1 ≤ b := by exact_mod_cast hlt
    have hbp : (0 : ℚ) < b := by exact_mod_cast hb'
    have : (a : ℚ) / b ≤ 1 - 1 / 2 ^ 53 := by
      rw [div_le_iff₀ hbp]
      have : (b : ℚ) / 2 ^ 53 ≤ 1 := by rw [div_le_one (by norm_num)]; exact hb53
      linarith
    have := rnd64_mono this
    rw [e, show rnd64 (1 - 1 / 2 ^ 53) = 1 - 1 / 2 ^ 53 from double_of isDouble_below_one] at this
    norm_num at this
  · subst e
    rw [div_self (by exact_mod_cast hb'.ne'), one]
  · by_contra hne
    push Not at hne
    have ha1 : (1 : ℚ) ≤ a := by exact_mod_cast Nat.one_le_iff_ne_zero.2 hne.1
    have hbp : (0 : ℚ) < b := by exact_mod_cast Nat.pos_of_ne_zero hne.2
    have hle : (1 : ℚ) / 2 ^ 53 ≤ a / b := by
      rw [div_le_div_iff₀ (by norm_num) hbp]; nlinarith
    have := rnd64_mono hle
    have hd : IsDouble (1 / 2 ^ 53) := ⟨1, -53, by norm_num, by norm_num, by rw [zpow_neg]; norm_num⟩
    rw [e, show rnd64 (1 / 2 ^ 53) = 1 / 2 ^ 53 from double_of hd] at this
    norm_num at this
  · rintro (rfl | rfl)
    · rw [Nat.cast_zero, zero_div, rnd64_zero]
    · rw [Nat.cast_zero, div_zero, rnd64_zero]

/-! ### divisions that are an exact quotient followed by `h` -/

/-- both divisions give `h` of the exact quotient, as long as GraphBLAS' operands are exact in binary64 -/
structure Via (q : IntDiv) (h : ℚ → ℚ) : Prop where
  zero : h 0 = 0
  py : ∀ a b, q.py a b = h (a / b)
  gb : ∀ a b : ℤ, |a| ≤ 2 ^ 53 → |b| ≤ 2 ^ 53 → q.gb a b = h (a / b)

theorem via_exact : Via IntDiv.exact id := ⟨rfl, fun _ _ => rfl, fun _ _ _ _ => rfl⟩

theorem via_double : Via IntDiv.double rnd64 :=
  ⟨rnd64_zero, fun _ _ => rfl, fun a b ha hb => by
    show rnd64 (rnd64 a / rnd64 b) = _
    rw [rnd64_int ha, rnd64_int hb]⟩

variable {K α : Type} {G : Graph K α} {q : IntDiv} {r : ℚ → ℚ}

theorem transitivity_via (hq : Via q r) : Ra.transitivity q G = r (transitivity G) := by
  unfold Ra.transitivity transitivity
  split
  · rw [hq.zero]
  · dsimp only
    split
    · rw [hq.zero]
    · rw [hq.py]; push_cast; rfl

theorem transitivityDirected_via (hq : Via q r) : Ra.transitivityDirected q G = r (transitivityDirected G) := by
  unfold Ra.transitivityDirected transitivityDirected
  split
  · rw [hq.zero]
  · dsimp only
    split
    · rw [hq.zero]
    · rw [hq.py]; push_cast; rfl

theorem singleClusteringAt_via {n : Nat} (hq : Via q r) (A : Mat n n α) (i) :
    Ra.singleClusteringAt q A i = r (singleClusteringAt A i) := by
  unfold Ra.singleClusteringAt singleClusteringAt
  dsimp only
  split
  · rw [hq.zero]
  · rw [hq.py]; push_cast; rfl

theorem singleClusteringDirAt_via {n : Nat} (hq : Via q r) (A : Mat n n α) (i) :
    Ra.singleClusteringDirAt q A i = r (singleClusteringDirAt A i) := by
  unfold Ra.singleClusteringDirAt singleClusteringDirAt
  dsimp only
  split
  · rw [hq.zero]
  · rw [hq.py]; push_cast; rfl

theorem clusteringVec_via {n : Nat} (hq : Via q r) (A : Mat n n α) (mask : NodeMask n) (i : Fin n)
    (ht : 2 * ((trianglesVec A mask i).getD 0 : ℤ) ≤ 2 ^ 53)
    (hd : |(degDenom (countRow (offdiag A)) i).getD 0| ≤ 2 ^ 53) :
    Ra.clusteringVec q A mask i = (clusteringVec A mask i).map r := by
  unfold Ra.clusteringVec clusteringVec vmul
  revert ht hd
  cases trianglesVec A mask i <;> cases degDenom (countRow (offdiag A)) i <;> intro ht hd <;> simp only [ointer]
  · rfl
  · rfl
  · rfl
  · rw [hq.gb _ _ (by rw [abs_of_nonneg (by positivity)]; simpa using ht) (by simpa using hd)]
    push_cast; rfl

theorem clusteringDirVec_via {n : Nat} (hq : Via q r) (A : Mat n n α) (mask : NodeMask n) (i : Fin n)
    (ht : ((dirTri A mask i).getD 0 : ℤ) ≤ 2 ^ 53)
    (hd : |(dirDenom (maskNew mask (totalDegreesM A)) (maskNew mask (recipDegreesM A)) i).getD 0| ≤ 2 ^ 53) :
    Ra.clusteringDirVec q A mask i = (clusteringDirVec A mask i).map r := by
  unfold Ra.clusteringDirVec clusteringDirVec vmul
  revert ht hd
  cases dirTri A mask i <;> cases dirDenom (maskNew mask (totalDegreesM A)) (maskNew mask (recipDegreesM A)) i <;>
    intro ht hd <;> simp only [ointer]
  · rfl
  · rfl
  · rfl
  · rw [hq.gb _ _ (by rw [abs_of_nonneg (by positivity)]; simpa using ht) (by simpa using hd)]
    push_cast; rfl

theorem nodemapFill_map {n : Nat} (mask : NodeMask n) (v w : Vec n ℚ) (hr : r 0 = 0) (hv : ∀ i, w i = (v i).map r) :
    nodemapFill mask w 0 = vapply r (nodemapFill mask v 0) := by
  have e : w = vapply r v := funext hv
  subst e
  have hn : nvals (vapply r v) = nvals v := by simp [nvals, vapply]
  unfold nodemapFill
  funext i
  cases mask with
  | none =>
    simp only [vapply]
    cases v i <;> simp [hr]
  | some p =>
    simp only [hn]
    split
    · simp only [vapply, vaccum]
      cases v i <;> by_cases hp : vS p i <;> simp [hp, omerge, first, hr]
    · rfl

/-! ### what the counts are at most -/

variable [DecidableEq K]

theorem card_le {n : Nat} (s : Finset (Fin n)) : s.card ≤ n := by simpa using s.card_le_univ

theorem triangles_bound (h : G.WF) (hs : G.Symm) (hn : G.n ≤ 2 ^ 25) (mask : NodeMask G.n) (i) :
    2 * ((trianglesVec G.A mask i).getD 0 : ℤ) ≤ 2 ^ 53 ∧ |(degDenom (countRow (offdiag G.A)) i).getD 0| ≤ 2 ^ 53 := by
  have hc := card_le (nbrs G.A i)
  have hn2 : (nbrs G.A i).card * (nbrs G.A i).card ≤ 2 ^ 25 * 2 ^ 25 := Nat.mul_le_mul (hc.trans hn) (hc.trans hn)
  constructor
  · rw [trianglesVec_getD hs]
    split
    · have := triPairs_le h (keyFn_at h i).node
      rw [triPairs_eq, degree_eq, ← two_half (adj_symm hs)] at this
      have h2 : (nbrs G.A i).card * ((nbrs G.A i).card - 1) ≤ (nbrs G.A i).card * (nbrs G.A i).card :=
        Nat.mul_le_mul_left _ (Nat.sub_le _ _)
      norm_num at hn2 ⊢
      omega
    · simp
  · rw [degDenom_getD, countRow_offdiag_getD, abs_le]
    have hc' : ((nbrs G.A i).card : ℤ) * (nbrs G.A i).card ≤ 2 ^ 25 * 2 ^ 25 := by exact_mod_cast hn2
    have hc0 : (0 : ℤ) ≤ (nbrs G.A i).card := Int.natCast_nonneg _
    have hc1 : ((nbrs G.A i).card : ℤ) ≤ 2 ^ 25 := by exact_mod_cast hc.trans hn
    constructor <;> nlinarith

theorem dir_bound (h : G.WF) (hno : ∀ i, G.A i i = none) (hn : G.n ≤ 2 ^ 25) (mask : NodeMask G.n) (i) :
    ((dirTri G.A mask i).getD 0 : ℤ) ≤ 2 ^ 53 ∧
    |(dirDenom (maskNew mask (totalDegreesM G.A)) (maskNew mask (recipDegreesM G.A)) i).getD 0| ≤ 2 ^ 53 := by
  have h1 := dirTriPairs_le h (keyFn_at h i).node
  rw [dirTriPairs_eq, totalDegree_eq, recipDegree_eq, ← two_dirHalf _ (oadj_diag G.A)] at h1
  have hc1 := card_le (nbrs G.A i)
  have hc2 := card_le (inn G.A i)
  have hc3 := card_le (nbrs G.A i ∩ inn G.A i)
  rw [dirTri_getD _ hno, dirDenom_getD, maskNew_getD, maskNew_getD, totalDegreesM_getD, recipDegreesM_getD]
  generalize hx : (nbrs G.A i).card + (inn G.A i).card = x at *
  generalize (nbrs G.A i ∩ inn G.A i).card = y at *
  have hx' : (x : ℤ) ≤ 2 ^ 26 := by
    have : x ≤ 2 ^ 26 := by omega
    exact_mod_cast this
  have hy' : (y : ℤ) ≤ 2 ^ 25 := by
    have : y ≤ 2 ^ 25 := by omega
    exact_mod_cast this
  have hx0 : (0 : ℤ) ≤ x := Int.natCast_nonneg _
  have hy0 : (0 : ℤ) ≤ y := Int.natCast_nonneg _
  push_cast at h1
  split
  · refine ⟨by nlinarith, ?_⟩
    rw [abs_le]
    constructor <;> nlinarith
  · simp

/-! ### C128: clustering -/

/-- **C128.** `transitivity` in double precision is the correctly rounded quotient of the two counts; it lies in
`[0, 1]`. -/
theorem double_transitivity (h : G.WF) (hs : G.Symm) :
    Ra.transitivity .double G = rnd64 (((sumOver G.nodes fun u => triPairs G.nodes G.Edge u : Nat) : ℚ) /
      ((sumOver G.nodes fun u => degree G.nodes G.Edge u * (degree G.nodes G.Edge u - 1) : Nat) : ℚ)) ∧
    0 ≤ Ra.transitivity .double G ∧ Ra.transitivity .double G ≤ 1 := by
  obtain ⟨h1, h2, h3, -⟩ := transitivity_correct h hs
  rw [transitivity_via via_double]
  refine ⟨by rw [h1], B64.rnd_nonneg h2, ?_⟩
  rw [← B64.rnd_one]; exact rnd64_mono h3

/-- **C128.** the same for digraphs. -/
theorem double_transitivity_directed (h : G.WF) :
    Ra.transitivityDirected .double G = rnd64 (((sumOver G.nodes fun u => triPairs G.nodes G.Edge u : Nat) : ℚ) /
      ((sumOver G.nodes fun u => degree G.nodes G.Edge u * (degree G.nodes G.Edge u - 1) : Nat) : ℚ)) ∧
    0 ≤ Ra.transitivityDirected .double G ∧ Ra.transitivityDirected .double G ≤ 1 := by
  obtain ⟨h1, h2, h3⟩ := transitivity_directed_correct h
  rw [transitivityDirected_via via_double]
  refine ⟨by rw [h1], B64.rnd_nonneg h2, ?_⟩
  rw [← B64.rnd_one]; exact rnd64_mono h3

omit [DecidableEq K] in
theorem view_vmap {β γ : Type} [DecidableEq K] (f : β → γ) (v : Vec G.n β) (u : K) :
    G.view (vapply f v) u = (G.view v u).map f := by
  unfold Graph.view vapply
  cases (G.idOf u) <;> rfl

/-- the answers for lists of nodes and for one node, in terms of the exact ones -/
theorem clustering_via (hq : Via q r) (h : G.WF) (hs : G.Symm) (hn : G.n ≤ 2 ^ 25) (nodes : Option (List K)) :
    Ra.clustering q G nodes = (clustering G nodes).map (vapply r) := by
  unfold Ra.clustering clustering
  cases hm : listToMask G nodes with
  | error e => rfl
  | ok mask =>
    show Except.ok _ = Except.ok _
    congr 1
    refine nodemapFill_map mask _ _ hq.zero fun i => ?_
    obtain ⟨b1, b2⟩ := triangles_bound h hs hn mask i
    exact clusteringVec_via hq _ _ _ b1 b2

theorem clusteringDirected_via (hq : Via q r) (h : G.WF) (hno : ∀ u, ¬ G.Edge u u) (hn : G.n ≤ 2 ^ 25)
    (nodes : Option (List K)) :
    Ra.clusteringDirected q G nodes = (clusteringDirected G nodes).map (vapply r) := by
  unfold Ra.clusteringDirected clusteringDirected
  cases hm : listToMask G nodes with
  | error e => rfl
  | ok mask =>
    show Except.ok _ = Except.ok _
    congr 1
    refine nodemapFill_map mask _ _ hq.zero fun i => ?_
    obtain ⟨b1, b2⟩ := dir_bound h ((noLoop_iff h).1 hno) hn mask i
    exact clusteringDirVec_via hq _ _ _ b1 b2

theorem singleClustering_via (hq : Via q r) (u : K) :
    Ra.singleClustering q G u = (singleClustering G u).map r := by
  unfold Ra.singleClustering singleClustering
  cases hm : G.getId u with
  | error e => rfl
  | ok i => show Except.ok _ = Except.ok _; rw [singleClusteringAt_via hq]

theorem singleClusteringDirected_via (hq : Via q r) (u : K) :
    Ra.singleClusteringDirected q G u = (singleClusteringDirected G u).map r := by
  unfold Ra.singleClusteringDirected singleClusteringDirected
  cases hm : G.getId u with
  | error e => rfl
  | ok i => show Except.ok _ = Except.ok _; rw [singleClusteringDirAt_via hq]

/-- **C128.** `clustering` in double precision: the node-by-node answers are correctly rounded, the one for a single
node (computed in Python) is the same number as the one in a mapping (computed in GraphBLAS), it lies in `[0, 1]`, and
it is 1 or 0 only if the exact coefficient is. -/
theorem double_clustering (h : G.WF) (hs : G.Symm) (hN : G.nodes.length ≤ 2 ^ 25) {nodes : Option (List K)}
    (hn : ∀ l, nodes = some l → ∀ u ∈ l, G.Node u) :
    ∃ R, Ra.clustering .double G nodes = .ok R ∧
      (∀ u x, G.view R u = some x ↔ (G.Node u ∧ Asked nodes u) ∧ x = rnd64 (coeff G u)) ∧
      ∀ u, G.Node u → Ra.singleClustering .double G u = .ok (rnd64 (coeff G u)) ∧
        0 ≤ rnd64 (coeff G u) ∧ rnd64 (coeff G u) ≤ 1 ∧
        (rnd64 (coeff G u) = 1 ↔ coeff G u = 1) ∧ (rnd64 (coeff G u) = 0 ↔ coeff G u = 0) := by
  obtain ⟨R, hR, hv⟩ := clustering_correct h hs hn
  rw [nodes_length h] at hN
  rw [clustering_via via_double h hs hN, hR]
  refine ⟨_, rfl, fun u x => ?_, fun u hu => ?_⟩
  · rw [view_vmap]
    constructor
    · intro e
      obtain ⟨c, hc, rfl⟩ := Option.map_eq_some_iff.1 e
      obtain ⟨h1, rfl⟩ := (hv u c).1 hc
      exact ⟨h1, rfl⟩
    · rintro ⟨h1, rfl⟩
      rw [(hv u _).2 ⟨h1, rfl⟩]; rfl
  · have hle := triPairs_le h hu
    have hb : degree G.nodes G.Edge u * (degree G.nodes G.Edge u - 1) ≤ 2 ^ 53 := by
      obtain ⟨i, rfl⟩ := exists_keyFn h hu
      rw [degree_eq]
      have hc := (card_le (nbrs G.A i)).trans hN
      have h1 := Nat.mul_le_mul hc ((Nat.sub_le _ 1).trans hc)
      refine h1.trans (by norm_num)
    obtain ⟨f1, f2, f3, f4⟩ := rnd64_fraction hle hb
    refine ⟨by rw [singleClustering_via via_double, single_clustering_correct h hs hu]; rfl, f1, f2, ?_, ?_⟩
    · unfold coeff
      by_cases h0 : 0 < degree G.nodes G.Edge u * (degree G.nodes G.Edge u - 1)
      · rw [f3 h0, div_eq_one_iff_eq (by exact_mod_cast h0.ne')]
        norm_cast
      · have : degree G.nodes G.Edge u * (degree G.nodes G.Edge u - 1) = 0 := by omega
        rw [this, Nat.cast_zero, div_zero, rnd64_zero]
    · unfold coeff
      rw [f4, div_eq_zero_iff]
      norm_cast

/-- **C128 (mappings: no self-loops).** the same for digraphs; a single node's answer is correctly rounded with
self-loops too. -/
theorem double_clustering_directed (h : G.WF) :
    (∀ u, G.Node u → Ra.singleClusteringDirected .double G u = .ok (rnd64 (dirCoeff G u)) ∧
      0 ≤ rnd64 (dirCoeff G u) ∧ rnd64 (dirCoeff G u) ≤ 1) ∧
    ((∀ u, ¬ G.Edge u u) → G.nodes.length ≤ 2 ^ 25 → ∀ nodes : Option (List K),
      (∀ l, nodes = some l → ∀ u ∈ l, G.Node u) → ∃ R, Ra.clusteringDirected .double G nodes = .ok R ∧
        ∀ u x, G.view R u = some x ↔ (G.Node u ∧ Asked nodes u) ∧ x = rnd64 (dirCoeff G u)) := by
  refine ⟨fun u hu => ?_, fun hno hN nodes hn => ?_⟩
  · obtain ⟨h0, h1⟩ := dirCoeff_range h hu
    refine ⟨by rw [singleClusteringDirected_via via_double, single_directed_clustering_correct h hu]; rfl,
      B64.rnd_nonneg h0, ?_⟩
    rw [← B64.rnd_one]; exact rnd64_mono h1
  · obtain ⟨R, hR, hv⟩ := directed_clustering_correct_partial h hno hn
    rw [nodes_length h] at hN
    rw [clusteringDirected_via via_double h hno hN, hR]
    refine ⟨_, rfl, fun u x => ?_⟩
    rw [view_vmap]
    constructor
    · intro e
      obtain ⟨c, hc, rfl⟩ := Option.map_eq_some_iff.1 e
      obtain ⟨h1, rfl⟩ := (hv u c).1 hc
      exact ⟨h1, rfl⟩
    · rintro ⟨h1, rfl⟩
      rw [(hv u _).2 ⟨h1, rfl⟩]; rfl

/-! ### C128: reciprocity, cuts, efficiency -/

omit [DecidableEq K] in
theorem pyDiv_via (hq : Via q r) (a b : ℤ) : Ra.pyDiv q a b = (pyDiv a b).map r := by
  unfold Ra.pyDiv pyDiv
  by_cases hb : b = 0
  · rw [if_pos hb, if_pos (by exact_mod_cast hb)]; rfl
  · rw [if_neg hb, if_neg (by exact_mod_cast hb), hq.py]; rfl

theorem conductance_via (hq : Via q r) (S : List K) (T : Option (List K)) :
    Ra.conductance q G S T = (conductance G S T).map r := by
  unfold Ra.conductance conductance
  cases setToVector G S true with
  | error e => rfl
  | ok s =>
    show (otherSide G s T).bind _ = Except.map r ((otherSide G s T).bind _)
    cases otherSide G s T with
    | error e => rfl
    | ok t =>
      show (cutSizeU G.directed G.A s (some t)).bind _ = Except.map r ((cutSizeU G.directed G.A s (some t)).bind _)
      cases cutSizeU G.directed G.A s (some t) with
      | error e => rfl
      | ok c => exact pyDiv_via hq _ _

theorem edgeExpansion_via (hq : Via q r) (S : List K) (T : Option (List K)) :
    Ra.edgeExpansion q G S T = (edgeExpansion G S T).map r ∧
    Ra.mixingExpansion q G S T = (mixingExpansion G S T).map r := by
  unfold Ra.edgeExpansion edgeExpansion Ra.mixingExpansion mixingExpansion
  cases setToVector G S true with
  | error e => exact ⟨rfl, rfl⟩
  | ok s =>
    show (setToVector? G T).bind _ = Except.map r ((setToVector? G T).bind _) ∧
      (setToVector? G T).bind _ = Except.map r ((setToVector? G T).bind _)
    cases setToVector? G T with
    | error e => exact ⟨rfl, rfl⟩
    | ok t =>
      show (cutSizeU G.directed G.A s t).bind _ = Except.map r ((cutSizeU G.directed G.A s t).bind _) ∧
        (cutSizeU G.directed G.A s t).bind _ = Except.map r ((cutSizeU G.directed G.A s t).bind _)
      cases cutSizeU G.directed G.A s t with
      | error e => exact ⟨rfl, rfl⟩
      | ok c => exact ⟨pyDiv_via hq _ _, pyDiv_via hq _ _⟩

theorem nodeExpansion_via (hq : Via q r) (S : List K) :
    Ra.nodeExpansion q G S = (nodeExpansion G S).map r ∧
    Ra.boundaryExpansion q G S = (boundaryExpansion G S).map r := by
  unfold Ra.nodeExpansion nodeExpansion Ra.boundaryExpansion boundaryExpansion
  constructor
  · cases listToVector G S with
    | error e => rfl
    | ok s => exact pyDiv_via hq _ _
  · cases setToVector G S true with
    | error e => rfl
    | ok s => exact pyDiv_via hq _ _

omit [DecidableEq K] in
theorem overallReciprocity_via (hq : Via q r) :
    Ra.overallReciprocity q G = (overallReciprocity G).map r := by
  unfold Ra.overallReciprocity overallReciprocity
  split
  · rfl
  · split
    · rfl
    · dsimp only
      rw [hq.py]; push_cast; rfl

theorem efficiency_via (hq : Via q r) (u v : K) : Ra.efficiency q G u v = (efficiency (F := ℚ) G u v).map r := by
  unfold Ra.efficiency efficiency
  cases bidirectionalSPL G u v with
  | ok d =>
    dsimp only
    by_cases hd : d = 0
    · rw [if_pos hd, if_pos hd]; rfl
    · rw [if_neg hd, if_neg hd, hq.py]; push_cast; rfl
  | error e => cases e <;> first | rfl | (show Except.ok _ = Except.ok _; rw [hq.zero])

/-- **C128.** `conductance`, `edge_expansion`, `mixing_expansion`: the correctly rounded quotients, and the errors of
the exact ones. -/
theorem double_cuts (h : G.WF) (S : List K) (T : Option (List K)) :
    Ra.conductance .double G S T = (ratio (cutCount G (· ∈ S) (Other S T))
      (min (vol G.nodes G.Edge (· ∈ S)) (vol G.nodes G.Edge (Other S T)))).map rnd64 ∧
    ((G.directed = false → G.Symm) → (T = none → G.directed = false) →
      Ra.edgeExpansion .double G S T = (ratio (cutCount G (· ∈ S) (Other S T))
        (min (countOf G.nodes (· ∈ S)) (countOf G.nodes (Other S T)))).map rnd64 ∧
      Ra.mixingExpansion .double G S T =
        (ratio (cutCount G (· ∈ S) (Other S T)) (edgeCount G.nodes G.Edge)).map rnd64) := by
  refine ⟨by rw [conductance_via via_double, (conductance_correct h S T).1], fun hs hT => ?_⟩
  obtain ⟨h1, h2⟩ := edge_expansion_correct h hs S T hT
  obtain ⟨e1, e2⟩ := edgeExpansion_via (G := G) via_double S T
  exact ⟨by rw [e1, h1], by rw [e2, h2]⟩

/-- **C128.** `node_expansion` and `boundary_expansion`. -/
theorem double_node_expansion (h : G.WF) (S : List K) :
    ((∀ u ∈ S, G.Node u) → Ra.nodeExpansion .double G S =
      (ratio (countOf G.nodes fun v => ∃ u ∈ S, G.Edge u v) (countOf G.nodes (· ∈ S))).map rnd64) ∧
    Ra.boundaryExpansion .double G S =
      (ratio (countOf G.nodes fun v => v ∉ S ∧ ∃ u ∈ S, G.Edge u v) (countOf G.nodes (· ∈ S))).map rnd64 := by
  obtain ⟨h1, h2⟩ := node_expansion_correct h S
  obtain ⟨e1, e2⟩ := nodeExpansion_via (G := G) via_double S
  exact ⟨fun hS => by rw [e1, h1 hS], by rw [e2, h2]⟩

/-- **C128.** the conductance of a cut of an undirected graph is in `[0, 1]` in double precision too. -/
theorem double_conductance_bounds (h : G.WF) (hs : G.Symm) (hd : G.directed = false) (S : List K)
    (T : Option (List K)) {x : ℚ} (hx : Ra.conductance .double G S T = .ok x) : 0 ≤ x ∧ x ≤ 1 := by
  rw [conductance_via via_double] at hx
  cases hc : conductance G S T with
  | error e => rw [hc] at hx; cases hx
  | ok y =>
    rw [hc] at hx
    obtain ⟨h0, h1⟩ := conductance_bounds h hs hd S T hc
    cases hx
    refine ⟨B64.rnd_nonneg h0, ?_⟩
    rw [← B64.rnd_one]; exact rnd64_mono h1

/-- **C128.** `overall_reciprocity`. -/
theorem double_overall_reciprocity (h : G.WF) (hd : G.directed = true) :
    Ra.overallReciprocity .double G = if edgeCount G.nodes G.Edge = 0 then .error .emptyGraph
      else .ok (rnd64 ((mutualEdges G.nodes G.Edge : ℚ) / edgeCount G.nodes G.Edge)) := by
  rw [overallReciprocity_via via_double, overall_reciprocity_correct h hd]
  split <;> rfl

/-- **C128.** `efficiency` of two different nodes: `1/d` rounded, never 0 for a reachable node. -/
theorem double_efficiency (h : G.WF) {u v : K} (hu : G.Node u) (hv : G.Node v) (huv : u ≠ v) :
    (∃ d, IsDist G.Edge u d v ∧ Ra.efficiency .double G u v = .ok (rnd64 (1 / (d : ℚ)))) ∨
    (¬ Reach G.Edge u v ∧ Ra.efficiency .double G u v = .ok 0) := by
  rcases efficiency_correct (F := ℚ) h hu hv huv with ⟨d, hd, e⟩ | ⟨hr, e⟩
  · exact .inl ⟨d, hd, by rw [efficiency_via via_double, e]; rfl⟩
  · refine .inr ⟨hr, ?_⟩
    rw [efficiency_via via_double, e]
    show Except.ok _ = Except.ok _
    rw [rnd64_zero]

theorem recip_bound (h : G.WF) (hn : G.n ≤ 2 ^ 51) (mask : NodeMask G.n) (i : Fin G.n) :
    Ra.reciprocityV (.double) G.A mask i = (reciprocityV G.A mask i).map rnd64 := by
  have h1 : (recipDegreesP G.A i).getD 0 ≤ G.n := by
    rw [recipDegreesP_getD h, ← nodes_length h]
    exact List.countP_le_length
  have h2 : (totalDegreesP G.A i).getD 0 ≤ 2 * G.n := by
    rw [totalDegreesP_getD h, ← nodes_length h, two_mul]
    exact Nat.add_le_add (List.countP_le_length) (List.countP_le_length)
  have hm : ∀ v : Vec G.n Nat, (maskNew mask v i).getD 0 ≤ (v i).getD 0 := by
    intro v
    rw [maskNew_getD]
    split <;> simp
  have h3 := (hm (recipDegreesP G.A)).trans h1
  have h4 := (hm (totalDegreesP G.A)).trans h2
  have key : ∀ a b : ℕ, a ≤ 2 * G.n → b ≤ 2 * G.n →
      IntDiv.double.gb a b = rnd64 ((a : ℚ) / (b : ℚ)) := by
    intro a b ha hb
    rw [via_double.gb a b]
    · push_cast; rfl
    · rw [abs_of_nonneg (by positivity)]
      have : a ≤ 2 ^ 53 := by omega
      exact_mod_cast this
    · rw [abs_of_nonneg (by positivity)]
      have : b ≤ 2 ^ 53 := by omega
      exact_mod_cast this
  unfold Ra.reciprocityV reciprocityV vunion vapply
  revert h3 h4
  cases maskNew mask (recipDegreesP G.A) i <;> cases maskNew mask (totalDegreesP G.A) i <;> intro h3 h4 <;>
    simp only [ounion, Option.map_some, Option.map_none, Option.some.injEq, Option.getD_some, Option.getD_none] at h3 h4 ⊢
  all_goals exact key _ _ (by omega) (by omega)

/-- **C128.** `reciprocity` of one node and of a list of nodes: correctly rounded, the same number in both. -/
theorem double_reciprocity (h : G.WF) (hd : G.directed = true) (hN : G.nodes.length ≤ 2 ^ 51) :
    (∀ u, G.Node u → Ra.reciprocityNode .double G u =
      if outDeg G.nodes G.Edge u + inDeg G.nodes G.Edge u ≠ 0 then
        .ok (rnd64 (2 * (mutualDeg G.nodes G.Edge u : ℚ) / ((outDeg G.nodes G.Edge u : ℚ) + inDeg G.nodes G.Edge u)))
      else .error .emptyGraph) ∧
    ∀ l : List K, (∀ u ∈ l, G.Node u) → ∃ R, Ra.reciprocityNodes .double G l = .ok R ∧ ∀ u, G.Node u → G.view R u =
      if u ∈ l ∧ outDeg G.nodes G.Edge u + inDeg G.nodes G.Edge u ≠ 0 then
        some (rnd64 (2 * (mutualDeg G.nodes G.Edge u : ℚ) / ((outDeg G.nodes G.Edge u : ℚ) + inDeg G.nodes G.Edge u)))
      else none := by
  rw [nodes_length h] at hN
  constructor
  · intro u hu
    have e : Ra.reciprocityNode .double G u = (reciprocityNode G u).map rnd64 := by
      unfold Ra.reciprocityNode reciprocityNode
      rw [if_neg (by simp [hd]), if_neg (by simp [hd])]
      cases listToMask G (some [u]) with
      | error e => rfl
      | ok mask =>
        show (G.getId u).bind _ = Except.map rnd64 ((G.getId u).bind _)
        cases G.getId u with
        | error e => rfl
        | ok i =>
          show (match Ra.reciprocityV IntDiv.double G.A mask i with | none => _ | some x => _) =
            Except.map rnd64 (match reciprocityV G.A mask i with | none => _ | some x => _)
          rw [recip_bound h hN]
          cases reciprocityV G.A mask i <;> rfl
    rw [e, reciprocity_node_correct h hd hu]
    split <;> rfl
  · intro l hl
    have e : Ra.reciprocityNodes .double G l = (reciprocityNodes G l).map (vapply rnd64) := by
      unfold Ra.reciprocityNodes reciprocityNodes
      rw [if_neg (by simp [hd]), if_neg (by simp [hd])]
      cases listToMask G (some l) with
      | error e => rfl
      | ok mask =>
        show Except.ok _ = Except.ok _
        congr 1
        exact funext fun i => recip_bound h hN mask i
    obtain ⟨R, hR, hv⟩ := reciprocity_nodes_correct h hd hl
    rw [e, hR]
    refine ⟨_, rfl, fun u hu => ?_⟩
    rw [view_vmap, hv u hu]
    split <;> rfl

/-! ### C128: average clustering -/

omit [DecidableEq K] in
/-- rounding away from the subnormal range -/
theorem rnd64_err {x : ℚ} (hx : x = 0 ∨ 1 / 2 ^ 200 ≤ x) : 0 ≤ x ∧ |rnd64 x - x| ≤ u64 * x := by
  rcases hx with rfl | hx
  · rw [rnd64_zero]; simp
  · have hp : (0 : ℚ) < x := lt_of_lt_of_le (by norm_num) hx
    refine ⟨hp.le, ?_⟩
    have hl : (-200 : ℤ) ≤ Int.log 2 |x| := by
      rw [abs_of_pos hp, ← Int.zpow_le_iff_le_log (by norm_num) hp, zpow_neg]
      refine le_trans (le_of_eq ?_) hx
      norm_num
    have := B64.rnd_err_rel hp.ne' (by omega)
    rwa [abs_of_pos hp] at this

omit [DecidableEq K] in
theorem treeSum_le {l : List ℚ} {s : ℚ} (h : TreeSum (fun x y => rnd64 (x + y)) l s) (hl : ∀ x ∈ l, x ≤ 1)
    (hb : l.length ≤ 2 ^ 53) : s ≤ l.length := by
  induction h with
  | one a => simpa using hl a
  | @add l m s t _ _ ih1 ih2 =>
    rw [List.length_append] at hb
    have h1 := ih1 (fun x hx => hl x (by simp [hx])) (by omega)
    have h2 := ih2 (fun x hx => hl x (by simp [hx])) (by omega)
    have h3 : s + t ≤ ((l.length + m.length : ℕ) : ℤ) := by push_cast; linarith
    have h4 := rnd64_mono h3
    rw [rnd64_int (by rw [abs_of_nonneg (by positivity)]; exact_mod_cast hb)] at h4
    rw [List.length_append]
    refine h4.trans (le_of_eq ?_)
    push_cast; rfl
  | perm hp _ ih =>
    rw [← hp.length_eq] at hb ⊢
    exact ih (fun x hx => hl x (hp.mem_iff.1 hx)) hb

omit [DecidableEq K] in
theorem length_entries {n : Nat} (v : Vec n ℚ) : (Fr.entries v).length = nvals v := by
  unfold Fr.entries nvals
  rw [List.length_filterMap_eq_countP, List.countP_eq_length_filter,
    ← List.toFinset_card_of_nodup ((List.nodup_finRange n).filter _)]
  congr 1
  ext i; simp

omit [DecidableEq K] in
/-- the quotient that ends `average_clustering` -/
theorem average_core {n : Nat} {sum : List ℚ → ℚ} (hsum : RoundsSums sum) (hn : n ≤ 2 ^ 25) {c : Vec n ℚ}
    (hc : ∀ i x, c i = some x → (x = 0 ∨ 1 / 2 ^ 53 ≤ x) ∧ x ≤ 1) {k : Nat} (hk : nvals c ≤ k) (hk0 : k ≠ 0)
    (hkn : k ≤ n) :
    0 ≤ rnd64 (Fr.vsum (binary64 sum) (vapply rnd64 c) / rnd64 k) ∧
    rnd64 (Fr.vsum (binary64 sum) (vapply rnd64 c) / rnd64 k) ≤ 1 ∧
    |rnd64 (Fr.vsum (binary64 sum) (vapply rnd64 c) / rnd64 k) - (reduce (· + ·) c).getD 0 / k| ≤
      (n + 2) / 2 ^ 52 * ((reduce (· + ·) c).getD 0 / k) := by
  have R : Rounded (binary64 sum) B64.Mult u64 eta64 := B64.rounded sum fun l hl _ => hsum l hl
  have hg := Fr.one_le_growth R
  have hkq : (0 : ℚ) < k := by exact_mod_cast Nat.pos_of_ne_zero hk0
  have hk53 : (k : ℚ) ≤ 2 ^ 25 := by exact_mod_cast hkn.trans hn
  have ek : rnd64 (k : ℚ) = k := by
    have := rnd64_int (k := (k : ℤ)) (by rw [abs_of_nonneg (by positivity)]; exact_mod_cast (hkn.trans hn).trans (by norm_num))
    simpa using this
  rw [ek, reduce_add]
  have hc' : ∀ i, ((c i).getD 0 = 0 ∨ 1 / 2 ^ 53 ≤ (c i).getD 0) ∧ (c i).getD 0 ≤ 1 := by
    intro i
    cases hi : c i with
    | none => simp
    | some x => simpa using hc i x hi
  have e' : ∀ i, ((vapply rnd64 c) i).getD 0 = rnd64 ((c i).getD 0) := by
    intro i
    unfold vapply
    cases c i with
    | none => simp [rnd64_zero]
    | some x => rfl
  have hgood : Fr.Good B64.Mult (vapply rnd64 c) := by
    intro i a ha
    unfold vapply at ha
    obtain ⟨x, hx, rfl⟩ := Option.map_eq_some_iff.1 ha
    refine ⟨B64.rnd_mult x, B64.rnd_nonneg ?_⟩
    rcases (hc i x hx).1 with rfl | h
    · exact le_rfl
    · exact le_trans (by norm_num) h
  have hS0 : 0 ≤ ∑ i, (c i).getD 0 := Finset.sum_nonneg fun i _ => by
    rcases (hc' i).1 with h | h
    · rw [h]
    · exact le_trans (by norm_num) h
  -- the sum
  obtain ⟨v1, v2, v3⟩ := Fr.vsum_near R hgood
  have n1 : Fr.Near (growth u64) 1 0 (∑ i, ((vapply rnd64 c) i).getD 0) (∑ i, (c i).getD 0) := by
    have := Fr.near_sum (g := growth u64) (k := 1) (t := fun _ => 0) (y := fun i => ((vapply rnd64 c) i).getD 0)
      (z := fun i => (c i).getD 0) Finset.univ fun i _ => by
        show Fr.Near _ _ _ (((vapply rnd64 c) i).getD 0) _
        rw [e']
        obtain ⟨h1, h2⟩ := rnd64_err (x := (c i).getD 0) (by
          rcases (hc' i).1 with h | h
          · exact .inl h
          · exact .inr (le_trans (by norm_num) h))
        exact Fr.near_of_err R h1 le_rfl (by linarith)
    simpa using this
  have n2 := Fr.near_trans hg le_rfl v3 n1
  rw [mul_zero, add_zero] at n2
  set V := Fr.vsum (binary64 sum) (vapply rnd64 c) with hV
  set S := ∑ i, (c i).getD 0 with hSdef
  -- the quotient
  have gk := growth64 (n := n) (hn.trans (by norm_num)) (n + 1) (by omega)
  have hn' : (n : ℚ) ≤ 2 ^ 25 := by exact_mod_cast hn
  have hV' : V / k = 0 ∨ 1 / 2 ^ 200 ≤ V / k := by
    by_cases hz : ∀ i, (c i).getD 0 = 0
    · left
      have : S = 0 := Finset.sum_eq_zero fun i _ => hz i
      have h2 := n2.1
      rw [this] at h2
      have : V = 0 := le_antisymm (by simpa using h2) v2
      rw [this, zero_div]
    · right
      push Not at hz
      obtain ⟨i, hi⟩ := hz
      have h1 : 1 / 2 ^ 53 ≤ S := by
        refine ((hc' i).1.resolve_left hi).trans ?_
        refine Finset.single_le_sum (f := fun i => (c i).getD 0) (fun j _ => ?_) (Finset.mem_univ i)
        rcases (hc' j).1 with h | h
        · show (0 : ℚ) ≤ (c j).getD 0; rw [h]
        · exact le_trans (by norm_num) h
      have h2 := n2.2
      have h3 : growth u64 ^ (n + 1) ≤ 2 := gk.trans (by push_cast; linarith)
      rw [add_zero] at h2
      have h4 : S ≤ 2 * V := h2.trans (mul_le_mul_of_nonneg_right h3 v2)
      rw [le_div_iff₀ hkq]
      have : (1 : ℚ) / 2 ^ 200 * k ≤ 1 / 2 ^ 200 * 2 ^ 25 := mul_le_mul_of_nonneg_left hk53 (by norm_num)
      have : (1 : ℚ) / 2 ^ 200 * 2 ^ 25 ≤ 1 / 2 * (1 / 2 ^ 53) := by norm_num
      linarith
  obtain ⟨q0, q1⟩ := rnd64_err hV'
  have n3 := Fr.near_of_err R q0 le_rfl (by simpa using q1)
  have n4 : Fr.Near (growth u64) (n + 1) 0 (V / k) (S / k) := by
    obtain ⟨a1, a2⟩ := n2
    rw [add_zero] at a1 a2
    constructor
    · rw [add_zero, ← mul_div_assoc]; exact div_le_div_of_nonneg_right a1 hkq.le
    · rw [add_zero, ← mul_div_assoc]; exact div_le_div_of_nonneg_right a2 hkq.le
  have n5 := Fr.near_trans hg le_rfl n3 n4
  rw [mul_zero, add_zero] at n5
  have hSk : 0 ≤ S / k := div_nonneg hS0 hkq.le
  have d := Fr.near_dist hg hSk n5
  refine ⟨B64.rnd_nonneg (div_nonneg v2 hkq.le), ?_, ?_⟩
  · rw [← B64.rnd_one]
    refine rnd64_mono ((div_le_one hkq).2 ?_)
    have hl : ∀ x ∈ Fr.entries (vapply rnd64 c), x ≤ 1 := by
      intro x hx
      unfold Fr.entries at hx
      obtain ⟨i, -, hi⟩ := List.mem_filterMap.1 hx
      unfold vapply at hi
      obtain ⟨y, hy, rfl⟩ := Option.map_eq_some_iff.1 hi
      rw [← B64.rnd_one]
      exact rnd64_mono (hc i y hy).2
    have hlen : (Fr.entries (vapply rnd64 c)).length = nvals c := by
      rw [length_entries]; simp [nvals, vapply]
    rw [hV]
    unfold Fr.vsum Fr.fsum
    split
    · simp only [Option.getD_none, R.zero]; exact hkq.le
    · rename_i he
      have := treeSum_le (hsum _ he) hl (by rw [hlen]; exact (hk.trans (hkn.trans hn)).trans (by norm_num))
      rw [hlen] at this
      exact this.trans (by exact_mod_cast hk)
  · refine d.trans ?_
    rw [add_zero]
    refine mul_le_mul_of_nonneg_right ?_ hSk
    have g2 := growth64 (n := n) (hn.trans (by norm_num)) (1 + (n + 1)) (by omega)
    push_cast at g2
    have : (1 + ((n : ℚ) + 1)) / 2 ^ 52 = (n + 2) / 2 ^ 52 := by ring
    linarith

/-- `y` is what double precision gives where the exact answer is `x`, on `n` values in `[0, 1]` -/
def MeanClose (n : Nat) : Except Err ℚ → Except Err ℚ → Prop
  | .ok y, .ok x => 0 ≤ y ∧ y ≤ 1 ∧ |y - x| ≤ (n + 2) / 2 ^ 52 * x
  | .error e, .error e' => e = e'
  | _, _ => False

omit [DecidableEq K] in
theorem averageOf_close {n : Nat} {sum : List ℚ → ℚ} (hsum : RoundsSums sum) (hn : n ≤ 2 ^ 25) {c : Vec n ℚ}
    (hc : ∀ i x, c i = some x → (x = 0 ∨ 1 / 2 ^ 53 ≤ x) ∧ x ≤ 1) (mask : NodeMask n) (z : Bool)
    (hm : ∀ p, mask = some p → ∀ i, (c i).isSome → (p i).isSome) :
    MeanClose n (Ra.averageOf (binary64 sum) (vapply rnd64 c) z mask) (averageOf c z mask) := by
  have hnv : nvals (vapply rnd64 c) = nvals c := by simp [nvals, vapply]
  have le_n : ∀ {β : Type} (v : Vec n β), nvals v ≤ n := fun v => card_le _
  have key : ∀ k, nvals c ≤ k → k ≤ n → MeanClose n
      (if k = 0 then .error .zeroDivision
        else .ok ((binary64 sum).div (Fr.vsum (binary64 sum) (vapply rnd64 c)) ((binary64 sum).nat k)))
      (if k = 0 then .error .zeroDivision else .ok ((reduce (· + ·) c).getD 0 / (k : ℚ))) := by
    intro k h1 h2
    by_cases h0 : k = 0
    · rw [if_pos h0, if_pos h0]; exact rfl
    · rw [if_neg h0, if_neg h0]
      exact average_core hsum hn hc h1 h0 h2
  unfold Ra.averageOf averageOf
  dsimp only
  split
  · rw [hnv]; exact key _ le_rfl (le_n c)
  · cases mask with
    | none => exact key _ (le_n c) le_rfl
    | some p =>
      refine key _ ?_ (le_n p)
      unfold nvals
      refine Finset.card_le_card fun i hi => ?_
      simp only [Finset.mem_filter, Finset.mem_univ, true_and] at hi ⊢
      exact hm p rfl i hi

/-- a coefficient is 0 or not too small -/
theorem coeff_size (h : G.WF) (hn : G.n ≤ 2 ^ 25) (i : Fin G.n) :
    (coeff G (keyFn h i) = 0 ∨ 1 / 2 ^ 53 ≤ coeff G (keyFn h i)) ∧ coeff G (keyFn h i) ≤ 1 := by
  obtain ⟨-, c1, c2⟩ := clustering_bounds h (keyFn_at h i).node
  refine ⟨?_, c1⟩
  unfold coeff
  by_cases h0 : triPairs G.nodes G.Edge (keyFn h i) = 0
  · left; rw [h0]; simp
  · right
    have hpos := c2 (Nat.pos_of_ne_zero h0)
    have hb : degree G.nodes G.Edge (keyFn h i) * (degree G.nodes G.Edge (keyFn h i) - 1) ≤ 2 ^ 53 := by
      rw [degree_eq]
      have hc := (card_le (nbrs G.A i)).trans hn
      have h1 := Nat.mul_le_mul hc ((Nat.sub_le _ 1).trans hc)
      refine h1.trans (by norm_num)
    rw [div_le_div_iff₀ (by norm_num) (by exact_mod_cast hpos), one_mul]
    have h1 : (1 : ℚ) ≤ triPairs G.nodes G.Edge (keyFn h i) := by exact_mod_cast Nat.pos_of_ne_zero h0
    have h2 : ((degree G.nodes G.Edge (keyFn h i) * (degree G.nodes G.Edge (keyFn h i) - 1) : ℕ) : ℚ) ≤ 2 ^ 53 := by
      exact_mod_cast hb
    nlinarith

theorem dirCoeff_size (h : G.WF) (hn : G.n ≤ 2 ^ 25) (i : Fin G.n) :
    (dirCoeff G (keyFn h i) = 0 ∨ 1 / 2 ^ 53 ≤ dirCoeff G (keyFn h i)) ∧ dirCoeff G (keyFn h i) ≤ 1 := by
  refine ⟨?_, (dirCoeff_range h (keyFn_at h i).node).2⟩
  have h1 := dirTriPairs_le h (keyFn_at h i).node
  rw [dirTriPairs_eq, totalDegree_eq, recipDegree_eq, ← two_dirHalf _ (oadj_diag G.A)] at h1
  rw [dirCoeff_eq h]
  have hc1 := card_le (nbrs G.A i)
  have hc2 := card_le (inn G.A i)
  generalize dirHalf (oadj G.A) i = t at *
  generalize hx : (nbrs G.A i).card + (inn G.A i).card = x at *
  generalize (nbrs G.A i ∩ inn G.A i).card = y at *
  by_cases h0 : t = 0
  · left; rw [h0]; simp
  · right
    have hx' : (x : ℤ) ≤ 2 ^ 26 := by
      have : x ≤ 2 ^ 26 := by omega
      exact_mod_cast this
    have hx0 : (0 : ℤ) ≤ x := Int.natCast_nonneg _
    have hy0 : (0 : ℤ) ≤ y := Int.natCast_nonneg _
    have ht : (1 : ℤ) ≤ t := by exact_mod_cast Nat.pos_of_ne_zero h0
    push_cast at h1
    generalize hd : ((x : ℤ) * ((x : ℤ) - 1) - 2 * (y : ℤ)) = d at *
    have hd1 : t ≤ d := by linarith
    have hd2 : d ≤ 2 ^ 53 := by nlinarith
    have hdp : (0 : ℚ) < d := by
      have : 0 < d := by linarith
      exact_mod_cast this
    rw [div_le_div_iff₀ (by norm_num) hdp, one_mul]
    have h2 : (d : ℚ) ≤ 2 ^ 53 := by exact_mod_cast hd2
    have h3 : (1 : ℚ) ≤ t := by exact_mod_cast ht
    nlinarith

/-- **C128.** `average_clustering` of an undirected graph in double precision, with any order of summation: within a
fraction `(N + 2) · 2⁻⁵²` of the exact mean of the coefficients, in `[0, 1]`, and an error where there is nothing to
average. -/
theorem double_average_clustering (h : G.WF) (hd : G.directed = false) (hs : G.Symm) (hN : G.nodes.length ≤ 2 ^ 25)
    {sum : List ℚ → ℚ} (hsum : RoundsSums sum) {nodes : Option (List K)}
    (hn : ∀ l, nodes = some l → ∀ u ∈ l, G.Node u) (z : Bool) :
    MeanClose G.nodes.length (Ra.averageClustering .double (binary64 sum) G nodes z)
      (meanOf (if z then averagedOver G nodes else (averagedOver G nodes).filter fun u => coeff G u ≠ 0) (coeff G)) := by
  have ha := average_clustering_correct h hd hs hn z
  rw [nodes_length h] at hN ⊢
  by_cases h0 : G.n = 0
  · have hno : averagedOver G nodes = [] := by
      have hnil : G.nodes = [] := List.length_eq_zero_iff.1 (by rw [nodes_length h, h0])
      unfold averagedOver
      cases nodes with
      | none => exact hnil
      | some l =>
        cases l with
        | nil => rfl
        | cons u l =>
          obtain ⟨i, -⟩ := (hn _ rfl u (by simp)).exists_id h
          exact absurd i.pos (by omega)
    unfold Ra.averageClustering
    rw [if_pos h0, hno]
    cases z <;> exact rfl
  · rw [if_neg h0] at ha
    rw [← ha]
    unfold Ra.averageClustering averageClustering
    rw [if_neg h0, if_neg h0]
    obtain ⟨mask, hm, -, hask⟩ := listToMask_ok h hn
    rw [hm]
    show MeanClose G.n (Ra.averageOf _ _ z mask) (averageOf _ z mask)
    rw [hd]
    have e : Ra.clusteringVec .double G.A mask = vapply rnd64 (clusteringVec G.A mask) := by
      funext i
      obtain ⟨b1, b2⟩ := triangles_bound h hs hN mask i
      exact clusteringVec_via via_double _ _ _ b1 b2
    show MeanClose G.n (Ra.averageOf _ (Ra.clusteringVec .double G.A mask) z mask) (averageOf (clusteringVec G.A mask) z mask)
    rw [e]
    have hmk : ∀ i, ((clusteringVec G.A mask) i).isSome → inMask mask i = true := by
      intro i hi
      by_contra hx
      have : clusteringVec G.A mask i = none := by
        simp [clusteringVec, vmul, trianglesVec, triSum, vadd, maskNew_none (by simpa using hx)]
      rw [this] at hi; simp at hi
    refine averageOf_close hsum hN (fun i x hx => ?_) mask z (fun p hp i hi => ?_)
    · have hg := clusteringVec_getD h hs mask i
      rw [if_pos (hmk i (by rw [hx]; rfl)), hx, Option.getD_some] at hg
      rw [hg]; exact coeff_size h hN i
    · have := hmk i hi
      rw [hp] at this
      simpa [inMask] using this

/-- **C128 (no self-loops).** the same for digraphs. -/
theorem double_average_clustering_directed (h : G.WF) (hd : G.directed = true) (hno : ∀ u, ¬ G.Edge u u)
    (hN : G.nodes.length ≤ 2 ^ 25) {sum : List ℚ → ℚ} (hsum : RoundsSums sum) {nodes : Option (List K)}
    (hn : ∀ l, nodes = some l → ∀ u ∈ l, G.Node u) (z : Bool) :
    MeanClose G.nodes.length (Ra.averageClustering .double (binary64 sum) G nodes z)
      (meanOf (if z then averagedOver G nodes else (averagedOver G nodes).filter fun u => dirCoeff G u ≠ 0)
        (dirCoeff G)) := by
  have ha := average_clustering_directed_correct_partial h hd hno hn z
  have hno' := (noLoop_iff h).1 hno
  rw [nodes_length h] at hN ⊢
  by_cases h0 : G.n = 0
  · have hnn : averagedOver G nodes = [] := by
      have hnil : G.nodes = [] := List.length_eq_zero_iff.1 (by rw [nodes_length h, h0])
      unfold averagedOver
      cases nodes with
      | none => exact hnil
      | some l =>
        cases l with
        | nil => rfl
        | cons u l =>
          obtain ⟨i, -⟩ := (hn _ rfl u (by simp)).exists_id h
          exact absurd i.pos (by omega)
    unfold Ra.averageClustering
    rw [if_pos h0, hnn]
    cases z <;> exact rfl
  · rw [if_neg h0] at ha
    rw [← ha]
    unfold Ra.averageClustering averageClustering
    rw [if_neg h0, if_neg h0]
    obtain ⟨mask, hm, -, hask⟩ := listToMask_ok h hn
    rw [hm]
    show MeanClose G.n (Ra.averageOf _ _ z mask) (averageOf _ z mask)
    rw [hd]
    have e : Ra.clusteringDirVec .double G.A mask = vapply rnd64 (clusteringDirVec G.A mask) := by
      funext i
      obtain ⟨b1, b2⟩ := dir_bound h hno' hN mask i
      exact clusteringDirVec_via via_double _ _ _ b1 b2
    show MeanClose G.n (Ra.averageOf _ (Ra.clusteringDirVec .double G.A mask) z mask)
      (averageOf (clusteringDirVec G.A mask) z mask)
    rw [e]
    have hmk : ∀ i, ((clusteringDirVec G.A mask) i).isSome → inMask mask i = true := by
      intro i hi
      by_contra hx
      have : clusteringDirVec G.A mask i = none := by
        simp [clusteringDirVec, vmul, dirTri, vadd, maskNew_none (by simpa using hx)]
      rw [this] at hi; simp at hi
    refine averageOf_close hsum hN (fun i x hx => ?_) mask z (fun p hp i hi => ?_)
    · have hg := clusteringDirVec_getD h hno' mask i
      rw [if_pos (hmk i (by rw [hx]; rfl)), hx, Option.getD_some] at hg
      rw [hg]; exact dirCoeff_size h hN i
    · have := hmk i hi
      rw [hp] at this
      simpa [inMask] using this

/-! ### C128: normalized cuts -/

omit [DecidableEq K] in
theorem ncut_core {c a b : ℕ} (ha : 0 < a) (hb : 0 < b) (ha' : a ≤ 2 ^ 53) (hb' : b ≤ 2 ^ 53) (hc : c ≤ 2 ^ 53) :
    0 ≤ rnd64 (rnd64 c * rnd64 (rnd64 (1 / a) + rnd64 (1 / b))) ∧
    |rnd64 (rnd64 c * rnd64 (rnd64 (1 / a) + rnd64 (1 / b))) - c * (1 / a + 1 / b)| ≤
      3 / 2 ^ 52 * (c * (1 / a + 1 / b)) := by
  obtain ⟨sum, hsum⟩ : ∃ sum, RoundsSums sum := ⟨_, roundsSums_exist⟩
  have R : Rounded (binary64 sum) B64.Mult u64 eta64 := B64.rounded sum fun l hl _ => hsum l hl
  have hg := Fr.one_le_growth R
  have inv : ∀ a : ℕ, 0 < a → a ≤ 2 ^ 53 → 1 / 2 ^ 54 ≤ rnd64 (1 / (a : ℚ)) ∧ 0 ≤ 1 / (a : ℚ) ∧
      Fr.Near (growth u64) 1 0 (rnd64 (1 / (a : ℚ))) (1 / a) := by
    intro a ha ha'
    have haq : (0 : ℚ) < a := by exact_mod_cast ha
    have hi : 1 / 2 ^ 53 ≤ (1 : ℚ) / a := one_div_le_one_div_of_le haq (by exact_mod_cast ha')
    obtain ⟨i0, i1⟩ := rnd64_err (x := 1 / (a : ℚ)) (.inr (le_trans (by norm_num) hi))
    refine ⟨?_, i0, Fr.near_of_err R i0 le_rfl (by linarith)⟩
    rw [u64_eq] at i1
    obtain ⟨i2, -⟩ := abs_le.1 i1
    linarith
  obtain ⟨a1, a0, na⟩ := inv a ha ha'
  obtain ⟨b1, b0, nb⟩ := inv b hb hb'
  have ec : rnd64 (c : ℚ) = c := by
    have := rnd64_int (k := (c : ℤ)) (by
      rw [abs_of_nonneg (by positivity)]
      exact_mod_cast hc)
    simpa using this
  rw [ec]
  have hc0 : (0 : ℚ) ≤ c := Nat.cast_nonneg c
  set x := rnd64 (1 / (a : ℚ))
  set y := rnd64 (1 / (b : ℚ))
  have hs : 1 / 2 ^ 54 ≤ x + y := by
    have : (0 : ℚ) ≤ y := le_trans (by norm_num) b1
    linarith
  obtain ⟨s0, s1⟩ := rnd64_err (x := x + y) (.inr (le_trans (by norm_num) hs))
  have nab := Fr.near_add na nb
  rw [add_zero] at nab
  have n0 : Fr.Near (growth u64) 1 0 (rnd64 (x + y)) (x + y) := Fr.near_of_err R s0 le_rfl (by rw [add_zero]; exact s1)
  have ns := Fr.near_trans hg le_rfl n0 nab
  have hs' : 1 / 2 ^ 55 ≤ rnd64 (x + y) := by
    rw [u64_eq] at s1
    obtain ⟨s2, -⟩ := abs_le.1 s1
    linarith
  set t := rnd64 (x + y)
  have hct : (c : ℚ) * t = 0 ∨ 1 / 2 ^ 200 ≤ (c : ℚ) * t := by
    rcases Nat.eq_zero_or_pos c with h0 | h0
    · left; rw [h0]; simp
    · right
      have h1 : (1 : ℚ) ≤ c := by exact_mod_cast h0
      refine le_trans (by norm_num) (mul_le_mul h1 hs' (by norm_num) hc0)
  obtain ⟨c0, c1⟩ := rnd64_err hct
  have nc : Fr.Near (growth u64) 2 0 (c * t) (c * (1 / a + 1 / b)) := by
    obtain ⟨h1, h2⟩ := ns
    simp only [mul_zero, add_zero] at h1 h2
    constructor
    · have := mul_le_mul_of_nonneg_left h1 hc0
      rw [add_zero]; refine this.trans (le_of_eq (by ring))
    · have := mul_le_mul_of_nonneg_left h2 hc0
      rw [add_zero]; refine this.trans (le_of_eq (by ring))
  have n3 := Fr.near_trans hg le_rfl (Fr.near_of_err R c0 le_rfl (by linarith)) nc
  rw [mul_zero, add_zero] at n3
  have hz : (0 : ℚ) ≤ c * (1 / a + 1 / b) := mul_nonneg hc0 (add_nonneg a0 b0)
  refine ⟨B64.rnd_nonneg c0, (Fr.near_dist hg hz n3).trans ?_⟩
  rw [add_zero]
  refine mul_le_mul_of_nonneg_right ?_ hz
  have g := growth64 (n := 0) (by norm_num) (1 + 2) (by norm_num)
  have e : (((1 + 2 : ℕ)) : ℚ) = 3 := by norm_num
  rw [e] at g
  generalize growth u64 ^ (1 + 2) = w at *
  linarith

/-- **C128.** `normalized_cut_size` in double precision: the errors of the exact function, and otherwise a value within
a fraction `3 · 2⁻⁵²` of it. -/
theorem double_normalized_cut (h : G.WF) (hN : G.nodes.length ≤ 2 ^ 25) (sum : List ℚ → ℚ) (S : List K)
    (T : Option (List K)) :
    (vol G.nodes G.Edge (· ∈ S) = 0 ∨ vol G.nodes G.Edge (Other S T) = 0 →
      Ra.normalizedCutSize .double (binary64 sum) G S T = .error .zeroDivision) ∧
    (vol G.nodes G.Edge (· ∈ S) ≠ 0 → vol G.nodes G.Edge (Other S T) ≠ 0 →
      ∃ y, Ra.normalizedCutSize .double (binary64 sum) G S T = .ok y ∧ 0 ≤ y ∧
        |y - cutCount G (· ∈ S) (Other S T) *
            (1 / (vol G.nodes G.Edge (· ∈ S) : ℚ) + 1 / (vol G.nodes G.Edge (Other S T) : ℚ))| ≤
          3 / 2 ^ 52 * (cutCount G (· ∈ S) (Other S T) *
            (1 / (vol G.nodes G.Edge (· ∈ S) : ℚ) + 1 / (vol G.nodes G.Edge (Other S T) : ℚ)))) := by
  classical
  obtain ⟨v1, hv1, h1⟩ := setToVector_ok h S
  obtain ⟨t, ht, h2⟩ := otherSide_ok h h1 T
  have hcut := cutSizeU_eq h h1 h2
  have hv := volumeU_eq' h h1
  have hw := volumeU_eq' h h2
  have volb : ∀ (P : K → Prop) [DecidablePred P], vol G.nodes G.Edge P ≤ 2 ^ 50 := by
    intro P _
    have : vol G.nodes G.Edge P ≤ sumOver G.nodes fun _ => G.nodes.length := by
      unfold vol sumOver
      refine List.sum_le_sum fun u _ => ?_
      split
      · exact List.countP_le_length
      · exact Nat.zero_le _
    refine this.trans ?_
    have e : (sumOver G.nodes fun _ => G.nodes.length) = G.nodes.length * G.nodes.length := by
      unfold sumOver
      simp
    rw [e]
    exact (Nat.mul_le_mul hN hN).trans (by norm_num)
  have hcb : cutCount G (· ∈ S) (Other S T) ≤ 2 ^ 53 := by
    have e1 := (edgesFromTo_le_vol h (· ∈ S) (Other S T)).trans (volb _)
    have e2 := (edgesFromTo_le_vol h (Other S T) (· ∈ S)).trans (volb _)
    unfold cutCount
    split <;> omega
  have e : Ra.normalizedCutSize .double (binary64 sum) G S T =
      (do
        let a ← Ra.pyDiv .double 1 (vol G.nodes G.Edge (· ∈ S))
        let b ← Ra.pyDiv .double 1 (vol G.nodes G.Edge (Other S T))
        .ok (rnd64 (rnd64 (cutCount G (· ∈ S) (Other S T) : ℕ) * rnd64 (a + b)))) := by
    unfold Ra.normalizedCutSize
    rw [hv1]
    show (otherSide G v1 T).bind _ = _
    rw [ht]
    show (cutSizeU G.directed G.A v1 (some t)).bind _ = _
    rw [hcut, hv, hw]
    rfl
  rw [e]
  unfold Ra.pyDiv
  constructor
  · intro h0
    by_cases ha : vol G.nodes G.Edge (· ∈ S) = 0
    · rw [if_pos (by exact_mod_cast ha)]; rfl
    · rw [if_neg (by exact_mod_cast ha), if_pos (by exact_mod_cast h0.resolve_left ha)]; rfl
  · intro ha hb
    rw [if_neg (by exact_mod_cast ha), if_neg (by exact_mod_cast hb)]
    obtain ⟨c0, c1⟩ := ncut_core (Nat.pos_of_ne_zero ha) (Nat.pos_of_ne_zero hb) ((volb _).trans (by norm_num))
      ((volb _).trans (by norm_num)) hcb
    refine ⟨_, rfl, ?_⟩
    have d : ∀ k : ℕ, IntDiv.double.py 1 (k : ℤ) = rnd64 (1 / (k : ℚ)) := by
      intro k
      show rnd64 (((1 : ℤ) : ℚ) / ((k : ℤ) : ℚ)) = _
      push_cast; rfl
    rw [d, d]
    exact ⟨c0, c1⟩

/-! ### C128: degree centrality -/

omit [DecidableEq K] in
/-- degree `d` among `m` possible neighbours -/
theorem degree_core {m d : ℕ} (hm : 0 < m) (hm' : m ≤ 2 ^ 50) (hd : d ≤ 2 * (m + 1)) :
    |rnd64 (rnd64 (1 / m) * rnd64 d) - d / m| ≤ 3 / 2 ^ 53 * (d / m) ∧
    0 ≤ rnd64 (rnd64 (1 / m) * rnd64 d) ∧ (d ≤ m → rnd64 (rnd64 (1 / m) * rnd64 d) ≤ 1) := by
  have hmq : (0 : ℚ) < m := by exact_mod_cast hm
  have hm50 : (m : ℚ) ≤ 2 ^ 50 := by exact_mod_cast hm'
  have hd0 : (0 : ℚ) ≤ d := Nat.cast_nonneg d
  have ed : rnd64 (d : ℚ) = d := by
    have := rnd64_int (k := (d : ℤ)) (by
      rw [abs_of_nonneg (by positivity)]
      have : d ≤ 2 ^ 53 := by omega
      exact_mod_cast this)
    simpa using this
  rw [ed]
  have hi : 1 / 2 ^ 50 ≤ (1 : ℚ) / m := one_div_le_one_div_of_le hmq hm50
  obtain ⟨i0, i1⟩ := rnd64_err (x := 1 / (m : ℚ)) (.inr (le_trans (by norm_num) hi))
  rw [u64_eq] at i1
  obtain ⟨i2, i3⟩ := abs_le.1 i1
  set p := rnd64 (1 / (m : ℚ)) with hp
  set t := (1 : ℚ) / m with ht
  have e : (d : ℚ) / m = t * d := by rw [ht]; ring
  have htd : 0 ≤ t * d := mul_nonneg i0 hd0
  have p0 : 0 ≤ p := B64.rnd_nonneg i0
  have hpd : p * d = 0 ∨ 1 / 2 ^ 200 ≤ p * d := by
    rcases Nat.eq_zero_or_pos d with h0 | h0
    · left; rw [h0]; simp
    · right
      have h1 : (1 : ℚ) ≤ d := by exact_mod_cast h0
      have h2 : 1 / 2 ^ 51 ≤ p := by linarith
      refine le_trans ?_ ((mul_le_mul h2 h1 (by norm_num) p0))
      norm_num
  obtain ⟨j0, j1⟩ := rnd64_err hpd
  rw [u64_eq] at j1
  obtain ⟨j2, j3⟩ := abs_le.1 j1
  have k1 : p * d ≤ (1 + 1 / 2 ^ 53) * (t * d) := by
    have := mul_le_mul_of_nonneg_right (show p ≤ (1 + 1 / 2 ^ 53) * t by linarith) hd0
    linarith
  have k2 : (1 - 1 / 2 ^ 53) * (t * d) ≤ p * d := by
    have := mul_le_mul_of_nonneg_right (show (1 - 1 / 2 ^ 53) * t ≤ p by linarith) hd0
    linarith
  refine ⟨?_, B64.rnd_nonneg j0, fun hdm => ?_⟩
  · rw [e, abs_le]
    constructor <;> linarith
  · have h1 : (d : ℚ) ≤ m := by exact_mod_cast hdm
    have h2 : t * d ≤ 1 := by
      rw [← e]; exact (div_le_one hmq).2 h1
    have h3 : p * d ≤ 1 + 1 / 2 ^ 53 := by linarith
    have h4 := rnd64_mono h3
    have h5 : rnd64 (1 + 1 / 2 ^ 53) = 1 := by decide +kernel
    rwa [h5] at h4

/-- scores of nodes whose degrees are `deg`, out of `m` possible neighbours -/
structure DegreeScores (N : List K) (m : ℕ) (deg : K → ℕ) (score : K → Option ℚ) : Prop where
  near : ∀ u ∈ N, ∃ x, score u = some x ∧ |x - deg u / m| ≤ 3 / 2 ^ 53 * (deg u / m) ∧ 0 ≤ x ∧ (deg u ≤ m → x ≤ 1) ∧
    (x = 0 ↔ deg u = 0)
  order : ∀ u ∈ N, ∀ v ∈ N, ∀ x y, score u = some x → score v = some y → (x < y ↔ deg u < deg v)

theorem degree_scores (h : G.WF) (hN : 2 ≤ G.nodes.length) (hN' : G.nodes.length ≤ 2 ^ 48) (d : Vec G.n Nat)
    (deg : K → Nat) (hd : ∀ i, (d i).getD 0 = deg (keyFn h i)) (hb : ∀ u, deg u ≤ 2 * G.nodes.length)
    (sum : List ℚ → ℚ) :
    DegreeScores G.nodes (G.nodes.length - 1) deg
      (G.view (nodemapFill none (Ra.degreeCentralityV .double (binary64 sum) d) (0 : ℚ))) := by
  rw [nodes_length h] at hN hN' hb ⊢
  obtain ⟨m, hm⟩ : ∃ m, G.n = m + 1 := ⟨G.n - 1, by omega⟩
  have hmn : G.n - 1 = m := by omega
  rw [hmn]
  have hm1 : 0 < m := by omega
  have hv : ∀ i, G.view (nodemapFill none (Ra.degreeCentralityV .double (binary64 sum) d) (0 : ℚ)) (keyFn h i) =
      some (rnd64 (rnd64 (1 / m) * rnd64 (deg (keyFn h i)))) := by
    intro i
    rw [view_keyFn, ← hd i]
    show some _ = some _
    congr 1
    unfold Ra.degreeCentralityV
    rw [if_neg (by omega)]
    have e : ((1 : ℤ) : ℚ) / (((G.n : ℤ) - 1 : ℤ) : ℚ) = 1 / (m : ℚ) := by
      rw [hm]; push_cast; ring
    unfold vapply
    cases d i with
    | none =>
      show (0 : ℚ) = rnd64 (_ * rnd64 ((0 : ℕ) : ℚ))
      rw [Nat.cast_zero, rnd64_zero, mul_zero, rnd64_zero]
    | some k =>
      show rnd64 (rnd64 (((1 : ℤ) : ℚ) / (((G.n : ℤ) - 1 : ℤ) : ℚ)) * rnd64 (k : ℚ)) = _
      rw [e]; rfl
  have hmq : (0 : ℚ) < m := by exact_mod_cast hm1
  have core := fun (u : K) => degree_core (m := m) (d := deg u) hm1 (by omega) (by rw [← hm]; exact hb u)
  have hnear : ∀ u, |rnd64 (rnd64 (1 / m) * rnd64 (deg u)) - deg u / m| * (2 ^ 53 * m) ≤ 3 * deg u := by
    intro u
    have := mul_le_mul_of_nonneg_right (core u).1 (by positivity : (0 : ℚ) ≤ 2 ^ 53 * m)
    refine this.trans (le_of_eq ?_)
    field_simp
  constructor
  · intro u hu
    obtain ⟨i, rfl⟩ := exists_keyFn h hu
    refine ⟨_, hv i, (core _).1, (core _).2.1, (core _).2.2, fun e => ?_, fun e => ?_⟩
    · have := (core (keyFn h i)).1
      rw [e, zero_sub, abs_neg] at this
      have h1 : (0 : ℚ) ≤ deg (keyFn h i) / m := by positivity
      rw [abs_of_nonneg h1] at this
      have h2 : (deg (keyFn h i) : ℚ) / m = 0 := by linarith
      rcases div_eq_zero_iff.1 h2 with h3 | h3
      · exact_mod_cast h3
      · exact absurd h3 hmq.ne'
    · rw [e, Nat.cast_zero, rnd64_zero, mul_zero, rnd64_zero]
  · intro u hu v hv' x y hx hy
    obtain ⟨i, rfl⟩ := exists_keyFn h hu
    obtain ⟨j, rfl⟩ := exists_keyFn h hv'
    rw [hv, Option.some.injEq] at hx hy
    have lt_of : ∀ a b : K, deg a < deg b →
        rnd64 (rnd64 (1 / m) * rnd64 (deg a)) < rnd64 (rnd64 (1 / m) * rnd64 (deg b)) := by
      intro a b hab
      have ha := hnear a
      have hb' := hnear b
      have hm48 : (m : ℚ) ≤ 2 ^ 48 := by
        have : m ≤ 2 ^ 48 := by omega
        exact_mod_cast this
      have hda : (deg a : ℚ) + 1 ≤ deg b := by exact_mod_cast hab
      have hdb : (deg b : ℚ) ≤ 2 * (m + 1) := by
        have := hb b
        rw [hm] at this
        exact_mod_cast this
      have hM : (0 : ℚ) < 2 ^ 53 * m := by positivity
      set A := rnd64 (rnd64 (1 / m) * rnd64 (deg a))
      set B := rnd64 (rnd64 (1 / m) * rnd64 (deg b))
      have h1 : (A - deg a / m) * (2 ^ 53 * m) ≤ 3 * deg a :=
        (mul_le_mul_of_nonneg_right (le_abs_self _) hM.le).trans ha
      have h2 : (deg b / m - B) * (2 ^ 53 * m) ≤ 3 * deg b := by
        refine (mul_le_mul_of_nonneg_right ?_ hM.le).trans hb'
        rw [abs_sub_comm]; exact le_abs_self _
      have e1 : (A - deg a / m) * (2 ^ 53 * m) = A * (2 ^ 53 * m) - 2 ^ 53 * deg a := by field_simp
      have e2 : (deg b / m - B) * (2 ^ 53 * m) = 2 ^ 53 * deg b - B * (2 ^ 53 * m) := by field_simp
      refine lt_of_mul_lt_mul_right ?_ hM.le
      rw [e1] at h1
      rw [e2] at h2
      linarith
    rw [← hx, ← hy]
    constructor
    · intro hlt
      by_contra hc
      rcases Nat.lt_or_ge (deg (keyFn h j)) (deg (keyFn h i)) with h1 | h1
      · exact absurd (lt_of _ _ h1) (not_lt.2 hlt.le)
      · have : deg (keyFn h i) = deg (keyFn h j) := by omega
        rw [this] at hlt
        exact lt_irrefl _ hlt
    · exact lt_of _ _

/-- **C128.** `degree_centrality` in double precision ranks nodes exactly by degree and is off by a fraction
`3 · 2⁻⁵³` at most; it is 0 exactly for isolated nodes, and at most 1 without self-loops (a digraph's degree counts
both directions). -/
theorem double_degree_centrality (h : G.WF) (hN : 2 ≤ G.nodes.length) (hN' : G.nodes.length ≤ 2 ^ 48)
    (sum : List ℚ → ℚ) :
    DegreeScores G.nodes (G.nodes.length - 1) (sDeg G) (G.view (Ra.degreeCentrality .double (binary64 sum) G)) ∧
    (G.directed = true → ∃ vin vout, Ra.inDegreeCentrality .double (binary64 sum) G = .ok vin ∧
      Ra.outDegreeCentrality .double (binary64 sum) G = .ok vout ∧
      DegreeScores G.nodes (G.nodes.length - 1) (inDeg G.nodes G.Edge) (G.view vin) ∧
      DegreeScores G.nodes (G.nodes.length - 1) (outDeg G.nodes G.Edge) (G.view vout)) := by
  have ho : ∀ u, outDeg G.nodes G.Edge u ≤ G.nodes.length := fun u => List.countP_le_length
  have hi : ∀ u, inDeg G.nodes G.Edge u ≤ G.nodes.length := fun u => List.countP_le_length
  refine ⟨degree_scores h hN hN' _ _ (degreesP_getD h) (fun u => ?_) sum, fun hd =>
    ⟨_, _, by unfold Ra.inDegreeCentrality; rw [if_neg (by simp [hd])],
      by unfold Ra.outDegreeCentrality; rw [if_neg (by simp [hd])],
      degree_scores h hN hN' _ _ (fun i => ?_) (fun u => ?_) sum,
      degree_scores h hN hN' _ _ (fun i => ?_) (fun u => ?_) sum⟩⟩
  · unfold sDeg
    have := ho u
    have := hi u
    split <;> omega
  · rw [countRow_getD, inDeg_eq h, nvals_eq_sum]
  · have := hi u; omega
  · rw [countRow_getD, outDeg_eq h, nvals_eq_sum]
  · have := ho u; omega

/-- a star with 49 leaves -/
def Ex.star50 : Graph Nat Int where
  n := 50
  A := fun i j => if (i = 0 ∧ j ≠ 0) ∨ (i ≠ 0 ∧ j = 0) then some 1 else none
  keyToId := (List.finRange 50).map fun i : Fin 50 => ((i : ℕ), i)

/-- **C128, a consequence.** A node adjacent to all the others can score less than 1: `49 * (1 / 49)` is
0.9999999999999999. -/
theorem double_degree_full (sum : List ℚ → ℚ) : Ex.star50.WF ∧ (∀ v ∈ Ex.star50.nodes, v ≠ 0 → Ex.star50.Edge 0 v) ∧
    Ex.star50.view (Ra.degreeCentrality .double (binary64 sum) Ex.star50) 0 = some (1 - 1 / 2 ^ 53) := by
  refine ⟨⟨by decide +kernel, by decide +kernel⟩, by decide +kernel, ?_⟩
  have e : (degreesP Ex.star50 (0 : Fin 50)) = some 49 := by decide +kernel
  show some (((if (50 : ℕ) ≤ 1 then _ else vapply _ (degreesP Ex.star50)) (0 : Fin 50)).getD 0) = _
  rw [if_neg (by norm_num)]
  unfold vapply
  rw [e]
  show some (rnd64 (rnd64 (((1 : ℤ) : ℚ) / ((((50 : ℕ) : ℤ) - 1 : ℤ) : ℚ)) * rnd64 ((49 : ℕ) : ℚ))) = _
  decide +kernel

omit [DecidableEq K] in
/-- without rounding the functions are those of the exact model -/
theorem ratio_exact [DecidableEq K] (S : List K) (T : Option (List K)) (u v : K) :
    Ra.transitivity .exact G = transitivity G ∧ Ra.transitivityDirected .exact G = transitivityDirected G ∧
    Ra.singleClustering .exact G u = singleClustering G u ∧
    Ra.singleClusteringDirected .exact G u = singleClusteringDirected G u ∧
    Ra.conductance .exact G S T = conductance G S T ∧ Ra.edgeExpansion .exact G S T = edgeExpansion G S T ∧
    Ra.mixingExpansion .exact G S T = mixingExpansion G S T ∧ Ra.nodeExpansion .exact G S = nodeExpansion G S ∧
    Ra.boundaryExpansion .exact G S = boundaryExpansion G S ∧ Ra.efficiency .exact G u v = efficiency (F := ℚ) G u v := by
  have hid : ∀ {β : Type} (e : Except Err β), e.map id = e := fun e => by cases e <;> rfl
  refine ⟨transitivity_via via_exact, transitivityDirected_via via_exact, ?_, ?_, ?_, ?_, ?_, ?_, ?_, ?_⟩
  · rw [singleClustering_via via_exact, hid]
  · rw [singleClusteringDirected_via via_exact, hid]
  · rw [conductance_via via_exact, hid]
  · rw [(edgeExpansion_via via_exact S T).1, hid]
  · rw [(edgeExpansion_via via_exact S T).2, hid]
  · rw [(nodeExpansion_via via_exact S).1, hid]
  · rw [(nodeExpansion_via via_exact S).2, hid]
  · rw [efficiency_via via_exact, hid]

/-- a coefficient of 1/3, which no double is -/
example : Ra.singleClustering .double exTail 11 = .ok (6004799503160661 / 2 ^ 54) ∧
    singleClustering exTail 11 = .ok (1 / 3) := by
  constructor <;> decide +kernel

end Props
