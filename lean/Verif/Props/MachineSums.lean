import Verif.Props.Machine
import Verif.Props.Cuts
import Verif.Props.Small
import Verif.Props.Small2
import Verif.Props.Linalg
import Mathlib.Data.Int.ModEq

/-!
# C107: sums and differences of weights on integer dtypes
-/

open GB Spec Model Proofs Graph

namespace Spec

/-- `r` is `x` reduced into the range `[lo, lo + m)` -/
def Wraps (lo m x r : Int) : Prop := lo ≤ r ∧ r < lo + m ∧ m ∣ x - r

/-- a value in range is not changed -/
theorem Wraps.exact {lo m x r : Int} (h : Wraps lo m x r) (h1 : lo ≤ x) (h2 : x < lo + m) : r = x := by
  obtain ⟨a, b, c⟩ := h
  have : x - r = 0 := Int.eq_zero_of_abs_lt_dvd c (by rw [abs_lt]; omega)
  omega

/-- there is only one such value -/
theorem Wraps.unique {lo m x r s : Int} (h : Wraps lo m x r) (h' : Wraps lo m x s) : r = s := by
  obtain ⟨a, b, c⟩ := h
  obtain ⟨a', b', c'⟩ := h'
  have hd : m ∣ s - r := by
    have := dvd_sub c c'
    have e : x - r - (x - s) = s - r := by ring
    rwa [e] at this
  have : s - r = 0 := Int.eq_zero_of_abs_lt_dvd hd (by rw [abs_lt]; omega)
  omega

end Spec

namespace Props

variable {K β : Type} [DecidableEq K] [CommRing β]

/-- arithmetic modulo `m`, read in the window `[lo, lo + m)` -/
structure Modular (val : β → Int) (lo m : Int) : Prop where
  low : ∀ x, lo ≤ val x
  high : ∀ x, val x < lo + m
  zero : val 0 = 0
  one : m ∣ 1 - val 1
  add : ∀ x y, m ∣ val x + val y - val (x + y)
  sub : ∀ x y, m ∣ val x - val y - val (x - y)

theorem SInt.modular {b : Nat} (hb : 0 < b) : Modular (SInt.toInt (b := b)) (-2 ^ (b - 1)) (2 ^ b) := by
  have hp : (2:Int)^b = 2 * 2^(b-1) := by
    obtain ⟨c, rfl⟩ : ∃ c, b = c + 1 := ⟨b - 1, by omega⟩
    simp [pow_succ, mul_comm]
  have hd : ∀ z : Int, (2:Int)^b ∣ z - z.bmod (2^b) := by
    intro z
    have := Int.dvd_self_sub_bmod (x := z) (m := 2^b)
    exact_mod_cast this
  refine ⟨fun x => ?_, fun x => ?_, ?_, ?_, fun x y => ?_, fun x y => ?_⟩
  · have := BitVec.le_toInt x.bits; exact this
  · have := BitVec.toInt_lt (x := x.bits)
    have h' : x.toInt < 2 ^ (b - 1) := this
    rw [hp]; omega
  · show (0 : BitVec b).toInt = 0; simp
  · show _ ∣ 1 - (BitVec.toInt (1 : BitVec b))
    have : (1 : BitVec b) = BitVec.ofInt b 1 := by simp
    rw [this, BitVec.toInt_ofInt]
    exact hd 1
  · show _ ∣ _ - (x.bits + y.bits).toInt
    rw [BitVec.toInt_add]; exact hd _
  · show _ ∣ _ - (x.bits - y.bits).toInt
    rw [BitVec.toInt_sub]; exact hd _

theorem UInt_.modular {b : Nat} : Modular (UInt_.toInt (b := b)) 0 (2 ^ b) := by
  refine ⟨fun x => Int.natCast_nonneg _, fun x => ?_, ?_, ?_, fun x y => ?_, fun x y => ?_⟩
  · have : ((x.bits.toNat : Nat) : Int) < ((2 ^ b : Nat) : Int) := by exact_mod_cast x.bits.isLt
    push_cast at this
    show ((x.bits.toNat : Nat) : Int) < _
    omega
  · show (((0 : BitVec b).toNat : Nat) : Int) = 0; simp
  · show _ ∣ 1 - (((1 : BitVec b).toNat : Nat) : Int)
    have : ((1 : BitVec b).toNat : Nat) = 1 % 2 ^ b := by simp [BitVec.toNat_ofNat]
    rw [this]; push_cast
    exact Int.dvd_self_sub_emod
  · show _ ∣ ((x.bits.toNat : Nat) : Int) + ((y.bits.toNat : Nat) : Int) - (((x.bits + y.bits).toNat : Nat) : Int)
    rw [BitVec.toNat_add]; push_cast
    exact Int.dvd_self_sub_emod
  · show _ ∣ ((x.bits.toNat : Nat) : Int) - ((y.bits.toNat : Nat) : Int) - (((x.bits - y.bits).toNat : Nat) : Int)
    rw [BitVec.toNat_sub]; push_cast
    have hy := y.bits.isLt
    rw [Nat.cast_sub hy.le]
    push_cast
    have h1 := Int.dvd_self_sub_emod (x := ((2:Int) ^ b - y.bits.toNat + x.bits.toNat)) (m := 2 ^ b)
    have h2 := dvd_sub h1 (dvd_refl ((2:Int)^b))
    refine (Int.dvd_iff_dvd_of_dvd_sub ?_).1 h2
    have e : ∀ a c d z : Int, a - c + d - z - a - (d - c - z) = 0 := by intros; ring
    rw [e]; exact dvd_zero _

/-- the weights as integers -/
def intWeight (val : β → Int) (G : Graph K β) (u v : K) : Option Int := (G.weight? u v).map val

theorem modular_mutual_weight {val : β → Int} {G : Graph K β} (h : G.WF) (u v : K) :
    mutualWeightInt val G u v = .ok ((intWeight val G u v).getD 0 + (intWeight val G v u).getD 0) := by
  unfold mutualWeightInt
  unfold intWeight
  by_cases hc : G.contains u = false ∨ G.contains v = false
  · rw [if_pos hc]
    have : ∀ a c : K, (G.contains a = false ∨ G.contains c = false) → G.weight? a c = none := by
      intro a c hac
      cases hw : G.weight? a c with
      | none => rfl
      | some w =>
        obtain ⟨i, j, hi, hj, -⟩ := (weight?_eq_some h).1 hw
        rcases hac with ha | ha
        · exact absurd (contains_iff.2 hi.node) (by simp [ha])
        · exact absurd (contains_iff.2 hj.node) (by simp [ha])
    rw [this u v hc, this v u hc.symm]
    rfl
  · rw [if_neg hc]
    simp only [not_or, Bool.not_eq_false] at hc
    obtain ⟨i, hi⟩ := (contains_iff.1 hc.1).exists_id h
    obtain ⟨j, hj⟩ := (contains_iff.1 hc.2).exists_id h
    rw [(getId_eq_ok h).2 hi, (getId_eq_ok h).2 hj]
    show Except.ok _ = _
    have e1 := weight?_keyFn h i j
    have e2 := weight?_keyFn h j i
    rw [keyFn_eq h hi, keyFn_eq h hj] at e1 e2
    rw [e1, e2]

/-- on Python integers the definitions of `Model/Machine.lean` are those of `Model/Cuts.lean` and `Model/Small.lean` -/
theorem exact_sums (G : Graph K Int) (S : List K) (T : Option (List K)) (u v : K) :
    cutSizeInt id G S T = cutSizeWeighted G S T ∧ volumeInt id G S = volumeWeighted G S ∧
    mutualWeightInt id G u v = mutualWeight G u v := by
  refine ⟨?_, ?_, ?_⟩
  · have e : ∀ (d : Bool) (A : Mat G.n G.n Int) s t, cutSizeI id d A s t = cutSizeW d A s t := by
      intro d A s t
      unfold cutSizeI cutSizeW
      simp only [Option.map_id_fun, id]
      cases d <;> cases t <;> rfl
    unfold cutSizeInt cutSizeWeighted
    simp only [e]
  · unfold volumeInt volumeWeighted volumeI volumeW
    simp only [Option.map_id_fun, id]
  · unfold mutualWeightInt mutualWeight
    simp only [Option.map_id_fun, id]

section generic
variable {val : β → Int} {lo m : Int} (hm : Modular val lo m) {G : Graph K β}
include hm

omit [DecidableEq K] in
theorem Modular.wraps {x : Int} {y : β} (h : m ∣ x - val y) : Wraps lo m x (val y) := ⟨hm.low y, hm.high y, h⟩

omit [DecidableEq K] in
theorem Modular.sumOver {V : Type} (N : List V) (f : V → β) (g : V → Int) (h : ∀ v ∈ N, m ∣ g v - val (f v)) :
    m ∣ sumOver N g - val (sumOver N f) := by
  unfold Spec.sumOver
  induction N with
  | nil => simp [hm.zero]
  | cons v N ih =>
    rw [List.map_cons, List.map_cons, List.sum_cons, List.sum_cons]
    have h1 := ih fun u hu => h u (List.mem_cons_of_mem _ hu)
    have h2 := h v List.mem_cons_self
    have h3 := hm.add (f v) (N.map f).sum
    have h4 := dvd_add (dvd_add h1 h2) h3
    have e : (List.map g N).sum - val (List.map f N).sum + (g v - val (f v)) +
      (val (f v) + val (List.map f N).sum - val (f v + (List.map f N).sum)) =
      g v + (List.map g N).sum - val (f v + (List.map f N).sum) := by ring
    rwa [e] at h4

omit [DecidableEq K] in
theorem Modular.getD (o : Option β) : m ∣ (o.map val).getD 0 - val (o.getD 0) := by
  cases o <;> simp [hm.zero]

omit [DecidableEq K] in
theorem Modular.weightFromTo {V : Type} (N : List V) (w : V → V → Option β) (P Q : V → Prop)
    [DecidablePred P] [DecidablePred Q] :
    Wraps lo m (weightFromTo N (fun u v => (w u v).map val) P Q) (val (weightFromTo N w P Q)) := by
  refine hm.wraps (hm.sumOver _ _ _ fun u _ => hm.sumOver _ _ _ fun v _ => ?_)
  split
  · exact hm.getD _
  · simp [hm.zero]

omit [DecidableEq K] in
theorem Modular.getD_map (o : Option β) : (o.map val).getD 0 = val (o.getD 0) := by
  cases o <;> simp [hm.zero]

theorem modular_cut_size (h : G.WF) (S T : List K) :
    ∃ r₁ r₂, cutSizeInt val G S (some T) = .ok (r₁ + if G.directed then r₂ else 0) ∧
      Wraps lo m (weightFromTo G.nodes (intWeight val G) (· ∈ S) (· ∈ T)) r₁ ∧
      Wraps lo m (weightFromTo G.nodes (intWeight val G) (· ∈ T) (· ∈ S)) r₂ := by
  obtain ⟨v1, e1, h1⟩ := setToVector_ok h S
  obtain ⟨v2, e2, h2⟩ := setToVector_ok h T
  have e2' : setToVector? G (some T) = .ok (some v2) := by simp [setToVector?, e2, Except.map]
  have a1 := weight_boundary (Q := (· ∈ T)) (v2 := some v2) h h1 (fun i j _ => h2 j)
  have a2 := weight_boundary (Q := (· ∈ S)) (v2 := some v1) h h2 (fun i j _ => h1 j)
  refine ⟨_, _, ?_, hm.weightFromTo G.nodes G.weight? _ _, hm.weightFromTo G.nodes G.weight? _ _⟩
  unfold cutSizeInt
  rw [e1, e2']
  show cutSizeI val G.directed G.A v1 (some v2) = _
  rw [← a1, ← a2]
  unfold cutSizeI
  dsimp only
  rw [hm.getD_map, hm.getD_map]
  cases G.directed <;> simp

theorem modular_cut_size_complement (h : G.WF) (hs : G.Symm) (hd : G.directed = false) (S : List K) :
    ∃ r, cutSizeInt val G S none = .ok r ∧
      Wraps lo m (weightFromTo G.nodes (intWeight val G) (· ∈ S) (· ∉ S)) r := by
  obtain ⟨v1, e1, h1⟩ := setToVector_ok h S
  have a1 := weight_boundary (Q := (· ∉ S)) (v2 := none) h h1 (fun i j ha => cols_compl h hs h1 i j ha)
  refine ⟨_, ?_, hm.weightFromTo G.nodes G.weight? _ _⟩
  unfold cutSizeInt
  rw [e1]
  show cutSizeI val G.directed G.A v1 none = _
  rw [← a1]
  unfold cutSizeI
  rw [hm.getD_map, hd]
  rfl

theorem modular_volume (h : G.WF) {S : List K} (hS : ∀ u ∈ S, G.Node u) :
    ∃ r, volumeInt val G S = .ok r ∧
      Wraps lo m (weightFromTo G.nodes (intWeight val G) (fun _ => True) (· ∈ S)) r := by
  obtain ⟨v, e, hv⟩ := listToVector_ok h hS
  refine ⟨_, ?_, hm.weightFromTo G.nodes G.weight? _ _⟩
  unfold volumeInt
  rw [e, ← volumeW_eq h hv]
  show Except.ok (volumeI val G.A v) = _
  unfold volumeI
  rw [hm.getD_map]
  rfl

omit [DecidableEq K] in
theorem modular_sub (a c : Option β) : m ∣ (a.map val).getD 0 - (c.map val).getD 0 - val (a.getD 0 - c.getD 0) := by
  rw [hm.getD_map, hm.getD_map]
  exact hm.sub _ _

theorem modular_tournament_matrix (h : G.WF) (i j : Fin G.n) {u v : K} (hu : G.At u i) (hv : G.At v j) :
    Wraps lo m ((intWeight val G u v).getD 0 - (intWeight val G v u).getD 0)
      (val ((tournamentMatrix G i j).getD 0)) := by
  have := (tournament_matrix_correct h i j).2.1
  rw [keyFn_eq h hu, keyFn_eq h hv] at this
  rw [this]
  exact hm.wraps (modular_sub hm _ _)

theorem modular_laplacian_matrix (h : G.WF) {nodelist : Option (List K)}
    (hL : ∀ L, nodelist = some L → ∀ u ∈ L, G.Node u) (isWeighted : Bool)
    (hok : nodelist ≠ none ∨ G.multi = true ∨ isWeighted = true) :
    ∃ M : Σ m, Mat m m β, laplacianMatrix G nodelist isWeighted = .ok M ∧
      M.1 = (chosen G nodelist).length ∧
      ∀ i j u v, RowName G nodelist i.val u → RowName G nodelist j.val v →
        Wraps lo m (lapEntry (chosen G nodelist) (weightsOf (G.multi || isWeighted) (intWeight val G))
          (decide (i = j)) u v) (val ((M.2 i j).getD 0)) := by
  obtain ⟨M, e, hl, hent, -⟩ := laplacian_matrix_correct_partial h hL isWeighted
    (by tauto)
  refine ⟨M, e, hl, fun i j u v hu hv => hm.wraps ?_⟩
  rw [hent i j u v hu hv]
  have hw : ∀ a c, m ∣ (weightsOf (G.multi || isWeighted) (intWeight val G) a c).getD 0 -
      val ((weightsOf (G.multi || isWeighted) G.weight? a c).getD 0) := by
    intro a c
    unfold weightsOf
    split
    · exact hm.getD _
    · unfold unitWeights intWeight
      cases G.weight? a c with
      | none => simp [hm.zero]
      | some x => simpa using hm.one
  have ho := hm.sumOver (chosen G nodelist) (fun v => (weightsOf (G.multi || isWeighted) G.weight? u v).getD 0)
    (fun v => (weightsOf (G.multi || isWeighted) (intWeight val G) u v).getD 0) fun v _ => hw u v
  unfold lapEntry
  split
  · have h1 := hm.sub (outWeight (chosen G nodelist) (weightsOf (G.multi || isWeighted) G.weight?) u)
      ((weightsOf (G.multi || isWeighted) G.weight? u v).getD 0)
    have h2 := dvd_add (dvd_sub ho (hw u v)) h1
    refine (Int.dvd_iff_dvd_of_dvd_sub ?_).1 h2
    unfold outWeight
    ring_nf
    exact dvd_zero _
  · have h1 := hm.sub 0 ((weightsOf (G.multi || isWeighted) G.weight? u v).getD 0)
    have h2 := dvd_sub h1 (hw u v)
    refine (Int.dvd_iff_dvd_of_dvd_sub ?_).1 h2
    rw [hm.zero]
    ring_nf
    exact dvd_zero _

end generic

/-! ### signed types: `INT<b>` -/

section signed
variable {b : Nat} (hb : 0 < b) {G : Graph K (SInt b)}
include hb

/-- **C107.** Weighted `cut_size(G, S, T)`: the sum of each direction is reduced into the range of the dtype, so it is
exact whenever that sum is in range (`Wraps.exact`), also if partial sums are not; in a digraph the two directions
are then added exactly. -/
theorem int_cut_size (h : G.WF) (S T : List K) :
    ∃ r₁ r₂, cutSizeInt SInt.toInt G S (some T) = .ok (r₁ + if G.directed then r₂ else 0) ∧
      Wraps (-2 ^ (b - 1)) (2 ^ b) (weightFromTo G.nodes (intWeight SInt.toInt G) (· ∈ S) (· ∈ T)) r₁ ∧
      Wraps (-2 ^ (b - 1)) (2 ^ b) (weightFromTo G.nodes (intWeight SInt.toInt G) (· ∈ T) (· ∈ S)) r₂ :=
  modular_cut_size (SInt.modular hb) h S T

/-- **C107.** the same with `T` omitted, on undirected graphs -/
theorem int_cut_size_complement (h : G.WF) (hs : G.Symm) (hd : G.directed = false) (S : List K) :
    ∃ r, cutSizeInt SInt.toInt G S none = .ok r ∧
      Wraps (-2 ^ (b - 1)) (2 ^ b) (weightFromTo G.nodes (intWeight SInt.toInt G) (· ∈ S) (· ∉ S)) r :=
  modular_cut_size_complement (SInt.modular hb) h hs hd S

/-- **C107.** Weighted `volume(G, S)` -/
theorem int_volume (h : G.WF) {S : List K} (hS : ∀ u ∈ S, G.Node u) :
    ∃ r, volumeInt SInt.toInt G S = .ok r ∧
      Wraps (-2 ^ (b - 1)) (2 ^ b) (weightFromTo G.nodes (intWeight SInt.toInt G) (fun _ => True) (· ∈ S)) r :=
  modular_volume (SInt.modular hb) h hS

omit hb in
/-- **C107.** `mutual_weight` is exact: it adds Python integers. -/
theorem int_mutual_weight (h : G.WF) (u v : K) :
    mutualWeightInt SInt.toInt G u v =
      .ok ((intWeight SInt.toInt G u v).getD 0 + (intWeight SInt.toInt G v u).getD 0) :=
  modular_mutual_weight h u v

/-- **C107.** `tournament_matrix` -/
theorem int_tournament_matrix (h : G.WF) (i j : Fin G.n) {u v : K} (hu : G.At u i) (hv : G.At v j) :
    Wraps (-2 ^ (b - 1)) (2 ^ b) ((intWeight SInt.toInt G u v).getD 0 - (intWeight SInt.toInt G v u).getD 0)
      ((tournamentMatrix G i j).getD 0).toInt :=
  modular_tournament_matrix (SInt.modular hb) h i j hu hv

/-- **C107.** `laplacian_matrix` when the weights (or, with a node list, the ones) have the dtype of the graph -/
theorem int_laplacian_matrix (h : G.WF) {nodelist : Option (List K)}
    (hL : ∀ L, nodelist = some L → ∀ u ∈ L, G.Node u) (isWeighted : Bool)
    (hok : nodelist ≠ none ∨ G.multi = true ∨ isWeighted = true) :
    ∃ M : Σ m, Mat m m (SInt b), laplacianMatrix G nodelist isWeighted = .ok M ∧
      M.1 = (chosen G nodelist).length ∧
      ∀ i j u v, RowName G nodelist i.val u → RowName G nodelist j.val v →
        Wraps (-2 ^ (b - 1)) (2 ^ b) (lapEntry (chosen G nodelist)
          (weightsOf (G.multi || isWeighted) (intWeight SInt.toInt G)) (decide (i = j)) u v)
          ((M.2 i j).getD 0).toInt :=
  modular_laplacian_matrix (SInt.modular hb) h hL isWeighted hok

end signed

/-! ### unsigned types: `UINT<b>` -/

section unsigned
variable {b : Nat} {G : Graph K (UInt_ b)}

/-- **C107.** unsigned weights: `cut_size(G, S, T)` -/
theorem uint_cut_size (h : G.WF) (S T : List K) :
    ∃ r₁ r₂, cutSizeInt UInt_.toInt G S (some T) = .ok (r₁ + if G.directed then r₂ else 0) ∧
      Wraps 0 (2 ^ b) (weightFromTo G.nodes (intWeight UInt_.toInt G) (· ∈ S) (· ∈ T)) r₁ ∧
      Wraps 0 (2 ^ b) (weightFromTo G.nodes (intWeight UInt_.toInt G) (· ∈ T) (· ∈ S)) r₂ :=
  modular_cut_size UInt_.modular h S T

/-- **C107.** unsigned weights: `volume(G, S)` -/
theorem uint_volume (h : G.WF) {S : List K} (hS : ∀ u ∈ S, G.Node u) :
    ∃ r, volumeInt UInt_.toInt G S = .ok r ∧
      Wraps 0 (2 ^ b) (weightFromTo G.nodes (intWeight UInt_.toInt G) (fun _ => True) (· ∈ S)) r :=
  modular_volume UInt_.modular h hS

/-- **C107.** unsigned weights: `mutual_weight` -/
theorem uint_mutual_weight (h : G.WF) (u v : K) :
    mutualWeightInt UInt_.toInt G u v =
      .ok ((intWeight UInt_.toInt G u v).getD 0 + (intWeight UInt_.toInt G v u).getD 0) :=
  modular_mutual_weight h u v

/-- **C107, finding.** On an unsigned dtype the negative entries of `tournament_matrix` are never there: against an edge
`u → v` of weight `w > 0` that is not matched by one back, the entry at `(v, u)` is `2^b - w` instead of `-w`. -/
theorem uint_tournament_matrix (h : G.WF) (i j : Fin G.n) {u v : K} (hu : G.At u i) (hv : G.At v j)
    {w : UInt_ b} (hw : G.WEdge u v w) (hpos : 0 < w.toInt) (hback : ¬ G.Edge v u) :
    ((tournamentMatrix G i j).getD 0).toInt = w.toInt ∧
    ((tournamentMatrix G j i).getD 0).toInt = 2 ^ b - w.toInt := by
  have h1 := modular_tournament_matrix UInt_.modular h i j hu hv
  have h2 := modular_tournament_matrix UInt_.modular h j i hv hu
  have e1 : G.weight? u v = some w := (weight?_eq_some h).2 hw
  have e2 : G.weight? v u = none := by
    cases hc : G.weight? v u with
    | none => rfl
    | some x => exact absurd (edge_iff_wedge.2 ⟨x, (weight?_eq_some h).1 hc⟩) hback
  have hlt := (UInt_.modular (b := b)).high w
  unfold intWeight at h1 h2
  rw [e1, e2] at h1 h2
  simp only [Option.map_some, Option.map_none, Option.getD_some, Option.getD_none, sub_zero, zero_sub] at h1 h2
  refine ⟨h1.exact (by omega) (by omega), ?_⟩
  refine h2.unique ⟨by omega, by omega, ?_⟩
  have : -w.toInt - (2 ^ b - w.toInt) = -2 ^ b := by ring
  rw [this]
  exact (Int.dvd_neg).2 (dvd_refl _)

/-- **C107, finding.** The same for `laplacian_matrix` with weights: off the diagonal an edge of weight `w > 0` gives
`2^b - w` instead of `-w`. -/
theorem uint_laplacian_matrix (h : G.WF) {nodelist : Option (List K)}
    (hL : ∀ L, nodelist = some L → ∀ u ∈ L, G.Node u) :
    ∃ M : Σ m, Mat m m (UInt_ b), laplacianMatrix G nodelist true = .ok M ∧
      M.1 = (chosen G nodelist).length ∧
      (∀ i u, RowName G nodelist i.val u →
        Wraps 0 (2 ^ b) (lapEntry (chosen G nodelist) (intWeight UInt_.toInt G) true u u)
          ((M.2 i i).getD 0).toInt) ∧
      ∀ i j u v w, RowName G nodelist i.val u → RowName G nodelist j.val v → i ≠ j → G.WEdge u v w →
        0 < w.toInt → ((M.2 i j).getD 0).toInt = 2 ^ b - w.toInt := by
  obtain ⟨M, e, hl, hent⟩ := modular_laplacian_matrix (UInt_.modular (b := b)) h hL true (by simp)
  rw [Bool.or_true] at hent
  refine ⟨M, e, hl, fun i u hu => ?_, fun i j u v w hu hv hij hw hpos => ?_⟩
  · have := hent i i u u hu hu
    rw [decide_eq_true rfl] at this
    exact this
  · have := hent i j u v hu hv
    rw [decide_eq_false hij] at this
    have e1 : G.weight? u v = some w := (weight?_eq_some h).2 hw
    unfold lapEntry weightsOf intWeight at this
    simp only [if_true, e1, Option.map_some, Option.getD_some, Bool.false_eq_true, if_false, zero_sub] at this
    have hlt := (UInt_.modular (b := b)).high w
    refine this.unique ⟨by omega, by omega, ?_⟩
    have : -w.toInt - (2 ^ b - w.toInt) = -2 ^ b := by ring
    rw [this]
    exact (Int.dvd_neg).2 (dvd_refl _)

end unsigned

/-! ### concrete cases -/

/-- INT8 weights 100 and 100 and -90 out of node 0 -/
def Ex.cut8 : Graph Nat (SInt 8) where
  n := 4
  A := Ex.i8 [(0,1,100), (0,2,100), (0,3,-90)] 4
  keyToId := [(0,0),(1,1),(2,2),(3,3)]
  directed := true

/-- 100 + 100 - 90 = 110 is returned although 100 + 100 is out of range; 100 + 100 is returned as -56 -/
example : Ex.cut8.WF ∧ cutSizeInt SInt.toInt Ex.cut8 [0] (some [1, 2, 3]) = .ok 110 ∧
    cutSizeInt SInt.toInt Ex.cut8 [0] (some [1, 2]) = .ok (-56) ∧
    volumeInt SInt.toInt Ex.cut8 [1, 2] = .ok (-56) ∧
    mutualWeightInt SInt.toInt Ex.cut8 0 1 = .ok 100 :=
  ⟨⟨by decide, by decide⟩, by decide +kernel, by decide +kernel, by decide +kernel, by decide +kernel⟩

/-- **C107, negative part.** A weighted cut of INT8 weights 100 and 100 has size -56, and so has the volume. -/
theorem int8_sums_wrap : Ex.cut8.WF ∧
    weightFromTo Ex.cut8.nodes (intWeight SInt.toInt Ex.cut8) (· ∈ [0]) (· ∈ [1, 2]) = 200 ∧
    cutSizeInt SInt.toInt Ex.cut8 [0] (some [1, 2]) = .ok (-56) ∧
    volumeInt SInt.toInt Ex.cut8 [1, 2] = .ok (-56) :=
  ⟨⟨by decide, by decide⟩, by decide +kernel, by decide +kernel, by decide +kernel⟩

/-- UINT8, one edge `0 → 1` of weight 1 -/
def Ex.edge8 : Graph Nat (UInt_ 8) where
  n := 2
  A := fun i j => (_root_.Ex.ofTriples 2 [(0,1,1)] i j).map (UInt_.ofInt 8)
  keyToId := [(0,0),(1,1)]
  directed := true

example : Ex.edge8.WF ∧ Ex.edge8.WEdge 0 1 (UInt_.ofInt 8 1) ∧ ¬ Ex.edge8.Edge 1 0 ∧
    ((tournamentMatrix Ex.edge8 (1 : Fin 2) (0 : Fin 2)).getD 0).toInt = 255 :=
  ⟨⟨by decide, by decide⟩, ⟨(0 : Fin 2), (1 : Fin 2), by unfold Graph.At; decide, by unfold Graph.At; decide,
    by decide +kernel⟩, by decide +kernel, by decide +kernel⟩

end Props
