import Verif.Props.Float
import Verif.Props.FloatRank64

/-!
# C108 in IEEE 754 double precision

The theorems of Props/Float.lean for binary64, with the error terms worked out, and a condition under which there
are none: weights that are multiples of one power of two, such as integers, and a sum that fits 53 bits.
-/

open GB Spec Model Proofs Proofs.BF Proofs.Flt Proofs.Bfs Graph

namespace Props

theorem isDouble_zero : IsDouble 0 := ⟨0, 0, by norm_num, by norm_num, by norm_num⟩

/-- rounding to the nearest binary64 number, ties to even, as a rounding in the sense of Model/Float.lean -/
def double : Rounding ℚ :=
  Rounding.nearest {q | IsDouble q} isDouble_zero rnd64 B64.rnd_double fun x f hf => by
    rw [abs_sub_comm x, abs_sub_comm x]; exact B64.rnd_nearest x f hf

/-- `d` is a binary64 number -/
theorem double_val (d : Fl double) : IsDouble d.val := by
  have h : rnd64 d.1 = d.1 := d.2
  have := B64.rnd_double d.1
  rwa [h] at this

/-- and every binary64 number is one -/
theorem double_of {q : ℚ} (h : IsDouble q) : double.fl q = q := by
  have := B64.rnd_nearest q q h
  rw [sub_self, abs_zero] at this
  exact sub_eq_zero.1 (abs_nonpos_iff.1 this)

theorem mult_nsmul {x : ℚ} (hx : B64.Mult x) (l : Nat) : B64.Mult (l • x) := by
  obtain ⟨k, rfl⟩ := hx
  exact ⟨l * k, by push_cast; rw [nsmul_eq_mul, mul_assoc]⟩

/-- **C108.** binary64 has unit roundoff `2⁻⁵³`, with no lower limit. -/
theorem double_accurate (B : ℚ) : Accurate double (fun _ => True) u64 B where
  u_nonneg := by rw [u64_eq]; norm_num
  u_le := by rw [u64_eq]; norm_num
  zero := trivial
  add x y _ _ hx hy _ := by
    refine ⟨trivial, ?_⟩
    have := B64.rnd_err_mult ((B64.IsDouble.mult (double_val x)).add (B64.IsDouble.mult (double_val y)))
    rwa [abs_of_nonneg (add_nonneg hx hy)] at this
  smul l x _ hx _ := by
    have := B64.rnd_err_mult (mult_nsmul (B64.IsDouble.mult (double_val x)) l)
    rw [nsmul_eq_mul, abs_of_nonneg (mul_nonneg (Nat.cast_nonneg l) hx), ← nsmul_eq_mul] at this
    rw [← nsmul_eq_mul]
    exact this

/-- a non-negative multiple of `2^g` -/
def MultipleOf (g : ℤ) (q : ℚ) : Prop := ∃ k : ℕ, q = k * 2 ^ g

theorem multipleOf_double {g : ℤ} (hg : -1074 ≤ g) {q : ℚ} (h : MultipleOf g q) (hq : q ≤ 2 ^ 53 * 2 ^ g) :
    IsDouble q := by
  obtain ⟨k, rfl⟩ := h
  have hp : (0 : ℚ) < 2 ^ g := by positivity
  have hk : (k : ℚ) ≤ 2 ^ 53 := le_of_mul_le_mul_right hq hp
  have hk' : k ≤ 2 ^ 53 := by exact_mod_cast hk
  rcases lt_or_eq_of_le hk' with h | rfl
  · refine ⟨k, g, ?_, hg, by push_cast; rfl⟩
    rw [abs_of_nonneg (Int.natCast_nonneg k)]
    exact_mod_cast h
  · refine ⟨2 ^ 52, g + 1, by norm_num, by omega, ?_⟩
    rw [zpow_add₀ (by norm_num)]
    push_cast; ring

/-- **C108.** Sums of multiples of `2^g` are exact as long as they fit 53 bits. -/
theorem multiples_accurate {g : ℤ} (hg : -1074 ≤ g) : Accurate double (MultipleOf g) 0 (2 ^ 53 * 2 ^ g) where
  u_nonneg := le_rfl
  u_le := zero_le_one
  zero := ⟨0, by simp⟩
  add x y sx sy _ _ hB := by
    have hs : MultipleOf g (x.val + y.val) := by
      obtain ⟨a, ha⟩ := sx
      obtain ⟨b, hb⟩ := sy
      exact ⟨a + b, by rw [ha, hb]; push_cast; ring⟩
    have e : (x + y).val = x.val + y.val := double_of (multipleOf_double hg hs hB)
    rw [e]
    exact ⟨hs, by simp⟩
  smul l x sx _ hB := by
    have hs : MultipleOf g (l • x.val) := by
      obtain ⟨a, ha⟩ := sx
      exact ⟨l * a, by rw [ha, nsmul_eq_mul]; push_cast; ring⟩
    rw [← nsmul_eq_mul] at hB ⊢
    have e : (l • x).val = l • x.val := double_of (multipleOf_double hg hs hB)
    rw [e]; simp

variable {K : Type} [DecidableEq K] {G : Graph K (Fl double)} {M : ℚ}

/-! ### any weights -/

theorem up64 {m : Nat} (hm : m ≤ 2 ^ 40) : (1 + u64) ^ m ≤ 1 + m / 2 ^ 52 := by
  have h0 : (0 : ℚ) ≤ u64 := by rw [u64_eq]; norm_num
  have h1 : u64 < 1 := by rw [u64_eq]; norm_num
  have hm' : (m : ℚ) ≤ 2 ^ 40 := by exact_mod_cast hm
  have := growth_pow_le h0 h1 m (by rw [u64_eq]; linarith)
  have e : 1 + u64 ≤ growth u64 := by
    unfold growth
    rw [le_div_iff₀ (by linarith)]
    nlinarith
  refine (pow_le_pow_left₀ (by linarith) e m).trans (this.trans (le_of_eq ?_))
  rw [u64_eq]; ring

theorem down64 (m : Nat) : 1 - (m : ℚ) / 2 ^ 52 ≤ (1 - u64) ^ m := by
  have h1 : u64 < 1 := by rw [u64_eq]; norm_num
  have b := one_add_mul_le_pow (a := -u64) (by linarith) m
  rw [← sub_eq_add_neg] at b
  refine le_trans ?_ b
  have : (0 : ℚ) ≤ m := Nat.cast_nonneg m
  rw [u64_eq]
  linarith

/-- the relative error of `m` roundings -/
theorem close64 {m : Nat} (hm : m ≤ 2 ^ 40) {d D : ℚ} (hD : 0 ≤ D)
    (h : (1 - u64) ^ m * D ≤ d ∧ d ≤ (1 + u64) ^ m * D) : |d - D| ≤ m / 2 ^ 52 * D := by
  have a1 := mul_le_mul_of_nonneg_right (up64 hm) hD
  have a2 := mul_le_mul_of_nonneg_right (down64 m) hD
  rw [abs_le]
  constructor <;> linarith [h.1, h.2]

theorem bound64 {n : Nat} (hn : n ≤ 2 ^ 40) {m : Nat} (hm : m ≤ n) {T : ℚ} (h0 : 0 ≤ T) {B : ℚ} (h : 2 * T ≤ B) :
    (1 + u64) ^ m * T ≤ B := by
  refine le_trans (mul_le_mul_of_nonneg_right ((up64 (hm.trans hn)).trans ?_) h0) h
  have : (m : ℚ) ≤ 2 ^ 40 := by exact_mod_cast hm.trans hn
  linarith

/-- sums up to here are far from the largest finite double, `2¹⁰²⁴ - 2⁹⁷¹` -/
def noOverflow64 : ℚ := 2 ^ (1023 : ℤ)

omit [DecidableEq K] in
theorem realDist_nonneg (hW : ∀ a b w, G.WEdge a b w → 0 ≤ w.val) {s v : K} {D : ℚ}
    (hD : IsWDist (RealEdge G) s D v) : 0 ≤ D := by
  obtain ⟨⟨k, hk⟩, -⟩ := hD
  induction hk with
  | nil => exact le_rfl
  | snoc _ e ih =>
    obtain ⟨w, hw, rfl⟩ := e
    exact add_nonneg ih (hW _ _ w hw)

omit [DecidableEq K] in
theorem n_pos (h : G.WF) {s : K} (hs : G.Node s) : 1 ≤ G.n := by
  obtain ⟨i, -⟩ := hs.exists_id h
  exact i.pos

/-- **C108, doubles.** `single_source_bellman_ford_path_length` on non-negative double weights, up to `2⁴⁰` nodes:
a value exactly at the reachable nodes, with relative error at most `(n - 1) · 2⁻⁵²`. -/
theorem double_single_source (h : G.WF) (hW : ∀ a b w, G.WEdge a b w → 0 ≤ w.val ∧ w.val ≤ M) (hM : 0 ≤ M)
    (hn : G.n ≤ 2 ^ 40) (hB : 2 * (G.n * M) ≤ noOverflow64) {iso : Option (Fl double)}
    (hiso : IsoValid G iso) (fdiv : Fl double → Fl double → Int) {s : K} (hs : G.Node s) :
    ∃ res, singleSourceBF G iso fdiv s none = .ok res ∧
      (∀ v D, IsWDist (RealEdge G) s D v → ∃ d, G.view res v = some d) ∧
      ∀ v d, G.view res v = some d → ∃ D, IsWDist (RealEdge G) s D v ∧
        |d.val - D| ≤ (G.n - 1) / 2 ^ 52 * D := by
  have hpos := n_pos h hs
  have hT : ((G.n - 1 : Nat) : ℚ) * M ≤ G.n * M := mul_le_mul_of_nonneg_right (Nat.cast_le.2 (by omega)) hM
  obtain ⟨res, h1, h2, h3⟩ := float_single_source_accurate h hW (fun _ _ _ _ => trivial)
    (double_accurate noOverflow64)
    (bound64 hn (Nat.sub_le _ _) (mul_nonneg (Nat.cast_nonneg _) hM) (le_trans (by linarith) hB)) hiso fdiv hs
  refine ⟨res, h1, h2, fun v d hd => ?_⟩
  obtain ⟨D, hD, hc⟩ := h3 v d hd
  have := close64 (by omega) (realDist_nonneg (fun a b w hw => (hW a b w hw).1) hD) hc
  rw [Nat.cast_pred hpos] at this
  exact ⟨D, hD, this⟩

/-- **C108, doubles.** `floyd_warshall`: relative error at most `n · 2⁻⁵²`. -/
theorem double_floyd_warshall (h : G.WF) (hsym : G.directed = false → G.Symm)
    (hW : ∀ a b w, G.WEdge a b w → 0 ≤ w.val ∧ w.val ≤ M) (hM : 0 ≤ M)
    (hn : G.n ≤ 2 ^ 40) (hB : 4 * (G.n * M) ≤ noOverflow64) (choose : Fl double → Fl double → Fl double) {s v : K}
    (hs : G.Node s) (hv : G.Node v) :
    (∀ D, IsWDist (RealEdge G) s D v → ∃ d, G.view2 (fwDist G.directed choose G.A) s v = some d) ∧
    ∀ d, G.view2 (fwDist G.directed choose G.A) s v = some d → ∃ D, IsWDist (RealEdge G) s D v ∧
      |d.val - D| ≤ G.n / 2 ^ 52 * D := by
  have hpos := n_pos h hs
  have hq : (1 : ℚ) ≤ G.n := by exact_mod_cast hpos
  have hT : ((G.n : ℚ) - 1) * M ≤ G.n * M := mul_le_mul_of_nonneg_right (by linarith) hM
  have hT0 : 0 ≤ ((G.n : ℚ) - 1) * M := mul_nonneg (by linarith) hM
  obtain ⟨h1, h2⟩ := float_floyd_warshall_accurate h hsym hW hM (fun _ _ _ _ => trivial)
    (double_accurate noOverflow64)
    (bound64 hn le_rfl (mul_nonneg zero_le_two hT0) (le_trans (by linarith) hB)) choose hs hv
  refine ⟨h1, fun d hd => ?_⟩
  obtain ⟨D, hD, hc⟩ := h2 d hd
  exact ⟨D, hD, close64 hn (realDist_nonneg (fun a b w hw => (hW a b w hw).1) hD) hc⟩

/-! ### weights whose sums are exact -/

/-- The weights are multiples of `2^g` (integers for `g = 0`), and `n - 1` of the largest fit 53 bits. -/
structure FitsDouble (G : Graph K (Fl double)) (g : ℤ) (m : ℕ) : Prop where
  exp : -1074 ≤ g
  weight : ∀ a b w, G.WEdge a b w → ∃ k : ℕ, w.val = k * 2 ^ g ∧ k ≤ m
  fits : (G.n - 1) * m ≤ 2 ^ 53

section exact
variable {g : ℤ} {m : ℕ}

omit [DecidableEq K] in
theorem FitsDouble.bounds (hf : FitsDouble G g m) (a b : K) (w : Fl double) (hw : G.WEdge a b w) :
    0 ≤ w.val ∧ w.val ≤ m * 2 ^ g := by
  obtain ⟨k, e, hk⟩ := hf.weight a b w hw
  rw [e]
  have : (k : ℚ) ≤ m := by exact_mod_cast hk
  exact ⟨by positivity, mul_le_mul_of_nonneg_right this (by positivity)⟩

omit [DecidableEq K] in
theorem FitsDouble.mult (hf : FitsDouble G g m) (a b : K) (w : Fl double) (hw : G.WEdge a b w) :
    MultipleOf g w.val := by
  obtain ⟨k, e, -⟩ := hf.weight a b w hw
  exact ⟨k, e⟩

omit [DecidableEq K] in
theorem FitsDouble.bound (hf : FitsDouble G g m) :
    (1 + 0 : ℚ) ^ (G.n - 1) * ((G.n - 1 : Nat) * (m * 2 ^ g)) ≤ 2 ^ 53 * 2 ^ g := by
  rw [add_zero, one_pow, one_mul, ← mul_assoc]
  have : ((G.n - 1 : Nat) : ℚ) * m ≤ 2 ^ 53 := by exact_mod_cast hf.fits
  exact mul_le_mul_of_nonneg_right this (by positivity)

/-- the rounded distance is the exact one -/
theorem exact_dist (h : G.WF) (hf : FitsDouble G g m) {s v : K} (hs : G.Node s) (hv : G.Node v) (d : Fl double) :
    IsWDist G.WEdge s d v ↔ IsWDist (RealEdge G) s d.val v := by
  obtain ⟨p1, p2, p3⟩ := rounded_dist_accurate h hf.bounds hf.mult (multiples_accurate hf.exp) hf.bound hs hv
  have key : ∀ d D, IsWDist G.WEdge s d v → IsWDist (RealEdge G) s D v → d.val = D := by
    intro d D hd hD
    have := p3 d D hd hD
    simp only [sub_zero, add_zero, one_pow, one_mul] at this
    exact le_antisymm this.2 this.1
  constructor
  · intro hd
    obtain ⟨D, hD⟩ := p1 d hd
    rwa [key d D hd hD]
  · intro hD
    obtain ⟨d', hd'⟩ := p2 _ hD
    have := val_inj (key d' _ hd' hD)
    rwa [← this]

/-- **C108, exact doubles.** `single_source_bellman_ford_path_length`, stored iso-valued or not: the values are the
exact distances. -/
theorem double_single_source_exact (h : G.WF) (hf : FitsDouble G g m) {iso : Option (Fl double)}
    (hiso : IsoValid G iso) (fdiv : Fl double → Fl double → Int) {s : K} (hs : G.Node s) :
    ∃ res, singleSourceBF G iso fdiv s none = .ok res ∧
      ∀ v q, (G.view res v).map Fl.val = some q ↔ IsWDist (RealEdge G) s q v := by
  obtain ⟨res, h1, h2, h3⟩ := float_single_source_accurate h hf.bounds hf.mult (multiples_accurate hf.exp) hf.bound
    hiso fdiv hs
  have key : ∀ v d, G.view res v = some d → IsWDist (RealEdge G) s d.val v := by
    intro v d hd
    obtain ⟨D, hD, h4⟩ := h3 v d hd
    simp only [sub_zero, add_zero, one_pow, one_mul] at h4
    rwa [le_antisymm h4.2 h4.1]
  refine ⟨res, h1, fun v q => ?_⟩
  rw [Option.map_eq_some_iff]
  constructor
  · rintro ⟨d, hd, rfl⟩; exact key v d hd
  · intro hq
    obtain ⟨d, hd⟩ := h2 v q hq
    refine ⟨d, hd, ?_⟩
    obtain ⟨⟨k, hk⟩, hmin⟩ := key v d hd
    obtain ⟨⟨k', hk'⟩, hmin'⟩ := hq
    exact le_antisymm (hmin _ _ hk') (hmin' _ _ hk)

/-- **C108, exact doubles, cutoff** (not iso-valued): exactly the nodes at distance at most the cutoff. -/
theorem double_cutoff_exact (h : G.WF) (hf : FitsDouble G g m) (fdiv : Fl double → Fl double → Int) {s : K}
    (hs : G.Node s) {x : Fl double} (hx : 0 ≤ x.val) :
    ∃ res, singleSourceBF G none fdiv s (some x) = .ok res ∧
      ∀ v d, G.view res v = some d ↔ IsWDist (RealEdge G) s d.val v ∧ d.val ≤ x.val := by
  obtain ⟨res, h1, h2⟩ := rounded_single_source_cutoff h (fun a b w hw => (hf.bounds a b w hw).1) fdiv hs
    (x := x) hx
  refine ⟨res, h1, fun v d => ?_⟩
  rw [h2]
  constructor
  · rintro ⟨hd, hx⟩
    obtain ⟨k, hk⟩ := id hd.1
    exact ⟨(exact_dist h hf hs (WWalk_node hs hk) d).1 hd, hx⟩
  · rintro ⟨hd, hx⟩
    obtain ⟨k, hk⟩ := id hd.1
    obtain ⟨c, hc⟩ := unround hk
    exact ⟨(exact_dist h hf hs (WWalk_node hs hc) d).2 hd, hx⟩

/-- **C108, exact doubles, target.** -/
theorem double_target_exact (h : G.WF) (hf : FitsDouble G g m) {s t : K} (hs : G.Node s) (ht : G.Node t)
    (d : Fl double) : bellmanFordPathLength G none s t = .ok d ↔ IsWDist (RealEdge G) s d.val t := by
  rw [(rounded_target h (fun a b w hw => (hf.bounds a b w hw).1) hs ht).1, exact_dist h hf hs ht]

/-- **C108, exact doubles, path.** `bellman_ford_path` returns a simple path whose exact weight is the exact
distance, or the empty list, exactly when there is no walk. -/
theorem double_path_exact (h : G.WF) (hf : FitsDouble G g m) {iso : Option (Fl double)}
    (hiso : IsoValid G iso) {s t : K} (hs : G.Node s) (ht : G.Node t) :
    (∃ l D, bellmanFordPath G iso s t = .ok l ∧ l.head? = some s ∧ l.getLast? = some t ∧ l.Nodup ∧
      PathWeight (RealEdge G) l D ∧ IsWDist (RealEdge G) s D t) ∨
    (bellmanFordPath G iso s t = .ok [] ∧ ¬ WReach (RealEdge G) s t) := by
  rcases float_path_accurate h hf.bounds hf.mult (multiples_accurate hf.exp) hf.bound hiso hs ht with
    ⟨l, X, D, h1, h2, h3, h4, h5, h6, h7, h8, -⟩ | h1
  · left
    simp only [sub_zero, add_zero, one_pow, one_mul] at h8
    exact ⟨l, D, h1, h2, h3, h4, by rwa [le_antisymm h8 h7] at h5, h6⟩
  · exact Or.inr h1

/-- **C108, exact doubles.** `floyd_warshall`, if twice the longest sum fits 53 bits: the exact distances. -/
theorem double_floyd_warshall_exact (h : G.WF) (hf : FitsDouble G g m) (hsym : G.directed = false → G.Symm)
    (h2 : 2 * ((G.n - 1) * m) ≤ 2 ^ 53) (choose : Fl double → Fl double → Fl double) {s v : K}
    (hs : G.Node s) (hv : G.Node v) (q : ℚ) :
    (G.view2 (fwDist G.directed choose G.A) s v).map Fl.val = some q ↔ IsWDist (RealEdge G) s q v := by
  have hb : (1 + 0 : ℚ) ^ G.n * (2 * (((G.n : ℚ) - 1) * (m * 2 ^ g))) ≤ 2 ^ 53 * 2 ^ g := by
    have : ((G.n - 1 : Nat) : ℚ) = (G.n : ℚ) - 1 := Nat.cast_pred (n_pos h hs)
    rw [add_zero, one_pow, one_mul, ← this, ← mul_assoc, ← mul_assoc]
    have : 2 * ((G.n - 1 : Nat) : ℚ) * m ≤ 2 ^ 53 := by
      rw [mul_assoc]; exact_mod_cast h2
    exact mul_le_mul_of_nonneg_right this (by positivity)
  obtain ⟨p1, p2⟩ := float_floyd_warshall_accurate h hsym hf.bounds (by positivity) hf.mult
    (multiples_accurate hf.exp) hb choose hs hv
  have key : ∀ d, G.view2 (fwDist G.directed choose G.A) s v = some d → IsWDist (RealEdge G) s d.val v := by
    intro d hd
    obtain ⟨D, hD, h4⟩ := p2 d hd
    simp only [sub_zero, add_zero, one_pow, one_mul] at h4
    rwa [le_antisymm h4.2 h4.1]
  rw [Option.map_eq_some_iff]
  constructor
  · rintro ⟨d, hd, rfl⟩; exact key d hd
  · intro hq
    obtain ⟨d, hd⟩ := p1 q hq
    refine ⟨d, hd, ?_⟩
    obtain ⟨⟨k, hk⟩, hmin⟩ := key d hd
    obtain ⟨⟨k', hk'⟩, hmin'⟩ := hq
    exact le_antisymm (hmin _ _ hk') (hmin' _ _ hk)

end exact

/-! ### a case -/

/-- 0.1 as a double -/
def tenth : Fl double := ⟨rnd64 (1 / 10), double_of (B64.rnd_double _)⟩
/-- 3 as a double -/
def three64 : Fl double := ⟨3, double_of ⟨3, 0, by norm_num, by norm_num, by norm_num⟩⟩

/-- a path of 11 nodes with the given weight -/
def Ex.doublePath (w : Fl double) : Graph Nat (Fl double) where
  n := 11
  A := fun i j => if i.val + 1 = j.val ∨ j.val + 1 = i.val then some w else none
  keyToId := (List.finRange 11).map fun i => (i.val, i.val)
  directed := false

theorem Ex.doublePath_weight {w : Fl double} {a b : Nat} {x : Fl double} (h : (Ex.doublePath w).WEdge a b x) :
    x = w := by
  obtain ⟨i, j, -, -, hx⟩ := h
  simp only [Ex.doublePath] at hx
  split at hx
  · exact (Option.some.inj hx).symm
  · cases hx

/-- the value of one node in a result -/
def doubleAt (G : Graph Nat (Fl double)) (res : Except Err (Vec G.n (Fl double))) (v : Nat) : Option ℚ :=
  match res with
  | .ok d => (G.view d v).map Fl.val
  | .error _ => none

/-- **Finding.** Ten steps of 0.1: the distance is `0.9999999999999999` if the matrix is not stored iso-valued, and
`1.0` if it is. -/
theorem double_iso_storage_shows :
    doubleAt _ (singleSourceBF (Ex.doublePath tenth) none (fun _ _ => 0) 0 none) 10 = some (1 - 2 ^ (-53 : ℤ)) ∧
    doubleAt _ (singleSourceBF (Ex.doublePath tenth) (some tenth) (fun _ _ => 0) 0 none) 10 = some 1 := by
  constructor <;> decide +kernel

example : (Ex.doublePath three64).WF ∧ FitsDouble (Ex.doublePath three64) 0 3 ∧
    IsoValid (Ex.doublePath three64) (some three64) := by
  refine ⟨⟨by decide, by decide⟩, ⟨by norm_num, fun a b w hw => ?_, by decide⟩, ?_⟩
  · rw [Ex.doublePath_weight hw]
    exact ⟨3, by show (3 : ℚ) = _; norm_num, le_rfl⟩
  · rintro c ⟨⟩ a b w hw
    exact Ex.doublePath_weight hw

/-- the hypotheses of `double_single_source` and `double_floyd_warshall` hold with weights 0.1 -/
example : (Ex.doublePath tenth).WF ∧ (∀ a b w, (Ex.doublePath tenth).WEdge a b w → 0 ≤ w.val ∧ w.val ≤ 1) ∧
    (Ex.doublePath tenth).n ≤ 2 ^ 40 ∧ 4 * ((Ex.doublePath tenth).n * (1 : ℚ)) ≤ noOverflow64 := by
  refine ⟨⟨by decide, by decide⟩, fun a b w hw => ?_, by decide, ?_⟩
  · rw [Ex.doublePath_weight hw]
    constructor <;> decide +kernel
  · show (4 : ℚ) * ((11 : Nat) * 1) ≤ noOverflow64
    have : (2 : ℚ) ^ (6 : ℤ) ≤ noOverflow64 := zpow_le_zpow_right₀ (by norm_num) (by norm_num)
    refine le_trans ?_ this
    norm_num

end Props
