import Verif.Props.Small2

/-!
# C65 the isomorphism tests never reject isomorphic graphs
-/

open GB Spec Model Model.Graph Proofs Proofs.Small Proofs.Cluster

namespace Props

variable {K α K' α' : Type} {G : Graph K α} {H : Graph K' α'}

/-- an isomorphism moves row numbers -/
theorem iso_rows (hG : G.WF) (hH : H.WF) {f : K → K'} (hf : Iso G.nodes G.Edge H.nodes H.Edge f) :
    ∃ σ : Fin G.n ≃ Fin H.n, ∀ i j, (G.A i j).isSome = (H.A (σ i) (σ j)).isSome := by
  have hex : ∀ i : Fin G.n, ∃ j : Fin H.n, keyFn hH j = f (keyFn hG i) := fun i =>
    exists_keyFn hH (hf.maps _ (keyFn_at hG i).node)
  choose σ hσ using hex
  have hinj : Function.Injective σ := by
    intro i j hij
    refine keyFn_inj hG (hf.inj _ (keyFn_at hG i).node _ (keyFn_at hG j).node ?_)
    rw [← hσ, ← hσ, hij]
  have hsurj : Function.Surjective σ := by
    intro j
    obtain ⟨u, hu, e⟩ := hf.surj _ (keyFn_at hH j).node
    obtain ⟨i, rfl⟩ := exists_keyFn hG hu
    refine ⟨i, keyFn_inj hH ?_⟩
    rw [hσ, e]
  refine ⟨Equiv.ofBijective σ ⟨hinj, hsurj⟩, fun i j => ?_⟩
  rw [Bool.eq_iff_iff, ← edge_keyFn hG, hf.edge _ (keyFn_at hG i).node _ (keyFn_at hG j).node, ← hσ, ← hσ,
    edge_keyFn hH]
  rfl

section vec
variable {n m : Nat} (σ : Fin n ≃ Fin m)

theorem nvals_equiv {β γ : Type} {v : Vec n β} {w : Vec m γ} (h : ∀ i, (v i).isSome = (w (σ i)).isSome) :
    nvals v = nvals w := by
  rw [nvals_eq_sum, nvals_eq_sum]
  exact Fintype.sum_equiv σ _ _ fun i => by simp only [ind, h]

theorem countRow_equiv {β γ : Type} {A : Mat n n β} {B : Mat m m γ}
    (h : ∀ i j, (A i j).isSome = (B (σ i) (σ j)).isSome) (i) : countRow A i = countRow B (σ i) := by
  unfold countRow
  rw [nvals_equiv σ (h i)]

theorem degreesP_equiv (hd : G.directed = H.directed) (σ : Fin G.n ≃ Fin H.n)
    (h : ∀ i j, (G.A i j).isSome = (H.A (σ i) (σ j)).isSome) (i) : degreesP G i = degreesP H (σ i) := by
  unfold degreesP
  rw [hd]
  split
  · unfold totalDegreesP vadd
    rw [countRow_equiv σ h, countRow_equiv (A := transpose G.A) (B := transpose H.A) σ fun i j => h j i]
  · exact countRow_equiv σ h i

theorem finRange_perm : ((List.finRange n).map σ).Perm (List.finRange m) := by
  refine (List.perm_ext_iff_of_nodup ((List.nodup_finRange n).map σ.injective) (List.nodup_finRange m)).2 ?_
  intro j
  simp only [List.mem_map, List.mem_finRange, true_and, iff_true]
  exact ⟨σ.symm j, by simp⟩

theorem filterMap_perm {β : Type} {v : Fin n → Option β} {w : Fin m → Option β} (h : ∀ i, v i = w (σ i)) :
    ((List.finRange n).filterMap v).Perm ((List.finRange m).filterMap w) := by
  refine List.Perm.trans (List.Perm.of_eq ?_) ((finRange_perm σ).filterMap w)
  rw [List.filterMap_map]
  congr 1
  funext i
  exact h i

theorem sorted_eq {v : Vec n Nat} {w : Vec m Nat} (h : ∀ i, v i = w (σ i)) :
    sortedValues v = sortedValues w := by
  unfold sortedValues
  rw [tocoo_snd, tocoo_snd]
  have hp := filterMap_perm σ h
  refine List.Perm.eq_of_pairwise (fun a b _ _ h1 h2 => le_antisymm h1 h2)
    (List.pairwise_insertionSort (· ≤ ·) _) (List.pairwise_insertionSort (· ≤ ·) _) ?_
  exact (List.perm_insertionSort _ _).trans (hp.trans (List.perm_insertionSort _ _).symm)

end vec

/-- **C65.** `faster_could_be_isomorphic` answers True for every pair of isomorphic graphs (directed or
not): a False answer is a proof that the graphs are not isomorphic. -/
theorem faster_never_rejects (hG : G.WF) (hH : H.WF) (hd : G.directed = H.directed) {f : K → K'}
    (hf : Iso G.nodes G.Edge H.nodes H.Edge f) : fasterCouldBeIsomorphic G H = true := by
  obtain ⟨σ, hσ⟩ := iso_rows hG hH hf
  have hn : G.n = H.n := by simpa using Fintype.card_congr σ
  have hdeg := degreesP_equiv hd σ hσ
  unfold fasterCouldBeIsomorphic
  rw [if_neg (by simpa using hn), if_neg (by simpa using nvals_equiv σ fun i => by rw [hdeg]), sorted_eq σ hdeg]
  simp

/-! ### the triangle counts -/

theorem reduce_posN {n : Nat} {v : Vec n Nat} (hv : ∀ i x, v i = some x → 0 < x) {x}
    (h : reduce (· + ·) v = some x) : 0 < x := by
  have h1 := reduce_add v
  rw [h, Option.getD_some] at h1
  have hs : (reduce (· + ·) v).isSome := by rw [h]; rfl
  obtain ⟨i, hi⟩ := (reduce_isSome _ _).1 hs
  obtain ⟨y, hy⟩ := Option.isSome_iff_exists.1 hi
  have := Finset.single_le_sum (f := fun i => (v i).getD 0) (fun _ _ => Nat.zero_le _) (Finset.mem_univ i)
  simp only [hy, Option.getD_some] at this
  have := hv i y hy
  omega

theorem mxm_pair_posN {n m k : Nat} {β γ : Type} {A : Mat m k β} {B : Mat k n γ} {i j x}
    (h : mxm (· + ·) pairN A B i j = some x) : 0 < x := by
  unfold mxm at h
  refine reduce_posN ?_ h
  intro l y hy
  obtain ⟨a, b, -, -, rfl⟩ := ointer_eq_some.1 hy
  exact Nat.one_pos

theorem omerge_posN {a b : Option Nat} (ha : ∀ x, a = some x → 0 < x) (hb : ∀ x, b = some x → 0 < x) {x}
    (h : omerge (· + ·) a b = some x) : 0 < x := by
  cases a with
  | none => exact hb x (by simpa using h)
  | some y =>
    cases b with
    | none => exact ha x (by simpa using h)
    | some z =>
      simp only [omerge_some, Option.some.injEq] at h
      have := ha y rfl
      omega

/-- stored triangle counts are positive -/
theorem triangles_posN {n : Nat} (A : Mat n n α) {i x} (h : trianglesVec A none i = some x) : 0 < x := by
  have hC : ∀ i j y, triC (tril1 A) i j = some y → 0 < y := by
    intro i j y hy
    unfold triC massignR at hy
    split at hy
    · exact mxm_pair_posN hy
    · cases hy
  have hD : ∀ i j y, triD (triu1 A) (tril1 A) i j = some y → 0 < y := by
    intro i j y hy
    unfold triD massignR at hy
    split at hy
    · exact mxm_pair_posN hy
    · cases hy
  refine omerge_posN (fun y hy => omerge_posN ?_ ?_ hy) ?_ h
  · exact fun z hz => reduce_posN (fun j w hw => hC i j w hw) hz
  · exact fun z hz => reduce_posN (fun j w hw => hC j i w hw) hz
  · exact fun z hz => reduce_posN (fun j w hw => hD i j w hw) hz

/-- so the vector is determined by its numbers -/
theorem triangles_form {n : Nat} (A : Mat n n α) (i) : trianglesVec A none i =
    if (trianglesVec A none i).getD 0 = 0 then none else some ((trianglesVec A none i).getD 0) := by
  cases h : trianglesVec A none i with
  | none => simp
  | some x =>
    have := triangles_posN A h
    have h0 : x ≠ 0 := by omega
    simp [h0]

theorem full_equiv {n m : Nat} (σ : Fin n ≃ Fin m) {w : Fin n → Fin n → Nat} {w' : Fin m → Fin m → Nat}
    (h : ∀ i j, w i j = w' (σ i) (σ j)) (v) : full w v = full w' (σ v) := by
  unfold full
  refine Fintype.sum_equiv σ _ _ fun a => Fintype.sum_equiv σ _ _ fun b => ?_
  simp only [h, ne_eq, EmbeddingLike.apply_eq_iff_eq]

theorem triangles_equiv {n m : Nat} (σ : Fin n ≃ Fin m) {A : Mat n n α} {B : Mat m m α'}
    (hA : ∀ i j, A i j = A j i) (hB : ∀ i j, B i j = B j i)
    (h : ∀ i j, (A i j).isSome = (B (σ i) (σ j)).isSome) (i) :
    trianglesVec A none i = trianglesVec B none (σ i) := by
  have e : (trianglesVec A none i).getD 0 = (trianglesVec B none (σ i)).getD 0 := by
    rw [trianglesVec_getD hA, trianglesVec_getD hB]
    simp only [inMask, if_true]
    have h1 := two_half (adj_symm hA) i
    have h2 := two_half (adj_symm hB) (σ i)
    have h3 := full_equiv σ (w := adj A) (w' := adj B) (fun i j => by simp only [adj, ind, h]) i
    omega
  rw [triangles_form A, triangles_form B, e]

/-- a node on a triangle has an edge -/
theorem triangles_sub {n : Nat} (A : Mat n n α) (hA : ∀ i j, A i j = A j i) {i}
    (h : (trianglesVec A none i).isSome) : (countRow A i).isSome := by
  rw [countRow_some]
  by_contra hno
  push Not at hno
  obtain ⟨x, hx⟩ := Option.isSome_iff_exists.1 h
  have hp := triangles_posN A hx
  have hg := trianglesVec_getD hA none i
  rw [hx] at hg
  simp only [inMask, if_true, Option.getD_some] at hg
  have : half (adj A) i = 0 := by
    unfold half
    refine Finset.sum_eq_zero fun a _ => Finset.sum_eq_zero fun b _ => ?_
    have : adj A i a = 0 := by simp [adj, ind, hno a]
    simp [this]
  omega

/-- the filled triangle vector -/
theorem fillTri_eq {n : Nat} {t d : Vec n Nat} (hsub : ∀ i, (t i).isSome → (d i).isSome) (i) :
    fillTri t d i = (d i).map fun _ => (t i).getD 0 := by
  unfold fillTri
  by_cases hn : nvals t = nvals d
  · rw [if_neg (by simpa using hn)]
    have hss : (Finset.univ.filter fun i => (t i).isSome) ⊆ Finset.univ.filter fun i => (d i).isSome := by
      intro j hj
      simp only [Finset.mem_filter, Finset.mem_univ, true_and] at hj ⊢
      exact hsub j hj
    have heq := Finset.eq_of_subset_of_card_le hss (by unfold nvals at hn; omega)
    have : (t i).isSome ↔ (d i).isSome := by
      have : i ∈ (Finset.univ.filter fun i => (t i).isSome) ↔ i ∈ Finset.univ.filter fun i => (d i).isSome := by
        rw [heq]
      simpa using this
    cases ht : t i <;> cases hd : d i <;> simp_all
  · rw [if_pos hn]
    unfold vassign vnot vS vapply
    have := hsub i
    cases ht : t i <;> cases hd : d i <;> simp_all

theorem zip_filterMap {ι : Type} (l : List ι) (d : ι → Option Nat) (g : ι → Nat) :
    (l.filterMap d).zip (l.filterMap fun i => (d i).map fun _ => g i) =
      l.filterMap fun i => (d i).map fun x => (x, g i) := by
  induction l with
  | nil => rfl
  | cons a l ih =>
    cases h : d a with
    | none => simp [h, ih]
    | some x => simp [h, ih]

instance : Std.Total lexLe := ⟨fun a b => by unfold lexLe; omega⟩
instance : IsTrans (Nat × Nat) lexLe := ⟨fun a b c => by unfold lexLe; omega⟩

theorem lex_eq {n m : Nat} (σ : Fin n ≃ Fin m) {d t : Vec n Nat} {d' t' : Vec m Nat}
    (hsub : ∀ i, (t i).isSome → (d i).isSome) (hsub' : ∀ i, (t' i).isSome → (d' i).isSome)
    (hd : ∀ i, d i = d' (σ i)) (ht : ∀ i, t i = t' (σ i)) :
    lexPairs d (fillTri t d) = lexPairs d' (fillTri t' d') := by
  have key : ∀ {n : Nat} {d t : Vec n Nat}, (∀ i, (t i).isSome → (d i).isSome) →
      ((tocoo d).map Prod.snd).zip ((tocoo (fillTri t d)).map Prod.snd) =
        (List.finRange n).filterMap fun i => (d i).map fun x => (x, (t i).getD 0) := by
    intro n d t hsub
    rw [tocoo_snd, tocoo_snd, show fillTri t d = fun i => (d i).map fun _ => (t i).getD 0 from
      funext (fillTri_eq hsub)]
    exact zip_filterMap _ _ _
  unfold lexPairs
  rw [key hsub, key hsub']
  have hp := filterMap_perm σ (v := fun i => (d i).map fun x => (x, (t i).getD 0))
    (w := fun i => (d' i).map fun x => (x, (t' i).getD 0)) (fun i => by rw [hd, ht])
  refine List.Perm.eq_of_pairwise (le := lexLe) (fun a b _ _ h1 h2 => ?_)
    (List.pairwise_insertionSort lexLe _) (List.pairwise_insertionSort lexLe _) ?_
  · unfold lexLe at h1 h2
    exact Prod.ext (by omega) (by omega)
  · exact (List.perm_insertionSort _ _).trans (hp.trans (List.perm_insertionSort _ _).symm)

/-- **C65 (partial).** `fast_could_be_isomorphic` answers True for every pair of isomorphic undirected
graphs.  Missing: digraphs, for which it is wrong (`fast_rejects_isomorphic_digraphs`). -/
theorem fast_never_rejects_partial (hG : G.WF) (hH : H.WF) (dG : G.directed = false) (dH : H.directed = false)
    (sG : G.Symm) (sH : H.Symm) {f : K → K'}
    (hf : Iso G.nodes G.Edge H.nodes H.Edge f) : fastCouldBeIsomorphic G H = true := by
  obtain ⟨σ, hσ⟩ := iso_rows hG hH hf
  have hn : G.n = H.n := by simpa using Fintype.card_congr σ
  have hdeg := degreesP_equiv (dG.trans dH.symm) σ hσ
  have htri := triangles_equiv σ sG sH hσ
  have subG : ∀ i, (trianglesVec G.A none i).isSome → (degreesP G i).isSome := fun i hi => by
    unfold degreesP; rw [if_neg (by simp [dG])]; exact triangles_sub _ sG hi
  have subH : ∀ i, (trianglesVec H.A none i).isSome → (degreesP H i).isSome := fun i hi => by
    unfold degreesP; rw [if_neg (by simp [dH])]; exact triangles_sub _ sH hi
  unfold fastCouldBeIsomorphic
  simp only
  rw [if_neg (by simpa using hn), if_neg (by simpa using nvals_equiv σ fun i => by rw [hdeg]),
    if_neg (by simpa using nvals_equiv σ fun i => by rw [htri]), lex_eq σ subG subH hdeg htri]
  simp

/-! ### the false part, and examples -/

/-- 1→0, 2→0, 2→1 -/
def exIsoA : Graph Nat Int where
  n := 3
  A := _root_.Ex.ofTriples 3 [(1,0,1),(2,0,1),(2,1,1)]
  keyToId := [(0,0),(1,1),(2,2)]
  directed := true

/-- 0→1, 0→2, 1→2 -/
def exIsoB : Graph Nat Int where
  n := 3
  A := _root_.Ex.ofTriples 3 [(0,1,1),(0,2,1),(1,2,1)]
  keyToId := [(0,0),(1,1),(2,2)]
  directed := true

/-- **C65, false part.** Two isomorphic digraphs that `fast_could_be_isomorphic` rejects. -/
theorem fast_rejects_isomorphic_digraphs : exIsoA.WF ∧ exIsoB.WF ∧
    Iso exIsoA.nodes exIsoA.Edge exIsoB.nodes exIsoB.Edge (fun u => 2 - u) ∧
    fastCouldBeIsomorphic exIsoA exIsoB = false ∧ fasterCouldBeIsomorphic exIsoA exIsoB = true := by
  refine ⟨⟨by decide, by decide⟩, ⟨by decide, by decide⟩, ⟨by decide +kernel, by decide +kernel,
    by decide +kernel, by decide +kernel⟩, by decide +kernel, by decide +kernel⟩

/-- the triangle with a tail, relabelled -/
def exTail' : Graph Nat Int where
  n := 4
  A := _root_.Ex.ofTriples 4 [(3,2,1),(2,3,1),(2,1,1),(1,2,1),(1,0,1),(0,1,1),(2,0,1),(0,2,1)]
  keyToId := [(1,0),(2,1),(3,2),(4,3)]

example : exTail'.WF ∧ exTail'.Symm ∧ Iso exTail.nodes exTail.Edge exTail'.nodes exTail'.Edge (fun u => 14 - u) :=
  ⟨⟨by decide, by decide⟩, by unfold Graph.Symm; decide, ⟨by decide +kernel, by decide +kernel,
    by decide +kernel, by decide +kernel⟩⟩
example : fastCouldBeIsomorphic exTail exTail' = true ∧ fastCouldBeIsomorphic exTail exEdge = false := by
  decide +kernel

end Props
