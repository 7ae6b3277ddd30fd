import Verif.Model.Utils
import Mathlib.Tactic.Linarith
import Mathlib.Data.List.Basic

/-! # C74, C75, C76: chunking helpers of `nxapi/_utils.py` -/

namespace Props
open Model

variable {α : Type*}

/-! ### helper facts about `split_evenly` -/

namespace Split

/-- end of the `j`-th piece: `⌈N j / k⌉` -/
def f (N k j : Nat) : Nat := (N * j + k - 1) / k

theorem f_zero (N k : Nat) (hk : 0 < k) : f N k 0 = 0 := by
  unfold f; rw [Nat.div_eq_zero_iff]; omega

theorem f_last (N k : Nat) (hk : 0 < k) : f N k k = N := by
  unfold f
  rw [show N * k + k - 1 = (k - 1) + N * k by omega, Nat.add_mul_div_right _ _ hk,
    Nat.div_eq_of_lt (by omega), Nat.zero_add]

theorem f_mono (N k j : Nat) : f N k j ≤ f N k (j+1) := by
  unfold f
  apply Nat.div_le_div_right
  have : N * j ≤ N * (j+1) := Nat.mul_le_mul_left _ (by omega)
  omega

theorem f_mono' (N k : Nat) {i j : Nat} (h : i ≤ j) : f N k i ≤ f N k j :=
  monotone_nat_of_le_succ (f_mono N k) h

theorem f_ge (N k j : Nat) (hk : 0 < k) : f N k j + N / k ≤ f N k (j+1) := by
  unfold f
  have h1 : N / k * k ≤ N := Nat.div_mul_le_self N k
  rw [← Nat.add_mul_div_right _ _ hk]
  apply Nat.div_le_div_right
  have : N * (j+1) = N * j + N := by ring
  omega

theorem f_le (N k j : Nat) (hk : 0 < k) : f N k (j+1) ≤ f N k j + (N + k - 1) / k := by
  unfold f
  rw [← Nat.lt_succ_iff, Nat.div_lt_iff_lt_mul hk]
  have h1 : N ≤ (N + k - 1) / k * k := by
    have := Nat.div_add_mod (N + k - 1) k
    have h2 := Nat.mod_lt (N + k - 1) hk
    rw [Nat.mul_comm] at this
    omega
  have h3 : N * j ≤ (N * j + k - 1) / k * k := by
    have := Nat.div_add_mod (N * j + k - 1) k
    have h2 := Nat.mod_lt (N * j + k - 1) hk
    rw [Nat.mul_comm] at this
    omega
  have : N * (j+1) = N * j + N := by ring
  rw [Nat.succ_eq_add_one, Nat.add_mul, Nat.add_mul]
  omega

theorem slice_length (L : List α) (a b : Nat) (hb : b ≤ L.length) :
    (slice L a b).length = b - a := by
  simp [slice, Nat.min_eq_left hb]

theorem slice_append (L : List α) {a b : Nat} (h : a ≤ b) (hb : b ≤ L.length) :
    slice L a b ++ L.drop b = L.drop a := by
  unfold slice
  conv_rhs => rw [← List.take_append_drop b L]
  rw [List.drop_append_of_le_length]
  simp; omega

/-- invariant of the loop: pieces left, when the first `j` ends are done -/
theorem loop_spec (L : List α) (k : Nat) (hk : 0 < k) (m j : Nat) (hj : j + m + 1 = k) :
    (splitLoop L k (List.range' (j+1) m) (f L.length k j) (f L.length k j)).flatten =
        L.drop (f L.length k j) ∧
    ∀ p ∈ splitLoop L k (List.range' (j+1) m) (f L.length k j) (f L.length k j),
      p ≠ [] ∧ L.length / k ≤ p.length ∧ p.length ≤ (L.length + k - 1) / k := by
  induction m generalizing j with
  | zero =>
    have hlast : f L.length k (j+1) = L.length := by
      rw [show j + 1 = k by omega, f_last _ _ hk]
    have hm := f_mono L.length k j
    have hg := f_ge L.length k j hk
    have hl := f_le L.length k j hk
    rw [hlast] at hm hg hl
    simp only [List.range'_zero, splitLoop]
    split
    · rename_i hne
      refine ⟨by simp, ?_⟩
      intro p hp
      simp only [List.mem_singleton] at hp
      subst hp
      refine ⟨?_, ?_, ?_⟩
      · intro h; rw [List.drop_eq_nil_iff] at h; omega
      · simp; omega
      · simp; omega
    · rename_i hne
      simp only [not_not] at hne
      rw [hne]; simp
  | succ m ih =>
    obtain ⟨ih1, ih2⟩ := ih (j+1) (by omega)
    have hm := f_mono L.length k j
    have hg := f_ge L.length k j hk
    have hl := f_le L.length k j hk
    have hN : f L.length k (j+1) ≤ L.length := by
      conv_rhs => rw [← f_last L.length k hk]
      exact f_mono' _ _ (by omega)
    have hstop : (L.length * (j+1) + k - 1) / k = f L.length k (j+1) := rfl
    rw [List.range'_succ]
    simp only [splitLoop, hstop]
    split
    · rename_i hne
      refine ⟨?_, ?_⟩
      · rw [List.flatten_cons, ih1, slice_append _ hm hN]
      · intro p hp
        rcases List.mem_cons.1 hp with rfl | hp
        · rw [slice_length _ _ _ hN]
          refine ⟨?_, by omega, by omega⟩
          intro h
          have := slice_length L (f L.length k j) _ hN
          rw [h] at this
          simp at this; omega
        · exact ih2 p hp
    · rename_i heq
      simp only [not_not] at heq
      rw [heq] at ih1 ih2
      rw [heq]
      exact ⟨ih1, ih2⟩

theorem splitEvenly_spec (k : Int) (L : List α) (hk : 1 < k) (hL : L ≠ []) :
    (splitEvenly k L).flatten = L ∧
    ∀ p ∈ splitEvenly k L, p ≠ [] ∧ L.length / k.toNat ≤ p.length ∧
      p.length ≤ (L.length + k.toNat - 1) / k.toNat := by
  have hlen : L.length ≠ 0 := by simpa using hL
  have := loop_spec L k.toNat (by omega) (k.toNat - 1) 0 (by omega)
  rw [f_zero _ _ (by omega)] at this
  unfold splitEvenly
  rw [if_neg hlen, if_neg (by omega)]
  simpa using this

end Split

/-! ### C75 -/

/-- **C75.** `split_evenly(k, L)` loses nothing: for every `k` and `L` the pieces concatenate
back to `L`, no piece is empty, and any two piece sizes differ by at most one. -/
theorem split_evenly_correct (k : Int) (L : List α) :
    (splitEvenly k L).flatten = L ∧
    (∀ p ∈ splitEvenly k L, p ≠ []) ∧
    (∀ p ∈ splitEvenly k L, ∀ q ∈ splitEvenly k L, p.length ≤ q.length + 1) := by
  by_cases hL : L = []
  · subst hL; simp [splitEvenly]
  by_cases hk : 1 < k
  · obtain ⟨h1, h2⟩ := Split.splitEvenly_spec k L hk hL
    refine ⟨h1, fun p hp => (h2 p hp).1, ?_⟩
    intro p hp q hq
    have hp := (h2 p hp).2.2
    have hq := (h2 q hq).2.1
    have : (L.length + k.toNat - 1) / k.toNat ≤ L.length / k.toNat + 1 := by
      rw [← Nat.add_div_right _ (by omega)]
      apply Nat.div_le_div_right; omega
    omega
  · have hlen : L.length ≠ 0 := by simpa using hL
    have : splitEvenly k L = [L] := by
      unfold splitEvenly; rw [if_neg hlen, if_pos (by omega)]
    rw [this]
    simp [hL]

/-- **C75.** for `k ≥ 1` the number of pieces is `min k (len L)`. -/
theorem split_evenly_count (k : Int) (L : List α) (hk : 1 ≤ k) :
    (splitEvenly k L).length = min k.toNat L.length := by
  by_cases hL : L = []
  · subst hL; simp [splitEvenly]
  have hlen : L.length ≠ 0 := by simpa using hL
  rcases lt_or_eq_of_le hk with hk | rfl
  · obtain ⟨h1, h2⟩ := Split.splitEvenly_spec k L hk hL
    have htot : ((splitEvenly k L).map List.length).sum = L.length := by
      conv_rhs => rw [← h1]
      rw [List.length_flatten]
    rcases Nat.lt_or_ge L.length k.toNat with hlt | hge
    · -- all pieces are singletons
      have hone : ∀ p ∈ splitEvenly k L, p.length = 1 := by
        intro p hp
        obtain ⟨hne, -, hle⟩ := h2 p hp
        have : (L.length + k.toNat - 1) / k.toNat ≤ 1 := by
          rw [Nat.div_le_iff_le_mul_add_pred (by omega)]; omega
        have : p.length ≠ 0 := by simpa using hne
        omega
      have : (splitEvenly k L).map List.length = List.replicate (splitEvenly k L).length 1 := by
        rw [List.eq_replicate_iff]
        simp only [List.length_map, List.mem_map, true_and]
        rintro b ⟨p, hp, rfl⟩
        exact hone p hp
      rw [this] at htot
      simp at htot
      omega
    · -- every step of the loop yields
      have key : ∀ m j, j + m + 1 = k.toNat →
          (splitLoop L k.toNat (List.range' (j+1) m) (Split.f L.length k.toNat j)
            (Split.f L.length k.toNat j)).length = m + 1 := by
        intro m
        have hpos : 1 ≤ L.length / k.toNat := (Nat.one_le_div_iff (by omega)).2 hge
        induction m with
        | zero =>
          intro j hj
          have hg := Split.f_ge L.length k.toNat j (by omega)
          have : Split.f L.length k.toNat (j+1) = L.length := by
            rw [show j + 1 = k.toNat by omega, Split.f_last _ _ (by omega)]
          simp only [List.range'_zero, splitLoop]
          rw [if_pos (by omega)]
          simp
        | succ m ih =>
          intro j hj
          have hg := Split.f_ge L.length k.toNat j (by omega)
          rw [List.range'_succ]
          have hstop : (L.length * (j+1) + k.toNat - 1) / k.toNat = Split.f L.length k.toNat (j+1) := rfl
          simp only [splitLoop, hstop]
          rw [if_pos (by omega), List.length_cons, ih (j+1) (by omega)]
      have := key (k.toNat - 1) 0 (by omega)
      rw [Split.f_zero _ _ (by omega)] at this
      unfold splitEvenly
      rw [if_neg hlen, if_neg (by omega)]
      simp only [Nat.zero_add] at this
      rw [this]; omega
  · unfold splitEvenly; rw [if_neg hlen, if_pos (by omega)]
    simp; omega

/-! ### C74 -/

namespace Split

theorem stride_flatten (c : Nat) (L : List α) (m : Nat) :
    ((List.range m).map fun t => slice L (c * t) (c * (t + 1))).flatten = L.take (c * m) := by
  induction m with
  | zero => simp
  | succ m ih =>
    rw [List.range_succ, List.map_append, List.flatten_append, ih]
    simp only [List.map_cons, List.map_nil, List.flatten_cons, List.flatten_nil, List.append_nil]
    unfold slice
    have : L.take (c * m) = (L.take (c * (m+1))).take (c * m) := by
      rw [List.take_take, Nat.min_eq_left (Nat.mul_le_mul_left _ (by omega))]
    rw [this, List.take_append_drop]

end Split

/-- **C74.** For every list and every chunk size other than 1 (with or without `evenly`),
`partition` yields lists; they are non-empty and concatenate to the input; when
`1 < chunksize < len(L)` none is larger than `chunksize`; and when `evenly` their sizes differ by
at most one. -/
theorem partition_correct (c : Int) (L : List α) (evenly : Bool) (hc : c ≠ 1) :
    ∃ ps : List (List α), partition c L evenly = ps.map .chunk ∧ ps.flatten = L ∧
      (∀ p ∈ ps, p ≠ []) ∧
      (1 < c → c < L.length → ∀ p ∈ ps, (p.length : Int) ≤ c) ∧
      (evenly = true → ∀ p ∈ ps, ∀ q ∈ ps, p.length ≤ q.length + 1) := by
  by_cases hL : L = []
  · subst hL; exact ⟨[], by simp [partition], by simp⟩
  have hlen : L.length ≠ 0 := by simpa using hL
  unfold partition
  rw [if_neg hlen]
  by_cases h1 : c ≤ 0 ∨ c ≥ L.length
  · rw [if_pos h1]
    exact ⟨[L], by simp, by simp, by simpa using hL, fun h2 h3 => absurd h1 (by omega), by simp⟩
  rw [if_neg h1, if_neg hc]
  simp only
  have hcpos : 1 < c.toNat := by omega
  have hkey : L.length ≤ (L.length + c.toNat - 1) / c.toNat * c.toNat := by
    have := Nat.div_add_mod (L.length + c.toNat - 1) c.toNat
    have h2 := Nat.mod_lt (L.length + c.toNat - 1) (show 0 < c.toNat by omega)
    rw [Nat.mul_comm] at this
    omega
  have hkle : (L.length + c.toNat - 1) / c.toNat * c.toNat ≤ L.length + c.toNat - 1 :=
    Nat.div_mul_le_self _ _
  generalize hk : (L.length + c.toNat - 1) / c.toNat = k at *
  by_cases h2 : evenly = true ∧ k * c.toNat ≠ L.length
  · rw [if_pos h2]
    have hk1 : 1 < k := by
      by_contra hle
      have : k * c.toNat ≤ 1 * c.toNat := Nat.mul_le_mul_right _ (by omega)
      omega
    obtain ⟨s1, s2⟩ := Split.splitEvenly_spec (k : Int) L (by omega) hL
    obtain ⟨t1, t2, t3⟩ := split_evenly_correct (k : Int) L
    refine ⟨_, rfl, s1, t2, ?_, fun _ => t3⟩
    intro _ _ p hp
    have := (s2 p hp).2.2
    have h4 : (L.length + k - 1) / k ≤ c.toNat := by
      rw [Nat.div_le_iff_le_mul_add_pred (by omega), Nat.mul_comm]
      rw [Nat.mul_comm] at hkey
      rw [Nat.mul_comm c.toNat k] at *
      omega
    simp only [Int.toNat_natCast] at this
    omega
  · rw [if_neg h2]
    refine ⟨strideChunks c.toNat L, rfl, ?_, ?_, ?_, ?_⟩
    · unfold strideChunks
      rw [Split.stride_flatten, hk, List.take_of_length_le]
      rw [Nat.mul_comm]; exact hkey
    · intro p hp
      simp only [strideChunks, List.mem_map, List.mem_range, hk] at hp
      obtain ⟨t, ht, rfl⟩ := hp
      have h5 : c.toNat * t < L.length := by
        have : (t+1) * c.toNat ≤ k * c.toNat := Nat.mul_le_mul_right _ ht
        rw [Nat.add_mul] at this
        rw [Nat.mul_comm]; omega
      intro h
      have h6 : (slice L (c.toNat * t) (c.toNat * (t+1))).length = 0 := by rw [h]; rfl
      have : c.toNat * (t+1) = c.toNat * t + c.toNat := by ring
      simp only [slice, List.length_drop, List.length_take] at h6
      omega
    · intro _ _ p hp
      simp only [strideChunks, List.mem_map, List.mem_range, hk] at hp
      obtain ⟨t, ht, rfl⟩ := hp
      have : c.toNat * (t+1) = c.toNat * t + c.toNat := by ring
      simp only [slice, List.length_drop, List.length_take]
      omega
    · intro hev p hp q hq
      have hex : k * c.toNat = L.length := by
        by_contra hne; exact h2 ⟨hev, hne⟩
      have hsz : ∀ p ∈ strideChunks c.toNat L, p.length = c.toNat := by
        intro p hp
        simp only [strideChunks, List.mem_map, List.mem_range, hk] at hp
        obtain ⟨t, ht, rfl⟩ := hp
        have : (t+1) * c.toNat ≤ k * c.toNat := Nat.mul_le_mul_right _ ht
        have h7 : c.toNat * (t+1) = c.toNat * t + c.toNat := by ring
        have h8 : (t+1) * c.toNat = c.toNat * (t+1) := Nat.mul_comm _ _
        simp only [slice, List.length_drop, List.length_take]
        omega
      rw [hsz p hp, hsz q hq]; omega

/-- **C74, the excluded case** (finding): with `chunksize = 1` and at least two elements
`partition` yields the bare elements instead of one-element lists. -/
theorem partition_one (L : List α) (evenly : Bool) (h : 1 < L.length) :
    partition 1 L evenly = L.map .elem := by
  unfold partition
  rw [if_neg (by omega), if_neg (by omega), if_pos rfl]

example : partition 3 [1,2,3,4,5,6,7,8] = [.chunk [1,2,3], .chunk [4,5,6], .chunk [7,8]] := by decide
example : partition 4 [1,2,3,4,5] = [.chunk [1,2,3], .chunk [4,5]] := by decide
example : splitEvenly 3 [1,2,3,4,5,6,7] = [[1,2,3],[4,5],[6,7]] := by decide
example : splitEvenly 5 [1,2] = [[1],[2]] := by decide

/-! ### C76 -/

theorem finishSize_usable {rv : Int} {N : Option Nat} {r : Int} (h : finishSize rv N = some r) :
    0 < r ∧ ∀ M, N = some M → r < M := by
  unfold finishSize at h
  split at h
  · cases h
  · rename_i hb
    cases h
    cases N with
    | none => simpa [badSize] using hb
    | some M => simpa [badSize] using hb

/-- **C76.** Whatever the argument, a size returned by `normalize_chunksize` is positive, and
smaller than `N` when `N` is given. -/
theorem normalize_chunksize_usable (pf : List Char → Option ℚ) (arg : ChunkArg) (itemsize : Nat)
    (N : Option Nat) (r : Int) (h : normalizeChunksize pf arg itemsize N = .ok (some r)) :
    0 < r ∧ ∀ M, N = some M → r < M := by
  cases arg with
  | none => simp [normalizeChunksize] at h
  | num q => simp only [normalizeChunksize, Except.ok.injEq] at h; exact finishSize_usable h
  | other => simp [normalizeChunksize] at h
  | str s =>
    have fin : ∀ x N', (Except.ok (finishSize x N') : Except Err (Option Int)) = .ok (some r) →
        0 < r ∧ ∀ M, N' = some M → r < M := fun x N' hx => finishSize_usable (Except.ok.inj hx)
    have non : ¬ (Except.ok Option.none : Except Err (Option Int)) = .ok (some r) := by simp
    have err : ∀ e, ¬ (Except.error e : Except Err (Option Int)) = .ok (some r) := by simp
    simp only [normalizeChunksize] at h
    repeat' split at h
    all_goals first
      | exact fin _ _ h
      | exact absurd h non
      | exact absurd h (err _)

/-- **C76.** a positive number `q` with `int(q) < N` is returned as `int(q)`; all other numbers
give `None`. -/
theorem normalize_chunksize_number (pf : List Char → Option ℚ) (q : ℚ) (itemsize : Nat)
    (N : Option Nat) :
    normalizeChunksize pf (.num q) itemsize N =
      .ok (if 1 ≤ q ∧ (∀ M, N = some M → (⌊q⌋ : Int) < M) then some ⌊q⌋ else none) := by
  have hint : pyInt q ≤ 0 ↔ ¬ 1 ≤ q := by
    unfold pyInt
    split
    · have h1 := Int.le_floor (z := 1) (a := q)
      rw [Int.cast_one] at h1
      rw [← h1]; omega
    · rename_i h
      simp only [not_le] at h ⊢
      constructor
      · intro; linarith
      · intro _
        rw [Int.ceil_le]; push_cast; linarith
  have hfl : 1 ≤ q → pyInt q = ⌊q⌋ := fun h => by unfold pyInt; rw [if_pos (by linarith)]
  simp only [normalizeChunksize, finishSize, badSize]
  by_cases h1 : 1 ≤ q
  · have h2 : ¬ pyInt q ≤ 0 := fun h => hint.1 h h1
    rw [hfl h1] at h2 ⊢
    cases N with
    | none => simp [h1, h2]
    | some M =>
      by_cases h3 : (⌊q⌋ : Int) < M
      · simp [h1, h2, h3]
      · have : ¬ ((⌊q⌋ : Int) < M) := h3
        simp only [h1, h2, true_and, decide_false, Bool.false_or, Option.some.injEq,
          forall_eq', h3, if_false]
        rw [if_pos]
        simpa using h3
  · have h2 := hint.2 h1
    simp [h1, h2]

/-- **C76.** letter case, spaces and underscores of the string do not matter: two strings that
agree after deleting blanks and underscores, up to ASCII letter case, give the same outcome
(same size, or the same kind of error). -/
theorem normalize_chunksize_insensitive (pf : List Char → Option ℚ) (s t : List Char)
    (itemsize : Nat) (N : Option Nat)
    (h : List.Forall₂ (fun a b => a.toLower = b.toLower)
      (s.filter fun c => c ≠ ' ' ∧ c ≠ '_') (t.filter fun c => c ≠ ' ' ∧ c ≠ '_')) :
    normalizeChunksize pf (.str s) itemsize N = normalizeChunksize pf (.str t) itemsize N := by
  have hf : ∀ s : List Char, cleanChunk s = (s.filter fun c => c ≠ ' ' ∧ c ≠ '_').map Char.toLower := by
    intro s
    unfold cleanChunk
    rw [List.filter_filter]
    congr 2
    funext c
    simp [Bool.and_comm]
  have : cleanChunk s = cleanChunk t := by
    rw [hf, hf]
    have gen : ∀ a b : List Char, List.Forall₂ (fun a b => a.toLower = b.toLower) a b →
        a.map Char.toLower = b.map Char.toLower := by
      intro a b h
      induction h with
      | nil => rfl
      | cons h _ ih => simp [h, ih]
    exact gen _ _ h
  simp only [normalizeChunksize, this]

/-- **C76.** `None`, the empty string and any spelling of "all" mean `None`. -/
theorem normalize_chunksize_all (pf : List Char → Option ℚ) (s : List Char)
    (itemsize : Nat) (N : Option Nat)
    (h : (s.filter fun c => c ≠ ' ' ∧ c ≠ '_').map Char.toLower = [] ∨
      (s.filter fun c => c ≠ ' ' ∧ c ≠ '_').map Char.toLower = ['a','l','l']) :
    normalizeChunksize pf (.str s) itemsize N = .ok none ∧
    normalizeChunksize pf .none itemsize N = .ok none := by
  have hf : cleanChunk s = (s.filter fun c => c ≠ ' ' ∧ c ≠ '_').map Char.toLower := by
    unfold cleanChunk
    rw [List.filter_filter]
    congr 2
    funext c
    simp [Bool.and_comm]
  refine ⟨?_, rfl⟩
  simp only [normalizeChunksize]
  rw [if_pos]
  rw [hf]; exact h

/-! ### C76: exact meaning of strings with a unit -/

/-- the unit names of sizes: nothing or `b` for 1; a prefix letter and `b` for powers of 1000;
a prefix letter and `ib` for powers of 1024 -/
inductive SizeUnit : List Char → Nat → Prop
  | plain : SizeUnit [] 1
  | byte : SizeUnit ['b'] 1
  | si (i : Nat) (c : Char) (h : ['k','m','g','t','p','e','z'][i]? = some c) :
      SizeUnit [c, 'b'] (1000 ^ (i + 1))
  | bin (i : Nat) (c : Char) (h : ['k','m','g','t','p','e','z'][i]? = some c) :
      SizeUnit [c, 'i', 'b'] (1024 ^ (i + 1))

/-- `r` is the integer closest to `q`, the even one when two are equally close -/
def NearestInt (q : ℚ) (r : Int) : Prop := |q - r| < 1/2 ∨ (|q - r| = 1/2 ∧ Even r)

/-- how a text is read: `num` is the number part, `unit` what comes after the last digit; a text
without a digit is read with the number `1` in front -/
def Reads (s : List Char) (num unit : List Char) : Prop :=
  (∀ c ∈ unit, c.isDigit = false) ∧ (∃ c, num.getLast? = some c ∧ c.isDigit = true) ∧
  let txt := (s.filter fun c => c ≠ ' ' ∧ c ≠ '_').map Char.toLower
  (txt = num ++ unit ∨ (num = ['1'] ∧ txt = unit ∧ unit ≠ [] ∧ unit ≠ ['a','l','l']))

/-- a computed size is handed out only when positive and smaller than `N` -/
def offered (r : Int) (N : Option Nat) : Option Int :=
  open Classical in if 0 < r ∧ ∀ M, N = some M → r < M then some r else none

theorem finishSize_eq_offered (r : Int) (N : Option Nat) : finishSize r N = offered r N := by
  unfold finishSize offered badSize
  cases N with
  | none => by_cases h : 0 < r <;> simp [h, not_lt, not_le.2, le_of_not_gt]
  | some M =>
    by_cases h : 0 < r
    · by_cases h2 : r < M
      · simp [h, h2]
      · simp [h, h2, not_lt.1 h2]
    · simp [h, not_lt.1 h]

theorem sizeUnit_iff (u : List Char) (k : Nat) : SizeUnit u k ↔ bytesUnits.lookup u = some k := by
  constructor
  · rintro (_ | _ | ⟨i, c, h⟩ | ⟨i, c, h⟩)
    · rfl
    · rfl
    all_goals
      have hi : i < 7 := by
        by_contra hh
        rw [List.getElem?_eq_none (by simpa using hh)] at h
        cases h
      obtain rfl | rfl | rfl | rfl | rfl | rfl | rfl :
          i = 0 ∨ i = 1 ∨ i = 2 ∨ i = 3 ∨ i = 4 ∨ i = 5 ∨ i = 6 := by omega
      all_goals (simp at h; subst h; rfl)
  · intro h
    have hm : (u, k) ∈ bytesUnits := by
      have gen : ∀ l : List (List Char × Nat), l.lookup u = some k → (u, k) ∈ l := by
        intro l
        induction l with
        | nil => simp
        | cons x xs ih =>
          intro h
          rw [List.lookup_cons] at h
          by_cases e : u = x.1
          · rw [show (u == x.1) = true by simp [e]] at h
            simp at h
            simp [e, ← h]
          · rw [show (u == x.1) = false by simp [e]] at h
            exact List.mem_cons_of_mem _ (ih h)
      exact gen _ h
    simp only [bytesUnits, List.mem_cons, Prod.mk.injEq, List.not_mem_nil, or_false] at hm
    rcases hm with ⟨rfl, rfl⟩ | ⟨rfl, rfl⟩ | h
    · exact .plain
    · exact .byte
    rcases h with ⟨rfl, rfl⟩ | ⟨rfl, rfl⟩ | ⟨rfl, rfl⟩ | ⟨rfl, rfl⟩ | ⟨rfl, rfl⟩ | ⟨rfl, rfl⟩ |
      ⟨rfl, rfl⟩ | h
    · exact .si 0 'k' rfl
    · exact .si 1 'm' rfl
    · exact .si 2 'g' rfl
    · exact .si 3 't' rfl
    · exact .si 4 'p' rfl
    · exact .si 5 'e' rfl
    · exact .si 6 'z' rfl
    rcases h with ⟨rfl, rfl⟩ | ⟨rfl, rfl⟩ | ⟨rfl, rfl⟩ | ⟨rfl, rfl⟩ | ⟨rfl, rfl⟩ | ⟨rfl, rfl⟩ |
      ⟨rfl, rfl⟩
    · exact .bin 0 'k' rfl
    · exact .bin 1 'm' rfl
    · exact .bin 2 'g' rfl
    · exact .bin 3 't' rfl
    · exact .bin 4 'p' rfl
    · exact .bin 5 'e' rfl
    · exact .bin 6 'z' rfl

theorem pyRound_nearest (q : ℚ) : NearestInt q (pyRound q) := by
  have h1 := Int.floor_le q
  have h2 := Int.lt_floor_add_one q
  unfold NearestInt pyRound
  simp only
  split
  · left
    rw [abs_of_nonneg (by linarith)]; assumption
  · split
    · left
      push_cast
      rw [abs_of_neg (by linarith)]; linarith
    · have e : q - ⌊q⌋ = 1/2 := by linarith
      split
      · right
        exact ⟨by rw [e]; norm_num, Int.even_iff.2 ‹_›⟩
      · right
        refine ⟨?_, by rw [Int.even_iff]; omega⟩
        push_cast
        rw [show q - ((⌊q⌋ : ℚ) + 1) = -(1/2) by linarith]
        norm_num

theorem nearestInt_unique {q : ℚ} {r s : Int} (h1 : NearestInt q r) (h2 : NearestInt q s) :
    r = s := by
  have hr : |q - r| ≤ 1/2 := by
    rcases h1 with h | h
    · exact h.le
    · exact h.1.le
  have hs : |q - s| ≤ 1/2 := by
    rcases h2 with h | h
    · exact h.le
    · exact h.1.le
  rw [abs_le] at hr hs
  by_contra hne
  have hd : (r : ℚ) - s ≤ 1 := by linarith
  have hd' : (s : ℚ) - r ≤ 1 := by linarith
  have e1 : r - s ≤ 1 := by exact_mod_cast hd
  have e2 : s - r ≤ 1 := by exact_mod_cast hd'
  rcases (by omega : r = s + 1 ∨ s = r + 1) with rfl | rfl
  · push_cast at hr
    have hq : q - s = 1/2 := by linarith
    have hq2 : q - ((s + 1 : Int) : ℚ) = -(1/2) := by push_cast; linarith
    rcases h1 with h | h
    · rw [hq2] at h; norm_num at h
    · rcases h2 with h' | h'
      · rw [hq] at h'; norm_num at h'
      · have := h.2; have := h'.2; simp only [Int.even_iff] at *; omega
  · push_cast at hs
    have hq : q - r = 1/2 := by linarith
    have hq2 : q - ((r + 1 : Int) : ℚ) = -(1/2) := by push_cast; linarith
    rcases h2 with h | h
    · rw [hq2] at h; norm_num at h
    · rcases h1 with h' | h'
      · rw [hq] at h'; norm_num at h'
      · have := h.2; have := h'.2; simp only [Int.even_iff] at *; omega

/-- outcome for a text read as `num` and `unit`, in the terms of the model -/
theorem normalize_reads (pf : List Char → Option ℚ) {s num unit : List Char}
    (h : Reads s num unit) (itemsize : Nat) (N : Option Nat) :
    normalizeChunksize pf (.str s) itemsize N =
      match pf num with
      | Option.none => .error .valueError
      | some number =>
        if unit = "chunk".toList ∨ unit = "chunks".toList then
          if number ≤ 1 then .ok Option.none
          else match N with
            | Option.none => .error .typeError
            | some N' => .ok (finishSize ⌈(N' : ℚ) / number⌉ N)
        else match bytesUnits.lookup unit with
          | Option.none => .error .valueError
          | some scale =>
            .ok (finishSize (pyRound (if unit.getLast? = some 'b' then
              max 1 (number * scale / itemsize) else number * scale)) N) := by
  obtain ⟨hu, ⟨c, hc, hcd⟩, ht⟩ := h
  have hf : cleanChunk s = (s.filter fun c => c ≠ ' ' ∧ c ≠ '_').map Char.toLower := by
    unfold cleanChunk
    rw [List.filter_filter]
    congr 2
    funext c
    simp [Bool.and_comm]
  simp only at ht
  rw [← hf] at ht
  have hnn : num ≠ [] := by rintro rfl; simp at hc
  obtain ⟨num', rfl⟩ : ∃ num', num = num' ++ [c] := by
    refine ⟨num.dropLast, ?_⟩
    rw [List.getLast?_eq_some_getLast hnn] at hc
    rw [← List.dropLast_append_getLast hnn]
    simp_all
  have hcs : (cleanChunk s ≠ [] ∧ cleanChunk s ≠ "all".toList) ∧
      (if (cleanChunk s).any Char.isDigit then cleanChunk s else '1' :: cleanChunk s) =
        (num' ++ [c]) ++ unit := by
    rcases ht with ht | ⟨h1, ht, hne, hna⟩
    · rw [ht]
      refine ⟨⟨by simp, ?_⟩, ?_⟩
      · intro hh
        have : c ∈ "all".toList := by rw [← hh]; simp
        have h3 : ∀ x ∈ "all".toList, x.isDigit = false := by decide
        rw [h3 c this] at hcd
        cases hcd
      · rw [if_pos]
        simp [hcd]
    · rw [ht]
      refine ⟨⟨hne, hna⟩, ?_⟩
      rw [if_neg, h1]
      · rfl
      · simp only [List.any_eq_true, not_exists, not_and]
        intro x hx; simp [hu x hx]
  obtain ⟨⟨g1, g2⟩, g3⟩ := hcs
  have hld : lastDigit ((num' ++ [c]) ++ unit) = (num' ++ [c]).length := by
    unfold lastDigit
    rw [List.reverse_append, List.takeWhile_append]
    have : List.takeWhile (fun c => !c.isDigit) unit.reverse = unit.reverse := by
      have gen : ∀ l : List Char, (∀ x ∈ l, x.isDigit = false) →
          List.takeWhile (fun c => !c.isDigit) l = l := by
        intro l
        induction l with
        | nil => simp
        | cons a l ih =>
          intro hl
          rw [List.takeWhile_cons_of_pos (by simp [hl a]), ih fun x hx => hl x (by simp [hx])]
      exact gen _ fun x hx => hu x (List.mem_reverse.1 hx)
    rw [this]
    simp [hcd]
    omega
  have hlast : ((num' ++ [c]) ++ unit).getLast? = some 'b' ↔ unit.getLast? = some 'b' := by
    by_cases hun : unit = []
    · subst hun
      simp
      intro e; subst e; revert hcd; decide
    · rw [List.getLast?_append_of_ne_nil _ hun]
  simp only [normalizeChunksize]
  rw [if_neg (by simp only [not_or]; exact ⟨g1, g2⟩)]
  rw [g3, hld, List.take_left, List.drop_left]
  simp only [hlast]
  cases pf (num' ++ [c]) with
  | none => rfl
  | some q => cases N <;> cases List.lookup unit bytesUnits <;> rfl

/-- **C76.** sizes with a unit: the number times the unit, divided by the item size (but at least
one item) when the unit is a byte unit, rounded to the nearest integer (ties to even). -/
theorem normalize_chunksize_unit (pf : List Char → Option ℚ) {s num unit : List Char}
    (h : Reads s num unit) {q : ℚ} (hq : pf num = some q) {scale : Nat} (hs : SizeUnit unit scale)
    (itemsize : Nat) (N : Option Nat) {r : Int}
    (hr : NearestInt (if unit = [] then q else max 1 (q * scale / itemsize)) r) :
    normalizeChunksize pf (.str s) itemsize N = .ok (offered r N) := by
  rw [normalize_reads pf h, hq]
  have hnc : ¬ (unit = "chunk".toList ∨ unit = "chunks".toList) := by
    rintro (rfl | rfl)
    · have := (sizeUnit_iff _ _).1 hs; rw [show bytesUnits.lookup "chunk".toList = none from rfl] at this; cases this
    · have := (sizeUnit_iff _ _).1 hs; rw [show bytesUnits.lookup "chunks".toList = none from rfl] at this; cases this
  simp only [hnc, if_false, (sizeUnit_iff _ _).1 hs]
  rw [← finishSize_eq_offered]
  congr 2
  have hval : (if unit.getLast? = some 'b' then max 1 (q * scale / itemsize) else q * scale) =
      (if unit = [] then q else max 1 (q * scale / itemsize)) := by
    cases hs <;> simp
  rw [hval]
  exact nearestInt_unique (pyRound_nearest _) hr

/-- **C76.** `"k chunks"`: at most one chunk means no chunking; otherwise `N` is required and the
size is `ceil(N / k)`. -/
theorem normalize_chunksize_chunks (pf : List Char → Option ℚ) {s num unit : List Char}
    (h : Reads s num unit) {q : ℚ} (hq : pf num = some q)
    (hu : unit = ['c','h','u','n','k'] ∨ unit = ['c','h','u','n','k','s']) (itemsize : Nat)
    (N : Option Nat) :
    (q ≤ 1 → normalizeChunksize pf (.str s) itemsize N = .ok none) ∧
    (1 < q → normalizeChunksize pf (.str s) itemsize none = .error .typeError) ∧
    (1 < q → ∀ M : Nat, normalizeChunksize pf (.str s) itemsize (some M) =
      .ok (offered ⌈(M : ℚ) / q⌉ (some M))) := by
  have hu' : unit = "chunk".toList ∨ unit = "chunks".toList := hu
  refine ⟨fun h1 => ?_, fun h1 => ?_, fun h1 M => ?_⟩
  · rw [normalize_reads pf h, hq]; simp only [hu', h1, if_true]
  · rw [normalize_reads pf h, hq]; simp only [hu', not_le.2 h1, if_true, if_false]
  · rw [normalize_reads pf h, hq]; simp only [hu', not_le.2 h1, if_true, if_false]
    rw [finishSize_eq_offered]

/-- **C76.** a number part that is not a number, or an unknown unit, is a `ValueError`; other
kinds of argument are a `TypeError`. -/
theorem normalize_chunksize_errors (pf : List Char → Option ℚ) (itemsize : Nat) (N : Option Nat) :
    (∀ s num unit, Reads s num unit → pf num = none →
      normalizeChunksize pf (.str s) itemsize N = .error .valueError) ∧
    (∀ s num unit, Reads s num unit → (∀ k, ¬ SizeUnit unit k) →
      unit ≠ ['c','h','u','n','k'] → unit ≠ ['c','h','u','n','k','s'] →
      normalizeChunksize pf (.str s) itemsize N = .error .valueError) ∧
    normalizeChunksize pf .other itemsize N = .error .typeError := by
  refine ⟨?_, ?_, rfl⟩
  · intro s num unit h hp
    rw [normalize_reads pf h, hp]
  · intro s num unit h hk h1 h2
    rw [normalize_reads pf h]
    cases pf num with
    | none => rfl
    | some q =>
      have hl : bytesUnits.lookup unit = none := by
        by_contra hh
        obtain ⟨k, hk'⟩ := Option.ne_none_iff_exists'.1 hh
        exact hk k ((sizeUnit_iff _ _).2 hk')
      have hnc : ¬ (unit = "chunk".toList ∨ unit = "chunks".toList) := by
        rintro (e | e)
        · exact h1 e
        · exact h2 e
      simp only [hnc, if_false, hl]

/-- every text other than the empty one and "all" is read in exactly this way -/
theorem reads_total (s : List Char)
    (h : (s.filter fun c => c ≠ ' ' ∧ c ≠ '_').map Char.toLower ≠ [])
    (h' : (s.filter fun c => c ≠ ' ' ∧ c ≠ '_').map Char.toLower ≠ ['a','l','l']) :
    ∃ num unit, Reads s num unit := by
  generalize ht : (s.filter fun c => c ≠ ' ' ∧ c ≠ '_').map Char.toLower = txt at h h'
  by_cases hd : ∃ c ∈ txt, c.isDigit = true
  · have gen : ∀ l : List Char, (∃ c ∈ l, c.isDigit = true) → ∃ num unit, l = num ++ unit ∧
        (∀ c ∈ unit, c.isDigit = false) ∧ ∃ c, num.getLast? = some c ∧ c.isDigit = true := by
      intro l
      induction l with
      | nil => simp
      | cons a l ih =>
        rintro ⟨c, hc, hcd⟩
        by_cases hl : ∃ c ∈ l, c.isDigit = true
        · obtain ⟨num, unit, e, hu, d, hd1, hd2⟩ := ih hl
          refine ⟨a :: num, unit, by simp [e], hu, d, ?_, hd2⟩
          have : num ≠ [] := by rintro rfl; simp at hd1
          rw [List.getLast?_cons_of_ne_nil this]; exact hd1
        · refine ⟨[a], l, rfl, ?_, a, rfl, ?_⟩
          · intro x hx
            by_contra hh
            exact hl ⟨x, hx, by simpa using hh⟩
          · rcases List.mem_cons.1 hc with rfl | hc
            · exact hcd
            · exact absurd ⟨c, hc, hcd⟩ hl
    obtain ⟨num, unit, e, hu, hn⟩ := gen txt hd
    exact ⟨num, unit, hu, hn, by simp only; rw [ht]; exact Or.inl e⟩
  · refine ⟨['1'], txt, ?_, ⟨'1', rfl, by decide⟩, by simp only; rw [ht]; right; refine ⟨trivial, rfl, h, h'⟩⟩
    intro c hc
    by_contra hh
    exact hd ⟨c, hc, by simpa using hh⟩

/-- the hypotheses hold for "2.5 KiB" with items of 8 bytes -/
example : Reads "2.5 KiB".toList "2.5".toList "kib".toList ∧ SizeUnit "kib".toList 1024 ∧
    NearestInt (max 1 ((5/2 : ℚ) * (1024 : ℕ) / (8 : ℕ))) 320 :=
  ⟨⟨by decide, ⟨'5', by decide, by decide⟩, by decide⟩, by simpa using SizeUnit.bin 0 'k' rfl, by
    left; norm_num [max_eq_right]⟩

example : normalizeChunksize (fun s => if s = ['1','0'] then some 10 else none)
    (.str "10 MiB".toList) 8 (some 2000000) = .ok (some 1310720) := by
  decide +kernel
example : normalizeChunksize (fun s => if s = ['1','0'] then some 10 else none)
    (.str "10 Chunks".toList) 8 (some 95) = .ok (some 10) := by
  decide +kernel
example : normalizeChunksize (fun _ => none) (.str "A_ll".toList) 8 (some 95) = .ok none := by
  decide +kernel

end Props
