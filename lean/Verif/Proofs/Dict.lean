import Verif.Model.Dict
import Verif.Proofs.Graph

/-! Dictionaries with pairwise distinct new keys. -/

open Model Model.Graph

namespace Proofs

variable {K V : Type} [DecidableEq K]

theorem dset_absent {d : List (K × V)} {k : K} (h : k ∉ d.map Prod.fst) (v : V) :
    dset d k v = d ++ [(k, v)] := by
  induction d with
  | nil => rfl
  | cons p d ih =>
    obtain ⟨a, b⟩ := p
    simp only [List.map_cons, List.mem_cons, not_or] at h
    simp only [dset, if_neg (Ne.symm h.1), ih h.2, List.cons_append]

theorem dupdate_append {d e : List (K × V)} (h : ((d ++ e).map Prod.fst).Nodup) :
    dupdate d e = d ++ e := by
  induction e generalizing d with
  | nil => simp [dupdate]
  | cons p e ih =>
    have h1 : p.1 ∉ d.map Prod.fst := by
      intro hm
      rw [List.map_append, List.nodup_append] at h
      exact h.2.2 _ hm _ (by simp) rfl
    have : dupdate d (p :: e) = dupdate (dset d p.1 p.2) e := rfl
    rw [this, dset_absent h1, ih (by simpa using h)]
    simp

theorem dictOf_nodup {l : List (K × V)} (h : (l.map Prod.fst).Nodup) : dictOf l = l := by
  have := dupdate_append (d := []) (e := l) (by simpa using h)
  simpa [dictOf] using this

end Proofs
