import Verif.Model.Names
import Verif.Spec.Names
import Verif.Props.Cache

/-!
# C99 names of properties
-/

open GB Spec.Prop Model Model.Cache Model.Names

namespace Props

variable {ι : Type} {dir : Bool} {ops : Ops ι} {nm : ι → Name}

/-- `nm o` is a name of the operator `o` (there may be others), and `count` is known under its name -/
def OpNames (ops : Ops ι) (nm : ι → Name) : Prop := ∀ r : VOp ι, ops (r.name nm) = some r

theorem strip_eq_some {suf l a : Name} : strip suf l = some a ↔ l = a ++ suf := by
  unfold strip
  constructor
  · intro h
    split at h
    · rename_i hs
      rw [List.isSuffixOf_iff_suffix] at hs
      obtain ⟨b, rfl⟩ := hs
      cases h
      simp
    · cases h
  · rintro rfl
    rw [if_pos (by rw [List.isSuffixOf_iff_suffix]; exact ⟨a, rfl⟩)]
    simp

theorem strip_eq_none {suf l : Name} : strip suf l = none ↔ ∀ a, l ≠ a ++ suf := by
  constructor
  · rintro h a rfl
    rw [strip_eq_some.2 rfl] at h
    cases h
  · intro h
    cases e : strip suf l with
    | none => rfl
    | some a => exact absurd (strip_eq_some.1 e) (h a)

theorem append_ne {s t : Name} (h1 : ¬ s <:+ t) (h2 : ¬ t <:+ s) (a b : Name) : a ++ s ≠ b ++ t := by
  intro h
  rcases List.suffix_or_suffix_of_suffix (⟨a, h⟩ : s <:+ b ++ t) (⟨b, rfl⟩ : t <:+ b ++ t) with h | h
  · exact h1 h
  · exact h2 h

/-- the getter a name stands for, when nothing was looked up before -/
def parse (dir : Bool) (ops : Ops ι) (key : Name) : Except Err (Getter ι) :=
  (find dir ops (initial dir) key).1

theorem sign?_char (s : Sign) : sign? s.char = some s := by cases s <;> rfl

theorem sign?_eq {c : Char} {s : Sign} (h : sign? c = some s) : c = s.char := by
  unfold sign? at h
  split at h
  · cases h; rfl
  · cases h; rfl
  · cases h

theorem lastChar_append (l : Name) (c : Char) : lastChar (l ++ [c]) = .ok c := by
  unfold lastChar
  simp

/-- the names in the source -/
def litNames (dir : Bool) : List Name := (literals (ι := Unit) dir).map Prod.fst

theorem litNames_eq (dir : Bool) : (literals (ι := ι) dir).map Prod.fst = litNames dir := by cases dir <;> rfl

/-- names of computed properties are not in the source's table -/
theorem initial_none {key suf a : Name} (hk : key = a ++ suf)
    (hl : ∀ d, ∀ w ∈ litNames d, ¬ suf <:+ w) : initial (ι := ι) dir key = none := by
  unfold initial
  rw [Option.map_eq_none_iff, List.lookup_eq_none_iff]
  intro p hp
  simp only [bne_iff_ne, ne_eq, beq_eq_false_iff_ne]
  rintro rfl
  exact hl dir p.1 (litNames_eq (ι := ι) dir ▸ List.mem_map_of_mem hp) ⟨a, hk.symm⟩

theorem initial_row (op : Name) (s : Sign) : initial (ι := ι) dir (op ++ "_rowwise".toList ++ [s.char]) = none :=
  initial_none (suf := "_rowwise".toList ++ [s.char]) (by rw [List.append_assoc]) (by cases s <;> decide)

theorem initial_col (op : Name) (s : Sign) :
    initial (ι := ι) dir (op ++ "_columnwise".toList ++ [s.char]) = none :=
  initial_none (suf := "_columnwise".toList ++ [s.char]) (by rw [List.append_assoc]) (by cases s <;> decide)

theorem initial_elem (op : Name) (s : Sign) : initial (ι := ι) dir (op ++ "_element".toList ++ [s.char]) = none :=
  initial_none (suf := "_element".toList ++ [s.char]) (by rw [List.append_assoc]) (by cases s <;> decide)

theorem missing_row (T : Table ι) (op : Name) (s : Sign) :
    missing dir ops T (op ++ "_rowwise".toList ++ [s.char]) = (vecGetter ops op s .row).map fun g =>
      (g, setVec dir T (op ++ "_rowwise".toList ++ [s.char]) op s.char g) := by
  unfold missing missingSigned
  rw [lastChar_append]
  dsimp only
  rw [sign?_char]
  dsimp only
  rw [List.dropLast_concat, strip_eq_some.2 rfl]

theorem missing_col (T : Table ι) (op : Name) (s : Sign) :
    missing dir ops T (op ++ "_columnwise".toList ++ [s.char]) = (vecGetter ops op s .col).map fun g =>
      (g, setVec dir T (op ++ "_columnwise".toList ++ [s.char]) op s.char g) := by
  unfold missing missingSigned
  rw [lastChar_append]
  dsimp only
  rw [sign?_char]
  dsimp only
  rw [List.dropLast_concat, strip_eq_none.2 fun a => append_ne (by decide) (by decide) _ _]
  dsimp only
  rw [strip_eq_some.2 rfl]

theorem missing_elem (T : Table ι) (op : Name) (s : Sign) :
    missing dir ops T (op ++ "_element".toList ++ [s.char]) = (elemGetter ops op s).map fun g =>
      (g, Names.set T (op ++ "_element".toList ++ [s.char]) g) := by
  unfold missing missingSigned
  rw [lastChar_append]
  dsimp only
  rw [sign?_char]
  dsimp only
  rw [List.dropLast_concat, strip_eq_none.2 fun a => append_ne (by decide) (by decide) _ _]
  dsimp only
  rw [strip_eq_none.2 fun a => append_ne (by decide) (by decide) _ _]
  dsimp only
  rw [strip_eq_some.2 rfl]

theorem missing_diag (T : Table ι) (op : Name) :
    missing dir ops T (op ++ "_diagonal".toList) = (diagGetter ops op).map fun g =>
      (g, Names.set T (op ++ "_diagonal".toList) g) := by
  have h : op ++ "_diagonal".toList = (op ++ "_diagona".toList) ++ ['l'] := by
    rw [List.append_assoc]; rfl
  have h1 : lastChar (op ++ "_diagonal".toList) = .ok 'l' := by rw [h, lastChar_append]
  unfold missing
  rw [h1]
  dsimp only
  rw [show sign? 'l' = none from rfl]
  dsimp only
  rw [strip_eq_some.2 rfl]

theorem missing_other (T : Table ι) {key : Name} (h : ∀ op, ¬ Form op key) :
    missing dir ops T key = .error (if key = [] then .indexError else .keyError) := by
  rcases List.eq_nil_or_concat key with rfl | ⟨l, c, rfl⟩
  · rfl
  · rw [if_neg (by simp)]
    simp only [List.concat_eq_append] at h ⊢
    unfold missing missingSigned
    rw [lastChar_append]
    dsimp only
    cases hs : sign? c with
    | some s =>
      have hc := sign?_eq hs
      subst hc
      dsimp only
      rw [List.dropLast_concat, strip_eq_none.2 fun a e => h a (by rw [e]; exact Form.row a s)]
      dsimp only
      rw [strip_eq_none.2 fun a e => h a (by rw [e]; exact Form.col a s)]
      dsimp only
      rw [strip_eq_none.2 fun a e => h a (by rw [e]; exact Form.elem a s)]
    | none =>
      dsimp only
      rw [strip_eq_none.2 fun a e => h a (by rw [e]; exact Form.diag a)]

/-- the getter does not depend on the table -/
theorem missing_fst (T T' : Table ι) (key : Name) :
    (missing dir ops T key).map Prod.fst = (missing dir ops T' key).map Prod.fst := by
  by_cases h : ∃ op, Form op key
  · obtain ⟨op, h⟩ := h
    cases h with
    | row s => rw [missing_row, missing_row]; cases vecGetter ops op s .row <;> rfl
    | col s => rw [missing_col, missing_col]; cases vecGetter ops op s .col <;> rfl
    | elem s => rw [missing_elem, missing_elem]; cases elemGetter ops op s <;> rfl
    | diag => rw [missing_diag, missing_diag]; cases diagGetter ops op <;> rfl
  · have h' : ∀ op, ¬ Form op key := fun op ho => h ⟨op, ho⟩
    rw [missing_other T h', missing_other T' h']

theorem parse_of_missing {key : Name} (h0 : initial (ι := ι) dir key = none) (T : Table ι) :
    parse dir ops key = (missing dir ops T key).map Prod.fst := by
  rw [missing_fst T (initial dir)]
  unfold parse find
  rw [h0]
  cases missing dir ops (initial dir) key with
  | error e => rfl
  | ok p => rfl

theorem parse_row (op : Name) (s : Sign) :
    parse dir ops (op ++ "_rowwise".toList ++ [s.char]) = vecGetter ops op s .row := by
  rw [parse_of_missing (initial_row op s) (initial dir), missing_row]
  cases vecGetter ops op s .row <;> rfl

theorem parse_col (op : Name) (s : Sign) :
    parse dir ops (op ++ "_columnwise".toList ++ [s.char]) = vecGetter ops op s .col := by
  rw [parse_of_missing (initial_col op s) (initial dir), missing_col]
  cases vecGetter ops op s .col <;> rfl

theorem parse_elem (op : Name) (s : Sign) :
    parse dir ops (op ++ "_element".toList ++ [s.char]) = elemGetter ops op s := by
  rw [parse_of_missing (initial_elem op s) (initial dir), missing_elem]
  cases elemGetter ops op s <;> rfl

theorem initial_diag {op : Name} (h : op ≠ "has_negative".toList) :
    initial (ι := ι) dir (op ++ "_diagonal".toList) = none := by
  unfold initial
  rw [Option.map_eq_none_iff, List.lookup_eq_none_iff]
  intro p hp
  simp only [bne_iff_ne, ne_eq, beq_eq_false_iff_ne]
  intro e
  have h1 : p.1 ∈ litNames dir := litNames_eq (ι := ι) dir ▸ List.mem_map_of_mem hp
  have h2 : ∀ d, ∀ w ∈ litNames d, w = "has_negative_diagonal".toList ∨ ¬ "_diagonal".toList <:+ w := by decide
  rcases h2 dir _ h1 with h3 | h3
  · rw [h3] at e
    exact h (List.append_cancel_right (e.trans (by rfl : _ = "has_negative".toList ++ "_diagonal".toList)))
  · exact h3 ⟨op, e⟩

theorem parse_diag {op : Name} (h : op ≠ "has_negative".toList) :
    parse dir ops (op ++ "_diagonal".toList) = diagGetter ops op := by
  rw [parse_of_missing (initial_diag h) (initial dir), missing_diag]
  cases diagGetter ops op <;> rfl

/-! ## the class-level dict -/

/-- what the dict may contain -/
structure TInv (dir : Bool) (ops : Ops ι) (T : Table ι) : Prop where
  ext : ∀ key, T key = none → initial (ι := ι) dir key = none
  sound : ∀ key g, T key = some g → parse dir ops key = .ok g ∨
    (dir = false ∧ ∃ a b, RowOfCol a b ∧ parse dir ops key = .ok (.key b) ∧ g = .key a)

theorem tinv_initial : TInv dir ops (initial dir) where
  ext := fun _ h => h
  sound := fun key g h => .inl (by unfold parse find; rw [h])

theorem tinv_set {T : Table ι} (h : TInv dir ops T) {key : Name} {g : Getter ι}
    (hg : parse dir ops key = .ok g ∨
      (dir = false ∧ ∃ a b, RowOfCol a b ∧ parse dir ops key = .ok (.key b) ∧ g = .key a)) :
    TInv dir ops (Names.set T key g) := by
  unfold Names.set
  constructor
  · intro k hk
    by_cases e : k = key
    · subst e; rw [Function.update_self] at hk; cases hk
    · rw [Function.update_of_ne e] at hk; exact h.ext k hk
  · intro k g' hk
    by_cases e : k = key
    · subst e; rw [Function.update_self] at hk; cases hk; exact hg
    · rw [Function.update_of_ne e] at hk; exact h.sound k g' hk

theorem vecGetter_ok {op : Name} {s : Sign} {ax : Axis} {g : Getter ι} (h : vecGetter ops op s ax = .ok g) :
    ∃ r, ops op = some r ∧ g = .key (.vec r s ax) := by
  unfold vecGetter at h
  cases e : ops op with
  | none => rw [e] at h; cases h
  | some r => rw [e] at h; cases h; exact ⟨r, rfl, rfl⟩

theorem tinv_missing {T T' : Table ι} (h : TInv dir ops T) {key : Name} {g : Getter ι} (hk : T key = none)
    (hm : missing dir ops T key = .ok (g, T')) : TInv dir ops T' := by
  have hp : parse dir ops key = .ok g := by
    rw [parse_of_missing (h.ext key hk) T, hm]; rfl
  have vec : ∀ (op : Name) (s : Sign) (ax : Axis) (key : Name), vecGetter ops op s ax = .ok g →
      parse dir ops key = .ok g → TInv dir ops (setVec dir T key op s.char g) := by
    intro op s ax key hv hp
    obtain ⟨r, hr, rfl⟩ := vecGetter_ok hv
    unfold setVec
    split
    · exact tinv_set h (.inl hp)
    · rename_i hd
      refine tinv_set (tinv_set h ?_) (.inl hp)
      have hc : parse dir ops (op ++ "_columnwise".toList ++ [s.char]) = .ok (.key (.vec r s .col)) := by
        rw [parse_col]; unfold vecGetter; rw [hr]
      cases ax with
      | col => exact .inl hc
      | row => exact .inr ⟨by simpa using hd, _, _, ⟨r, s, rfl, rfl⟩, hc, rfl⟩
  by_cases hf : ∃ op, Form op key
  · obtain ⟨op, hf⟩ := hf
    cases hf with
    | row s =>
      rw [missing_row] at hm
      cases e : vecGetter ops op s .row with
      | error _ => rw [e] at hm; cases hm
      | ok g' => rw [e] at hm; cases hm; exact vec op s .row _ e hp
    | col s =>
      rw [missing_col] at hm
      cases e : vecGetter ops op s .col with
      | error _ => rw [e] at hm; cases hm
      | ok g' => rw [e] at hm; cases hm; exact vec op s .col _ e hp
    | elem s =>
      rw [missing_elem] at hm
      cases e : elemGetter ops op s with
      | error _ => rw [e] at hm; cases hm
      | ok g' => rw [e] at hm; cases hm; exact tinv_set h (.inl hp)
    | diag =>
      rw [missing_diag] at hm
      cases e : diagGetter ops op with
      | error _ => rw [e] at hm; cases hm
      | ok g' => rw [e] at hm; cases hm; exact tinv_set h (.inl hp)
  · rw [missing_other T fun op ho => hf ⟨op, ho⟩] at hm
    cases hm

theorem find_spec {T : Table ι} (h : TInv dir ops T) (key : Name) :
    TInv dir ops (find dir ops T key).2 ∧
    ((find dir ops T key).1 = parse dir ops key ∨ (dir = false ∧ ∃ a b, RowOfCol a b ∧
      parse dir ops key = .ok (.key b) ∧ (find dir ops T key).1 = .ok (.key a))) := by
  unfold find
  cases hk : T key with
  | some g =>
    refine ⟨h, ?_⟩
    rcases h.sound key g hk with e | ⟨hd, a, b, hr, e, rfl⟩
    · exact .inl e.symm
    · exact .inr ⟨hd, a, b, hr, e, rfl⟩
  | none =>
    dsimp only
    have hp := parse_of_missing (ops := ops) (h.ext key hk) T
    cases hm : missing dir ops T key with
    | error e => rw [hm] at hp; exact ⟨h, .inl hp.symm⟩
    | ok p => rw [hm] at hp; exact ⟨tinv_missing h hk hm, .inl hp.symm⟩

theorem tableAfter_inv (h : List Name) : TInv dir ops (tableAfter dir ops h) := by
  unfold tableAfter
  have : ∀ T, TInv dir ops T → TInv dir ops (h.foldl (fun T name => (resolve dir ops T name).2) T) := by
    induction h with
    | nil => exact fun _ h => h
    | cons n h ih => exact fun T hT => ih _ (find_spec hT _).1
  exact this _ tinv_initial

/-! ## the theorems -/

theorem unalias_of {key suf a : Name} (hk : key = a ++ suf)
    (hl : ∀ d, ∀ w ∈ (aliases d).map Prod.fst, ¬ suf <:+ w) : unalias dir key = key := by
  unfold unalias
  rw [List.lookup_eq_none_iff.2]
  · rfl
  · intro p hp
    simp only [bne_iff_ne, ne_eq, beq_eq_false_iff_ne]
    rintro rfl
    exact hl dir p.1 (List.mem_map_of_mem hp) ⟨a, hk.symm⟩

theorem unalias_print (k : Key ι) (hk : OfClass dir k) : unalias dir (print nm k) = print nm k := by
  cases k with
  | vec r s ax =>
    cases ax with
    | row =>
      refine unalias_of (a := r.name nm) (suf := "_rowwise".toList ++ [s.char]) ?_ (by cases s <;> decide)
      show r.name nm ++ "_rowwise".toList ++ [s.char] = _
      rw [List.append_assoc]
    | col =>
      refine unalias_of (a := r.name nm) (suf := "_columnwise".toList ++ [s.char]) ?_ (by cases s <;> decide)
      show r.name nm ++ "_columnwise".toList ++ [s.char] = _
      rw [List.append_assoc]
  | elem o s =>
    refine unalias_of (a := nm o) (suf := "_element".toList ++ [s.char]) ?_ (by cases s <;> decide)
    show nm o ++ "_element".toList ++ [s.char] = _
    rw [List.append_assoc]
  | diagRed o => exact unalias_of (a := nm o) (suf := "_diagonal".toList) rfl (by decide)
  | U s | L s | recip s | totdeg s | totrecip s | neg s => cases s <;> cases dir <;> rfl
  | A | AT | offdiag | diag | hasSelf | negDiag | isIso | isoVal => cases dir <;> rfl

theorem parse_print (hn : OpNames ops nm) (hneg : ops "has_negative".toList = none) (k : Key ι) (hk : OfClass dir k) :
    parse dir ops (print nm k) = .ok (.key k) := by
  have hop : ∀ r : VOp ι, ops (r.name nm) = some r := hn
  cases k with
  | vec r s ax =>
    cases ax with
    | row => unfold print; rw [parse_row]; unfold vecGetter; rw [hop]
    | col => unfold print; rw [parse_col]; unfold vecGetter; rw [hop]
  | elem o s =>
    unfold print; rw [parse_elem]; unfold elemGetter
    rw [show nm o = (VOp.mon o).name nm from rfl, hop]
  | diagRed o =>
    unfold print
    rw [parse_diag fun e => by
      have := hop (.mon o)
      rw [show (VOp.mon o).name nm = nm o from rfl, e, hneg] at this
      cases this]
    unfold diagGetter
    rw [show nm o = (VOp.mon o).name nm from rfl, hop]
  | U s | L s | neg s => cases s <;> cases dir <;> rfl
  | recip s | totdeg s | totrecip s => cases hk; cases s <;> rfl
  | A | AT | offdiag | diag | hasSelf | negDiag | isIso | isoVal => cases dir <;> rfl

/-- what a lookup by name finds, whatever was looked up before -/
theorem resolve_spec (h : List Name) (name : Name) :
    (resolve dir ops (tableAfter dir ops h) name).1 = parse dir ops (unalias dir name) ∨
    (dir = false ∧ ∃ a b, RowOfCol a b ∧ parse dir ops (unalias dir name) = .ok (.key b) ∧
      (resolve dir ops (tableAfter dir ops h) name).1 = .ok (.key a)) :=
  (find_spec (tableAfter_inv h) _).2

/-- **C99**: the documented name of every property leads to that property, whatever names were looked up before
on whatever objects.  On a `Graph` the name of a column reduction may lead to the row reduction (which has the
same value: `get_property_by_name`). -/
theorem property_names_resolve (hn : OpNames ops nm) (hneg : ops "has_negative".toList = none) (h : List Name)
    (k : Key ι) (hk : OfClass dir k) :
    ∃ k', (resolve dir ops (tableAfter dir ops h) (print nm k)).1 = .ok (.key k') ∧
      (k' = k ∨ (dir = false ∧ RowOfCol k' k)) := by
  have hp := parse_print hn hneg k hk
  rcases resolve_spec (dir := dir) (ops := ops) h (print nm k) with e | ⟨hd, a, b, hr, e, e'⟩
  · rw [unalias_print k hk] at e
    exact ⟨k, e.trans hp, .inl rfl⟩
  · rw [unalias_print k hk, hp] at e
    cases e
    exact ⟨a, e', .inr ⟨hd, hr⟩⟩

/-- **C99**: on a `DiGraph` it is exactly that property. -/
theorem digraph_names_resolve (hn : OpNames ops nm) (hneg : ops "has_negative".toList = none) (h : List Name)
    (k : Key ι) : (resolve true ops (tableAfter true ops h) (print nm k)).1 = .ok (.key k) := by
  obtain ⟨k', e, hk | ⟨hd, _⟩⟩ := property_names_resolve (dir := true) hn hneg h k (by cases k <;> first | rfl | trivial)
  · rw [e, hk]
  · cases hd

/-- **C99**: the degree names.  A `Graph` has `degrees`, `row_degrees` and `column_degrees`, all of which are the row
counts; a `DiGraph` has row and column degrees. -/
theorem degree_names (hc : ops "count".toList = some .count) (h : List Name) (s : Sign) :
    (∀ a ∈ ["degrees".toList, "row_degrees".toList, "column_degrees".toList],
      (resolve false ops (tableAfter false ops h) (a ++ [s.char])).1 = .ok (.key (.vec .count s .row))) ∧
    (resolve true ops (tableAfter true ops h) ("row_degrees".toList ++ [s.char])).1 = .ok (.key (.vec .count s .row)) ∧
    (resolve true ops (tableAfter true ops h) ("column_degrees".toList ++ [s.char])).1 =
      .ok (.key (.vec .count s .col)) := by
  have row : ∀ d name, unalias d name = "count".toList ++ "_rowwise".toList ++ [s.char] →
      (resolve d ops (tableAfter d ops h) name).1 = .ok (.key (.vec .count s .row)) := by
    intro d name hu
    have hp : parse d ops (unalias d name) = .ok (.key (.vec .count s .row)) := by
      rw [hu, parse_row]; unfold vecGetter; rw [hc]
    rcases resolve_spec (dir := d) (ops := ops) h name with e | ⟨hd, a, b, ⟨r, s', h1, h2⟩, e, e'⟩
    · exact e.trans hp
    · rw [hp] at e; subst h2; cases e
  refine ⟨?_, row true _ (by cases s <;> rfl), ?_⟩
  · intro a ha
    simp only [List.mem_cons, List.not_mem_nil, or_false] at ha
    rcases ha with rfl | rfl | rfl
    · exact row false _ (by cases s <;> rfl)
    · exact row false _ (by cases s <;> rfl)
    · exact row false _ (by cases s <;> rfl)
  · have hu : unalias true ("column_degrees".toList ++ [s.char]) = "count".toList ++ "_columnwise".toList ++ [s.char] := by
      cases s <;> rfl
    have hp : parse true ops (unalias true ("column_degrees".toList ++ [s.char])) = .ok (.key (.vec .count s .col)) := by
      rw [hu, parse_col]; unfold vecGetter; rw [hc]
    rcases resolve_spec (dir := true) (ops := ops) h ("column_degrees".toList ++ [s.char]) with e | ⟨hd, _⟩
    · exact e.trans hp
    · cases hd

/-- **C99** (not what one expects of a class derived from `Graph`): a `DiGraph` has no property `degrees±`;
asking for it raises `KeyError`. -/
theorem digraph_has_no_degrees (h : List Name) (s : Sign) :
    (resolve true ops (tableAfter true ops h) ("degrees".toList ++ [s.char])).1 = .error .keyError := by
  rcases resolve_spec (dir := true) (ops := ops) h ("degrees".toList ++ [s.char]) with e | ⟨hd, _⟩
  · rw [e]
    cases s <;> rfl
  · cases hd

theorem form_of_suffix {op key : Name} (h : Form op key) : key ≠ [] := by
  cases h <;> simp

theorem initial_of_mem {key : Name} {g : Getter ι} (h : initial (ι := ι) dir key = some g) :
    ∃ k, g = .key k ∧ OfClass dir k ∧ k.op? = none ∧ ∀ nm : ι → Name, key = print nm k := by
  unfold initial at h
  rw [Option.map_eq_some_iff] at h
  obtain ⟨k, h, rfl⟩ := h
  refine ⟨k, rfl, ?_⟩
  have hm : (key, k) ∈ literals (ι := ι) dir := by
    obtain ⟨l1, l2, e, -⟩ := List.lookup_eq_some_iff.1 h
    rw [e]; simp
  clear h
  unfold literals at hm
  cases dir with
  | false =>
    simp only [List.mem_append, List.mem_cons, Prod.mk.injEq, List.not_mem_nil, or_false, Bool.false_eq_true, if_false] at hm
    rcases hm with ⟨rfl, rfl⟩ | ⟨rfl, rfl⟩ | ⟨rfl, rfl⟩ | ⟨rfl, rfl⟩ | ⟨rfl, rfl⟩ | ⟨rfl, rfl⟩ | ⟨rfl, rfl⟩ | ⟨rfl, rfl⟩ |
      ⟨rfl, rfl⟩ | ⟨rfl, rfl⟩ | ⟨rfl, rfl⟩ | ⟨rfl, rfl⟩ | ⟨rfl, rfl⟩ | ⟨rfl, rfl⟩ <;> exact ⟨trivial, rfl, fun _ => rfl⟩
  | true =>
    simp only [List.mem_append, List.mem_cons, Prod.mk.injEq, List.not_mem_nil, or_false, if_true] at hm
    rcases hm with (⟨rfl, rfl⟩ | ⟨rfl, rfl⟩ | ⟨rfl, rfl⟩ | ⟨rfl, rfl⟩ | ⟨rfl, rfl⟩ | ⟨rfl, rfl⟩ | ⟨rfl, rfl⟩ | ⟨rfl, rfl⟩ |
      ⟨rfl, rfl⟩ | ⟨rfl, rfl⟩ | ⟨rfl, rfl⟩ | ⟨rfl, rfl⟩ | ⟨rfl, rfl⟩ | ⟨rfl, rfl⟩) |
      (⟨rfl, rfl⟩ | ⟨rfl, rfl⟩ | ⟨rfl, rfl⟩ | ⟨rfl, rfl⟩ | ⟨rfl, rfl⟩ | ⟨rfl, rfl⟩) <;>
      exact ⟨by first | trivial | rfl, rfl, fun _ => rfl⟩

/-- what a name can mean -/
theorem parse_ok {key : Name} {g : Getter ι} (h : parse dir ops key = .ok g) :
    (∃ k, g = .key k ∧ OfClass dir k ∧ k.op? = none ∧ ∀ nm : ι → Name, key = print nm k) ∨
    (∃ op r s, ops op = some r ∧ ((key = op ++ "_rowwise".toList ++ [s.char] ∧ g = .key (.vec r s .row)) ∨
      (key = op ++ "_columnwise".toList ++ [s.char] ∧ g = .key (.vec r s .col)) ∨
      (key = op ++ "_element".toList ++ [s.char] ∧ g = (match r with | .mon o => .key (.elem o s) | .count => .countElem s)) ∨
      (key = op ++ "_diagonal".toList ∧ g = (match r with | .mon o => .key (.diagRed o) | .count => .countDiag)))) := by
  cases h0 : initial (ι := ι) dir key with
  | some g' =>
    left
    have : parse dir ops key = .ok g' := by unfold parse find; rw [h0]
    rw [this] at h; cases h
    exact initial_of_mem h0
  | none =>
    right
    rw [parse_of_missing h0 (initial dir)] at h
    by_cases hf : ∃ op, Form op key
    · obtain ⟨op, hf⟩ := hf
      cases hf with
      | row s =>
        rw [missing_row] at h
        cases e : vecGetter ops op s .row with
        | error _ => rw [e] at h; cases h
        | ok g' =>
          rw [e] at h; cases h
          obtain ⟨r, hr, rfl⟩ := vecGetter_ok e
          exact ⟨op, r, s, hr, .inl ⟨rfl, rfl⟩⟩
      | col s =>
        rw [missing_col] at h
        cases e : vecGetter ops op s .col with
        | error _ => rw [e] at h; cases h
        | ok g' =>
          rw [e] at h; cases h
          obtain ⟨r, hr, rfl⟩ := vecGetter_ok e
          exact ⟨op, r, s, hr, .inr (.inl ⟨rfl, rfl⟩)⟩
      | elem s =>
        rw [missing_elem] at h
        unfold elemGetter at h
        cases e : ops op with
        | none => rw [e] at h; cases h
        | some r =>
          rw [e] at h
          refine ⟨op, r, s, e, .inr (.inr (.inl ⟨rfl, ?_⟩))⟩
          cases r <;> · cases h; rfl
      | diag =>
        rw [missing_diag] at h
        unfold diagGetter at h
        cases e : ops op with
        | none => rw [e] at h; cases h
        | some r =>
          rw [e] at h
          refine ⟨op, r, .p, e, .inr (.inr (.inr ⟨rfl, ?_⟩))⟩
          cases r <;> · cases h; rfl
    · rw [missing_other _ fun op ho => hf ⟨op, ho⟩] at h
      cases h

theorem parse_error {key : Name} {e : Err} (h : parse dir ops key = .error e) :
    (key = [] ∧ e = .indexError) ∨ (∃ op, Form op key ∧ ops op = none ∧ e = .valueError) ∨
    (key ≠ [] ∧ (∀ op, ¬ Form op key) ∧ initial (ι := ι) dir key = none ∧ e = .keyError) := by
  cases h0 : initial (ι := ι) dir key with
  | some g' =>
    have : parse dir ops key = .ok g' := by unfold parse find; rw [h0]
    rw [this] at h; cases h
  | none =>
    rw [parse_of_missing h0 (initial dir)] at h
    by_cases hf : ∃ op, Form op key
    · right; left
      obtain ⟨op, hf⟩ := hf
      refine ⟨op, hf, ?_⟩
      cases hf with
      | row s =>
        rw [missing_row] at h; unfold vecGetter at h
        cases e : ops op with
        | none => rw [e] at h; cases h; exact ⟨rfl, rfl⟩
        | some r => rw [e] at h; cases h
      | col s =>
        rw [missing_col] at h; unfold vecGetter at h
        cases e : ops op with
        | none => rw [e] at h; cases h; exact ⟨rfl, rfl⟩
        | some r => rw [e] at h; cases h
      | elem s =>
        rw [missing_elem] at h; unfold elemGetter at h
        cases e : ops op with
        | none => rw [e] at h; cases h; exact ⟨rfl, rfl⟩
        | some r => rw [e] at h; cases r <;> cases h
      | diag =>
        rw [missing_diag] at h; unfold diagGetter at h
        cases e : ops op with
        | none => rw [e] at h; cases h; exact ⟨rfl, rfl⟩
        | some r => rw [e] at h; cases r <;> cases h
    · have hf' : ∀ op, ¬ Form op key := fun op ho => hf ⟨op, ho⟩
      rw [missing_other _ hf'] at h
      by_cases hk : key = []
      · rw [if_pos hk] at h; cases h; exact .inl ⟨hk, rfl⟩
      · rw [if_neg hk] at h; cases h; exact .inr (.inr ⟨hk, hf', rfl, rfl⟩)

theorem unalias_cases (dir : Bool) (name : Name) :
    (name ∉ (aliases dir).map Prod.fst ∧ unalias dir name = name) ∨
    (name ∈ (aliases dir).map Prod.fst ∧ ∃ s : Sign, unalias dir name = "count".toList ++ "_rowwise".toList ++ [s.char] ∨
      unalias dir name = "count".toList ++ "_columnwise".toList ++ [s.char]) := by
  unfold unalias
  cases e : (aliases dir).lookup name with
  | none =>
    left
    refine ⟨?_, rfl⟩
    rw [List.lookup_eq_none_iff] at e
    intro hm
    obtain ⟨p, hp, rfl⟩ := List.mem_map.1 hm
    have := e p hp
    simp at this
  | some t =>
    right
    obtain ⟨l1, l2, e', -⟩ := List.lookup_eq_some_iff.1 e
    have hm : (name, t) ∈ aliases dir := by rw [e']; simp
    refine ⟨List.mem_map_of_mem (f := Prod.fst) hm, ?_⟩
    have : ∀ d, ∀ q ∈ aliases d, ∃ s : Sign, q.2 = "count".toList ++ "_rowwise".toList ++ [s.char] ∨
        q.2 = "count".toList ++ "_columnwise".toList ++ [s.char] := by
      intro d q hq
      have h2 : ∀ d, ∀ q ∈ aliases d, (q.2 = "count".toList ++ "_rowwise".toList ++ [Sign.p.char] ∨
        q.2 = "count".toList ++ "_columnwise".toList ++ [Sign.p.char]) ∨
        (q.2 = "count".toList ++ "_rowwise".toList ++ [Sign.m.char] ∨
        q.2 = "count".toList ++ "_columnwise".toList ++ [Sign.m.char]) := by decide
      rcases h2 d q hq with h | h
      · exact ⟨.p, h⟩
      · exact ⟨.m, h⟩
    exact this dir _ hm

/-- **C99**: only documented names lead to a property: besides the degree names, a name that is accepted is the
name of a property of the class, with a known operator in front if it is a reduction. -/
theorem only_names_resolve (hc : ∀ s, ops s = some .count → s = "count".toList) (h : List Name) (name : Name) {k : Key ι}
    (hr : (resolve dir ops (tableAfter dir ops h) name).1 = .ok (.key k)) :
    (∃ a ∈ ["degrees".toList, "row_degrees".toList, "column_degrees".toList], ∃ s : Sign, name = a ++ [s.char]) ∨
    ∃ (nm : ι → Name) (k' : Key ι), (k' = k ∨ (dir = false ∧ RowOfCol k k')) ∧ OfClass dir k' ∧ name = print nm k' ∧
      ∀ r, k'.op? = some r → ops (r.name nm) = some r := by
  rcases unalias_cases dir name with ⟨hna, hu⟩ | ⟨hm, _⟩
  · right
    have key : ∃ k', (k' = k ∨ (dir = false ∧ RowOfCol k k')) ∧ parse dir ops name = .ok (.key k') := by
      rcases resolve_spec (dir := dir) (ops := ops) h name with e | ⟨hd, a, b, hab, e, e'⟩
      · rw [hu] at e; exact ⟨k, .inl rfl, e.symm.trans hr⟩
      · rw [hr] at e'; cases e'
        rw [hu] at e
        exact ⟨b, .inr ⟨hd, hab⟩, e⟩
    obtain ⟨k', hk, hp⟩ := key
    have mk : ∀ (op : Name) (r : VOp ι), ops op = some r → r.name (fun _ => op) = op := by
      intro op r ho
      cases r with
      | mon o => rfl
      | count => exact (hc op ho).symm
    rcases parse_ok hp with ⟨k2, e, ho, hop, hpr⟩ | ⟨op, r, s, ho, ⟨e1, e2⟩ | ⟨e1, e2⟩ | ⟨e1, e2⟩ | ⟨e1, e2⟩⟩
    · cases e
      exact ⟨fun _ => [], k', hk, ho, hpr _, fun r hr => by rw [hop] at hr; cases hr⟩
    · cases e2
      refine ⟨fun _ => op, _, hk, trivial, ?_, ?_⟩
      · rw [e1]; show _ = r.name _ ++ _ ++ _; rw [mk op r ho]
      · rintro r' ⟨⟩; rw [mk op r ho, ho]
    · cases e2
      refine ⟨fun _ => op, _, hk, trivial, ?_, ?_⟩
      · rw [e1]; show _ = r.name _ ++ _ ++ _; rw [mk op r ho]
      · rintro r' ⟨⟩; rw [mk op r ho, ho]
    · cases r with
      | count => cases e2
      | mon o =>
        cases e2
        refine ⟨fun _ => op, _, hk, trivial, e1, ?_⟩
        rintro r' ⟨⟩; exact ho
    · cases r with
      | count => cases e2
      | mon o =>
        cases e2
        refine ⟨fun _ => op, _, hk, trivial, e1, ?_⟩
        rintro r' ⟨⟩; exact ho
  · left
    have h2 : ∀ d, ∀ w ∈ (aliases d).map Prod.fst,
        ∃ a ∈ ["degrees".toList, "row_degrees".toList, "column_degrees".toList],
          w = a ++ [Sign.p.char] ∨ w = a ++ [Sign.m.char] := by decide
    obtain ⟨a, ha, e | e⟩ := h2 dir name hm
    · exact ⟨a, ha, .p, e⟩
    · exact ⟨a, ha, .m, e⟩

/-- **C99**: which exception an unusable name raises: the empty name `IndexError`; the name of a reduction by
an unknown operator `ValueError`; every other name `KeyError`. -/
theorem name_errors (hc : ops "count".toList = some .count) (h : List Name) (name : Name) {e : Err}
    (hr : (resolve dir ops (tableAfter dir ops h) name).1 = .error e) :
    (name = [] ∧ e = .indexError) ∨ (∃ op, Form op name ∧ ops op = none ∧ e = .valueError) ∨
    (name ≠ [] ∧ (∀ op, ¬ Form op name) ∧ (∀ nm : ι → Name, ∀ k, OfClass dir k → name ≠ print nm k) ∧
      e = .keyError) := by
  have hp : parse dir ops (unalias dir name) = .error e := by
    rcases resolve_spec (dir := dir) (ops := ops) h name with e1 | ⟨_, a, b, _, _, e1⟩
    · rw [← e1, hr]
    · rw [hr] at e1; cases e1
  rcases unalias_cases dir name with ⟨hna, hu⟩ | ⟨hm, s, hu | hu⟩
  · rw [hu] at hp
    rcases parse_error hp with h1 | h1 | ⟨h1, h2, h3, h4⟩
    · exact .inl h1
    · exact .inr (.inl h1)
    · refine .inr (.inr ⟨h1, h2, ?_, h4⟩)
      rintro nm k hk rfl
      cases k with
      | vec r s ax =>
        cases ax with
        | row => exact h2 _ (Form.row (r.name nm) s)
        | col => exact h2 _ (Form.col (r.name nm) s)
      | elem o s => exact h2 _ (Form.elem (nm o) s)
      | diagRed o => exact h2 _ (Form.diag (nm o))
      | U s | L s | neg s => cases s <;> cases dir <;> cases h3
      | recip s | totdeg s | totrecip s => cases hk; cases s <;> cases h3
      | A | AT | offdiag | diag | hasSelf | negDiag | isIso | isoVal => cases dir <;> cases h3
  · rw [hu, parse_row] at hp; unfold vecGetter at hp; rw [hc] at hp; cases hp
  · rw [hu, parse_col] at hp; unfold vecGetter at hp; rw [hc] at hp; cases hp

/-- **C99**: a failing lookup leaves the class as it was. -/
theorem failing_name_changes_nothing (T : Table ι) (name : Name) {e : Err}
    (hr : (resolve dir ops T name).1 = .error e) : (resolve dir ops T name).2 = T := by
  unfold resolve find at *
  cases h : T (unalias dir name) with
  | some g => rfl
  | none =>
    rw [h] at hr
    dsimp only at hr ⊢
    cases h2 : missing dir ops T (unalias dir name) with
    | error _ => rfl
    | ok p => rw [h2] at hr; cases hr

/-! ## names in a string -/

theorem splitOn_word {w : Name} (hw : ∀ c ∈ w, ¬ IsSep c) (c : Char) (hc : IsSep c) (s : Name) :
    ((w ++ c :: s).map fun c => if c = ' ' then ',' else c).splitOn ',' =
      w :: (s.map fun c => if c = ' ' then ',' else c).splitOn ',' := by
  unfold List.splitOn
  induction w with
  | nil =>
    simp only [List.nil_append, List.map_cons]
    rw [List.splitOnP_cons_eq_if_modifyHead, if_pos]
    rcases hc with rfl | rfl <;> rfl
  | cons a w ih =>
    have ha : ¬ IsSep a := hw a (by simp)
    simp only [List.cons_append, List.map_cons]
    rw [List.splitOnP_cons_eq_if_modifyHead, if_neg, ih fun c hc => hw c (by simp [hc])]
    · rw [if_neg fun e => ha (.inl e)]; rfl
    · rw [if_neg fun e => ha (.inl e)]
      intro e; exact ha (.inr (by simpa using e))

theorem splitOn_last {w : Name} (hw : ∀ c ∈ w, ¬ IsSep c) :
    (w.map fun c => if c = ' ' then ',' else c).splitOn ',' = [w] := by
  unfold List.splitOn
  induction w with
  | nil => rfl
  | cons a w ih =>
    have ha : ¬ IsSep a := hw a (by simp)
    simp only [List.map_cons]
    rw [List.splitOnP_cons_eq_if_modifyHead, if_neg, ih fun c hc => hw c (by simp [hc])]
    · rw [if_neg fun e => ha (.inl e)]; rfl
    · rw [if_neg fun e => ha (.inl e)]
      intro e; exact ha (.inr (by simpa using e))

/-- **C99**: `get_properties(string)` splits the string into the names in it, in order; commas and spaces may be
repeated and mixed, and may come first and last. -/
theorem split_names {s : Name} {ws : List Name} (h : Written s ws) : splitNames s = ws := by
  unfold splitNames
  induction h with
  | nil => rfl
  | @sep c s ws hc _ ih =>
    have := splitOn_word (w := []) (by simp) c hc s
    simp only [List.nil_append] at this
    rw [this, List.filter_cons_of_neg (by simp), ih]
  | @last w hw =>
    rw [splitOn_last hw.2, List.filter_cons_of_pos]
    · rfl
    · cases w with
      | nil => exact absurd rfl hw.1
      | cons a w => rfl
  | @word w c s ws hw hc _ ih =>
    rw [splitOn_word hw.2 c hc, List.filter_cons_of_pos, ih]
    cases w with
    | nil => exact absurd rfl hw.1
    | cons a w => rfl

/-- **C99**: every string lists some names. -/
theorem written_exists (s : Name) : Written s (splitNames s) := by
  suffices h : ∃ ws, Written s ws by
    obtain ⟨ws, h⟩ := h
    rw [split_names h]; exact h
  have key : ∀ (n : Nat) (s : Name), s.length ≤ n → ∃ ws, Written s ws := by
    intro n
    induction n with
    | zero =>
      intro s hs
      cases s with
      | nil => exact ⟨[], .nil⟩
      | cons a s => simp at hs
    | succ n ih =>
      intro s hs
      classical
      by_cases h0 : s = []
      · subst h0; exact ⟨[], .nil⟩
      by_cases h1 : ∃ c ∈ s, IsSep c
      · obtain ⟨c, w, s', e, hc, hw⟩ : ∃ c w s', s = w ++ c :: s' ∧ IsSep c ∧ ∀ c ∈ w, ¬ IsSep c := by
          clear ih hs h0
          induction s with
          | nil => obtain ⟨c, hc, _⟩ := h1; cases hc
          | cons a s ih =>
            by_cases ha : IsSep a
            · exact ⟨a, [], s, rfl, ha, by simp⟩
            · obtain ⟨c, hc, hs⟩ := h1
              rcases List.mem_cons.1 hc with rfl | hc
              · exact absurd hs ha
              obtain ⟨c, w, s', e, hc, hw⟩ := ih ⟨c, hc, hs⟩
              refine ⟨c, a :: w, s', by rw [e]; rfl, hc, ?_⟩
              intro d hd
              rcases List.mem_cons.1 hd with rfl | hd
              · exact ha
              · exact hw d hd
        subst e
        obtain ⟨ws, hws⟩ := ih s' (by simp at hs; omega)
        cases w with
        | nil => exact ⟨ws, .sep hc hws⟩
        | cons a w => exact ⟨_, .word ⟨by simp, hw⟩ hc hws⟩
      · exact ⟨_, .last ⟨h0, fun c hc hs => h1 ⟨c, hc, hs⟩⟩⟩
  exact key s.length s le_rfl

/-! ## the value of a named property -/

section
variable {α : Type} [DecidableEq ι] [LinearOrder α] [Zero α] {c : Ctx ι α}

/-- the value of a row reduction of a `Graph` is that of the column reduction -/
theorem value_row_of_col (hv : c.Valid) (hd : c.dir = false) (mask : Option (VMask c.n)) {a b : Key ι}
    (h : RowOfCol a b) : HEq (restrict mask a (value c a)) (restrict mask b (value c b)) := by
  obtain ⟨r, s, rfl, rfl⟩ := h
  apply heq_of_eq
  have : value c (.vec r s .row) = value c (.vec r s .col) := by
    show red c.f r .row (part s c.A) = red c.f r .col (part s c.A)
    exact Proofs.Cache.axis_red hv hd r .row .col s
  show restrict mask (.vec r s .row) (value c (.vec r s .row)) = restrict mask (.vec r s .col) (value c (.vec r s .col))
  rw [this]
  rfl

/-- **C99**: `G.get_property(name, mask=mask)` with the documented name of a property returns the defined value
of that property (restricted to the mask), whatever properties of `G` were looked up before and whatever names
were looked up on any object of the class.  (The exceptions of C01 and C02 apply here as well: `has_self_edges`,
`has_negative_diagonal` and, on a `DiGraph` with self-edges, lookups after an unmasked one of `total_degrees+`.) -/
theorem get_property_by_name_partial (hv : c.Valid) (hn : OpNames ops nm) (hneg : ops "has_negative".toList = none)
    (names : List Name) (h : List (Req ι c.n)) (hs : ∀ r ∈ h, Safe c r) (al : Bool) (mask : Option (VMask c.n))
    (k : Key ι) (hk : OfClass c.dir k) (h1 : k ≠ .hasSelf) (h2 : k ≠ .negDiag)
    {k' : Key ι} {v : Val c.n α k'}
    (hl : ((getByName c ops (tableAfter c.dir ops names) al mask (print nm k)).run (after c h)).1 = .ok ⟨k', v⟩) :
    HEq v (restrict mask k (value c k)) := by
  obtain ⟨k2, e, hk2⟩ := property_names_resolve (dir := c.dir) hn hneg names k hk
  unfold getByName at hl
  rw [e] at hl
  dsimp only at hl
  rw [Proofs.Cache.run_bind] at hl
  have hk2' : k2 ≠ .hasSelf ∧ k2 ≠ .negDiag := by
    rcases hk2 with rfl | ⟨_, r, s, rfl, _⟩
    · exact ⟨h1, h2⟩
    · exact ⟨by simp, by simp⟩
  have hval : ∀ {w}, lookup c h { key := k2, mask := mask, al := al } = .ok w → w = restrict mask k2 (value c k2) :=
    fun hw => digraph_lookup_history_independent_partial hv h hs _ hk2'.1 hk2'.2 hw
  unfold lookup at hval
  dsimp only at hval
  cases hm : (getProp c al mask k2).run (after c h) with
  | mk res s' =>
    rw [hm] at hl hval
    cases res with
    | error e => cases hl
    | ok w =>
      have hw := hval rfl
      cases hl
      rw [hw]
      rcases hk2 with rfl | ⟨hd, hrc⟩
      · exact HEq.rfl
      · exact value_row_of_col hv hd mask hrc

/-- **C99**: and it raises only what C01 and C02 list for that property. -/
theorem get_property_by_name_errors (hv : c.Valid) (hn : OpNames ops nm) (hneg : ops "has_negative".toList = none)
    (names : List Name) (h : List (Req ι c.n)) (hs : ∀ r ∈ h, Safe c r) (al : Bool) (mask : Option (VMask c.n))
    (k : Key ι) (hk : OfClass c.dir k) {e : Err}
    (hl : ((getByName c ops (tableAfter c.dir ops names) al mask (print nm k)).run (after c h)).1 = .error e) :
    MayRaise c k e := by
  obtain ⟨k2, e2, hk2⟩ := property_names_resolve (dir := c.dir) hn hneg names k hk
  unfold getByName at hl
  rw [e2] at hl
  dsimp only at hl
  rw [Proofs.Cache.run_bind] at hl
  have herr : ∀ {e}, lookup c h { key := k2, mask := mask, al := al } = .error e → MayRaise c k2 e :=
    fun he => digraph_lookup_errors hv h hs _ he
  unfold lookup at herr
  dsimp only at herr
  cases hm : (getProp c al mask k2).run (after c h) with
  | mk res s' =>
    rw [hm] at hl herr
    cases res with
    | ok w => cases hl
    | error e' =>
      have := herr rfl
      cases hl
      rcases hk2 with rfl | ⟨hd, r, s, rfl, rfl⟩
      · exact this
      · simp [MayRaise] at this

end

end Props

namespace Ex

/-- operator names; `+` is a second name of `plus` -/
def opNm : Op → Name
  | .plus => "plus".toList
  | .min => "min".toList
  | .max => "max".toList

/-- `op.from_string` for these operators -/
def opsOf : Ops Op := fun s =>
  if s = "plus".toList ∨ s = "+".toList then some (.mon .plus) else if s = "min".toList then some (.mon .min)
  else if s = "max".toList then some (.mon .max) else if s = "count".toList then some .count else none

theorem opNames_opsOf : Props.OpNames opsOf opNm := by
  intro r
  cases r with
  | mon o => cases o <;> decide
  | count => decide

theorem opsOf_count (s : Name) (h : opsOf s = some .count) : s = "count".toList := by
  unfold opsOf at h
  split_ifs at h with h1 h2 h3 h4
  · cases h
  · cases h
  · cases h
  · exact h4

end Ex

namespace Props
open _root_.Ex

-- the hypotheses are met; names can be found through an earlier name, and the class remembers
example : (resolve false opsOf (tableAfter false opsOf ["plus_rowwise+".toList]) "plus_columnwise+".toList).1 =
    .ok (.key (.vec (.mon .plus) .p .row)) := by decide +kernel
example : (resolve false opsOf (tableAfter false opsOf []) "plus_columnwise+".toList).1 =
    .ok (.key (.vec (.mon .plus) .p .col)) := by decide +kernel
example : (resolve true opsOf (tableAfter true opsOf ["plus_rowwise+".toList]) "plus_columnwise+".toList).1 =
    .ok (.key (.vec (.mon .plus) .p .col)) := by decide +kernel
example : (resolve true opsOf (tableAfter true opsOf []) "+_diagonal".toList).1 =
    .ok (.key (.diagRed .plus)) := by decide +kernel
example : (resolve true opsOf (tableAfter true opsOf []) "median_rowwise-".toList).1 = .error .valueError := by
  decide +kernel
example : (resolve true opsOf (tableAfter true opsOf []) "degree".toList).1 = .error .keyError := by decide +kernel
example : (resolve true opsOf (tableAfter true opsOf []) []).1 = .error .indexError := by decide +kernel
example : (resolve false opsOf (tableAfter false opsOf []) "total_degrees+".toList).1 = .error .keyError := by
  decide +kernel
example : splitNames " L-, U-,degrees+ ,,".toList = ["L-".toList, "U-".toList, "degrees+".toList] := by decide +kernel
example : (((getByName cu opsOf (tableAfter false opsOf ["max_columnwise-".toList, "max_rowwise-".toList]) false
    (some fun i => i.val == 1) "max_columnwise-".toList).run (after cu [{ key := .U .m }])).1.map Sigma.fst) =
    .ok (.vec (.mon .max) .m .row) := by decide +kernel

end Props
