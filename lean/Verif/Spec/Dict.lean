import Verif.Model.NodeMap
import Mathlib.Logic.Function.Basic

/-!
# Python's `dict` and `set`, as transition relations

States are finite maps / sets of keys; an iteration may list the keys in any order, `popitem` and
`pop` may remove any element.
-/

open Model

namespace Spec

variable {K U R : Type} [DecidableEq K]

/-- `l` lists the keys satisfying `P`, each once -/
def IsEnum (l : List K) (P : K → Prop) : Prop := l.Nodup ∧ ∀ k, k ∈ l ↔ P k

/-- what a `dict` does; the state is the key-value association -/
inductive DictStep (M : K → Option U) : MOp K U → Except Err (MOut K U) → (K → Option U) → Prop
  | getitem_hit {k u} : M k = some u → DictStep M (.getitem k) (.ok (.val (some u))) M
  | getitem_miss {k} : M k = none → DictStep M (.getitem k) (.error .keyError) M
  | get_hit {k d u} : M k = some u → DictStep M (.get k d) (.ok (.val (some u))) M
  | get_miss {k d} : M k = none → DictStep M (.get k d) (.ok (.val d)) M
  | setitem {k v} : DictStep M (.setitem k v) (.ok .unit) (Function.update M k (some v))
  | del_hit {k u} : M k = some u → DictStep M (.delitem k) (.ok .unit) (Function.update M k none)
  | del_miss {k} : M k = none → DictStep M (.delitem k) (.error .keyError) M
  | contains {k} : DictStep M (.contains k) (.ok (.bool (M k).isSome)) M
  | len {l} : IsEnum l (fun k => (M k).isSome) → DictStep M .len (.ok (.nat l.length)) M
  | iter {l} : IsEnum l (fun k => (M k).isSome) → DictStep M .iter (.ok (.keys l)) M
  | clear : DictStep M .clear (.ok .unit) (fun _ => none)
  | setdefault_hit {k d u} : M k = some u → DictStep M (.setdefault k d) (.ok (.val (some u))) M
  | setdefault_miss {k u} : M k = none →
      DictStep M (.setdefault k (some u)) (.ok (.val (some u))) (Function.update M k (some u))
  | popitem {k u} : M k = some u → DictStep M .popitem (.ok (.item k u)) (Function.update M k none)
  | popitem_empty : (∀ k, M k = none) → DictStep M .popitem (.error .keyError) M
  | pop_hit {k u} : M k = some u → DictStep M (.pop k) (.ok (.val (some u))) (Function.update M k none)
  | pop_miss {k} : M k = none → DictStep M (.pop k) (.error .keyError) M
  | popD_hit {k d u} : M k = some u →
      DictStep M (.popD k d) (.ok (.val (some u))) (Function.update M k none)
  | popD_miss {k d} : M k = none → DictStep M (.popD k d) (.ok (.val d)) M

/-- a sequence of `dict` calls with their results -/
inductive DictRun : (K → Option U) → List (MOp K U) → List (Except Err (MOut K U)) → (K → Option U) → Prop
  | nil {M} : DictRun M [] [] M
  | cons {M op out M' ops outs M''} : DictStep M op out M' → DictRun M' ops outs M'' →
      DictRun M (op :: ops) (out :: outs) M''

/-- a total map on `nodes` with default value `c`: `M` holds the values set explicitly -/
inductive FillStep (nodes : List K) (c : U) (M : K → Option U) :
    MOp K U → Except Err (MOut K U) → (K → Option U) → Prop
  | getitem {k} : FillStep nodes c M (.getitem k) (.ok (.val (some ((M k).getD c)))) M
  | get {k d} : FillStep nodes c M (.get k d) (.ok (.val (some ((M k).getD c)))) M
  | setitem {k v} : FillStep nodes c M (.setitem k v) (.ok .unit) (Function.update M k (some v))
  | del {k} : FillStep nodes c M (.delitem k) (.ok .unit) (Function.update M k none)
  | contains {k} : FillStep nodes c M (.contains k) (.ok (.bool true)) M
  | len : FillStep nodes c M .len (.ok (.nat nodes.length)) M
  | iter : FillStep nodes c M .iter (.ok (.keys nodes)) M
  | setdefault {k d} : FillStep nodes c M (.setdefault k d) (.ok (.val (some ((M k).getD c)))) M
  | popitem {k u} : M k = some u →
      FillStep nodes c M .popitem (.ok (.item k u)) (Function.update M k none)
  | popitem_empty : (∀ k, M k = none) → FillStep nodes c M .popitem (.error .keyError) M
  | pop {k} : FillStep nodes c M (.pop k) (.ok (.val (some ((M k).getD c)))) (Function.update M k none)
  | popD {k d} :
      FillStep nodes c M (.popD k d) (.ok (.val (some ((M k).getD c)))) (Function.update M k none)

/-- a sequence of calls on a total map -/
inductive FillRun (nodes : List K) (c : U) :
    (K → Option U) → List (MOp K U) → List (Except Err (MOut K U)) → (K → Option U) → Prop
  | nil {M} : FillRun nodes c M [] [] M
  | cons {M op out M' ops outs M''} : FillStep nodes c M op out M' → FillRun nodes c M' ops outs M'' →
      FillRun nodes c M (op :: ops) (out :: outs) M''

/-- what a `set` does -/
inductive SetStep (M : Set K) : SOp K → Except Err (SOut K) → Set K → Prop
  | add {k} : SetStep M (.add k) (.ok .unit) (insert k M)
  | discard {k} : SetStep M (.discard k) (.ok .unit) (M \ {k})
  | remove_hit {k} : k ∈ M → SetStep M (.remove k) (.ok .unit) (M \ {k})
  | remove_miss {k} : k ∉ M → SetStep M (.remove k) (.error .keyError) M
  | pop {k} : k ∈ M → SetStep M .pop (.ok (.key k)) (M \ {k})
  | pop_empty : M = ∅ → SetStep M .pop (.error .keyError) M
  | clear : SetStep M .clear (.ok .unit) ∅
  | contains_hit {k} : k ∈ M → SetStep M (.contains k) (.ok (.bool true)) M
  | contains_miss {k} : k ∉ M → SetStep M (.contains k) (.ok (.bool false)) M
  | len {l} : IsEnum l (· ∈ M) → SetStep M .len (.ok (.nat l.length)) M
  | iter {l} : IsEnum l (· ∈ M) → SetStep M .iter (.ok (.keys l)) M

/-- a sequence of `set` calls -/
inductive SetRun : Set K → List (SOp K) → List (Except Err (SOut K)) → Set K → Prop
  | nil {M} : SetRun M [] [] M
  | cons {M op out M' ops outs M''} : SetStep M op out M' → SetRun M' ops outs M'' →
      SetRun M (op :: ops) (out :: outs) M''

/-- a dict of rows: a key is present exactly when its row is non-empty; storing an empty row
removes the key -/
inductive RowStep {m : Nat} (M : K → Option (GB.Vec m R)) :
    ROp K m R → Except Err (ROut K m R) → (K → Option (GB.Vec m R)) → Prop
  | getitem_hit {k v} : M k = some v → RowStep M (.getitem k) (.ok (.row v)) M
  | getitem_miss {k} : M k = none → RowStep M (.getitem k) (.error .keyError) M
  | get_hit {k v} : M k = some v → RowStep M (.get k) (.ok (.row v)) M
  | get_miss {k} : M k = none → RowStep M (.get k) (.ok .none) M
  | setitem {k v} : (∃ j, (v j).isSome) →
      RowStep M (.setitem k (some v)) (.ok .unit) (Function.update M k (some v))
  | setitem_empty {k v} : (∀ j, v j = none) →
      RowStep M (.setitem k (some v)) (.ok .unit) (Function.update M k none)
  | setitem_bad {k} : RowStep M (.setitem k none) (.error .typeError) M
  | del {k} : RowStep M (.delitem k) (.ok .unit) (Function.update M k none)
  | contains {k} : RowStep M (.contains k) (.ok (.bool (M k).isSome)) M
  | len {l} : IsEnum l (fun k => (M k).isSome) → RowStep M .len (.ok (.nat l.length)) M
  | iter {l} : IsEnum l (fun k => (M k).isSome) → RowStep M .iter (.ok (.keys l)) M
  | clear : RowStep M .clear (.ok .unit) (fun _ => none)
  | popitem {k v} : M k = some v → RowStep M .popitem (.ok (.item k v)) (Function.update M k none)
  | popitem_empty : (∀ k, M k = none) → RowStep M .popitem (.error .keyError) M

/-- a sequence of calls -/
inductive RowRun {m : Nat} : (K → Option (GB.Vec m R)) → List (ROp K m R) →
    List (Except Err (ROut K m R)) → (K → Option (GB.Vec m R)) → Prop
  | nil {M} : RowRun M [] [] M
  | cons {M op out M' ops outs M''} : RowStep M op out M' → RowRun M' ops outs M'' →
      RowRun M (op :: ops) (out :: outs) M''

end Spec
