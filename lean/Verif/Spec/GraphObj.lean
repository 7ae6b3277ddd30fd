import Verif.Model.Construct
import Mathlib.Logic.Function.Basic

/-!
# What a graph object answers

`nodes` are the nodes in order, `num k i` says that node `k` has number `i`; the state is the attribute dictionary.
-/

open Model

namespace Spec

variable {K V : Type} [DecidableEq K]

/-- the fixed part of a graph object as its user sees it -/
structure GraphInfo (K : Type) where
  nodes : List K
  num : K → Nat → Prop
  directed : Bool
  multi : Bool

/-- one call: result and attributes afterwards -/
inductive GraphStep (empty : V) (I : GraphInfo K) (M : String → Option V) : GOp K V → GOut K V → (String → Option V) → Prop
  | iter : GraphStep empty I M .iter (.keys I.nodes) M
  | len : GraphStep empty I M .len (.nat I.nodes.length) M
  | numberOfNodes : GraphStep empty I M .numberOfNodes (.nat I.nodes.length) M
  | order : GraphStep empty I M .order (.nat I.nodes.length) M
  | isDirected : GraphStep empty I M .isDirected (.bool I.directed) M
  | isMultigraph : GraphStep empty I M .isMultigraph (.bool I.multi) M
  | contains {k} : GraphStep empty I M (.contains (some k)) (.bool (decide (k ∈ I.nodes))) M
  | contains_unhashable : GraphStep empty I M (.contains none) (.bool false) M
  | name_set {v} : M "name" = some v → GraphStep empty I M .name (.val (some v)) M
  | name_unset : M "name" = none → GraphStep empty I M .name (.val (some empty)) M
  | setName {s} : GraphStep empty I M (.setName s) .unit (Function.update M "name" (some s))
  | setAttr {a x} : GraphStep empty I M (.setAttr a x) .unit (Function.update M a (some x))
  | getAttr {a} : GraphStep empty I M (.getAttr a) (.val (M a)) M
  | idToKey {d} : (∀ i k, d.lookup i = some k ↔ I.num k i) → GraphStep empty I M .idToKey (.dict d) M

/-- a sequence of calls -/
inductive GraphRun (empty : V) (I : GraphInfo K) :
    (String → Option V) → List (GOp K V) → List (GOut K V) → (String → Option V) → Prop
  | nil {M} : GraphRun empty I M [] [] M
  | cons {M op out M' ops outs M''} : GraphStep empty I M op out M' → GraphRun empty I M' ops outs M'' →
      GraphRun empty I M (op :: ops) (out :: outs) M''

end Spec
