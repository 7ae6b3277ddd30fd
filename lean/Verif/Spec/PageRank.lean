import Verif.Spec.Count
import Mathlib.Algebra.Field.Defs
import Mathlib.Logic.Function.Iterate
import Mathlib.Algebra.Order.Group.Unbundled.Abs

/-! Specification of PageRank, over an arbitrary field: the map whose iterates are taken, on functions
from nodes to numbers.  `w u v` is the weight of the edge `u → v`, if there is one. -/

namespace Spec

variable {V F : Type}

/-- total weight of the edges out of `u` -/
def outWeight [CommRing F] (N : List V) (w : V → V → Option F) (u : V) : F := sumOver N fun v => (w u v).getD 0

/-- `u` has no out-edge -/
def Dangling (N : List V) (w : V → V → Option F) (u : V) : Prop := ∀ v ∈ N, w u v = none

instance (N : List V) (w : V → V → Option F) (u : V) : Decidable (Dangling N w u) :=
  decidable_of_iff (∀ v ∈ N, (w u v).isNone) (by simp [Dangling])

variable [Field F]

/-- the value a dict gives a node, 0 when it is not a key -/
def valueIn [DecidableEq V] (d : List (V × F)) (v : V) : F := (d.lookup v).getD 0

/-- the distribution described by an optional dict: the values of the dict divided by their sum, or the
given distribution when there is no dict -/
def distOf [DecidableEq V] (N : List V) (d : Option (List (V × F))) (dflt : V → F) : V → F :=
  match d with
  | none => dflt
  | some d => fun v => valueIn d v / sumOver N (valueIn d)

/-- the uniform distribution -/
def uniform (N : List V) : V → F := fun _ => 1 / N.length

/-- one PageRank step: with probability `alpha` follow an out-edge, chosen by weight (from a dangling
node, jump according to `d`); otherwise jump according to `p` -/
def prMap (N : List V) (w : V → V → Option F) (alpha : F) (p d : V → F) (x : V → F) (v : V) : F :=
  alpha * sumOver N (fun u =>
    if Dangling N w u then x u * d v else x u * ((w u v).getD 0 / outWeight N w u)) + (1 - alpha) * p v

/-- L1 distance -/
def l1 [LinearOrder F] (N : List V) (x y : V → F) : F := sumOver N fun v => |x v - y v|

end Spec

namespace Spec
variable {V F : Type} [Field F]

/-- an entry of the Google matrix over the nodes `N`: the probability to go from `u` to `v` -/
def googleEntry (N : List V) (w : V → V → Option F) (alpha : F) (p d : V → F) (u v : V) : F :=
  alpha * (if Dangling N w u then d v else (w u v).getD 0 / outWeight N w u) + (1 - alpha) * p v

end Spec
