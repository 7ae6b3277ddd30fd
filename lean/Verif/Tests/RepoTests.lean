import Verif.Props.Cluster
import Verif.Model.Utils

/-!
# The project's own unit tests, run on the model

These are tests of the model, not proofs about it: `algorithms/tests/test_cluster.py`,
`nxapi/tests/test_utils.py` and `nxapi/tests/test_cluster.py` translated literally.
-/

open GB Model

namespace Tests

/-! ## algorithms/tests/test_cluster.py:7-53 -/

deriving instance DecidableEq for Except

/-- the full 5 x 5 matrix, self-edges included -/
def A5 : Mat 5 5 Bool := fun _ _ => some true

/-- without the diagonal -/
def B5 : Mat 5 5 Bool := fun i j => if i = j then none else some true

def G : Graph Nat Bool where
  n := 5
  A := A5
  keyToId := (List.range 5).map fun i => (i, i)

def G2 : Graph Nat Bool := { G with A := B5 }

/-- the mask: nodes 0 and 3 -/
def mask : NodeMask 5 := some fun i => if i.val = 0 ∨ i.val = 3 then some true else none

example : (∀ i, trianglesVec A5 none i = some 6) ∧ ∀ i, trianglesVec B5 none i = some 6 := by
  decide +kernel
example : (∀ i, trianglesVec A5 mask i = if i.val = 0 ∨ i.val = 3 then some 6 else none) ∧
    ∀ i, trianglesVec B5 mask i = if i.val = 0 ∨ i.val = 3 then some 6 else none := by
  decide +kernel
example : singleTriangle G 1 = .ok 6 ∧ singleTriangle G 0 = .ok 6 ∧ singleTriangle G2 0 = .ok 6 := by
  decide +kernel
example : totalTriangles B5 = 10 ∧ totalTriangles A5 = 10 := by decide +kernel
example : transitivity G = 1 ∧ transitivity G2 = 1 := by decide +kernel
example : (∀ i, clusteringVec A5 none i = some 1) ∧ ∀ i, clusteringVec B5 none i = some 1 := by
  decide +kernel
example : singleClustering G 0 = .ok 1 ∧ singleClustering G2 0 = .ok 1 := by decide +kernel
example : (∀ i, clusteringVec A5 mask i = if i.val = 0 ∨ i.val = 3 then some 1 else none) ∧
    ∀ i, clusteringVec B5 mask i = if i.val = 0 ∨ i.val = 3 then some 1 else none := by
  decide +kernel
example : averageClustering G none true = .ok 1 ∧ averageClustering G2 none true = .ok 1 ∧
    averageClustering G (some [0, 3]) true = .ok 1 ∧ averageClustering G2 (some [0, 3]) true = .ok 1 := by
  decide +kernel

/-! ## nxapi/tests/test_cluster.py:6-34

That test compares with NetworkX; the numbers below are NetworkX's definition of directed clustering worked
out by hand for this graph. -/

/-- the complete digraph on 0..4 without 1 → 2 and 2 → 3, and an isolated node 5 -/
def D6 : Mat 6 6 Bool := fun i j =>
  if i = j ∨ 5 ≤ i.val ∨ 5 ≤ j.val ∨ (i.val = 1 ∧ j.val = 2) ∨ (i.val = 2 ∧ j.val = 3) then none else some true

def D : Graph Nat Bool where
  n := 6
  A := D6
  keyToId := (List.range 6).map fun i => (i, i)
  directed := true

example : (nodemapFill none (clusteringDirVec D6 none) 0 : Vec 6 ℚ) =
    fun i => some ([5/6, 17/18, 1, 17/18, 5/6, 0].getD i.val 0) := by
  funext i; revert i; decide +kernel
example : singleClusteringDirected D 0 = .ok (5/6) ∧ singleClusteringDirected D 1 = .ok (17/18) ∧
    singleClusteringDirected D 2 = .ok 1 ∧ singleClusteringDirected D 5 = .ok 0 := by decide +kernel
example : averageClustering D none true = .ok (41/54) ∧ averageClustering D (some [0, 1, 2]) true = .ok (25/27) ∧
    averageClustering D none false = .ok (41/45) := by decide +kernel
example : transitivityDirected D = 43/48 := by decide +kernel

/-! ## nxapi/tests/test_utils.py:6-33 -/

/-- Python's `float` on the strings of this test -/
def pf (s : List Char) : Option ℚ :=
  match String.ofList s with
  | "-1" => some (-1)
  | "1" => some 1
  | "2" => some 2
  | "10" => some 10
  | "10.0" => some 10
  | "1e1" => some 10
  | "1e-2" => some (1/100)
  | _ => none

def nc (arg : ChunkArg) (N : Option Nat := none) : Except Err (Option Int) := normalizeChunksize pf arg 1 N

example : nc .none = .ok none := by decide +kernel
example : nc (.str "all".toList) = .ok none := by decide +kernel
example : nc (.str "".toList) = .ok none := by decide +kernel
example : nc (.num (-1)) = .ok none := by decide +kernel
example : nc (.str "-1".toList) = .ok none := by decide +kernel
example : nc (.num 10) (some 10) = .ok none := by decide +kernel
example : nc (.str "1 MB".toList) (some 100) = .ok none := by decide +kernel
example : nc (.str "1 chunk".toList) = .ok none := by decide +kernel
example : nc (.str "2 chunks".toList) (some 20) = .ok (some 10) := by decide +kernel
example : nc (.num 10) = .ok (some 10) := by decide +kernel
example : nc (.str "10".toList) = .ok (some 10) := by decide +kernel
example : nc (.str "10.0".toList) = .ok (some 10) := by decide +kernel
example : nc (.str "1_0 B".toList) = .ok (some 10) := by decide +kernel
example : nc (.str "1e1".toList) = .ok (some 10) := by decide +kernel
example : nc (.str "1e-2 kb".toList) = .ok (some 10) := by decide +kernel
example : nc (.str "Mb".toList) = .ok (some (1000 ^ 2)) := by decide +kernel
example : nc (.str " mb".toList) = .ok (some (1000 ^ 2)) := by decide +kernel
example : nc (.str "gib".toList) = .ok (some (1024 ^ 3)) := by decide +kernel
example : nc .other = .error .typeError := by decide +kernel
example : nc (.str "10 badbytes".toList) = .error .valueError := by decide +kernel
example : nc (.str "1bad0 TB".toList) = .error .valueError := by decide +kernel
example : nc (.str "10 chunks".toList) = .error .typeError := by decide +kernel

end Tests
