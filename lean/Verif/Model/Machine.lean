import Verif.Model.FloydWarshall
import Verif.Model.Cuts
import Verif.Model.Small
import Verif.Model.Linalg
import Verif.Model.Truss
import Mathlib.Data.BitVec
import Mathlib.Order.Lattice
import Mathlib.Algebra.Ring.InjSurj

/-!
# Machine integers

weighted.py:55-61 and dense.py:34-37 compute in the dtype of the matrix ("Should we upcast e.g.
INT8 to INT64 as well?"), so on an integer graph `min_plus` and `any_plus` add modulo `2^b`.
The definitions of `Model/BellmanFord.lean` and `Model/FloydWarshall.lean` ask only for an additive
group and a linear order, not for the two to be compatible; here they are instantiated with the
signed and unsigned `b`-bit integers of GraphBLAS (INT8 … INT64, UINT8 … UINT64).
-/

open GB

namespace Model

/-- a value of a GraphBLAS type `INT<b>`: `b` bits, two's complement -- trusted reading of
GrB_INT8 … GrB_INT64 (the dtype `A.dtype` of weighted.py:59) -/
structure SInt (b : Nat) where
  bits : BitVec b
deriving DecidableEq

/-- a value of a GraphBLAS type `UINT<b>` -- trusted reading of GrB_UINT8 … GrB_UINT64 -/
structure UInt_ (b : Nat) where
  bits : BitVec b
deriving DecidableEq

namespace SInt
variable {b : Nat}
/-- the integer a machine value stands for -/
def toInt (x : SInt b) : Int := x.bits.toInt
/-- the machine value of an integer (reduced modulo `2^b`) -/
def ofInt (b : Nat) (x : Int) : SInt b := ⟨BitVec.ofInt b x⟩

theorem bits_injective : Function.Injective (SInt.bits (b := b)) := by
  rintro ⟨x⟩ ⟨y⟩ h; simpa using h
theorem toInt_injective : Function.Injective (toInt (b := b)) := by
  rintro ⟨x⟩ ⟨y⟩ h
  have : x = y := BitVec.toInt_inj.1 h
  rw [this]

instance : Zero (SInt b) := ⟨⟨0⟩⟩
instance : Add (SInt b) := ⟨fun x y => ⟨x.bits + y.bits⟩⟩
instance : Neg (SInt b) := ⟨fun x => ⟨-x.bits⟩⟩
instance : Sub (SInt b) := ⟨fun x y => ⟨x.bits - y.bits⟩⟩
instance : SMul Nat (SInt b) := ⟨fun k x => ⟨k • x.bits⟩⟩
instance : SMul Int (SInt b) := ⟨fun k x => ⟨k • x.bits⟩⟩
instance : One (SInt b) := ⟨⟨1⟩⟩
instance : Mul (SInt b) := ⟨fun x y => ⟨x.bits * y.bits⟩⟩
instance : Pow (SInt b) Nat := ⟨fun x k => ⟨x.bits ^ k⟩⟩
instance : NatCast (SInt b) := ⟨fun k => ⟨(k : BitVec b)⟩⟩
instance : IntCast (SInt b) := ⟨fun k => ⟨(k : BitVec b)⟩⟩
/-- arithmetic modulo `2^b` -/
instance : CommRing (SInt b) :=
  Function.Injective.commRing SInt.bits bits_injective rfl rfl (fun _ _ => rfl) (fun _ _ => rfl)
    (fun _ => rfl) (fun _ _ => rfl) (fun _ _ => rfl) (fun _ _ => rfl) (fun _ _ => rfl) (fun _ => rfl)
    (fun _ => rfl)

/-- the signed order -/
instance : LinearOrder (SInt b) := LinearOrder.lift' toInt toInt_injective
end SInt

namespace UInt_
variable {b : Nat}
/-- the integer a machine value stands for -/
def toInt (x : UInt_ b) : Int := (x.bits.toNat : Int)
/-- the machine value of an integer (reduced modulo `2^b`) -/
def ofInt (b : Nat) (x : Int) : UInt_ b := ⟨BitVec.ofInt b x⟩

theorem bits_injective : Function.Injective (UInt_.bits (b := b)) := by
  rintro ⟨x⟩ ⟨y⟩ h; simpa using h
theorem toInt_injective : Function.Injective (toInt (b := b)) := by
  rintro ⟨x⟩ ⟨y⟩ h
  have : x = y := BitVec.eq_of_toNat_eq (by simpa [toInt] using h)
  rw [this]

instance : Zero (UInt_ b) := ⟨⟨0⟩⟩
instance : Add (UInt_ b) := ⟨fun x y => ⟨x.bits + y.bits⟩⟩
instance : Neg (UInt_ b) := ⟨fun x => ⟨-x.bits⟩⟩
instance : Sub (UInt_ b) := ⟨fun x y => ⟨x.bits - y.bits⟩⟩
instance : SMul Nat (UInt_ b) := ⟨fun k x => ⟨k • x.bits⟩⟩
instance : SMul Int (UInt_ b) := ⟨fun k x => ⟨k • x.bits⟩⟩
instance : One (UInt_ b) := ⟨⟨1⟩⟩
instance : Mul (UInt_ b) := ⟨fun x y => ⟨x.bits * y.bits⟩⟩
instance : Pow (UInt_ b) Nat := ⟨fun x k => ⟨x.bits ^ k⟩⟩
instance : NatCast (UInt_ b) := ⟨fun k => ⟨(k : BitVec b)⟩⟩
instance : IntCast (UInt_ b) := ⟨fun k => ⟨(k : BitVec b)⟩⟩
/-- arithmetic modulo `2^b` -/
instance : CommRing (UInt_ b) :=
  Function.Injective.commRing UInt_.bits bits_injective rfl rfl (fun _ _ => rfl) (fun _ _ => rfl)
    (fun _ => rfl) (fun _ _ => rfl) (fun _ _ => rfl) (fun _ _ => rfl) (fun _ _ => rfl) (fun _ => rfl)
    (fun _ => rfl)

/-- the unsigned order -/
instance : LinearOrder (UInt_ b) := LinearOrder.lift' toInt toInt_injective
end UInt_

/-- a machine integer type seen from outside: every value stands for an integer in `[lo, hi]`,
comparison compares these integers, and addition is the integer sum whenever that is in range.
(An interface for the proofs; `sint` and `uint` show the two families meet it.) -/
structure Machine (β : Type) [AddCommGroup β] [LinearOrder β] (val : β → Int) (lo hi : Int) : Prop where
  le_iff : ∀ x y : β, val x ≤ val y ↔ x ≤ y
  zero : val 0 = 0
  add : ∀ x y : β, lo ≤ val x + val y → val x + val y ≤ hi → val (x + y) = val x + val y

theorem SInt.machine {b : Nat} (hb : 0 < b) :
    Machine (SInt b) SInt.toInt (-2 ^ (b - 1)) (2 ^ (b - 1) - 1) where
  le_iff _ _ := Iff.rfl
  zero := by show (0 : BitVec b).toInt = 0; simp
  add x y h1 h2 := by
    show (x.bits + y.bits).toInt = _
    unfold SInt.toInt at *
    rw [BitVec.toInt_add]
    rw [Int.bmod_eq_of_le]
    · have : (2:Int)^b = 2 * 2^(b-1) := by
        obtain ⟨c, rfl⟩ : ∃ c, b = c + 1 := ⟨b - 1, by omega⟩
        simp [pow_succ, mul_comm]
      push_cast; rw [this]; omega
    · have : (2:Int)^b = 2 * 2^(b-1) := by
        obtain ⟨c, rfl⟩ : ∃ c, b = c + 1 := ⟨b - 1, by omega⟩
        simp [pow_succ, mul_comm]
      push_cast; rw [this]; omega

theorem UInt_.machine {b : Nat} :
    Machine (UInt_ b) UInt_.toInt 0 (2 ^ b - 1) where
  le_iff _ _ := Iff.rfl
  zero := by show (((0 : BitVec b).toNat : Nat) : Int) = 0; simp
  add x y h1 h2 := by
    show (((x.bits + y.bits).toNat : Nat) : Int) = _
    unfold UInt_.toInt at *
    rw [BitVec.toNat_add]
    have h2' : x.bits.toNat + y.bits.toNat < 2 ^ b := by
      have : ((x.bits.toNat + y.bits.toNat : Nat) : Int) < ((2 ^ b : Nat) : Int) := by
        push_cast; omega
      exact_mod_cast this
    rw [Nat.mod_eq_of_lt h2']; push_cast; rfl

/-- the graph with every weight replaced by the integer it stands for (not code: used to state
what the machine results mean) -/
def Graph.ints {K β : Type} (val : β → Int) (G : Graph K β) : Graph K Int :=
  { G with A := mapply val G.A }

/-! ### sums of weights

`Scalar.get(0)` and `Matrix.get(i, j, 0)` return Python integers: what happens before them is arithmetic of
the dtype, what happens after them is exact.  `val` is the conversion. -/

variable {K β : Type} {n : Nat} [CommRing β]

/-- `cut_size(G, S, T, is_weighted=True)` on an integer dtype -- cuts.py:18-30; each `reduce_scalar` is in
the dtype of the matrix, the `+=` of line 27 is on Python integers -/
def cutSizeI (val : β → Int) (directed : Bool) (A : Mat n n β) (S : Vec n Bool) (T : Option (Vec n Bool)) :
    Except Err Int :=
  let rv := ((reduceScalar (· + ·) (edgeBoundaryW A S T)).map val).getD 0
  if directed then
    match T with
    | none => .error .typeError
    | some t => .ok (rv + ((reduceScalar (· + ·) (edgeBoundaryW A t (some S))).map val).getD 0)
  else .ok rv

/-- `volume(G, S, weighted=True)` on an integer dtype -- cuts.py:33-38 -/
def volumeI (val : β → Int) (A : Mat n n β) (S : Vec n Bool) : Int :=
  ((reduce (· + ·) (mxv (· + ·) first A S)).map val).getD 0

/-! ### the counters of `k_truss`

`plus_pair["int32"]`, core.py:20-22: "TODO: choose dtype based on max number of triangles". -/

/-- `C(S.S, replace) << plus_pair["int32"](S @ S.T); C << select.value(k - 2 <= C)` with counters of the
dtype `β` -- core.py:24-25.  The comparison is between the integer `k - 2` and the integer the counter
stands for (`k - 2` itself is assumed to fit). -/
def trussStepI {α : Type} (val : β → Int) (k : Int) (S : Mat n n α) : Mat n n β :=
  mselect (fun c => decide (k - 2 ≤ val c)) (massignR (mS S) (mxm (· + ·) (fun _ _ => 1) S (transpose S)))

/-- the loop with counters of the dtype `β` -- core.py:23-29; `fuel` as in `trussLoop` -/
def trussLoopI (val : β → Int) (k : Int) : Nat → Mat n n β → Nat → Option (Mat n n β)
  | 0, _, _ => none
  | fuel+1, C, last =>
    if mnvals C = last then some C
    else trussLoopI val k fuel (trussStepI val k C) (mnvals C)

/-- `k_truss(G, k)` with counters of the dtype `β` -- core.py:8-37 -/
def kTrussI {α : Type} (val : β → Int) (G : Graph K α) (k : Int) : Except Err (Graph K (α ⊕ β)) := do
  let S := offdiag G.A
  let C ← if k < 3 then .ok (mapply Sum.inl S)
    else match trussLoopI val k (mnvals S + 1) (trussStepI val k S) (mnvals S) with
      | none => .error .diverges
      | some C => .ok (mapply Sum.inr C)
  subGraph { n := G.n, A := C, keyToId := G.keyToId, directed := false, multi := false }
    (indices (reduceRow any' C))

variable [DecidableEq K]

/-- `nx.cut_size(G, S, T, weight="weight")` -- nxapi/cuts.py:16-21 -/
def cutSizeInt (val : β → Int) (G : Graph K β) (S : List K) (T : Option (List K)) : Except Err Int := do
  let s ← setToVector G S true
  let t ← setToVector? G T
  cutSizeI val G.directed G.A s t

/-- `nx.volume(G, S, weight="weight")` -- nxapi/cuts.py:24-28 -/
def volumeInt (val : β → Int) (G : Graph K β) (S : List K) : Except Err Int := do
  let s ← listToVector G S
  return volumeI val G.A s

/-- `mutual_weight(G, u, v)` on an integer dtype -- algorithms/structuralholes.py:4-11 -/
def mutualWeightInt (val : β → Int) (G : Graph K β) (u v : K) : Except Err Int :=
  if G.contains u = false ∨ G.contains v = false then .ok 0
  else do
    let i ← G.getId u
    let j ← G.getId v
    return ((G.A i j).map val).getD 0 + ((G.A j i).map val).getD 0

end Model
