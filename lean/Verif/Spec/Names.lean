import Verif.Spec.Cache

/-!
# How property names are written

`print nm k` is the name of property `k` as documented; `nm` gives the names of the operators.
-/

namespace Spec.Prop

variable {ι : Type}

/-- `+` or `-` -/
def Sign.char : Sign → Char
  | .p => '+'
  | .m => '-'

/-- the name of a reduction -/
def VOp.name (nm : ι → List Char) : VOp ι → List Char
  | .mon o => nm o
  | .count => "count".toList

/-- the documented name of a property -/
def print (nm : ι → List Char) : Key ι → List Char
  | .A => "A".toList
  | .AT => "AT".toList
  | .offdiag => "offdiag".toList
  | .U s => "U".toList ++ [s.char]
  | .L s => "L".toList ++ [s.char]
  | .diag => "diag".toList
  | .vec r s .row => r.name nm ++ "_rowwise".toList ++ [s.char]
  | .vec r s .col => r.name nm ++ "_columnwise".toList ++ [s.char]
  | .elem o s => nm o ++ "_element".toList ++ [s.char]
  | .diagRed o => nm o ++ "_diagonal".toList
  | .recip s => "recip_degrees".toList ++ [s.char]
  | .totdeg s => "total_degrees".toList ++ [s.char]
  | .totrecip s => "total_recip".toList ++ [s.char]
  | .hasSelf => "has_self_edges".toList
  | .negDiag => "has_negative_diagonal".toList
  | .neg s => "has_negative_edges".toList ++ [s.char]
  | .isIso => "is_iso".toList
  | .isoVal => "iso_value".toList

/-- the properties of a `DiGraph` (`dir`) or `Graph` -/
def OfClass (dir : Bool) : Key ι → Prop
  | .recip _ | .totdeg _ | .totrecip _ => dir = true
  | _ => True

/-- `a` and `b` are the row and the column version of the same reduction -/
def RowOfCol (a b : Key ι) : Prop := ∃ r s, a = .vec r s .row ∧ b = .vec r s .col

/-- the operator a property's name starts with -/
def Key.op? : Key ι → Option (VOp ι)
  | .vec r _ _ => some r
  | .elem o _ => some (.mon o)
  | .diagRed o => some (.mon o)
  | _ => none

/-- `Form op name`: `name` is the name of a reduction by the operator called `op` -/
inductive Form : List Char → List Char → Prop
  | row (op : List Char) (s : Sign) : Form op (op ++ "_rowwise".toList ++ [s.char])
  | col (op : List Char) (s : Sign) : Form op (op ++ "_columnwise".toList ++ [s.char])
  | elem (op : List Char) (s : Sign) : Form op (op ++ "_element".toList ++ [s.char])
  | diag (op : List Char) : Form op (op ++ "_diagonal".toList)

/-- a character that separates names -/
def IsSep (c : Char) : Prop := c = ' ' ∨ c = ','

/-- a name: some characters, none of which separates names -/
def IsWord (w : List Char) : Prop := w ≠ [] ∧ ∀ c ∈ w, ¬ IsSep c

/-- `Written s ws`: the string `s` lists the names `ws`, separated by commas and/or spaces -/
inductive Written : List Char → List (List Char) → Prop
  | nil : Written [] []
  | sep {c s ws} : IsSep c → Written s ws → Written (c :: s) ws
  | last {w} : IsWord w → Written w [w]
  | word {w c s ws} : IsWord w → IsSep c → Written s ws → Written (w ++ c :: s) (w :: ws)

end Spec.Prop
