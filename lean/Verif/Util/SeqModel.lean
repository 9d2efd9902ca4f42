import Verif.Base

/-!
# Model of `icl_core/SequenceNumber.h`

`TBase` is an integer type; all values handled are non-negative, so it is modelled by `Nat`
(`mx` = `max_value`, `mn` = `min_value`).  Subtractions in the code are always larger minus
smaller (h:88-95), and `++m_value` stays representable because `m_value < max_value`.
-/
namespace Verif.SequenceNumber

/-- SequenceNumber.h:86-96 `operator <`. -/
def lt (mx : Nat) (a b : Nat) : Bool :=
  if a < b then decide (b - a < mx / 2) else decide (a - b > mx / 2)

/-- SequenceNumber.h:125-128 `operator ==`. -/
def eq (a b : Nat) : Bool := a == b

/-- SequenceNumber.h:101-104 `operator <=`. -/
def le (mx : Nat) (a b : Nat) : Bool := lt mx a b || eq a b

/-- SequenceNumber.h:109-112 `operator >`. -/
def gt (mx : Nat) (a b : Nat) : Bool := !(eq a b) && !(lt mx a b)

/-- SequenceNumber.h:117-120 `operator >=`. -/
def ge (mx : Nat) (a b : Nat) : Bool := !(lt mx a b)

/-- SequenceNumber.h:141-149 prefix `operator ++`. -/
def inc (mx mn : Nat) (v : Nat) : Nat := if v + 1 ≥ mx then mn else v + 1

/-- `k` increments. -/
def incN (mx mn : Nat) : Nat → Nat → Nat
  | 0, v => v
  | k + 1, v => inc mx mn (incN mx mn k v)

end Verif.SequenceNumber
