import Verif.Base

/-!
# Model of `toLower` and `toUpper` (`icl_core/StringHelper.h:86-96`) on bytes

`::tolower` and `::toupper` are the functions of C in the locale "C". They take an `int`; the byte is converted to it as a `char`, which
is signed on some platforms (`sgn`). What they do with an argument that is neither `EOF` (-1) nor the value of an `unsigned char` is
undefined (C99 7.4).
-/
namespace Verif.Case

/-- A `char`. -/
abbrev Byte := BitVec 8

/-- The conversion of a `char` to `int`. -/
def arg (sgn : Bool) (c : Byte) : Int := if sgn then c.toInt else c.toNat

/-- `::tolower` (C99 7.4.2.1). -/
def tolower (x : Int) : Outcome Int :=
  if x = -1 ∨ (0 ≤ x ∧ x ≤ 255) then .ok (if 65 ≤ x ∧ x ≤ 90 then x + 32 else x) else .ub

/-- `::toupper` (C99 7.4.2.2). -/
def toupper (x : Int) : Outcome Int :=
  if x = -1 ∨ (0 ≤ x ∧ x ≤ 255) then .ok (if 97 ≤ x ∧ x ≤ 122 then x - 32 else x) else .ub

/-- `std::transform(str.begin(), str.end(), str.begin(), f)`; the result of `f` is converted back to `char`. -/
def transform (f : Int → Outcome Int) (sgn : Bool) : List Byte → Outcome (List Byte)
  | [] => .ok []
  | c :: s => (f (arg sgn c)).bind fun x => (transform f sgn s).map (BitVec.ofInt 8 x :: ·)

/-- StringHelper.h:86-90. -/
def toLower (sgn : Bool) (s : List Byte) : Outcome (List Byte) := transform tolower sgn s

/-- StringHelper.h:92-96. -/
def toUpper (sgn : Bool) (s : List Byte) : Outcome (List Byte) := transform toupper sgn s

/-- The bytes of a string literal of ASCII characters. -/
def ascii (t : String) : List Byte := t.toList.map fun c => BitVec.ofNat 8 c.toNat

/-- icl_core_config/Config.h:119-146, `get<bool>` with the text of the value that was found: what it answers, if anything. -/
def getBool (sgn : Bool) (value : List Byte) : Outcome (Option Bool) :=
  (toLower sgn value).map fun t =>
    if t = ascii "0" ∨ t = ascii "no" ∨ t = ascii "false" then some false
    else if t = ascii "1" ∨ t = ascii "yes" ∨ t = ascii "true" then some true
    else none

end Verif.Case
