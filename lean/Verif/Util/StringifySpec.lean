import Mathlib.Algebra.Order.Ring.Rat
import Mathlib.Algebra.Order.Field.Rat

/-!
# Specification for C99: what a decimal text means, and floating point formats

Independent of the model.
-/
namespace Verif.Stringify

/-- Value of a digit. -/
def digitVal? (c : Char) : Option ℕ := if '0' ≤ c ∧ c ≤ '9' then some (c.toNat - 48) else none

/-- The leading digits of a text with their number, and the rest; `a` is the value so far. -/
def readDigits (a n : ℕ) : List Char → ℕ × ℕ × List Char
  | [] => (a, n, [])
  | c :: cs =>
    match digitVal? c with
    | some d => readDigits (10 * a + d) (n + 1) cs
    | none => (a, n, c :: cs)

/-- The value of an exponent part (nothing, or `e`, a sign and digits). -/
def readExp : List Char → Option ℤ
  | [] => some 0
  | 'e' :: s :: cs =>
    match readDigits 0 0 cs with
    | (v, n + 1, []) => if s = '-' then some (-(v : ℤ)) else if s = '+' then some v else none
    | _ => none
  | _ => none

/-- The number denoted by digits, optionally a point and digits, optionally an exponent. -/
def readAbs (s : List Char) : Option ℚ :=
  match readDigits 0 0 s with
  | (_, 0, _) => none
  | (v, _ + 1, '.' :: r) =>
    match readDigits v 0 r with
    | (w, n + 1, r') => (readExp r').map fun e : ℤ => (w : ℚ) * (10 : ℚ) ^ (e - (n + 1))
    | _ => none
  | (v, _ + 1, r) => (readExp r).map fun e : ℤ => (v : ℚ) * (10 : ℚ) ^ e

/-- The number denoted by a text. -/
def read : List Char → Option ℚ
  | '-' :: s => (readAbs s).map fun x => -x
  | s => readAbs s

/-- `x` is a positive normal number of a binary format with `p` digits: `m * 2 ^ e`. -/
def IsFloat (p : ℕ) (m : ℕ) (e : ℤ) (x : ℚ) : Prop := 2 ^ (p - 1) ≤ m ∧ m < 2 ^ p ∧ x = (m : ℚ) * (2 : ℚ) ^ e

/-- The positive numbers of the format next to `d`: at most half a unit in the last place away. -/
def Nearest (p : ℕ) (x d : ℚ) : Prop := ∃ m e, IsFloat p m e x ∧ |x - d| ≤ (2 : ℚ) ^ e / 2

end Verif.Stringify
