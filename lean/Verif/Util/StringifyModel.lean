import Verif.Base
import Mathlib.Data.Int.Log
import Mathlib.Data.Rat.Floor
import Mathlib.Algebra.Order.Ring.Rat

/-!
# Model of `stringify` for floating point numbers (C99)

A finite floating point number is its exact rational value.  `out << std::setprecision(P) << x` is
`printf("%.*g", P, x)` in the default locale, with exact rounding to nearest, ties to even (as glibc does);
infinities, NaNs and the sign of zero follow in `StringifySpecial.lean`.
-/
namespace Verif.Stringify

/-- Round to the nearest integer, ties to even. -/
def roundEven (x : ℚ) : ℤ :=
  let f := ⌊x⌋
  if x - f < 1 / 2 then f
  else if x - f > 1 / 2 then f + 1
  else if f % 2 = 0 then f else f + 1

/-- `%.*e`: the `P` significant digits of `x > 0` as a number, and the decimal exponent of the first. -/
def significant (P : ℕ) (x : ℚ) : ℤ × ℤ :=
  let k := Int.log 10 x
  let d := roundEven (x / (10 : ℚ) ^ (k - P + 1))
  if d = 10 ^ P then (10 ^ (P - 1), k + 1) else (d, k)

/-- The last `n` decimal digits of `d`, most significant first. -/
def digits : ℕ → ℕ → List ℕ
  | 0, _ => []
  | n + 1, d => digits n (d / 10) ++ [d % 10]

/-- Remove trailing zeros. -/
def strip (l : List ℕ) : List ℕ := (l.reverse.dropWhile (· == 0)).reverse

/-- The parts of a printed number. -/
structure Num where
  /-- `-` in front -/
  neg : Bool
  /-- digits before the point -/
  int : List ℕ
  /-- digits after the point -/
  frac : List ℕ
  /-- exponent -/
  exp : Option ℤ

/-- The choice of `%g` between fixed and exponential notation; trailing zeros are removed. -/
def gNum (P : ℕ) (neg : Bool) (d : ℕ) (k : ℤ) : Num :=
  if -4 ≤ k ∧ k < P then
    if 0 ≤ k then ⟨neg, (digits P d).take (k.toNat + 1), strip ((digits P d).drop (k.toNat + 1)), none⟩
    else ⟨neg, [0], strip (List.replicate (-k - 1).toNat 0 ++ digits P d), none⟩
  else ⟨neg, (digits P d).take 1, strip ((digits P d).drop 1), some k⟩

/-- A digit. -/
def digitChar (d : ℕ) : Char := Char.ofNat (48 + d)

/-- The exponent: a sign and at least two digits (at most four: the exponents of all types are below 10000). -/
def expText (e : ℤ) : List Char :=
  'e' :: (if e < 0 then '-' else '+') ::
    (digits (if e.natAbs < 100 then 2 else if e.natAbs < 1000 then 3 else 4) e.natAbs).map digitChar

/-- The exponent part, if any. -/
def expPart : Option ℤ → List Char
  | none => []
  | some e => expText e

/-- The characters. -/
def render (n : Num) : List Char :=
  (if n.neg then ['-'] else []) ++ n.int.map digitChar ++
  (if n.frac = [] then [] else '.' :: n.frac.map digitChar) ++
  expPart n.exp

/-- StringHelper.h:62-84 `stringify<double>`, `<float>`, `<long double>` with `P = digits10` of the type. -/
def stringify (P : ℕ) (x : ℚ) : List Char :=
  if x = 0 then ['0']
  else
    let s := significant P (if x < 0 then -x else x)
    render (gNum P (x < 0) s.1.toNat s.2)

end Verif.Stringify
