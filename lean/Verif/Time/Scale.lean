import Verif.Time.Model
import Mathlib.Data.Rat.Floor

/-!
# Scaling of time spans, conversion from Boost time points (C89, C90)

`TimeSpan.h:210-220` and `TimeStamp.cpp:89-108`. A finite `double` is a rational number; `fl` is the rounding of
exact results to `double`s and is left open (the theorems say what they assume about it). Infinite
factors and NaN are not modelled.
-/
namespace Verif.Time.Scale
open Verif.Time

/-- Truncation towards zero, as in the conversion of a `double` to an integer. -/
def trunc (r : ℚ) : Int := if 0 ≤ r then ⌊r⌋ else ⌈r⌉

/-- `int64_t(r)`: undefined if the truncated value does not fit. -/
def toI64 (r : ℚ) : Outcome Int := i64 (trunc r)

/-- `int32_t(r)`: undefined if the truncated value does not fit. -/
def toI32 (r : ℚ) : Outcome Int := i32 (trunc r)

/-- TimeSpan.h:216-220 `operator * (span, factor)`; the `int64_t` seconds are converted to `double`
first, `int32_t` nanoseconds are exact. -/
def scale (fl : ℚ → ℚ) (a : TB) (x : ℚ) : Outcome TB := do
  let s ← toI64 (fl (fl (a.secs : ℚ) * x))
  let n ← toI32 (fl ((a.nsecs : ℚ) * x))
  ctor s n

/-- TimeSpan.h:210-214 `operator / (span, divisor)`; division by zero gives an infinity or NaN, whose
conversion to an integer is undefined. -/
def divide (fl : ℚ → ℚ) (a : TB) (x : ℚ) : Outcome TB :=
  if x = 0 then .ub
  else do
    let s ← toI64 (fl (fl (a.secs : ℚ) / x))
    let n ← toI32 (fl ((a.nsecs : ℚ) / x))
    ctor s n

/-- TimeStamp.cpp:89-97 `TimeStamp(ptime)` and 99-108 the assignment; `ns` is the length of the period
since 1970 in nanoseconds, `total_seconds()` truncates towards zero, `total_nanoseconds()` is the whole
length. -/
def fromPtime (ns : Int) : Outcome TB := normalizeTime ⟨ns.tdiv 1000000000, wrapI32 ns⟩

end Verif.Time.Scale
