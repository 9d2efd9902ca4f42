import Verif.Time.Spec

/-!
# Model of `TimeStamp::formatIso8601BasicUTC` and `TimeStamp::fromIso8601BasicUTC`

The C library functions `gmtime` and `strftime` are represented by the calendar below:
the date of a day number is obtained by starting at 1970-01-01 and going to the next (or
previous) day one at a time, following the Gregorian calendar rules.  This is a
specification, not an implementation: it uses no closed formula.
-/
namespace Verif.Time

/-! ## Specification: the calendar -/

/-- A calendar date. -/
structure Date where
  y : Int
  m : Nat
  d : Nat
  deriving DecidableEq, Repr

/-- Gregorian leap years. -/
def isLeap (y : Int) : Bool := (y % 4 == 0 && y % 100 != 0) || y % 400 == 0

/-- Number of days of a month. -/
def monthLength (y : Int) : Nat → Nat
  | 4 | 6 | 9 | 11 => 30
  | 2 => if isLeap y then 29 else 28
  | _ => 31

/-- The day after. -/
def nextDay (x : Date) : Date :=
  if x.d < monthLength x.y x.m then ⟨x.y, x.m, x.d + 1⟩
  else if x.m < 12 then ⟨x.y, x.m + 1, 1⟩
  else ⟨x.y + 1, 1, 1⟩

/-- The day before. -/
def prevDay (x : Date) : Date :=
  if 1 < x.d then ⟨x.y, x.m, x.d - 1⟩
  else if 1 < x.m then ⟨x.y, x.m - 1, monthLength x.y (x.m - 1)⟩
  else ⟨x.y - 1, 12, 31⟩

/-- Apply a function `n` times. -/
def times (f : Date → Date) : Nat → Date → Date
  | 0, x => x
  | n + 1, x => f (times f n x)

/-- The date of the day `n` days after (or before) 1970-01-01. -/
def dateOfDay (n : Int) : Date :=
  if 0 ≤ n then times nextDay n.toNat ⟨1970, 1, 1⟩ else times prevDay (-n).toNat ⟨1970, 1, 1⟩

/-! ## The formatter -/

/-- One decimal digit. -/
def digit (k : Nat) : Char := Char.ofNat (48 + k)

/-- The last `w` decimal digits of `n`, as `printf("%0wi")` prints them for `n < 10^w`. -/
def dec : Nat → Nat → List Char
  | 0, _ => []
  | w + 1, n => dec w (n / 10) ++ [digit (n % 10)]

/-- TimeStamp.cpp:203-209 `strfTime(dest, 16, "%Y%m%dT%H%M%S")`: `gmtime` followed by
`strftime`.  Years with more than four digits do not fit the 16 byte buffer, then
`strftime` leaves it indeterminate (`ub`).  Years below 1000 (printed without padding) are
not modelled and also answer `ub`. -/
def strfTime (secs : Int) : Outcome (List Char) :=
  let x := dateOfDay (secs / 86400)
  let s := (secs % 86400).toNat
  if 1000 ≤ x.y ∧ x.y ≤ 9999 then
    .ok (dec 4 x.y.toNat ++ dec 2 x.m ++ dec 2 x.d ++ ['T'] ++ dec 2 (s / 3600)
      ++ dec 2 (s / 60 % 60) ++ dec 2 (s % 60))
  else .ub

/-- TimeStamp.cpp:252-256, the loop that makes the nanoseconds non-negative (for a
canonical value it runs at most once). -/
def adjustNsec (t : TB) : TB :=
  if t.nsecs < 0 then adjustNsec ⟨t.secs - 1, t.nsecs + 1000000000⟩ else t
termination_by (-t.nsecs).toNat
decreasing_by omega

/-- TimeStamp.cpp:249-261 `formatIso8601BasicUTC()`. -/
def formatIso (t : TB) : Outcome (List Char) := do
  let t := adjustNsec t
  let a ← strfTime t.secs
  Outcome.ok (a ++ [','] ++ dec 9 t.nsecs.toNat)

/-! ## The parser -/

/-- Value of a decimal digit. -/
def digitVal (c : Char) : Option Nat :=
  if 48 ≤ c.toNat ∧ c.toNat ≤ 57 then some (c.toNat - 48) else none

/-- Value of a string of decimal digits, most significant first. -/
def digitsVal : Nat → List Char → Option Nat
  | acc, [] => some acc
  | acc, c :: cs =>
    match digitVal c with
    | some k => digitsVal (acc * 10 + k) cs
    | none => none

/-- `boost::lexical_cast<int32_t>`: optional sign, at least one digit, value in range,
otherwise `bad_lexical_cast`. -/
def lexicalCast (s : List Char) : Outcome Int :=
  let (neg, ds) :=
    match s with
    | '-' :: r => (true, r)
    | '+' :: r => (false, r)
    | r => (false, r)
  match ds, digitsVal 0 ds with
  | _ :: _, some n =>
    let v : Int := if neg then -(n : Int) else n
    if I32 v then .ok v else .throws .badCast
  | _, _ => .throws .badCast

/-- `std::string::substr(pos, len)` (callers guarantee `pos ≤ size`). -/
def substr (s : List Char) (pos len : Nat) : List Char := (s.drop pos).take len

/-- TimeStamp.cpp:163-169, the loop over the years `1970 … 1970+k-1`. -/
def yearLoop : Nat → Int
  | 0 => 0
  | k + 1 =>
    let y : Int := 1970 + k
    let leap : Bool := y % 400 == 0 || (y % 4 == 0 && y % 100 != 0)
    yearLoop k + (if leap then 366 else 365)

/-- TimeStamp.cpp:174-178 `days_per_month`. -/
def daysPerMonth (leap : Bool) : List Int :=
  [31, if leap then 29 else 28, 31, 30, 31, 30, 31, 31, 30, 31, 30, 31]

/-- TimeStamp.cpp:179-182, the loop over the months `1 … k`: an index beyond 11 reads past
the array. -/
def monthLoop (dpm : List Int) : Nat → Outcome Int
  | 0 => .ok 0
  | k + 1 => do
    let a ← monthLoop dpm k
    let d ← Outcome.vecGet dpm k
    Outcome.ok (a + d)

/-- TimeStamp.cpp:125-193, `fromIso8601BasicUTC(str)` up to the construction of the result:
the `uint64_t` seconds and the nanoseconds converted to `uint32_t`. -/
def isoFields (s : List Char) : Outcome (Int × Int) := do
  let year ← if s.length ≥ 4 then lexicalCast (substr s 0 4) else Outcome.ok 1970
  let mon ← if s.length ≥ 6 then lexicalCast (substr s 4 2) else Outcome.ok 1
  let mday ← if s.length ≥ 8 then lexicalCast (substr s 6 2) else Outcome.ok 1
  let hour ← if s.length ≥ 11 then lexicalCast (substr s 9 2) else Outcome.ok 0
  let min ← if s.length ≥ 13 then lexicalCast (substr s 11 2) else Outcome.ok 0
  let sec ← if s.length ≥ 15 then lexicalCast (substr s 13 2) else Outcome.ok 0
  let nsecs ←
    if s.length > 16 then
      lexicalCast (substr (substr s 16 9 ++ List.replicate 9 '0') 0 9)
    else Outcome.ok 0
  let days := yearLoop (year - 1970).toNat
  let leap : Bool := year % 400 == 0 || (year % 4 == 0 && year % 100 != 0)
  let md ← monthLoop (daysPerMonth leap) (mon - 1).toNat
  let days := days + md + (mday - 1)
  let secs := wrapU64 (86400 * days + 3600 * hour + 60 * min + sec)
  Outcome.ok (secs, wrapU32 nsecs)

/-- TimeStamp.cpp:125-193 `fromIso8601BasicUTC(str)`. -/
def fromIso (s : List Char) : Outcome TB :=
  (isoFields s).bind fun x => stamp x.1 x.2

end Verif.Time
