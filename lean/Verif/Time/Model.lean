import Verif.Base

/-!
# Model of `icl_core/TimeBase`, `TimeSpan`, `TimeStamp` and `icl_core_thread/Common.h`

Machine integers are `Int` with explicit range checks: a signed overflow is undefined
behaviour in C++ and is the outcome `ub` here.  Conversions between signed and unsigned
types wrap around (`wrapI64`, `wrapI32`).  C++ `/` and `%` on signed integers truncate
towards zero: `Int.tdiv`, `Int.tmod`.

`operator *`/`operator /` of `TimeSpan` are in Scale.lean, the DDS and Darwin conversions in Dds.lean, Boost
conversions in ScaleProps.lean. Not modelled: the LXRT 3.3 branch of `systemTimespec`.
-/
namespace Verif.Time

/-- TimeBase.h:288-289 members `secs` (int64_t) and `nsecs` (int32_t). -/
structure TB where
  secs : Int
  nsecs : Int
  deriving DecidableEq, Repr

/-- Value range of `int64_t`. -/
def I64 (x : Int) : Prop := -9223372036854775808 ≤ x ∧ x ≤ 9223372036854775807

/-- Value range of `int32_t`. -/
def I32 (x : Int) : Prop := -2147483648 ≤ x ∧ x ≤ 2147483647

instance (x : Int) : Decidable (I64 x) := by unfold I64; infer_instance
instance (x : Int) : Decidable (I32 x) := by unfold I32; infer_instance

/-- Signed 64-bit arithmetic result: overflow is undefined behaviour. -/
def i64 (x : Int) : Outcome Int := if I64 x then .ok x else .ub

/-- Signed 32-bit arithmetic result: overflow is undefined behaviour. -/
def i32 (x : Int) : Outcome Int := if I32 x then .ok x else .ub

/-- Conversion of any integer to `int64_t` (two's complement). -/
def wrapI64 (x : Int) : Int := (x + 9223372036854775808) % 18446744073709551616 - 9223372036854775808

/-- Conversion of any integer to `int32_t` (two's complement). -/
def wrapI32 (x : Int) : Int := (x + 2147483648) % 4294967296 - 2147483648

/-- Conversion of any integer to `uint64_t`. -/
def wrapU64 (x : Int) : Int := x % 18446744073709551616

/-- Conversion of any integer to `uint32_t`. -/
def wrapU32 (x : Int) : Int := x % 4294967296

/-- TimeBase.cpp:83-111 `normalizeTime()`: the while loop, one recursive call per
iteration; each branch is undefined if the incremented member overflows. -/
def normalizeTime (t : TB) : Outcome TB :=
  if t.secs ≥ 0 ∧ t.nsecs ≥ 1000000000 then
    if I32 (t.nsecs - 1000000000) ∧ I64 (t.secs + 1) then
      normalizeTime ⟨t.secs + 1, t.nsecs - 1000000000⟩
    else .ub
  else if t.secs ≤ 0 ∧ t.nsecs ≤ -1000000000 then
    if I32 (t.nsecs + 1000000000) ∧ I64 (t.secs - 1) then
      normalizeTime ⟨t.secs - 1, t.nsecs + 1000000000⟩
    else .ub
  else if t.secs > 0 ∧ t.nsecs < 0 then
    if I32 (t.nsecs + 1000000000) ∧ I64 (t.secs - 1) then
      normalizeTime ⟨t.secs - 1, t.nsecs + 1000000000⟩
    else .ub
  else if t.secs < 0 ∧ t.nsecs > 0 then
    if I32 (t.nsecs - 1000000000) ∧ I64 (t.secs + 1) then
      normalizeTime ⟨t.secs + 1, t.nsecs - 1000000000⟩
    else .ub
  else .ok t
termination_by 2 * (t.nsecs.natAbs / 1000000000) +
  (if (t.secs > 0 ∧ t.nsecs < 0) ∨ (t.secs < 0 ∧ t.nsecs > 0) then 1 else 0)
decreasing_by
  all_goals try simp only []
  all_goals (split <;> split <;> omega)

/-- TimeBase.cpp:239-244 constructor from seconds and nanoseconds. -/
def ctor (secs nsecs : Int) : Outcome TB := normalizeTime ⟨secs, nsecs⟩

/-- TimeBase.cpp:246-258 constructor / `fromTimespec`; `tv_nsec` is a `long` and is
converted to `int32_t`. -/
def ofTimespec (tvSec tvNsec : Int) : Outcome TB := normalizeTime ⟨tvSec, wrapI32 tvNsec⟩

/-- TimeBase.cpp:37-43 `operator +=` (also TimeSpan.cpp:102-108, TimeStamp.h:213-219 and
TimeStamp.cpp:327-333, which have the same body). -/
def addAssign (a b : TB) : Outcome TB := do
  let s ← i64 (a.secs + b.secs)
  let n ← i32 (a.nsecs + b.nsecs)
  normalizeTime ⟨s, n⟩

/-- TimeBase.cpp:45-51 `operator -=` (also TimeSpan.cpp:110-116, TimeStamp.h:222-228). -/
def subAssign (a b : TB) : Outcome TB := do
  let s ← i64 (a.secs - b.secs)
  let n ← i32 (a.nsecs - b.nsecs)
  normalizeTime ⟨s, n⟩

/-- TimeBase.cpp:53-56 `operator !=`. -/
def ne (a b : TB) : Bool := a.secs != b.secs || a.nsecs != b.nsecs

/-- TimeBase.cpp:58-61 `operator ==`. -/
def eq (a b : TB) : Bool := a.secs == b.secs && a.nsecs == b.nsecs

/-- TimeBase.cpp:63-66 `operator <`. -/
def lt (a b : TB) : Bool :=
  if a.secs = b.secs then decide (a.nsecs < b.nsecs) else decide (a.secs < b.secs)

/-- TimeBase.cpp:68-71 `operator >`. -/
def gt (a b : TB) : Bool :=
  if a.secs = b.secs then decide (a.nsecs > b.nsecs) else decide (a.secs > b.secs)

/-- TimeBase.cpp:73-76 `operator <=`. -/
def le (a b : TB) : Bool :=
  if a.secs = b.secs then decide (a.nsecs ≤ b.nsecs) else decide (a.secs < b.secs)

/-- TimeBase.cpp:78-81 `operator >=`. -/
def ge (a b : TB) : Bool :=
  if a.secs = b.secs then decide (a.nsecs ≥ b.nsecs) else decide (a.secs > b.secs)

/-- TimeSpan.h:198-202 `operator + (TimeSpan, TimeSpan)`. -/
def spanAdd (a b : TB) : Outcome TB := do
  let s ← i64 (a.secs + b.secs)
  let n ← i32 (a.nsecs + b.nsecs)
  ctor s n

/-- TimeSpan.h:204-208 `operator - (TimeSpan, TimeSpan)`. -/
def spanSub (a b : TB) : Outcome TB := do
  let s ← i64 (a.secs - b.secs)
  let n ← i32 (a.nsecs - b.nsecs)
  ctor s n

/-- TimeSpan.cpp:32 `cZERO`, and `TimeSpan()`. -/
def zero : TB := ⟨0, 0⟩

/-- TimeSpan.h:222-232 `abs`. -/
def abs (a : TB) : Outcome TB := if lt a zero then spanSub zero a else .ok a

/-- TimeStamp.h:343-353 `operator + (TimeStamp, TimeSpan)` in both orders. -/
def stampAdd (t d : TB) : Outcome TB := addAssign t d

/-- TimeStamp.h:355-359 `operator - (TimeStamp, TimeSpan)`. -/
def stampSub (t d : TB) : Outcome TB := subAssign t d

/-- TimeStamp.h:361-365 `operator - (TimeStamp, TimeStamp)`: the subtraction is done on
`uint64_t`/`uint32_t` (TimeStamp.h:281-283) and converted to `int64_t`/`int32_t`. -/
def stampDiff (a b : TB) : Outcome TB :=
  ctor (wrapI64 (wrapU64 (wrapU64 a.secs - wrapU64 b.secs)))
    (wrapI32 (wrapU32 (wrapU32 a.nsecs - wrapU32 b.nsecs)))

/-- TimeStamp.h:73-75 `TimeStamp(uint64_t, uint32_t)`. -/
def stamp (sec nsec : Int) : Outcome TB := ctor (wrapI64 sec) (wrapI32 nsec)

/-- TimeBase.cpp:232-237 `maxTime()`. -/
def maxTime : Outcome TB := ctor 9223372036854775807 999999999

/-- TimeSpan.cpp:63-69 `fromSec`. -/
def fromSec (sec : Int) : Outcome TB := normalizeTime ⟨sec, 0⟩

/-- TimeSpan.cpp:71-77 `fromMSec`. -/
def fromMSec (msec : Int) : Outcome TB :=
  normalizeTime ⟨msec.tdiv 1000, wrapI32 (msec.tmod 1000 * 1000000)⟩

/-- TimeSpan.cpp:79-85 `fromUSec`. -/
def fromUSec (usec : Int) : Outcome TB :=
  normalizeTime ⟨usec.tdiv 1000000, wrapI32 (usec.tmod 1000000 * 1000)⟩

/-- TimeSpan.cpp:163-166 `toMSec`. -/
def toMSec (t : TB) : Outcome Int := do
  let a ← i64 (t.secs * 1000)
  i64 (a + t.nsecs.tdiv 1000000)

/-- TimeSpan.cpp:168-171 `toUSec`. -/
def toUSec (t : TB) : Outcome Int := do
  let a ← i64 (t.secs * 1000000)
  i64 (a + t.nsecs.tdiv 1000)

/-- TimeSpan.cpp:173-176 `toNSec`. -/
def toNSec (t : TB) : Outcome Int := do
  let a ← i64 (1000000000 * t.secs)
  i64 (a + t.nsecs)

/-- TimeBase.h:107-110 `days`. -/
def days (t : TB) : Int := t.secs.tdiv 86400
/-- TimeBase.h:115-118 `hours`. -/
def hours (t : TB) : Int := (t.secs.tdiv 3600).tmod 24
/-- TimeBase.h:123-126 `minutes`. -/
def minutes (t : TB) : Int := (t.secs.tmod 3600).tdiv 60
/-- TimeBase.h:131-134 `seconds`. -/
def seconds (t : TB) : Int := (t.secs.tmod 3600).tmod 60
/-- TimeBase.h:139-142 `milliSeconds`. -/
def milliSeconds (t : TB) : Int := t.nsecs.tdiv 1000000
/-- TimeBase.h:147-150 `microSeconds`. -/
def microSeconds (t : TB) : Int := t.nsecs.tdiv 1000
/-- TimeBase.h:155-158 `nanoSeconds`. -/
def nanoSeconds (t : TB) : Int := t.nsecs.tmod 1000

/-- TimeStamp.cpp:118-123 `futureMSec`, with the clock reading as an argument. -/
def futureMSec (now : TB) (msec : Int) : Outcome TB := do
  let r ← stamp (msec / 1000) (msec % 1000 * 1000000)
  addAssign r now

/-- icl_core_thread/Common.h:46-57 `getRelativeTimeout`, clock reading as an argument. -/
def getRelativeTimeout (now timeout : TB) : Outcome TB :=
  if lt timeout now then .ok zero else stampDiff timeout now

/-- icl_core_thread/Common.h:59-71 `getAbsoluteTimeout`, clock reading as an argument. -/
def getAbsoluteTimeout (now d : TB) : Outcome TB :=
  if lt d zero then do
    let year ← ctor (365 * 86400) 0
    addAssign now year
  else addAssign now d

/-! ## Printing -/

/-- A token written to the stream: a number followed by a unit name, or the sign. -/
inductive Tok where
  | minus
  | num (n : Int) (unit : String)
  deriving DecidableEq, Repr

/-- TimeSpan.cpp:229-267 `operator <<`, and the same code in Logging.cpp:56-94: the sequence of `stream << number << unit`.
`-calc_secs` overflows for `INT64_MIN`, which is the outcome `ub`. -/
def print (t : TB) : Outcome (List Tok) := do
  let neg : Bool := t.secs < 0
  let secs ← if neg then i64 (-t.secs) else Outcome.ok t.secs
  let out : List Tok := if neg then [.minus] else []
  let (out, secs) :=
    if secs > 3600 then (out ++ [.num (secs.tdiv 3600) "h"], secs.tmod 3600) else (out, secs)
  let (out, secs) :=
    if secs > 60 then (out ++ [.num (secs.tdiv 60) "m"], secs.tmod 60) else (out, secs)
  let out := if secs > 0 then out ++ [.num secs "s"] else out
  let nsec := t.nsecs
  Outcome.ok (
    if nsec.tdiv 1000000 * 1000000 = nsec then out ++ [.num (nsec.tdiv 1000000) "ms"]
    else if nsec.tdiv 1000 * 1000 = nsec then out ++ [.num nsec "us"]
    else out ++ [.num nsec "ns"])

end Verif.Time
