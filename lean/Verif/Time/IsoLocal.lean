import Verif.Time.Iso

/-!
# Model of the other ISO 8601 formatters of `TimeStamp`

`formatIso8601UTC()`, `formatIso8601()` and `formatIso8601Basic()`.  The time zone of
`localtime` is an arbitrary function `off` from the seconds since 1970 to the number of
seconds the local clock is ahead of UTC at that instant.
-/
namespace Verif.Time

/-- TimeStamp.cpp:203-209 `strfTime(dest, 20, "%Y-%m-%d %H:%M:%S")`: 19 characters and the
terminator fit the 20 byte buffer for years of four digits; with more digits `strftime`
leaves the buffer indeterminate (`ub`).  Years below 1000 are not modelled (`ub`). -/
def strfTimeExt (secs : Int) : Outcome (List Char) :=
  let x := dateOfDay (secs / 86400)
  let s := (secs % 86400).toNat
  if 1000 ≤ x.y ∧ x.y ≤ 9999 then
    .ok (dec 4 x.y.toNat ++ ['-'] ++ dec 2 x.m ++ ['-'] ++ dec 2 x.d ++ [' '] ++ dec 2 (s / 3600)
      ++ [':'] ++ dec 2 (s / 60 % 60) ++ [':'] ++ dec 2 (s % 60))
  else .ub

/-- TimeStamp.cpp:228-233 `formatIso8601UTC()`: the `secs` member is used as it is, the
nanoseconds are ignored. -/
def formatExtUTC (t : TB) : Outcome (List Char) := strfTimeExt t.secs

/-- TimeStamp.cpp:211-219, 221-226 `formatIso8601()`: `localtime` gives the fields of the
local clock.  (If `localtime` fails the buffer is never written; that needs years beyond
`int` and is `ub` in `strfTimeExt`.) -/
def formatExtLocal (off : Int → Int) (t : TB) : Outcome (List Char) :=
  strfTimeExt (t.secs + off t.secs)

/-- TimeStamp.cpp:211-219, 235-247 `formatIso8601Basic()`. -/
def formatIsoLocal (off : Int → Int) (t : TB) : Outcome (List Char) := do
  let t := adjustNsec t
  let a ← strfTime (t.secs + off t.secs)
  Outcome.ok (a ++ [','] ++ dec 9 t.nsecs.toNat)

end Verif.Time
