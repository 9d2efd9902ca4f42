import Verif.Time.Model

/-!
# Specification of time values

A time value denotes a number of nanoseconds; the library's canonical representation has
seconds and nanoseconds of the same sign with less than one second of nanoseconds.
-/
namespace Verif.Time

/-- The number of nanoseconds a value denotes. -/
def total (t : TB) : Int := t.secs * 1000000000 + t.nsecs

/-- Canonical representation, with the seconds in `int64_t`. -/
def Normalised (t : TB) : Prop :=
  I64 t.secs ∧ -1000000000 < t.nsecs ∧ t.nsecs < 1000000000 ∧
  (0 < t.secs → 0 ≤ t.nsecs) ∧ (t.secs < 0 → t.nsecs ≤ 0)

instance (t : TB) : Decidable (Normalised t) := by unfold Normalised; infer_instance

/-- Durations (in nanoseconds) that have a canonical representation: all those whose whole
number of seconds (rounded towards zero) is an `int64_t`. -/
def Representable (ns : Int) : Prop := I64 (ns.tdiv 1000000000)

instance (n : Int) : Decidable (Representable n) := by unfold Representable; infer_instance

/-- Size of a unit in nanoseconds. -/
def unitNs : String → Int
  | "h" => 3600000000000
  | "m" => 60000000000
  | "s" => 1000000000
  | "ms" => 1000000
  | "us" => 1000
  | "ns" => 1
  | _ => 0

/-- What a printed span means to a reader: a leading minus sign negates everything, the
parts add up. -/
def denote : List Tok → Int
  | [] => 0
  | .minus :: ts => -denote ts
  | .num n u :: ts => n * unitNs u + denote ts

end Verif.Time
