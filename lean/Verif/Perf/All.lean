import Verif.Perf.Spec

/-!
# Model of `PerformanceMonitor::printSummaryAll` and `print` (C95)

Log levels are numbers: 0 trace, 1 debug, 2 info, 3 warning, 4 error, 5 mute (LogLevel.h:44-58).
-/
namespace Verif.Perf
open Verif.StrMap

/-- PerformanceMonitor.cpp:214-239 `print`: the level of the log statement that is executed. -/
def printLevel (level : Nat) : Nat :=
  match level with
  | 1 => 1
  | 2 => 2
  | 0 => 0
  | _ => 2

/-- The summaries of some prefixes, each handed to `print` with `level`. -/
def reportsOf (m : Mon) (level : Nat) : List S → Outcome (List (Nat × S × Report))
  | [] => .ok []
  | p :: ps =>
    (printSummaryFromPrefix m p).bind fun r =>
    (reportsOf m level ps).bind fun l => .ok ((printLevel level, p, r) :: l)

/-- PerformanceMonitor.cpp:306-315 `printSummaryAll`: one summary for each element of `m_enabled_prefix`,
in the order of the map. Each entry of the result is one log message: its level, the prefix in its
headline, and its content. -/
def printSummaryAll (m : Mon) (level : Nat) : Outcome (List (Nat × S × Report)) :=
  reportsOf m level (m.prefixes.map Prod.fst)

/-! ## Specification -/

/-- A prefix has recorded data. -/
def HasData (h : List Op) (p : S) : Prop :=
  (∃ n, samples p n h ≠ []) ∨ (∃ n, nonTime p n h ≠ []) ∨ ∃ n x, staticAt p n h = some x

/-- The report of a prefix is right: each name with data once, with the statistics of its samples, and the
last static values. -/
def RightReport (h : List Op) (p : S) (r : Report) : Prop :=
  ((r.time.map Prod.fst).Nodup ∧ (∀ n, n ∈ r.time.map Prod.fst ↔ samples p n h ≠ []) ∧
    ∀ n st, (n, st) ∈ r.time → Correct st (samples p n h)) ∧
  ((r.nontime.map Prod.fst).Nodup ∧ (∀ n, n ∈ r.nontime.map Prod.fst ↔ nonTime p n h ≠ []) ∧
    ∀ n st, (n, st) ∈ r.nontime → Correct st (nonTime p n h)) ∧
  ((r.static.map Prod.fst).Nodup ∧ ∀ n x, (n, x) ∈ r.static ↔ staticAt p n h = some x)

end Verif.Perf
