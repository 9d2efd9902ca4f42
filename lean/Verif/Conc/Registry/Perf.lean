import Verif.Conc.Registry.Model
import Verif.Perf.Model

/-!
# The accesses of `icl_core_performance_monitor/PerformanceMonitor.cpp` to its variables (for C143)

Simplifications as in `Verif/Perf/Model.lean`; a map with the vectors in it is one variable (the theorems about races use
the same name twice), `m[key]` of a key that exists counts as a read of the map.  `m_print_stop`, which is written by the
constructor only, and the log output are not modelled.
-/
namespace Verif.Registry.Mon
open Verif.Perf Verif.StrMap Race

/-- The variables: PerformanceMonitor.h:193-234; `inst` says whether `m_instance` is set. -/
inductive Var where
  | inst | enabled | all | prefixes | data | nontime | timers | buffer | static
  deriving DecidableEq, Repr

/-- Their values. -/
def Val : Var → Type
  | .inst => Bool
  | .enabled => Bool
  | .all => Bool
  | .prefixes => List (S × Bool)
  | .data => List (S × List ℚ)
  | .nontime => List (S × List ℚ)
  | .timers => List (S × Int)
  | .buffer => List (List ℚ)
  | .static => List (S × ℚ)

abbrev P := Prog Val

/-- PerformanceMonitor.cpp:56-63 `getInstance`. -/
def getInstance {A : Type} (p : P A) : P A :=
  .rd .inst fun (b : Bool) => if b then .rd .inst fun _ => p else .wr .inst true (.rd .inst fun _ => p)

/-- PerformanceMonitor.cpp:78-81 `isEnabled`. -/
def isEnabled {A : Type} (pfx : S) (k : Bool → P A) : P A :=
  .rd .enabled fun (e : Bool) =>
    if e then .rd .prefixes fun (l : List (S × Bool)) =>
      if (get l pfx).isSome then k true else .rd .all fun (a : Bool) => k a
    else .rd .all fun (a : Bool) => k a

/-- PerformanceMonitor.cpp:281-289 `enablePrefix`. -/
def enablePrefix {A : Type} (pfx : S) (p : P A) : P A :=
  getInstance (.rd .prefixes fun (l : List (S × Bool)) =>
    match get l pfx with
    | none => .wr .prefixes (put l pfx true) p
    | some _ => p)

/-- PerformanceMonitor.cpp:296-304 `disablePrefix`. -/
def disablePrefix {A : Type} (pfx : S) (p : P A) : P A :=
  getInstance (.rd .prefixes fun (l : List (S × Bool)) =>
    match get l pfx with
    | some _ => .wr .prefixes (del l pfx) p
    | none => p)

/-- PerformanceMonitor.cpp:65-75 `initialize`. -/
def initMonitor {A : Type} (num : Nat) (p : P A) : P A :=
  getInstance (.wr .data ([] : List (S × List ℚ)) (.wr .nontime ([] : List (S × List ℚ))
    (.rd .buffer fun (b : List (List ℚ)) =>
      .wr .buffer ((b.reverse.take num ++ List.replicate (num - (b.reverse.take num).length) []).reverse : List (List ℚ))
        (enablePrefix [] p))))

/-- PerformanceMonitor.cpp:83-90 `start`. -/
def start {A : Type} (timer : S) (now : Int) (p : P A) : P A :=
  getInstance (.rd .enabled fun (e : Bool) =>
    if e then getInstance (.rd .timers fun (t : List (S × Int)) => .wr .timers (put t timer now) p) else p)

/-- PerformanceMonitor.cpp:177-193 `addEvent`. -/
def addEvent {A : Type} (pfx name : S) (x : ℚ) (p : P A) : P A :=
  getInstance (isEnabled pfx fun en =>
    if en then .rd .data fun (d : List (S × List ℚ)) =>
      let add (d : List (S × List ℚ)) : P A := .wr .data (push d (makeName pfx name) x) p
      match get d (makeName pfx name) with
      | some _ => add d
      | none => .wr .data (put d (makeName pfx name) []) (.rd .buffer fun (b : List (List ℚ)) =>
          match b with
          | [] => .rd .data fun (d : List (S × List ℚ)) => add d
          | v :: r => .wr .data (put d (makeName pfx name) v) (.wr .buffer r (.rd .data fun (d : List (S × List ℚ)) => add d)))
    else p)

/-- PerformanceMonitor.cpp:195-211 `addNonTimeEvent`. -/
def addNonTimeEvent {A : Type} (pfx name : S) (x : ℚ) (p : P A) : P A :=
  getInstance (isEnabled pfx fun en =>
    if en then .rd .nontime fun (d : List (S × List ℚ)) =>
      let add (d : List (S × List ℚ)) : P A := .wr .nontime (push d (makeName pfx name) x) p
      match get d (makeName pfx name) with
      | some _ => add d
      | none => .wr .nontime (put d (makeName pfx name) []) (.rd .buffer fun (b : List (List ℚ)) =>
          match b with
          | [] => .rd .nontime fun (d : List (S × List ℚ)) => add d
          | v :: r => .wr .nontime (put d (makeName pfx name) v) (.wr .buffer r (.rd .nontime fun (d : List (S × List ℚ)) => add d)))
    else p)

/-- `m_timer[timer]`: an unknown timer gets an entry. -/
def timerOf {A : Type} (timer : S) (k : Int → P A) : P A :=
  .rd .timers fun (t : List (S × Int)) =>
    match get t timer with
    | some b => k b
    | none => .wr .timers (put t timer 0) (k 0)

/-- The calls: PerformanceMonitor.cpp:92-112 `measurement`, 114-150 `startStop`, 152-175 `addStaticData`, `addData`,
`addNonTimeData`, 291-294 `enableAll`; `m_enabled` is a public member. -/
def call : Op → P ℚ
  | .init n => initMonitor n (.ret 0)
  | .setEnabled b => getInstance (.wr .enabled b (.ret 0))
  | .enableAll b => getInstance (.wr .all b (.ret 0))
  | .enablePrefix p => enablePrefix p (.ret 0)
  | .disablePrefix p => disablePrefix p (.ret 0)
  | .start t now => start t now (.ret 0)
  | .measurement t d pfx now => getInstance (isEnabled pfx fun en =>
      if en then timerOf t fun b => addEvent pfx d (millis b now) (getInstance (.ret (millis b now))) else .ret 0)
  | .startStop t d pfx now => getInstance (isEnabled pfx fun en =>
      if en then getInstance (timerOf t fun b =>
        if b ≠ 0 then addEvent pfx d (millis b now) (.rd .timers fun (l : List (S × Int)) =>
          .wr .timers (put l t now) (getInstance (.ret (millis b now))))
        else start t now (.ret 0))
      else .ret 0)
  | .addData n x pfx => getInstance (isEnabled pfx fun en => if en then getInstance (addEvent pfx n x (.ret 0)) else .ret 0)
  | .addNonTimeData n x pfx => getInstance (isEnabled pfx fun en =>
      if en then getInstance (addNonTimeEvent pfx n x (.ret 0)) else .ret 0)
  | .addStaticData n x pfx => getInstance (isEnabled pfx fun en =>
      if en then getInstance (.rd .static fun (l : List (S × ℚ)) => .wr .static (put l (makeName pfx n) x) (.ret 0)) else .ret 0)

end Verif.Registry.Mon
