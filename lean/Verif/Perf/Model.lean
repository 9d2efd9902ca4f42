import Verif.Base
import Verif.Util.StrMap
import Mathlib.Data.List.Sort
import Mathlib.Algebra.Order.Ring.Rat

/-!
# Model of `icl_core_performance_monitor/PerformanceMonitor.cpp`

Simplifications: samples are rational numbers instead of `double` (no rounding, no NaN);
time stamps are integers (nanoseconds, a default constructed `TimeStamp` is 0) and the time
returned by `TimeStamp::now()` is an argument of the call; at most `INT_MAX` samples per name
(`getAverage` counts with `int`).  What is sent to the log is not modelled, except for the
contents of the summaries.  `std::sort` is insertion sort.
-/
namespace Verif.Perf
open Verif.StrMap

/-- PerformanceMonitor.h:193-234, the data of the monitor. -/
structure Mon where
  /-- `m_enabled` -/
  enabled : Bool := true
  /-- `m_all_enabled` -/
  all : Bool := false
  /-- `m_enabled_prefix` -/
  prefixes : List (S × Bool) := []
  /-- `m_data` -/
  data : List (S × List ℚ) := []
  /-- `m_data_nontime` -/
  nontime : List (S × List ℚ) := []
  /-- `m_timer` -/
  timers : List (S × Int) := []
  /-- `m_buffer`, a stack of vectors; the last one is the head of this list -/
  buffer : List (List ℚ) := []
  /-- `m_static_data` -/
  static : List (S × ℚ) := []
  deriving DecidableEq

/-- PerformanceMonitor.cpp:37-40 `makeName`. -/
def makeName (pfx name : S) : S := pfx ++ ':' :: ':' :: name

/-- PerformanceMonitor.cpp:78-81 `isEnabled`. -/
def isEnabled (m : Mon) (pfx : S) : Bool := (m.enabled && (get m.prefixes pfx).isSome) || m.all

/-- PerformanceMonitor.cpp:281-289 `enablePrefix`. -/
def enablePrefix (m : Mon) (pfx : S) : Mon :=
  match get m.prefixes pfx with
  | none => { m with prefixes := put m.prefixes pfx true }
  | some _ => m

/-- PerformanceMonitor.cpp:296-304 `disablePrefix`. -/
def disablePrefix (m : Mon) (pfx : S) : Mon :=
  match get m.prefixes pfx with
  | some _ => { m with prefixes := del m.prefixes pfx }
  | none => m

/-- PerformanceMonitor.cpp:65-75 `initialize`: `m_buffer.resize(num_names)` keeps the vectors
at the front, `reserve` does not change their contents. -/
def initMonitor (m : Mon) (num : Nat) : Mon :=
  let front := m.buffer.reverse.take num
  enablePrefix { m with
    data := []
    nontime := []
    buffer := (front ++ List.replicate (num - front.length) []).reverse } []

/-- PerformanceMonitor.cpp:83-90 `start`. -/
def start (m : Mon) (timer : S) (now : Int) : Mon :=
  if m.enabled then { m with timers := put m.timers timer now } else m

/-- PerformanceMonitor.cpp:182-190 and 200-208: a new name gets an empty vector, or the last
one of the prepared vectors. -/
def newVector (d : List (S × List ℚ)) (buffer : List (List ℚ)) (key : S) :
    List (S × List ℚ) × List (List ℚ) :=
  match get d key with
  | some _ => (d, buffer)
  | none =>
    match buffer with
    | [] => (put d key [], [])
    | v :: r => (put d key v, r)

/-- `m[key].push_back(x)`. -/
def push (d : List (S × List ℚ)) (key : S) (x : ℚ) : List (S × List ℚ) :=
  put d key ((get d key).getD [] ++ [x])

/-- PerformanceMonitor.cpp:177-193 `addEvent`. -/
def addEvent (m : Mon) (pfx name : S) (x : ℚ) : Mon :=
  if isEnabled m pfx then
    let key := makeName pfx name
    let r := newVector m.data m.buffer key
    { m with data := push r.1 key x, buffer := r.2 }
  else m

/-- PerformanceMonitor.cpp:195-211 `addNonTimeEvent`. -/
def addNonTimeEvent (m : Mon) (pfx name : S) (x : ℚ) : Mon :=
  if isEnabled m pfx then
    let key := makeName pfx name
    let r := newVector m.nontime m.buffer key
    { m with nontime := push r.1 key x, buffer := r.2 }
  else m

/-- `d.toNSec() / 1000000.0` for `d(end - begin)`. -/
def millis (b e : Int) : ℚ := ((e - b : Int) : ℚ) / 1000000

/-- PerformanceMonitor.cpp:92-112 `measurement`: `m_timer[timer_name]` makes an entry for an
unknown timer. -/
def measurement (m : Mon) (timer descr pfx : S) (now : Int) : ℚ × Mon :=
  if isEnabled m pfx then
    let b := (get m.timers timer).getD 0
    let m1 := { m with timers := put m.timers timer b }
    (millis b now, addEvent m1 pfx descr (millis b now))
  else (0, m)

/-- PerformanceMonitor.cpp:114-150 `startStop`. -/
def startStop (m : Mon) (timer descr pfx : S) (now : Int) : ℚ × Mon :=
  if isEnabled m pfx then
    let b := (get m.timers timer).getD 0
    let m1 := { m with timers := put m.timers timer b }
    if b ≠ 0 then
      let m2 := addEvent m1 pfx descr (millis b now)
      (millis b now, { m2 with timers := put m2.timers timer now })
    else (0, start m1 timer now)
  else (0, m)

/-- PerformanceMonitor.cpp:152-159 `addStaticData`. -/
def addStaticData (m : Mon) (name : S) (x : ℚ) (pfx : S) : Mon :=
  if isEnabled m pfx then { m with static := put m.static (makeName pfx name) x } else m

/-- PerformanceMonitor.cpp:161-167 `addData`. -/
def addData (m : Mon) (name : S) (x : ℚ) (pfx : S) : Mon :=
  if isEnabled m pfx then addEvent m pfx name x else m

/-- PerformanceMonitor.cpp:169-175 `addNonTimeData`. -/
def addNonTimeData (m : Mon) (name : S) (x : ℚ) (pfx : S) : Mon :=
  if isEnabled m pfx then addNonTimeEvent m pfx name x else m

/-- The calls that change the monitor. -/
inductive Op where
  | init (num : Nat)
  /-- assignment to the public member `m_enabled` -/
  | setEnabled (b : Bool)
  | enableAll (b : Bool)
  | enablePrefix (pfx : S)
  | disablePrefix (pfx : S)
  | start (timer : S) (now : Int)
  | measurement (timer descr pfx : S) (now : Int)
  | startStop (timer descr pfx : S) (now : Int)
  | addData (name : S) (x : ℚ) (pfx : S)
  | addNonTimeData (name : S) (x : ℚ) (pfx : S)
  | addStaticData (name : S) (x : ℚ) (pfx : S)
  deriving DecidableEq

/-- Run one call (PerformanceMonitor.cpp:291-294 for `enableAll`, 44-49 for the flag). -/
def step (m : Mon) : Op → Mon
  | .init n => initMonitor m n
  | .setEnabled b => { m with enabled := b }
  | .enableAll b => { m with all := b }
  | .enablePrefix p => enablePrefix m p
  | .disablePrefix p => disablePrefix m p
  | .start t now => start m t now
  | .measurement t d p now => (measurement m t d p now).2
  | .startStop t d p now => (startStop m t d p now).2
  | .addData n x p => addData m n x p
  | .addNonTimeData n x p => addNonTimeData m n x p
  | .addStaticData n x p => addStaticData m n x p

/-- A history of calls, newest first, from a new monitor. -/
def run : List Op → Mon
  | [] => {}
  | op :: h => step (run h) op

/-- The figures of one summary. -/
structure Stats where
  /-- `m_data[tmp].size()` -/
  count : Nat
  /-- `getAverage` -/
  avg : ℚ
  /-- `median` -/
  median : ℚ
  /-- `min` -/
  min : ℚ
  /-- `max` -/
  max : ℚ
  deriving DecidableEq

/-- PerformanceMonitor.cpp:377-386 `getAverage`, 388-397 `getAverageNonTime`. -/
def average (v : List ℚ) : ℚ := v.foldl (fun a x => a + x) 0 / v.length

/-- PerformanceMonitor.cpp:399-406 `getMedian`, 408-416 `getMedianNonTime`, and 241-254, 256-269
`createStatisticSummary(NonTime)`: a missing name stands for an empty vector. -/
def summary (d : List (S × List ℚ)) (key : S) : Outcome Stats :=
  let v := (get d key).getD []
  let tmp := v.insertionSort (· ≤ ·)
  (Outcome.vecGet tmp (tmp.length / 2)).bind fun med =>
  (Outcome.vecGet tmp 0).bind fun mn =>
  (Outcome.vecGet tmp (tmp.length - 1)).bind fun mx =>
  .ok ⟨v.length, average v, med, mn, mx⟩

/-- PerformanceMonitor.cpp:271-279 `printSummary`. -/
def printSummary (m : Mon) (pfx name : S) : Outcome Stats := summary m.data (makeName pfx name)

/-- `s.find("::")`. -/
def findSep : S → Option Nat
  | ':' :: ':' :: _ => some 0
  | _ :: r => (findSep r).map (· + 1)
  | [] => none

/-- `s.substr(0, prefix_end)` and `s.substr(prefix_end + 2)`; with `npos`, which is the largest
`size_t`, the sum is 1. -/
def splitKey (s : S) : S × S :=
  match findSep s with
  | some i => (s.take i, s.drop (i + 2))
  | none => (s, s.drop 1)

/-- The entries whose key has this prefix, with their names. -/
def ofPrefix {V : Type} (pfx : S) (m : List (S × V)) : List (S × V) :=
  (m.filter fun e => pfx == (splitKey e.1).1).map fun e => ((splitKey e.1).2, e.2)

/-- The summaries of some names, in this order. -/
def summaries (d : List (S × List ℚ)) (pfx : S) : List (S × List ℚ) → Outcome (List (S × Stats))
  | [] => .ok []
  | e :: r =>
    (summary d (makeName pfx e.1)).bind fun st =>
    (summaries d pfx r).bind fun l => .ok ((e.1, st) :: l)

/-- What `printSummaryFromPrefix` writes. -/
structure Report where
  /-- static data -/
  static : List (S × ℚ)
  /-- time data -/
  time : List (S × Stats)
  /-- non-time data -/
  nontime : List (S × Stats)
  deriving DecidableEq

/-- PerformanceMonitor.cpp:317-375 `printSummaryFromPrefix`. -/
def printSummaryFromPrefix (m : Mon) (pfx : S) : Outcome Report :=
  (summaries m.data pfx (ofPrefix pfx m.data)).bind fun t =>
  (summaries m.nontime pfx (ofPrefix pfx m.nontime)).bind fun n =>
  .ok ⟨ofPrefix pfx m.static, t, n⟩

end Verif.Perf
