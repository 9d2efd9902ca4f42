import Verif.Time.Props
import Verif.Logging.Buffer

/-!
# `icl_core_logging/ScopedTimer.h` (C82)

The clock readings are arguments. Every event also carries whether the stream is active and passes the
timer's level at that moment (the two `if`s of `SLOGGING_LOG_FLCO`; the filters themselves are C43).
The record's file, line, class and object names are C76 and are left out here.
-/
namespace Verif.Logging.ScopedTimer
open Verif.Time

/-- ScopedTimer.h:122-129 the members that influence the text: `m_description`, `m_start_time`,
`m_active`. -/
structure Timer where
  desc : List Char
  start : TB
  active : Bool
  deriving DecidableEq

/-- ScopedTimer.h:64-78 the constructor. -/
def create (desc : List Char) (now : TB) : Timer := ⟨desc, now, true⟩

/-- The implicit copy constructor (ScopedTimer.h declares none, the class is not noncopyable). -/
def Timer.copy (t : Timer) : Timer := ⟨t.desc, t.start, t.active⟩

/-- ScopedTimer.h:84-86, 93-95 `(TimeStamp::now() - m_start_time).toNSec()` streamed as `int64_t`. -/
def Timer.elapsedText (t : Timer) (now : TB) : Outcome (List Char) := do
  let d ← stampDiff now t.start
  let n ← toNSec d
  match localText IntTy.i64.buf (decText n) with
  | some s => .ok s
  | none => .ub

/-- ScopedTimer.h:81-87 `print()`: the streamed pieces, if the level is enabled. -/
def Timer.print (t : Timer) (on : Bool) (now : TB) : Outcome (List Msg) :=
  if on then do
    let s ← t.elapsedText now
    .ok [⟨[[], t.desc, ": ".toList, s, " ns".toList], .endl⟩]
  else .ok []

/-- ScopedTimer.h:90-96 `print(extra_description)`. -/
def Timer.printExtra (t : Timer) (extra : List Char) (on : Bool) (now : TB) : Outcome (List Msg) :=
  if on then do
    let s ← t.elapsedText now
    .ok [⟨[[], t.desc, " (".toList, extra, "): ".toList, s, " ns".toList], .endl⟩]
  else .ok []

/-- ScopedTimer.h:101-108 `stop()`. -/
def Timer.stop (t : Timer) (on : Bool) (now : TB) : Outcome (Timer × List Msg) := do
  let ms ← if t.active then t.print on now else .ok []
  .ok ({ t with active := false }, ms)

/-- ScopedTimer.h:113-119 the destructor. -/
def Timer.destroy (t : Timer) (on : Bool) (now : TB) : Outcome (List Msg) :=
  if t.active then t.print on now else .ok []

/-- A call of the user. -/
inductive Call where
  | print
  | printExtra (extra : List Char)
  | stop
  deriving DecidableEq

/-- A call with the clock and the filter result at that moment. -/
structure Ev where
  call : Call
  now : TB
  on : Bool

/-- One call. -/
def Timer.step (t : Timer) (e : Ev) : Outcome (Timer × List Msg) :=
  match e.call with
  | .print => do let ms ← t.print e.on e.now; .ok (t, ms)
  | .printExtra x => do let ms ← t.printExtra x e.on e.now; .ok (t, ms)
  | .stop => t.stop e.on e.now

/-- The calls in order, and then the destructor at `stop`/`on`. -/
def Timer.life (t : Timer) : List Ev → Bool → TB → Outcome (List Msg)
  | [], on, now => t.destroy on now
  | e :: es, on, now => do
    let (t, ms) ← t.step e
    let ms' ← t.life es on now
    .ok (ms ++ ms')

/-! ## Specification -/

/-- The documented text: "Foo: 42 ns", with an extra description "Foo (extra): 42 ns". -/
def text (desc : List Char) (extra : Option (List Char)) (ns : Int) : List Char :=
  (match extra with
    | none => desc
    | some x => desc ++ " (".toList ++ x ++ ")".toList) ++ ": ".toList ++ decText ns ++ " ns".toList

/-- A moment at which the timer is asked to report: a call, or the end of its life (`none`). -/
structure Report where
  extra : Option (List Char)
  final : Bool
  now : TB
  on : Bool

/-- What the user's call asks for. -/
def Ev.report (e : Ev) : Report :=
  match e.call with
  | .print => ⟨none, false, e.now, e.on⟩
  | .printExtra x => ⟨some x, false, e.now, e.on⟩
  | .stop => ⟨none, true, e.now, e.on⟩

/-- All moments of a life: the calls, and the end of the scope. -/
def moments (es : List Ev) (on : Bool) (now : TB) : List Report :=
  es.map Ev.report ++ [⟨none, true, now, on⟩]

/-- The reports that are due: every `print`, and the first of the moments that end the timer. -/
def due (rs : List Report) : List Report :=
  rs.takeWhile (! ·.final) ++ ((rs.dropWhile (! ·.final)).take 1 ++
    ((rs.dropWhile (! ·.final)).drop 1).filter (! ·.final))

/-- The lines expected in the log. -/
def expected (desc : List Char) (start : TB) (es : List Ev) (on : Bool) (now : TB) : List (List Char) :=
  ((due (moments es on now)).filter (·.on)).map fun r =>
    (text desc r.extra (total r.now - total start)).take 2046 ++ ['\n']

/-- Clock readings for which nothing overflows: canonical, and at most 2^63 ns (292 years) after the
start. -/
def ClockOk (start now : TB) : Prop :=
  Normalised now ∧ I64 (total now - total start)

instance (a b : TB) : Decidable (ClockOk a b) := by unfold ClockOk; infer_instance

end Verif.Logging.ScopedTimer
