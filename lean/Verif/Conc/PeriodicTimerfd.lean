import Verif.Time.Props
import Verif.Conc.Periodic

/-!
# `icl_core_thread/PeriodicThreadImplTimerfd.cpp` (C87)

The implementation of `PeriodicThread` on Linux. The kernel's timer descriptors are assumed to behave as
documented (timerfd_create(2)): `timerfd_settime` arms the timer relative to the time of the call and
forgets earlier expirations, disarms it if the value is zero and fails with `EINVAL` if the nanoseconds
are not in `0 .. 999999999`; `read` blocks until at least one expiration has not been reported yet and
reports the number of such expirations. Times are nanoseconds of the monotonic clock.
-/
namespace Verif.Conc.Timerfd
open Verif.Time

/-- An armed timer: time of the first expiration, interval, and the number of expirations already
reported by `read`. -/
structure Timer where
  first : Int
  interval : Int
  reported : Int
  deriving DecidableEq, Repr

/-- The process' table of timer descriptors: a descriptor is an index of `fds` (descriptors are never
closed by the modelled code), `none` is a disarmed timer; `limit` is the resource limit. -/
structure Os where
  fds : List (Option Timer)
  limit : Nat
  deriving DecidableEq, Repr

/-- `timerfd_create(CLOCK_MONOTONIC, 0)`: the new descriptor, or -1 if there is no free one. -/
def Os.create (os : Os) : Os × Int :=
  if os.fds.length < os.limit then ({ os with fds := os.fds ++ [none] }, os.fds.length) else (os, -1)

/-- `timerfd_settime(fd, 0, {interval = value = (sec, nsec)}, NULL)` called at time `now`; the result is
`ret != -1`. -/
def Os.settime (os : Os) (fd : Int) (sec nsec now : Int) : Os × Bool :=
  if fd < 0 ∨ os.fds.length ≤ fd.toNat then (os, false)
  else if nsec < 0 ∨ 1000000000 ≤ nsec then (os, false)
  else
    let v := sec * 1000000000 + nsec
    ({ os with fds := os.fds.set fd.toNat (if v = 0 then none else some ⟨now + v, v, 0⟩) }, true)

/-- Number of expirations of a timer at time `t`. -/
def Timer.expirations (m : Timer) (t : Int) : Int :=
  if t < m.first then 0 else (t - m.first) / m.interval + 1

/-- What `read` does. -/
inductive ReadResult where
  /-- returns -1 at once -/
  | error
  /-- blocks for ever -/
  | never
  /-- returns at this time with this number of expirations -/
  | woke (time count : Int) (os : Os)
  deriving DecidableEq, Repr

/-- `read(fd, &missed, 8)` called at time `t`; the thread runs again `delay` ns after the moment at
which the call can return. -/
def Os.read (os : Os) (fd : Int) (t : Int) (delay : Nat) : ReadResult :=
  if fd < 0 then .error
  else match os.fds[fd.toNat]? with
    | none => .error
    | some none => .never
    | some (some m) =>
      let w := max t (m.first + m.reported * m.interval) + delay
      let n := m.expirations w
      .woke w (n - m.reported) { os with fds := os.fds.set fd.toNat (some { m with reported := n }) }

/-- PeriodicThreadImplTimerfd.h:49-57 the members; `none` = not initialised. -/
structure Obj where
  period : TB
  created : Bool
  fd : Option Int
  missed : Option Int
  deriving DecidableEq, Repr

/-- PeriodicThreadImplTimerfd.cpp:35-40 the constructor; `new struct periodic_info` does not initialise. -/
def Obj.new (period : TB) : Obj := ⟨period, false, none, none⟩

/-- PeriodicThreadImplTimerfd.cpp:61-89 `setPeriod(period)` called at `now`; `unsigned int` seconds and
nanoseconds. -/
def Obj.setPeriod (o : Obj) (os : Os) (p : TB) (now : Int) : Outcome (Obj × Os × Bool) :=
  let o' := { o with period := p }
  if o.created then
    match o.fd with
    | none => .ub
    | some fd =>
      let (os', r) := os.settime fd (wrapU32 p.secs) (wrapU32 p.nsecs) now
      .ok (o', os', r)
  else .ok (o', os, false)

/-- PeriodicThreadImplTimerfd.cpp:47-59 `makePeriodic()` called at `now`. -/
def Obj.makePeriodic (o : Obj) (os : Os) (now : Int) : Outcome (Obj × Os) := do
  let (os1, fd) := os.create
  let o1 := { o with missed := some 0, fd := some fd, created := o.created || decide (fd ≠ -1) }
  let (o2, os2, _) ← o1.setPeriod os1 o1.period now
  .ok (o2, os2)

/-- Result of `waitPeriod()`. -/
inductive WaitResult where
  /-- `read` failed, `perror`, returns without waiting -/
  | failed
  | never
  | woke (time : Int) (o : Obj) (os : Os)
  deriving DecidableEq, Repr

/-- PeriodicThreadImplTimerfd.cpp:91-106 `waitPeriod()` called at `t`; `unsigned long long` addition. -/
def Obj.waitPeriod (o : Obj) (os : Os) (t : Int) (delay : Nat) : Outcome WaitResult :=
  match o.fd with
  | none => .ub
  | some fd =>
    match os.read fd t delay with
    | .error => .ok .failed
    | .never => .ok .never
    | .woke w n os' =>
      match o.missed with
      | none => .ub
      | some m => .ok (.woke w { o with missed := some ((m + n) % 18446744073709551616) } os')

/-- PeriodicThreadImplTimerfd.cpp:42-45 the destructor: only the memory is released, the descriptor stays
open. -/
def Obj.destroy (_ : Obj) (os : Os) : Os := os

/-- The loop of a periodic thread: in each cycle it works for `busy` ns, calls `waitPeriod()` and
continues `delay` ns after the earliest possible moment. The times at which the calls return, with the
final object; `none` if some call does not wait or never returns. -/
def cycles (o : Obj) (os : Os) (t : Int) : List (Nat × Nat) → Option (List Int × Obj)
  | [] => some ([], o)
  | (busy, delay) :: rest =>
    match o.waitPeriod os (t + busy) delay with
    | .ok (.woke w o' os') =>
      match cycles o' os' w rest with
      | some (ws, o'') => some (w :: ws, o'')
      | none => none
    | _ => none

/-- The same loop with PeriodicThreadImplEmulate.cpp: `last` is `m_last_execution_time`; the sleep lasts
as long as requested plus `delay`, the clock is read without loss of time. -/
def emulated (period last t : Int) : List (Nat × Nat) → Option (List Int)
  | [] => some []
  | (busy, delay) :: rest =>
    let now := t + busy
    let clock : Nat → Int := fun k =>
      if k = 0 then now else if now < last + period then last + period + delay else now
    match Periodic.waitPeriod last period clock 2 with
    | some r =>
      match emulated period r.last r.last rest with
      | some ws => some (r.last :: ws)
      | none => none
    | none => none

end Verif.Conc.Timerfd
