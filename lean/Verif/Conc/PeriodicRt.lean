import Verif.Time.Props

/-!
# Periodic threads under LXRT and QNX (C104)

`PeriodicThreadImplLxrt38.cpp` (`33` and `35` are the same but for the name) and
`PeriodicThreadImplQNX.cpp`. Times are nanoseconds of the system's clock.

Trusted behaviour of RTAI (documentation of the scheduler): `rt_task_make_periodic_relative_ns(task, 0, p)`
makes the current time the first release; `rt_task_wait_period()` advances the release by the period; if
the new release is in the future the task sleeps until then and the result is 0, otherwise the call returns
at once with an overrun code. Sleeps that are interrupted by `rt_task_masked_unblock` are not modelled (nobody
calls it). Trusted behaviour of QNX: an interval timer queues one pulse at each expiration;
`MsgReceivePulse` takes the oldest queued pulse or blocks until there is one and fails for an invalid channel.
-/
namespace Verif.Conc.PeriodicRt
open Verif.Time

/-! ## LXRT -/

/-- What RTAI stores about a periodic task. -/
structure Task where
  resume : Int
  period : Int
  deriving DecidableEq, Repr

/-- `rt_task_wait_period()` called at `now`: the task afterwards and whether the result was 0 (the task has
slept until its release). -/
def rtWaitPeriod (k : Task) (now : Int) : Task × Bool :=
  let r := k.resume + k.period
  (⟨r, k.period⟩, decide (now < r))

/-- PeriodicThreadImplLxrt38.cpp:51-55 `waitPeriod()`: the `i`-th call of `rt_task_wait_period` happens at
`clock i`; `none` = the loop has not ended after `fuel` calls. -/
def lxWaitPeriod (clock : Nat → Int) : Nat → Nat → Task → Option Task
  | 0, _, _ => none
  | fuel + 1, i, k =>
    match rtWaitPeriod k (clock i) with
    | (k', true) => some k'
    | (k', false) => lxWaitPeriod clock fuel (i + 1) k'

/-- PeriodicThreadImplLxrt38.h:35-48: the member `m_period`, and the task (`none` until `makePeriodic`). -/
structure LxObj where
  period : TB
  task : Option Task
  deriving DecidableEq, Repr

/-- PeriodicThreadImplLxrt38.cpp:31-34 the constructor. -/
def LxObj.new (p : TB) : LxObj := ⟨p, none⟩

/-- PeriodicThreadImplLxrt38.cpp:40-43 `makePeriodic()` called at `now`. -/
def LxObj.makePeriodic (o : LxObj) (now : Int) : Outcome LxObj := do
  let p ← toNSec o.period
  .ok { o with task := some ⟨now, p⟩ }

/-- PeriodicThreadImplLxrt38.cpp:45-49 `setPeriod()`. -/
def LxObj.setPeriod (o : LxObj) (p : TB) : LxObj × Bool := ({ o with period := p }, true)

/-- One cycle of the thread: how long it works, how long each call of `rt_task_wait_period` takes that reports
an overrun, and how late the thread runs again after its release. -/
structure Cycle where
  busy : Nat
  cost : Nat
  delay : Nat
  deriving DecidableEq, Repr

/-- The loop of a periodic thread: the times at which the calls of `waitPeriod()` return, given fuel for each
call; `none` if a call does not return within its fuel. -/
def lxCycles (fuel : Nat) (k : Task) (t : Int) : List Cycle → Option (List Int)
  | [] => some []
  | c :: rest =>
    match lxWaitPeriod (fun i => t + c.busy + i * c.cost) fuel 0 k with
    | none => none
    | some k' =>
      match lxCycles fuel k' (k'.resume + c.delay) rest with
      | none => none
      | some ws => some ((k'.resume + c.delay) :: ws)

/-! ## QNX -/

/-- The channel with its timer: pulses queued by earlier settings of the timer, and the timer (first expiration,
interval, number of its pulses already received). -/
structure Chan where
  stale : Nat
  timer : Option (Int × Int × Nat)
  deriving DecidableEq, Repr

/-- PeriodicThreadImplQNX.h:37-60 the members; `chan = none`: `m_chid == -1`; the channel belongs to the object. -/
structure QObj where
  period : TB
  made : Bool
  chan : Option Chan
  deriving DecidableEq, Repr

/-- PeriodicThreadImplQNX.cpp:32-43 the constructor; `ok`: `ChannelCreate` succeeds. -/
def QObj.new (p : TB) (ok : Bool) : QObj := ⟨p, false, if ok then some ⟨0, none⟩ else none⟩

/-- Expirations of a timer up to `now`. -/
def expired (first interval now : Int) : Nat := if now < first then 0 else ((now - first) / interval + 1).toNat

/-- `timer_settime(id, 0, {value = interval = (sec, nsec)}, NULL)` at `now`: fails (no effect) for values that
are not canonical or negative, disarms the timer for zero. Pulses that are already queued stay in the channel. -/
def Chan.settime (c : Chan) (sec nsec now : Int) : Chan :=
  if nsec < 0 ∨ 1000000000 ≤ nsec ∨ sec < 0 then c
  else
    let v := sec * 1000000000 + nsec
    let queued := match c.timer with
      | none => c.stale
      | some (first, interval, got) => c.stale + (expired first interval now - got)
    ⟨queued, if v = 0 then none else some (now + v, v, 0)⟩

/-- PeriodicThreadImplQNX.cpp:85-98 `setPeriod()` called at `now`. -/
def QObj.setPeriod (o : QObj) (p : TB) (now : Int) : QObj × Bool :=
  if o.made then ({ o with period := p, chan := o.chan.map (·.settime p.secs p.nsecs now) }, true)
  else ({ o with period := p }, true)

/-- PeriodicThreadImplQNX.cpp:50-83 `makePeriodic()` called at `now`; `attach`, `create`: `ConnectAttach` and
`timer_create` succeed. -/
def QObj.makePeriodic (o : QObj) (attach create : Bool) (now : Int) : QObj :=
  if o.chan = none then o
  else if !attach then o
  else if !create then o
  else ({ o with made := true }.setPeriod o.period now).1

/-- What `waitPeriod()` does. -/
inductive Wait where
  /-- returns at once with an error -/
  | failed
  /-- blocks for ever -/
  | never
  | woke (time : Int) (o : QObj)
  deriving DecidableEq, Repr

/-- PeriodicThreadImplQNX.cpp:100-109 `waitPeriod()` called at `t`; the thread runs `delay` ns after it can. -/
def QObj.waitPeriod (o : QObj) (t : Int) (delay : Nat) : Wait :=
  match o.chan with
  | none => .failed
  | some c =>
    if 0 < c.stale then .woke (t + delay) { o with chan := some { c with stale := c.stale - 1 } }
    else match c.timer with
      | none => .never
      | some (first, interval, got) =>
        .woke (max t (first + got * interval) + delay) { o with chan := some { c with timer := some (first, interval, got + 1) } }

/-- The loop of a periodic thread. -/
def qCycles (o : QObj) (t : Int) : List (Nat × Nat) → Option (List Int)
  | [] => some []
  | (busy, delay) :: rest =>
    match o.waitPeriod (t + busy) delay with
    | .woke w o' =>
      match qCycles o' w rest with
      | some ws => some (w :: ws)
      | none => none
    | _ => none

end Verif.Conc.PeriodicRt
