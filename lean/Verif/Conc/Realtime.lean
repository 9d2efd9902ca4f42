import Verif.Base

/-!
# Model of the real-time mode of LXRT threads

`icl_core/os_lxrt.cpp`, `icl_core_thread/ThreadImplLxrt38.cpp` (33 and 35 have the same mode
functions), `Thread.cpp`, `PeriodicThread.cpp`, and the part of `icl_core_logging/LogStream.cpp`
that leaves hard real-time.

RTAI is trusted as documented: `rt_make_hard_real_time()` makes the calling task hard real-time
if RTAI grants it (the `grant` argument), and does nothing for a thread that is not an LXRT task;
`rt_make_soft_real_time()` always succeeds; a hard real-time task that uses a Linux service is
made soft by RTAI. OS threads and the `Thread` objects they run share their numbers; a program's
main thread has a number, too.
-/
namespace Verif.Conc.Realtime

/-- What LXRT knows about the threads of the process. -/
structure World where
  /-- `global_lxrt_available`, os_lxrt.cpp:58 -/
  avail : Bool
  /-- `rt_buddy() != NULL`: the thread is an LXRT task -/
  buddy : Nat → Bool
  /-- `rt_is_hard_real_time()` -/
  hard : Nat → Bool

/-- Change the mode of one thread. -/
def World.setHard (w : World) (c : Nat) (b : Bool) : World :=
  { w with hard := fun u => if u = c then b else w.hard u }

/-- os_lxrt.cpp:150-157 `isThisLxrtTask()`, called by thread `c`. -/
def isThisLxrtTask (w : World) (c : Nat) : Bool := w.avail && w.buddy c

/-- os_lxrt.cpp:159-166 `isThisHRT()`, called by thread `c`. -/
def isThisHRT (w : World) (c : Nat) : Bool := w.avail && w.buddy c && w.hard c

/-- RTAI `rt_make_hard_real_time()`; also os_lxrt.cpp:180-185 `makeHRT()`. -/
def makeHRT (w : World) (c : Nat) (grant : Bool) : World :=
  if w.buddy c && grant then w.setHard c true else w

/-- RTAI `rt_make_soft_real_time()`. -/
def makeSoft (w : World) (c : Nat) : World := w.setHard c false

/-- os_lxrt.cpp:168-178 `ensureNoHRT()`. -/
def ensureNoHRT (w : World) (c : Nat) : World × Bool :=
  if isThisHRT w c then (makeSoft w c, true) else (w, false)

/-- The results of the system calls in `makeThisAnLxrtTask()`. -/
structure StartupEnv where
  /-- `mlockall` succeeded -/
  mlock : Bool
  /-- `sched_setscheduler` succeeded -/
  sched : Bool
  /-- `rt_task_init` succeeded -/
  taskInit : Bool

/-- Result of `makeThisAnLxrtTask()`. -/
inductive Startup where
  /-- `exit(1)` -/
  | exit
  | ret (w : World) (n : Nat)

/-- os_lxrt.cpp:187-250 `makeThisAnLxrtTask()` (compiled for LXRT). The timer is not modelled. -/
def makeThisAnLxrtTask (w : World) (c : Nat) (e : StartupEnv) : Startup :=
  if !w.avail then .ret w 0
  else if isThisLxrtTask w c then .ret w 0
  else if !e.mlock then .ret w 0
  else if !e.sched then .exit
  else if !e.taskInit then .exit
  else .ret { w with buddy := fun u => if u = c then true else w.buddy u } 1

/-- os_lxrt.cpp:253-297 `makeThisALinuxTask()`. -/
def makeThisALinuxTask (w : World) (c : Nat) : World :=
  if isThisLxrtTask w c then
    let w := makeSoft w c
    { w with buddy := fun u => if u = c then false else w.buddy u }
  else w

/-- ThreadImplLxrt38.cpp:77-80 `isHardRealtime()`; the priority is that of the constructor
because `setPriority()` (124-145) always fails. -/
def isHardRealtime (prio : Nat → Int) (o : Nat) : Bool := prio o < 0

/-- ThreadImplLxrt38.cpp:82-85 `executesHardRealtime()` of object `_o`, called by thread `c`. -/
def executesHardRealtime (w : World) (c : Nat) (_o : Nat) : Bool := isThisHRT w c

/-- ThreadImplLxrt38.cpp:106-122 `setHardRealtime(b)` of object `_o`, called by thread `c`;
ThreadImplLxrt33.cpp:82-98 and ThreadImplLxrt35.cpp:107-123 are the same. -/
def setHardRealtime (w : World) (c : Nat) (_o : Nat) (b grant : Bool) : World × Bool :=
  if b && !isThisHRT w c then
    let w' := makeHRT w c grant
    (w', isThisHRT w' c)
  else if !b && isThisHRT w c then
    let w' := makeSoft w c
    (w', !isThisHRT w' c)
  else (w, false)

/-- ThreadImplPosix.h:61, ThreadImplWin32.h:65 `setHardRealtime(b)`. -/
def setHardRealtimePosix (b : Bool) : Bool := !b

/-- Thread.cpp:109-121 `checkHardRealtime()` of object `o`, called by thread `c`. The first
condition, `threadSelf()`, says that `c` is the object's own thread. `Thread::m_priority` is the
priority of the constructor: it changes only with a successful `setPriority()`
(Thread.cpp:163-174). -/
def checkHardRealtime (prio : Nat → Int) (w : World) (c o : Nat) (grant : Bool) : World × Bool :=
  if c = o ∧ isThisHRT w c ∧ isHardRealtime prio o = false ∧ prio o < 0 then
    setHardRealtime w c o true grant
  else (w, false)

/-- LogStream.cpp:126-146: the part of a log statement that creates a thread stream if no free
one is left (`new`). -/
def logStatement (w : World) (c : Nat) (new grant : Bool) : World :=
  if new then
    if isThisHRT w c then makeHRT (ensureNoHRT w c).1 c grant else w
  else w

/-- PeriodicThread.cpp:147-173: back to the mode of the thread before waiting. The log statements
are modelled by `logStatement`; `new` says whether they need a new thread stream. -/
def waitPeriodMode (prio : Nat → Int) (w : World) (c : Nat) (new grant : Bool) : World :=
  let w := logStatement w c new grant
  if isHardRealtime prio c && !executesHardRealtime w c c then
    logStatement (setHardRealtime w c c true grant).1 c new grant
  else if !isHardRealtime prio c && executesHardRealtime w c c then
    logStatement (setHardRealtime w c c false grant).1 c new grant
  else w

/-- ThreadImplLxrt38.cpp:190-220: what a new OS thread does before `run()`; `none`: `run()` is
not reached because `rt_task_init` failed. -/
def enterThread (prio : Nat → Int) (w : World) (c : Nat) (taskInit grant : Bool) : Option World :=
  if taskInit then
    let w := { w with buddy := fun u => if u = c then true else w.buddy u, hard := fun u => if u = c then false else w.hard u }
    some (if prio c < 0 then makeHRT w c grant else w)
  else none

/-- What can happen. -/
inductive Ev where
  /-- thread `c` uses a Linux service: RTAI makes it soft -/
  | linuxCall (c : Nat)
  | setHard (c o : Nat) (b : Bool)
  | check (c o : Nat)
  | log (c : Nat) (new : Bool)
  | waitPeriod (c : Nat) (new : Bool)
  | enter (c : Nat)
  | toLinux (c : Nat)

/-- The thread an event happens in. -/
def Ev.thread : Ev → Nat
  | .linuxCall c | .setHard c _ _ | .check c _ | .log c _ | .waitPeriod c _ | .enter c | .toLinux c => c

/-- One event; every request for hard real-time is answered by `grant`, `rt_task_init` succeeds. -/
def step (prio : Nat → Int) (w : World) (grant : Bool) : Ev → World
  | .linuxCall c => makeSoft w c
  | .setHard c o b => (setHardRealtime w c o b grant).1
  | .check c o => (checkHardRealtime prio w c o grant).1
  | .log c new => logStatement w c new grant
  | .waitPeriod c new => waitPeriodMode prio w c new grant
  | .enter c => (enterThread prio w c true grant).getD w
  | .toLinux c => makeThisALinuxTask w c

/-- A history of events, each with the answer of RTAI. -/
def run (prio : Nat → Int) (w : World) : List (Ev × Bool) → World
  | [] => w
  | (e, g) :: r => run prio (step prio w g e) r

end Verif.Conc.Realtime
