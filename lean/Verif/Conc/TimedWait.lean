import Verif.Time.Props

/-!
# Timed `lock()`/`wait()` of mutexes, semaphores and read-write locks (C84)

When does a call that cannot get the lock give up? The operating system's part is assumed:
`WaitForSingleObject(h, ms)` gives up `ms` milliseconds after the call (never for `INFINITE`),
`pthread_mutex_timedlock`, `pthread_rwlock_timedrdlock/timedwrlock` and `sem_timedwait` give up when the
real-time clock reaches the absolute time, `semaphore_timedwait` (Darwin) after the relative time.
What is modelled is the code of the library that computes these arguments.
-/
namespace Verif.Conc.TimedWait
open Verif.Time

/-- When a call gives up, as a clock reading in nanoseconds. -/
inductive Limit where
  | at (ns : Int)
  | never
  deriving DecidableEq, Repr

/-- Contract of `WaitForSingleObject(h, ms)` called at `now`; `INFINITE` is `0xFFFFFFFF`. -/
def waitForSingleObject (now : TB) (ms : Int) : Limit :=
  if ms = 4294967295 then .never else .at (total now + ms * 1000000)

/-- MutexImplWin32.cpp:52-55 `lock(TimeSpan)`, SemaphoreImplWin32.cpp:57-61 `wait(TimeSpan)`:
`DWORD(timeout.toMSec())`. -/
def win32Relative (now d : TB) : Outcome Limit := do
  let ms ← toMSec d
  .ok (waitForSingleObject now (wrapU32 ms))

/-- MutexImplWin32.cpp:47-50 `lock(TimeStamp)`, SemaphoreImplWin32.cpp:63-66 `wait(TimeStamp)`; `now` is
the clock read by `getRelativeTimeout`, `now'` the time of the system call right after it. -/
def win32Absolute (now now' t : TB) : Outcome Limit := do
  let d ← getRelativeTimeout now t
  win32Relative now' d

/-- Contract of the POSIX functions with an absolute `timespec`. -/
def posixTimed (sec nsec : Int) : Limit := .at (sec * 1000000000 + nsec)

/-- MutexImplPosix.cpp:59-75, SemaphoreImplPosix.cpp:70-75, RWLockImplPosix.cpp:56-72, 92-108: the
absolute variants, `timeout.timespec()` (TimeBase.cpp:113-119, 64-bit `time_t`). -/
def posixAbsolute (t : TB) : Outcome Limit := .ok (posixTimed t.secs t.nsecs)

/-- MutexImplPosix.cpp:77-80, SemaphoreImplPosix.cpp:65-68, RWLockImplPosix.cpp:75-78, 111-114: the
relative variants. -/
def posixRelative (now d : TB) : Outcome Limit := do
  let t ← getAbsoluteTimeout now d
  posixAbsolute t

/-- SemaphoreImplDarwin.cpp:60-65 `wait(TimeSpan)` with TimeBase.cpp:148-154 `machTimespec()`: seconds are
converted to `unsigned int`, nanoseconds to `int`. -/
def darwinSemRelative (now d : TB) : Outcome Limit :=
  .ok (.at (total now + wrapU32 d.secs * 1000000000 + d.nsecs))

/-- SemaphoreImplDarwin.cpp:67-70 `wait(TimeStamp)`. -/
def darwinSemAbsolute (now now' t : TB) : Outcome Limit := do
  let d ← getRelativeTimeout now t
  darwinSemRelative now' d

/-- One round of the Darwin loop: whether the `trylock` succeeded, and the clock read after it. -/
structure Poll where
  got : Bool
  now : TB

/-- MutexImplPosix.cpp:60-69, RWLockImplPosix.cpp:57-65, 93-101 (`_SYSTEM_DARWIN_`): try, and while the
deadline has not passed sleep a microsecond and try again. The successive polls are an input; `none`:
still waiting after them. -/
def darwinPoll (t : TB) : List Poll → Option Bool
  | [] => none
  | p :: ps => if p.got then some true else if gt t p.now then darwinPoll t ps else some false

end Verif.Conc.TimedWait
