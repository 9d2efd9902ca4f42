import Verif.Time.Props

/-!
# The sleep functions of `icl_core::os` (C83)

`icl_core/os_win32_time.cpp` and the LXRT branches of `icl_core/os_posix_time.cpp` translate a request
into a call of the operating system's sleep primitive (`Sleep`, `rt_sleep`). Each function below returns
what is handed to the primitive, the function's result, and the remaining time it stores. The plain POSIX
branches call the C library function of the same name with the same argument and are not modelled.

The two clock readings of the Windows functions are modelled as written: they are default constructed
`TimeStamp`s (TimeStamp.h:64-67 "creates a null time"), not `TimeStamp::now()`.
-/
namespace Verif.Time.Sleep
open Verif.Time

/-- The argument of the operating system's sleep primitive. -/
inductive Prim where
  /-- `Sleep(ms)`; `0xFFFFFFFF` is `INFINITE` -/
  | win32 (ms : Int)
  /-- `rt_sleep(nano2count(ns))` -/
  | lxrt (ns : Int)
  deriving DecidableEq, Repr

/-- A `struct timespec`. -/
structure Spec where
  sec : Int
  nsec : Int
  deriving DecidableEq, Repr

/-- TimeStamp.h:64-67 the default constructor, TimeBase.h: `secs(0), nsecs(0)`. -/
def nullStamp : TB := ⟨0, 0⟩

/-- os_win32_time.cpp:46 (and 74, 92) `icl_core::TimeStamp() - start_time`. -/
def win32SleepTime : Outcome TB := stampDiff nullStamp nullStamp

/-- What a sleep function did. -/
structure Slept where
  prim : Prim
  result : Int
  /-- what is stored in `*rmtp` -/
  rem : Option Spec
  deriving DecidableEq, Repr

/-- os_win32_time.cpp:43-72 `nanosleep(rqtp, rmtp)` with `rmtp != 0`. `time_t` is 64 bits wide; the
conversion to `DWORD` takes the value modulo 2^32. -/
def win32Nanosleep (rq : Spec) : Outcome Slept := do
  let wait ← ofTimespec rq.sec rq.nsec
  let m ← i64 (1000 * rq.sec)
  let m ← i64 (m + rq.nsec.tdiv 1000000)
  let prim := Prim.win32 (wrapU32 m)
  let slept ← win32SleepTime
  let ms ← ctor 0 1000000
  let sum ← spanAdd slept ms
  if ge sum wait then .ok ⟨prim, 0, some ⟨0, 0⟩⟩
  else do
    let left ← spanSub wait slept
    .ok ⟨prim, -1, some ⟨left.secs, left.nsecs⟩⟩

/-- os_win32_time.cpp:74-89 `sleep(seconds)`; `1000*seconds` is `unsigned int` arithmetic, and the result
is converted to `unsigned int`. -/
def win32Sleep (s : Int) : Outcome Slept := do
  let prim := Prim.win32 (wrapU32 (1000 * s))
  let slept ← win32SleepTime
  if slept.secs ≥ s then .ok ⟨prim, 0, none⟩
  else .ok ⟨prim, wrapU32 (slept.secs - s), none⟩

/-- os_win32_time.cpp:91-107 `usleep(useconds)`. -/
def win32Usleep (us : Int) : Outcome Slept := do
  let prim := Prim.win32 (wrapU32 (us / 1000))
  let slept ← win32SleepTime
  let u ← toUSec slept
  if u + 1000 ≥ us then .ok ⟨prim, 0, none⟩ else .ok ⟨prim, -1, none⟩

/-- os_posix_time.cpp:73-82 `nanosleep` in a real-time task. -/
def lxrtNanosleep (rq : Spec) : Outcome Slept := do
  let n ← i64 (1000000 * rq.sec)
  let n ← i64 (n + rq.nsec)
  .ok ⟨.lxrt n, 0, some ⟨0, 0⟩⟩

/-- os_posix_time.cpp:93-97 `sleep` in a real-time task; `1000000000*seconds` is `unsigned int`
arithmetic. -/
def lxrtSleep (s : Int) : Outcome Slept := .ok ⟨.lxrt (wrapU32 (1000000000 * s)), 0, none⟩

/-- os_posix_time.cpp:108-112 `usleep` in a real-time task; `unsigned long` is 64 bits wide. -/
def lxrtUsleep (us : Int) : Outcome Slept := .ok ⟨.lxrt (wrapI64 (wrapU64 (1000 * us))), 0, none⟩

/-- The usual way of sleeping despite interruptions, `while (nanosleep(&ts, &ts) != 0);`, at most `k`
rounds; `none` means not finished. -/
def retry (nano : Spec → Outcome Slept) : Nat → Spec → Option Spec
  | 0, _ => none
  | k + 1, rq =>
    match nano rq with
    | .ok r => if r.result = 0 then some rq else retry nano k (r.rem.getD rq)
    | _ => none

/-! ## Specification -/

/-- A valid request: non-negative, less than 10^9 nanoseconds, and at most 9*10^12 seconds. -/
def Valid (rq : Spec) : Prop :=
  0 ≤ rq.sec ∧ rq.sec ≤ 9000000000000 ∧ 0 ≤ rq.nsec ∧ rq.nsec < 1000000000

instance (rq : Spec) : Decidable (Valid rq) := by unfold Valid; infer_instance

/-- Requested nanoseconds. -/
def Spec.ns (rq : Spec) : Int := rq.sec * 1000000000 + rq.nsec

/-- Nanoseconds the primitive is asked to sleep. -/
def Prim.ns : Prim → Int
  | .win32 ms => ms * 1000000
  | .lxrt ns => ns

end Verif.Time.Sleep
