import Verif.Time.Model

/-!
# Semaphores (C86): `SemaphoreImplPosix.cpp`, `SemaphoreImplWin32.cpp`

Used by `icl_core_thread::Semaphore` and, in a copy of the same files, by `icl_core_logging::Semaphore`.
The operating system's semaphore is modelled by its documented behaviour; a blocked `wait()` is a step
that is not enabled. The library's part is the conversion of the initial value, and that results of
`post` are ignored and results of waiting become `bool`s.
-/
namespace Verif.Conc.Sem
open Verif.Time

/-- Which implementation. -/
inductive Plat where
  | posix
  | win32
  deriving DecidableEq, Repr

/-- Largest value: `SEM_VALUE_MAX` (Linux) and `LONG_MAX` (Windows) are both 2^31 - 1. -/
def maxValue : Nat := 2147483647

/-- The semaphore object. -/
inductive Os where
  | value (n : Nat)
  /-- `sem_init` failed: the memory is not a semaphore -/
  | uninit
  /-- `CreateSemaphore` failed: the handle is NULL -/
  | null
  deriving DecidableEq, Repr

/-- SemaphoreImplPosix.cpp:31-36 (`sem_init(…, unsigned int)`), SemaphoreImplWin32.cpp:29-33
(`LONG(initial_value)`); the result is not checked. -/
def create (p : Plat) (initial : Nat) : Os :=
  match p with
  | .posix =>
    let v := initial % 4294967296
    if v ≤ maxValue then .value v else .uninit
  | .win32 =>
    let v := wrapI32 initial
    if 0 ≤ v then .value v.toNat else .null

/-- How a thread waits. -/
inductive How where
  | wait
  | timed
  | try_
  deriving DecidableEq, Repr

/-- What happens to a semaphore. -/
inductive Ev where
  | post
  /-- a wait; `intr`: a signal interrupts it if it has to block (POSIX) -/
  | wait (h : How) (intr : Bool)
  deriving DecidableEq, Repr

/-- Outcome of an event. -/
inductive Res where
  /-- not enabled: the thread blocks -/
  | blocked
  /-- undefined behaviour -/
  | ub
  | ok (s : Os) (r : Bool)
  deriving DecidableEq, Repr

/-- `post()` (SemaphoreImplPosix.cpp:48-51, SemaphoreImplWin32.cpp:40-43, result ignored), `tryWait()`,
`wait()`, `wait(timeout)` (SemaphoreImplPosix.cpp:53-75, SemaphoreImplWin32.cpp:45-66). -/
def step (p : Plat) (s : Os) (e : Ev) : Res :=
  match s with
  | .uninit => .ub
  | .null => .ok s false
  | .value n =>
    match e with
    | .post => .ok (.value (if n < maxValue then n + 1 else n)) false
    | .wait h intr =>
      if 0 < n then .ok (.value (n - 1)) true
      else
        match h with
        | .try_ => .ok s false
        | .timed => .ok s false
        | .wait => if p = .posix ∧ intr = true then .ok s false else .blocked

/-- An event and its result. -/
structure Rec where
  ev : Ev
  res : Bool
  deriving DecidableEq, Repr

/-- Histories that can happen. -/
inductive Run (p : Plat) : Os → List Rec → Os → Prop where
  | nil (s : Os) : Run p s [] s
  | cons {s s' s'' : Os} {e : Ev} {r : Bool} {rs : List Rec} :
      step p s e = .ok s' r → Run p s' rs s'' → Run p s (⟨e, r⟩ :: rs) s''

/-! ## Specification -/

/-- Number of `post()`s. -/
def posts (rs : List Rec) : Nat := (rs.filter fun r => r.ev = .post).length

/-- Number of successful waits. -/
def taken (rs : List Rec) : Nat := (rs.filter fun r => r.ev ≠ .post ∧ r.res = true).length

end Verif.Conc.Sem
