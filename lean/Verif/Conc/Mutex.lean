/-!
# Mutexes (C85): `MutexImplPosix.cpp` and `MutexImplWin32.cpp`

The operating system's mutex is modelled by its documented behaviour (both kinds are recursive); the
library's part is which kind it creates and how it turns the result codes into `bool`s. Steps are atomic;
a blocked `lock()` is a step that is not enabled. Threads are numbers; a thread may end at any time.
-/
namespace Verif.Conc.Mutex

/-- Result codes of the operating system. -/
inductive Rc where
  /-- 0, `WAIT_OBJECT_0` -/
  | ok
  /-- `EBUSY`, `ETIMEDOUT`, `WAIT_TIMEOUT` -/
  | busy
  /-- `EAGAIN`: recursion limit -/
  | again
  /-- `WAIT_ABANDONED`: acquired, but the previous owner ended without releasing it -/
  | abandoned
  deriving DecidableEq, Repr

/-- The operating system's mutex object. -/
structure Os where
  owner : Option Nat
  count : Nat
  /-- Windows: the last owner ended while holding it -/
  aband : Bool
  deriving DecidableEq, Repr

/-- A new mutex, MutexImplPosix.cpp:33-42, MutexImplWin32.cpp:29-32 (`bInitialOwner = false`). -/
def Os.new : Os := ⟨none, 0, false⟩

/-- How a thread asks for the mutex. -/
inductive How where
  /-- `lock()`, waits for ever -/
  | wait
  /-- `lock(timeout)` -/
  | timed
  /-- `tryLock()` -/
  | try_
  deriving DecidableEq, Repr

/-- Which implementation. -/
inductive Plat where
  /-- recursive pthread mutex with the given recursion limit -/
  | posix (max : Nat)
  | win32
  deriving DecidableEq, Repr

/-- The operating system's acquire operation: `none` means it blocks. MutexImplPosix.cpp:40 makes the
pthread mutex `PTHREAD_MUTEX_RECURSIVE`; Windows mutexes always are. -/
def Os.acquire (p : Plat) (s : Os) (t : Nat) (h : How) : Option (Os × Rc) :=
  match s.owner with
  | none =>
    match p with
    | .posix max => if 0 < max then some (⟨some t, 1, false⟩, .ok) else some (s, .again)
    | .win32 => some (⟨some t, 1, false⟩, if s.aband then .abandoned else .ok)
  | some o =>
    if o = t then
      match p with
      | .posix max => if s.count < max then some ({ s with count := s.count + 1 }, .ok) else some (s, .again)
      | .win32 => some ({ s with count := s.count + 1 }, .ok)
    else
      match h with
      | .wait => none
      | .timed => some (s, .busy)
      | .try_ => some (s, .busy)

/-- `pthread_mutex_unlock`, `ReleaseMutex`: refused unless the caller is the owner. -/
def Os.release (s : Os) (t : Nat) : Os :=
  if s.owner = some t then (if s.count ≤ 1 then { s with owner := none, count := 0 } else { s with count := s.count - 1 }) else s

/-- A thread ends: a pthread mutex stays locked, a Windows mutex is abandoned. -/
def Os.exit (p : Plat) (s : Os) (t : Nat) : Os :=
  match p with
  | .posix _ => s
  | .win32 => if s.owner = some t then ⟨none, 0, true⟩ else s

/-- MutexImplPosix.cpp:54-57, 73-74, 82-86 `… == 0`; MutexImplWin32.cpp:42-45, 57-65
`… == WAIT_OBJECT_0`. -/
def result (rc : Rc) : Bool := rc = .ok

/-- What a thread does. -/
inductive Ev where
  | acquire (t : Nat) (h : How)
  | unlock (t : Nat)
  | exit (t : Nat)
  deriving DecidableEq, Repr

/-- An entry of the history: the event and, for an acquisition, the returned value. -/
structure Rec where
  ev : Ev
  res : Bool
  deriving DecidableEq, Repr

/-- `Mutex::lock/tryLock/unlock` (Mutex.cpp forwards to the implementation). -/
def step (p : Plat) (s : Os) : Ev → Option (Os × Rec)
  | .acquire t h => (s.acquire p t h).map fun (s', rc) => (s', ⟨.acquire t h, result rc⟩)
  | .unlock t => some (s.release t, ⟨.unlock t, false⟩)
  | .exit t => some (s.exit p t, ⟨.exit t, false⟩)

/-- Histories that can happen from a state. -/
inductive Run (p : Plat) : Os → List Rec → Os → Prop where
  | nil (s : Os) : Run p s [] s
  | cons {s s' s'' : Os} {e : Ev} {r : Rec} {rs : List Rec} :
      step p s e = some (s', r) → Run p s' rs s'' → Run p s (r :: rs) s''

/-! ## Specification -/

/-- How many times thread `t` holds the mutex according to the results it got: each `true` counts one up,
each `unlock()` one down (not below zero); a thread that has ended holds nothing. -/
def held (t : Nat) (n : Nat) : List Rec → Nat
  | [] => n
  | ⟨.acquire t' _, b⟩ :: rs => held t (if t' = t ∧ b = true then n + 1 else n) rs
  | ⟨.unlock t', _⟩ :: rs => held t (if t' = t then n - 1 else n) rs
  | ⟨.exit t', _⟩ :: rs => held t (if t' = t then 0 else n) rs

/-- How many times thread `t` really holds it. -/
def Os.holds (s : Os) (t : Nat) : Nat := if s.owner = some t then s.count else 0

end Verif.Conc.Mutex
