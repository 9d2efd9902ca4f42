import Verif.Conc.Scoped

/-!
# Read/write locks on POSIX systems (C94): `RWLockImplPosix.cpp`, `RWLock.cpp`

The operating system's `pthread_rwlock_t` is modelled by the documented behaviour of its default kind
(glibc: waiting writers do not keep readers out); the library's part is which function it calls and how it
turns the result codes into `bool`s. Steps are atomic; a blocked call is a step that is not enabled yet.
Threads are numbers. When a timed call gives up is the subject of C84: here a timed call that cannot be
served may give up at any time.
-/
namespace Verif.Conc.RWLockPosix

/-- Result codes of the pthread functions. -/
inductive Rc where
  /-- 0 -/
  | ok
  /-- `EBUSY` -/
  | busy
  /-- `ETIMEDOUT` (or `EINVAL` for a time before 1970) -/
  | timedout
  /-- `EAGAIN`: too many readers -/
  | again
  /-- `EDEADLK`: the caller holds the write lock -/
  | deadlk
  deriving DecidableEq, Repr

/-- The numerical value (Linux), as the code compares it with 0. -/
def Rc.code : Rc → Nat
  | .ok => 0
  | .busy => 16
  | .timedout => 110
  | .again => 11
  | .deadlk => 35

/-- The operating system's lock object: the writer, and one entry for each read lock. -/
structure Os where
  writer : Option Nat
  readers : List Nat
  deriving DecidableEq, Repr

/-- RWLockImplPosix.cpp:33-38 constructor, `pthread_rwlock_init`. -/
def Os.new : Os := ⟨none, []⟩

/-- How a thread asks for the lock. -/
inductive How where
  /-- `readLock()`, `writeLock()` -/
  | wait
  /-- with a timeout -/
  | timed
  /-- `tryReadLock()`, `tryWriteLock()` -/
  | try_
  deriving DecidableEq, Repr

/-- What a call that cannot be served does; `none` = it waits. -/
def Os.refuse (s : Os) : How → Option (Os × Rc)
  | .wait => none
  | .timed => some (s, .timedout)
  | .try_ => some (s, .busy)

/-- `pthread_rwlock_rdlock`, `_timedrdlock`, `_tryrdlock` with at most `max` read locks. -/
def Os.rd (max : Nat) (s : Os) (t : Nat) (h : How) : Option (Os × Rc) :=
  match s.writer with
  | none => if s.readers.length < max then some ({ s with readers := t :: s.readers }, .ok) else some (s, .again)
  | some w => if w = t ∧ h ≠ .try_ then some (s, .deadlk) else s.refuse h

/-- `pthread_rwlock_wrlock`, `_timedwrlock`, `_trywrlock`. -/
def Os.wr (s : Os) (t : Nat) (h : How) : Option (Os × Rc) :=
  match s.writer with
  | none => if s.readers = [] then some ({ s with writer := some t }, .ok) else s.refuse h
  | some w => if w = t ∧ h ≠ .try_ then some (s, .deadlk) else s.refuse h

/-- `pthread_rwlock_unlock`: undefined (`none`) if the caller holds no lock. -/
def Os.unlock (s : Os) (t : Nat) : Option Os :=
  if s.writer = some t then some { s with writer := none }
  else if t ∈ s.readers then some { s with readers := s.readers.erase t }
  else none

/-- C++ conversion of an integer to `bool`. -/
def toBool (n : Nat) : Bool := n ≠ 0

/-- C++ conversion of a `bool` to `int`. -/
def toInt (b : Bool) : Nat := if b then 1 else 0

/-- RWLockImplPosix.cpp:50-53, 68-70 (`int ret … ret == 0`) and 80-84 (`bool ret … ret == 0`). -/
def readResult (h : How) (rc : Rc) : Bool :=
  match h with
  | .wait => rc.code = 0
  | .timed => rc.code = 0
  | .try_ => toInt (toBool rc.code) = 0

/-- RWLockImplPosix.cpp:86-89, 104-106 and 116-120 (both `bool ret … ret == 0`). -/
def writeResult (h : How) (rc : Rc) : Bool :=
  match h with
  | .wait => rc.code = 0
  | .timed => toInt (toBool rc.code) = 0
  | .try_ => toInt (toBool rc.code) = 0

/-- What a thread does. -/
inductive Ev where
  | read (t : Nat) (h : How)
  | write (t : Nat) (h : How)
  | unlock (t : Nat)
  deriving DecidableEq, Repr

/-- The thread. -/
def Ev.who : Ev → Nat
  | .read t _ => t
  | .write t _ => t
  | .unlock t => t

/-- An entry of the history: the event and the value returned to the caller (`true` for `unlock`). -/
structure Rec where
  ev : Ev
  res : Bool
  deriving DecidableEq, Repr

/-- RWLock.cpp:85-165: forwards to the implementation. `none` = the call waits, or is undefined. -/
def step (max : Nat) (s : Os) (e : Ev) : Option (Os × Rec) :=
  match e with
  | .read t h => (s.rd max t h).map fun x => (x.1, ⟨e, readResult h x.2⟩)
  | .write t h => (s.wr t h).map fun x => (x.1, ⟨e, writeResult h x.2⟩)
  | .unlock t => (s.unlock t).map fun s' => (s', ⟨e, true⟩)

/-- Histories that can happen from a state. -/
inductive Run (max : Nat) : Os → List Rec → Os → Prop where
  | nil (s : Os) : Run max s [] s
  | cons {s s' s'' : Os} {e : Ev} {r : Rec} {rs : List Rec} :
      step max s e = some (s', r) → Run max s' rs s'' → Run max s (r :: rs) s''

/-! ## Specification -/

/-- What a thread holds according to the results it got: whether it has the write lock, and how many read
locks. -/
structure Held where
  write : Bool
  reads : Nat
  deriving DecidableEq, Repr

/-- Holding nothing. -/
def Held.nothing : Held := ⟨false, 0⟩

/-- The effect of one entry of the history on the thread `t`: a call that returned `true` gives the lock,
one that returned `false` changes nothing, `unlock()` gives the write lock back, else one read lock. -/
def Held.next (t : Nat) (x : Held) (r : Rec) : Held :=
  if r.ev.who = t then
    match r.ev with
    | .read _ _ => if r.res then { x with reads := x.reads + 1 } else x
    | .write _ _ => if r.res then { x with write := true } else x
    | .unlock _ => if x.write then { x with write := false } else { x with reads := x.reads - 1 }
  else x

/-- What the thread `t` holds after a history. -/
def held (t : Nat) (rs : List Rec) : Held := rs.foldl (Held.next t) .nothing

end Verif.Conc.RWLockPosix
