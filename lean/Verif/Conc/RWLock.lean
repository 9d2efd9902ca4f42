import Verif.Base

/-!
# Model of `icl_core_thread/RWLockImplWin32.cpp`

One action = one Win32 call or one access to a shared member. `m_reader_mutex_event` is an
auto-reset event (initially signalled), `m_writer_mutex` a recursive mutex,
`m_reader_access_lock` an `icl_core::thread::Mutex`.  Client discipline: `unlock` only when
holding something, `writeLock` only when holding nothing, `readLock` only when not holding
the write lock (several read locks per thread are allowed).
Memory is sequentially consistent; thread ids are natural numbers, `m_writer_pid == 0` is
`none`; `m_number_of_reader` is never used by the code and left out.
-/
namespace Verif.RWLock

/-- Where a thread is. -/
inductive PC where
  /-- outside, possibly holding read locks -/
  | idle
  /-- RWLockImplWin32.cpp:66 waiting for `m_reader_access_lock` -/
  | rLock
  /-- cpp:68 about to test `m_reader_pid.empty()` -/
  | rCheck
  /-- cpp:70 waiting for the event -/
  | rWait
  /-- cpp:72-76 about to add itself -/
  | rPush
  /-- cpp:77 about to unlock `m_reader_access_lock` and return -/
  | rUnlock (ret : Bool)
  /-- cpp:106 waiting for `m_writer_mutex` -/
  | wMutex
  /-- cpp:107 waiting for the event -/
  | wEvent
  /-- cpp:110 about to set `m_writer_pid` -/
  | wPid
  /-- cpp:111 about to increment `m_number_of_writer` -/
  | wCount
  /-- outside, holding the write lock -/
  | holdW
  /-- cpp:126 about to compare `m_writer_pid`; the flag (ghost) says which kind of lock the
  client is releasing -/
  | uCheck (w : Bool)
  /-- cpp:128 about to release `m_writer_mutex` -/
  | uwRelease
  /-- cpp:129-130 about to decrement and test `m_number_of_writer` -/
  | uwCount
  /-- cpp:132 about to clear `m_writer_pid` -/
  | uwPid
  /-- cpp:133 about to set the event -/
  | uwSet
  /-- cpp:139 waiting for `m_reader_access_lock` -/
  | urLock
  /-- cpp:141-146 about to remove itself -/
  | urErase
  /-- cpp:149 about to set the event -/
  | urSet
  /-- cpp:154 about to unlock `m_reader_access_lock` -/
  | urUnlock
  deriving DecidableEq, Repr

/-- The members (RWLockImplWin32.h:60-66), the threads, and per thread the number of read
locks its client code holds. -/
structure State where
  access : Option Nat
  event : Bool
  mOwner : Option Nat
  mCount : Nat
  nWriter : Nat
  writerPid : Option Nat
  readers : List Nat
  pc : Nat → PC
  reads : Nat → Nat

/-- RWLockImplWin32.cpp:29-36 constructor. -/
def init : State :=
  { access := none, event := true, mOwner := none, mCount := 0, nWriter := 0, writerPid := none,
    readers := [], pc := fun _ => .idle, reads := fun _ => 0 }

/-- Move one thread. -/
def setPc (s : State) (t : Nat) (p : PC) : State := { s with pc := fun u => if u = t then p else s.pc u }

/-- What happens: a client calls something, a thread does its next action, or the wait it is
in times out. -/
inductive Act where
  | callRead | callWrite | callUnlock | go | timeout
  deriving DecidableEq, Repr

/-- Which time-outs can happen: of the second wait in `writeLock`, and of the 30000 s wait
in `unlock`. -/
structure Cfg where
  evTimeout : Bool
  giveUp : Bool
  deriving DecidableEq, Repr

/-- One action of thread `t`; `none` = not possible (blocked or wrong place).
RWLockImplWin32.cpp:61-79, 103-113, 120-156. -/
def step (c : Cfg) (s : State) (t : Nat) (a : Act) : Option State :=
  match s.pc t, a with
  | .idle, .callRead => some (setPc s t .rLock)
  | .idle, .callWrite => if s.reads t = 0 then some (setPc s t .wMutex) else none
  | .idle, .callUnlock =>
    if s.reads t = 0 then none
    else some (setPc { s with reads := fun u => if u = t then s.reads t - 1 else s.reads u } t (.uCheck false))
  | .holdW, .callUnlock => some (setPc s t (.uCheck true))
  -- readLock
  | .rLock, .go => if s.access = none then some (setPc { s with access := some t } t .rCheck) else none
  | .rCheck, .go => some (setPc s t (if s.readers = [] then .rWait else .rPush))
  | .rWait, .go => if s.event then some (setPc { s with event := false } t .rPush) else none
  | .rWait, .timeout => some (setPc s t (.rUnlock false))
  | .rPush, .go => some (setPc { s with readers := s.readers ++ [t] } t (.rUnlock true))
  | .rUnlock b, .go =>
    some (setPc { s with access := none,
                         reads := fun u => if u = t then (if b then s.reads t + 1 else s.reads t) else s.reads u } t .idle)
  -- writeLock
  | .wMutex, .go =>
    if s.mOwner = none ∨ s.mOwner = some t then
      some (setPc { s with mOwner := some t, mCount := s.mCount + 1 } t .wEvent)
    else none
  | .wMutex, .timeout => some (setPc s t .idle)
  | .wEvent, .go => if s.event then some (setPc { s with event := false } t .wPid) else none
  | .wEvent, .timeout => if c.evTimeout then some (setPc s t .idle) else none
  | .wPid, .go => some (setPc { s with writerPid := some t } t .wCount)
  | .wCount, .go => some (setPc { s with nWriter := s.nWriter + 1 } t .holdW)
  -- unlock
  | .uCheck _, .go => some (setPc s t (if s.writerPid = some t then .uwRelease else .urLock))
  | .uwRelease, .go =>
    if s.mOwner = some t then
      some (setPc { s with mCount := s.mCount - 1,
                           mOwner := if s.mCount - 1 = 0 then none else s.mOwner } t .uwCount)
    else some (setPc s t .uwCount)
  | .uwCount, .go =>
    some (setPc { s with nWriter := s.nWriter - 1 } t (if s.nWriter - 1 = 0 then .uwPid else .idle))
  | .uwPid, .go => some (setPc { s with writerPid := none } t .uwSet)
  | .uwSet, .go => some (setPc { s with event := true } t .idle)
  | .urLock, .go => if s.access = none then some (setPc { s with access := some t } t .urErase) else none
  | .urLock, .timeout => if c.giveUp then some (setPc s t .idle) else none
  | .urErase, .go =>
    if t ∈ s.readers then
      some (setPc { s with readers := s.readers.erase t } t
        (if s.readers.erase t = [] then .urSet else .urUnlock))
    else some (setPc s t .urUnlock)
  | .urSet, .go => some (setPc { s with event := true } t .urUnlock)
  | .urUnlock, .go => some (setPc { s with access := none } t .idle)
  | _, _ => none

/-- States reachable by any interleaving. -/
inductive Reach (c : Cfg) : State → Prop where
  | init : Reach c init
  | step {s s' : State} (t : Nat) (a : Act) : Reach c s → step c s t a = some s' → Reach c s'

/-- Run a schedule. -/
def exec (c : Cfg) (s : State) : List (Nat × Act) → Option State
  | [] => some s
  | (t, a) :: as => (step c s t a).bind fun s' => exec c s' as

theorem exec_reach {c : Cfg} (as : List (Nat × Act)) : ∀ (s s' : State), Reach c s →
    exec c s as = some s' → Reach c s' := by
  induction as with
  | nil => intro s s' h he; cases he; exact h
  | cons a as ih =>
    obtain ⟨t, a⟩ := a
    intro s s' h he
    simp only [exec] at he
    cases hst : step c s t a with
    | none => rw [hst] at he; cases he
    | some s1 => rw [hst] at he; exact ih s1 s' (.step t a h hst) he

/-! ## Invariant -/

/-- Holding `m_reader_access_lock`. -/
def acc : PC → Bool
  | .rCheck | .rWait | .rPush | .rUnlock _ | .urErase | .urSet | .urUnlock => true
  | _ => false

/-- A writer that has consumed the event and not yet set it again. -/
def wtok : PC → Bool
  | .wPid | .wCount | .holdW | .uCheck true | .uwRelease | .uwCount | .uwPid | .uwSet => true
  | _ => false

/-- Positions with `m_writer_pid` set to the thread. -/
def wpid : PC → Bool
  | .wCount | .holdW | .uCheck true | .uwRelease | .uwCount | .uwPid => true
  | _ => false

/-- Positions counted in `m_number_of_writer`. -/
def wcnt : PC → Bool
  | .holdW | .uCheck true | .uwRelease | .uwCount => true
  | _ => false

/-- Positions owning the writer mutex when nothing leaks. -/
def mown : PC → Bool
  | .wEvent | .wPid | .wCount | .holdW | .uCheck true | .uwRelease => true
  | _ => false

/-- A reader-side thread that has consumed the event and has not handed it on. -/
def rtr : PC → Bool
  | .rPush | .urSet => true
  | _ => false

/-- Read locks registered for a thread beyond those its client holds. -/
def extra : PC → Nat
  | .rUnlock true | .uCheck false | .urLock | .urErase => 1
  | _ => 0

/-- The invariant. -/
structure Inv (c : Cfg) (s : State) : Prop where
  access : ∀ t, acc (s.pc t) = true ↔ s.access = some t
  evR : s.event = true → s.readers = []
  evT : s.event = true → ∀ t, rtr (s.pc t) = false
  evW : s.event = true → ∀ t, wtok (s.pc t) = false
  rw1 : s.readers ≠ [] → ∀ t, wtok (s.pc t) = false
  rw2 : ∀ t u, rtr (s.pc t) = true → wtok (s.pc u) = false
  wu : ∀ t u, wtok (s.pc t) = true → wtok (s.pc u) = true → t = u
  tok : s.event = false → s.readers = [] → ∃ t, rtr (s.pc t) = true ∨ wtok (s.pc t) = true
  pid : ∀ t, wpid (s.pc t) = true ↔ s.writerPid = some t
  cnt1 : ∀ t, wcnt (s.pc t) = true → s.nWriter = 1
  cnt0 : s.writerPid = none → s.nWriter = 0
  cntC : ∀ t, s.pc t = .wCount → s.nWriter = 0
  cntP : ∀ t, s.pc t = .uwPid → s.nWriter = 0
  wait : ∀ t, s.pc t = .rWait → s.readers = []
  setE : ∀ t, s.pc t = .urSet → s.readers = []
  cntR : ∀ t, s.reads t + extra (s.pc t) ≤ s.readers.count t
  cntE : c.giveUp = false → ∀ t, s.reads t + extra (s.pc t) = s.readers.count t
  mtx : c.evTimeout = false → (∀ t, mown (s.pc t) = true ↔ s.mOwner = some t) ∧
    s.mCount = if s.mOwner = none then 0 else 1
  noR : ∀ t, (wtok (s.pc t) = true ∨ s.pc t = .wMutex ∨ s.pc t = .wEvent) → s.reads t = 0

end Verif.RWLock
