import Verif.Base

/-!
# Model of `icl_core_thread/Thread.cpp`, `Thread.h` with the POSIX implementation

One control thread calls the public functions one after the other (the class is not meant for
concurrent control); the created OS threads run concurrently with it. One action = one access
to a shared member or one pthread call; sequentially consistent. OS threads are numbered in
the order of creation.
-/
namespace Verif.Thread

/-- Where an OS thread is, Thread.cpp:217-248 `runThread()`. -/
inductive WPC where
  /-- not created -/
  | none
  /-- line 231 about to lock `m_thread_mutex` -/
  | lock
  /-- line 232 -/
  | setExec
  /-- line 233 -/
  | clrStarting
  /-- line 234 -/
  | clrFinished
  /-- line 241 inside `run()` -/
  | running
  /-- line 243 -/
  | clrExec
  /-- line 244 -/
  | unlock
  /-- line 245 -/
  | setFinished
  /-- line 247 the final log message, which reads `m_thread_info` of the object -/
  | log
  /-- the OS thread has ended but has not been joined -/
  | exited
  /-- joined by `pthread_join` -/
  | joined
  deriving DecidableEq, Repr

/-- Where the control thread is. -/
inductive OPC where
  | idle
  /-- Thread.cpp:179 -/
  | start
  /-- Thread.cpp:181-183 -/
  | startAgain
  /-- Thread.cpp:186 -/
  | start2
  /-- Thread.cpp:187 -/
  | start3
  /-- Thread.cpp:189 -/
  | start4
  /-- Thread.cpp:191 → 140-143, `pthread_join` -/
  | startJoin
  /-- Thread.cpp:194 -/
  | start5
  /-- Thread.cpp:196 -/
  | start6
  /-- Thread.cpp:206-208 -/
  | startWait
  /-- Thread.h:189 `stop()` -/
  | stop
  /-- Thread.cpp:140 `join()` -/
  | join
  /-- Thread.cpp:142 `pthread_join` -/
  | join2
  /-- Thread.cpp:145; the flag: called from `wait()` -/
  | join3
  /-- Thread.cpp:259 `wait()` -/
  | wait
  /-- Thread.cpp:264-266 -/
  | wait2
  /-- Thread.cpp:270 -/
  | waitLock
  /-- Thread.cpp:272 -/
  | waitUnlock
  /-- Thread.cpp:288 -/
  | wait3
  /-- Thread.cpp:295 → 140 -/
  | waitJoin
  /-- Thread.cpp:295 → 142 -/
  | waitJoin2
  /-- Thread.cpp:295 → 145 -/
  | waitJoin3
  /-- Thread.cpp:98-103 `cancel()`: `m_execute = false; pthread_cancel` -/
  | cancel
  /-- Thread.cpp:104 -/
  | cancel2
  /-- Thread.cpp:85 destructor -/
  | destroy
  /-- Thread.cpp:87 -/
  | destroyStop
  /-- Thread.cpp:88 → 140 -/
  | destroyJoin
  /-- Thread.cpp:88 → 142 -/
  | destroyJoin2
  /-- Thread.cpp:91, the object's memory is released -/
  | destroyFree
  /-- the destructor has returned -/
  | destroyed
  deriving DecidableEq, Repr

/-- Last value returned by `start()`/`wait()`. -/
inductive Ret where
  | none | start (b : Bool) | wait (b : Bool)
  deriving DecidableEq, Repr

/-- Members (Thread.h:398-408) and positions. -/
structure State where
  execute : Bool
  finished : Bool
  joined : Bool
  starting : Bool
  /-- owner of `m_thread_mutex`: an OS thread -/
  mutex : Option Nat
  /-- `m_thread_mutex` held by the control thread -/
  ctl : Bool
  /-- the OS thread `m_impl` refers to -/
  cur : Nat
  /-- number of OS threads created -/
  next : Nat
  w : Nat → WPC
  /-- `pthread_cancel` was called for this thread -/
  cancelled : Nat → Bool
  o : OPC
  ret : Ret
  /-- an OS thread touched the object after its destruction -/
  uaf : Bool

/-- Thread.cpp:49-56. -/
def init : State :=
  { execute := false, finished := true, joined := true, starting := false, mutex := none, ctl := false,
    cur := 0, next := 0, w := fun _ => .none, cancelled := fun _ => false, o := .idle, ret := .none, uaf := false }

/-- Move an OS thread. -/
def setW (s : State) (i : Nat) (p : WPC) : State := { s with w := fun u => if u = i then p else s.w u }

/-- Actions. -/
inductive Act where
  | callStart | callStop | callJoin | callWait | callCancel | callDestroy
  /-- the control thread's next step -/
  | go
  /-- `pthread_create` fails -/
  | createFails
  /-- the next step of OS thread `i` -/
  | work (i : Nat)
  /-- OS thread `i` acts on `pthread_cancel` -/
  | die (i : Nat)
  deriving DecidableEq, Repr

/-- Steps of an OS thread, Thread.cpp:217-248. -/
def stepW (s : State) (i : Nat) : Option State :=
  match s.w i with
  | .lock => if s.mutex = none ∧ s.ctl = false then some (setW { s with mutex := some i } i .setExec) else none
  | .setExec => some (setW { s with execute := true } i .clrStarting)
  | .clrStarting => some (setW { s with starting := false } i .clrFinished)
  | .clrFinished => some (setW { s with finished := false } i .running)
  | .running => some (setW s i .clrExec)
  | .clrExec => some (setW { s with execute := false } i .unlock)
  | .unlock => some (setW { s with mutex := none } i .setFinished)
  | .setFinished => some (setW { s with finished := true } i .log)
  | .log => some (setW s i .exited)
  | _ => none

/-- Steps of the control thread. -/
def stepO (s : State) (a : Act) : Option State :=
  match s.o, a with
  | .idle, .callStart => some { s with o := .start }
  | .idle, .callStop => some { s with o := .stop }
  | .idle, .callJoin => some { s with o := .join }
  | .idle, .callWait => some { s with o := .wait }
  | .idle, .callCancel => some { s with o := .cancel }
  | .idle, .callDestroy => some { s with o := .destroy }
  -- start()
  | .start, .go => some { s with o := if s.starting || !s.finished then .startAgain else .start2 }
  | .startAgain, .go => if s.starting then none else some { s with o := .idle, ret := .start (!s.finished) }
  | .start2, .go => some { s with starting := true, o := .start3 }
  | .start3, .go => some { s with finished := false, o := .start4 }
  | .start4, .go => some { s with o := if s.joined then .start5 else .startJoin }
  | .startJoin, .go =>
    if s.finished then some { s with joined := true, o := .start5 }
    else if s.w s.cur = .exited then some { setW s s.cur .joined with joined := true, o := .start5 } else none
  | .start5, .go => some { s with joined := false, o := .start6 }
  | .start6, .createFails => some { s with finished := true, starting := false, joined := true, o := .idle,
                                           ret := .start false }
  | .start6, .go => some { setW s s.next .lock with cur := s.next, next := s.next + 1, o := .startWait }
  | .startWait, .go => if s.starting then none else some { s with o := .idle, ret := .start true }
  -- stop()
  | .stop, .go => if s.starting then none else some { s with execute := false, o := .idle }
  -- join()
  | .join, .go => some { s with o := if s.finished then .join3 else .join2 }
  | .join2, .go => if s.w s.cur = .exited then some { setW s s.cur .joined with o := .join3 } else none
  | .join3, .go => some { s with joined := true, o := .idle }
  -- wait()
  | .wait, .go => if s.joined then some { s with o := .idle, ret := .wait true } else some { s with o := .wait2 }
  | .wait2, .go => if s.starting then none else some { s with o := if s.finished then .wait3 else .waitLock }
  | .waitLock, .go => if s.mutex = none then some { s with ctl := true, o := .waitUnlock } else none
  | .waitUnlock, .go => some { s with ctl := false, o := .wait3 }
  | .wait3, .go => if s.finished then some { s with o := .waitJoin } else some { s with o := .idle, ret := .wait false }
  | .waitJoin, .go => some { s with o := if s.finished then .waitJoin3 else .waitJoin2 }
  | .waitJoin2, .go => if s.w s.cur = .exited then some { setW s s.cur .joined with o := .waitJoin3 } else none
  | .waitJoin3, .go => some { s with joined := true, o := .idle, ret := .wait true }
  -- cancel()
  | .cancel, .go =>
    if s.starting then none
    else if s.finished then some { s with o := .idle }
    else some { s with execute := false, cancelled := fun u => if u = s.cur then true else s.cancelled u, o := .cancel2 }
  | .cancel2, .go => some { s with finished := true, o := .idle }
  -- destructor
  | .destroy, .go => some { s with o := if s.joined then .destroyFree else .destroyStop }
  | .destroyStop, .go => if s.starting then none else some { s with execute := false, o := .destroyJoin }
  | .destroyJoin, .go => some { s with o := if s.finished then .destroyFree else .destroyJoin2 }
  | .destroyJoin2, .go => if s.w s.cur = .exited then some { setW s s.cur .joined with o := .destroyFree } else none
  | .destroyFree, .go => some { s with o := .destroyed }
  | _, _ => none

/-- One action. A cancelled thread may end at any point (asynchronously, or at the next
cancellation point); it ends without releasing the mutex. Every step of an OS thread
touches the object, except that the final log message does so only if `trace` logging is
enabled. -/
def step (trace : Bool) (s : State) : Act → Option State
  | .work i => (stepW s i).map fun s' =>
      { s' with uaf := s.uaf || (s.o == .destroyed && (trace || s.w i != .log)) }
  | .die i => if s.cancelled i = true ∧ s.w i ≠ .none ∧ s.w i ≠ .exited ∧ s.w i ≠ .joined
      then some (setW s i .exited) else none
  | a => stepO s a

/-- Run a schedule. -/
def exec (trace : Bool) (s : State) : List Act → Option State
  | [] => some s
  | a :: as => (step trace s a).bind fun s' => exec trace s' as

/-! ## Invariant -/

/-- Holds `m_thread_mutex`. -/
def holds : WPC → Bool
  | .setExec | .clrStarting | .clrFinished | .running | .clrExec | .unlock => true
  | _ => false

/-- Between setting and clearing `m_execute`. -/
def exeW : WPC → Bool
  | .clrStarting | .clrFinished | .running | .clrExec => true
  | _ => false

/-- Has set `m_finished` at the end. -/
def over : WPC → Bool
  | .none | .log | .exited | .joined => true
  | _ => false

/-- Has not yet cleared `m_starting`. -/
def early : WPC → Bool
  | .lock | .setExec | .clrStarting => true
  | _ => false

/-- Control thread between setting `m_starting` and `pthread_create`. -/
def preCreate : OPC → Bool
  | .start3 | .start4 | .startJoin | .start5 | .start6 => true
  | _ => false

/-- `m_finished` has been cleared by `start()` for the thread about to be created. -/
def cleared : OPC → Bool
  | .start4 | .startJoin | .start5 | .start6 => true
  | _ => false

/-- The invariant, for histories without `cancel()`. -/
structure Inv (trace : Bool) (s : State) : Prop where
  nc : ∀ i, s.cancelled i = false
  oc : s.o ≠ .cancel ∧ s.o ≠ .cancel2
  mu : ∀ i, holds (s.w i) = true ↔ s.mutex = some i
  mc : s.ctl = true ↔ s.o = .waitUnlock
  mx : s.ctl = true → s.mutex = none
  fresh : ∀ i, s.next ≤ i → s.w i = .none
  curlt : s.next = 0 ∧ s.cur = 0 ∨ s.cur < s.next
  old : ∀ i, i ≠ s.cur → over (s.w i) = true
  fin : s.finished = true → over (s.w s.cur) = true
  pre : (preCreate s.o = true ∨ s.o = .start2) → over (s.w s.cur) = true
  st : s.starting = true → preCreate s.o = true ∨ early (s.w s.cur) = true
  st2 : early (s.w s.cur) = true → s.starting = true ∧ s.o = .startWait
  exe : s.execute = true → exeW (s.w s.cur) = true
  fin2 : s.finished = false → cleared s.o = true ∨ over (s.w s.cur) = false
  w3 : s.o = .wait3 → holds (s.w s.cur) = false ∧ early (s.w s.cur) = false
  wj : (s.o = .waitJoin ∨ s.o = .waitJoin3 ∨ s.o = .join3) → s.finished = true
  dj : (s.o = .destroyFree ∨ s.o = .destroyed) → over (s.w s.cur) = true
  jd : s.joined = true → s.o ≠ .start6 → s.o ≠ .startWait → over (s.w s.cur) = true
  pst : preCreate s.o = true → s.starting = true
  cl : cleared s.o = true → s.finished = false
  js : (s.o = .start6 ∨ s.o = .startWait) → s.joined = false
  ua : trace = false → s.uaf = false

end Verif.Thread
