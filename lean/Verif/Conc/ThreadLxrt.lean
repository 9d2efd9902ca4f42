/-!
# Starting threads under LXRT (C103)

`Thread.cpp` with `ThreadImplLxrt38.cpp`. One control thread calls `start()`, `join()` and
`wait()` one after the other; the created thread runs concurrently. One action = one call of the
operating system or one access to a shared flag (accesses that nobody can observe separately are
merged).

RTAI is trusted as documented: `rt_typed_sem_init` fails if an object of the same name exists (the
name is the address of the implementation object); `rt_sem_wait_barrier` on a semaphore
initialised with 2 releases both callers once both have arrived.
-/
namespace Verif.Conc.ThreadLxrt

/-- Where the created thread is, ThreadImplLxrt38.cpp:178-231. -/
inductive TPC where
  | none
  /-- line 190, about to call `rt_task_init` -/
  | init
  /-- line 198: `rt_task_init` failed; at the barrier -/
  | failBarrier
  /-- line 220: at the barrier -/
  | okBarrier
  /-- line 222 → Thread.cpp:217-232 -/
  | begin_
  /-- Thread.cpp:241 inside `run()` -/
  | running
  /-- ended after `run()` -/
  | ended
  /-- ended without `run()` -/
  | failed
  deriving DecidableEq, Repr

/-- Where the control thread is. -/
inductive OPC where
  | idle
  /-- Thread.cpp:189-192: `start()` joins the previous thread -/
  | startJoin
  /-- Thread.cpp:196 → ThreadImplLxrt38.cpp:149 -/
  | implStart
  /-- ThreadImplLxrt38.cpp:156 -/
  | create
  /-- ThreadImplLxrt38.cpp:166 -/
  | barrier
  /-- ThreadImplLxrt38.cpp:170, Thread.cpp:196-203 -/
  | afterImpl
  /-- Thread.cpp:206-208 -/
  | waitStarted
  /-- Thread.cpp:181-183 -/
  | waitAgain
  /-- Thread.cpp:142 -/
  | joining
  deriving DecidableEq, Repr

/-- Members and positions. -/
structure State where
  starting : Bool
  finished : Bool
  joined : Bool
  /-- `m_thread_id != 0` -/
  tid : Bool
  /-- RTAI knows a semaphore with the name of this object -/
  name : Bool
  t : TPC
  o : OPC
  /-- how often `run()` was entered -/
  runs : Nat
  /-- results of the `start()` calls that went through Thread.cpp:186-209, newest first -/
  fresh : List Bool
  /-- results of the `start()` calls for a running thread, Thread.cpp:181-183 -/
  again : List Bool
  deriving DecidableEq, Repr

/-- Thread.cpp:49-56, ThreadImplLxrt38.cpp:36-44. -/
def init : State := ⟨false, true, true, false, false, .none, .idle, 0, [], []⟩

/-- Actions; the flags are the answers of the operating system. -/
inductive Act where
  | start
  | startJoin
  | implStart (semOk : Bool)
  | create (ok : Bool)
  | barrier
  | afterImpl
  | waitStarted
  | waitAgain
  | join
  | joining
  | taskInit (ok : Bool)
  | begin_
  | endRun
  deriving DecidableEq, Repr

/-- One action; `none`: not possible in this state. -/
def step (s : State) : Act → Option State
  -- Thread.cpp:176-194
  | .start =>
    if s.o = .idle then
      if s.starting || !s.finished then some { s with o := .waitAgain }
      else if s.joined then some { s with starting := true, finished := false, joined := false, o := .implStart }
      else some { s with starting := true, finished := false, o := .startJoin }
    else none
  -- Thread.cpp:138-146 (`running()` holds since line 187), ThreadImplLxrt38.cpp:87-99
  | .startJoin =>
    if s.o = .startJoin then
      if !s.tid then some { s with joined := false, o := .implStart }
      else if s.t = .ended ∨ s.t = .failed then some { s with tid := false, joined := false, o := .implStart }
      else none
    else none
  -- ThreadImplLxrt38.cpp:149-154
  | .implStart semOk =>
    if s.o = .implStart then
      if semOk && !s.name then some { s with name := true, o := .create }
      else some { s with o := .afterImpl }
    else none
  -- ThreadImplLxrt38.cpp:156-163
  | .create ok =>
    if s.o = .create then
      if ok then some { s with tid := true, t := .init, o := .barrier }
      else some { s with tid := false, name := false, o := .afterImpl }
    else none
  -- ThreadImplLxrt38.cpp:166 together with 198 or 220
  | .barrier =>
    if s.o = .barrier then
      match s.t with
      | .failBarrier => some { s with t := .failed, o := .afterImpl }
      | .okBarrier => some { s with t := .begin_, o := .afterImpl }
      | _ => none
    else none
  -- ThreadImplLxrt38.cpp:170, Thread.cpp:196-203
  | .afterImpl =>
    if s.o = .afterImpl then
      if s.tid then some { s with o := .waitStarted }
      else some { s with finished := true, starting := false, joined := true, fresh := false :: s.fresh, o := .idle }
    else none
  -- Thread.cpp:206-208, Thread.h `waitStarted()`: polls `m_starting`
  | .waitStarted =>
    if s.o = .waitStarted then
      if s.starting then none else some { s with fresh := true :: s.fresh, o := .idle }
    else none
  -- Thread.cpp:181-183
  | .waitAgain =>
    if s.o = .waitAgain then
      if s.starting then none else some { s with again := (!s.finished) :: s.again, o := .idle }
    else none
  -- Thread.cpp:138-146 `join()`; `wait()` ends with the same call (295)
  | .join =>
    if s.o = .idle then
      if !s.finished then some { s with o := .joining } else some { s with joined := true }
    else none
  | .joining =>
    if s.o = .joining then
      if !s.tid then some { s with joined := true, o := .idle }
      else if s.t = .ended ∨ s.t = .failed then some { s with tid := false, joined := true, o := .idle }
      else none
    else none
  -- ThreadImplLxrt38.cpp:190-220
  | .taskInit ok =>
    if s.t = .init then some { s with t := if ok then .okBarrier else .failBarrier } else none
  -- Thread.cpp:231-241
  | .begin_ =>
    if s.t = .begin_ then some { s with t := .running, starting := false, finished := false, runs := s.runs + 1 } else none
  -- Thread.cpp:243-247
  | .endRun =>
    if s.t = .running then some { s with t := .ended, finished := true } else none

/-- Executions. -/
inductive Run : State → List Act → State → Prop where
  | nil (s : State) : Run s [] s
  | cons {s s' s'' : State} {a : Act} {as : List Act} : step s a = some s' → Run s' as s'' → Run s (a :: as) s''

/-- States the program can reach. -/
def Reachable (s : State) : Prop := ∃ as, Run init as s

end Verif.Conc.ThreadLxrt
