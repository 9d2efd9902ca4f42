import Verif.Conc.Thread
import Verif.Conc.Race.Model

/-!
# What a `Thread` shares with its owner, as a trace of accesses (C139)

The transition system of `Conc/Thread.lean`, with the accesses to shared memory and the synchronising calls
of every action written to a trace. The trace uses the events of `Conc/Race/Model.lean`, so that
happens-before and data races are those of C123-C126.
-/
namespace Verif.Thread.HBT

open Verif.Race (Ev)

/-- What synchronises: `pthread_create` with the first action of the new thread, the end of a thread with
`pthread_join`, and `m_thread_mutex` (Thread.h:404). -/
inductive Sync where
  | create (i : Nat)
  | exit (i : Nat)
  | mutex
  deriving DecidableEq, Repr

/-- Shared memory: `data` is what the user's `run()` and the owner of the thread both use; the others are
members, Thread.h:398-400 and ThreadImplPosix.h:79. -/
inductive Var where
  | data
  | execute
  | finished
  | starting
  | threadId
  deriving DecidableEq, Repr

/-- An event together with the thread: `none` is the control thread. -/
abbrev Tr := List (Option Nat × Ev Sync Var)

/-- Accesses of OS thread `i` in its next step, Thread.cpp:217-248. The first step reads `m_thread_id`
through `threadId()` (line 225). -/
def evW (i : Nat) : WPC → List (Ev Sync Var)
  | .lock => [.rd .threadId, .acq .mutex]
  | .setExec => [.wr .execute]
  | .clrStarting => [.wr .starting]
  | .clrFinished => [.wr .finished]
  | .clrExec => [.wr .execute]
  | .unlock => [.rel .mutex]
  | .setFinished => [.wr .finished]
  | .log => [.rel (.exit i)]
  | _ => []

/-- Accesses of the control thread in its next step: the lines named in `OPC`. Of the busy waiting loops
`waitStarted()` (Thread.cpp:495-502) only the last reading is recorded. `m_joined` is not shared. -/
def evO (s : State) : Act → List (Ev Sync Var)
  | .go =>
    match s.o with
    | .start => [.rd .starting, .rd .finished]
    | .startAgain => [.rd .starting, .rd .finished]
    | .start2 => [.wr .starting]
    | .start3 => [.wr .finished]
    | .startJoin => .rd .finished :: if s.finished then [] else [.acq (.exit s.cur)]
    | .start6 => [.rel (.create s.next), .wr .threadId]
    | .startWait => [.rd .starting]
    | .stop => [.rd .starting, .wr .execute]
    | .join => [.rd .finished]
    | .join2 => [.acq (.exit s.cur)]
    | .wait2 => [.rd .starting, .rd .finished]
    | .waitLock => [.acq .mutex]
    | .waitUnlock => [.rel .mutex]
    | .wait3 => [.rd .finished]
    | .waitJoin => [.rd .finished]
    | .waitJoin2 => [.acq (.exit s.cur)]
    | .cancel => [.rd .starting, .rd .finished] ++ if s.finished then [] else [.wr .execute]
    | .cancel2 => [.wr .finished]
    | .destroyStop => [.rd .starting, .wr .execute]
    | .destroyJoin => [.rd .finished]
    | .destroyJoin2 => [.acq (.exit s.cur)]
    | _ => []
  | .createFails => [.wr .finished, .wr .starting, .wr .threadId]
  | _ => []

/-- The first event of a thread created by this action (placed as early as possible, which gives it the
fewest predecessors). -/
def evNew (s : State) : Act → Tr
  | .go => match s.o with
    | .start6 => [(some s.next, .acq (.create s.next))]
    | _ => []
  | _ => []

/-- What an action of `Conc/Thread.lean` writes to the trace. -/
def events (s : State) : Act → Tr
  | .work i => (evW i (s.w i)).map (Prod.mk (some i))
  | .die i => [(some i, .rel (.exit i))]
  | a => (evO s a).map (Prod.mk none) ++ evNew s a

/-- Actions: those of the class, and accesses to the data by the owner between two calls and by the user's
`run()` (Thread.cpp:241). -/
inductive XAct where
  | act (a : Act)
  | owner (write : Bool)
  | body (i : Nat) (write : Bool)
  deriving DecidableEq, Repr

/-- An access to the data. -/
def access (write : Bool) : Ev Sync Var := if write then .wr .data else .rd .data

/-- The system and its trace. -/
structure X where
  s : State
  tr : Tr

/-- One action (`Thread.step` without trace logging). -/
def xstep (x : X) : XAct → Option X
  | .act a => (step false x.s a).map fun s' => ⟨s', x.tr ++ events x.s a⟩
  | .owner w => if x.s.o = .idle ∨ x.s.o = .destroyed then some ⟨x.s, x.tr ++ [(none, access w)]⟩ else none
  | .body i w => if x.s.w i = .running then some ⟨x.s, x.tr ++ [(some i, access w)]⟩ else none

/-- Run a schedule. -/
def xexec (x : X) : List XAct → Option X
  | [] => some x
  | a :: as => (xstep x a).bind fun x' => xexec x' as

/-- Before the first call. -/
def xinit : X := ⟨init, []⟩

end Verif.Thread.HBT
