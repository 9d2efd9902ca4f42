/-!
# Model of the priorities of threads (icl_core_thread/Thread.cpp, ThreadImplPosix.cpp, ThreadImplLxrt38.cpp)

The scheduling of a thread is its policy (`rt`: SCHED_FIFO or SCHED_RR, otherwise SCHED_OTHER) and its priority.  A thread made by
`pthread_create` without attributes has those of the thread that makes it.  What the system does is taken from its
documentation: `pthread_setschedparam` fails without permission and for a priority that the policy does not have, both functions
fail for a thread that has ended, and for a `pthread_t` that is not one of a thread that can be joined anything may happen.
-/
namespace Verif.Priority

/-- The implementation that the constructor of `Thread` picks: Thread.cpp:63-79. -/
inductive Impl where
  | posix | lxrt
  deriving DecidableEq

/-- The thread of the system. -/
inductive Th where
  | none
  | live (rt : Bool) (prio : Int)
  | ended
  | joined
  deriving DecidableEq

/-- The object: `m_priority` of the implementation (ThreadImplPosix.h:81), and the thread of the system. -/
structure St where
  created : Int
  th : Th := .none

/-- The calls, and what the system does. -/
inductive Op where
  /-- `start()`, called by a thread with this policy and priority -/
  | start (rt : Bool) (prio : Int)
  /-- `run()` returns -/
  | finish
  /-- `join()`; it waits for a thread that runs -/
  | join
  /-- `setPriority(p)`; `allowed`: the program may change priorities -/
  | setPriority (p : Int) (allowed : Bool)
  /-- `priority()` -/
  | priority

/-- What a call returns. -/
inductive Ans where
  | nothing
  | flag (b : Bool)
  | prio (p : Int)
  | undefined
  deriving DecidableEq

/-- The priorities of a policy (Linux). -/
def has (rt : Bool) (p : Int) : Bool := if rt then decide (1 ≤ p ∧ p ≤ 99) else decide (p = 0)

/-- ThreadImplPosix.cpp:56-70 `priority()`. -/
def getPosix : Th → Ans
  | .live _ p => .prio p
  | .ended => .prio 0
  | _ => .undefined

/-- ThreadImplPosix.cpp:72-89 `setPriority(p)`, with Thread.cpp:163-174. -/
def setPosix (t : Th) (p : Int) (allowed : Bool) : Ans × Th :=
  match t with
  | .live rt q => if allowed && has rt p then (.flag true, .live rt p) else (.flag false, .live rt q)
  | .ended => (.flag false, .ended)
  | _ => (.undefined, t)

/-- Thread.cpp:138-146 `join()`, 148-151 `priority()`, 163-174 `setPriority()`, 176-210 `start()`: nothing if the thread runs (POSIX:
ThreadImplPosix.cpp:91-99, which does not look at `m_priority`; LXRT: ThreadImplLxrt38.cpp:190, the task gets the absolute
value of `m_priority`); LXRT: ThreadImplLxrt38.cpp:101-104, 124-144.  A failure to make a thread is not modelled. -/
def step (i : Impl) (s : St) : Op → Ans × St
  | .start rt p => match s.th with
    | .live .. => (.flag true, s)
    | _ => (.flag true, { s with th := .live rt (match i with | .posix => p | .lxrt => s.created.natAbs) })
  | .finish => (.nothing, { s with th := match s.th with | .live .. => .ended | t => t })
  | .join => (.nothing, { s with th := match s.th with | .live .. => .joined | t => t })
  | .priority => match i with
    | .posix => (getPosix s.th, s)
    | .lxrt => (.prio s.created, s)
  | .setPriority p a => match i with
    | .posix => ((setPosix s.th p a).1, { s with th := (setPosix s.th p a).2 })
    | .lxrt => (.flag false, s)

/-- A thread object made with priority `p`, and the answers of the calls. -/
def run (i : Impl) (s : St) : List Op → List Ans × St
  | [] => ([], s)
  | op :: l => let r := step i s op; let q := run i r.2 l; (r.1 :: q.1, q.2)

/-- Thread.cpp:49-92, ThreadImplPosix.cpp:35-41: the constructor. -/
def create (p : Int) : St := { created := p }

end Verif.Priority
