import Verif.Logging.Pool
import Verif.Logging.Worker

/-!
# The whole path of a log message (C127): model

Any number of threads execute log statements on any number of log streams; each stream is connected to any
number of output streams, each with its own worker thread. The parts are those of `Pool.lean` (LogStream.cpp,
ThreadStream.cpp) and `Worker.lean` (LogOutputStream.cpp); here the loop of ThreadStream.cpp:130-136, which calls
`push` of every connected output while the mutex of the stream is held, joins them: the thread that holds the mutex
of stream `a` is the producer `a` of the outputs (there is at most one at a time).

Simplified: the connections and the levels of the outputs do not change; every output uses a worker thread; the
argument of a log statement does not itself log (nested statements: C45); semaphore waits do not fail (interrupted
waits: C45-C47); sequential consistency.
-/
namespace Verif.Logging.Pipe

/-- The position in the loop of ThreadStream.cpp:130-136. -/
structure Loop where
  /-- the thread executing `flush` -/
  t : Nat
  /-- the outputs not yet finished -/
  rest : List Nat
  /-- inside `push` of the first of them, past the level test (LogOutputStream.cpp:148) -/
  entered : Bool
  deriving DecidableEq, Repr

/-- What does not change. -/
structure Conf where
  /-- `m_output_stream_list` of a stream, in iteration order -/
  conn : Nat → List Nat
  /-- `getLogLevel()` of an output -/
  lv : Nat → Nat
  /-- may `threadStream()` run while a thread is between lines 142 and 148 of `flush`? -/
  racy : Bool

/-- Streams, outputs and threads. -/
structure State where
  /-- the log streams -/
  S : Nat → Pool.State
  /-- the output streams -/
  W : Nat → Worker.State
  /-- the loop of the thread flushing on a stream -/
  loop : Nat → Option Loop
  /-- the stream a thread is executing a log statement on -/
  busy : Nat → Option Nat
  /-- history: (stream, message) of every call to `push` of an output, by number -/
  names : Nat → List (Nat × Pool.Msg)
  /-- history: (stream, level, text) of every log statement of a thread, in program order -/
  log : Nat → List (Nat × Nat × List Nat)

/-- All streams with `n` free thread streams, no worker started. -/
def init (n : Nat) : State :=
  { S := fun _ => Pool.init n, W := fun _ => Worker.init, loop := fun _ => none, busy := fun _ => none,
    names := fun _ => [], log := fun _ => [] }

/-- What happens to an output besides `push`. -/
inductive OAct where
  /-- a step of the worker -/
  | worker
  /-- a step of the thread executing `shutdown()` -/
  | control
  /-- `start()` is called -/
  | start
  /-- `shutdown()` is called -/
  | shutdown
  deriving DecidableEq, Repr

/-- The corresponding action of `Worker.lean`. -/
def OAct.act : OAct → Worker.Act
  | .worker => .w
  | .control => .k
  | .start => .callStart
  | .shutdown => .callShutdown

/-- Actions. -/
inductive Act where
  /-- thread `t` starts a log statement on stream `a` -/
  | call (t a l : Nat) (txt : List Nat)
  /-- thread `t` continues its log statement -/
  | go (t : Nat)
  | output (o : Nat) (x : OAct)
  deriving DecidableEq, Repr

/-- Replace a stream. -/
def setS (s : State) (a : Nat) (p : Pool.State) : State := { s with S := fun b => if b = a then p else s.S b }

/-- Replace an output. -/
def setW (s : State) (o : Nat) (w : Worker.State) : State := { s with W := fun b => if b = o then w else s.W b }

/-- Replace a loop. -/
def setL (s : State) (a : Nat) (l : Option Loop) : State := { s with loop := fun b => if b = a then l else s.loop b }

/-- Replace what a thread does. -/
def setB (s : State) (t : Nat) (b : Option Nat) : State := { s with busy := fun u => if u = t then b else s.busy u }

/-- Number a message. -/
def name (s : State) (o a : Nat) (m : Pool.Msg) : State :=
  { s with names := fun b => if b = o then s.names o ++ [(a, m)] else s.names b }

/-- Record a statement. -/
def logged (s : State) (t : Nat) (e : Nat × Nat × List Nat) : State :=
  { s with log := fun u => if u = t then s.log t ++ [e] else s.log u }

/-- ThreadStream.cpp:130-136 with LogOutputStream.cpp:143-169: one step of the loop; `m` is the message. -/
def loopStep (c : Conf) (s : State) (a : Nat) (m : Pool.Msg) (t o : Nat) (r : List Nat) (entered : Bool) :
    Option State :=
  if entered then
    if (s.W o).pc a = .idle then some (setL s a (some ⟨t, r, false⟩))
    else (Worker.stepP (s.W o) a).map fun w => setW s o w
  else if c.lv o ≤ m.level then
    (Worker.callP (s.W o) a).map fun w => name (setL (setW s o w) a (some ⟨t, o :: r, true⟩)) o a m
  else some (setL s a (some ⟨t, r, false⟩))

/-- One step of the stream itself. -/
def poolStep (c : Conf) (s : State) (t a : Nat) (x : Pool.Act) : Option State :=
  (Pool.step ⟨false, c.racy⟩ (s.S a) t x).map fun p => setS s a p

/-- Thread `t` continues its statement on stream `a`. -/
def goStep (c : Conf) (s : State) (t a : Nat) : Option State :=
  match (s.S a).pc t with
  | .push i l txt =>
    match s.loop a with
    | some ⟨u, o :: r, e⟩ => loopStep c s a ⟨t, l, (s.S a).buf i, txt⟩ u o r e
    | _ => (poolStep c s t a .go).map fun s' => setL s' a none
  | .flushWait _ _ _ => (poolStep c s t a .go).map fun s' => setL s' a (some ⟨t, c.conn a, false⟩)
  | .reset _ => (poolStep c s t a .go).map fun s' => setB s' t none
  | _ => poolStep c s t a .go

/-- One action. `none`: not possible, blocked, or excluded by `c`. -/
def step (c : Conf) (s : State) : Act → Option State
  | .call t a l txt =>
    match s.busy t with
    | none => (poolStep c s t a (.call l txt)).map fun s' => setB (logged s' t (a, l, txt)) t (some a)
    | some _ => none
  | .go t => (s.busy t).bind fun a => goStep c s t a
  | .output o x => (Worker.step false (s.W o) x.act).map fun w => setW s o w

/-- Run a schedule. -/
def exec (c : Conf) (s : State) : List Act → Option State
  | [] => some s
  | a :: as => (step c s a).bind fun s' => exec c s' as

end Verif.Logging.Pipe
