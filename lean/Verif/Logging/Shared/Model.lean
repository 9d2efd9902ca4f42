import Verif.Conc.Race.Model

/-!
# Shared state of the logging library: what each function accesses under which semaphore (C123, C124)

Log streams, log outputs and thread streams are numbered.  For every function the possible sequences of
accesses are given; where a function branches on data or on a `wait()` that returns `false` there are several.
Within one critical section repeated accesses to the same variable are listed once.
-/
namespace Verif.Logging.Shared
open Verif.Race

/-- The semaphores. -/
inductive Sem where
  /-- LogStream.h:187 `m_mutex` of log stream `s`, initially 1 -/
  | stream (s : Nat)
  /-- LogOutputStream.h:302 `m_mutex` of the worker thread of output `o`, initially 1 -/
  | queue (o : Nat)
  /-- LogOutputStream.h:303 `m_fill_count`, initially 0 -/
  | fill (o : Nat)
  /-- LogOutputStream.h:375 `m_no_worker_thread_push_mutex`, initially 1 -/
  | direct (o : Nat)
  /-- LogOutputStream.h:377 `m_format_mutex`, initially 1 -/
  | format (o : Nat)
  /-- the end of the worker thread, for which `join()` waits (Thread.cpp:84-92), initially 0 -/
  | ended (o : Nat)
  deriving DecidableEq, Repr

/-- The shared variables. -/
inductive Var where
  /-- `LogStream::m_output_stream_list` -/
  | outputs (s : Nat)
  /-- `LogStream::m_thread_stream_map` -/
  | pool (s : Nat)
  /-- `LogStream::m_initial_level` -/
  | level (s : Nat)
  /-- `LogStream::m_active` -/
  | active (s : Nat)
  /-- the text buffer, names and write index of thread stream `k` -/
  | buffer (k : Nat)
  /-- `LogOutputStream::m_log_level` -/
  | outLevel (o : Nat)
  /-- `WorkerThread::m_message_queue` -/
  | queue (o : Nat)
  /-- what the output writes to: file, socket, data base -/
  | sink (o : Nat)
  /-- `LogOutputStream::m_log_format` -/
  | format (o : Nat)
  /-- `LogOutputStream::m_new_log_format` -/
  | newFormat (o : Nat)
  /-- `LogOutputStream::m_time_format` -/
  | timeFormat (o : Nat)
  /-- `Thread::m_execute` of the worker thread -/
  | execute (o : Nat)
  /-- `Thread::m_finished` of the worker thread -/
  | finished (o : Nat)
  deriving DecidableEq, Repr

abbrev E := Ev Sem Var

/-- The initial counts (constructors of `LogStream`, `LogOutputStream` and `WorkerThread`: LogStream.cpp:43,
LogOutputStream.cpp:54-55, 544-550). -/
def initial : Sem → Nat
  | .stream _ => 1
  | .queue _ => 1
  | .fill _ => 0
  | .direct _ => 1
  | .format _ => 1
  | .ended _ => 0

/-- LogOutputStream.cpp:182-296 `pushImpl(log_message)` with the virtual `pushImpl(text)`: nothing if the wait
fails; the time format is read if the format has a `~T` field. -/
inductive PushImpl (o : Nat) : List E → Prop
  | fails : PushImpl o []
  | plain : PushImpl o [.acq (.format o), .rd (.format o), .rel (.format o), .wr (.sink o)]
  | timed : PushImpl o [.acq (.format o), .rd (.format o), .rd (.timeFormat o), .rel (.format o), .wr (.sink o)]

/-- LogOutputStream.cpp:143-180 `push`; `worker o` says whether output `o` has a worker thread. -/
inductive Push (worker : Nat → Bool) (o : Nat) : List E → Prop
  /-- below the level of the output, or the wait failed -/
  | nothing : Push worker o [.rd (.outLevel o)]
  | queued (h : worker o = true) : Push worker o
      [.rd (.outLevel o), .acq (.queue o), .rd (.queue o), .wr (.queue o), .rel (.queue o), .rel (.fill o)]
  /-- LogOutputStream.cpp:158 with the fixed-size queue: the queue is full -/
  | full (h : worker o = true) : Push worker o
      [.rd (.outLevel o), .acq (.queue o), .rd (.queue o), .rel (.queue o), .rel (.fill o)]
  | direct (h : worker o = false) (es : List E) (he : PushImpl o es) : Push worker o
      (.rd (.outLevel o) :: .acq (.direct o) :: es ++ [.rel (.direct o)])

/-- ThreadStream.cpp:130-136: push to each output of the list. -/
inductive PushAll (worker : Nat → Bool) : List E → Prop
  | done : PushAll worker []
  | push (o : Nat) (es rest : List E) (he : Push worker o es) (hr : PushAll worker rest) : PushAll worker (es ++ rest)

/-- The functions a thread of the program can call. A log statement (LoggingMacros_SLOGGING.h:55-71) is
`isActive`, `getLogLevel`, `threadStream`, several `write` and `flush`. -/
inductive Api where
  | isActive (s : Nat)
  | getLogLevel (s : Nat)
  | threadStream (s k : Nat)
  | write (k : Nat)
  | flush (s k : Nat)
  | addOutputStream (s : Nat)
  | removeOutputStream (s : Nat)
  | setActive (s : Nat)
  | setLogLevel (streams outs : List Nat)
  | printConfiguration (streams outs : List Nat)
  | changeLogFormat (o : Nat)
  | changeTimeFormat (o : Nat)
  | shutdown (o : Nat)

/-- The accesses of one call. -/
inductive Call (worker : Nat → Bool) : Api → List E → Prop
  /-- LogStream.h:78 -/
  | isActive (s) : Call worker (.isActive s) [.rd (.active s)]
  /-- LogStream.cpp:66-70 -/
  | getLogLevel (s) : Call worker (.getLogLevel s) [.rd (.level s)]
  /-- LogStream.cpp:90-154: the stream was already assigned -/
  | found (s k) : Call worker (.threadStream s k)
      [.acq (.stream s), .rd (.pool s), .rel (.stream s), .rd (.level s), .wr (.buffer k)]
  /-- LogStream.cpp:90-154: the stream is taken from the pool, or a new one is created (which reads the level,
  ThreadStream.cpp:151-152) -/
  | taken (s k) : Call worker (.threadStream s k)
      [.acq (.stream s), .rd (.pool s), .rd (.level s), .wr (.pool s), .rel (.stream s), .rd (.level s), .wr (.buffer k)]
  /-- ThreadStream.cpp:80-98 and the setters before it -/
  | write (k) : Call worker (.write k) [.rd (.buffer k), .wr (.buffer k)]
  /-- ThreadStream.cpp:125-147 with LogStream.cpp:252-263 -/
  | flush (s k) (es : List E) (he : PushAll worker es) : Call worker (.flush s k)
      (.wr (.buffer k) :: .acq (.stream s) :: .rd (.outputs s) :: es ++
        [.rd (.pool s), .wr (.pool s), .rel (.stream s), .wr (.buffer k)])
  /-- ThreadStream.cpp:142-146: the wait failed -/
  | flushFails (s k) : Call worker (.flush s k) [.wr (.buffer k), .wr (.buffer k)]
  /-- LogStream.cpp:72-79 -/
  | add (s) : Call worker (.addOutputStream s) [.acq (.stream s), .wr (.outputs s), .rel (.stream s)]
  | addFails (s) : Call worker (.addOutputStream s) []
  /-- LogStream.cpp:81-88 -/
  | remove (s) : Call worker (.removeOutputStream s) [.acq (.stream s), .wr (.outputs s), .rel (.stream s)]
  | removeFails (s) : Call worker (.removeOutputStream s) []
  /-- LogStream.h:72 -/
  | setActive (s) : Call worker (.setActive s) [.wr (.active s)]
  /-- LoggingManager.cpp:291-303 -/
  | setLogLevel (streams outs) : Call worker (.setLogLevel streams outs)
      (streams.map (fun s => .wr (.level s)) ++ outs.map fun o => .wr (.outLevel o))
  /-- LoggingManager.cpp:377-406, LogStream.cpp:156-163, LogOutputStream.cpp:303-306 -/
  | printConfiguration (streams outs) : Call worker (.printConfiguration streams outs)
      (outs.map (fun o => .rd (.outLevel o)) ++ streams.map fun s => .rd (.outputs s))
  /-- LogOutputStream.cpp:125-141, 393-506: `parseLogFormat` fills `m_new_log_format` without a lock -/
  | changeLogFormat (o) : Call worker (.changeLogFormat o)
      [.wr (.newFormat o), .acq (.format o), .wr (.format o), .rd (.newFormat o), .wr (.newFormat o), .rel (.format o)]
  | changeFails (o) : Call worker (.changeLogFormat o) [.wr (.newFormat o)]
  /-- an empty format -/
  | changeEmpty (o) : Call worker (.changeLogFormat o) []
  /-- LogOutputStream.h:97 -/
  | changeTimeFormat (o) : Call worker (.changeTimeFormat o) [.wr (.timeFormat o)]
  /-- LogOutputStream.cpp:516-527, Thread.h:94, Thread.cpp:84-92 -/
  | shutdown (o) (h : worker o = true) : Call worker (.shutdown o)
      [.rd (.finished o), .wr (.execute o), .rel (.fill o), .rd (.finished o), .acq (.ended o)]
  /-- Thread.cpp:86: the worker has ended in the meantime -/
  | shutdownLate (o) (h : worker o = true) : Call worker (.shutdown o)
      [.rd (.finished o), .wr (.execute o), .rel (.fill o), .rd (.finished o)]
  /-- no worker thread, or it is not running -/
  | shutdownIdle (o) : Call worker (.shutdown o) [.rd (.finished o)]

/-- A thread of the program: calls one after the other, each of them allowed by `ok`. -/
def Program (worker : Nat → Bool) (ok : Api → Prop) (es : List E) : Prop :=
  ∃ cs : List (List E), (∀ c ∈ cs, ∃ a, ok a ∧ Call worker a c) ∧ es = cs.flatten

/-- LogOutputStream.cpp:569-603, the rounds of the main loop of the worker. -/
inductive Round (o : Nat) : List E → Prop
  /-- the wait for a message failed -/
  | fails : Round o [.rd (.execute o), .rd (.execute o)]
  /-- cpp:576: empty, or the wait for the mutex failed -/
  | empty : Round o [.rd (.execute o), .acq (.fill o), .rd (.queue o)]
  /-- cpp:581: no message after all -/
  | late : Round o [.rd (.execute o), .acq (.fill o), .rd (.queue o), .acq (.queue o), .rd (.queue o), .rel (.queue o)]
  | message (es : List E) (he : PushImpl o es) : Round o
      (.rd (.execute o) :: .acq (.fill o) :: .rd (.queue o) :: .acq (.queue o) :: .rd (.queue o) :: .wr (.queue o) ::
        .rel (.queue o) :: es)

/-- LogOutputStream.cpp:612-627: the remaining messages, written while holding the mutex. -/
inductive Drain (o : Nat) : List E → Prop
  | done : Drain o [.rd (.queue o)]
  | message (es rest : List E) (he : PushImpl o es) (hr : Drain o rest) :
      Drain o (.rd (.queue o) :: .wr (.queue o) :: es ++ rest)

/-- Thread.cpp:130-140 (without `m_starting` and `m_joined`) `runThread` with LogOutputStream.cpp:562-636 `run`: the worker thread of output `o`. -/
inductive Worker (o : Nat) : List E → Prop
  | run (rounds : List (List E)) (hr : ∀ r ∈ rounds, Round o r) (drain : List E) (hd : Drain o drain) :
      Worker o (.wr (.execute o) :: .wr (.finished o) :: .wr (.sink o) :: rounds.flatten ++ .rd (.execute o) ::
        .acq (.queue o) :: drain ++
        [.rel (.queue o), .wr (.sink o), .wr (.execute o), .wr (.finished o), .rel (.ended o)])
  /-- the last wait for the mutex failed -/
  | noDrain (rounds : List (List E)) (hr : ∀ r ∈ rounds, Round o r) :
      Worker o (.wr (.execute o) :: .wr (.finished o) :: .wr (.sink o) :: rounds.flatten ++
        [.rd (.execute o), .wr (.sink o), .wr (.execute o), .wr (.finished o), .rel (.ended o)])
  /-- still in its main loop -/
  | waiting (rounds : List (List E)) (hr : ∀ r ∈ rounds, Round o r) :
      Worker o (.wr (.execute o) :: .wr (.finished o) :: .wr (.sink o) :: rounds.flatten ++
        [.rd (.execute o), .acq (.fill o)])

/-- A program with worker threads: thread `t` is the worker of output `o` if `role t = some o` (one worker for
each output, and only for outputs that have one), and any program otherwise. -/
structure System (ι : Type) (worker : Nat → Bool) (ok : Api → Prop) (role : ι → Option Nat) (s : St ι Sem Var) : Prop where
  sems : s.sem = initial
  one : ∀ t u o, role t = some o → role u = some o → t = u
  has : ∀ t o, role t = some o → worker o = true
  runs : ∀ t o, role t = some o → Worker o (s.prog t)
  calls : ∀ t, role t = none → Program worker ok (s.prog t)

end Verif.Logging.Shared
