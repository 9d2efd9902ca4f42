import Verif.Util.StrMap
import Verif.Logging.Level

/-!
# Model of `icl_core_logging/LoggingManager.cpp`

The manager with the log streams declared by `REGISTER_LOG_STREAM` (Logging.h:101-133): the object
of a declared stream is created once, by the factory, and its address is kept in a static
`m_instance`, which nothing resets.  A stream is identified with its name.

Simplifications.  Streams registered by pointer and outputs removed by the user are left out
(`registerLogStream(LogStream*)` is only used by `configure`, `removeLogOutputStream` only by
`shutdown`).  Of an output object the class, the configuration prefix and the level are kept.  The
worker threads are modelled elsewhere (`Logging/Worker.lean`); `start()` is left out.  The output
streams of a log stream are a `std::set` of pointers, here a list without repetitions.  Two default
outputs that exist one after the other are distinguished by a number.
-/
namespace Verif.Logging.Manager

/-- Strings. -/
abbrev S := List Char

/-- The address of an output object. -/
inductive OutId where
  /-- the default output, `gen` default outputs have existed before it -/
  | dflt (gen : Nat)
  /-- the output with this name in `m_log_output_streams` -/
  | named (n : S)
  deriving DecidableEq

/-- LoggingManager.h:228-240 `LogOutputStreamConfig`.  There is no constructor:
`m_output_stream_config[entry_name]` makes a value-initialised object, with level 0. -/
structure OutCfg where
  kind : S
  name : S
  level : Nat
  streams : List S
  deriving DecidableEq

/-- LoggingManager.h:244-250 `LogStreamConfig`, value-initialised as well. -/
structure StrCfg where
  name : S
  level : Nat
  deriving DecidableEq

/-- LogStream.h: `m_initial_level` and `m_output_stream_list`. -/
structure Stream where
  level : Nat
  outs : List OutId
  deriving DecidableEq

/-- A log output object. -/
structure Output where
  kind : S
  pre : S
  level : Nat
  deriving DecidableEq

/-- The manager, the objects it owns, and the static `m_instance` of the stream classes. -/
structure M where
  initialized : Bool
  outCfg : List (S × OutCfg)
  strCfg : List (S × StrCfg)
  outFactories : List S
  strFactories : List S
  /-- `m_log_streams`; these are the streams whose `m_instance` points to a living object -/
  streams : List (S × Stream)
  /-- `m_log_output_streams` -/
  outputs : List (S × Output)
  dflt : Option (Nat × Output)
  /-- number of default outputs created so far -/
  gen : Nat
  /-- streams whose `m_instance` points to a deleted object -/
  freed : List S

/-- LoggingManager.cpp:356-370: the constructor. -/
def M.init : M := ⟨false, [], [], [], [], [], [], none, 0, []⟩

/-- What the program gets from outside: the configuration (a `std::map`), the `--log-level` option and
the `--quick-debug` option. -/
structure Env where
  items : List (S × S)
  logLevel : Option S
  quickDebug : Bool

/-! ## Reading the configuration -/

/-- The rest of `s` after `p`. -/
def strip : S → S → Option S
  | [], s => some s
  | _ :: _, [] => none
  | c :: p, d :: s => if c = d then strip p s else none

/-- `(.*)\/(.*)` with a greedy first group: the text before and after the last slash. -/
def splitLast : S → Option (S × S)
  | [] => none
  | c :: s =>
    match splitLast s with
    | some (a, b) => some (c :: a, b)
    | none => if c = '/' then some ([], s) else none

/-- `/IclCore/Logging/`. -/
def logPrefix : S := "/IclCore/Logging/".toList

/-- LoggingManager.cpp:51-52 and 80-81: the match of `\/IclCore\/Logging\/(KIND.*)\/(.*)` with a key:
the two groups. -/
def matchEntry (kind key : S) : Option (S × S) :=
  match strip logPrefix key with
  | none => none
  | some r =>
    match strip kind r with
    | none => none
    | some r' => (splitLast r').map fun x => (kind ++ x.1, x.2)

/-- `m[k]` for changing the element: it is created if it does not exist. -/
def modify {V : Type} (m : List (S × V)) (k : S) (d : V) (f : V → V) : List (S × V) :=
  StrMap.put m k (f ((StrMap.get m k).getD d))

/-- A new `LogOutputStreamConfig`. -/
def newOutCfg : OutCfg := ⟨[], [], 0, []⟩

/-- A new `LogStreamConfig`. -/
def newStrCfg : StrCfg := ⟨[], 0⟩

/-- `stringToLogLevel` for these strings: the new level. -/
def readLevel (t : S) (cur : Nat) : Nat := (stringToLogLevel (String.ofList t) cur).2

/-- LoggingManager.cpp:53-76: one turn of the loop. -/
def readOut (cfg : List (S × OutCfg)) (kv : S × S) : List (S × OutCfg) :=
  match matchEntry "OutputStream".toList kv.1 with
  | none => cfg
  | some (entry, value) =>
    if value = "OutputStreamName".toList then modify cfg entry newOutCfg fun c => { c with kind := kv.2 }
    else if value = "Name".toList then modify cfg entry newOutCfg fun c => { c with name := kv.2 }
    else if value = "LogLevel".toList then
      modify cfg entry newOutCfg fun c => { c with level := readLevel kv.2 c.level }
    else if value.take 9 = "LogStream".toList then
      modify cfg entry newOutCfg fun c => { c with streams := c.streams ++ [kv.2] }
    else cfg

/-- LoggingManager.cpp:82-98: one turn of the loop. -/
def readStr (cfg : List (S × StrCfg)) (kv : S × S) : List (S × StrCfg) :=
  match matchEntry "LogStream".toList kv.1 with
  | none => cfg
  | some (entry, value) =>
    if value = "Name".toList then modify cfg entry newStrCfg fun c => { c with name := kv.2 }
    else if value = "LogLevel".toList then
      modify cfg entry newStrCfg fun c => { c with level := readLevel kv.2 c.level }
    else cfg

/-- LoggingManager.cpp:46-99: the configuration is read by the first call. -/
def readConfig (env : Env) (m : M) : M :=
  if m.initialized then m
  else
    { m with
      initialized := true
      outCfg := env.items.foldl readOut m.outCfg
      strCfg := env.items.foldl readStr m.strCfg }

/-! ## `configure` -/

/-- LogStream.cpp:72-79 `addOutputStream`. -/
def Stream.add (o : OutId) (s : Stream) : Stream := { s with outs := if o ∈ s.outs then s.outs else s.outs ++ [o] }

/-- LogStream.cpp:81-88 `removeOutputStream`. -/
def Stream.remove (o : OutId) (s : Stream) : Stream := { s with outs := s.outs.filter (· ≠ o) }

/-- Apply `f` to all streams. -/
def onAll (f : Stream → Stream) (streams : List (S × Stream)) : List (S × Stream) := streams.map fun e => (e.1, f e.2)

/-- Apply `f` to the stream with name `n`, if there is one. -/
def onStream (n : S) (f : Stream → Stream) (streams : List (S × Stream)) : List (S × Stream) :=
  streams.map fun e => if e.1 = n then (e.1, f e.2) else e

/-- `StdLogOutput::create("Default", "/IclCore/Logging/Default")` if there is no default output. -/
def createDefault (m : M) : M :=
  match m.dflt with
  | some _ => m
  | none =>
    { m with
      dflt := some (m.gen, ⟨"Stdout".toList, "/IclCore/Logging/Default".toList, 2⟩)
      gen := m.gen + 1 }

/-- LoggingManager.cpp:145-148. -/
def defaultIfNeeded (m : M) : M := if m.outCfg.isEmpty then createDefault m else m

/-- LoggingManager.cpp:338-346 `registerLogStream`, for the new stream of LogStream.cpp:39-52. -/
def newStream (m : M) : Stream :=
  match m.dflt with
  | some (g, _) => Stream.add (.dflt g) ⟨2, []⟩
  | none => ⟨2, []⟩

/-- LoggingManager.cpp:151-158 for one factory, with `create` of Logging.h:121-128.  `none`: the
factory returns the address of a deleted stream, which is then used. -/
def createStream (m : M) (n : S) : Option M :=
  if (StrMap.get m.streams n).isSome then some m
  else if n ∈ m.freed then none
  else some { m with streams := StrMap.put m.streams n (newStream m) }

/-- LoggingManager.cpp:161-171. -/
def deleteDefault (m : M) : M :=
  if m.outCfg.isEmpty then m
  else
    match m.dflt with
    | none => m
    | some (g, _) => { m with streams := onAll (Stream.remove (.dflt g)) m.streams, dflt := none }

/-- LoggingManager.cpp:179-182. -/
def autoName (c : OutCfg) : OutCfg := if c.name = [] then { c with name := c.kind } else c

/-- LoggingManager.cpp:210-216: connect all streams, or 217-235: connect the listed streams. -/
def connect (c : OutCfg) (streams : List (S × Stream)) : List (S × Stream) :=
  if c.streams = [] then onAll (Stream.add (.named c.name)) streams
  else c.streams.foldl (fun ss n => onStream n (Stream.add (.named c.name)) ss) streams

/-- LoggingManager.cpp:184-236 for one entry (with its name already set). -/
def configOutput (m : M) (e : S × OutCfg) : M :=
  if (StrMap.get m.outputs e.2.name).isSome then { m with streams := connect e.2 m.streams }
  else if e.2.kind ∈ m.outFactories then
    { m with
      outputs := StrMap.put m.outputs e.2.name ⟨e.2.kind, logPrefix ++ e.1, e.2.level⟩
      streams := connect e.2 m.streams }
  else m

/-- LoggingManager.cpp:174-237.  The names are set first here; each turn of the loop reads only the
name of its own entry. -/
def configOutputs (m : M) : M :=
  let cfg := m.outCfg.map fun e => (e.1, autoName e.2)
  cfg.foldl configOutput { m with outCfg := cfg }

/-- LoggingManager.cpp:241-256. -/
def configStreams (m : M) : M :=
  m.strCfg.foldl
    (fun m e => { m with streams := onStream e.2.name (fun s => { s with level := e.2.level }) m.streams }) m

/-- `LogOutputStream::setLogLevel` (LogOutputStream.h:166) for all outputs of the map. -/
def setOutLevels (l : Nat) (outputs : List (S × Output)) : List (S × Output) :=
  outputs.map fun e => (e.1, { e.2 with level := l })

/-- LoggingManager.cpp:259-288. -/
def applyLogLevel (env : Env) (m : M) : M :=
  match env.logLevel with
  | none => m
  | some t =>
    match stringToLogLevel (String.ofList t) 2 with
    | (false, _) => m
    | (true, l) =>
      let m := createDefault m
      match m.dflt with
      | none => m
      | some (g, o) =>
        { m with
          dflt := some (g, { o with level := l })
          streams := onAll (fun s => Stream.add (.dflt g) { s with level := l }) m.streams
          outputs := setOutLevels l m.outputs }

/-- LoggingManager.cpp:142-289 `configure`. -/
def configure (env : Env) (m : M) : Option M :=
  ((defaultIfNeeded m).strFactories.foldlM createStream (defaultIfNeeded m)).map fun m =>
    applyLogLevel env (configStreams (configOutputs (deleteDefault m)))

/-! ## `initialize`, `shutdown` -/

/-- `QuickDebug`. -/
def quickName : S := "QuickDebug".toList

/-- LoggingManager.cpp:111-119: the search from `count` on; `n` turns are left. -/
def searchName (outputs : List (S × Output)) : Nat → Nat → S
  | 0, count => quickName ++ Nat.toDigits 10 count
  | n + 1, count =>
    if (StrMap.get outputs (quickName ++ Nat.toDigits 10 count)).isSome then searchName outputs n (count + 1)
    else quickName ++ Nat.toDigits 10 count

/-- LoggingManager.cpp:106-120.  The loop runs at most as often as there are outputs, see
`c73_quick_debug_name`. -/
def freshName (outputs : List (S × Output)) : S :=
  if (StrMap.get outputs quickName).isSome then searchName outputs outputs.length 1 else quickName

/-- LoggingManager.cpp:104-128. -/
def quickDebug (env : Env) (m : M) : M :=
  if env.quickDebug then
    { m with
      outputs := StrMap.put m.outputs (freshName m.outputs) ⟨"File".toList, [], 0⟩
      streams := onStream quickName
        (fun s => { Stream.add (.named (freshName m.outputs)) s with level := 0 }) m.streams }
  else m

/-- LoggingManager.cpp:44-140 `initialize`. -/
def initialize' (env : Env) (m : M) : Option M := (configure env (readConfig env m)).map (quickDebug env)

/-- LoggingManager.cpp:291-303 `setLogLevel`. -/
def setLogLevel (l : Nat) (m : M) : M :=
  { m with
    streams := onAll (fun s => { s with level := l }) m.streams
    outputs := setOutLevels l m.outputs }

/-- LoggingManager.cpp:420-461 `shutdown`: all outputs are taken from the streams and deleted, then the
streams are deleted. -/
def shutdown (m : M) : M :=
  { m with
    initialized := false
    dflt := none
    outputs := []
    freed := m.freed ++ m.streams.map Prod.fst
    streams := [] }

/-- Public calls. -/
inductive Op where
  /-- LoggingManager.cpp:313-316 `registerLogOutputStream` -/
  | regOut (n : S)
  /-- LoggingManager.cpp:333-336 `registerLogStream` with a factory -/
  | regStr (n : S)
  | init
  /-- access to a declared log stream: `instance()` (Logging.h:104-119) -/
  | use (n : S)
  | setLevel (l : Nat)
  | shutdown

/-- One call; `none` means undefined behaviour (use of a deleted object) or a failed assertion. -/
def step (env : Env) (m : M) : Op → Option M
  | .regOut n => some { m with outFactories := if n ∈ m.outFactories then m.outFactories else m.outFactories ++ [n] }
  | .regStr n => some { m with strFactories := if n ∈ m.strFactories then m.strFactories else m.strFactories ++ [n] }
  | .init => initialize' env m
  | .use n =>
    if (StrMap.get m.streams n).isSome then some m
    else if n ∈ m.freed then none
    else (initialize' env m).bind fun m' => if (StrMap.get m'.streams n).isSome then some m' else none
  | .setLevel l => some (setLogLevel l m)
  | .shutdown => some (shutdown m)

/-- Calls in order. -/
def run (env : Env) (ops : List Op) : Option M := ops.foldlM (step env) M.init

end Verif.Logging.Manager
