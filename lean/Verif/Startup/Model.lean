import Verif.Config.CfgModel
import Verif.Logging.Manager.Model

/-!
# Start of a program: `icl_core::logging::initialize(argc, argv, ..)`

The command line parser (`Config/GetoptModel.lean`), the configuration manager (`Config/CfgModel.lean`) and the
logging manager (`Logging/Manager/Model.lean`) put together as Logging.cpp and Config.cpp do.
-/
namespace Verif.Startup

/-- A string. -/
abbrev S := List Char

/-- What a program declares before `initialize`: options and positional parameters (with or without a configuration key),
classes of log outputs, log streams. -/
inductive Decl where
  /-- Config.h `addParameter(GetoptParameter(option, short_option, help, is_prefix))` -/
  | opt (option short : S) (isPrefix : Bool)
  /-- Config.h `addParameter(ConfigParameter(option, short_option, config_key, help, default_value))` -/
  | cfg (option short key dflt : S)
  /-- Config.h `addParameter(GetoptPositionalParameter(name, help, is_optional))` -/
  | pos (name : S) (isOptional : Bool)
  /-- Config.h `addParameter(ConfigPositionalParameter(name, config_key, help, is_optional, default_value))` -/
  | cfgPos (name key dflt : S) (isOptional : Bool)
  /-- Config.h `activateExtraCmdParams(delimiter)` -/
  | activate (delimiter : S)
  /-- `REGISTER_LOG_OUTPUT_STREAM(name, factory)` -/
  | out (name : S)
  /-- `REGISTER_LOG_STREAM(name)` -/
  | stream (name : S)

/-- The three singletons. -/
structure App where
  /-- `Getopt::instance()` -/
  reg : Getopt.Reg
  /-- `ConfigManager::instance()` -/
  cfg : Cfg.Mgr
  /-- `LoggingManager::instance()` -/
  log : Logging.Manager.M

/-- One declaration: ConfigManager.cpp:47-57 and 67-77 register with both managers, Config.h:561-579 only with the
command line parser, LoggingManager.cpp:313-316 and 333-336 with the logging manager. -/
def declare (a : App) : Decl → App
  | .opt o s b => { a with reg := Getopt.addParameter (Getopt.mkParam o s b) a.reg }
  | .cfg o s key dflt =>
    { a with
      reg := Getopt.addParameter (Getopt.mkParam o s false) a.reg
      cfg := Cfg.addParameter ⟨(Getopt.mkParam o s false).option, key, dflt⟩ a.cfg }
  | .pos n b => { a with reg := Getopt.addPositional n b a.reg }
  | .cfgPos n key dflt b =>
    { a with reg := Getopt.addPositional n b a.reg, cfg := Cfg.addPositional ⟨n, key, dflt⟩ a.cfg }
  | .activate d => { a with reg := { a.reg with delim := some d } }
  | .out n =>
    { a with log := { a.log with outFactories :=
        if n ∈ a.log.outFactories then a.log.outFactories else a.log.outFactories ++ [n] } }
  | .stream n =>
    { a with log := { a.log with strFactories :=
        if n ∈ a.log.strFactories then a.log.strFactories else a.log.strFactories ++ [n] } }

/-- The option `log-level`. -/
def logLevelOpt : S := "log-level".toList
/-- The option `quick-debug`. -/
def quickDebugOpt : S := "quick-debug".toList

/-- What the libraries declare themselves: ConfigManager.cpp:178-187, LoggingManager.cpp:362-369, Logging.cpp:91-93,
and the output classes (StdLogOutput.cpp:31, StdErrorLogOutput.cpp:31, FileLogOutput.cpp:40, UdpLogOutput.cpp:37,
SQLiteLogOutput.cpp:33).  Their order depends on the static initialisation; it does not matter, as the names differ
(declarations of the program come later here). -/
def builtins : List Decl :=
  [.cfg "configfile:".toList "c".toList "/configfile".toList [],
   .opt "dump-config".toList "dc".toList false,
   .opt "config-option:".toList "o".toList true,
   .opt "log-level:".toList "l".toList false,
   .opt "quick-debug:".toList "qd".toList false,
   .stream "Default".toList, .stream "Nirwana".toList, .stream "QuickDebug".toList,
   .out "Stdout".toList, .out "Stderr".toList, .out "File".toList, .out "UDP".toList, .out "SQLite".toList]

/-- The program with its declarations. -/
def app (ds : List Decl) : App := (builtins ++ ds).foldl declare ⟨Getopt.newReg, {}, Logging.Manager.M.init⟩

/-- GetoptParser.cpp:136-332: what is stored when the loop over the arguments ends, also where it ends with
`return false` (`Getopt.scan` leaves this out). -/
def left (rx : S → S → Option S) (g : Getopt.Reg) (strict : Bool) : Bool → Getopt.Out → List S → Getopt.Out
  | _, o, [] => o
  | true, o, a :: r => left rx g strict true (o.ext a) r
  | false, o, a :: r =>
    match Getopt.longOpt a with
    | some (name, val) =>
      match Getopt.get name g.params with
      | some p => left rx g strict false (o.set name (if p.hasValue then val else Getopt.yes)) r
      | none =>
        match Getopt.findPrefix rx name g.prefixes with
        | some (k, p, suffix) =>
          left rx g strict false (o.push k suffix (if p.hasValue then val else Getopt.yes)) r
        | none => if strict then o else left rx g strict false (o.non a) r
    | none =>
      match Getopt.shortOpt a with
      | some name =>
        match Getopt.get name g.shorts with
        | some p =>
          if p.hasValue then
            match r with
            | [] => o
            | v :: r' => left rx g strict false (o.set p.option v) r'
          else left rx g strict false (o.set p.option Getopt.yes) r
        | none =>
          match Getopt.findPrefix rx name g.shortPrefixes with
          | some (_, p, suffix) =>
            if p.hasValue then
              match r with
              | [] => o
              | v :: r' => left rx g strict false (o.push p.option suffix v) r'
            else left rx g strict false (o.push p.option suffix Getopt.yes) r
          | none => if strict then o else left rx g strict false (o.non a) r
      | none =>
        if g.delim = some a then left rx g strict true o r
        else if o.count < g.required.length then
          left rx g strict false
            { o.set (g.required.getD o.count []) a with count := o.count + 1 } r
        else if o.count < g.required.length + g.optional.length then
          left rx g strict false
            { o.set (g.optional.getD (o.count - g.required.length) []) a with
              count := o.count + 1 } r
        else left rx g strict false (o.non a) r

/-- What the logging manager finds when it is initialised: the configuration (LoggingManager.cpp:50-98), the option
`--log-level` (LoggingManager.cpp:263-266) and the option `--quick-debug` (LoggingManager.cpp:105; the conversion to
a string never fails). -/
def envOf (items : List (S × S)) (o : Getopt.Out) : Logging.Manager.Env :=
  ⟨items, if o.paramOptPresent logLevelOpt then some (o.paramOpt logLevelOpt) else none, o.paramOptPresent quickDebugOpt⟩

/-- How `initialize` ends. -/
inductive Started where
  /-- the process has ended with `exit(0)` -/
  | exit
  /-- it returns `result`; the managers and the command line as they are then -/
  | up (result : Bool) (argv : List S) (argc : Nat) (cfg : Cfg.Mgr) (log : Logging.Manager.M)

/-- Logging.cpp:113 `LoggingManager::instance().initialize()`, and the result. -/
def finish (env : Logging.Manager.Env) (log : Logging.Manager.M) (result : Bool) (argv : List S) (argc : Nat)
    (cfg : Cfg.Mgr) : Option (Outcome Started) :=
  match Logging.Manager.initialize' env log with
  | some l => some (.ok (.up result argv argc cfg l))
  | none => some .ub

/-- Logging.cpp:108-115 `logging::initialize(argc, argv, cleanup, registration_check)` with Config.cpp:57-69
`config::initialize`; the first call in the program.  `none`: the budget for nested configuration files was used up. -/
def start (rx : S → S → Option S) (fs : Cfg.Files) (k : Nat) (a : App) (strict clean : Bool) (argv : List S) :
    Option (Outcome Started) :=
  match Getopt.init rx a.reg strict clean {} argv with
  | none => none
  | some .exit => some (.ok .exit)
  | some .fail =>
    finish (envOf a.cfg.items (left rx a.reg strict false {} argv.tail)) a.log false argv argv.length a.cfg
  | some (.ok o argv' argc') =>
    match Cfg.init fs k o a.cfg with
    | none => none
    | some (.throws e) => some (.throws e)
    | some .ub => some .ub
    | some (.ok (r, m)) => finish (envOf m.items o) a.log r argv' argc' m

/-- LoggingMacros_SLOGGING.h:55-71, ThreadStream.cpp:125-147 (`flush`) and LogOutputStream.cpp:143-180 (`push`): the
outputs that get a message of level `l` logged to the (active) stream `n`. -/
def reached (log : Logging.Manager.M) (n : S) (l : Nat) : List Logging.Manager.OutId :=
  match StrMap.get log.streams n with
  | none => []
  | some s =>
    if s.level ≤ l then
      s.outs.filter fun
        | .dflt g => match log.dflt with
          | some (g', x) => decide (g = g') && decide (x.level ≤ l)
          | none => false
        | .named o => match StrMap.get log.outputs o with
          | some x => decide (x.level ≤ l)
          | none => false
    else []

end Verif.Startup
