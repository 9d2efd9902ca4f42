import Verif.Startup.Model
import Verif.Config.CfgSpec
import Verif.Config.GetoptSpec
import Verif.Logging.Manager.Spec

/-! # Specification of the start of a program (C122) -/
namespace Verif.Startup

/-- The declarations that concern the command line parser. -/
def calls (ds : List Decl) : List Getopt.Call :=
  ds.filterMap fun d => match d with
    | .opt o s b => some (.param o s b)
    | .cfg o s _ _ => some (.param o s false)
    | .pos n b | .cfgPos n _ _ b => some (.positional n b)
    | .activate d => some (.activate d)
    | .out _ | .stream _ => none

/-- The name of an option, without the colon that says that it takes a value. -/
def optName (o : S) : S := if o.getLast? = some ':' then o.dropLast else o

/-- The declarations that have a configuration key: first the options, then the positional parameters. -/
def keyed (ds : List Decl) : List Cfg.Param :=
  (ds.filterMap fun d => match d with
    | .cfg o _ key dflt => if key = [] then none else some ⟨optName o, key, dflt⟩
    | _ => none) ++
  (ds.filterMap fun d => match d with
    | .cfgPos n key dflt _ => if key = [] then none else some ⟨n, key, dflt⟩
    | _ => none)

/-- The values which the command line gives for configuration keys. -/
def given (ds : List Decl) (its : List Getopt.Item) : List (S × S) :=
  (keyed ds).filterMap fun p => (Getopt.valuesOf its p.option).getLast?.map fun v => (p.key, v)

/-- The default values for configuration keys. -/
def defaults (ds : List Decl) : List (S × S) :=
  (keyed ds).filterMap fun p => if p.dflt = [] then none else some (p.key, p.dflt)

/-- The value of a configuration key: the last `-o` option for it, else the command line parameter for it, else the
entry of the configuration file, else the default. -/
def setting (ds : List Decl) (its : List Getopt.Item) (file : List (S × S)) (key : S) : Option S :=
  (Cfg.lastValue (Getopt.prefixValuesOf its "config-option".toList) key).or
    ((Cfg.lastValue (given ds its) key).or
      ((Cfg.lastValue file key).or (Cfg.firstValue (defaults ds) key)))

/-- `file` are the entries of the configuration file named on the command line (the last one, if there are several)
in order, and at the end the name of the file itself; none without such a file. -/
def FileEntries (fs : Cfg.Files) (k : Nat) (its : List Getopt.Item) (file : List (S × S)) : Prop :=
  match (Getopt.valuesOf its "configfile".toList).getLast? with
  | none => file = []
  | some f => ∃ es, file = es ++ [("/configfile".toList, f)] ∧
      ∀ m, Cfg.load fs k f m = some (.ok (true, es.foldl Cfg.put m))

/-- The level given with `--log-level` or `-l`, if it is a legal one. -/
def cmdLevel (its : List Getopt.Item) : Option Nat :=
  (Getopt.valuesOf its "log-level".toList).getLast?.bind Logging.Manager.levelOf

/-- The command line parser stops at argument `a`, which is followed by `r`: it is an unknown option in strict mode, or
a short option whose value is missing. -/
inductive Stops (rx : S → S → Option S) (h : List Getopt.Call) (strict : Bool) (a : S) (r : List S) : Prop
  | long {name : S} {v : Option S} : strict = true → Getopt.LongForm a name v → Getopt.longParam h name = none →
      Getopt.NoPrefix rx h Getopt.Param.option (fun _ => True) name → Stops rx h strict a r
  | short {name : S} : strict = true → Getopt.ShortForm a name → Getopt.shortParam h name = none →
      Getopt.NoPrefix rx h Getopt.Param.short (fun q => q.short ≠ []) name → Stops rx h strict a r
  | value {name : S} {p : Getopt.Param} : r = [] → Getopt.ShortForm a name → Getopt.shortParam h name = some p →
      p.hasValue = true → Stops rx h strict a r
  | prefixValue {name sfx : S} {p : Getopt.Param} : r = [] → Getopt.ShortForm a name → Getopt.shortParam h name = none →
      Getopt.Chosen rx h Getopt.Param.short (fun q => q.short ≠ []) name p sfx → p.hasValue = true → Stops rx h strict a r

/-- The registrations with the logging manager. -/
def logOps (ds : List Decl) : List Logging.Manager.Op :=
  ds.filterMap fun d => match d with
    | .out n => some (.regOut n)
    | .stream n => some (.regStr n)
    | _ => none

end Verif.Startup
