import Verif.Logging.Manager.Model

/-! # Specification of the logging configuration (C73-C75) -/
namespace Verif.Logging.Manager

/-- The configuration key of value `v` of entry `e`. -/
def key (e v : S) : S := "/IclCore/Logging/".toList ++ e ++ '/' :: v

/-- The names that are read from the entry of an output. -/
def OutValue (v : S) : Prop :=
  v = "OutputStreamName".toList ∨ v = "Name".toList ∨ v = "LogLevel".toList ∨
    ("LogStream".toList <+: v ∧ '/' ∉ v)

/-- `e` is the configuration entry of an output. -/
def OutEntry (items : List (S × S)) (e : S) : Prop :=
  "OutputStream".toList <+: e ∧ ∃ v, OutValue v ∧ (StrMap.get items (key e v)).isSome

/-- The class of the output configured by `e`. -/
def outKind (items : List (S × S)) (e : S) : S := (StrMap.get items (key e "OutputStreamName".toList)).getD []

/-- The name of the output configured by `e`; without a name it is the class. -/
def outName (items : List (S × S)) (e : S) : S :=
  let n := (StrMap.get items (key e "Name".toList)).getD []
  if n = [] then outKind items e else n

/-- The level with name `t`. -/
def levelOf (t : S) : Option Nat := (specNames.find? fun x => x.1 == String.ofList t).map (·.2)

/-- The level configured by entry `e`, if there is one. -/
def cfgLevel (items : List (S × S)) (e : S) : Option Nat :=
  (StrMap.get items (key e "LogLevel".toList)).bind fun t => levelOf t

/-- Entry `e` lists stream `n`. -/
def Lists (items : List (S × S)) (e n : S) : Prop :=
  ∃ v, "LogStream".toList <+: v ∧ '/' ∉ v ∧ StrMap.get items (key e v) = some n

/-- Entry `e` is for stream `n`: it lists it, or it lists no stream at all. -/
def For (items : List (S × S)) (e n : S) : Prop := Lists items e n ∨ ∀ n', ¬ Lists items e n'

/-- No two entries configure an output of the same name. -/
def NamesDiffer (items : List (S × S)) : Prop :=
  ∀ e e', OutEntry items e → OutEntry items e' → outName items e = outName items e' → e = e'

/-- Output `o` is to be created: an entry with this name, whose class is registered. -/
def Wanted (items : List (S × S)) (ops : List Op) (e o : S) : Prop :=
  OutEntry items e ∧ outName items e = o ∧ .regOut (outKind items e) ∈ ops

/-- The value of the `--log-level` option. -/
def optLevel (env : Env) : Option Nat := env.logLevel.bind fun t => levelOf t

/-- `e` is the configuration entry of a log stream. -/
def StrEntry (items : List (S × S)) (e : S) : Prop :=
  "LogStream".toList <+: e ∧
    ∃ v, (v = "Name".toList ∨ v = "LogLevel".toList) ∧ (StrMap.get items (key e v)).isSome

/-- The stream which entry `e` is about. -/
def strName (items : List (S × S)) (e : S) : S := (StrMap.get items (key e "Name".toList)).getD []

/-- The calls that create the registered log streams: `initialize` and the access to a stream. -/
def Creates (op : Op) : Prop := op = .init ∨ ∃ n, op = .use n

/-- Some stream has been created: a stream was registered, and later the logging was initialized. -/
def Created (ops : List Op) : Prop := ∃ a op b n, ops = a ++ op :: b ∧ Creates op ∧ .regStr n ∈ a

/-- The logging has been shut down after a stream was created. -/
def Ended (ops : List Op) : Prop := ∃ a b, ops = a ++ .shutdown :: b ∧ Created a

/-- The logging is used again after that. -/
def Reused (ops : List Op) : Prop := ∃ a op b, ops = a ++ op :: b ∧ Creates op ∧ Ended a

end Verif.Logging.Manager
