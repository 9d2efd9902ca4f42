import Verif.Logging.Manager.ReuseProps

/-!
# Logging from the constructors and destructors of static objects (C137): model

A program consists of translation units with objects of static storage duration. The units are initialised
one after the other in an unspecified order (C++ standard, [basic.start.dynamic]), the objects within a unit in the order
of their definition; at the end the objects are destroyed in the reverse order of the completion of their
construction ([basic.start.term]). The logging manager is a function-local static object (LoggingManager.h:64-68),
constructed when it is first asked for. What the calls do is the model of the manager (`Manager/Model.lean`).
-/
namespace Verif.Logging.Static
open Verif.Logging.Manager

/-- An object of static storage duration. -/
inductive Obj where
  /-- the object made by `REGISTER_LOG_STREAM(name)`, Logging.h:130, LoggingManager.cpp:582-585; its destructor does nothing -/
  | stream (n : S)
  /-- the object made by `REGISTER_LOG_OUTPUT_STREAM(name, ..)`, Logging.h:132-133, LoggingManager.cpp:576-580 -/
  | output (n : S)
  /-- an object whose constructor and destructor log on these streams -/
  | user (ctor dtor : List S)

/-- A translation unit. -/
abbrev TU := List Obj

/-- A program. -/
structure Prog where
  /-- units that are initialised before all others in this order (those of shared libraries) -/
  lib : TU
  /-- the other units, in the order in which they happen to be initialised -/
  tus : List TU
  /-- `main` has a `LifeCycle` object, LoggingManager.cpp:589-598 -/
  life : Bool
  /-- the streams `main` logs on -/
  uses : List S

/-- The calls in the constructor of an object. -/
def Obj.ctorOps : Obj → List Op
  | .stream n => [.regStr n]
  | .output n => [.regOut n]
  | .user c _ => c.map .use

/-- The streams used in the destructor. -/
def Obj.dtorUses : Obj → List S
  | .user _ d => d
  | _ => []

/-- An object whose construction is complete: the manager, or an object with these streams to use in its
destructor. -/
inductive Item where
  | manager
  | obj (d : List S)

/-- The state of the program: is there a manager, and what is to be destroyed, last constructed first. -/
structure St where
  managed : Bool
  stack : List Item

/-- `LoggingManager::instance()`, LoggingManager.h:64-68: the first call constructs the manager. -/
def St.touch (s : St) : St := if s.managed then s else ⟨true, .manager :: s.stack⟩

/-- One static object is constructed. -/
def St.construct (s : St) (o : Obj) : St :=
  let s' := if o.ctorOps = [] then s else s.touch
  { s' with stack := .obj o.dtorUses :: s'.stack }

/-- What happens to the manager. -/
inductive Ev where
  | call (op : Op)
  /-- `~LoggingManager`, LoggingManager.cpp:372-375: `shutdown()` -/
  | destroyed

/-- The calls of `main`; LoggingManager.cpp:589-598: `LifeCycle` initialises and shuts down. -/
def Prog.mainOps (p : Prog) : List Op :=
  (if p.life then [.init] else []) ++ p.uses.map .use ++ (if p.life then [.shutdown] else [])

/-- All static objects in the order of their construction. -/
def Prog.objs (p : Prog) : List Obj := p.lib ++ p.tus.flatten

/-- The state when `main` returns. -/
def Prog.final (p : Prog) : St :=
  let s := p.objs.foldl St.construct ⟨false, []⟩
  if p.mainOps = [] then s else s.touch

/-- The destruction of the static objects. -/
def Item.evs : Item → List Ev
  | .manager => [.destroyed]
  | .obj d => d.map fun n => .call (.use n)

/-- Everything that happens to the logging manager from the start to the end of the program. -/
def Prog.trace (p : Prog) : List Ev :=
  (p.objs.flatMap Obj.ctorOps).map .call ++ p.mainOps.map .call ++ p.final.stack.flatMap Item.evs

/-- One event; `none` is undefined behaviour or a failed assertion. After the manager is destroyed every call is
undefined: the streams are deleted, and so are the maps of the manager. -/
def stepE (env : Env) (s : M × Bool) : Ev → Option (M × Bool)
  | .call op => if s.2 then (step env s.1 op).map fun m => (m, true) else none
  | .destroyed => if s.2 then some (shutdown s.1, false) else none

/-- The program runs without undefined behaviour and failed assertions. -/
def Prog.Safe (env : Env) (p : Prog) : Prop := (p.trace.foldlM (stepE env) (M.init, true)).isSome

end Verif.Logging.Static
