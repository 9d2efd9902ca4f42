import Verif.Plugin.Model

/-!
# Model: where the plugin manager looks for plugins, and its error messages (C117)

PluginManagerBase.cpp:29-96 and PluginManager.h:91-117, 357-423, 427-496, 501-515, 548-605, around the model of
`Plugin/Model.lean`. The file system is a function from path strings to directories with their entries in the order in
which the iterators deliver them. The texts of messages are replaced by constructors with the texts that go
into them. Not modelled: log output, Windows.
-/
namespace Verif.Plugin.Search
open Verif.StrMap Verif.Plugin

/-- `dlsym`: the error text, or what the function found returns. -/
inductive Sym where
  | missing (err : S)
  | found (s : S)
  deriving DecidableEq

/-- A regular file for the dynamic linker. With a NULL handle `dlsym` searches the program itself. -/
structure Lib where
  /-- `dlopen`; `none` is NULL -/
  handle : Option Nat
  /-- the reason if `dlopen` fails -/
  openErr : S
  identifier : Sym
  basetype : Sym
  deriving DecidableEq

/-- A directory entry. -/
inductive Entry where
  /-- regular files and links to them -/
  | file (name : S) (lib : Lib)
  | dir (name : S) (kids : List Entry)
  /-- a directory that cannot be read -/
  | locked (name : S)
  /-- everything else, also links to directories, which the recursive iterator does not follow -/
  | other (name : S)

/-- Calling `load_plugin` of a library. -/
inductive Made where
  | noSymbol (err : S)
  | null
  | object
  deriving DecidableEq

/-- The surroundings. -/
structure World where
  /-- `none`: `exists` returns false or throws -/
  lookup : S → Option Entry
  /-- `typeid(T).name()` -/
  typeName : S
  made : Nat → Made
  /-- `dlerror` still reports a failed `dlsym` after a later one succeeded (both occur) -/
  sticky : Bool

/-- The error messages. -/
inductive Msg where
  /-- PluginManager.h:466 -/
  | cannotLoad (file err : S)
  /-- PluginManager.h:478 -/
  | methodMissing (file : S)
  /-- PluginManager.h:582 -/
  | cannotCreate (id err : S)
  /-- PluginManager.h:594 -/
  | cannotCast (id : S)
  deriving DecidableEq

/-- The manager with its base class (PluginManagerBase.h:74-76). -/
structure PM where
  paths : List S
  msgs : List Msg
  mgr : Mgr

/-- PluginManagerBase.cpp:39-49 `addPluginPath`. -/
def addPath (p : PM) (path : S) : PM := if path ≠ [] then { p with paths := p.paths ++ [path] } else p

/-- PluginManagerBase.cpp:29-32, the constructor. -/
def PM.new (pluginDir : S) : PM := addPath ⟨[], [], {}⟩ pluginDir

/-- `boost::filesystem::path::operator/`. -/
def join (p n : S) : S := if p.getLast? = some '/' then p ++ n else p ++ '/' :: n

mutual
/-- PluginManager.h:387-417, one entry: the files handed to `loadHandle`, and whether an exception ends it. -/
def scanEntry (r : Bool) (p : S) : Entry → List (S × Lib) × Bool
  | .file n l => ([(join p n, l)], false)
  | .dir n ks => if r then scanList r (join p n) ks else ([], false)
  | .locked _ => ([], r)
  | .other _ => ([], false)
/-- PluginManager.h:387-417, the entries of a directory. -/
def scanList (r : Bool) (p : S) : List Entry → List (S × Lib) × Bool
  | [] => ([], false)
  | e :: es =>
    let a := scanEntry r p e
    if a.2 then a
    else
      let b := scanList r p es
      (a.1 ++ b.1, b.2)
end

/-- PluginManager.h:364-418, the loop over the paths. A path that exists but is not a readable directory makes the
constructor of the iterator throw. -/
def scanPaths (w : World) (r : Bool) : List S → List (S × Lib) × Bool
  | [] => ([], false)
  | p :: ps =>
    match w.lookup p with
    | none => scanPaths w r ps
    | some (.dir _ ks) =>
      let a := scanList r p ks
      if a.2 then a
      else
        let b := scanPaths w r ps
        (a.1 ++ b.1, b.2)
    | some _ => ([], true)

/-- What the model of `loadHandle` in `Plugin/Model.lean` needs of a file. -/
def toFile (w : World) (l : Lib) : File :=
  { handle := l.handle
    ident := match l.identifier, l.basetype with
      | .found i, .found _ => some i
      | _, _ => none
    rightType := match l.basetype with
      | .found t => t == w.typeName
      | .missing _ => false }

/-- PluginManager.h:437-496: the messages of `loadHandle`. Line 437 clears the error of `dlopen`. -/
def handleMsgs (w : World) (f : S) (l : Lib) : List Msg :=
  let err := match l.basetype with
    | .missing e => some e
    | .found _ => match l.identifier with
      | .missing e => if w.sticky then some e else none
      | .found _ => none
  match err with
  | some e => [.cannotLoad f e]
  | none =>
    match l.identifier, l.basetype with
    | .found _, .found _ => []
    | _, _ => [.methodMissing f]

/-- PluginManager.h:548-605: the messages of `loadPluginInstance`. -/
def createMsgs (w : World) (id : S) (h : Option Nat) : List Msg :=
  match h with
  | none => []
  | some k =>
    match w.made k with
    | .noSymbol e => [.cannotCreate id e]
    | .null => [.cannotCast id]
    | .object => []

/-- The environment of `Plugin/Model.lean` for these files. -/
def envOf (w : World) (fs : List (S × Lib)) : Env := ⟨fs.map fun f => toFile w f.2, fun k => decide (w.made k = .object)⟩

/-- PluginManager.h:427-496 `loadHandle`. -/
def loadHandleW (w : World) (p : PM) (f : S × Lib) : PM :=
  { p with mgr := loadHandle p.mgr (toFile w f.2), msgs := p.msgs ++ handleMsgs w f.1 f.2 }

/-- PluginManager.h:357-423 `initializePlugins`; true: an exception leaves it. -/
def initializePluginsW (w : World) (r : Bool) (p : PM) : PM × Bool :=
  let s := scanPaths w r p.paths
  (s.1.foldl (loadHandleW w) { p with msgs := [], mgr := { p.mgr with initialized := true } }, s.2)

/-- PluginManager.h:504-511, one round of `loadPlugins`. -/
def loadOneW (w : World) (p : PM) (e : S × Option Nat) : PM :=
  match get p.mgr.loaded e.1 with
  | some _ => p
  | none => { p with mgr := loadOne (envOf w []) p.mgr e, msgs := p.msgs ++ createMsgs w e.1 e.2 }

/-- PluginManager.h:501-515 `loadPlugins`. -/
def loadPluginsW (w : World) (p : PM) : PM := p.mgr.handles.foldl (loadOneW w) { p with mgr := { p.mgr with lazy := false } }

/-- PluginManager.h:91-117 `initialize`. -/
def initW (w : World) (lazy r : Bool) (p : PM) : PM × Bool :=
  if p.mgr.initialized && p.mgr.lazy && !lazy then (loadPluginsW w p, false)
  else if p.mgr.initialized then (p, false)
  else
    let a := initializePluginsW w r p
    if a.2 then a
    else if !lazy then (loadPluginsW w a.1, false) else ({ a.1 with mgr := { a.1.mgr with lazy := true } }, false)

/-- PluginManager.h:133-141 and the like: what every access does first. -/
def ensureW (w : World) (p : PM) : PM × Bool :=
  let a := if !p.mgr.initialized then initW w false false p else (p, false)
  if a.2 then a
  else if a.1.mgr.lazy then (loadPluginsW w a.1, false) else a

/-- The public calls. -/
inductive WOp where
  | addPath (path : S)
  | init (lazy recursive : Bool)
  | availablePlugins
  | plugins
  | plugin (id : S)
  | create (id : S)
  | addStatic (id : S) (k : Nat)
  | removeStatic (id : S)
  deriving DecidableEq

/-- PluginManager.h:192-229, the parts behind the common beginning, which are in `Plugin/Model.lean`. -/
def finish (w : World) (p : PM) : WOp → PM
  | .plugin id => { p with mgr := (plugin (envOf w []) p.mgr id).2 }
  | .create id =>
    { p with mgr := (createPluginInstance (envOf w []) p.mgr id).2, msgs := p.msgs ++ createMsgs w id ((get p.mgr.handles id).getD none) }
  | _ => p

/-- One call; true: an exception leaves it. -/
def stepW (w : World) (p : PM) (op : WOp) : PM × Bool :=
  match op with
  | .addPath path => (addPath p path, false)
  | .init lazy r => initW w lazy r p
  | .addStatic id k => ({ p with mgr := addStatic p.mgr id k }, false)
  | .removeStatic id => ({ p with mgr := removeStatic p.mgr id }, false)
  | _ =>
    let a := ensureW w p
    if a.2 then a else (finish w a.1 op, false)

/-- A history of calls, the newest first; a caller goes on after an exception. -/
def runW (w : World) (pluginDir : S) : List WOp → PM
  | [] => PM.new pluginDir
  | op :: h => (stepW w (runW w pluginDir h) op).1

/-- The call for the model of `Plugin/Model.lean`. -/
def WOp.erase : WOp → Option Op
  | .addPath _ => none
  | .init lazy _ => some (.init lazy)
  | .availablePlugins => some .availablePlugins
  | .plugins => some .plugins
  | .plugin id => some (.plugin id)
  | .create id => some (.create id)
  | .addStatic id k => some (.addStatic id k)
  | .removeStatic id => some (.removeStatic id)

end Verif.Plugin.Search
