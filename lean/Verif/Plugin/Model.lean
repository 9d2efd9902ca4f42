import Verif.Base
import Verif.Util.StrMap

/-!
# Model of `icl_core_plugin/PluginManager.h`

The file system and the dynamic linker are inputs: `Env` lists the regular files of the
search paths in the order in which the directory iterators deliver them, with what `dlopen`
and `dlsym` find in them.  Libraries and plugin objects are numbers.  Log output and the texts of
the error messages are not modelled.
-/
namespace Verif.Plugin
open Verif.StrMap

/-- A regular file in one of the plugin paths. -/
structure File where
  /-- result of `dlopen`, `none` is NULL -/
  handle : Option Nat
  /-- result of the functions `identifier` and `basetype`, if both symbols are found; for a NULL
  handle `dlsym` searches the symbols of the program itself -/
  ident : Option S
  /-- `basetype` returns the type of this manager -/
  rightType : Bool
  deriving DecidableEq

/-- The environment. -/
structure Env where
  /-- the files found, in this order -/
  files : List File
  /-- the library has a function `load_plugin` that returns an object -/
  creates : Nat → Bool

/-- A plugin object: made by a library (with a serial number), or by the program. -/
inductive Inst where
  | lib (handle serial : Nat)
  | ext (k : Nat)
  deriving DecidableEq

/-- PluginManager.h:656-667, the data; `none` as value is NULL. -/
structure Mgr where
  /-- `m_loaded_plugins` -/
  loaded : List (S × Option Inst) := []
  /-- `m_plugin_handles` -/
  handles : List (S × Option Nat) := []
  /-- `m_static_plugins` -/
  static : List (S × Inst) := []
  /-- `m_initialized` -/
  initialized : Bool := false
  /-- `m_lazy_loading` -/
  lazy : Bool := false
  /-- number of objects made so far -/
  serial : Nat := 0
  /-- objects deleted, oldest first -/
  deleted : List (Option Inst) := []
  /-- libraries closed, oldest first -/
  closed : List Nat := []
  deriving DecidableEq

/-- PluginManager.h:427-496 `loadHandle`. -/
def loadHandle (m : Mgr) (f : File) : Mgr :=
  match f.ident with
  | none => m
  | some id => if f.rightType then { m with handles := put m.handles id f.handle } else m

/-- PluginManager.h:357-423 `initializePlugins`. -/
def initializePlugins (env : Env) (m : Mgr) : Mgr :=
  env.files.foldl loadHandle { m with initialized := true }

/-- PluginManager.h:548-605 `loadPluginInstance`. -/
def loadPluginInstance (env : Env) (h : Option Nat) (m : Mgr) : Option Inst × Mgr :=
  match h with
  | some k => if env.creates k then (some (.lib k m.serial), { m with serial := m.serial + 1 }) else (none, m)
  | none => (none, m)

/-- PluginManager.h:504-511, one round of `loadPlugins`; the nested call of
`createPluginInstance` only reads the existing handle. -/
def loadOne (env : Env) (m : Mgr) (e : S × Option Nat) : Mgr :=
  match get m.loaded e.1 with
  | some _ => m
  | none =>
    let r := loadPluginInstance env e.2 m
    { r.2 with loaded := put r.2.loaded e.1 r.1 }

/-- PluginManager.h:501-515 `loadPlugins`. -/
def loadPlugins (env : Env) (m : Mgr) : Mgr :=
  m.handles.foldl (loadOne env) { m with lazy := false }

/-- PluginManager.h:91-117 `initialize`. -/
def initPlugins (env : Env) (m : Mgr) (lazy : Bool) : Mgr :=
  if m.initialized && m.lazy && !lazy then loadPlugins env m
  else if m.initialized then m
  else
    let m1 := initializePlugins env m
    if !lazy then loadPlugins env m1 else { m1 with lazy := true }

/-- PluginManager.h:133-141, 163-171, 194-202, 217-225: what every access does first. -/
def ensure (env : Env) (m : Mgr) : Mgr :=
  let m1 := if !m.initialized then initPlugins env m false else m
  if m1.lazy then loadPlugins env m1 else m1

/-- PluginManager.h:131-157 `availablePlugins`. -/
def availablePlugins (env : Env) (m : Mgr) : List S × Mgr :=
  let m1 := ensure env m
  (m1.handles.map Prod.fst ++ m1.static.map Prod.fst, m1)

/-- PluginManager.h:161-187 `plugins`. -/
def plugins (env : Env) (m : Mgr) : List (Option Inst) × Mgr :=
  let m1 := ensure env m
  (m1.loaded.map Prod.snd ++ m1.static.map (fun e => some e.2), m1)

/-- PluginManager.h:192-210 `plugin`: `m_loaded_plugins[identifier]` makes an entry. -/
def plugin (env : Env) (m : Mgr) (id : S) : Option Inst × Mgr :=
  let m1 := ensure env m
  match get m1.static id with
  | some i => (some i, m1)
  | none =>
    match get m1.loaded id with
    | some i => (i, m1)
    | none => (none, { m1 with loaded := put m1.loaded id none })

/-- PluginManager.h:215-229 `createPluginInstance`: `m_plugin_handles[identifier]` makes an
entry. -/
def createPluginInstance (env : Env) (m : Mgr) (id : S) : Option Inst × Mgr :=
  let m1 := ensure env m
  match get m1.handles id with
  | some h => loadPluginInstance env h m1
  | none => loadPluginInstance env none { m1 with handles := put m1.handles id none }

/-- PluginManager.h:239-244, 249-254 `addStaticPlugin`, `removeStaticPlugin`; `id` is the
identifier of the object. -/
def addStatic (m : Mgr) (id : S) (k : Nat) : Mgr := { m with static := put (del m.static id) id (.ext k) }
/-- see `addStatic` -/
def removeStatic (m : Mgr) (id : S) : Mgr := { m with static := del m.static id }

/-- PluginManager.h:527-544 `closePluginHandle`.  `aliased` says that the argument is a
reference to the key inside `m_loaded_plugins`: after the entry is erased, the reference dangles
and `m_plugin_handles.erase(identifier)` reads freed memory. -/
def closePluginHandle (m : Mgr) (id : S) (aliased : Bool) : Outcome Mgr :=
  match get m.handles id with
  | some (some h) =>
    match get m.loaded id with
    | some i =>
      if aliased then .ub
      else .ok { m with
        loaded := del m.loaded id
        deleted := m.deleted ++ [i]
        closed := m.closed ++ [h]
        handles := del m.handles id }
    | none => .ok { m with closed := m.closed ++ [h], handles := del m.handles id }
  | _ => .ok { m with handles := del m.handles id }

/-- PluginManager.h:62-73, the destructor, at most `n` rounds of its loop (`none`: the loop has
not ended). -/
def destroy (aliased : Bool) : Nat → Mgr → Option (Outcome Mgr)
  | n, m =>
    match m.handles, m.loaded with
    | _ :: _, (id, _) :: _ =>
      match n with
      | 0 => none
      | n + 1 =>
        match closePluginHandle m id aliased with
        | .ok m' => destroy aliased n m'
        | .ub => some .ub
        | .throws e => some (.throws e)
    | _, _ => some (.ok m)

/-- The calls of a client. -/
inductive Op where
  | init (lazy : Bool)
  | availablePlugins
  | plugins
  | plugin (id : S)
  | create (id : S)
  | addStatic (id : S) (k : Nat)
  | removeStatic (id : S)
  deriving DecidableEq

/-- Run one call, without its result. -/
def step (env : Env) (m : Mgr) : Op → Mgr
  | .init lazy => initPlugins env m lazy
  | .availablePlugins => (availablePlugins env m).2
  | .plugins => (plugins env m).2
  | .plugin id => (plugin env m id).2
  | .create id => (createPluginInstance env m id).2
  | .addStatic id k => addStatic m id k
  | .removeStatic id => removeStatic m id

/-- A history of calls, newest first, on a new manager. -/
def run (env : Env) : List Op → Mgr
  | [] => {}
  | op :: h => step env (run env h) op

end Verif.Plugin
