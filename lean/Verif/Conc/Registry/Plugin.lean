import Verif.Conc.Registry.Model

/-!
# The accesses of `icl_core_plugin/PluginManager.h` to its variables (for C143)

Simplifications as in `Verif/Plugin/Model.lean`.  The list of search paths, the texts of the error messages (only their number is
kept) and the log output are not modelled.  `m[id]` of a key that exists counts as a read (as
implemented in libstdc++; the standard does not promise it), `erase` counts as a write.
-/
namespace Verif.Registry.Plg
open Verif.Plugin Verif.StrMap Race

/-- The variables of a `PluginManager` (PluginManager.h:656-667, PluginManagerBase.h). -/
inductive Var where
  | initialized | lazy | handles | loaded | static | errors
  deriving DecidableEq, Repr

/-- Their values. -/
def Val : Var → Type
  | .initialized => Bool
  | .lazy => Bool
  | .handles => List (S × Option Nat)
  | .loaded => List (S × Option Inst)
  | .static => List (S × Inst)
  | .errors => Nat

/-- What a call returns. -/
inductive Res where
  | unit
  | names (l : List S)
  | insts (l : List (Option Inst))
  | inst (i : Option Inst)
  deriving DecidableEq

abbrev P := Prog Val

/-- PluginManagerBase.cpp `addErrorMessage`: `push_back`. -/
def addError {A : Type} (p : P A) : P A := .rd .errors fun (n : Nat) => .wr .errors (n + 1 : Nat) p

/-- PluginManager.h:427-496 `loadHandle`: a file without the two functions leaves an error message, one of another type
does not. -/
def loadHandle {A : Type} (f : File) (p : P A) : P A :=
  match f.ident with
  | none => addError p
  | some id =>
    if f.rightType then .rd .handles fun (h : List (S × Option Nat)) => .wr .handles (put h id f.handle) p
    else p

/-- PluginManager.h:357-423: the files, one after the other. -/
def loadHandles {A : Type} : List File → P A → P A
  | [], p => p
  | f :: fs, p => loadHandle f (loadHandles fs p)

/-- PluginManager.h:357-423 `initializePlugins`: the assertion reads `m_initialized`. -/
def initializePlugins {A : Type} (env : Env) (p : P A) : P A :=
  .rd .initialized fun _ => .wr .errors (0 : Nat) (.wr .initialized true (loadHandles env.files p))

/-- PluginManager.h:548-605 `loadPluginInstance`: a library that makes no object leaves an error message, a NULL handle
does not. -/
def loadInstance {A : Type} (env : Env) (h : Option Nat) (k : Option Inst → P A) : P A :=
  match h with
  | some n => if env.creates n then .fresh fun i => k (some (.lib n i)) else addError (k none)
  | none => k none

/-- PluginManager.h:504-511, the loop of `loadPlugins`. The nested `createPluginInstance` reads the two flags
and the existing handle; that it finds the flags as `loadPlugins` left them is assumed (another value
can only come from another thread that writes them at the same time). -/
def loadEach {A : Type} (env : Env) : List (S × Option Nat) → P A → P A
  | [], p => p
  | e :: r, p => .rd .loaded fun (l : List (S × Option Inst)) =>
    match get l e.1 with
    | some _ => loadEach env r p
    | none => .rd .initialized fun _ => .rd .lazy fun _ => .rd .handles fun _ =>
      loadInstance env e.2 fun i => .rd .loaded fun (l : List (S × Option Inst)) =>
        .wr .loaded (put l e.1 i) (loadEach env r p)

/-- PluginManager.h:501-515 `loadPlugins`. -/
def loadPlugins {A : Type} (env : Env) (p : P A) : P A :=
  .wr .lazy false (.rd .handles fun (h : List (S × Option Nat)) => loadEach env h p)

/-- PluginManager.h:91-117: `initialize` from its second test on. -/
def initRest {A : Type} (env : Env) (lazy : Bool) (p : P A) : P A :=
  .rd .initialized fun (i : Bool) =>
    if i then p
    else initializePlugins env (if lazy then .wr .lazy true p else loadPlugins env p)

/-- PluginManager.h:91-117 `initialize`. -/
def init {A : Type} (env : Env) (lazy : Bool) (p : P A) : P A :=
  .rd .initialized fun (i : Bool) =>
    if i then .rd .lazy fun (z : Bool) => if z && !lazy then loadPlugins env p else initRest env lazy p
    else initRest env lazy p

/-- PluginManager.h:133-141, 163-171, 194-202, 217-225: what every lookup does first; from the test of `m_lazy_loading`
on. -/
def ensureRest {A : Type} (env : Env) (p : P A) : P A :=
  .rd .lazy fun (z : Bool) => if z then loadPlugins env p else p

/-- PluginManager.h:133-141, 163-171, 194-202, 217-225: what every lookup does first. -/
def ensure {A : Type} (env : Env) (p : P A) : P A :=
  .rd .initialized fun (i : Bool) => if i then ensureRest env p else init env false (ensureRest env p)

/-- The calls: PluginManager.h:91-117 `initialize`, 131-157 `availablePlugins`, 161-187 `plugins`, 192-210
`plugin`, 215-229 `createPluginInstance`, 239-244 `addStaticPlugin`, 249-254 `removeStaticPlugin`. -/
def call (env : Env) : Op → P Res
  | .init lazy => init env lazy (.ret .unit)
  | .availablePlugins => ensure env (.rd .handles fun (h : List (S × Option Nat)) =>
      .rd .static fun (s : List (S × Inst)) => .ret (.names (h.map Prod.fst ++ s.map Prod.fst)))
  | .plugins => ensure env (.rd .loaded fun (l : List (S × Option Inst)) =>
      .rd .static fun (s : List (S × Inst)) =>
        .ret (.insts (l.map Prod.snd ++ s.map (fun e => some e.2))))
  | .plugin id => ensure env (.rd .static fun (s : List (S × Inst)) =>
      match get s id with
      | some i => .ret (.inst (some i))
      | none => .rd .loaded fun (l : List (S × Option Inst)) =>
        match get l id with
        | some i => .ret (.inst i)
        | none => .wr .loaded (put l id none) (.ret (.inst none)))
  | .create id => ensure env (.rd .handles fun (h : List (S × Option Nat)) =>
      match get h id with
      | some k => loadInstance env k fun i => .ret (.inst i)
      | none => .wr .handles (put h id none) (.ret (.inst none)))
  | .addStatic id k => .rd .static fun (s : List (S × Inst)) => .wr .static (del s id)
      (.rd .static fun (s : List (S × Inst)) => .wr .static (put s id (.ext k)) (.ret .unit))
  | .removeStatic id => .rd .static fun (s : List (S × Inst)) => .wr .static (del s id) (.ret .unit)

end Verif.Registry.Plg
