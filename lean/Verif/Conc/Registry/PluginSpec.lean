import Verif.Conc.Registry.Plugin

/-!
# Specification: which calls of a plugin manager only read (for C143)
-/
namespace Verif.Registry.Plg
open Verif.Plugin Verif.StrMap Race

/-- The variables of the manager `m` with `e` error messages. -/
def mem (m : Mgr) (e : Nat) : ∀ v, Val v
  | .initialized => m.initialized
  | .lazy => m.lazy
  | .handles => m.handles
  | .loaded => m.loaded
  | .static => m.static
  | .errors => e

/-- The answer of a call when no other thread runs (the model of C59). -/
def answer (env : Env) (m : Mgr) : Op → Res
  | .availablePlugins => .names (availablePlugins env m).1
  | .plugins => .insts (Plugin.plugins env m).1
  | .plugin id => .inst (Plugin.plugin env m id).1
  | .create id => .inst (createPluginInstance env m id).1
  | _ => .unit

/-- The plugins are loaded: `initialize(false)` or a lookup was called before. -/
def Ready (m : Mgr) : Prop := m.initialized = true ∧ m.lazy = false

/-- The calls that write nothing. -/
def OnlyReads (env : Env) (m : Mgr) : Op → Prop
  | .init lazy => m.initialized = true ∧ (m.lazy = true → lazy = true)
  | .availablePlugins => Ready m
  | .plugins => Ready m
  | .plugin id => Ready m ∧ ((get m.static id).isSome ∨ (get m.loaded id).isSome)
  | .create id => Ready m ∧ (get m.handles id = some none ∨ ∃ h, get m.handles id = some (some h) ∧ env.creates h = true)
  | .addStatic _ _ => False
  | .removeStatic _ => False

/-- A call that looks something up. -/
def Lookup : Op → Prop
  | .availablePlugins => True
  | .plugins => True
  | .plugin _ => True
  | .create _ => True
  | _ => False

/-- Threads that call the manager: `calls i` are the calls of thread `i`. -/
def start {ι : Type} (env : Env) (m : Mgr) (e : Nat) (calls : ι → List Op) : World ι Val (List Res) where
  mem := mem m e
  next := m.serial
  prog i := inOrder (call env) (calls i)

/-- Some schedule of these calls has a data race. -/
def CanRace {ι : Type} [DecidableEq ι] (env : Env) (m : Mgr) (e : Nat) (calls : ι → List Op) : Prop :=
  ∃ sched tr w' x, (start env m e calls).exec sched = some (tr, w') ∧ DataRace tr x

/-- The same manager when `n` objects have been made. -/
def at_ (m : Mgr) (n : Nat) : Mgr := { m with serial := n }

end Verif.Registry.Plg
