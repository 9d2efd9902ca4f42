import Verif.Conc.Registry.Perf

/-!
# Specification: which calls of the performance monitor only read (for C143)
-/
namespace Verif.Registry.Mon
open Verif.Perf Verif.StrMap Race

/-- The variables of the monitor `m`; `inst`: it exists. -/
def mem (m : Perf.Mon) (inst : Bool) : ∀ v, Val v
  | .inst => inst
  | .enabled => m.enabled
  | .all => m.all
  | .prefixes => m.prefixes
  | .data => m.data
  | .nontime => m.nontime
  | .timers => m.timers
  | .buffer => m.buffer
  | .static => m.static

/-- The answer of a call when no other thread runs (the model of C58). -/
def answer (m : Perf.Mon) : Op → ℚ
  | .measurement t d p now => (measurement m t d p now).1
  | .startStop t d p now => (startStop m t d p now).1
  | _ => 0

/-- Samples of this prefix are recorded. -/
def Records (m : Perf.Mon) (pfx : S) : Prop := (m.enabled = true ∧ (get m.prefixes pfx).isSome) ∨ m.all = true

/-- The calls that write nothing. -/
def OnlyReads (m : Perf.Mon) : Op → Prop
  | .init _ => False
  | .setEnabled _ => False
  | .enableAll _ => False
  | .enablePrefix p => (get m.prefixes p).isSome
  | .disablePrefix p => get m.prefixes p = none
  | .start _ _ => m.enabled = false
  | .measurement _ _ p _ => ¬ Records m p
  | .startStop t _ p _ => ¬ Records m p ∨ (m.enabled = false ∧ get m.timers t = some 0)
  | .addData _ _ p => ¬ Records m p
  | .addNonTimeData _ _ p => ¬ Records m p
  | .addStaticData _ _ p => ¬ Records m p

/-- Threads that use the monitor: `calls i` are the calls of thread `i`. -/
def threads {ι : Type} (m : Perf.Mon) (inst : Bool) (calls : ι → List Op) : World ι Val (List ℚ) where
  mem := mem m inst
  next := 0
  prog i := inOrder call (calls i)

/-- Some schedule of these calls has a data race. -/
def CanRace {ι : Type} [DecidableEq ι] (m : Perf.Mon) (inst : Bool) (calls : ι → List Op) : Prop :=
  ∃ sched tr w' x, (threads m inst calls).exec sched = some (tr, w') ∧ DataRace tr x

end Verif.Registry.Mon
