import Verif.Conc.Registry.Config

/-!
# Specification: which calls of the configuration manager conflict (for C144)
-/
namespace Verif.Registry.Conf
open Verif.Cfg Verif.StdMap Race

/-- The variables of the manager `m`. -/
def mem (m : Mgr) : ∀ v, Val v
  | .items => m.items
  | .observers => m.observers
  | .initialized => m.initialized

/-- One call after the other in one thread (the model of C41): what the manager is afterwards. -/
def after (rx : S → S → Bool) (m : Mgr) : Op → Mgr
  | .insert k v => Cfg.insert k v m
  | .setValue k v => put m (k, v)
  | .registerObserver o k => Cfg.registerObserver rx o k m
  | .unregisterObserver o => Cfg.unregisterObserver o m
  | _ => m

/-- The calls of observers made by an operation that leads from `m` to `m'`. -/
def newCalls (m m' : Mgr) : List (Nat × S) := (m'.calls.drop m.calls.length).map fun c => (c.1, c.2.1)

/-- What the call returns, and whom it tells what, in one thread. -/
def answer (rx : S → S → Bool) (m : Mgr) : Op → Res
  | .isInitialized => .flag m.initialized
  | .get k => .value (lookup m.items k)
  | .hasKey k => .flag (lookup m.items k).isSome
  | .list q => .entries (m.items.filter fun e => q e.1)
  | .insert k _ => .flag (lookup m.items k).isNone
  | .setValue k v => .told (lookup m.items k).isNone (newCalls m (put m (k, v)))
  | .registerObserver o k => .told false (newCalls m (Cfg.registerObserver rx o k m))
  | .unregisterObserver _ => .told false []

/-- The answers of several calls made by one thread alone. -/
def answers (rx : S → S → Bool) (m : Mgr) : List Op → List Res
  | [] => []
  | c :: cs => answer rx m c :: answers rx (after rx m c) cs

/-- The call asks for values, or for keys. -/
def UsesValues : Op → Prop
  | .get _ | .hasKey _ | .list _ | .insert .. | .setValue .. | .registerObserver .. => True
  | _ => False

/-- The call changes a value. -/
def ChangesValues : Op → Prop
  | .insert .. | .setValue .. => True
  | _ => False

/-- The call uses the list of observers. -/
def UsesObservers : Op → Prop
  | .setValue .. | .registerObserver .. | .unregisterObserver _ => True
  | _ => False

/-- The call adds or removes an observer. -/
def ChangesObservers : Op → Prop
  | .registerObserver .. | .unregisterObserver _ => True
  | _ => False

/-- The second call uses what the first one changes. -/
def Disturbs (c d : Op) : Prop := (ChangesValues c ∧ UsesValues d) ∨ (ChangesObservers c ∧ UsesObservers d)

/-- Threads that use the manager: `calls i` are the calls of thread `i`. -/
def threads {ι : Type} (rx : S → S → Bool) (m : Mgr) (calls : ι → List Op) : World ι Val (List Res) where
  mem := mem m
  next := 0
  prog i := inOrder (call rx) (calls i)

/-- Some schedule of these calls has a data race. -/
def CanRace {ι : Type} [DecidableEq ι] (rx : S → S → Bool) (m : Mgr) (calls : ι → List Op) : Prop :=
  ∃ sched tr w' x, (threads rx m calls).exec sched = some (tr, w') ∧ DataRace tr x

end Verif.Registry.Conf
