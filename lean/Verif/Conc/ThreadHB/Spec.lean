import Verif.Conc.ThreadHB.Model

/-!
# Specification for C139

Happens-before and data races are `Verif.Race.HB` and `Verif.Race.DataRace`.
-/
namespace Verif.Thread.HBT

open Verif.Race (Ev)

/-- How an event changes whether the owner has synchronised with the thread since it created the last one:
not after `pthread_create`; yes after a `pthread_join` that returned and after taking `m_thread_mutex` in
`wait()`. -/
def settle (b : Bool) : Option Nat × Ev Sync Var → Bool
  | (none, .rel (.create _)) => false
  | (none, .acq (.exit _)) => true
  | (none, .acq .mutex) => true
  | _ => b

/-- Has the owner synchronised with the thread since it created the last one? -/
def settled (tr : Tr) : Bool := tr.foldl settle true

/-- The owner uses the data only while `settled`. -/
def Careful (x : X) : List XAct → Prop
  | [] => True
  | a :: as => (∀ w, a = .owner w → settled x.tr = true) ∧ ∀ x', xstep x a = some x' → Careful x' as

/-- The calls of the public functions. -/
def isCall : XAct → Bool
  | .act .callStart | .act .callStop | .act .callJoin | .act .callWait | .act .callCancel | .act .callDestroy => true
  | _ => false

end Verif.Thread.HBT
