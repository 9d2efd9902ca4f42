import Verif.Config.Observe.Model

/-!
# Specification for C142, in terms of what happened
-/
namespace Verif.Cfg.Observe

variable {K V : Type} [DecidableEq K]

/-- The registrations that are active after the events, oldest first. -/
def active : List (Ev K V) → List (Nat × K) := fun tr => tr.foldl (fun act ev => match ev with
  | .reg o k => act ++ [(o, k)]
  | .unreg o => act.filter fun a => a.1 ≠ o
  | _ => act) []

/-- The value of `k` after the events: that of the last `setValue`. -/
def current (k : K) : List (Ev K V) → Option V := fun tr => tr.foldl (fun x ev => match ev with
  | .set k' v => if k' = k then some v else x
  | _ => x) none

/-- What observer `o` saw when it was last called for `k`, if it ever was. -/
def lastSeen (o : Nat) (k : K) : List (Ev K V) → Option (Option V) := fun tr => tr.foldl (fun x ev => match ev with
  | .call o' k' v => if o' = o ∧ k' = k then some v else x
  | _ => x) none

/-- How often `o` was called for `k`. -/
def calls (o : Nat) (k : K) (tr : List (Ev K V)) : Nat :=
  tr.countP fun ev => match ev with
    | .call o' k' _ => decide (o' = o ∧ k' = k)
    | _ => false

/-- How often `o` was called. -/
def callsOf (o : Nat) (tr : List (Ev K V)) : Nat :=
  tr.countP fun ev => match ev with
    | .call o' _ _ => decide (o' = o)
    | _ => false

/-- A key that matches the regular expression `q` has been set. -/
def matchSet (rx : K → K → Bool) (q : K) (tr : List (Ev K V)) : Bool :=
  tr.any fun ev => match ev with
    | .set k _ => rx q k
    | _ => false

/-- The calls for `k` that the events `evs`, which follow `done`, owe to `o`: one for each `setValue` and each active
registration for `k` or for all keys, and one for each registration for `k` when a matching key is set. -/
def owed (e : K) (rx : K → K → Bool) (o : Nat) (k : K) : List (Ev K V) → List (Ev K V) → Nat
  | _, [] => 0
  | past, ev :: evs =>
    (match ev with
      | .set k' _ => if k' = k then (active past).count (o, k) + (active past).count (o, e) else 0
      | .reg o' k' => if o' = o ∧ k' = k ∧ matchSet rx k past = true then 1 else 0
      | _ => 0) + owed e rx o k (past ++ [ev]) evs

end Verif.Cfg.Observe
