import Verif.Util.StdMap

/-!
# Model: observers that call back into the configuration manager (C142)

`valueChanged` is code of the user, which may call `setValue`, `registerObserver` and `unregisterObserver`
(also through the destructor of a `ConfigObserver`) again. The state therefore contains the stack of the
functions that are running. Whenever a callback or the main program runs, any event of the user may follow.
`K` are the keys (strings with their order), `V` the values, `e` is the key `""`, `rx q k` says that the regular
expression `q` matches the whole key `k`. A file that is loaded by `load`, `initialize` or
`setValue("/configfile", ...)` is a sequence of `set` events (every `insert` there is followed by `notify`).
Not modelled: `insert` of the base class, which tells nobody (C41), several threads, exceptions.
-/
namespace Verif.Cfg.Observe
open Verif.StdMap

/-- A function of the library, or a callback, that has not returned. -/
inductive Frame (K : Type) where
  /-- `valueChanged(k)` of observer `o`: code of the user -/
  | callback (o : Nat) (k : K)
  /-- ConfigManager.cpp:418-423, the loop of `notify` over its copy of the list (those still to be told), and
  ConfigManager.cpp:312-315 with one observer or none -/
  | telling (rest : List Nat) (k : K)
  /-- ConfigManager.cpp:305-311, the loop of `registerObserver` over all keys; `last` is the key at which the
  iterator is -/
  | listing (o : Nat) (last : Option K)
  deriving DecidableEq

/-- ConfigManager.h:233-240, the data that matter here, and the stack. -/
structure St (K V : Type) where
  /-- `m_items` -/
  items : List (K × V)
  /-- `m_observers` (no entry is the same as an empty list) -/
  obs : K → List Nat
  /-- the newest function first; empty: the main program runs -/
  stack : List (Frame K)

/-- The start. -/
def St.init {K V : Type} : St K V := ⟨[], fun _ => [], []⟩

/-- What happens. -/
inductive Ev (K V : Type) where
  /-- the user calls `setValue(k, v)` -/
  | set (k : K) (v : V)
  /-- the user calls `registerObserver(o, k)` -/
  | reg (o : Nat) (k : K)
  /-- the user calls `unregisterObserver(o)` -/
  | unreg (o : Nat)
  /-- the running callback returns -/
  | ret
  /-- the library calls `valueChanged(k)` of `o`; `v` is the value of `k` at this moment -/
  | call (o : Nat) (k : K) (v : Option V)
  /-- the running function of the library returns -/
  | done
  deriving DecidableEq

variable {K V : Type} [LinearOrder K] [DecidableEq V]

/-- The user's code is running. -/
def userRuns : List (Frame K) → Bool
  | [] => true
  | .callback _ _ :: _ => true
  | _ => false

/-- KeyValueDirectory.hpp:98-123 `next()` for the query `.*` (`any` are the keys it matches), from the key at which the
iterator is; entries may have been inserted meanwhile. -/
def nextKey (any : K → Bool) (items : List (K × V)) (last : Option K) : Option K :=
  (items.find? fun x => (match last with
    | none => true
    | some l => decide (l < x.1)) && any x.1).map Prod.fst

/-- ConfigManager.cpp:298-316 (`reg`), 318-327 (`unreg`), 405-424 (`set` with ConfigManager.h:132-145, `call`, `done`). -/
def step (e : K) (any : K → Bool) (rx : K → K → Bool) (s : St K V) : Ev K V → Option (St K V)
  | .set k v =>
    if userRuns s.stack then
      some { s with items := assign s.items k v, stack := .telling (s.obs k ++ s.obs e) k :: s.stack }
    else none
  | .reg o k =>
    if userRuns s.stack then
      let obs := fun q => if q = k then s.obs q ++ [o] else s.obs q
      if k = e then some { s with obs := obs, stack := .listing o none :: s.stack }
      else if s.items.any fun x => rx k x.1 then some { s with obs := obs, stack := .telling [o] k :: s.stack }
      else some { s with obs := obs, stack := .telling [] k :: s.stack }
    else none
  | .unreg o =>
    if userRuns s.stack then some { s with obs := fun q => (s.obs q).filter (· ≠ o) } else none
  | .ret =>
    match s.stack with
    | .callback _ _ :: st => some { s with stack := st }
    | _ => none
  | .call o k v =>
    if v ≠ find s.items k then none
    else match s.stack with
    | .telling (o' :: r) k' :: st =>
      if o' = o ∧ k' = k then some { s with stack := .callback o k :: .telling r k' :: st } else none
    | .listing o' last :: st =>
      if o' = o ∧ nextKey any s.items last = some k then
        some { s with stack := .callback o k :: .listing o' (some k) :: st }
      else none
    | _ => none
  | .done =>
    match s.stack with
    | .telling [] _ :: st => some { s with stack := st }
    | .listing _ last :: st => if nextKey any s.items last = none then some { s with stack := st } else none
    | _ => none

/-- Do the events one after the other; `none`: they cannot happen in this order. -/
def exec (e : K) (any : K → Bool) (rx : K → K → Bool) (s : St K V) : List (Ev K V) → Option (St K V)
  | [] => some s
  | ev :: evs => (step e any rx s ev).bind fun s' => exec e any rx s' evs

end Verif.Cfg.Observe
