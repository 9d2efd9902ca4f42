import Verif.Conc.Registry.Model
import Verif.Config.CfgModel

/-!
# The accesses of `ConfigManager` to its variables (for C144)

`m_items`, `m_observers` and `m_initialized` are one variable each. An iteration over a map counts as one read of it.
The observers that are called do not use the manager. `instance()` is a static local variable: its first use
is thread safe (C++11 6.7). Not modelled: `load`, `initialize` and `addParameter`; `setValue("/configfile", …)`, which loads
a file; values that are not strings.
-/
namespace Verif.Registry.Conf
open Verif.Cfg Verif.StdMap Race

/-- The variables: KeyValueDirectory.h (`m_items`), ConfigManager.h:233-240. -/
inductive Var where
  | items | observers | initialized
  deriving DecidableEq, Repr

/-- Their values. -/
def Val : Var → Type
  | .items => List (S × S)
  | .observers => List (S × List Nat)
  | .initialized => Bool

/-- The calls. -/
inductive Op where
  | isInitialized
  | get (k : S)
  | hasKey (k : S)
  /-- `find(query)`, and `next()` with `key()` and `value()` until the end; the matching keys are `q` -/
  | list (q : S → Bool)
  | insert (k v : S)
  | setValue (k v : S)
  | registerObserver (o : Nat) (k : S)
  | unregisterObserver (o : Nat)

/-- What a call returns, and which observers it tells what. -/
inductive Res where
  | flag (b : Bool)
  | value (v : Option S)
  | entries (l : List (S × S))
  | told (isNew : Bool) (l : List (Nat × S))
  deriving DecidableEq

abbrev P := Prog Val Res

/-- KeyValueDirectory.hpp:62-68 `insert`; ConfigManager.h:132-145 `setValue`. -/
def insertItem (k v : S) (p : Bool → P) : P :=
  .rd .items fun (m : List (S × S)) => .wr .items (KeyValue.insert m k v).2 (p (KeyValue.insert m k v).1)

/-- ConfigManager.h:120-123 `isInitialized`; KeyValueDirectory.hpp:34-60 `find`, `get`, `hasKey`, 98-123 `next`; ConfigManager.cpp:298-327
`registerObserver` (`rx q k`: the regular expression `q` matches `k`), `unregisterObserver`, 405-424 `notify`. -/
def call (rx : S → S → Bool) : Op → P
  | .isInitialized => .rd .initialized fun (b : Bool) => .ret (.flag b)
  | .get k => .rd .items fun (m : List (S × S)) => .ret (.value (lookup m k))
  | .hasKey k => .rd .items fun (m : List (S × S)) => .ret (.flag (lookup m k).isSome)
  | .list q => .rd .items fun (m : List (S × S)) => .ret (.entries (m.filter fun e => q e.1))
  | .insert k v => insertItem k v fun b => .ret (.flag b)
  | .setValue k v => insertItem k v fun b => .rd .observers fun (l : List (S × List Nat)) => .ret (.told b
      (((lookup l k).getD [] ++ (lookup l []).getD []).map fun o => (o, k)))
  | .registerObserver o k => .rd .observers fun (l : List (S × List Nat)) =>
      .wr .observers (assign l k ((lookup l k).getD [] ++ [o])) (.rd .items fun (m : List (S × S)) =>
        if k = [] then .ret (.told false (m.map fun e => (o, e.1)))
        else if m.any fun e => rx k e.1 then .ret (.told false [(o, k)])
        else .ret (.told false []))
  | .unregisterObserver o => .rd .observers fun (l : List (S × List Nat)) =>
      if l.any fun e => e.2.contains o then
        .wr .observers (l.map fun e => (e.1, e.2.filter (· ≠ o))) (.ret (.told false []))
      else .ret (.told false [])

end Verif.Registry.Conf
